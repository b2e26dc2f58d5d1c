import Verif.Lemmas.Feathers

/-!
# C129: data saved to Feather files are loaded back
-/

namespace Larch.Props

open Larch.Frames Larch.Feathers

variable {K : Type} [DecidableEq K] [Zero K] [One K]

/-- A frame of the cases: a row for each of `ids`, in that order, with a value per column. -/
def OfCases {C : Type} (ids : List Int) (f : Tab C Int K) : Prop := f.rows.map Prod.fst = ids ∧ Width f.cols.length (f.rows.map Prod.snd)

/-- Dense data: a row for each case and alternative, alternatives within cases. -/
def Dense (ids codes : List Int) (f : Tab String (Int × Int) K) : Prop :=
  f.rows.map Prod.fst = product ids codes ∧ Width f.cols.length (f.rows.map Prod.snd)

/-- Sparse data: rows for some of the pairs of case and alternative but not for all, in increasing order, every case having one. -/
structure SparseRows (ids codes : List Int) (f : Tab String (Int × Int) K) : Prop where
  sorted : (f.rows.map Prod.fst).Pairwise (fun a b => a.1 < b.1 ∨ a.1 = b.1 ∧ a.2 < b.2)
  case : ∀ c, c ∈ ids ↔ ∃ r ∈ f.rows, r.1.1 = c
  alt : ∀ r ∈ f.rows, r.1.2 ∈ codes
  gap : ∃ c ∈ ids, ∃ a ∈ codes, ∀ r ∈ f.rows, r.1 ≠ (c, a)

/-- Data whose frames belong to the same cases and alternatives. -/
structure Sound (d : Data K) (ids : List Int) : Prop where
  cases : ids.Pairwise (· < ·)
  codes : d.altCodes.Pairwise (· < ·)
  names : ∀ n, d.altNames = some n → n.length = d.altCodes.length
  co : ∀ f, d.co = some f → OfCases ids f
  ca : ∀ f, d.ca = some f → Dense ids d.altCodes f ∧ d.altCodes ≠ []
  ce : ∀ f, d.ce = some f → SparseRows ids d.altCodes f ∧ d.ca = none ∧ d.av ≠ none
  ch : ∀ f, d.ch = some f → OfCases ids f ∧ f.cols = d.altCodes
  av : ∀ f, d.av = some f → OfCases ids f ∧ f.cols.length = d.altCodes.length
  wt : ∀ f, d.wt = some f → OfCases ids f ∧ f.cols.length = 1
  some : d.co ≠ none ∨ d.ca ≠ none ∨ d.ce ≠ none ∨ d.ch ≠ none ∨ d.av ≠ none ∨ d.wt ≠ none

/-- Frames have columns, and sparse data have rows for every alternative. -/
structure Loadable (d : Data K) : Prop where
  norm : d.norm = 1
  co : ∀ f, d.co = some f → f.cols ≠ []
  ca : ∀ f, d.ca = some f → f.cols ≠ []
  ce : ∀ f, d.ce = some f → ∀ a ∈ d.altCodes, ∃ r ∈ f.rows, r.1.2 = a
  tables : d.ch ≠ none ∨ d.av ≠ none → d.altCodes ≠ []

/-- No file of a component that the data lack. -/
structure NoOthers (d : Data K) (fs : Files K) : Prop where
  co : d.co = none → fs.co = none
  ca : d.ca = none → fs.ca = none
  ce : d.ce = none → fs.ce = none
  ch : d.ch = none → fs.ch = none
  av : d.av = none → fs.av = none
  wt : d.wt = none → fs.wt = none

omit [DecidableEq K] [One K] [Zero K] in
theorem fe_segOut {C : Type} (s : Int × Int) (ids : List Int) (f : Tab C Int K) (h : OfCases ids f) (hc : f.cols ≠ []) :
    segIn ids (some (segOut s f)) = .ok (some f) := by
  have hv : f.cols.length ≠ 0 := by simpa using hc
  have hl : (f.rows.map Prod.snd).length = ids.length := by rw [← h.1]; simp
  have hr : readArr (segOut s f) = .ok (f.rows.map Prod.snd) := by
    unfold segOut readArr
    split
    · rw [if_neg]
      · simp only [if_true]; rw [fe_readT _ hv _ h.2]
      · simp only [not_or, ne_eq, not_not]
        exact ⟨hv, by rw [fe_flatT_length _ _ h.2]; exact Nat.mul_mod_right _ _⟩
    · rw [if_neg]
      · simp only [Bool.false_eq_true, if_false]; rw [fe_readC _ hv _ h.2]
      · simp only [not_or, ne_eq, not_not]
        exact ⟨hv, by rw [fe_flatC_length _ _ h.2]; exact Nat.mul_mod_left _ _⟩
  have hcols : (segOut s f).cols = f.cols := by unfold segOut; split <;> rfl
  show ((readArr (segOut s f)).bind (label (segOut s f).cols ids)).map some = _
  rw [hr, hcols]
  show (label f.cols ids (f.rows.map Prod.snd)).map some = _
  unfold label
  rw [if_pos hl, ← h.1, fe_zip_map]
  rfl

omit [DecidableEq K] [One K] [Zero K] in
theorem fe_segOutCa (s : Int × Int) (ids codes : List Int) (f : Tab String (Int × Int) K) (h : Dense ids codes f) (hc : f.cols ≠ []) :
    segIn (product ids codes) (some (segOutCa s ids.length codes.length f)) = .ok (some f) := by
  have hv : f.cols.length ≠ 0 := by simpa using hc
  have hl : (f.rows.map Prod.snd).length = (product ids codes).length := by rw [← h.1]; simp
  have hn : (f.rows.map Prod.snd).length = ids.length * codes.length := by rw [hl, fe_product, List.length_product]
  have hr : readArr (segOutCa s ids.length codes.length f) = .ok (f.rows.map Prod.snd) := by
    unfold segOutCa readArr
    split
    · rename_i hf
      have := fe_flatT3 ids.length codes.length f.cols.length _ hn (fe_contig3 hf hv)
      rw [if_neg]
      · simp only [if_true]; rw [this, fe_readT _ hv _ h.2]
      · simp only [not_or, ne_eq, not_not]
        exact ⟨hv, by rw [this, fe_flatT_length _ _ h.2]; exact Nat.mul_mod_right _ _⟩
    · rw [if_neg]
      · simp only [Bool.false_eq_true, if_false]; rw [fe_readC _ hv _ h.2]
      · simp only [not_or, ne_eq, not_not]
        exact ⟨hv, by rw [fe_flatC_length _ _ h.2]; exact Nat.mul_mod_left _ _⟩
  have hcols : (segOutCa s ids.length codes.length f).cols = f.cols := by unfold segOutCa; split <;> rfl
  show ((readArr _).bind (label (segOutCa s ids.length codes.length f).cols (product ids codes))).map some = _
  rw [hr, hcols]
  show (label f.cols (product ids codes) (f.rows.map Prod.snd)).map some = _
  unfold label
  rw [if_pos hl, ← h.1, fe_zip_map]
  rfl

omit [DecidableEq K] [One K] [Zero K] in
theorem fe_lev0_ca {ids codes : List Int} {f : Tab String (Int × Int) K} (hi : ids.Pairwise (· < ·)) (h : Dense ids codes f) (hc : codes ≠ []) :
    (ownMF f).lev0 = ids := by
  show levels (f.rows.map (fun r => r.1.1)) = ids
  refine fe_levels_eq hi (fun x => ?_)
  have e : f.rows.map (fun r => r.1.1) = (product ids codes).map Prod.fst := by rw [← h.1, List.map_map]; rfl
  rw [e, fe_product]
  constructor
  · intro hx
    obtain ⟨a, ha⟩ := List.exists_mem_of_ne_nil _ hc
    exact List.mem_map.mpr ⟨(x, a), List.mem_product.mpr ⟨hx, ha⟩, rfl⟩
  · intro hx
    obtain ⟨y, hy, rfl⟩ := List.mem_map.mp hx
    exact (List.mem_product.mp hy).1

omit [DecidableEq K] [One K] [Zero K] in
theorem fe_lev0_ce {ids codes : List Int} {f : Tab String (Int × Int) K} (hi : ids.Pairwise (· < ·)) (h : SparseRows ids codes f) :
    (ownMF f).lev0 = ids := by
  show levels (f.rows.map (fun r => r.1.1)) = ids
  refine fe_levels_eq hi (fun x => ?_)
  rw [h.case x, List.mem_map]

omit [DecidableEq K] [One K] [Zero K] in
theorem fe_ceCases {ids codes : List Int} {f : Tab String (Int × Int) K} (hi : ids.Pairwise (· < ·)) (h : SparseRows ids codes f) :
    ceCases (ownMF f) = ids.length := by
  refine ceCases_eq (fe_levels_pairwise _) (fun r hr => ?_) hi h.case
  show r.1.1 ∈ levels _
  rw [fe_mem_levels]
  exact List.mem_map_of_mem (f := fun r : (Int × Int) × List K => r.1.1) hr

omit [DecidableEq K] [One K] [Zero K] in
/-- The case index of sound data. -/
theorem fe_caseIndex {d : Data K} {ids : List Int} (h : Sound d ids) : caseIndex (toDF d) = ids := by
  unfold caseIndex toDF
  cases hco : d.co with
  | some f => exact (h.co f hco).1
  | none =>
  cases hch : d.ch with
  | some f => exact (h.ch f hch).1.1
  | none =>
  cases hwt : d.wt with
  | some f => exact (h.wt f hwt).1.1
  | none =>
  cases hav : d.av with
  | some f => exact (h.av f hav).1.1
  | none =>
  cases hca : d.ca with
  | some f =>
    simp only [Option.map_none, Option.map_some]
    rw [fe_caseindex_own f, fe_lev0_ca h.cases (h.ca f hca).1 (h.ca f hca).2]
  | none =>
  cases hce : d.ce with
  | some f =>
    simp only [Option.map_none, Option.map_some]
    rw [fe_caseindex_own f, fe_lev0_ce h.cases (h.ce f hce).1]
  | none => have := h.some; simp_all

omit [DecidableEq K] [One K] [Zero K] in
/-- The number of cases of sound data, also before the frames of tables are attached. -/
theorem fe_nCases {d e : Data K} {ids : List Int} (h : Sound d ids) (hcodes : e.altCodes = d.altCodes)
    (h1 : e.co = d.co) (h2 : e.ca = d.ca) (h3 : e.ce = d.ce) (hch : e.ch = d.ch ∨ e.ch = none) (hwt : e.wt = d.wt ∨ e.wt = none)
    (hav : e.av = d.av ∨ e.av = none) (hs : e.co ≠ none ∨ e.ca ≠ none ∨ e.ce ≠ none ∨ e.ch ≠ none ∨ e.av ≠ none ∨ e.wt ≠ none) :
    nCases (toDF e) = ids.length := by
  have hlen : ∀ {C : Type} (f : Tab C Int K), OfCases ids f → f.rows.length = ids.length := by
    intro C f hf; rw [← hf.1, List.length_map]
  unfold nCases toDF
  cases hco : d.co with
  | some f => rw [h1, hco]; exact hlen f (h.co f hco)
  | none =>
  rw [h1, hco]
  cases hca : d.ca with
  | some f =>
    rw [h2, hca, hcodes]
    obtain ⟨hf, hne⟩ := h.ca f hca
    show f.rows.length / d.altCodes.length = ids.length
    have : f.rows.length = ids.length * d.altCodes.length := by
      rw [← List.length_map (f := Prod.fst), hf.1, fe_product, List.length_product]
    rw [this, Nat.mul_div_cancel _ (List.length_pos_iff.mpr hne)]
  | none =>
  rw [h2, hca]
  cases hce : d.ce with
  | some f => rw [h3, hce]; exact fe_ceCases h.cases (h.ce f hce).1
  | none =>
  rw [h3, hce]
  simp only [Option.map_none]
  cases ech : e.ch with
  | some f =>
    rcases hch with hch | hch
    · exact hlen f (h.ch f (by rw [← hch, ech])).1
    · rw [hch] at ech; cases ech
  | none =>
  cases eav : e.av with
  | some f =>
    rcases hav with hav | hav
    · exact hlen f (h.av f (by rw [← hav, eav])).1
    · rw [hav] at eav; cases eav
  | none =>
  cases ewt : e.wt with
  | some f =>
    rcases hwt with hwt | hwt
    · exact hlen f (h.wt f (by rw [← hwt, ewt])).1
    · rw [hwt] at ewt; cases ewt
  | none => simp_all

omit [DecidableEq K] [One K] [Zero K] in
theorem fe_sortTab {C : Type} {ids : List Int} (hi : ids.Pairwise (· < ·)) (f : Tab C Int K) (h : OfCases ids f) : sortTab f = f := by
  unfold sortTab setSorted isMono
  rw [if_pos]
  exact decide_eq_true (by rw [h.1]; exact hi.imp (fun h => le_of_lt h))

omit [DecidableEq K] [One K] [Zero K] in
theorem fe_isMonoLex_ce {ids codes : List Int} {f : Tab String (Int × Int) K} (h : SparseRows ids codes f) : isMonoLex (f.rows.map Prod.fst) = true := by
  unfold isMonoLex
  refine decide_eq_true (h.sorted.imp (fun {a b} hab => (lexLe_iff a b).mpr ?_))
  rcases hab with hab | hab
  · exact Or.inl hab
  · exact Or.inr ⟨hab.1, le_of_lt hab.2⟩

omit [DecidableEq K] [One K] [Zero K] in
theorem fe_isMonoLex_ca {ids codes : List Int} {f : Tab String (Int × Int) K} (hi : ids.Pairwise (· < ·)) (hc : codes.Pairwise (· < ·))
    (h : Dense ids codes f) : isMonoLex (f.rows.map Prod.fst) = true := by
  unfold isMonoLex
  rw [h.1, fe_product]
  exact decide_eq_true (product_sorted hi hc)

omit [DecidableEq K] [One K] [Zero K] in
theorem fe_isIdce {ids codes : List Int} {f : Tab String (Int × Int) K} (hi : ids.Pairwise (· < ·)) (hc : codes.Pairwise (· < ·))
    (h : SparseRows ids codes f) (hall : ∀ a ∈ codes, ∃ r ∈ f.rows, r.1.2 = a) : isIdce (ownMF f) = true := by
  have l0 := fe_lev0_ce hi h
  have l1 : (ownMF f).lev1 = codes := by
    show levels (f.rows.map (fun r => r.1.2)) = codes
    refine fe_levels_eq hc (fun x => ?_)
    rw [List.mem_map]
    exact ⟨fun hx => hall x hx, fun ⟨r, hr, he⟩ => he ▸ h.alt r hr⟩
  by_contra hne
  have hf : isIdce (ownMF f) = false := by simpa using hne
  have hnd : ((ownMF f).rows.map Prod.fst).Nodup := h.sorted.imp (fun {a b} hab => by
    rintro rfl
    omega)
  have := full_labels (f := ownMF f) (by rw [l0]; exact hi) (by rw [l1]; exact hc)
    (fun r hr => by rw [l0, l1]; exact ⟨(h.case _).mpr ⟨r, hr, rfl⟩, h.alt r hr⟩) hnd hf
  rw [l0, l1] at this
  obtain ⟨c, hcm, a, ham, hgap⟩ := h.gap
  have hm : (c, a) ∈ (ownMF f).rows.map Prod.fst := by rw [this]; exact List.mem_product.mpr ⟨hcm, ham⟩
  obtain ⟨r, hr, he⟩ := List.mem_map.mp hm
  exact hgap r hr he

omit [DecidableEq K] in
/-- The constructor gives back sound data. -/
theorem fe_construct {d : Data K} {ids : List Int} (h : Sound d ids) (hl : Loadable d) :
    construct d.altCodes d.altNames ⟨d.co, d.ca, d.ce, d.ch, d.av, d.wt⟩ = .ok d := by
  have hlen : ∀ {C : Type} (f : Tab C Int K), OfCases ids f → f.rows.length = ids.length := by
    intro C f hf; rw [← hf.1, List.length_map]
  have hp : place (⟨d.co, d.ca, d.ce, d.ch, d.av, d.wt⟩ : Given K) = (d.ca, d.ce) := by
    unfold place
    cases hca : d.ca with
    | some f =>
      cases hce : d.ce with
      | some g => have := (h.ce g hce).2.1; rw [hca] at this; cases this
      | none => simp only; rw [if_pos (fe_isMonoLex_ca h.cases h.codes (h.ca f hca).1)]
    | none =>
      cases hce : d.ce with
      | none => rfl
      | some f =>
        simp only
        rw [if_pos (fe_isIdce h.cases h.codes (h.ce f hce).1 (hl.ce f hce))]
        unfold sortCeTab
        rw [if_pos (fe_isMonoLex_ce (h.ce f hce).1)]
  have hlc : levels d.altCodes = d.altCodes := fe_levels_eq h.codes (fun _ => Iff.rfl)
  have hco : d.co.map sortTab = d.co := by
    cases hco : d.co with
    | none => rfl
    | some f => rw [Option.map_some, fe_sortTab h.cases f (h.co f hco)]
  have hch : d.ch.map (fun f => sortTab (fillCh d.altCodes f)) = d.ch := by
    cases hch : d.ch with
    | none => rfl
    | some f =>
      obtain ⟨h1, h2⟩ := h.ch f hch
      have : fillCh d.altCodes f = f := by
        unfold fillCh
        rw [if_neg]
        rw [h2]; omega
      rw [Option.map_some, this, fe_sortTab h.cases f h1]
  have hne : ∀ {β : Type} {o : Option β} {x : β}, o = some x → o ≠ none := by intro β o x h; rw [h]; exact Option.some_ne_none x
  have c1 : (!(d.ca.all (fun _ => consistent d.altCodes (levels d.altCodes)) &&
      d.ce.all (fun f => consistent d.altCodes (levels (f.rows.map (fun r => r.1.2)))))) = false := by
    rw [Bool.not_eq_eq_eq_not, Bool.not_false, Bool.and_eq_true]
    constructor
    · cases d.ca with
      | none => rfl
      | some f => show consistent _ _ = true; rw [hlc]; unfold consistent; simp
    · cases hce : d.ce with
      | none => rfl
      | some f =>
        show consistent _ _ = true
        have : levels (f.rows.map (fun r => r.1.2)) = d.altCodes := by
          refine fe_levels_eq h.codes (fun x => ?_)
          rw [List.mem_map]
          exact ⟨fun hx => hl.ce f hce x hx, fun ⟨r, hr, he⟩ => he ▸ (h.ce f hce).1.alt r hr⟩
        rw [this]; unfold consistent; simp
  have f1 : fitsTab (⟨d.altCodes, d.altNames, 1, d.co, d.ca, d.ce, d.ch, none, none⟩ : Data K) d.altCodes.length d.ch = true := by
    cases hch' : d.ch with
    | none => rfl
    | some f =>
      show (f.rows.length == _ && _) = true
      rw [Bool.and_eq_true, beq_iff_eq, beq_iff_eq, (h.ch f hch').2, hlen f (h.ch f hch').1]
      refine ⟨Eq.symm ?_, rfl⟩
      exact fe_nCases h rfl rfl rfl rfl (Or.inl hch'.symm) (Or.inr rfl) (Or.inr rfl) (Or.inr (Or.inr (Or.inr (Or.inl (Option.some_ne_none f)))))
  have f2 : fitsTab (⟨d.altCodes, d.altNames, 1, d.co, d.ca, d.ce, d.ch, none, d.wt⟩ : Data K) 1 d.wt = true := by
    cases hwt' : d.wt with
    | none => rfl
    | some f =>
      show (f.rows.length == _ && _) = true
      rw [Bool.and_eq_true, beq_iff_eq, beq_iff_eq, (h.wt f hwt').2, hlen f (h.wt f hwt').1]
      refine ⟨Eq.symm ?_, rfl⟩
      exact fe_nCases h rfl rfl rfl rfl (Or.inl rfl) (Or.inl hwt'.symm) (Or.inr rfl)
        (Or.inr (Or.inr (Or.inr (Or.inr (Or.inr (Option.some_ne_none f))))))
  have f3 : fitsTab (⟨d.altCodes, d.altNames, 1, d.co, d.ca, d.ce, d.ch, d.av, d.wt⟩ : Data K) d.altCodes.length d.av = true := by
    cases hav' : d.av with
    | none => rfl
    | some f =>
      show (f.rows.length == _ && _) = true
      rw [Bool.and_eq_true, beq_iff_eq, beq_iff_eq, (h.av f hav').2, hlen f (h.av f hav').1]
      refine ⟨Eq.symm ?_, rfl⟩
      exact fe_nCases h rfl rfl rfl rfl (Or.inl rfl) (Or.inl rfl) (Or.inl hav'.symm)
        (Or.inr (Or.inr (Or.inr (Or.inr (Or.inl (Option.some_ne_none f))))))
  have f0 : d.ch.all (fun f => consistent d.altCodes f.cols) = true := by
    cases hch' : d.ch with
    | none => rfl
    | some f => show consistent _ _ = true; rw [(h.ch f hch').2]; unfold consistent; simp
  have f4 : avOf (⟨d.altCodes, d.altNames, 1, d.co, d.ca, d.ce, d.ch, none, d.wt⟩ : Data K) d.av = some d.av := by
    unfold avOf
    cases hav' : d.av with
    | some f => simp only; rw [fe_sortTab h.cases f (h.av f hav').1]
    | none =>
      cases hce : d.ce with
      | none => rfl
      | some f => exact absurd hav' (h.ce f hce).2.2
  unfold construct
  simp only [hp, hco, hch, c1, f0, f1, f2, f3, f4, Bool.and_true, Bool.not_true, Bool.false_eq_true, if_false]
  congr 1
  have := hl.norm
  cases d
  simp_all

/-- Data saved to files with a fresh base name, or one whose other files do not count, and loaded from them, are the data saved. -/
theorem C129_round_trip (lay : Layout) (d : Data K) (ids : List Int) (fs : Files K) (h : Sound d ids) (hl : Loadable d) (hf : NoOthers d fs) :
    ∃ fs', save lay d fs = some fs' ∧ load fs' = .ok d := by
  have hm : metaOut d = some ⟨d.altCodes, d.altNames, ids, none⟩ := by
    unfold metaOut
    rw [if_pos, if_pos hl.norm, fe_caseIndex h]
    cases hn : d.altNames with
    | none => rfl
    | some n => simpa using h.names n hn
  have hn : nCases (toDF d) = ids.length := fe_nCases h rfl rfl rfl rfl (Or.inl rfl) (Or.inl rfl) (Or.inl rfl) h.some
  have seg : ∀ {C : Type} (s : Int × Int) (o : Option (Tab C Int K)) (o' : Option (SegFile C K)), (∀ f, o = some f → OfCases ids f ∧ f.cols ≠ []) →
      (o = none → o' = none) → segIn ids ((o.map (segOut s)).or o') = .ok o := by
    intro C s o o' h1 h2
    cases ho : o with
    | none => rw [h2 ho]; rfl
    | some f => exact fe_segOut s ids f (h1 f ho).1 (h1 f ho).2
  have codes_ne : ∀ {l : List Int}, l.length = d.altCodes.length → d.altCodes ≠ [] → l ≠ [] := by
    intro l e hne hl
    rw [hl] at e
    exact hne (List.length_eq_zero_iff.mp e.symm)
  have hce : d.ce.or fs.ce = d.ce := by
    cases hc : d.ce with
    | none => rw [hf.ce hc]; rfl
    | some f => rfl
  have hca : segIn (product ids d.altCodes) ((d.ca.map (segOutCa lay.ca (nCases (toDF d)) d.altCodes.length)).or fs.ca) = .ok d.ca := by
    cases hc : d.ca with
    | none => rw [hf.ca hc]; rfl
    | some f => rw [hn]; exact fe_segOutCa lay.ca ids d.altCodes f (h.ca f hc).1 (hl.ca f hc)
  refine ⟨_, by unfold save; rw [hm]; rfl, ?_⟩
  show ((readAll _ _).bind _) = _
  have hr : readAll (⟨d.altCodes, d.altNames, ids, none⟩ : Meta K) ⟨some ⟨d.altCodes, d.altNames, ids, none⟩, (d.co.map (segOut lay.co)).or fs.co,
      (d.ca.map (segOutCa lay.ca (nCases (toDF d)) d.altCodes.length)).or fs.ca, d.ce.or fs.ce, (d.ch.map (segOut lay.ch)).or fs.ch,
      (d.av.map (segOut lay.av)).or fs.av, (d.wt.map (segOut lay.wt)).or fs.wt⟩ = .ok ⟨d.co, d.ca, d.ce, d.ch, d.av, d.wt⟩ := by
    unfold readAll
    simp only
    rw [hca, hce, seg lay.co d.co fs.co (fun f e => ⟨h.co f e, hl.co f e⟩) hf.co,
      seg lay.ch d.ch fs.ch (fun f e => ⟨(h.ch f e).1, by
        rw [(h.ch f e).2]; exact hl.tables (Or.inl (by rw [e]; exact Option.some_ne_none f))⟩) hf.ch,
      seg lay.av d.av fs.av (fun f e => ⟨(h.av f e).1, codes_ne (h.av f e).2 (hl.tables (Or.inr (by rw [e]; exact Option.some_ne_none f)))⟩) hf.av,
      seg lay.wt d.wt fs.wt (fun f e => ⟨(h.wt f e).1, by
        have := (h.wt f e).2
        intro h0; rw [h0] at this; cases this⟩) hf.wt]
    rfl
  rw [hr]
  show (construct d.altCodes d.altNames ⟨d.co, d.ca, d.ce, d.ch, d.av, d.wt⟩).map (fun e => { e with norm := 1 }) = _
  rw [fe_construct h hl]
  show Except.ok { d with norm := 1 } = .ok d
  rw [← hl.norm]

/-- **C129 fails.** Data with a weight normalization other than 1 (as `autoscale_weights` leaves it) cannot be loaded back. -/
theorem C129_fails_normalized (lay : Layout) (d : Data K) (fs fs' : Files K) (hn : d.norm ≠ 1) (hs : save lay d fs = some fs') :
    load fs' = .error .typeError := by
  unfold save metaOut at hs
  split at hs
  · cases hs; simp [load, normIn, hn, Except.bind]
  · cases hs

theorem fe_load_ok {fs : Files K} {e : Data K} (h : load fs = .ok e) :
    ∃ m g e', fs.head = some m ∧ readAll m fs = .ok g ∧ construct m.altCodes m.altNames g = .ok e' := by
  unfold load at h
  cases hm : fs.head with
  | none => rw [hm] at h; cases h
  | some m =>
    rw [hm] at h
    simp only at h
    cases hn : normIn m with
    | error x => rw [hn] at h; cases h
    | ok w =>
      rw [hn] at h
      cases hr : readAll m fs with
      | error x => rw [hr] at h; cases h
      | ok g =>
        rw [hr] at h
        cases hc : construct m.altCodes m.altNames g with
        | error x => simp [Except.bind, hc, Except.map] at h
        | ok e' => exact ⟨m, g, e', rfl, hr, hc⟩

omit [DecidableEq K] [Zero K] [One K] in
theorem fe_readAll_ok {m : Meta K} {fs : Files K} {g : Given K} (h : readAll m fs = .ok g) :
    segIn m.caseindex fs.co = .ok g.co ∧ segIn (product m.caseindex m.altCodes) fs.ca = .ok g.ca ∧ g.ce = fs.ce ∧
    segIn m.caseindex fs.ch = .ok g.ch ∧ segIn m.caseindex fs.av = .ok g.av ∧ segIn m.caseindex fs.wt = .ok g.wt := by
  unfold readAll at h
  cases h1 : segIn m.caseindex fs.co with
  | error x => rw [h1] at h; cases h
  | ok co =>
  cases h2 : segIn (product m.caseindex m.altCodes) fs.ca with
  | error x => rw [h1, h2] at h; cases h
  | ok ca =>
  cases h3 : segIn m.caseindex fs.ch with
  | error x => rw [h1, h2, h3] at h; cases h
  | ok ch =>
  cases h4 : segIn m.caseindex fs.av with
  | error x => rw [h1, h2, h3, h4] at h; cases h
  | ok av =>
  cases h5 : segIn m.caseindex fs.wt with
  | error x => rw [h1, h2, h3, h4, h5] at h; cases h
  | ok wt =>
    rw [h1, h2, h3, h4, h5] at h
    cases h
    exact ⟨rfl, rfl, rfl, rfl, rfl, rfl⟩

theorem fe_save_parts {lay : Layout} {d : Data K} {fs fs' : Files K} (hs : save lay d fs = some fs') :
    (∃ m, fs'.head = some m ∧ m.altCodes = d.altCodes) ∧ fs'.ce = d.ce.or fs.ce ∧ fs'.co = (d.co.map (segOut lay.co)).or fs.co ∧
    fs'.ch = (d.ch.map (segOut lay.ch)).or fs.ch ∧ fs'.wt = (d.wt.map (segOut lay.wt)).or fs.wt := by
  unfold save metaOut at hs
  split at hs
  · cases hs; exact ⟨⟨_, rfl, rfl⟩, rfl, rfl, rfl, rfl⟩
  · cases hs

theorem fe_not_ok {fs : Files K} (h : ∀ e, load fs ≠ .ok e) : ∃ x, load fs = .error x := by
  cases hl : load fs with
  | ok e => exact absurd hl (h e)
  | error x => exact ⟨x, rfl⟩

omit [DecidableEq K] in
theorem fe_construct_ok {codes : List Int} {names : Option (List String)} {g : Given K} {e : Data K} (h : construct codes names g = .ok e) :
    (∀ f, g.ce = some f → codes = levels (f.rows.map (fun r => r.1.2))) ∧ (∀ f, g.ch = some f → codes = (fillCh codes f).cols) := by
  unfold construct at h
  simp only at h
  split at h
  · cases h
  rename_i h1
  split at h
  · cases h
  rename_i h2
  simp only [Bool.not_eq_true', Bool.not_eq_false, Bool.and_eq_true] at h1 h2
  constructor
  · intro f hf
    have := h1.2
    rw [hf] at this
    simpa [consistent] using this
  · intro f hf
    have := h2.1
    rw [hf] at this
    simpa [consistent, sortTab] using this

/-- **C129 fails.** Sparse data in which an alternative has no row in any case cannot be loaded back. -/
theorem C129_fails_unused_alternative (lay : Layout) (d : Data K) (fs fs' : Files K) (f : Tab String (Int × Int) K) (hf : d.ce = some f) (a : Int)
    (ha : a ∈ d.altCodes) (hno : ∀ r ∈ f.rows, r.1.2 ≠ a) (hs : save lay d fs = some fs') : ∃ x, load fs' = .error x := by
  obtain ⟨⟨m, hm, hc⟩, hce, -⟩ := fe_save_parts hs
  apply fe_not_ok
  intro e he
  obtain ⟨m', g, e', hm', hr, hk⟩ := fe_load_ok he
  rw [hm] at hm'; cases hm'
  have h1 := (fe_construct_ok hk).1 f (by rw [(fe_readAll_ok hr).2.2.1, hce, hf]; rfl)
  rw [hc] at h1
  rw [h1, fe_mem_levels] at ha
  obtain ⟨r, hr, e⟩ := List.mem_map.mp ha
  exact hno r hr e

/-- **C129 fails.** Choices that have been extended to nests (`set_data_ch_wide`) cannot be loaded back. -/
theorem C129_fails_wide_choices (lay : Layout) (d : Data K) (fs fs' : Files K) (f : Tab Int Int K) (hf : d.ch = some f)
    (hw : d.altCodes.length < f.cols.length) (hs : save lay d fs = some fs') : ∃ x, load fs' = .error x := by
  obtain ⟨⟨m, hm, hc⟩, -, -, hch, -⟩ := fe_save_parts hs
  apply fe_not_ok
  intro e he
  obtain ⟨m', g, e', hm', hr, hk⟩ := fe_load_ok he
  rw [hm] at hm'; cases hm'
  have h4 := (fe_readAll_ok hr).2.2.2.1
  rw [hch, hf] at h4
  obtain ⟨f', hg, hcols⟩ : ∃ f', g.ch = some f' ∧ f'.cols = f.cols := by
    have hcols : (segOut lay.ch f).cols = f.cols := by unfold segOut; split <;> rfl
    change ((readArr (segOut lay.ch f)).bind (label (segOut lay.ch f).cols m.caseindex)).map some = _ at h4
    cases hr : readArr (segOut lay.ch f) with
    | error x => rw [hr] at h4; cases h4
    | ok arr =>
      rw [hr] at h4
      change (label (segOut lay.ch f).cols m.caseindex arr).map some = _ at h4
      unfold label at h4
      split at h4
      · injection h4 with h4
        exact ⟨_, h4.symm, hcols⟩
      · cases h4
  have h1 := (fe_construct_ok hk).2 f' hg
  have : fillCh m.altCodes f' = f' := by
    unfold fillCh
    rw [if_neg]
    rw [hcols, hc]; omega
  rw [this, hcols, hc] at h1
  rw [h1] at hw
  exact absurd hw (lt_irrefl _)

/-- **C129 fails.** A frame of the cases without columns cannot be loaded back. -/
theorem C129_fails_no_columns (lay : Layout) (d : Data K) (fs fs' : Files K) (f : Tab String Int K) (hf : d.co = some f) (hc : f.cols = [])
    (hs : save lay d fs = some fs') : ∃ x, load fs' = .error x := by
  obtain ⟨⟨m, hm, -⟩, -, hco, -⟩ := fe_save_parts hs
  apply fe_not_ok
  intro e he
  obtain ⟨m', g, e', hm', hr, hk⟩ := fe_load_ok he
  have h1 := (fe_readAll_ok hr).1
  rw [hco, hf] at h1
  have hcols : (segOut lay.co f).cols = [] := by unfold segOut; split <;> exact hc
  change ((readArr (segOut lay.co f)).bind (label (segOut lay.co f).cols m'.caseindex)).map some = _ at h1
  have : readArr (segOut lay.co f) = .error .valueError := by
    unfold readArr
    rw [if_pos (Or.inl (by rw [hcols]; rfl))]
  rw [this] at h1
  cases h1

/-! ## Files left by an earlier save -/

def anyLayout : Layout := ⟨(1, 2), (2, 1), (1, 1), (2, 1), (1, 1)⟩

def noFiles : Files Int := ⟨none, none, none, none, none, none, none⟩

/-- Two cases, two alternatives. -/
def denseData : Data Int where
  altCodes := [1, 2]
  altNames := some ["car", "bus"]
  norm := 1
  co := some ⟨["inc"], [(10, [5]), (11, [6])]⟩
  ca := some ⟨["time", "cost"], [((10, 1), [1, 2]), ((10, 2), [3, 4]), ((11, 1), [5, 6]), ((11, 2), [7, 8])]⟩
  ce := none
  ch := some ⟨[1, 2], [(10, [1, 0]), (11, [0, 1])]⟩
  av := some ⟨[1, 2], [(10, [1, 1]), (11, [1, 1])]⟩
  wt := none

/-- The same cases, weighted, with sparse data. -/
def sparseData : Data Int where
  altCodes := [1, 2]
  altNames := none
  norm := 1
  co := none
  ca := none
  ce := some ⟨["time"], [((10, 1), [100]), ((11, 1), [200]), ((11, 2), [300])]⟩
  ch := none
  av := some ⟨[1, 2], [(10, [1, 0]), (11, [1, 1])]⟩
  wt := some ⟨["w"], [(10, [2]), (11, [3])]⟩

theorem denseData_sound : Sound denseData [10, 11] ∧ Loadable denseData := by
  refine ⟨⟨by decide, by decide, ?_, ?_, ?_, ?_, ?_, ?_, ?_, Or.inl (by simp [denseData])⟩, ⟨rfl, ?_, ?_, ?_, fun _ => by decide⟩⟩
  · intro n h; cases h; rfl
  · intro f h; cases h; exact ⟨rfl, by unfold Width; decide⟩
  · intro f h; cases h; exact ⟨⟨rfl, by unfold Width; decide⟩, by decide⟩
  · intro f h; cases h
  · intro f h; cases h; exact ⟨⟨rfl, by unfold Width; decide⟩, rfl⟩
  · intro f h; cases h; exact ⟨⟨rfl, by unfold Width; decide⟩, rfl⟩
  · intro f h; cases h
  · intro f h; cases h; decide
  · intro f h; cases h; decide
  · intro f h; cases h

theorem sparseData_sound : Sound sparseData [10, 11] ∧ Loadable sparseData := by
  refine ⟨⟨by decide, by decide, ?_, ?_, ?_, ?_, ?_, ?_, ?_, ?_⟩, ⟨rfl, ?_, ?_, ?_, fun _ => by decide⟩⟩
  · intro n h; cases h
  · intro f h; cases h
  · intro f h; cases h
  · intro f h
    cases h
    refine ⟨⟨by decide, fun c => ?_, by decide, ⟨10, by decide, 2, by decide, by decide⟩⟩, rfl, by simp [sparseData]⟩
    constructor
    · intro hc
      simp only [List.mem_cons, List.not_mem_nil, or_false] at hc
      rcases hc with rfl | rfl
      · exact ⟨((10, 1), [100]), by decide, rfl⟩
      · exact ⟨((11, 1), [200]), by decide, rfl⟩
    · rintro ⟨r, hr, rfl⟩
      simp only [List.mem_cons, List.not_mem_nil, or_false] at hr
      rcases hr with rfl | rfl | rfl <;> decide
  · intro f h; cases h
  · intro f h; cases h; exact ⟨⟨rfl, by unfold Width; decide⟩, rfl⟩
  · intro f h; cases h; exact ⟨⟨rfl, by unfold Width; decide⟩, rfl⟩
  · simp [sparseData]
  · intro f h; cases h
  · intro f h; cases h
  · intro f h; cases h; decide

example : ∃ fs, save anyLayout denseData noFiles = some fs ∧ load fs = .ok denseData :=
  C129_round_trip anyLayout denseData [10, 11] noFiles denseData_sound.1 denseData_sound.2 ⟨fun _ => rfl, fun _ => rfl, fun _ => rfl, fun _ => rfl, fun _ => rfl, fun _ => rfl⟩

example : ∃ fs, save anyLayout sparseData noFiles = some fs ∧ load fs = .ok sparseData :=
  C129_round_trip anyLayout sparseData [10, 11] noFiles sparseData_sound.1 sparseData_sound.2 ⟨fun _ => rfl, fun _ => rfl, fun _ => rfl, fun _ => rfl, fun _ => rfl, fun _ => rfl⟩

/-- **C129 fails.** If other data were saved under the same name before, files of components that the data now saved do not have are still there and are
loaded: dense data without weights come back as the sparse data of the earlier save, with its weights. -/
theorem C129_fails_stale : ∃ fs fs' e, save anyLayout sparseData noFiles = some fs ∧ save anyLayout denseData fs = some fs' ∧ load fs' = .ok e ∧
    denseData.wt = none ∧ e.wt = sparseData.wt ∧ denseData.ce = none ∧ e.ce = sparseData.ce ∧ e.ca = none := by
  refine ⟨_, _, _, rfl, rfl, rfl, rfl, rfl, rfl, rfl, rfl⟩

/-! ## Putting saved values into existing data -/

/-- The labels of the one frame with the values of the other. -/
def ValuesOf {C ι : Type} (old new res : Tab C ι K) : Prop :=
  res.cols = old.cols ∧ res.rows.map Prod.fst = old.rows.map Prod.fst ∧ res.rows.map Prod.snd = new.rows.map Prod.snd

/-- Frames of the same size. -/
def SameSize {C ι : Type} (f g : Tab C ι K) : Prop := f.rows.length = g.rows.length ∧ f.cols.length = g.cols.length

omit [DecidableEq K] [Zero K] [One K] in
theorem fe_inject2 {C : Type} (s : Int × Int) (f g : Tab C Int K) (h : SameSize f g) (hw : Width g.cols.length (g.rows.map Prod.snd)) :
    ∃ e, inject2 f (some (segOut s g)) = .ok e ∧ ValuesOf f g e := by
  have hlen : (segOut s g).flat.length = f.rows.length * f.cols.length := by
    unfold segOut
    rw [h.1, h.2]
    split
    · show (flatT _ _).length = _; rw [fe_flatT_length _ _ hw, List.length_map]; exact Nat.mul_comm _ _
    · show (flatC _).length = _; rw [fe_flatC_length _ _ hw, List.length_map]
  have hrows : (List.range f.rows.length).map (fun i => (List.range f.cols.length).filterMap (fun j =>
        if (segOut s g).t then (segOut s g).flat[j * f.rows.length + i]? else (segOut s g).flat[i * f.cols.length + j]?)) = g.rows.map Prod.snd := by
    have hl : f.rows.length = (g.rows.map Prod.snd).length := by rw [h.1, List.length_map]
    rw [h.2, hl]
    apply fe_rows_of_get _ _ hw
    intro i j hi hj
    unfold segOut
    split
    · exact fe_flatT_get _ _ hw i j hi hj
    · exact fe_flatC_get _ _ hw i j hj hi
  refine ⟨⟨f.cols, (f.rows.map Prod.fst).zip (g.rows.map Prod.snd)⟩, ?_, rfl, ?_, ?_⟩
  · unfold inject2
    simp only
    rw [if_pos hlen, hrows]
  · exact List.map_fst_zip (by rw [List.length_map, List.length_map, h.1])
  · exact List.map_snd_zip (by rw [List.length_map, List.length_map, h.1])

omit [DecidableEq K] [Zero K] [One K] in
theorem fe_inject3 (s : Int × Int) (n a : Nat) (f g : Tab String (Int × Int) K) (h : SameSize f g) (hn : g.rows.length = n * a)
    (hw : Width g.cols.length (g.rows.map Prod.snd)) : ∃ e, inject3 n a f (some (segOutCa s n a g)) = .ok e ∧ ValuesOf f g e := by
  have hl' : (g.rows.map Prod.snd).length = n * a := by rw [List.length_map, hn]
  have hlen : (segOutCa s n a g).flat.length = n * a * f.cols.length := by
    unfold segOutCa
    rw [h.2]
    split
    · show (flatT3 _ _ _ _).length = _
      by_cases hz : (g.rows.map Prod.snd).length = 0 ∨ g.cols.length = 0
      · have : flatT3 n a g.cols.length (g.rows.map Prod.snd) = [] := by
          rcases hz with hz | hz
          · rw [List.length_eq_zero_iff.mp hz]; unfold flatT3; simp
          · rw [hz]; rfl
        rw [this]
        rcases hz with hz | hz
        · rw [← hl', hz]; simp
        · rw [hz]; simp
      · push Not at hz
        exact (fe_flatT3_get n a g.cols.length _ hl' hw 0 0 (by omega) (by omega)).2
    · show (flatC _).length = _; rw [fe_flatC_length _ _ hw, hl']
  have hrows : (List.range f.rows.length).map (fun i => (List.range f.cols.length).filterMap (fun j =>
        if (segOutCa s n a g).t then (segOutCa s n a g).flat[(j * a + i % a) * n + i / a]? else (segOutCa s n a g).flat[i * f.cols.length + j]?)) =
        g.rows.map Prod.snd := by
    have hl : f.rows.length = (g.rows.map Prod.snd).length := by rw [h.1, List.length_map]
    rw [h.2, hl]
    apply fe_rows_of_get _ _ hw
    intro i j hi hj
    unfold segOutCa
    split
    · exact (fe_flatT3_get n a g.cols.length _ hl' hw i j hi hj).1
    · exact fe_flatC_get _ _ hw i j hj hi
  refine ⟨⟨f.cols, (f.rows.map Prod.fst).zip (g.rows.map Prod.snd)⟩, ?_, rfl, ?_, ?_⟩
  · unfold inject3
    simp only
    rw [if_pos hlen, hrows]
  · exact List.map_fst_zip (by rw [List.length_map, List.length_map, h.1])
  · exact List.map_snd_zip (by rw [List.length_map, List.length_map, h.1])

/-- What `inject_feathers` needs: every component of the present data was saved, with the same size; saved frames have a value per column. -/
structure Injectable (now d : Data K) : Prop where
  codes : now.altCodes = d.altCodes
  cases : nCases (toDF now) = nCases (toDF d)
  co : ∀ f, now.co = some f → ∃ g, d.co = some g ∧ SameSize f g ∧ Width g.cols.length (g.rows.map Prod.snd)
  ca : ∀ f, now.ca = some f → ∃ g, d.ca = some g ∧ SameSize f g ∧ Width g.cols.length (g.rows.map Prod.snd) ∧
    g.rows.length = nCases (toDF d) * d.altCodes.length
  ce : ∀ f, now.ce = some f → ∃ g, d.ce = some g ∧ SameSize f g
  ch : ∀ f, now.ch = some f → ∃ g, d.ch = some g ∧ SameSize f g ∧ Width g.cols.length (g.rows.map Prod.snd)
  av : ∀ f, now.av = some f → ∃ g, d.av = some g ∧ SameSize f g ∧ Width g.cols.length (g.rows.map Prod.snd)

/-- A component of the result: absent if it was, else the old labels with the saved values. -/
def Took {C ι : Type} (old new res : Option (Tab C ι K)) : Prop :=
  (old = none ∧ res = none) ∨ ∃ f g e, old = some f ∧ new = some g ∧ res = some e ∧ ValuesOf f g e

/-- Saved values are put in the place of the present ones, whatever the memory layout of the arrays that were saved, and labels are kept (data
without weights). -/
theorem C129_inject_partial (lay : Layout) (now d : Data K) (fs fs' : Files K) (h : Injectable now d) (hwt : now.wt = none)
    (hs : save lay d fs = some fs') :
    (inject now fs').2 = none ∧ Took now.co d.co (inject now fs').1.co ∧ Took now.ca d.ca (inject now fs').1.ca ∧
    Took now.ce d.ce (inject now fs').1.ce ∧ Took now.ch d.ch (inject now fs').1.ch ∧ Took now.av d.av (inject now fs').1.av ∧
    (inject now fs').1.altCodes = now.altCodes ∧ (inject now fs').1.norm = now.norm := by
  have hfs : fs'.co = (d.co.map (segOut lay.co)).or fs.co ∧
      fs'.ca = (d.ca.map (segOutCa lay.ca (nCases (toDF d)) d.altCodes.length)).or fs.ca ∧ fs'.ce = d.ce.or fs.ce ∧
      fs'.ch = (d.ch.map (segOut lay.ch)).or fs.ch ∧ fs'.av = (d.av.map (segOut lay.av)).or fs.av := by
    unfold save metaOut at hs
    split at hs
    · cases hs; exact ⟨rfl, rfl, rfl, rfl, rfl⟩
    · cases hs
  obtain ⟨eco, eca, ece, ech, eav⟩ := hfs
  have kco : ∀ f, now.co = some f → ∃ g e, d.co = some g ∧ inject2 f fs'.co = .ok e ∧ ValuesOf f g e := by
    intro f hf
    obtain ⟨g, hg, h1, h2⟩ := h.co f hf
    obtain ⟨e, he, hv⟩ := fe_inject2 lay.co f g h1 h2
    exact ⟨g, e, hg, by rw [eco, hg]; exact he, hv⟩
  have kch : ∀ f, now.ch = some f → ∃ g e, d.ch = some g ∧ inject2 f fs'.ch = .ok e ∧ ValuesOf f g e := by
    intro f hf
    obtain ⟨g, hg, h1, h2⟩ := h.ch f hf
    obtain ⟨e, he, hv⟩ := fe_inject2 lay.ch f g h1 h2
    exact ⟨g, e, hg, by rw [ech, hg]; exact he, hv⟩
  have kav : ∀ f, now.av = some f → ∃ g e, d.av = some g ∧ inject2 f fs'.av = .ok e ∧ ValuesOf f g e := by
    intro f hf
    obtain ⟨g, hg, h1, h2⟩ := h.av f hf
    obtain ⟨e, he, hv⟩ := fe_inject2 lay.av f g h1 h2
    exact ⟨g, e, hg, by rw [eav, hg]; exact he, hv⟩
  have kca : ∀ f, now.ca = some f → ∃ g e, d.ca = some g ∧ inject3 (nCases (toDF now)) now.altCodes.length f fs'.ca = .ok e ∧ ValuesOf f g e := by
    intro f hf
    obtain ⟨g, hg, h1, h2, h3⟩ := h.ca f hf
    obtain ⟨e, he, hv⟩ := fe_inject3 lay.ca _ _ f g h1 h3 h2
    exact ⟨g, e, hg, by rw [eca, hg, h.cases, h.codes]; exact he, hv⟩
  have kce : ∀ f, now.ce = some f → ∃ g e, d.ce = some g ∧ injectCe f fs'.ce = .ok e ∧ ValuesOf f g e := by
    intro f hf
    obtain ⟨g, hg, h1⟩ := h.ce f hf
    refine ⟨g, ⟨f.cols, (f.rows.map Prod.fst).zip (g.rows.map Prod.snd)⟩, hg, ?_, rfl, ?_, ?_⟩
    · rw [ece, hg]
      show (if _ then _ else _) = _
      rw [if_pos ⟨h1.1.symm, h1.2.symm⟩]
    · exact List.map_fst_zip (by rw [List.length_map, List.length_map, h1.1])
    · exact List.map_snd_zip (by rw [List.length_map, List.length_map, h1.1])
  obtain ⟨altCodes, altNames, norm, co, ca, ce, ch, av, wt⟩ := now
  simp only at hwt kco kch kav kca kce ⊢
  subst hwt
  unfold inject
  generalize hn : nCases (toDF (⟨altCodes, altNames, norm, co, ca, ce, ch, av, none⟩ : Data K)) = n at kca ⊢
  have sco : ∃ r, Took co d.co r ∧ ∀ (c : List Int) (nm : Option (List String)) (w : K) ca ce ch av wt,
      step Data.co (fun f => inject2 f fs'.co) (fun d f => { d with co := some f }) (⟨c, nm, w, co, ca, ce, ch, av, wt⟩, none) =
        (⟨c, nm, w, r, ca, ce, ch, av, wt⟩, none) := by
    cases co with
    | none => exact ⟨none, Or.inl ⟨rfl, rfl⟩, fun _ _ _ _ _ _ _ _ => rfl⟩
    | some f =>
      obtain ⟨g, e, hg, he, hv⟩ := kco f rfl
      exact ⟨some e, Or.inr ⟨f, g, e, rfl, hg, rfl, hv⟩, fun _ _ _ _ _ _ _ _ => by simp [step, he]⟩
  have sca : ∃ r, Took ca d.ca r ∧ ∀ (c : List Int) (nm : Option (List String)) (w : K) co ce ch av wt,
      step Data.ca (fun f => inject3 n altCodes.length f fs'.ca) (fun d f => { d with ca := some f }) (⟨c, nm, w, co, ca, ce, ch, av, wt⟩, none) =
        (⟨c, nm, w, co, r, ce, ch, av, wt⟩, none) := by
    cases ca with
    | none => exact ⟨none, Or.inl ⟨rfl, rfl⟩, fun _ _ _ _ _ _ _ _ => rfl⟩
    | some f =>
      obtain ⟨g, e, hg, he, hv⟩ := kca f rfl
      exact ⟨some e, Or.inr ⟨f, g, e, rfl, hg, rfl, hv⟩, fun _ _ _ _ _ _ _ _ => by simp [step, he]⟩
  have sce : ∃ r, Took ce d.ce r ∧ ∀ (c : List Int) (nm : Option (List String)) (w : K) co ca ch av wt,
      step Data.ce (fun f => injectCe f fs'.ce) (fun d f => { d with ce := some f }) (⟨c, nm, w, co, ca, ce, ch, av, wt⟩, none) =
        (⟨c, nm, w, co, ca, r, ch, av, wt⟩, none) := by
    cases ce with
    | none => exact ⟨none, Or.inl ⟨rfl, rfl⟩, fun _ _ _ _ _ _ _ _ => rfl⟩
    | some f =>
      obtain ⟨g, e, hg, he, hv⟩ := kce f rfl
      exact ⟨some e, Or.inr ⟨f, g, e, rfl, hg, rfl, hv⟩, fun _ _ _ _ _ _ _ _ => by simp [step, he]⟩
  have sav : ∃ r, Took av d.av r ∧ ∀ (c : List Int) (nm : Option (List String)) (w : K) co ca ce ch wt,
      step Data.av (fun f => inject2 f fs'.av) (fun d f => { d with av := some f }) (⟨c, nm, w, co, ca, ce, ch, av, wt⟩, none) =
        (⟨c, nm, w, co, ca, ce, ch, r, wt⟩, none) := by
    cases av with
    | none => exact ⟨none, Or.inl ⟨rfl, rfl⟩, fun _ _ _ _ _ _ _ _ => rfl⟩
    | some f =>
      obtain ⟨g, e, hg, he, hv⟩ := kav f rfl
      exact ⟨some e, Or.inr ⟨f, g, e, rfl, hg, rfl, hv⟩, fun _ _ _ _ _ _ _ _ => by simp [step, he]⟩
  have sch : ∃ r, Took ch d.ch r ∧ ∀ (c : List Int) (nm : Option (List String)) (w : K) co ca ce av wt,
      step Data.ch (fun f => inject2 f fs'.ch) (fun d f => { d with ch := some f }) (⟨c, nm, w, co, ca, ce, ch, av, wt⟩, none) =
        (⟨c, nm, w, co, ca, ce, r, av, wt⟩, none) := by
    cases ch with
    | none => exact ⟨none, Or.inl ⟨rfl, rfl⟩, fun _ _ _ _ _ _ _ _ => rfl⟩
    | some f =>
      obtain ⟨g, e, hg, he, hv⟩ := kch f rfl
      exact ⟨some e, Or.inr ⟨f, g, e, rfl, hg, rfl, hv⟩, fun _ _ _ _ _ _ _ _ => by simp [step, he]⟩
  obtain ⟨r1, t1, e1⟩ := sco
  obtain ⟨r2, t2, e2⟩ := sca
  obtain ⟨r3, t3, e3⟩ := sce
  obtain ⟨r4, t4, e4⟩ := sav
  obtain ⟨r5, t5, e5⟩ := sch
  simp only [e1, e2, e3, e4, e5]
  exact ⟨rfl, t1, t2, t3, t5, t4, rfl, rfl⟩

example : Injectable { denseData with ca := some ⟨["time", "cost"], [((10, 1), [0, 0]), ((10, 2), [0, 0]), ((11, 1), [0, 0]), ((11, 2), [0, 0])]⟩ }
    denseData := by
  refine ⟨rfl, rfl, ?_, ?_, ?_, ?_, ?_⟩
  · intro f h; cases h; exact ⟨_, rfl, ⟨rfl, rfl⟩, by unfold Width; decide⟩
  · intro f h; cases h; exact ⟨_, rfl, ⟨rfl, rfl⟩, by unfold Width; decide, rfl⟩
  · intro f h; cases h
  · intro f h; cases h; exact ⟨_, rfl, ⟨rfl, rfl⟩, by unfold Width; decide⟩
  · intro f h; cases h; exact ⟨_, rfl, ⟨rfl, rfl⟩, by unfold Width; decide⟩

omit [DecidableEq K] [Zero K] [One K] in
theorem fe_step_wt {β : Type} {get : Data K → Option β} {f : β → Except Err β} {put : Data K → β → Data K} (hput : ∀ d y, (put d y).wt = d.wt)
    (s : Data K × Option Err) : (step get f put s).1.wt = s.1.wt ∧ (s.2 ≠ none → (step get f put s).2 ≠ none) := by
  unfold step
  obtain ⟨d, e⟩ := s
  cases e with
  | some e => exact ⟨rfl, fun h => h⟩
  | none =>
    cases hg : get d with
    | none => exact ⟨rfl, fun h => h⟩
    | some x =>
      simp only
      cases f x with
      | ok y => exact ⟨hput d y, fun h => absurd rfl h⟩
      | error e => exact ⟨rfl, fun h => absurd rfl h⟩

/-- **C129 fails.** Weights are never put in: with weighted data of more than one case `inject_feathers` always raises an error, whatever the files. -/
theorem C129_fails_inject_weights (now : Data K) (fs : Files K) (f : Tab String Int K) (hf : now.wt = some f) (hn : f.rows.length ≠ 1) :
    (inject now fs).2 ≠ none := by
  unfold inject
  simp only
  generalize hs5 : step Data.ch _ _ _ = s5
  have hw : s5.1.wt = some f := by
    rw [← hs5, ← hf]
    refine (fe_step_wt ?_ _).1.trans ((fe_step_wt ?_ _).1.trans ((fe_step_wt ?_ _).1.trans ((fe_step_wt ?_ _).1.trans (fe_step_wt ?_ _).1)))
    all_goals exact fun _ _ => rfl
  obtain ⟨d5, e5⟩ := s5
  cases e5 with
  | some e => simp [step]
  | none =>
    change d5.wt = some f at hw
    have : ∀ o, ∃ e, injectWt f o = .error e := by
      intro o
      unfold injectWt
      cases o with
      | none => exact ⟨_, rfl⟩
      | some s => exact ⟨.valueError, by simp [hn]⟩
    obtain ⟨e, he⟩ := this fs.wt
    simp [step, hw, he]

/-- **C129 fails.** An error leaves the components before it overwritten and those after it as they were: sparse data of other values are put in before the
weights fail. -/
theorem C129_fails_inject_partly : ∃ fs d e, save anyLayout sparseData noFiles = some fs ∧
    inject { sparseData with ce := some ⟨["time"], [((10, 1), [0]), ((11, 1), [0]), ((11, 2), [0])]⟩,
                             wt := some ⟨["w"], [(10, [0]), (11, [0])]⟩ } fs = (d, some e) ∧
    d.ce = sparseData.ce ∧ d.wt = some ⟨["w"], [(10, [0]), (11, [0])]⟩ := by
  refine ⟨_, _, _, rfl, rfl, rfl, rfl⟩

end Larch.Props
