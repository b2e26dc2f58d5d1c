import Verif.Model.Store
import Verif.Props.ChoicesAv

/-!
# C137: a `DataFrames` saved in a file is loaded back
-/

namespace Larch.Props

open Larch.Frames Larch.Choices

theorem so_setSorted_idem {α : Type} (f : Co α) (h : (f.map Prod.fst).Pairwise (· ≤ ·)) : setSorted f = f := by
  unfold setSorted isMono
  rw [if_pos (by simpa using h)]

theorem so_sorted {α : Type} (f : Co α) : setSorted (setSorted f) = setSorted f := so_setSorted_idem _ (setSorted_sorted f)

theorem so_lexMono {α : Type} (l : List ((Int × Int) × α)) :
    isMonoLex ((l.insertionSort (fun a b => lexLe a.1 b.1 = true)).map Prod.fst) = true := by
  unfold isMonoLex
  rw [decide_eq_true_eq, List.pairwise_map]
  letI : Std.Total (fun a b : (Int × Int) × α => lexLe a.1 b.1 = true) := ⟨fun a b => by
    rw [lexLe_iff, lexLe_iff]; omega⟩
  letI : IsTrans ((Int × Int) × α) (fun a b : (Int × Int) × α => lexLe a.1 b.1 = true) := ⟨fun a b c h1 h2 => by
    rw [lexLe_iff] at *; omega⟩
  exact List.pairwise_insertionSort _ _

theorem so_setCe_mono {α : Type} (f : MF α) : isMonoLex ((setCe f).rows.map Prod.fst) = true := by
  unfold setCe
  split_ifs with h
  · exact h
  · exact so_lexMono _

theorem so_setCe_idem {α : Type} (f : MF α) : setCe (setCe f) = setCe f := by
  have key : ∀ g : MF α, isMonoLex (g.rows.map Prod.fst) = true → setCe g = g := fun g hg => by unfold setCe; rw [if_pos hg]
  exact key _ (so_setCe_mono f)

theorem so_firsts {α : Type} {l : List ((Int × Int) × α)} (h : isMonoLex (l.map Prod.fst) = true) :
    (l.map (fun r => r.1.1)).Pairwise (· ≤ ·) := by
  unfold isMonoLex at h
  rw [decide_eq_true_eq, List.pairwise_map] at h
  rw [List.pairwise_map]
  exact h.imp (fun {a b} h => by rw [lexLe_iff] at h; omega)

/-- What is true of the choices of any container. -/
structure ChFacts (x : Choices.Args) (k : Option (List Int)) (t : Table) : Prop where
  sorted : (t.rows.map Prod.fst).Pairwise (· ≤ ·)
  cols : ∀ c, k = some c → t.cols = c
  len : t.rows.length = Choices.nCases x t.cols.length t.rows.length

theorem so_addColumns_length (k : Option (List Int)) (cols : List Int) (rows : List (List Int)) : (addColumns k cols rows).2.length = rows.length := by
  unfold addColumns
  cases k with
  | none => rfl
  | some c => simp only []; split_ifs <;> simp

theorem so_setCh {x : Choices.Args} {k : Option (List Int)} {t t' : Table} (h : setCh x k t = some t') : ChFacts x k t' := by
  unfold setCh at h
  simp only [] at h
  split_ifs at h with hc
  cases h
  simp only [Bool.and_eq_true, decide_eq_true_eq] at hc
  have hl := so_addColumns_length k t.cols (t.rows.map Prod.snd)
  have hlen : (setSorted ((t.rows.map Prod.fst).zip (addColumns k t.cols (t.rows.map Prod.snd)).2)).length = t.rows.length := by
    rw [length_setSorted, List.length_zip, hl]; simp
  refine ⟨setSorted_sorted _, fun c hk => ?_, ?_⟩
  · subst hk
    simpa [consistent] using hc.1
  · show (setSorted _).length = Choices.nCases x _ (setSorted _).length
    rw [hlen]; exact hc.2

theorem so_setPairs {x : Choices.Args} {k : Option (List Int)} {cols : List Int} {rows : List ((Int × Int) × List Int)} {t' : Table}
    (h : setPairs x k cols rows = some t') : ChFacts x k t' := by
  unfold setPairs at h
  simp only [] at h
  split_ifs at h with hc hm
  all_goals
    cases h
    simp only [Bool.and_eq_true, decide_eq_true_eq] at hc
    have hl := so_addColumns_length k cols (rows.map Prod.snd)
    refine ⟨?_, fun c hk => (by subst hk; simpa [consistent] using hc.1), ?_⟩
  · show (List.map Prod.fst (List.map _ _)).Pairwise _
    rw [List.map_map]
    refine so_firsts (l := (rows.map Prod.fst).zip (addColumns k cols (rows.map Prod.snd)).2) ?_
    rw [List.map_fst_zip (by rw [hl]; simp)]
    exact hm
  · simp only [List.length_map, List.length_zip, hl, min_self]
    exact hc.2
  · show (List.map Prod.fst (List.map _ _)).Pairwise _
    rw [List.map_map]
    exact so_firsts (so_lexMono _)
  · simp only [List.length_map, List.length_insertionSort, List.length_zip, hl, min_self]
    exact hc.2

theorem so_finish {x : Choices.Args} {k : Option (List Int)} {st : Stage} {t : Table} (h : finish x k st = some (some t)) : ChFacts x k t := by
  unfold finish at h
  cases st with
  | nothing => simp at h
  | table u =>
    simp only [Option.map_eq_some_iff] at h
    obtain ⟨v, hv, he⟩ := h
    cases he; exact so_setCh hv
  | tall f =>
    simp only [Option.map_eq_some_iff, Option.bind_eq_some_iff] at h
    obtain ⟨v, ⟨u, _, hv⟩, he⟩ := h
    cases he; exact so_setCh hv
  | pairs c r =>
    simp only [] at h
    split_ifs at h
    · simp only [Option.map_eq_some_iff, Option.bind_eq_some_iff] at h
      obtain ⟨v, ⟨u, _, hv⟩, he⟩ := h
      cases he; exact so_setCh hv
    · simp only [Option.map_eq_some_iff] at h
      obtain ⟨v, hv, he⟩ := h
      cases he; exact so_setPairs hv

theorem so_fromCo {x : Choices.Args} {k : Option (List Int)} {st : Stage} {c : List Int} (h : k = some c) : (fromCo x k st).2 = some c := by
  subst h
  unfold fromCo
  cases st with
  | nothing =>
    simp only []
    split
    · split_ifs <;> rfl
    · rfl
  | table u => rfl
  | tall f => rfl
  | pairs a b => rfl

theorem so_choices {x : Choices.Args} {t : Table} (h : choices x = some (some t)) {k : Option (List Int)} (hk : knownCodes x = some k) : ChFacts x k t := by
  unfold choices at h
  simp only [Option.bind_eq_some_iff] at h
  obtain ⟨st, _, st1, _, k', hk', h⟩ := h
  rw [hk] at hk'; cases hk'
  have := so_finish h
  exact ⟨this.sorted, fun c hc => this.cols c (so_fromCo hc), this.len⟩

theorem so_setAv {x : Choices.Args} {ch : Option Table} {n : Nat} {t t' : Table} (h : setAv x ch n t = some t') :
    (t'.rows.map Prod.fst).Pairwise (· ≤ ·) ∧ t'.rows.length * t'.cols.length = Choices.nCases x n (rowsOr ch t'.rows.length) * n := by
  unfold setAv at h
  split_ifs at h with hc
  cases h
  refine ⟨setSorted_sorted _, ?_⟩
  simp only [length_setSorted]
  exact hc

theorem so_allAv {x : Choices.Args} {codes : List Int} {ch : Option Table} {wt : Option (Co Int)} {t : Table} (hcodes : altCodes x = some codes)
    (hch : choices x = some ch) (hwt : weights x = some wt) (h : allAv x codes ch wt = some (some t)) :
    (t.rows.map Prod.fst).Pairwise (· ≤ ·) ∧
      t.rows.length * t.cols.length = Choices.nCases x codes.length (rowsOr ch t.rows.length) * codes.length := by
  have key : ∀ u, (setAv x ch codes.length u).map some = some (some t) →
      (t.rows.map Prod.fst).Pairwise (· ≤ ·) ∧
      t.rows.length * t.cols.length = Choices.nCases x codes.length (rowsOr ch t.rows.length) * codes.length := fun u hu => by
    rw [Option.map_eq_some_iff] at hu
    obtain ⟨v, hv, he⟩ := hu
    cases he
    exact so_setAv hv
  have key2 : ∀ o : Option Table, (o.bind (fun u => setAv x ch codes.length u)).map some = some (some t) →
      (t.rows.map Prod.fst).Pairwise (· ≤ ·) ∧
      t.rows.length * t.cols.length = Choices.nCases x codes.length (rowsOr ch t.rows.length) * codes.length := fun o hu => by
    cases o with
    | none => simp at hu
    | some u => exact key u hu
  unfold allAv at h
  cases hav : x.av with
  | absent =>
    rw [hav] at h
    simp only [derivedAv] at h
    cases hce : ceSet x with
    | none => rw [hce] at h; simp at h
    | some f =>
      rw [hce] at h
      simp only [] at h
      split_ifs at h
      exact key _ h
  | all =>
    rw [hav] at h
    simp only [availability, hcodes, hch, hwt, Option.bind_some, hav] at h
    split_ifs at h
    exact key _ h
  | byName defs =>
    rw [hav] at h
    simp only [availability, hcodes, hch, hwt, Option.bind_some, hav] at h
    cases hco : x.co with
    | none => rw [hco] at h; simp at h
    | some f =>
      rw [hco] at h
      simp only [] at h
      split_ifs at h
      exact key _ h
  | named s =>
    rw [hav] at h
    simp only [availability, hcodes, hch, hwt, Option.bind_some, hav] at h
    cases hca : ca x with
    | none => rw [hca] at h; simp at h
    | some u =>
      rw [hca] at h
      simp only [] at h
      split_ifs at h
      simp only [Option.map_eq_some_iff, Option.bind_eq_some_iff] at h
      obtain ⟨v, ⟨r, _, hv⟩, he⟩ := h
      cases he
      exact so_setAv hv
  | tall f =>
    rw [hav] at h
    simp only [availability, hcodes, hch, hwt, Option.bind_some, hav] at h
    split_ifs at h
    · simp only [Option.map_eq_some_iff, Option.bind_eq_some_iff] at h
      obtain ⟨v, ⟨r, _, hv⟩, he⟩ := h
      cases he
      exact so_setAv hv
    · simp only [Option.map_eq_some_iff, Option.bind_eq_some_iff] at h
      obtain ⟨v, ⟨r, _, hv⟩, he⟩ := h
      cases he
      split_ifs at hv
      exact so_setAv hv
  | wide u =>
    rw [hav] at h
    simp only [availability, hcodes, hch, hwt, Option.bind_some, hav] at h
    exact key _ h
  | onRows v =>
    rw [hav] at h
    simp only [availability, hcodes, hch, hwt, Option.bind_some, hav] at h
    cases hce : ce x with
    | none => rw [hce] at h; simp at h
    | some u =>
      rw [hce] at h
      simp only [] at h
      split_ifs at h
      exact key2 _ h

theorem so_weights {x : Choices.Args} {codes : List Int} {ch : Option Table} {w : Co Int} (hcodes : altCodes x = some codes)
    (hch : choices x = some ch) (h : weights x = some (some w)) : w.length = Choices.nCases x codes.length (rowsOr ch w.length) := by
  simp only [weights, hcodes, hch, Option.bind_some] at h
  cases hwt : x.wt with
  | absent => rw [hwt] at h; simp at h
  | series f =>
    rw [hwt] at h
    simp only [] at h
    split_ifs at h with hc
    cases h
    exact hc
  | tall f =>
    rw [hwt] at h
    simp only [] at h
    split_ifs at h with hc hc2
    · cases h
      rw [List.length_map]
      exact hc
    · cases h
      exact hc2
  | named s =>
    rw [hwt] at h
    cases hco : x.co with
    | some f =>
      rw [hco] at h
      simp only [] at h
      split_ifs at h with hc hc2
      · cases h
        simp only [setWt, List.length_map]
        exact hc2
      · cases h
    | none =>
      rw [hco] at h
      cases hal : x.alts with
      | none => rw [hal] at h; simp at h
      | some t =>
        rw [hal] at h
        simp only [] at h
        split_ifs at h
        simp at h

theorem so_ca_none {x : Choices.Args} {t : Tab2} (h : x.alts = some t) (hb : isIdce t.mf = true) : ca x = none := by
  cases hc : ca x with
  | none => rfl
  | some t' => obtain ⟨e1, e2⟩ := ch_ca.mp hc; rw [h] at e1; cases e1; rw [hb] at e2; cases e2

theorem so_ce_none {x : Choices.Args} {t : Tab2} (h : x.alts = some t) (hb : isIdce t.mf = false) : ce x = none := by
  cases hc : ce x with
  | none => rfl
  | some t' => obtain ⟨e1, e2⟩ := ch_ce.mp hc; rw [h] at e1; cases e1; rw [hb] at e2; cases e2

theorem so_no (o : Option Table) : o.map some ≠ some none := by
  cases o <;> simp

/-- **C137 (what is saved is loaded).** A container that is saved and loaded has the same frames, with the same labels and order, and the same alternative
codes, whatever was done to its weights meanwhile (`sc`, as by `autoscale_weights`); provided that rows of alternatives, if they are complete,
were given in order, and that the codes do not come from `alt_codes` alone.  The names, the weight normalization and the name of the index are not kept
(see the counterexamples). -/
theorem C137_round_trip_partial (x : Choices.Args) (names names' : Option (List String)) (nm nm' : String) (d : Cont) (h : construct x names nm = some d)
    (hlev : ∀ t, x.alts = some t → t.mf.lev0.Pairwise (· < ·) ∧ t.mf.lev1.Pairwise (· < ·))
    (hform : ∀ t, x.alts = some t → t.mf.rows.length < t.mf.lev0.length * t.mf.lev1.length ∨ isMonoLex (t.mf.rows.map Prod.fst) = true)
    (hcodes : x.alts ≠ none ∨ d.ch ≠ none) (sc : Int → Int) (r : Rat) :
    let d' : Cont := { d with names := names', norm := r, caseName := nm', wt := d.wt.map (fun w => w.map (fun p => (p.1, sc p.2))) }
    load (dump d') = some { d' with names := none, norm := 1, caseName := "_caseid_" } := by
  intro d'
  unfold construct at h
  simp only [Option.bind_eq_some_iff, Option.map_eq_some_iff] at h
  obtain ⟨codes, hac, ch, hch, wt, hwt, av, hav, rfl⟩ := h
  obtain ⟨k, hk⟩ : ∃ k, knownCodes x = some k := by
    unfold altCodes at hac
    rw [hch, Option.bind_some, Option.map_eq_some_iff] at hac
    exact ⟨_, hac.choose_spec.1⟩
  simp only at hcodes
  -- the loaded arguments
  let wt' : Option (Co Int) := wt.map (fun w => w.map (fun p => (p.1, sc p.2)))
  let y : Choices.Args := loadArgs (dump d')
  have hyco : y.co = x.co.map setCo := rfl
  have hyalts : y.alts = (ca x).or ((ce x).map (fun t => { t with mf := setCe t.mf })) := rfl
  have hych : y.ch = (ch.map Choice.wide).getD .absent := rfl
  have hyav : y.av = (av.map Avail.wide).getD .absent := rfl
  have hywt : y.wt = (wt'.map Weight.series).getD .absent := rfl
  have hycodes : y.codes = none := rfl
  -- the rows of alternatives
  have halt : ∀ t, x.alts = some t → (isIdce t.mf = false ∧ y.alts = some t) ∨
      (isIdce t.mf = true ∧ y.alts = some { t with mf := setCe t.mf } ∧ isIdce (setCe t.mf) = true ∧ (setCe t.mf).lev1 = t.mf.lev1) := by
    intro t ht
    obtain ⟨l0, l1⟩ := hlev t ht
    cases hb : isIdce t.mf with
    | false =>
      left
      refine ⟨rfl, ?_⟩
      rw [hyalts, ch_ca.mpr ⟨ht, hb⟩]; rfl
    | true =>
      right
      have hn : ca x = none := by
        cases h : ca x with
        | none => rfl
        | some t' => obtain ⟨e1, e2⟩ := ch_ca.mp h; rw [ht] at e1; cases e1; rw [hb] at e2; cases e2
      obtain ⟨s0, s1, s2⟩ := setCe_levels l0 l1
      refine ⟨rfl, by rw [hyalts, hn, ch_ce.mpr ⟨ht, hb⟩]; rfl, ?_, s1⟩
      rcases hform t ht with h | h
      · unfold isIdce
        rw [s0, s1, s2.length_eq]
        simp [h]
      · have : setCe t.mf = t.mf := by unfold setCe; rw [if_pos h]
        rw [this]; exact hb
  have hnoalt : x.alts = none → y.alts = none := by
    intro hn
    rw [hyalts]
    simp [ca, ce, hn]
  have hyca : ca y = ca x := by
    cases hx : x.alts with
    | none => simp [ca, hx, hnoalt hx]
    | some t =>
      rcases halt t hx with ⟨h1, h2⟩ | ⟨h1, h2, h3, _⟩
      · rw [ch_ca.mpr ⟨hx, h1⟩, ch_ca.mpr ⟨h2, h1⟩]
      · rw [so_ca_none hx h1, so_ca_none h2 h3]
  have hyce : ce y = (ce x).map (fun t => { t with mf := setCe t.mf }) := by
    cases hx : x.alts with
    | none => simp [ce, hx, hnoalt hx]
    | some t =>
      rcases halt t hx with ⟨h1, h2⟩ | ⟨h1, h2, h3, _⟩
      · rw [so_ce_none hx h1, so_ce_none h2 h1]; rfl
      · rw [ch_ce.mpr ⟨hx, h1⟩, ch_ce.mpr ⟨h2, h3⟩]; rfl
  have hyceSet : ceSet y = ceSet x := by
    unfold ceSet
    rw [hyce]
    cases ce x with
    | none => rfl
    | some t => simp [so_setCe_idem]
  have hn : ∀ n o, Choices.nCases y n o = Choices.nCases x n o := by
    intro n o
    unfold Choices.nCases
    rw [hyca, hyceSet, hyco]
    cases x.co with
    | none => rfl
    | some f => simp [setCo, length_setSorted]
  -- codes known to the loaded arguments
  have hky : knownCodes y = some (if x.alts = none then none else some codes) := by
    cases hx : x.alts with
    | none => unfold knownCodes; rw [hycodes, hnoalt hx]; rfl
    | some t =>
      have hcl : codes = t.mf.lev1 := by
        unfold altCodes at hac
        rw [hch, Option.bind_some, hk, Option.map_some] at hac
        unfold knownCodes at hk
        rw [hx] at hk
        cases hc : x.codes with
        | none => rw [hc] at hk; simp at hk; subst hk; simp at hac; exact hac.symm
        | some c =>
          rw [hc] at hk
          simp at hk
          obtain ⟨e1, e2⟩ := hk
          subst e2
          simp at hac
          rw [← hac, e1]
      have : ∃ t', y.alts = some t' ∧ t'.mf.lev1 = t.mf.lev1 := by
        rcases halt t hx with ⟨_, h2⟩ | ⟨_, h2, _, h4⟩
        · exact ⟨t, h2, rfl⟩
        · exact ⟨_, h2, h4⟩
      obtain ⟨t', h1, h2⟩ := this
      unfold knownCodes
      rw [hycodes, h1]
      simp [h2, hcl]
  have hchcols : ∀ t, ch = some t → t.cols = codes := by
    rintro t rfl
    have hf := so_choices hch hk
    unfold altCodes at hac
    rw [hch, Option.bind_some, hk, Option.map_some] at hac
    cases k with
    | none => simpa using hac
    | some c => simp at hac; rw [hf.cols c rfl, hac]
  -- choices
  have hchy : choices y = some ch := by
    cases hcc : ch with
    | none =>
      rw [hcc] at hych
      have h1 : encode y = some .nothing := by unfold encode; rw [hych]; rfl
      have h2 : fromAlts y .nothing = some .nothing := by unfold fromAlts; rw [hych]; rfl
      have h3 : ∀ k, fromCo y k .nothing = (.nothing, k) := by intro k; unfold fromCo; rw [hych]; rfl
      unfold choices
      rw [h1, Option.bind_some, h2, Option.bind_some, hky, Option.bind_some, h3]
      rfl
    | some t =>
      have hf := so_choices (hcc ▸ hch) hk
      have hcol := hchcols t hcc
      rw [hcc] at hych
      have h1 : encode y = some (.table t) := by unfold encode; rw [hych]; rfl
      unfold choices
      rw [h1, Option.bind_some]
      show (knownCodes y).bind (fun k => finish y k (.table t)) = _
      rw [hky, Option.bind_some]
      have hadd : ∀ k', (k' = none ∨ k' = some t.cols) → addColumns k' t.cols (t.rows.map Prod.snd) = (t.cols, t.rows.map Prod.snd) := by
        rintro k' (rfl | rfl)
        · rfl
        · unfold addColumns; simp
      have hcons : ∀ k', (k' = none ∨ k' = some t.cols) → consistent k' t.cols = true := by
        rintro k' (rfl | rfl)
        · rfl
        · simp [consistent]
      have hk' : (if x.alts = none then none else some codes) = none ∨ (if x.alts = none then none else some codes) = some t.cols := by
        rw [hcol]; split_ifs <;> simp
      show (setCh y _ t).map some = _
      unfold setCh
      simp only [hadd _ hk', hcons _ hk', hn, ← hf.len]
      have hz : (t.rows.map Prod.fst).zip (t.rows.map Prod.snd) = t.rows := by
        rw [List.zip_map']; simp
      simp [hz, so_setSorted_idem _ hf.sorted]
  have hacy : altCodes y = some codes := by
    unfold altCodes
    rw [hchy, Option.bind_some, hky, Option.map_some]
    cases hx : x.alts with
    | some t => simp
    | none =>
      rcases hcodes with h | h
      · exact absurd hx h
      · obtain ⟨t, ht⟩ := Option.ne_none_iff_exists'.mp h
        simp [ht, hchcols t ht]
  have hwty : weights y = some wt' := by
    unfold weights
    rw [hacy, Option.bind_some, hchy, Option.bind_some]
    cases hw : wt with
    | none =>
      have : wt' = none := by simp [wt', hw]
      rw [hywt, this]; rfl
    | some w =>
      have e : wt' = some (w.map (fun p => (p.1, sc p.2))) := by simp [wt', hw]
      rw [hywt, e]
      have := so_weights hac hch (hw ▸ hwt)
      simp [hn, setWt, ← this]
  have havy : allAv y codes ch wt' = some av := by
    cases ha : av with
    | none =>
      unfold allAv
      rw [hyav, ha]
      simp only [Option.map_none, Option.getD_none]
      unfold derivedAv
      rw [hyceSet]
      rw [ha] at hav
      unfold allAv at hav
      cases hxa : x.av with
      | absent =>
        rw [hxa] at hav
        simp only [derivedAv] at hav
        cases hce : ceSet x with
        | none => rfl
        | some f =>
          rw [hce] at hav
          simp only [] at hav
          split_ifs at hav
          simp at hav
      | all => rw [hxa] at hav; simp only [availability, hac, hch, hwt, Option.bind_some, hxa] at hav; split_ifs at hav; simp at hav
      | byName defs =>
        rw [hxa] at hav
        simp only [availability, hac, hch, hwt, Option.bind_some, hxa] at hav
        cases hco : x.co with
        | none => rw [hco] at hav; simp at hav
        | some f => rw [hco] at hav; simp only [] at hav; split_ifs at hav; simp at hav
      | named s =>
        rw [hxa] at hav
        simp only [availability, hac, hch, hwt, Option.bind_some, hxa] at hav
        cases hca : ca x with
        | none => rw [hca] at hav; simp at hav
        | some f => rw [hca] at hav; simp only [] at hav; split_ifs at hav; exact absurd hav (so_no _)
      | tall f =>
        rw [hxa] at hav
        simp only [availability, hac, hch, hwt, Option.bind_some, hxa] at hav
        split_ifs at hav <;> exact absurd hav (so_no _)
      | wide t => rw [hxa] at hav; simp only [availability, hac, hch, hwt, Option.bind_some, hxa] at hav; simp at hav
      | onRows v =>
        rw [hxa] at hav
        simp only [availability, hac, hch, hwt, Option.bind_some, hxa] at hav
        cases hce : ce x with
        | some u => rw [hce] at hav; simp only [] at hav; split_ifs at hav; exact absurd hav (so_no _)
        | none =>
          have : ceSet x = none := by unfold ceSet; rw [hce]; rfl
          rw [this]
    | some t =>
      obtain ⟨f1, f2⟩ := so_allAv hac hch hwt (ha ▸ hav)
      have hya : y.av = .wide t := by rw [hyav, ha]; rfl
      unfold allAv
      rw [hya]
      simp only [availability, hacy, hchy, hwty, Option.bind_some, hya]
      unfold setAv
      simp [hn, f2, so_setSorted_idem _ f1]
  show construct y none "_caseid_" = _
  unfold construct
  simp only [hacy, hchy, hwty, havy, Option.bind_some, Option.map_some]
  rw [hyca, hyce, hyco]
  have e1 : (x.co.map setCo).map setCo = x.co.map setCo := by
    cases x.co with
    | none => rfl
    | some f => simp [setCo, so_sorted]
  have e2 : ((ce x).map (fun t => ({ t with mf := setCe t.mf } : Tab2))).map (fun t => ({ t with mf := setCe t.mf } : Tab2)) =
      (ce x).map (fun t => ({ t with mf := setCe t.mf } : Tab2)) := by
    cases ce x with
    | none => rfl
    | some t => simp [so_setCe_idem]
  rw [e1, e2]

/-! ## What is lost -/

/-- Two trips, with names of the alternatives and weights. -/
def storeArgs : Choices.Args := { codes := some [1, 2], co := some ⟨["mode"], [(3, fun _ => 2), (7, fun _ => 1)]⟩, ch := .named "mode", wt := .series [(3, 5), (7, 5)] }

/-- **C137 fails (names).** The names of the alternatives are lost. -/
theorem C137_fails_names : ∃ d e, construct storeArgs (some ["car", "bus"]) "tripid" = some d ∧ alternatives d = [(1, "car"), (2, "bus")] ∧
    load (dump d) = some e ∧ alternatives e = [(1, "1"), (2, "2")] :=
  ⟨_, _, rfl, by decide +kernel, rfl, by decide +kernel⟩

/-- **C137 fails (total weight).** The weight normalization is lost: after weights 5, 5 are scaled to 1, 1 with normalization 5, the container says that
the total weight is 10, the loaded one that it is 2. -/
theorem C137_fails_total_weight : ∃ d e, construct storeArgs none "tripid" = some d ∧
    totalWeight { d with wt := some [(3, 1), (7, 1)], norm := 5 } = 10 ∧ load (dump { d with wt := some [(3, 1), (7, 1)], norm := 5 }) = some e ∧
    totalWeight e = 2 :=
  ⟨_, _, rfl, by decide +kernel, rfl, by decide +kernel⟩

/-- **C137 fails (name of the index).** The case index gets the standard name. -/
theorem C137_fails_index_name : ∃ d e, construct storeArgs none "tripid" = some d ∧ d.caseName = "tripid" ∧ load (dump d) = some e ∧
    e.caseName = "_caseid_" :=
  ⟨_, _, rfl, rfl, rfl, rfl⟩

/-- Data for application: alternatives by code, availability, no choices. -/
def applyArgs : Choices.Args := { codes := some [1, 2], co := some ⟨["x"], [(3, fun _ => 2), (7, fun _ => 1)]⟩, av := .all }

/-- **C137 fails (codes).** A container without choices and rows of alternatives, whose codes were given as such, is saved without its codes and cannot be
loaded if it has availability. -/
theorem C137_fails_codes : ∃ d, construct applyArgs none "tripid" = some d ∧ (load (dump d)).isNone = true :=
  ⟨_, rfl, by decide +kernel⟩

/-- Complete rows of alternatives, not in order. -/
def unorderedArgs : Choices.Args :=
  { alts := some ⟨["x"], ⟨[3, 7], [1, 2], [((7, 1), fun _ => 5), ((3, 1), fun _ => 6), ((3, 2), fun _ => 7), ((7, 2), fun _ => 8)], 1⟩⟩ }

/-- **C137 fails (format).** Complete rows that were not given in order are idce data; after loading they are idca data. -/
theorem C137_fails_format : ∃ d e, construct unorderedArgs none "tripid" = some d ∧ d.ce.isSome = true ∧ load (dump d) = some e ∧ e.ce.isNone = true ∧
    e.ca.isSome = true :=
  ⟨_, _, rfl, by decide +kernel, rfl, by decide +kernel, by decide +kernel⟩

/-! ## A concrete case -/

example : ∃ d, construct { alts := some rowsMissing, ch := .named "chosen", wt := .series [(3, 5), (7, 6)] } none "tripid" = some d ∧
    load (dump d) = some { d with names := none, norm := 1, caseName := "_caseid_" } := by
  refine ⟨_, rfl, ?_⟩
  have := C137_round_trip_partial { alts := some rowsMissing, ch := .named "chosen", wt := .series [(3, 5), (7, 6)] } none none "tripid" "tripid" _ rfl
    (fun t ht => (by cases ht; exact ⟨by decide, by decide⟩)) (fun t ht => (by cases ht; exact Or.inl (by decide))) (Or.inl (by simp)) id 1
  exact this

end Larch.Props
