import Verif.Spec.PodSelect
import Mathlib.Data.List.Forall2
import Mathlib.Tactic.Linarith
import Mathlib.Tactic.Ring

/-!
# C120: the data read with a selector are those of the selected cases
-/

namespace Larch.Props

open Larch.PodSelect

/-- There is a `k`th step from `i` before `stop`. -/
def PsStep (i stop step : Int) (k : Nat) : Prop := (0 < step ∧ i + k * step < stop) ∨ (step < 0 ∧ stop < i + k * step)

theorem ps_step_succ {i stop step : Int} {k : Nat} : PsStep (i + step) stop step k ↔ PsStep i stop step (k + 1) := by
  have : i + step + k * step = i + ((k + 1 : Nat) : Int) * step := by push_cast; ring
  simp only [PsStep, this]

theorem ps_step_mono {i stop step : Int} {k : Nat} (h : PsStep i stop step k) : ∀ j ≤ k, PsStep i stop step j := by
  intro j hj
  have hjk : (j : Int) ≤ k := by exact_mod_cast hj
  rcases h with ⟨h1, h2⟩ | ⟨h1, h2⟩
  · left; exact ⟨h1, by nlinarith⟩
  · right; exact ⟨h1, by nlinarith⟩

theorem ps_walk_get (f : Nat) : ∀ (i stop step : Int), (∀ k, PsStep i stop step k → k < f) → ∀ (k : Nat) (c : Int),
    (walk f i stop step)[k]? = some c ↔ c = i + k * step ∧ PsStep i stop step k := by
  induction f with
  | zero =>
    intro i stop step h k c
    simp only [walk, List.getElem?_nil]
    constructor
    · intro h'; cases h'
    · rintro ⟨_, h'⟩; exact absurd (h k h') (by omega)
  | succ f ih =>
    intro i stop step h k c
    have h0 : PsStep i stop step 0 ↔ (0 < step ∧ i < stop) ∨ (step < 0 ∧ stop < i) := by simp [PsStep]
    unfold walk
    split
    · rename_i hc
      cases k with
      | zero =>
        simp only [List.getElem?_cons_zero, Option.some.injEq, Nat.cast_zero, zero_mul, add_zero]
        exact ⟨fun h => ⟨h.symm, h0.2 hc⟩, fun h => h.1.symm⟩
      | succ k =>
        rw [List.getElem?_cons_succ, ih _ _ _ (fun k hk => by have := h (k + 1) (ps_step_succ.1 hk); omega), ps_step_succ]
        have : i + step + k * step = i + ((k + 1 : Nat) : Int) * step := by push_cast; ring
        rw [this]
    · rename_i hc
      simp only [List.getElem?_nil]
      constructor
      · intro h'; cases h'
      · rintro ⟨_, h'⟩
        exact absurd (h0.1 (ps_step_mono h' 0 (by omega))) hc

theorem ps_len_of_get {l : List Int} {P : Nat → Prop} {m : Nat} (h : ∀ k, (∃ c, l[k]? = some c) ↔ P k) (hm : ∀ k, P k ↔ k < m) : l.length = m := by
  have key : ∀ k, k < l.length ↔ k < m := by
    intro k
    rw [← hm k, ← h k]
    constructor
    · intro hk; exact ⟨l[k], List.getElem?_eq_getElem hk⟩
    · rintro ⟨c, hc⟩; exact (List.getElem?_eq_some_iff.1 hc).1
  have h1 := key l.length
  have h2 := key m
  omega

theorem ps_slice_len_iff {i stop step : Int} (hs : step ≠ 0) (k : Nat) : PsStep i stop step k ↔ k < sliceLen i stop step := by
  unfold sliceLen PsStep
  rcases lt_or_gt_of_ne hs with h | h
  · have hn : ¬ step > 0 := by omega
    rw [if_neg hn]
    have e : Int.fdiv (stop - i + (step - -1)) step = (i - stop + (-step) - 1) / (-step) := by
      rw [show stop - i + (step - -1) = -(i - stop + (-step) - 1) by ring, show step = -(-step) by ring]
      rw [Int.neg_fdiv_neg, Int.fdiv_eq_ediv_of_nonneg _ (by omega)]
      simp
    rw [e]
    have hpos : 0 < -step := by omega
    have hk : ((k : Int) + 1 ≤ (i - stop + (-step) - 1) / (-step)) ↔ stop < i + k * step := by
      rw [Int.le_ediv_iff_mul_le hpos]
      constructor <;> intro h' <;> nlinarith
    constructor
    · rintro (⟨h1, _⟩ | ⟨_, h2⟩)
      · omega
      · have := hk.2 h2; omega
    · intro h'
      right
      exact ⟨h, hk.1 (by omega)⟩
  · have hn : step > 0 := h
    rw [if_pos hn]
    rw [Int.fdiv_eq_ediv_of_nonneg _ (by omega)]
    have hk : ((k : Int) + 1 ≤ (stop - i + (step - 1)) / step) ↔ i + k * step < stop := by
      rw [Int.le_ediv_iff_mul_le hn]
      constructor <;> intro h' <;> nlinarith
    constructor
    · rintro (⟨_, h2⟩ | ⟨h1, _⟩)
      · have := hk.2 h2; omega
      · omega
    · intro h'
      left
      exact ⟨hn, hk.1 (by omega)⟩

theorem ps_clamp {n lo hi v : Int} (h1 : lo ≤ hi) (h2 : lo ≤ 0) (h3 : n - 1 ≤ hi) : lo ≤ clampBound n lo hi v ∧ clampBound n lo hi v ≤ hi := by
  unfold clampBound
  split <;> omega

theorem ps_bounds_pos (s : Slice) (n : Nat) (h : 0 < s.stepOf) :
    0 ≤ s.startOf n s.stepOf ∧ s.stopOf n s.stepOf ≤ n := by
  constructor
  · unfold Slice.startOf
    split
    · simp only [h, if_true]; exact (ps_clamp (by omega) (by omega) (by omega)).1
    · simp [h]
  · unfold Slice.stopOf
    split
    · simp only [h, if_true]; exact (ps_clamp (by omega) (by omega) (by omega)).2
    · simp [h]

theorem ps_bounds_neg (s : Slice) (n : Nat) (h : s.stepOf < 0) :
    s.startOf n s.stepOf ≤ n - 1 ∧ -1 ≤ s.stopOf n s.stepOf := by
  have h' : ¬ 0 < s.stepOf := by omega
  constructor
  · unfold Slice.startOf
    split
    · simp only [h', if_false]; exact (ps_clamp (by omega) (by omega) (by omega)).2
    · simp [h']
  · unfold Slice.stopOf
    split
    · simp only [h', if_false]; exact (ps_clamp (by omega) (by omega) (by omega)).1
    · simp [h']

theorem ps_step_range (s : Slice) (n : Nat) {k : Nat} (h : PsStep (s.startOf n s.stepOf) (s.stopOf n s.stepOf) s.stepOf k) :
    k < n ∧ 0 ≤ s.startOf n s.stepOf + k * s.stepOf ∧ s.startOf n s.stepOf + k * s.stepOf < n := by
  have hk : (0 : Int) ≤ k := by omega
  rcases h with ⟨h1, h2⟩ | ⟨h1, h2⟩
  · obtain ⟨b1, b2⟩ := ps_bounds_pos s n h1
    have : (k : Int) < n := by nlinarith
    exact ⟨by omega, by nlinarith, by omega⟩
  · obtain ⟨b1, b2⟩ := ps_bounds_neg s n h1
    have : (k : Int) < n := by nlinarith
    exact ⟨by omega, by omega, by nlinarith⟩

theorem ps_walk_slice (s : Slice) (n : Nat) (k : Nat) (c : Int) :
    (walk n (s.startOf n s.stepOf) (s.stopOf n s.stepOf) s.stepOf)[k]? = some c ↔
      c = s.startOf n s.stepOf + k * s.stepOf ∧ PsStep (s.startOf n s.stepOf) (s.stopOf n s.stepOf) s.stepOf k :=
  ps_walk_get n _ _ _ (fun _ hk => (ps_step_range s n hk).1) k c

theorem ps_index_some {n : Nat} (i : List Int) : ∀ ps, i.mapM (wrapIndex n) = some ps ↔
    List.Forall₂ (fun (j c : Int) => (c = j ∨ c = j + n) ∧ 0 ≤ c ∧ c < n ∧ (0 ≤ j → c = j)) i ps := by
  have hw : ∀ j c, wrapIndex n j = some c ↔ (c = j ∨ c = j + n) ∧ 0 ≤ c ∧ c < (n : Int) ∧ (0 ≤ j → c = j) := by
    intro j c
    unfold wrapIndex
    split
    · split
      · simp only [Option.some.injEq]; omega
      · simp only [reduceCtorEq, false_iff]; omega
    · split
      · simp only [Option.some.injEq]; omega
      · simp only [reduceCtorEq, false_iff]; omega
  induction i with
  | nil =>
    intro ps
    simp only [List.mapM_nil, List.forall₂_nil_left_iff]
    exact ⟨fun h => (Option.some.inj h).symm, fun h => by rw [h]; rfl⟩
  | cons j r ih =>
    intro ps
    rw [List.mapM_cons]
    simp only [bind, pure, Option.bind_eq_some_iff, hw, ih, Option.some.injEq]
    constructor
    · rintro ⟨c, hc, t, ht, rfl⟩; exact .cons hc ht
    · intro h
      cases h with
      | cons h1 h2 => exact ⟨_, h1, _, h2, rfl⟩

/-- What numpy takes is what the selector stands for. -/
theorem ps_positions {s : Sel} {n : Nat} {ps : List Int} (h : positions s n = some ps) : Selects n s ps := by
  cases s with
  | all =>
    cases h
    exact .all _ (by simp) (fun k hk => by simp [hk])
  | slice s =>
    simp only [positions] at h
    split at h
    · cases h
    · rename_i hs
      cases h
      refine .slice s _ hs (fun k c => ?_)
      rw [ps_walk_slice]
      constructor
      · rintro ⟨rfl, h⟩; exact ⟨rfl, h⟩
      · rintro ⟨rfl, h⟩; exact ⟨rfl, h⟩
  | mask m =>
    simp only [positions] at h
    split at h
    · rename_i hm
      cases h
      refine .mask m _ hm ?_ (fun c => ?_)
      · rw [List.pairwise_map]
        exact (List.pairwise_lt_range.filter _).imp (fun h => by exact_mod_cast h)
      · simp only [List.mem_map, List.mem_filter, List.mem_range]
        constructor
        · rintro ⟨k, ⟨hk, hb⟩, rfl⟩
          refine ⟨by omega, ?_⟩
          simp only [Int.toNat_natCast]
          rw [List.getElem?_eq_getElem (by omega)] at hb ⊢
          simpa using hb
        · rintro ⟨h0, hc⟩
          refine ⟨c.toNat, ⟨?_, by simp [hc]⟩, by omega⟩
          have := (List.getElem?_eq_some_iff.1 hc).1
          omega
    · cases h
  | index i => exact .index i ps ((ps_index_some i ps).1 h)
  | scalar b => cases h
  | raw t => cases h

theorem ps_count (m : List Bool) : ((List.range m.length).filter (fun k => m[k]?.getD false)).length = m.count true := by
  induction m with
  | nil => rfl
  | cons b r ih =>
    rw [List.length_cons, List.range_succ_eq_map, List.filter_cons, List.filter_map, List.count_cons]
    have : (fun k => (b :: r)[k]?.getD false) ∘ Nat.succ = fun k => r[k]?.getD false := by funext k; simp
    rw [this]
    cases b <;> simp [ih]

/-- **C120.**  The number of rows that is reserved is the number of cases selected, for every selector: slices with any start, stop and step,
masks and lists of positions. -/
theorem C120_reserved_rows (s : Sel) (n : Nat) (ps : List Int) (h : positions s n = some ps) : selLen s n = some ps.length := by
  cases s with
  | all => cases h; simp [selLen]
  | slice s =>
    simp only [positions] at h
    split at h
    · cases h
    · rename_i hs
      cases h
      simp only [selLen, hs, if_false, Option.some.injEq]
      symm
      refine ps_len_of_get (P := PsStep (s.startOf n s.stepOf) (s.stopOf n s.stepOf) s.stepOf) (fun k => ?_) (fun k => ps_slice_len_iff hs k)
      constructor
      · rintro ⟨c, hc⟩; exact ((ps_walk_slice s n k c).1 hc).2
      · intro hk; exact ⟨_, (ps_walk_slice s n k _).2 ⟨rfl, hk⟩⟩
  | mask m =>
    simp only [positions] at h
    split at h
    · rename_i hm
      cases h
      subst hm
      simp [selLen, ps_count]
    · cases h
  | index i =>
    have := (ps_index_some i ps).1 h
    simp [selLen, this.length_eq]
  | scalar b => cases h
  | raw t => cases h

theorem ps_in_range {s : Sel} {n : Nat} {ps : List Int} (h : positions s n = some ps) : ∀ c ∈ ps, 0 ≤ c ∧ c < n := by
  intro c hc
  cases ps_positions h with
  | all _ h1 h2 =>
    obtain ⟨k, hk, rfl⟩ := List.getElem_of_mem hc
    have := h2 k (by omega)
    rw [List.getElem?_eq_getElem hk] at this
    have := Option.some.inj this
    omega
  | slice s _ h1 h2 =>
    obtain ⟨k, hk, rfl⟩ := List.getElem_of_mem hc
    obtain ⟨e, h3⟩ := (h2 k _).1 (List.getElem?_eq_getElem hk)
    rw [e] at h3 ⊢
    exact (ps_step_range s n h3).2
  | mask m _ h1 _ h2 =>
    obtain ⟨h3, h4⟩ := (h2 c).1 hc
    have := (List.getElem?_eq_some_iff.1 h4).1
    omega
  | index i _ h1 =>
    obtain ⟨k, hk, rfl⟩ := List.getElem_of_mem hc
    have := (List.forall₂_iff_get.1 h1).2 k (by rw [(List.forall₂_iff_get.1 h1).1]; exact hk) hk
    exact ⟨this.2.1, this.2.2.1⟩

theorem ps_take {β : Type} {col : List β} (ps : List Int) : (∀ c ∈ ps, 0 ≤ c ∧ c < col.length) →
    ∃ v, takeAt col ps = some v ∧ List.Forall₂ (CaseHas col) ps v := by
  induction ps with
  | nil => intro _; exact ⟨[], rfl, .nil⟩
  | cons c r ih =>
    intro h
    obtain ⟨v, hv, hf⟩ := ih (fun c' hc' => h c' (by simp [hc']))
    obtain ⟨h1, h2⟩ := h c (by simp)
    have hx : col[c.toNat]? = some (col[c.toNat]'(by omega)) := List.getElem?_eq_getElem (by omega)
    refine ⟨_ :: v, ?_, .cons ⟨h1, hx⟩ hf⟩
    unfold takeAt at hv ⊢
    rw [List.mapM_cons, hx, hv]
    rfl

/-- **C120.**  What is read with a selector are the data of the selected cases, in their order, and reading succeeds whenever the selector makes
sense for the number of cases. -/
theorem C120_reads_selected {β : Type} (n : Nat) (s : Sel) (col : List β) (hc : col.length = n) :
    (∀ v, readCol n s col = some v → ∃ ps, Selects n s ps ∧ List.Forall₂ (CaseHas col) ps v) ∧
    (∀ ps, positions s n = some ps → ∃ v, readCol n s col = some v) := by
  have main : ∀ ps, positions s n = some ps → ∃ v, readCol n s col = some v ∧ List.Forall₂ (CaseHas col) ps v := by
    intro ps hp
    obtain ⟨v, hv, hf⟩ := ps_take (col := col) ps (by rw [hc]; exact ps_in_range hp)
    refine ⟨v, ?_, hf⟩
    unfold readCol
    rw [C120_reserved_rows s n ps hp, hp]
    simp [hv, hf.length_eq]
  constructor
  · intro v hv
    cases hp : positions s n with
    | none =>
      exfalso
      unfold readCol at hv
      rw [hp] at hv
      cases selLen s n <;> simp at hv
    | some ps =>
      obtain ⟨v', hv', hf⟩ := main ps hp
      rw [hv] at hv'
      cases hv'
      exact ⟨ps, ps_positions hp, hf⟩
  · intro ps hp
    obtain ⟨v, hv, _⟩ := main ps hp
    exact ⟨v, hv⟩

/-! ## Frames -/

theorem ps_mapM_some {β γ : Type} (f : β → Option γ) (l : List β) : ∀ v, l.mapM f = some v ↔ List.Forall₂ (fun a b => f a = some b) l v := by
  induction l with
  | nil =>
    intro v
    simp only [List.mapM_nil, List.forall₂_nil_left_iff]
    exact ⟨fun h => (Option.some.inj h).symm, fun h => by rw [h]; rfl⟩
  | cons a r ih =>
    intro v
    rw [List.mapM_cons]
    simp only [bind, pure, Option.bind_eq_some_iff, ih, Option.some.injEq]
    constructor
    · rintro ⟨c, hc, t, ht, rfl⟩; exact .cons hc ht
    · intro h
      cases h with
      | cons h1 h2 => exact ⟨_, h1, _, h2, rfl⟩

theorem ps_row {β : Type} {vars : List String} {cols : List (List β)} {P : String → β → Prop} {i : Nat}
    (h : List.Forall₂ (fun v col => ∃ x, col[i]? = some x ∧ P v x) vars cols) : List.Forall₂ P vars (rowOf cols i) := by
  induction h with
  | nil => exact .nil
  | cons h1 _ ih =>
    obtain ⟨x, hx, hp⟩ := h1
    unfold rowOf at ih ⊢
    rw [List.filterMap_cons, hx]
    exact .cons hp ih

variable {α : Type}

/-- **C120.**  A frame of case data has a row for each selected case, in order, labelled with the case, and in it for each variable its value for
that case; the selector of the call counts, else the default. -/
theorem C120_frame_co (d : Svc α) (hd : Whole d) (s : Option Sel) (vars : List String) (rows : List (Int × List α))
    (h : d.frameCO s vars = some rows) :
    Selects d.n (s.getD d.sel) (rows.map Prod.fst) ∧
    ∀ r ∈ rows, List.Forall₂ (fun v x => ∃ col, d.co v = some col ∧ CaseHas col r.1 x) vars r.2 := by
  unfold Svc.frameCO at h
  obtain ⟨cols, hcols, h⟩ := Option.bind_eq_some_iff.1 h
  obtain ⟨idx, hidx, rfl⟩ := Option.map_eq_some_iff.1 h
  unfold Svc.caseindexes Svc.pick at hidx
  refine ⟨?_, ?_⟩
  · have : (idx.zipIdx.map (fun e => (e.1, rowOf cols e.2))).map Prod.fst = idx := by
      rw [List.map_map]
      exact List.zipIdx_map_fst 0 idx
    rw [this]
    exact ps_positions hidx
  · intro r hr
    obtain ⟨⟨c, i⟩, he, rfl⟩ := List.mem_map.1 hr
    have hci : idx[i]? = some c := by
      have := List.mem_zipIdx_iff_getElem?.1 he
      simpa using this
    unfold Svc.arrayCO Svc.pick at hcols
    have hf := (ps_mapM_some _ vars cols).1 hcols
    refine ps_row (hf.imp (fun v col hv => ?_))
    obtain ⟨full, hfull, hread⟩ := Option.bind_eq_some_iff.1 hv
    have hlen := hd.co v full hfull
    obtain ⟨v', hv', hF⟩ := ps_take (col := full) idx (by rw [hlen]; exact ps_in_range hidx)
    have : readCol d.n (s.getD d.sel) full = some v' := by
      unfold readCol
      rw [C120_reserved_rows _ _ _ hidx, hidx]
      simp [hv', hF.length_eq]
    rw [this] at hread
    cases hread
    have hil : i < idx.length := (List.getElem?_eq_some_iff.1 hci).1
    have hil' : i < col.length := by rw [← hF.length_eq]; exact hil
    have hx := (List.forall₂_iff_get.1 hF).2 i hil hil'
    refine ⟨col[i], List.getElem?_eq_getElem hil', full, hfull, ?_⟩
    have hc : idx[i] = c := by
      rw [List.getElem?_eq_getElem hil] at hci
      exact Option.some.inj hci
    simpa [hc] using hx

theorem ps_product_zip {w : Nat} (codes : List Int) : ∀ (idx : List Int) (rows : List (List α)), idx.length = rows.length → (∀ r ∈ rows, r.length = w) →
    codes.length = w → (productIndex idx codes).zip rows.flatten = (idx.zip rows).flatMap (fun e => (codes.zip e.2).map (fun p => ((e.1, p.1), p.2))) := by
  intro idx
  induction idx with
  | nil => intro rows _ _ _; simp [productIndex]
  | cons c t ih =>
    intro rows hl hw hc
    cases rows with
    | nil => simp at hl
    | cons r rs =>
      simp only [productIndex, List.flatMap_cons, List.flatten_cons, List.zip_cons_cons]
      rw [List.zip_append (by simp [hw r (by simp), hc])]
      have := ih rs (by simpa using hl) (fun r' hr' => hw r' (by simp [hr'])) hc
      unfold productIndex at this
      rw [this]
      congr 1
      rw [List.zip_map_left]
      rfl

/-- **C120.**  A frame of data of the alternatives has a row for each selected case and each alternative, the cases outside, and each value is that of
the case and the alternative it is labelled with. -/
theorem C120_frame_ca (d : Svc α) (hd : Whole d) (s : Option Sel) (v : String) (rows : List ((Int × Int) × α)) (h : d.frameCA s v = some rows) :
    ∃ idx full, Selects d.n (s.getD d.sel) idx ∧ d.ca v = some full ∧
      rows.map Prod.fst = idx.flatMap (fun c => d.codes.map (fun a => (c, a))) ∧
      ∀ r ∈ rows, ∃ (j : Nat) (vals : List α), d.codes[j]? = some r.1.2 ∧ CaseHas full r.1.1 vals ∧ vals[j]? = some r.2 := by
  unfold Svc.frameCA at h
  obtain ⟨arr, harr, h⟩ := Option.bind_eq_some_iff.1 h
  obtain ⟨idx, hidx, h⟩ := Option.bind_eq_some_iff.1 h
  unfold Svc.caseindexes Svc.pick at hidx
  unfold Svc.arrayCA Svc.pick at harr
  obtain ⟨full, hfull, hread⟩ := Option.bind_eq_some_iff.1 harr
  obtain ⟨hlen, w, hw⟩ := hd.ca v full hfull
  obtain ⟨v', hv', hF⟩ := ps_take (col := full) idx (by rw [hlen]; exact ps_in_range hidx)
  have : readCol d.n (s.getD d.sel) full = some v' := by
    unfold readCol
    rw [C120_reserved_rows _ _ _ hidx, hidx]
    simp [hv', hF.length_eq]
  rw [this] at hread
  cases hread
  split at h
  · cases h
  · rename_i hne
    split at h
    · rename_i hl
      cases h
      have hw' : ∀ r ∈ arr, r.length = w := by
        intro r hr
        obtain ⟨i, hi, rfl⟩ := List.getElem_of_mem hr
        have hi' : i < idx.length := by rw [hF.length_eq]; exact hi
        have := (List.forall₂_iff_get.1 hF).2 i hi' hi
        exact hw _ (List.mem_of_getElem? this.2)
      have hlp : (productIndex idx d.codes).length = idx.length * d.codes.length := by
        simp [productIndex, List.length_flatMap]
      have hla : arr.flatten.length = arr.length * w := by
        rw [List.length_flatten, List.map_congr_left (g := fun _ => w) hw']
        simp
      have hcodes : d.codes.length = w := by
        rw [hlp, hla, hF.length_eq] at hl
        have : arr.length ≠ 0 := by
          intro h0
          rw [List.length_eq_zero_iff.1 h0] at hne
          simp at hne
        exact Nat.eq_of_mul_eq_mul_left (Nat.pos_of_ne_zero this) hl
      refine ⟨idx, full, ps_positions hidx, hfull, ?_, ?_⟩
      · rw [List.map_fst_zip (by omega)]
        rfl
      · intro r hr
        rw [ps_product_zip d.codes idx arr hF.length_eq hw' hcodes] at hr
        obtain ⟨e, he, hr⟩ := List.mem_flatMap.1 hr
        obtain ⟨p, hp, rfl⟩ := List.mem_map.1 hr
        obtain ⟨i, hi⟩ := List.getElem?_of_mem he
        obtain ⟨j, hj⟩ := List.getElem?_of_mem hp
        obtain ⟨hi1, hi2⟩ := List.getElem?_zip_eq_some.1 hi
        obtain ⟨hj1, hj2⟩ := List.getElem?_zip_eq_some.1 hj
        refine ⟨j, e.2, hj1, ?_, hj2⟩
        obtain ⟨b1, e1⟩ := List.getElem?_eq_some_iff.1 hi1
        obtain ⟨b2, e2⟩ := List.getElem?_eq_some_iff.1 hi2
        have := (List.forall₂_iff_get.1 hF).2 i b1 b2
        simpa [e1, e2] using this
    · cases h

/-! ## Setting the selector -/

theorem ps_squeeze {m : List Bool} (h : m.length ≠ 1) : squeeze m = .mask m := by
  unfold squeeze
  split
  · simp at h
  · rfl

/-- **C120.**  A selector given as an expression selects exactly the cases where it is true, whatever was selected before (if there is not just one
case). -/
theorem C120_selector_text (truth : α → Bool) (d : Svc α) (hd : Whole d) (t : String) (col : List α) (hc : d.co t = some col) (hn : d.n ≠ 1) :
    (d.setSelector truth (.text t)).2 = true ∧
    ∃ ps, positions (d.setSelector truth (.text t)).1.sel d.n = some ps ∧ ps.Pairwise (· < ·) ∧
      ∀ c : Int, c ∈ ps ↔ ∃ x, CaseHas col c x ∧ truth x = true := by
  have hlen : (col.map truth).length = d.n := by rw [List.length_map]; exact hd.co t col hc
  simp only [Svc.setSelector, hc, true_and]
  rw [ps_squeeze (by rw [hlen]; exact hn)]
  have hp : ∃ ps, positions (.mask (col.map truth)) d.n = some ps := by simp only [positions, hlen, if_true]; exact ⟨_, rfl⟩
  obtain ⟨ps, hps⟩ := hp
  refine ⟨ps, hps, ?_⟩
  cases ps_positions hps with
  | mask _ _ h1 h2 h3 =>
    refine ⟨h2, fun c => (h3 c).trans ?_⟩
    simp only [CaseHas, List.getElem?_map, Option.map_eq_some_iff]
    constructor
    · rintro ⟨h0, x, hx, ht⟩; exact ⟨x, ⟨h0, hx⟩, ht⟩
    · rintro ⟨x, ⟨h0, hx⟩, ht⟩; exact ⟨h0, x, hx, ht⟩

/-- **C120.**  A selector given as several expressions selects exactly the cases where all of them are true. -/
theorem C120_selector_several (truth : α → Bool) (d : Svc α) (hd : Whole d) (ts : List String) (cols : List (List α))
    (hc : List.Forall₂ (fun t c => d.co t = some c) ts cols) :
    (d.setSelector truth (.several ts)).2 = true ∧
    ∃ ps, positions (d.setSelector truth (.several ts)).1.sel d.n = some ps ∧ ps.Pairwise (· < ·) ∧
      ∀ c : Int, c ∈ ps ↔ (0 ≤ c ∧ c < d.n ∧ ∀ col ∈ cols, ∃ x, CaseHas col c x ∧ truth x = true) := by
  have hm : ts.mapM d.co = some cols := (ps_mapM_some _ _ _).2 hc
  simp only [Svc.setSelector, hm, true_and]
  have hlen : (allTrue d.n (cols.map (List.map truth))).length = d.n := by simp [allTrue]
  have hp : ∃ ps, positions (.mask (allTrue d.n (cols.map (List.map truth)))) d.n = some ps := by
    simp only [positions, hlen, if_true]; exact ⟨_, rfl⟩
  obtain ⟨ps, hps⟩ := hp
  refine ⟨ps, hps, ?_⟩
  have hl : ∀ col ∈ cols, col.length = d.n := by
    intro col hcol
    obtain ⟨i, hi, rfl⟩ := List.getElem_of_mem hcol
    have := (List.forall₂_iff_get.1 hc).2 i (by rw [hc.length_eq]; exact hi) hi
    exact hd.co _ _ this
  cases ps_positions hps with
  | mask _ _ h1 h2 h3 =>
    refine ⟨h2, fun c => (h3 c).trans ?_⟩
    constructor
    · rintro ⟨h0, hx⟩
      have hcn : c.toNat < d.n := by
        have := (List.getElem?_eq_some_iff.1 hx).1
        omega
      refine ⟨h0, by omega, fun col hcol => ?_⟩
      simp only [allTrue, List.getElem?_map, List.getElem?_range hcn, Option.map_some, Option.some.injEq, List.all_eq_true] at hx
      have := hx (col.map truth) (List.mem_map.2 ⟨col, hcol, rfl⟩)
      have hb : c.toNat < col.length := by rw [hl col hcol]; exact hcn
      rw [List.getElem?_map, List.getElem?_eq_getElem hb] at this
      exact ⟨col[c.toNat], ⟨h0, List.getElem?_eq_getElem hb⟩, by simpa using this⟩
    · rintro ⟨h0, hcn, hx⟩
      refine ⟨h0, ?_⟩
      have hcn' : c.toNat < d.n := by omega
      simp only [allTrue, List.getElem?_map, List.getElem?_range hcn', Option.map_some, Option.some.injEq, List.all_eq_true]
      intro m hm
      obtain ⟨col, hcol, rfl⟩ := List.mem_map.1 hm
      obtain ⟨x, ⟨_, hx1⟩, hx2⟩ := hx col hcol
      rw [List.getElem?_map, hx1]
      simpa using hx2

/-! ## Examples, and where the code falls short -/

/-- Five cases; two columns of case data, one of the data of two alternatives. -/
def psSvc (n : Nat) : Svc Nat where
  n := n
  sel := .all
  co v := if v = "x" then some ((List.range n).map (fun k => k % 2)) else if v = "y" then some ((List.range n).map (fun k => k * 10)) else none
  ca v := if v = "t" then some ((List.range n).map (fun k => [k * 100 + 1, k * 100 + 2])) else none
  codes := [7, 9]

theorem psSvc_whole (n : Nat) : Whole (psSvc n) := by
  refine ⟨fun v c h => ?_, fun v c h => ?_⟩
  · simp only [psSvc] at h
    split at h
    · cases h; simp [psSvc]
    · split at h
      · cases h; simp [psSvc]
      · cases h
  · simp only [psSvc] at h
    split at h
    · cases h
      refine ⟨by simp [psSvc], 2, fun r hr => ?_⟩
      obtain ⟨k, _, rfl⟩ := List.mem_map.1 hr
      rfl
    · cases h

example : (psSvc 5).frameCO (some (.slice ⟨some (-1), none, some (-2)⟩)) ["y", "x"] = some [(4, [40, 0]), (2, [20, 0]), (0, [0, 0])] := by decide

example : (psSvc 5).frameCA (some (.index [3, -5])) "t" = some [((3, 7), 301), ((3, 9), 302), ((0, 7), 1), ((0, 9), 2)] := by decide

example : (((psSvc 5).setSelector (fun x => x != 0) (.text "x")).1.frameCO none ["y"]) = some [(1, [10]), (3, [30])] := by decide

example : (((psSvc 5).setSelector (fun x => x != 0) (.several ["x", "y"])).1.frameCO none ["y"]) = some [(1, [10]), (3, [30])] := by decide

/-- **C120, violated.**  A selector that cannot be evaluated is refused, but the selector set before is gone: all cases are selected. -/
theorem C120_fails_refused_selector_clears :
    ∃ (d : Svc Nat) (v : Value), Whole d ∧ (d.setSelector (fun x => x != 0) v).2 = false ∧ d.frameCO none ["y"] = some [(2, [20])] ∧
      ((d.setSelector (fun x => x != 0) v).1.frameCO none ["y"]).map List.length = some 5 := by
  refine ⟨{ psSvc 5 with sel := .index [2] }, .text "nonsense", ⟨(psSvc_whole 5).co, (psSvc_whole 5).ca⟩, by decide, by decide, by decide⟩

/-- **C120, violated.**  Every slice is refused as a default selector, though slices are accepted as the selector of a call. -/
theorem C120_fails_slice_as_default (truth : α → Bool) (d : Svc α) (s : Slice) : (d.setSelector truth (.slice s)).2 = false := rfl

/-- **C120, violated.**  An empty list of positions selects no case in a call, but all cases as default selector. -/
theorem C120_fails_empty_selector :
    ∃ d : Svc Nat, Whole d ∧ d.frameCO (some (.index [])) ["y"] = some [] ∧
      (((d.setSelector (fun x => x != 0) (.index [])).1.frameCO none ["y"]).map List.length) = some 5 :=
  ⟨psSvc 5, psSvc_whole 5, by decide, by decide⟩

/-- **C120, violated.**  With one case, a selector given as an expression is accepted, and after that nothing can be read. -/
theorem C120_fails_single_case :
    ∃ d : Svc Nat, Whole d ∧ d.n = 1 ∧ (d.setSelector (fun x => x != 0) (.text "x")).2 = true ∧
      (d.setSelector (fun x => x != 0) (.text "x")).1.frameCO none ["y"] = none :=
  ⟨psSvc 1, psSvc_whole 1, by decide, by decide, by decide⟩

/-- **C120, violated.**  A selector given as an expression when the service is made is not evaluated: nothing can be read. -/
theorem C120_fails_selector_at_construction (d : Svc α) (t v : String) : ((d.construct t).frameCO none [v]) = none := by
  simp only [Svc.frameCO, Svc.pick, Svc.construct, Option.getD_none, Svc.arrayCO]
  have : ∀ x : Option (List α), x.bind (readCol d.n (.raw t)) = none := by
    intro x; cases x <;> simp [readCol, selLen]
  simp [List.mapM_cons, this]

/-- **C120, violated.**  With no case selected there is an empty frame of case data, but the frame of data of the alternatives raises. -/
theorem C120_fails_no_case_selected :
    ∃ d : Svc Nat, Whole d ∧ d.frameCO (some (.mask (List.replicate 5 false))) ["y"] = some [] ∧
      d.frameCA (some (.mask (List.replicate 5 false))) "t" = none :=
  ⟨psSvc 5, psSvc_whole 5, by decide, by decide⟩

end Larch.Props
