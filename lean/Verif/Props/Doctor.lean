import Verif.Model.Doctor
import Mathlib.Algebra.BigOperators.Group.List.Basic
import Mathlib.Algebra.Order.BigOperators.Group.List
import Mathlib.Tactic.NormNum

/-!
# C81: the data doctor
-/

namespace Larch.Props

open Larch.Doctor

variable {K : Type} [Field K] [LinearOrder K]

/-! ## Specification -/

/-- The alternative has a positive choice in the case. -/
def Chosen (d : D K) (i j : Nat) : Prop := ∃ v, d.ch i j = some v ∧ 0 < v

/-- The alternative is available and has a row of data, but all its quantity variables are zero. -/
def ZeroQty (d : D K) (i j : Nat) : Prop :=
  d.nQ ≠ 0 ∧ d.av i j = true ∧ ∃ q, d.qty i j = some q ∧ ∀ k < d.nQ, q k = some 0

/-- Nothing is chosen in the case: the choices add up to zero. -/
def NothingChosen (d : D K) (i : Nat) : Prop :=
  ∃ f : Nat → K, (∀ j < d.nCh, d.ch i j = some (f j)) ∧ ((List.range d.nCh).map f).sum = 0

/-- A positive weight. -/
def PosWeight (d : D K) (i : Nat) : Prop := ∃ wt v, d.wt = some wt ∧ wt i = some v ∧ 0 < v

open Classical in
/-- A table that describes the problem cells `P` in `nCases` cases and `wid` columns: absent if there are none, else a line for every column with
problems, in order of the columns, with the number of problem cases and the first few of them. -/
def Describes (o : Option (List Line)) (nCases wid verbose : Nat) (P : Nat → Nat → Prop) : Prop :=
  (o = none ↔ ∀ i < nCases, ∀ j < wid, ¬ P i j) ∧
  ∀ ls, o = some ls → (ls.map Line.col).Pairwise (· < ·) ∧ (∀ j, j ∈ ls.map Line.col ↔ j < wid ∧ ∃ i < nCases, P i j) ∧
    ∀ l ∈ ls, l.n = ((List.range nCases).filter (fun i => P i l.col)).length ∧
      l.rows = ((List.range nCases).filter (fun i => P i l.col)).take verbose

/-! ## Lemmas -/

theorem pos_iff (x : Option K) : pos x = true ↔ ∃ v, x = some v ∧ 0 < v := by
  cases x <;> simp [pos]

theorem truthy_false (x : Option K) : truthy x = false ↔ x = some 0 := by
  cases x <;> simp [truthy]

theorem zeroQ_iff (d : D K) (hq : d.nQ ≠ 0) (i j : Nat) : zeroQ d i j = true ↔ ZeroQty d i j := by
  unfold zeroQ ZeroQty
  by_cases ha : d.av i j = true
  · rw [if_pos ha]
    cases hqq : d.qty i j with
    | none => simp
    | some q =>
      simp only [Bool.not_eq_true', List.any_eq_false, List.mem_range, ha, Option.some.injEq, exists_eq_left', true_and]
      constructor
      · intro h; exact ⟨hq, fun k hk => (truthy_false _).mp (by simpa using h k hk)⟩
      · intro h k hk; simpa using (truthy_false (q k)).mpr (h.2 k hk)
  · rw [if_neg ha]; simp [ha]

theorem tabulate_spec (nCases wid verbose : Nat) (mask : Nat → Nat → Bool) (P : Nat → Nat → Prop)
    (hP : ∀ i < nCases, ∀ j < wid, mask i j = true ↔ P i j) : Describes (tabulate nCases wid verbose mask) nCases wid verbose P := by
  classical
  have hfl : ∀ j < wid, flagged nCases mask j = (List.range nCases).filter (fun i => P i j) := by
    intro j hj
    unfold flagged
    apply List.filter_congr
    intro i hi
    have := hP i (List.mem_range.mp hi) j hj
    by_cases h : P i j
    · simp [h, this.mpr h]
    · simp [h]; by_contra hc; exact h (this.mp (by simpa using hc))
  have hpos : ∀ j < wid, 0 < (flagged nCases mask j).length ↔ ∃ i < nCases, P i j := by
    intro j hj
    rw [hfl j hj, List.length_pos_iff_exists_mem]
    simp [List.mem_filter]
  have hsum : ((List.range wid).map (fun j => (flagged nCases mask j).length)).sum > 0 ↔ ∃ j < wid, ∃ i < nCases, P i j := by
    constructor
    · intro h
      by_contra hc
      push Not at hc
      have : ((List.range wid).map (fun j => (flagged nCases mask j).length)).sum = 0 := by
        apply List.sum_eq_zero
        intro x hx
        rw [List.mem_map] at hx
        obtain ⟨j, hj, rfl⟩ := hx
        by_contra h0
        obtain ⟨i, hi, hp⟩ := (hpos j (List.mem_range.mp hj)).mp (Nat.pos_of_ne_zero h0)
        exact hc j (List.mem_range.mp hj) i hi hp
      omega
    · rintro ⟨j, hj, h⟩
      have h1 := (hpos j hj).mpr h
      have h2 := List.single_le_sum (l := (List.range wid).map (fun j => (flagged nCases mask j).length)) (by simp) _
        (List.mem_map.mpr ⟨j, List.mem_range.mpr hj, rfl⟩)
      omega
  unfold Describes tabulate
  by_cases h : ((List.range wid).map (fun j => (flagged nCases mask j).length)).sum > 0
  · rw [if_pos h]
    refine ⟨⟨fun h => (by cases h), fun hn => ?_⟩, ?_⟩
    · obtain ⟨j, hj, i, hi, hp⟩ := hsum.mp h
      exact absurd hp (hn i hi j hj)
    · intro ls hls
      rw [Option.some.injEq] at hls
      subst hls
      refine ⟨?_, ?_, ?_⟩
      · rw [List.map_map]
        have : (Line.col ∘ fun j => (⟨j, (flagged nCases mask j).length, (flagged nCases mask j).take verbose⟩ : Line)) = id := rfl
        rw [this, List.map_id]
        exact List.Pairwise.filter _ List.pairwise_lt_range
      · intro j
        rw [List.map_map]
        have : (Line.col ∘ fun j => (⟨j, (flagged nCases mask j).length, (flagged nCases mask j).take verbose⟩ : Line)) = id := rfl
        rw [this, List.map_id, List.mem_filter, List.mem_range]
        constructor
        · rintro ⟨hj, hp⟩; exact ⟨hj, (hpos j hj).mp (by simpa using hp)⟩
        · rintro ⟨hj, hp⟩; exact ⟨hj, by simpa using (hpos j hj).mpr hp⟩
      · intro l hl
        rw [List.mem_map] at hl
        obtain ⟨j, hj, rfl⟩ := hl
        rw [List.mem_filter, List.mem_range] at hj
        simp only
        rw [hfl j hj.1]
        exact ⟨rfl, rfl⟩
  · rw [if_neg h]
    refine ⟨⟨fun _ i hi j hj hp => h (hsum.mpr ⟨j, hj, i, hi, hp⟩), fun _ => rfl⟩, ?_⟩
    intro ls hls; cases hls

theorem tabulate_none (nCases wid verbose : Nat) (mask : Nat → Nat → Bool) :
    tabulate nCases wid verbose mask = none ↔ ∀ i < nCases, ∀ j < wid, ¬ mask i j = true :=
  (tabulate_spec nCases wid verbose mask (fun i j => mask i j = true) (fun _ _ _ _ => Iff.rfl)).1

theorem rowSum_iff (d : D K) (i : Nat) : rowSum d i = some 0 ↔ NothingChosen d i := by
  have key : ∀ (l : List Nat) (t : Option K) (s : K), l.foldl (fun t j => match t, d.ch i j with
      | some a, some b => some (a + b)
      | _, _ => none) t = some s ↔ ∃ a, t = some a ∧ ∃ f : Nat → K, (∀ j ∈ l, d.ch i j = some (f j)) ∧ a + (l.map f).sum = s := by
    intro l
    induction l with
    | nil => intro t s; cases t <;> simp
    | cons j l ih =>
      intro t s
      rw [List.foldl_cons, ih]
      cases t with
      | none => simp
      | some a =>
        cases hc : d.ch i j with
        | none => simp [hc]
        | some b =>
          simp only [Option.some.injEq, exists_eq_left', List.mem_cons, forall_eq_or_imp, hc, List.map_cons, List.sum_cons]
          constructor
          · rintro ⟨f, hf, hs⟩
            refine ⟨fun k => if k = j then b else f k, ⟨by simp, ?_⟩, ?_⟩
            · intro k hk
              simp only
              by_cases hkj : k = j
              · rw [if_pos hkj, hkj, hc]
              · rw [if_neg hkj, hf k hk]
            · have : l.map (fun k => if k = j then b else f k) = l.map f := by
                apply List.map_congr_left
                intro k hk
                by_cases hkj : k = j
                · subst hkj
                  rw [if_pos rfl]
                  have := hf k hk
                  rw [hc] at this
                  exact Option.some.inj this
                · rw [if_neg hkj]
              rw [this, ← hs]; simp [add_assoc]
          · rintro ⟨f, ⟨hb, hf⟩, hs⟩
            refine ⟨f, hf, ?_⟩
            rw [← hs, ← hb, add_assoc]
  unfold rowSum NothingChosen
  refine (key _ _ _).trans ?_
  constructor
  · rintro ⟨a, ha, f, hf, hs⟩
    rw [Option.some.injEq] at ha
    exact ⟨f, fun j hj => hf j (List.mem_range.mpr hj), by rw [← hs, ← ha, zero_add]⟩
  · rintro ⟨f, hf, hs⟩
    exact ⟨0, rfl, f, fun j hj => hf j (List.mem_range.mp hj), by rw [hs, zero_add]⟩

/-! ## The checks one by one -/

/-- What `chosen_but_zero_quantity` does. -/
theorem zq_spec (d : D K) (rep : Repair) (v : Nat) :
    let r := chosenZeroQ d rep v
    r.1 = { d with ch := r.1.ch } ∧
    (∀ i j, r.1.ch i j = d.ch i j ∨ (rep = .minus ∧ i < d.nCases ∧ j < d.nCh ∧ ZeroQty d i j ∧ Chosen d i j ∧ r.1.ch i j = some 0)) ∧
    (∀ diag, r.2 = .ok diag → Describes diag d.nCases (min d.nAv d.nCh) v (fun i j => ZeroQty d i j ∧ Chosen d i j) ∧
      (rep = .minus → ∀ i < d.nCases, ∀ j < min d.nAv d.nCh, ZeroQty d i j → Chosen d i j → r.1.ch i j = some 0)) ∧
    (rep = .none → r.1 = d) ∧ (rep ≠ .plus → rep = .none ∨ d.nCh ≤ d.nAv → ∃ diag, r.2 = .ok diag) := by
  intro r
  by_cases hp : rep = .plus
  · have hr : r = (d, .error .value) := by show chosenZeroQ d rep v = _; unfold chosenZeroQ; rw [if_pos hp]
    rw [hr]
    exact ⟨rfl, fun i j => Or.inl rfl, fun diag h => (by cases h), fun _ => rfl, fun h => absurd hp h⟩
  by_cases hq : d.nQ = 0
  · have hr : r = (d, .ok none) := by show chosenZeroQ d rep v = _; unfold chosenZeroQ; rw [if_neg hp, if_pos hq]
    rw [hr]
    refine ⟨rfl, fun i j => Or.inl rfl, fun diag h => ?_, fun _ => rfl, fun _ _ => ⟨_, rfl⟩⟩
    cases h
    refine ⟨⟨⟨fun _ i _ j _ h => h.1.1 hq, fun _ => rfl⟩, fun ls h => (by cases h)⟩, fun _ i _ j _ h => absurd hq h.1⟩
  have hmask : ∀ i j, (zeroQ d i j && pos (d.ch i j)) = true ↔ ZeroQty d i j ∧ Chosen d i j := by
    intro i j
    rw [Bool.and_eq_true, zeroQ_iff d hq, pos_iff]; rfl
  have hdes := tabulate_spec d.nCases (min d.nAv d.nCh) v (fun i j => zeroQ d i j && pos (d.ch i j)) (fun i j => ZeroQty d i j ∧ Chosen d i j)
    (fun i _ j _ => hmask i j)
  cases ht : tabulate d.nCases (min d.nAv d.nCh) v (fun i j => zeroQ d i j && pos (d.ch i j)) with
  | none =>
    have hr : r = (d, .ok none) := by
      show chosenZeroQ d rep v = _; unfold chosenZeroQ; rw [if_neg hp, if_neg hq]; simp only [ht]
    rw [hr]
    refine ⟨rfl, fun i j => Or.inl rfl, fun diag h => ?_, fun _ => rfl, fun _ _ => ⟨_, rfl⟩⟩
    cases h
    rw [ht] at hdes
    exact ⟨hdes, fun _ i hi j hj h1 h2 => absurd ⟨h1, h2⟩ (hdes.1.mp rfl i hi j hj)⟩
  | some diag =>
    rw [ht] at hdes
    cases rep with
    | plus => exact absurd rfl hp
    | none =>
      have hr : r = (d, .ok (some diag)) := by
        show chosenZeroQ d .none v = _; unfold chosenZeroQ; rw [if_neg hp, if_neg hq]; simp only [ht]; rfl
      rw [hr]
      refine ⟨rfl, fun i j => Or.inl rfl, fun diag' h => ?_, fun _ => rfl, fun _ _ => ⟨_, rfl⟩⟩
      cases h
      exact ⟨hdes, fun h => (by cases h)⟩
    | minus =>
      by_cases hw : min d.nAv d.nCh ≠ d.nCh
      · have hr : r = (d, .error .index) := by
          show chosenZeroQ d .minus v = _; unfold chosenZeroQ; rw [if_neg hp, if_neg hq]; simp only [ht]
          rw [if_pos trivial, if_pos hw]
        rw [hr]
        exact ⟨rfl, fun i j => Or.inl rfl, fun diag' h => (by cases h), fun h => (by cases h), fun _ h => absurd h (by simp; omega)⟩
      · have hr : r = ({ d with ch := fun i j => if (i < d.nCases ∧ j < min d.nAv d.nCh) ∧ (zeroQ d i j && pos (d.ch i j)) then some 0 else d.ch i j },
            .ok (some diag)) := by
          show chosenZeroQ d .minus v = _; unfold chosenZeroQ; rw [if_neg hp, if_neg hq]; simp only [ht]
          rw [if_pos trivial, if_neg hw]
        rw [hr]
        refine ⟨rfl, fun i j => ?_, fun diag' h => ?_, fun h => (by cases h), fun _ _ => ⟨_, rfl⟩⟩
        · simp only
          split
          · rename_i h
            exact Or.inr ⟨trivial, h.1.1, by omega, ((hmask i j).mp h.2).1, ((hmask i j).mp h.2).2, rfl⟩
          · exact Or.inl rfl
        · cases h
          refine ⟨hdes, fun _ i hi j hj h1 h2 => ?_⟩
          simp only
          rw [if_pos ⟨⟨hi, hj⟩, (hmask i j).mpr ⟨h1, h2⟩⟩]

/-- What `chosen_but_not_available` does. -/
theorem na_spec (d : D K) (model : Option (Nat × ((Nat → Bool) → Nat → Bool))) (rep : Repair) (v : Nat) :
    let r := chosenNotAvail d model rep v
    let a := avFor d model
    r.1 = { d with ch := r.1.ch, av := r.1.av } ∧
    (∀ i j, r.1.ch i j = d.ch i j ∨ (rep = .minus ∧ i < d.nCases ∧ j < d.nCh ∧ a.2 i j = false ∧ Chosen d i j ∧ r.1.ch i j = some 0)) ∧
    (∀ i j, r.1.av i j = d.av i j ∨ (rep = .plus ∧ i < d.nCases ∧ j < d.nAv ∧ a.2 i j = false ∧ Chosen d i j ∧ r.1.av i j = true)) ∧
    (∀ diag, r.2 = .ok diag → Describes diag d.nCases (min a.1 d.nCh) v (fun i j => a.2 i j = false ∧ Chosen d i j) ∧
      (rep = .minus → ∀ i < d.nCases, ∀ j < min a.1 d.nCh, a.2 i j = false → Chosen d i j → r.1.ch i j = some 0) ∧
      (rep = .plus → ∀ i < d.nCases, ∀ j < min a.1 d.nCh, a.2 i j = false → Chosen d i j → r.1.av i j = true)) ∧
    (rep = .none → r.1 = d) ∧ (rep = .none ∨ (rep = .minus ∧ d.nCh ≤ a.1) ∨ (rep = .plus ∧ min a.1 d.nCh = d.nAv) → ∃ diag, r.2 = .ok diag) := by
  intro r a
  have hmask : ∀ i j, (!(a.2 i j) && pos (d.ch i j)) = true ↔ a.2 i j = false ∧ Chosen d i j := by
    intro i j
    rw [Bool.and_eq_true, pos_iff, Bool.not_eq_true']; rfl
  have hdes := tabulate_spec d.nCases (min a.1 d.nCh) v (fun i j => !(a.2 i j) && pos (d.ch i j)) (fun i j => a.2 i j = false ∧ Chosen d i j)
    (fun i _ j _ => hmask i j)
  cases ht : tabulate d.nCases (min a.1 d.nCh) v (fun i j => !(a.2 i j) && pos (d.ch i j)) with
  | none =>
    have hr : r = (d, .ok none) := by
      show chosenNotAvail d model rep v = _; unfold chosenNotAvail; simp only [show avFor d model = a from rfl, ht]
    rw [hr]
    refine ⟨rfl, fun i j => Or.inl rfl, fun i j => Or.inl rfl, fun diag h => ?_, fun _ => rfl, fun _ => ⟨_, rfl⟩⟩
    cases h
    rw [ht] at hdes
    exact ⟨hdes, fun _ i hi j hj h1 h2 => absurd ⟨h1, h2⟩ (hdes.1.mp rfl i hi j hj),
      fun _ i hi j hj h1 h2 => absurd ⟨h1, h2⟩ (hdes.1.mp rfl i hi j hj)⟩
  | some diag =>
    rw [ht] at hdes
    cases rep with
    | none =>
      have hr : r = (d, .ok (some diag)) := by
        show chosenNotAvail d model .none v = _; unfold chosenNotAvail; simp only [show avFor d model = a from rfl, ht]
      rw [hr]
      refine ⟨rfl, fun i j => Or.inl rfl, fun i j => Or.inl rfl, fun diag' h => ?_, fun _ => rfl, fun _ => ⟨_, rfl⟩⟩
      cases h
      exact ⟨hdes, fun h => (by cases h), fun h => (by cases h)⟩
    | minus =>
      by_cases hw : min a.1 d.nCh ≠ d.nCh
      · have hr : r = (d, .error .index) := by
          show chosenNotAvail d model .minus v = _; unfold chosenNotAvail; simp only [show avFor d model = a from rfl, ht]
          rw [if_pos hw]
        rw [hr]
        refine ⟨rfl, fun i j => Or.inl rfl, fun i j => Or.inl rfl, fun diag' h => (by cases h), fun h => (by cases h), fun h => ?_⟩
        simp at h; omega
      · have hr : r = ({ d with ch := fun i j => if (i < d.nCases ∧ j < min a.1 d.nCh) ∧ (!(a.2 i j) && pos (d.ch i j)) then some 0 else d.ch i j },
            .ok (some diag)) := by
          show chosenNotAvail d model .minus v = _; unfold chosenNotAvail; simp only [show avFor d model = a from rfl, ht]
          rw [if_neg hw]
        rw [hr]
        refine ⟨rfl, fun i j => ?_, fun i j => Or.inl rfl, fun diag' h => ?_, fun h => (by cases h), fun _ => ⟨_, rfl⟩⟩
        · simp only
          split
          · rename_i h
            exact Or.inr ⟨trivial, h.1.1, by omega, ((hmask i j).mp h.2).1, ((hmask i j).mp h.2).2, rfl⟩
          · exact Or.inl rfl
        · cases h
          refine ⟨hdes, fun _ i hi j hj h1 h2 => ?_, fun h => (by cases h)⟩
          simp only
          rw [if_pos ⟨⟨hi, hj⟩, (hmask i j).mpr ⟨h1, h2⟩⟩]
    | plus =>
      by_cases hw : min a.1 d.nCh ≠ d.nAv
      · have hr : r = (d, .error .index) := by
          show chosenNotAvail d model .plus v = _; unfold chosenNotAvail; simp only [show avFor d model = a from rfl, ht]
          rw [if_pos hw]
        rw [hr]
        refine ⟨rfl, fun i j => Or.inl rfl, fun i j => Or.inl rfl, fun diag' h => (by cases h), fun h => (by cases h), fun h => ?_⟩
        simp at h; omega
      · have hr : r = ({ d with av := fun i j => if (i < d.nCases ∧ j < min a.1 d.nCh) ∧ (!(a.2 i j) && pos (d.ch i j)) then true else d.av i j },
            .ok (some diag)) := by
          show chosenNotAvail d model .plus v = _; unfold chosenNotAvail; simp only [show avFor d model = a from rfl, ht]
          rw [if_neg hw]
        rw [hr]
        refine ⟨rfl, fun i j => Or.inl rfl, fun i j => ?_, fun diag' h => ?_, fun h => (by cases h), fun _ => ⟨_, rfl⟩⟩
        · simp only
          split
          · rename_i h
            exact Or.inr ⟨trivial, h.1.1, by omega, ((hmask i j).mp h.2).1, ((hmask i j).mp h.2).2, rfl⟩
          · exact Or.inl rfl
        · cases h
          refine ⟨hdes, fun h => (by cases h), fun _ i hi j hj h1 h2 => ?_⟩
          simp only
          rw [if_pos ⟨⟨hi, hj⟩, (hmask i j).mpr ⟨h1, h2⟩⟩]

open Classical in
/-- A count with examples that describes the cases with `P`. -/
def Counts (o : Option (Nat × List Nat)) (nCases verbose : Nat) (P : Nat → Prop) : Prop :=
  (o = none ↔ ∀ i < nCases, ¬ P i) ∧
  ∀ n rows, o = some (n, rows) → n = ((List.range nCases).filter (fun i => P i)).length ∧
    rows = ((List.range nCases).filter (fun i => P i)).take verbose

theorem counts_of (nCases verbose : Nat) (p : Nat → Bool) (P : Nat → Prop) (h : ∀ i < nCases, p i = true ↔ P i) :
    Counts (if ((List.range nCases).filter p).length > 0 then some (((List.range nCases).filter p).length, ((List.range nCases).filter p).take verbose)
      else none) nCases verbose P := by
  classical
  have hf : (List.range nCases).filter p = (List.range nCases).filter (fun i => P i) := by
    apply List.filter_congr
    intro i hi
    have := h i (List.mem_range.mp hi)
    by_cases hP : P i
    · simp [hP, this.mpr hP]
    · simp [hP]; by_contra hc; exact hP (this.mp (by simpa using hc))
  rw [hf]
  by_cases hl : ((List.range nCases).filter (fun i => decide (P i))).length > 0
  · rw [if_pos hl]
    refine ⟨⟨fun h => (by cases h), fun hn => ?_⟩, ?_⟩
    · rw [gt_iff_lt, List.length_pos_iff_exists_mem] at hl
      obtain ⟨i, hi⟩ := hl
      simp only [List.mem_filter, List.mem_range, decide_eq_true_eq] at hi
      exact absurd hi.2 (hn i hi.1)
    · intro n rows h
      rw [Option.some.injEq, Prod.mk.injEq] at h
      exact ⟨h.1.symm, h.2.symm⟩
  · rw [if_neg hl]
    refine ⟨⟨fun _ i hi hP => hl ?_, fun _ => rfl⟩, fun n rows h => (by cases h)⟩
    rw [gt_iff_lt, List.length_pos_iff_exists_mem]
    exact ⟨i, by simp [hi, hP]⟩

/-- What `nothing_chosen_but_nonzero_weight` does. -/
theorem nc_spec (d : D K) (rep : Repair) (v : Nat) :
    let r := nothingChosen d rep v
    r.1 = { d with wt := r.1.wt } ∧
    (d.wt = none → r.1.wt = none) ∧
    (∀ wt, d.wt = some wt → ∃ wt', r.1.wt = some wt' ∧
      ∀ i, wt' i = wt i ∨ (rep = .minus ∧ i < d.nCases ∧ NothingChosen d i ∧ wt' i = some 0)) ∧
    (∀ diag, r.2 = .ok diag → Counts diag d.nCases v (fun i => NothingChosen d i ∧ PosWeight d i) ∧
      (rep = .minus → ∀ i < d.nCases, NothingChosen d i → ¬ PosWeight r.1 i)) ∧
    (rep = .none → r.1 = d) ∧ (rep ≠ .plus → ∃ diag, r.2 = .ok diag) := by
  intro r
  cases hwt : d.wt with
  | none =>
    have hr : r = (d, .ok none) := by show nothingChosen d rep v = _; unfold nothingChosen; simp only [hwt]
    rw [hr]
    refine ⟨?_, fun _ => hwt, fun wt h => (by cases h), fun diag h => ?_, fun _ => rfl, fun _ => ⟨_, rfl⟩⟩
    · rfl
    · cases h
      have hno : ∀ i, ¬ PosWeight d i := fun i ⟨wt, v, h, _⟩ => by rw [hwt] at h; cases h
      exact ⟨⟨⟨fun _ i _ h => hno i h.2, fun _ => rfl⟩, fun n rows h => (by cases h)⟩, fun _ i _ _ => hno i⟩
  | some wt =>
    have hp : ∀ i, (decide (rowSum d i = some 0) && pos (wt i)) = true ↔ NothingChosen d i ∧ PosWeight d i := by
      intro i
      rw [Bool.and_eq_true, decide_eq_true_eq, rowSum_iff, pos_iff]
      refine and_congr_right fun _ => ?_
      constructor
      · rintro ⟨v, h1, h2⟩; exact ⟨wt, v, hwt, h1, h2⟩
      · rintro ⟨wt', v, h0, h1, h2⟩; rw [hwt, Option.some.injEq] at h0; subst h0; exact ⟨v, h1, h2⟩
    have hc := counts_of d.nCases v (fun i => decide (rowSum d i = some 0) && pos (wt i)) (fun i => NothingChosen d i ∧ PosWeight d i)
      (fun i _ => hp i)
    by_cases hl : ((List.range d.nCases).filter (fun i => decide (rowSum d i = some 0) && pos (wt i))).length > 0
    · rw [if_pos hl] at hc
      cases rep with
      | none =>
        have hr : r = (d, .ok (some (((List.range d.nCases).filter (fun i => decide (rowSum d i = some 0) && pos (wt i))).length,
            ((List.range d.nCases).filter (fun i => decide (rowSum d i = some 0) && pos (wt i))).take v))) := by
          show nothingChosen d .none v = _; unfold nothingChosen; simp only [hwt]; rw [if_pos hl]
        rw [hr]
        refine ⟨rfl, fun h => (by cases h), fun wt0 h => ?_, fun diag h => ?_, fun _ => rfl, fun _ => ⟨_, rfl⟩⟩
        · cases h; exact ⟨wt, hwt, fun i => Or.inl rfl⟩
        · cases h; exact ⟨hc, fun h => (by cases h)⟩
      | plus =>
        have hr : r = (d, .error .value) := by
          show nothingChosen d .plus v = _; unfold nothingChosen; simp only [hwt]; rw [if_pos hl]
        rw [hr]
        refine ⟨rfl, fun h => (by cases h), fun wt0 h => ?_, fun diag h => (by cases h), fun h => (by cases h), fun h => absurd rfl h⟩
        cases h; exact ⟨wt, hwt, fun i => Or.inl rfl⟩
      | minus =>
        have hr : r = ({ d with wt := some (fun i => if i < d.nCases ∧ decide (rowSum d i = some 0) then some 0 else wt i) },
            .ok (some (((List.range d.nCases).filter (fun i => decide (rowSum d i = some 0) && pos (wt i))).length,
            ((List.range d.nCases).filter (fun i => decide (rowSum d i = some 0) && pos (wt i))).take v))) := by
          show nothingChosen d .minus v = _; unfold nothingChosen; simp only [hwt]; rw [if_pos hl]
        rw [hr]
        refine ⟨rfl, fun h => (by cases h), fun wt0 h => ?_, fun diag h => ?_, fun h => (by cases h), fun _ => ⟨_, rfl⟩⟩
        · cases h
          refine ⟨_, rfl, fun i => ?_⟩
          split
          · rename_i h
            exact Or.inr ⟨rfl, h.1, (rowSum_iff d i).mp (by simpa using h.2), rfl⟩
          · exact Or.inl rfl
        · cases h
          refine ⟨hc, fun _ i hi hn => ?_⟩
          rintro ⟨wt', x, h0, h1, h2⟩
          simp only [Option.some.injEq] at h0
          subst h0
          beta_reduce at h1
          rw [if_pos ⟨hi, by simpa using (rowSum_iff d i).mpr hn⟩, Option.some.injEq] at h1
          exact absurd h2 (by rw [← h1]; exact lt_irrefl _)
    · rw [if_neg hl] at hc
      have hr : r = (d, .ok none) := by
        show nothingChosen d rep v = _; unfold nothingChosen; simp only [hwt]; rw [if_neg hl]
      rw [hr]
      refine ⟨rfl, fun h => (by cases h), fun wt0 h => ?_, fun diag h => ?_, fun _ => rfl, fun _ => ⟨_, rfl⟩⟩
      · cases h; exact ⟨wt, hwt, fun i => Or.inl rfl⟩
      · cases h; exact ⟨hc, fun _ i hi hn hpw => hc.1.mp rfl i hi ⟨hn, hpw⟩⟩

theorem fill_spec (x : Option K) : fill x = x ∨ (x = none ∧ fill x = some 0) := by
  cases x with
  | none => exact Or.inr ⟨rfl, rfl⟩
  | some v => exact Or.inl rfl

theorem fill_ne (x : Option K) : fill x ≠ none := by cases x <;> simp [fill]

/-- What `nan_weight` does. -/
theorem nw_spec (d : D K) (rep : Bool) (v : Nat) :
    let r := nanWeight d rep v
    r.1 = { d with wt := r.1.wt } ∧ (d.wt = none → r.1.wt = none) ∧
    (∀ wt, d.wt = some wt → ∃ wt', r.1.wt = some wt' ∧ ∀ i, wt' i = wt i ∨ (rep = true ∧ wt i = none ∧ wt' i = some 0)) ∧
    Counts r.2 d.nCases v (fun i => ∃ wt, d.wt = some wt ∧ wt i = none) ∧
    (rep = true → ∀ wt, r.1.wt = some wt → ∀ i, wt i ≠ none) ∧ (rep = false → r.1 = d) := by
  intro r
  cases hwt : d.wt with
  | none =>
    have hr : r = (d, none) := by show nanWeight d rep v = _; unfold nanWeight; simp only [hwt]
    rw [hr]
    refine ⟨rfl, fun _ => hwt, fun wt h => (by cases h), ⟨⟨fun _ i _ => ?_, fun _ => rfl⟩, fun n rows h => (by cases h)⟩, fun _ wt h => ?_, fun _ => rfl⟩
    · rintro ⟨wt, h, _⟩; cases h
    · simp only at h; rw [hwt] at h; cases h
  | some wt =>
    have hr : r = (if rep then { d with wt := some (fun i => fill (wt i)) } else d,
        if ((List.range d.nCases).filter (fun i => (wt i).isNone)).length > 0 then
          some (((List.range d.nCases).filter (fun i => (wt i).isNone)).length, ((List.range d.nCases).filter (fun i => (wt i).isNone)).take v)
        else none) := by
      show nanWeight d rep v = _; unfold nanWeight; simp only [hwt]
    have hc := counts_of d.nCases v (fun i => (wt i).isNone) (fun i => ∃ wt', some wt = some wt' ∧ wt' i = none) (by
      intro i _
      simp)
    rw [hr]
    cases rep with
    | false =>
      refine ⟨rfl, fun h => (by cases h), fun wt0 h => ?_, hc, fun h => (by cases h), fun _ => rfl⟩
      cases h; exact ⟨wt, hwt, fun i => Or.inl rfl⟩
    | true =>
      refine ⟨rfl, fun h => (by cases h), fun wt0 h => ?_, hc, fun _ wt' h i => ?_, fun h => (by cases h)⟩
      · cases h
        refine ⟨_, rfl, fun i => ?_⟩
        rcases fill_spec (wt i) with h | h
        · exact Or.inl h
        · exact Or.inr ⟨rfl, h.1, h.2⟩
      · simp only [if_true, Option.some.injEq] at h
        subst h
        exact fill_ne _

/-- What `nan_data_co` does. -/
theorem nco_spec (d : D K) (rep : Bool) (v : Nat) :
    let r := Larch.Doctor.nanCo d rep v
    r.1 = { d with co := r.1.co } ∧ (∀ i j, r.1.co i j = d.co i j ∨ (rep = true ∧ d.co i j = none ∧ r.1.co i j = some 0)) ∧
    (r.2 = none ↔ ∀ i < d.nCases, ∀ j < d.nCo, d.co i j ≠ none) ∧
    (rep = true → ∀ i j, r.1.co i j ≠ none) ∧ (rep = false → r.1 = d) := by
  intro r
  have hr : r = (if rep then { d with co := fun i j => fill (d.co i j) } else d,
      if ((List.range d.nCo).map (fun j => ((List.range d.nCases).filter (fun i => (d.co i j).isNone)).length)).sum > 0 then
        some ((((List.range d.nCo).filter (fun j => ((List.range d.nCases).filter (fun i => (d.co i j).isNone)).length > 0)).map
          (fun j => (j, ((List.range d.nCases).filter (fun i => (d.co i j).isNone)).length))).take v)
      else none) := rfl
  have hn : r.2 = none ↔ ∀ i < d.nCases, ∀ j < d.nCo, d.co i j ≠ none := by
    have h := tabulate_none d.nCases d.nCo v (fun i j => (d.co i j).isNone)
    unfold tabulate flagged at h
    have hr2 := congrArg Prod.snd hr
    simp only at hr2
    rw [hr2]
    constructor
    · intro hh
      split at hh
      · cases hh
      · rename_i h0
        rw [if_neg h0] at h
        intro i hi j hj hc
        exact h.mp rfl i hi j hj (by rw [hc]; rfl)
    · intro hh
      split
      · rename_i h0
        rw [if_pos h0] at h
        have := h.mpr (fun i hi j hj hc => hh i hi j hj (Option.isNone_iff_eq_none.mp hc))
        cases this
      · rfl
  cases rep with
  | false => exact ⟨rfl, fun i j => Or.inl rfl, hn, fun h => (by cases h), fun _ => rfl⟩
  | true =>
    refine ⟨rfl, fun i j => ?_, hn, fun _ i j => fill_ne _, fun h => (by cases h)⟩
    rcases fill_spec (d.co i j) with h | h
    · exact Or.inl h
    · exact Or.inr ⟨rfl, h.1, h.2⟩

/-! ## The whole -/

/-- Choice data with one column for each alternative (not for every node of a nested model). -/
def Narrow (d : D K) (model : Option (Nat × ((Nat → Bool) → Nat → Bool))) : Prop := d.nCh = d.nAv ∧ ∀ m, model = some m → d.nCh ≠ m.1

theorem avFor_narrow {d : D K} {model : Option (Nat × ((Nat → Bool) → Nat → Bool))} (h : Narrow d model) : avFor d model = (d.nAv, d.av) := by
  unfold avFor
  cases model with
  | none => rfl
  | some m =>
    obtain ⟨n, c⟩ := m
    simp only
    rw [if_neg (h.2 _ rfl)]

/-- **C81 (no repair).** Without repairs the doctor never raises and leaves the data exactly as it was. -/
theorem C81_no_repair (model : Option (Nat × ((Nat → Bool) → Nat → Bool))) (v : Nat) (d : D K) :
    ∃ r, doctor model { verbose := v } d = (d, .ok r) := by
  obtain ⟨_, _, _, h1, h1'⟩ := zq_spec d .none v
  obtain ⟨r1, h1'⟩ := h1' (by simp) (Or.inl rfl)
  obtain ⟨_, _, _, _, h2, h2'⟩ := na_spec d model .none v
  obtain ⟨r2, h2'⟩ := h2' (Or.inl rfl)
  obtain ⟨_, _, _, _, h3, h3'⟩ := nc_spec d .none v
  obtain ⟨r3, h3'⟩ := h3' (by simp)
  obtain ⟨_, _, _, _, _, h4⟩ := nw_spec d false v
  obtain ⟨_, _, _, _, h5⟩ := nco_spec d false v
  have e1 : chosenZeroQ d .none v = (d, .ok r1) := Prod.ext (h1 rfl) h1'
  have e2 : chosenNotAvail d model .none v = (d, .ok r2) := Prod.ext (h2 rfl) h2'
  have e3 : nothingChosen d .none v = (d, .ok r3) := Prod.ext (h3 rfl) h3'
  unfold doctor
  simp only [e1, e2, e3, h4 rfl, h5 rfl]
  exact ⟨_, rfl⟩

/-- The report of a run without repairs describes the data: what is missing from it is not in the data, and the tables are right. -/
theorem C81_report (model : Option (Nat × ((Nat → Bool) → Nat → Bool))) (v : Nat) (d : D K) (hn : Narrow d model) (r : Report)
    (h : (doctor model { verbose := v } d).2 = .ok r) :
    Describes r.zeroQuantity d.nCases d.nCh v (fun i j => ZeroQty d i j ∧ Chosen d i j) ∧
    Describes r.notAvailable d.nCases d.nCh v (fun i j => d.av i j = false ∧ Chosen d i j) ∧
    Counts r.nothingChosen d.nCases v (fun i => NothingChosen d i ∧ PosWeight d i) ∧
    Counts r.nanWeight d.nCases v (fun i => ∃ wt, d.wt = some wt ∧ wt i = none) ∧
    (r.nanCo = none ↔ ∀ i < d.nCases, ∀ j < d.nCo, d.co i j ≠ none) := by
  obtain ⟨_, _, hd1, h1, h1'⟩ := zq_spec d .none v
  obtain ⟨r1, h1'⟩ := h1' (by simp) (Or.inl rfl)
  obtain ⟨_, _, _, hd2, h2, h2'⟩ := na_spec d model .none v
  obtain ⟨r2, h2'⟩ := h2' (Or.inl rfl)
  obtain ⟨_, _, _, hd3, h3, h3'⟩ := nc_spec d .none v
  obtain ⟨r3, h3'⟩ := h3' (by simp)
  obtain ⟨_, _, _, hd4, _, h4⟩ := nw_spec d false v
  obtain ⟨_, _, hd5, _, h5⟩ := nco_spec d false v
  have e1 : chosenZeroQ d .none v = (d, .ok r1) := Prod.ext (h1 rfl) h1'
  have e2 : chosenNotAvail d model .none v = (d, .ok r2) := Prod.ext (h2 rfl) h2'
  have e3 : nothingChosen d .none v = (d, .ok r3) := Prod.ext (h3 rfl) h3'
  have g1 := (hd1 r1 h1').1
  have g2 := (hd2 r2 h2').1
  have g3 := (hd3 r3 h3').1
  rw [avFor_narrow hn] at g2
  simp only [← hn.1, Nat.min_self] at g1 g2
  unfold doctor at h
  simp only [e1, e2, e3, h4 rfl, Except.ok.injEq] at h
  subst h
  exact ⟨g1, g2, g3, hd4, hd5⟩

/-- **C81 (only what is wrong is changed).** Whatever the settings, and also if the doctor raises, it changes a choice only to zero and only where a
positive choice is of an alternative with zero quantity or not available (and that repair was asked for), an availability only to available and
only where a not available alternative is chosen, a weight only to zero and only of cases with nothing chosen or where it was NaN, and other data
only from NaN to zero. -/
theorem C81_frame (model : Option (Nat × ((Nat → Bool) → Nat → Bool))) (s : Settings) (d : D K) (hn : Narrow d model) :
    let e := (doctor model s d).1
    e = { d with av := e.av, ch := e.ch, wt := e.wt, co := e.co } ∧
    (∀ i j, e.ch i j = d.ch i j ∨ (e.ch i j = some 0 ∧ Chosen d i j ∧
      ((s.chZq = .minus ∧ ZeroQty d i j) ∨ (s.chAv = .minus ∧ d.av i j = false)))) ∧
    (∀ i j, e.av i j = d.av i j ∨ (s.chAv = .plus ∧ d.av i j = false ∧ Chosen d i j ∧ e.av i j = true)) ∧
    (d.wt = none → e.wt = none) ∧
    (∀ wt, d.wt = some wt → ∃ wt', e.wt = some wt' ∧
      ∀ i, wt' i = wt i ∨ (wt' i = some 0 ∧ ((s.nochNowt = .minus ∧ NothingChosen e i) ∨ (s.nanWt = true ∧ wt i = none)))) ∧
    (∀ i j, e.co i j = d.co i j ∨ (s.nanCo = true ∧ d.co i j = none ∧ e.co i j = some 0)) := by
  intro e
  obtain ⟨a1, b1, _, _, _⟩ := zq_spec d s.chZq s.verbose
  rcases hz : chosenZeroQ d s.chZq s.verbose with ⟨d1, e1 | r1⟩
  · have he : e = d1 := by show (doctor model s d).1 = _; unfold doctor; simp only [hz]
    rw [hz] at a1 b1
    simp only at a1 b1
    rw [he]
    refine ⟨by rw [a1], fun i j => ?_, fun i j => Or.inl (by rw [a1]), fun h => by rw [a1]; exact h, fun wt h => ⟨wt, by rw [a1]; exact h, fun i => Or.inl rfl⟩,
      fun i j => Or.inl (by rw [a1])⟩
    rcases b1 i j with h | ⟨h0, h1, h2, h3, h4, h5⟩
    · exact Or.inl h
    · exact Or.inr ⟨h5, h4, Or.inl ⟨h0, h3⟩⟩
  rw [hz] at a1 b1
  simp only at a1 b1
  have hn1 : Narrow d1 model := by rw [a1]; exact hn
  obtain ⟨a2, b2, c2, _, _, _⟩ := na_spec d1 model s.chAv s.verbose
  rw [avFor_narrow hn1] at b2 c2
  have key2 : ∀ d2 : D K, chosenNotAvail d1 model s.chAv s.verbose = (d2, (chosenNotAvail d1 model s.chAv s.verbose).2) →
      d2 = { d with av := d2.av, ch := d2.ch } ∧
      (∀ i j, d2.ch i j = d.ch i j ∨ (d2.ch i j = some 0 ∧ Chosen d i j ∧
        ((s.chZq = .minus ∧ ZeroQty d i j) ∨ (s.chAv = .minus ∧ d.av i j = false)))) ∧
      (∀ i j, d2.av i j = d.av i j ∨ (s.chAv = .plus ∧ d.av i j = false ∧ Chosen d i j ∧ d2.av i j = true)) := by
    intro d2 h2
    rw [h2] at a2 b2 c2
    simp only at a2 b2 c2
    have hch : ∀ i j, Chosen d1 i j → Chosen d i j ∧ d1.ch i j = d.ch i j := by
      intro i j ⟨x, hx, hx0⟩
      rcases b1 i j with h | ⟨_, _, _, _, _, h5⟩
      · exact ⟨⟨x, h ▸ hx, hx0⟩, h⟩
      · rw [h5, Option.some.injEq] at hx; rw [← hx] at hx0; exact absurd hx0 (lt_irrefl _)
    have hav : d1.av = d.av := by rw [a1]
    refine ⟨?_, fun i j => ?_, fun i j => ?_⟩
    · rw [a2]; rw [a1]
    · rcases b2 i j with h | ⟨h0, h1, h2, h3, h4, h5⟩
      · rw [h]
        rcases b1 i j with h | ⟨h0, h1, h2, h3, h4, h5⟩
        · exact Or.inl h
        · exact Or.inr ⟨h5, h4, Or.inl ⟨h0, h3⟩⟩
      · exact Or.inr ⟨h5, (hch i j h4).1, Or.inr ⟨h0, by rw [← hav]; exact h3⟩⟩
    · rcases c2 i j with h | ⟨h0, h1, h2, h3, h4, h5⟩
      · exact Or.inl (by rw [h, hav])
      · exact Or.inr ⟨h0, by rw [← hav]; exact h3, (hch i j h4).1, h5⟩
  rcases ha : chosenNotAvail d1 model s.chAv s.verbose with ⟨d2, e2 | r2⟩
  · obtain ⟨k1, k2, k3⟩ := key2 d2 (by rw [ha])
    have he : e = d2 := by show (doctor model s d).1 = _; unfold doctor; simp only [hz, ha]
    rw [he]
    exact ⟨by rw [k1], k2, k3, fun h => by rw [k1]; exact h, fun wt h => ⟨wt, by rw [k1]; exact h, fun i => Or.inl rfl⟩, fun i j => Or.inl (by rw [k1])⟩
  obtain ⟨k1, k2, k3⟩ := key2 d2 (by rw [ha])
  have hw2 : d2.wt = d.wt := by rw [k1]
  have hc2 : d2.co = d.co := by rw [k1]
  obtain ⟨a3, n3, b3, _, _, _⟩ := nc_spec d2 s.nochNowt s.verbose
  rcases hc : nothingChosen d2 s.nochNowt s.verbose with ⟨d3, e3 | r3⟩
  · have he : e = d3 := by show (doctor model s d).1 = _; unfold doctor; simp only [hz, ha, hc]
    rw [hc] at a3 n3 b3
    simp only at a3 n3 b3
    rw [he]
    have hch : d3.ch = d2.ch := by rw [a3]
    have hav : d3.av = d2.av := by rw [a3]
    have hco : d3.co = d2.co := by rw [a3]
    refine ⟨by rw [a3, k1], fun i j => by rw [hch]; exact k2 i j, fun i j => by rw [hav]; exact k3 i j, fun h => n3 (by rw [hw2]; exact h), fun wt h => ?_,
      fun i j => Or.inl (by rw [hco, hc2])⟩
    obtain ⟨wt', h1, h2⟩ := b3 wt (by rw [hw2]; exact h)
    refine ⟨wt', h1, fun i => ?_⟩
    rcases h2 i with h | ⟨q0, q1, q2, q3⟩
    · exact Or.inl h
    · refine Or.inr ⟨q3, Or.inl ⟨q0, ?_⟩⟩
      rw [a3]; exact q2
  rw [hc] at a3 n3 b3
  simp only at a3 n3 b3
  obtain ⟨a4, n4, b4, _, _, _⟩ := nw_spec d3 s.nanWt s.verbose
  obtain ⟨a5, b5, _, _, _⟩ := nco_spec (nanWeight d3 s.nanWt s.verbose).1 s.nanCo s.verbose
  have he : e = (Larch.Doctor.nanCo (nanWeight d3 s.nanWt s.verbose).1 s.nanCo s.verbose).1 := by
    show (doctor model s d).1 = _; unfold doctor; simp only [hz, ha, hc]
  rw [← he] at a5 b5
  generalize hd4 : (nanWeight d3 s.nanWt s.verbose).1 = d4 at a4 n4 b4 a5 b5
  have hch : e.ch = d2.ch := by rw [a5, a4, a3]
  have hav : e.av = d2.av := by rw [a5, a4, a3]
  have hwt : e.wt = d4.wt := by rw [a5]
  have hco : d4.co = d.co := by rw [a4, a3, k1]
  refine ⟨by rw [a5, a4, a3, k1], fun i j => by rw [hch]; exact k2 i j, fun i j => by rw [hav]; exact k3 i j,
    fun h => by rw [hwt]; exact n4 (n3 (by rw [hw2]; exact h)), fun wt h => ?_, fun i j => by rw [← hco]; exact b5 i j⟩
  obtain ⟨wt3, h1, h2⟩ := b3 wt (by rw [hw2]; exact h)
  obtain ⟨wt4, h3, h4⟩ := b4 wt3 h1
  refine ⟨wt4, by rw [hwt]; exact h3, fun i => ?_⟩
  rcases h4 i with h | ⟨q0, q1, q2⟩
  · rw [h]
    rcases h2 i with h | ⟨q0, q1, q2, q3⟩
    · exact Or.inl h
    · refine Or.inr ⟨q3, Or.inl ⟨q0, ?_⟩⟩
      rw [a5, a4, a3]; exact q2
  · rcases h2 i with h | ⟨p0, p1, p2, p3⟩
    · exact Or.inr ⟨q2, Or.inr ⟨q0, by rw [← h]; exact q1⟩⟩
    · rw [p3] at q1; cases q1

/-- The state at the end of a run that did not raise, step by step. -/
theorem doctor_ok {model : Option (Nat × ((Nat → Bool) → Nat → Bool))} {s : Settings} {d : D K} {r : Report}
    (h : (doctor model s d).2 = .ok r) : ∃ d1 d2 d3 r1 r2 r3, chosenZeroQ d s.chZq s.verbose = (d1, .ok r1) ∧
      chosenNotAvail d1 model s.chAv s.verbose = (d2, .ok r2) ∧ nothingChosen d2 s.nochNowt s.verbose = (d3, .ok r3) ∧
      (doctor model s d).1 = (Larch.Doctor.nanCo (nanWeight d3 s.nanWt s.verbose).1 s.nanCo s.verbose).1 := by
  unfold doctor at h ⊢
  rcases hz : chosenZeroQ d s.chZq s.verbose with ⟨d1, e1 | r1⟩
  · rw [hz] at h; cases h
  rw [hz] at h
  simp only at h ⊢
  rcases ha : chosenNotAvail d1 model s.chAv s.verbose with ⟨d2, e2 | r2⟩
  · rw [ha] at h; cases h
  rw [ha] at h
  simp only at h ⊢
  rcases hc : nothingChosen d2 s.nochNowt s.verbose with ⟨d3, e3 | r3⟩
  · rw [hc] at h; cases h
  exact ⟨d1, d2, d3, r1, r2, r3, rfl, ha, hc, rfl⟩

/-- **C81 (repairs repair).** If the doctor does not raise, then in the data it leaves: with `repair_ch_av` given, no chosen alternative is not
available; with `repair_ch_zq='-'` (and unless `repair_ch_av='+'`) no chosen alternative has zero quantity; with `repair_noch_nowt='-'` no case
with nothing chosen has a positive weight; with `repair_nan_wt` no weight is NaN, with `repair_nan_data_co` nothing else is. -/
theorem C81_repaired (model : Option (Nat × ((Nat → Bool) → Nat → Bool))) (s : Settings) (d : D K) (hn : Narrow d model) (r : Report)
    (h : (doctor model s d).2 = .ok r) :
    let e := (doctor model s d).1
    (s.chAv ≠ .none → ∀ i < e.nCases, ∀ j < e.nCh, Chosen e i j → e.av i j = true) ∧
    (s.chZq = .minus → s.chAv ≠ .plus → ∀ i < e.nCases, ∀ j < e.nCh, Chosen e i j → ¬ ZeroQty e i j) ∧
    (s.nochNowt = .minus → ∀ i < e.nCases, NothingChosen e i → ¬ PosWeight e i) ∧
    (s.nanWt = true → ∀ wt, e.wt = some wt → ∀ i, wt i ≠ none) ∧
    (s.nanCo = true → ∀ i j, e.co i j ≠ none) := by
  intro e
  obtain ⟨d1, d2, d3, r1, r2, r3, hz, ha, hc, he⟩ := doctor_ok h
  obtain ⟨a1, b1, f1, _, _⟩ := zq_spec d s.chZq s.verbose
  rw [hz] at a1 b1 f1
  simp only at a1 b1 f1
  have hn1 : Narrow d1 model := by rw [a1]; exact hn
  obtain ⟨a2, b2, c2, f2, _, _⟩ := na_spec d1 model s.chAv s.verbose
  rw [avFor_narrow hn1, ha] at b2 c2 f2
  rw [ha] at a2
  simp only at a2 b2 c2 f2
  obtain ⟨a3, n3, b3, f3, _, _⟩ := nc_spec d2 s.nochNowt s.verbose
  rw [hc] at a3 n3 b3 f3
  simp only at a3 n3 b3 f3
  obtain ⟨a4, n4, b4, _, f4, _⟩ := nw_spec d3 s.nanWt s.verbose
  obtain ⟨a5, b5, _, f5, _⟩ := nco_spec (nanWeight d3 s.nanWt s.verbose).1 s.nanCo s.verbose
  change e = _ at he
  rw [← he] at a5 b5 f5
  generalize hd4 : (nanWeight d3 s.nanWt s.verbose).1 = d4 at a4 n4 b4 f4 a5 b5
  have hch : e.ch = d2.ch := by rw [a5, a4, a3]
  have hav : e.av = d2.av := by rw [a5, a4, a3]
  have hnC : e.nCases = d1.nCases := by rw [a5, a4, a3, a2]
  have hnCh : e.nCh = d1.nCh := by rw [a5, a4, a3, a2]
  have hnQ : e.nQ = d1.nQ := by rw [a5, a4, a3, a2]
  have hqt : e.qty = d1.qty := by rw [a5, a4, a3, a2]
  have hwt : e.wt = d4.wt := by rw [a5]
  -- a chosen alternative of `d2` is a chosen one of `d1`
  have hch2 : ∀ i j, Chosen d2 i j → Chosen d1 i j ∧ d2.ch i j = d1.ch i j := by
    intro i j ⟨x, hx, hx0⟩
    rcases b2 i j with h | ⟨_, _, _, _, _, h5⟩
    · exact ⟨⟨x, h ▸ hx, hx0⟩, h⟩
    · rw [h5, Option.some.injEq] at hx; rw [← hx] at hx0; exact absurd hx0 (lt_irrefl _)
  have hnz : ∀ (dd : D K) i j, Chosen dd i j → dd.ch i j ≠ some 0 := by
    intro dd i j ⟨x, hx, hx0⟩ h0
    rw [h0, Option.some.injEq] at hx; rw [← hx] at hx0; exact absurd hx0 (lt_irrefl _)
  refine ⟨?_, ?_, ?_, ?_, ?_⟩
  · intro hs i hi j hj hcj
    have hc2' : Chosen d2 i j := by unfold Chosen at hcj ⊢; rw [← hch]; exact hcj
    rw [hav]
    by_contra hna
    rw [Bool.not_eq_true] at hna
    obtain ⟨hc1, heq⟩ := hch2 i j hc2'
    have hav1 : d1.av i j = false := by
      rcases c2 i j with h | ⟨_, _, _, _, _, h⟩
      · rw [← h]; exact hna
      · rw [h] at hna; cases hna
    have hj' : j < min d1.nAv d1.nCh := by have := hn1.1; rw [hnCh] at hj; omega
    rw [hnC] at hi
    obtain ⟨_, g1, g2⟩ := f2 r2 rfl
    cases hsa : s.chAv with
    | none => exact hs hsa
    | minus => exact hnz d2 i j hc2' (g1 hsa i hi j hj' hav1 hc1)
    | plus => rw [g2 hsa i hi j hj' hav1 hc1] at hna; cases hna
  · intro hs hs2 i hi j hj hcj hzq
    have hc2' : Chosen d2 i j := by unfold Chosen at hcj ⊢; rw [← hch]; exact hcj
    obtain ⟨hc1, heq⟩ := hch2 i j hc2'
    have hav2 : d2.av i j = d1.av i j := by
      rcases c2 i j with h | ⟨h, _⟩
      · exact h
      · exact absurd h hs2
    have hzq1 : ZeroQty d i j := by
      unfold ZeroQty at hzq ⊢
      rw [hnQ, hqt, hav, hav2] at hzq
      rw [a1] at hzq
      exact hzq
    have hc0 : Chosen d i j := by
      obtain ⟨x, hx, hx0⟩ := hc1
      rcases b1 i j with h | ⟨_, _, _, _, _, h5⟩
      · exact ⟨x, h ▸ hx, hx0⟩
      · exact absurd h5 (hnz d1 i j ⟨x, hx, hx0⟩)
    have hi' : i < d.nCases := by rw [hnC, a1] at hi; exact hi
    have hj' : j < min d.nAv d.nCh := by rw [hnCh, a1] at hj; have := hn.1; simp only at hj; omega
    exact hnz d1 i j hc1 ((f1 r1 rfl).2 hs i hi' j hj' hzq1 hc0)
  · intro hs i hi hno
    have hno2 : NothingChosen d2 i := by unfold NothingChosen at hno ⊢; rw [a5, a4, a3] at hno; exact hno
    have hi' : i < d2.nCases := by rw [a5, a4, a3] at hi; exact hi
    have h3 := (f3 r3 rfl).2 hs i hi' hno2
    rintro ⟨wt, x, h0, h1, h2⟩
    rw [hwt] at h0
    cases hw3 : d3.wt with
    | none => rw [n4 hw3] at h0; cases h0
    | some wt3 =>
      obtain ⟨wt4, g1, g2⟩ := b4 wt3 hw3
      rw [g1, Option.some.injEq] at h0
      subst h0
      rcases g2 i with h | ⟨_, _, h⟩
      · exact h3 ⟨wt3, x, hw3, by rw [← h]; exact h1, h2⟩
      · rw [h, Option.some.injEq] at h1
        rw [← h1] at h2; exact absurd h2 (lt_irrefl _)
  · intro hs wt h0 i
    exact f4 hs wt (by rw [← hwt]; exact h0) i
  · intro hs i j
    exact f5 hs i j

/-- **C81 (the second visit).** After a run with all repairs (`'-'`), on data with a choice column for each alternative, the doctor did not raise and
another run finds nothing. -/
theorem C81_second_run (model : Option (Nat × ((Nat → Bool) → Nat → Bool))) (v v' : Nat) (d : D K) (hn : Narrow d model) :
    ∃ e r, doctor model { chAv := .minus, chZq := .minus, nochNowt := .minus, nanWt := true, nanCo := true, verbose := v } d = (e, .ok r) ∧
      doctor model { verbose := v' } e = (e, .ok ⟨none, none, none, none, none⟩) := by
  set s : Settings := { chAv := .minus, chZq := .minus, nochNowt := .minus, nanWt := true, nanCo := true, verbose := v } with hs
  have hok : ∃ r, (doctor model s d).2 = .ok r := by
    obtain ⟨a1, _, _, _, g1⟩ := zq_spec d .minus v
    obtain ⟨r1, g1⟩ := g1 (by simp) (Or.inr (le_of_eq hn.1))
    have hz : chosenZeroQ d s.chZq s.verbose = ((chosenZeroQ d .minus v).1, .ok r1) := Prod.ext rfl g1
    generalize (chosenZeroQ d .minus v).1 = d1 at a1 hz
    have hn1 : Narrow d1 model := by rw [a1]; exact hn
    obtain ⟨_, _, _, _, _, g2⟩ := na_spec d1 model .minus v
    rw [avFor_narrow hn1] at g2
    obtain ⟨r2, g2⟩ := g2 (Or.inr (Or.inl ⟨rfl, le_of_eq hn1.1⟩))
    have ha : chosenNotAvail d1 model s.chAv s.verbose = ((chosenNotAvail d1 model .minus v).1, .ok r2) := Prod.ext rfl g2
    generalize (chosenNotAvail d1 model .minus v).1 = d2 at ha
    obtain ⟨_, _, _, _, _, g3⟩ := nc_spec d2 .minus v
    obtain ⟨r3, g3⟩ := g3 (by simp)
    have hc : nothingChosen d2 s.nochNowt s.verbose = ((nothingChosen d2 .minus v).1, .ok r3) := Prod.ext rfl g3
    unfold doctor
    simp only [hz, ha, hc]
    exact ⟨_, rfl⟩
  obtain ⟨r, hr⟩ := hok
  refine ⟨(doctor model s d).1, r, Prod.ext rfl hr, ?_⟩
  obtain ⟨p1, p2, p3, p4, p5⟩ := C81_repaired model s d hn r hr
  obtain ⟨hf, _⟩ := C81_frame model s d hn
  generalize (doctor model s d).1 = e at p1 p2 p3 p4 p5 hf ⊢
  have hne : Narrow e model := by rw [hf]; exact hn
  obtain ⟨r', hr'⟩ := C81_no_repair model v' e
  obtain ⟨q1, q2, q3, q4, q5⟩ := C81_report model v' e hne r' (by rw [hr'])
  have e1 : r'.zeroQuantity = none := q1.1.mpr (fun i hi j hj h => p2 rfl (by simp [hs]) i hi j hj h.2 h.1)
  have e2 : r'.notAvailable = none := q2.1.mpr (fun i hi j hj h => by have h1 := h.1; rw [p1 (by simp [hs]) i hi j hj h.2] at h1; cases h1)
  have e3 : r'.nothingChosen = none := q3.1.mpr (fun i hi h => p3 rfl i hi h.1 h.2)
  have e4 : r'.nanWeight = none := q4.1.mpr (fun i hi ⟨wt, h1, h2⟩ => p4 rfl wt h1 i h2)
  have e5 : r'.nanCo = none := q5.mpr (fun i _ j _ => p5 rfl i j)
  rw [hr']
  congr 2
  obtain ⟨x1, x2, x3, x4, x5⟩ := r'
  simp only at e1 e2 e3 e4 e5
  rw [e1, e2, e3, e4, e5]

/-- **C81 (usable data).** After such a run on choices that are not negative and not NaN, every case that still has a positive weight has a chosen
alternative that is available and not of zero quantity. -/
theorem C81_usable [IsStrictOrderedRing K] (model : Option (Nat × ((Nat → Bool) → Nat → Bool))) (v : Nat) (d : D K) (hn : Narrow d model)
    (hch : ∀ i j, ∃ x, d.ch i j = some x ∧ 0 ≤ x) :
    let e := (doctor model { chAv := .minus, chZq := .minus, nochNowt := .minus, nanWt := true, nanCo := true, verbose := v } d).1
    ∀ i < e.nCases, PosWeight e i → ∃ j < e.nCh, Chosen e i j ∧ e.av i j = true ∧ ¬ ZeroQty e i j := by
  intro e i hi hw
  set s : Settings := { chAv := .minus, chZq := .minus, nochNowt := .minus, nanWt := true, nanCo := true, verbose := v } with hs
  obtain ⟨e', r, h1, -⟩ := C81_second_run model v 0 d hn
  have hr : (doctor model s d).2 = .ok r := by rw [h1]
  obtain ⟨p1, p2, p3, p4, p5⟩ := C81_repaired model s d hn r hr
  obtain ⟨hf, hfc, _⟩ := C81_frame model s d hn
  have hnn : ∀ i j, ∃ x, e.ch i j = some x ∧ 0 ≤ x := by
    intro i j
    rcases hfc i j with h | ⟨h, _⟩
    · exact (h : e.ch i j = _) ▸ hch i j
    · exact ⟨0, h, le_refl _⟩
  have hno : ¬ NothingChosen e i := fun h => p3 rfl i hi h hw
  by_contra hc
  apply hno
  choose f hf0 hf1 using fun j => hnn i j
  refine ⟨f, fun j _ => hf0 j, ?_⟩
  apply List.sum_eq_zero
  intro x hx
  rw [List.mem_map] at hx
  obtain ⟨j, hj, rfl⟩ := hx
  rw [List.mem_range] at hj
  by_contra hne
  have hcj : Chosen e i j := ⟨f j, hf0 j, lt_of_le_of_ne (hf1 j) (Ne.symm hne)⟩
  exact hc ⟨j, hj, hcj, p1 (by simp [hs]) i hi j hj hcj, p2 rfl (by simp [hs]) i hi j hj hcj⟩

/-! ## Witnesses -/

/-- Three cases, two alternatives, one quantity variable; idca data.  Case 0: alternative 1 chosen, not available.  Case 1: alternative 0 chosen,
of zero quantity.  Case 2: fine, weight NaN. -/
def docDemo : D ℚ where
  nCases := 3
  nAv := 2
  nCh := 2
  av := fun i j => !(i == 0 && j == 1)
  ch := fun i j => some (if (i = 0 ∧ j = 1) ∨ (i = 1 ∧ j = 0) ∨ (i = 2 ∧ j = 0) then 1 else 0)
  wt := some (fun i => if i = 2 then none else some 2)
  nQ := 1
  qty := fun i j => some (fun _ => some (if (i = 1 ∧ j = 0) ∨ (i = 0 ∧ j = 1) then 0 else 5))
  nCo := 0
  co := fun _ _ => none

example : Narrow docDemo none ∧ (∀ i j, ∃ x, docDemo.ch i j = some x ∧ 0 ≤ x) := by
  refine ⟨⟨rfl, fun m h => by cases h⟩, fun i j => ⟨_, rfl, ?_⟩⟩
  split <;> norm_num

example : (doctor none { verbose := 3 } docDemo).2.toOption =
    some ⟨some [⟨0, 1, [1]⟩], some [⟨1, 1, [0]⟩], none, some (1, [2]), none⟩ := by decide +kernel

example : (doctor none { chAv := .minus, chZq := .minus, nochNowt := .minus, nanWt := true } docDemo).2.toOption =
    some ⟨some [⟨0, 1, [1]⟩], some [⟨1, 1, [0]⟩], some (2, [0, 1]), some (1, [2]), none⟩ := by decide +kernel

/-- **C81 fails for `repair_ch_av='+'`**: the check for zero quantities comes first, when the alternative was not yet available; so a run with
`repair_ch_zq='-'`, `repair_ch_av='+'` leaves a chosen alternative of zero quantity, which only the next run reports. -/
theorem C81_fails_plus : let e := (doctor none { chAv := .plus, chZq := .minus } docDemo).1
    (doctor none {} docDemo).2.toOption.map (fun r => r.zeroQuantity) = some (some [⟨0, 1, [1]⟩]) ∧
    (doctor none {} e).2.toOption.map (fun r => r.zeroQuantity) = some (some [⟨1, 1, [0]⟩]) ∧
    e.ch 0 1 = some 1 ∧ zeroQ e 0 1 = true := by decide +kernel

/-- The same data in idce form, without a row for alternative 1 in case 0. -/
def docIdce : D ℚ := { docDemo with qty := fun i j => if i = 0 ∧ j = 1 then none else docDemo.qty i j }

/-- **C81 fails for idce data**: `'+'` marks an alternative available for which the data has no row; it remains impossible to choose, and no further
run reports it. -/
theorem C81_fails_idce : let e := (doctor none { chAv := .plus, chZq := .minus, nochNowt := .minus } docIdce).1
    e.ch 0 1 = some 1 ∧ e.av 0 1 = true ∧ (e.qty 0 1).isNone = true ∧
    (doctor none {} e).2.toOption.map (fun r => (r.zeroQuantity, r.notAvailable, r.nothingChosen)) = some (none, none, none) := by
  decide +kernel

/-- Nested data: three alternatives, a nest of the first two, the root; choices given for all five nodes. -/
def docWide : D ℚ where
  nCases := 1
  nAv := 3
  nCh := 5
  av := fun _ j => j == 1 || j == 2
  ch := fun _ j => some (if j = 0 ∨ j = 3 ∨ j = 4 then 1 else 0)
  wt := none
  nQ := 0
  qty := fun _ _ => none
  nCo := 0
  co := fun _ _ => none

/-- How availability rolls up to the nest and the root in `docWide`. -/
def docCasc (av : Nat → Bool) (j : Nat) : Bool := if j < 3 then av j else if j = 3 then av 0 || av 1 else av 0 || av 1 || av 2

/-- **C81 fails for choices given for nests**: for a model `'+'` raises `IndexError`, without a model so does `'-'`; and `'-'` for a model clears the
choice of the alternative but leaves the choices of its nest and of the root. -/
theorem C81_fails_wide :
    (doctor (some (5, docCasc)) { chAv := .plus } docWide).2.toOption = none ∧
    (doctor none { chAv := .minus } docWide).2.toOption = none ∧
    ([0, 1, 2, 3, 4].map ((doctor (some (5, docCasc)) { chAv := .minus } docWide).1.ch 0) = [some 0, some 0, some 0, some 1, some 1]) := by decide +kernel

end Larch.Props
