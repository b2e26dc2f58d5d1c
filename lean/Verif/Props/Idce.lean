import Verif.Props.Sparse

/-!
# C48: loading a sparse data frame keeps rows with their case
-/

namespace Larch.Props

open Larch.Sparse Larch.Spec

theorem ptrFrom_ge : ∀ (codes : List Nat) (p i : Nat), ∀ e ∈ ptrFrom (some p) i codes, i ≤ e := by
  intro codes
  induction codes with
  | nil => intro p i e he; simp [ptrFrom] at he; omega
  | cons c rest ih =>
    intro p i e he
    unfold ptrFrom at he
    split at he
    · have := ih c (i + 1) e he; omega
    · rcases List.mem_cons.mp he with rfl | he
      · exact le_refl _
      · have := ih c (i + 1) e he; omega

theorem ptrFrom_sorted : ∀ (codes : List Nat) (p i : Nat), (ptrFrom (some p) i codes).Pairwise (· < ·) := by
  intro codes
  induction codes with
  | nil => intro p i; simp [ptrFrom]
  | cons c rest ih =>
    intro p i
    unfold ptrFrom
    split
    · exact ih _ _
    · refine List.Pairwise.cons ?_ (ih _ _)
      intro e he
      have := ptrFrom_ge _ _ _ e he
      omega

/-- sorted without gaps -/
def Steps (p : Nat) (codes : List Nat) : Prop :=
  (p :: codes).Pairwise (· ≤ ·) ∧ ∀ x ∈ codes, ∀ y, p ≤ y → y ≤ x → y ∈ p :: codes

theorem steps_cons {p c : Nat} {rest : List Nat} (h : Steps p (c :: rest)) : (c = p ∨ c = p + 1) ∧ Steps c rest := by
  obtain ⟨hs, hg⟩ := h
  have hpc : p ≤ c := (List.pairwise_cons.mp hs).1 c List.mem_cons_self
  have hs' := (List.pairwise_cons.mp hs).2
  have hcr := (List.pairwise_cons.mp hs').1
  refine ⟨?_, hs', ?_⟩
  · by_contra hne
    have : p + 1 ∈ p :: c :: rest := hg c List.mem_cons_self (p + 1) (by omega) (by omega)
    rcases List.mem_cons.mp this with h | h
    · omega
    · rcases List.mem_cons.mp h with h | h
      · omega
      · have := hcr _ h; omega
  · intro x hx y hcy hyx
    have := hg x (List.mem_cons_of_mem _ hx) y (by omega) hyx
    rcases List.mem_cons.mp this with h | h
    · have : y = c := by omega
      rw [this]; exact List.mem_cons_self
    · exact h

theorem ptrFrom_case : ∀ (codes : List Nat) (p i : Nat), Steps p codes →
    (∀ k j, codes[k]? = some (p + j) ↔
      (k < codes.length ∧ RowInCase (ptrFrom (some p) i codes) (i + k) j)) ∧
    (ptrFrom (some p) i codes).length = (codes.getLast?.getD p) - p + 1 := by
  intro codes
  induction codes with
  | nil => intro p i _; simp [ptrFrom]
  | cons c rest ih =>
    intro p i h
    obtain ⟨hc, hst⟩ := steps_cons h
    obtain ⟨ih1, ih2⟩ := ih c (i + 1) hst
    have hge : ∀ e ∈ ptrFrom (some c) (i + 1) rest, i + 1 ≤ e := ptrFrom_ge rest c (i + 1)
    have hget : ∀ (j e : Nat), (ptrFrom (some c) (i + 1) rest)[j]? = some e → i + 1 ≤ e :=
      fun j e h => hge e (List.mem_of_getElem? h)
    have hlastge : c ≤ rest.getLast?.getD c := by
      cases hr : rest.getLast? with
      | none => simp
      | some l =>
        simp
        exact (List.pairwise_cons.mp hst.1).1 l (List.mem_of_getLast? hr)
    have hlast : (c :: rest).getLast?.getD p = rest.getLast?.getD c := by
      cases rest with
      | nil => simp
      | cons a l => simp [List.getLast?_cons]
    have h0 : ∃ e, (ptrFrom (some c) (i + 1) rest)[0]? = some e := by
      have : 0 < (ptrFrom (some c) (i + 1) rest).length := by rw [ih2]; omega
      exact ⟨_, List.getElem?_eq_getElem this⟩
    obtain ⟨e0, he0⟩ := h0
    have he0' := hget 0 e0 he0
    rcases hc with rfl | rfl
    · -- same case continues
      have hp : ptrFrom (some c) i (c :: rest) = ptrFrom (some c) (i + 1) rest := by simp [ptrFrom]
      rw [hp]
      refine ⟨?_, by rw [ih2, hlast]⟩
      intro k j
      cases k with
      | zero =>
        simp only [List.getElem?_cons_zero, Option.some.injEq, List.length_cons, Nat.zero_lt_succ, true_and, Nat.add_zero]
        constructor
        · intro hj
          have : j = 0 := by omega
          subst this
          exact ⟨Or.inl rfl, e0, he0, by omega⟩
        · rintro ⟨hs, _⟩
          rcases hs with rfl | ⟨s, hs, hsr⟩
          · omega
          · have := hget _ _ hs; omega
      | succ k =>
        simp only [List.getElem?_cons_succ, List.length_cons, Nat.add_lt_add_iff_right]
        rw [ih1 k j, show i + 1 + k = i + (k + 1) by omega]
    · have hp : ptrFrom (some p) i ((p + 1) :: rest) = i :: ptrFrom (some (p + 1)) (i + 1) rest := by
        simp [ptrFrom]
      rw [hp]
      refine ⟨?_, by rw [List.length_cons, ih2, hlast]; omega⟩
      intro k j
      cases k with
      | zero =>
        simp only [List.getElem?_cons_zero, Option.some.injEq, List.length_cons, Nat.zero_lt_succ, true_and, Nat.add_zero]
        constructor
        · intro hj
          have : j = 1 := by omega
          subst this
          exact ⟨Or.inr ⟨i, by simp, le_refl _⟩, e0, by simpa using he0, by omega⟩
        · rintro ⟨hs, e, he, hie⟩
          cases j with
          | zero => simp at he; omega
          | succ j =>
            rcases hs with hs | ⟨s, hs, hsr⟩
            · omega
            · cases j with
              | zero => omega
              | succ j =>
                simp only [Nat.add_sub_cancel, List.getElem?_cons_succ] at hs
                have := hget _ _ hs; omega
      | succ k =>
        simp only [List.getElem?_cons_succ, List.length_cons, Nat.add_lt_add_iff_right]
        cases j with
        | zero =>
          constructor
          · intro hk
            have hm := List.mem_of_getElem? hk
            have := (List.pairwise_cons.mp hst.1).1 _ hm
            omega
          · rintro ⟨_, _, e, he, hie⟩
            simp at he; omega
        | succ j =>
          rw [show p + (j + 1) = p + 1 + j by omega, ih1 k j, show i + 1 + k = i + (k + 1) by omega]
          constructor
          · rintro ⟨hk, hs, e, he, hie⟩
            refine ⟨hk, Or.inr ?_, e, by simpa using he, hie⟩
            rcases hs with rfl | ⟨s, hs, hsr⟩
            · exact ⟨i, by simp, by omega⟩
            · cases j with
              | zero => exact ⟨i, by simp, by omega⟩
              | succ j => exact ⟨s, by simpa using hs, hsr⟩
          · rintro ⟨hk, hs, e, he, hie⟩
            refine ⟨hk, ?_, e, by simpa using he, hie⟩
            rcases hs with hs | ⟨s, hs, hsr⟩
            · omega
            · cases j with
              | zero => exact Or.inl rfl
              | succ j => exact Or.inr ⟨s, by simpa using hs, hsr⟩

/-- **C48 (sorted frames).** When the rows are sorted by case and every level of the case index occurs, the pointers made by
`from_idce` delimit one non-empty case per label, and every row lies in the case with its own label. -/
theorem C48_idce_cases_partial {κ : Type} (x : IdceIndex κ) (hne : x.codes ≠ [])
    (hsorted : x.codes.Pairwise (· ≤ ·)) (hlt : ∀ c ∈ x.codes, c < x.levels.length)
    (hused : ∀ c < x.levels.length, c ∈ x.codes) :
    ∃ ends, x.casePtr = 0 :: ends ∧ ends.length = x.caseIds.length ∧ NoEmptyCase ends ∧
      (∀ row c, row < x.codes.length → (RowInCase ends row c ↔ x.codes[row]? = some c)) ∧
      (∀ row c, row < x.codes.length → RowInCase ends row c →
        x.rowLabel row = x.caseIds[c]? ∧ (x.caseIds[c]?).isSome) := by
  obtain ⟨levels, codes⟩ := x
  simp only at hne hsorted hlt hused
  cases codes with
  | nil => exact absurd rfl hne
  | cons c0 rest =>
    have hpos : 0 < levels.length := lt_of_le_of_lt (Nat.zero_le _) (hlt c0 List.mem_cons_self)
    have hc0 : c0 = 0 := by
      rcases List.mem_cons.mp (hused 0 hpos) with h | h
      · exact h.symm
      · have := (List.pairwise_cons.mp hsorted).1 0 h; omega
    subst hc0
    have hst : Steps 0 rest := by
      refine ⟨hsorted, fun y hy z _ hz => hused z (lt_of_le_of_lt hz (hlt y (List.mem_cons_of_mem _ hy)))⟩
    obtain ⟨h1, h2⟩ := ptrFrom_case rest 0 1 hst
    have hlen : (ptrFrom (some 0) 1 rest).length = levels.length := by
      rw [h2]
      have hm : (rest.getLast?.getD 0) + 1 = levels.length := by
        have hmem : rest.getLast?.getD 0 ∈ 0 :: rest := by
          cases hr : rest.getLast? with
          | none => simp
          | some l => exact List.mem_cons_of_mem _ (List.mem_of_getLast? hr)
        have hl := hlt _ hmem
        have hbig : ∀ c ∈ 0 :: rest, c ≤ rest.getLast?.getD 0 := by
          intro c hc
          rcases List.mem_cons.mp hc with rfl | hc
          · exact Nat.zero_le _
          · obtain ⟨l, a, rfl⟩ : ∃ l a, rest = l ++ [a] := by
              rcases List.eq_nil_or_concat rest with h | ⟨l, a, h⟩
              · rw [h] at hc; simp at hc
              · exact ⟨l, a, by simpa using h⟩
            simp only [List.getLast?_append, List.getLast?_singleton, Option.some_or, Option.getD_some]
            rcases List.mem_append.mp hc with hc | hc
            · have := (List.pairwise_cons.mp hsorted).2
              exact (List.pairwise_append.mp this).2.2 c hc a (by simp)
            · simp at hc; omega
        have := hbig _ (hused (levels.length - 1) (by omega))
        omega
      omega
    have hiff : ∀ row c, row < (0 :: rest).length →
        (RowInCase (ptrFrom (some 0) 1 rest) row c ↔ (0 :: rest)[row]? = some c) := by
      intro row c hrow
      cases row with
      | zero =>
        have hg : ∀ e ∈ ptrFrom (some 0) 1 rest, 1 ≤ e := ptrFrom_ge rest 0 1
        simp only [List.getElem?_cons_zero, Option.some.injEq]
        constructor
        · rintro ⟨hs, _⟩
          rcases hs with rfl | ⟨s, hs, hsr⟩
          · rfl
          · have := hg s (List.mem_of_getElem? hs); omega
        · rintro rfl
          have : 0 < (ptrFrom (some 0) 1 rest).length := by omega
          refine ⟨Or.inl rfl, _, List.getElem?_eq_getElem this, ?_⟩
          have := hg _ (List.getElem_mem this)
          omega
      | succ k =>
        simp only [List.length_cons, Nat.add_lt_add_iff_right] at hrow
        simp only [List.getElem?_cons_succ]
        have := h1 k c
        simp only [Nat.zero_add] at this
        rw [this, Nat.add_comm 1 k]
        simp [hrow]
    refine ⟨ptrFrom (some 0) 1 rest, by simp [IdceIndex.casePtr, ptrFrom], hlen, ptrFrom_sorted _ _ _, hiff, ?_⟩
    intro row c hrow hcase
    have hc := (hiff row c hrow).mp hcase
    have hclt := hlt c (List.mem_of_getElem? hc)
    simp only [IdceIndex.rowLabel, IdceIndex.caseIds]
    rw [hc]
    simp [List.getElem?_eq_getElem hclt]

/-- Hypotheses met. -/
example : (IdceIndex.casePtr (κ := String) ⟨["a", "b", "c"], [0, 0, 1, 2, 2]⟩) = [0, 2, 3, 5] := by decide

/-- **C48 violated (rows not sorted by case).** Rows of case "b" before rows of case "a": the labels stay in level order, so
the row of "b" is filed under the label "a". -/
theorem C48_fails_unsorted :
    let x : IdceIndex String := ⟨["a", "b"], [1, 0]⟩
    x.casePtr = [0, 1, 2] ∧ RowInCase [1, 2] 0 0 ∧ x.rowLabel 0 = some "b" ∧ x.caseIds[0]? = some "a" :=
  ⟨by decide, ⟨Or.inl rfl, 1, rfl, by decide⟩, rfl, rfl⟩

/-- **C48 violated (unused level).** After filtering out the rows of one case (pandas keeps the level) there are more case
labels than cases, and later rows are filed under the wrong label. -/
theorem C48_fails_unused_level :
    let x : IdceIndex String := ⟨["a", "b", "c"], [0, 2]⟩
    x.casePtr = [0, 1, 2] ∧ x.caseIds.length = 3 ∧ RowInCase [1, 2] 1 1 ∧ x.rowLabel 1 = some "c" ∧
      x.caseIds[1]? = some "b" :=
  ⟨by decide, rfl, ⟨Or.inr ⟨1, rfl, le_refl _⟩, 2, rfl, by decide⟩, rfl, rfl⟩

end Larch.Props
