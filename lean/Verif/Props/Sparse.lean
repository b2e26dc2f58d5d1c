import Verif.Model.Sparse
import Verif.Spec.Sparse
import Mathlib.Tactic.Linarith
import Mathlib.Algebra.Group.Int.Defs
import Mathlib.Data.List.GetD

/-!
# C10, C11: sparse arrays
-/

namespace Larch.Props

open Larch.Sparse Larch.Spec Function

theorem ends_lt {ends : List Nat} (h : NoEmptyCase ends) {i j : Nat} {a b : Nat} (hij : i < j)
    (hi : ends[i]? = some a) (hj : ends[j]? = some b) : a < b := by
  obtain ⟨h1, rfl⟩ := List.getElem?_eq_some_iff.mp hi
  obtain ⟨h2, rfl⟩ := List.getElem?_eq_some_iff.mp hj
  exact List.pairwise_iff_getElem.mp h i j h1 h2 hij

/-- A row belongs to at most one case. -/
theorem rowInCase_unique {ends : List Nat} (h : ends.Pairwise (· ≤ ·)) {row c c' : Nat} (h1 : RowInCase ends row c)
    (h2 : RowInCase ends row c') : c = c' := by
  have aux : ∀ c c', RowInCase ends row c → RowInCase ends row c' → ¬ c < c' := by
    rintro c c' ⟨_, e, he, hre⟩ ⟨hs, _⟩ hlt
    rcases hs with rfl | ⟨s, hs, hsr⟩
    · omega
    · have : e ≤ s := by
        obtain ⟨p1, rfl⟩ := List.getElem?_eq_some_iff.mp he
        obtain ⟨p2, rfl⟩ := List.getElem?_eq_some_iff.mp hs
        rcases Nat.lt_or_ge c (c' - 1) with hc | hc
        · exact List.pairwise_iff_getElem.mp h c (c' - 1) p1 p2 hc
        · have : c = c' - 1 := by omega
          subst this; exact le_refl _
      omega
  have a1 := aux c c' h1 h2
  have a2 := aux c' c h2 h1
  omega

/-- The loop invariant: before reading row `row` the counter `c` is such that `bump` gives the case of the row. -/
def Inv (ends : List Nat) (row c : Nat) : Prop :=
  (c = 0 ∨ ∃ s, ends[c - 1]? = some s ∧ s ≤ row) ∧ ∀ e, ends[c]? = some e → row ≤ e

theorem bump_spec {ends : List Nat} (h : NoEmptyCase ends) {row c : Nat} (hinv : Inv ends row c)
    (hlt : ∃ e ∈ ends, row < e) : RowInCase ends row (bump ends c row) ∧ Inv ends (row + 1) (bump ends c row) := by
  obtain ⟨h1, h2⟩ := hinv
  obtain ⟨e, he, hre⟩ := hlt
  obtain ⟨j, hj⟩ := List.mem_iff_getElem?.mp he
  -- the counter is within the array
  have hc : ∃ ec, ends[c]? = some ec := by
    rcases Nat.lt_or_ge c ends.length with hc | hc
    · exact ⟨_, List.getElem?_eq_getElem hc⟩
    · exfalso
      rcases h1 with rfl | ⟨s, hs, hsr⟩
      · have : ends = [] := by cases ends with
          | nil => rfl
          | cons => simp at hc
        rw [this] at he; simp at he
      · have hjl : j < ends.length := (List.getElem?_eq_some_iff.mp hj).1
        have : e ≤ s := by
          rcases Nat.lt_or_ge j (c - 1) with hjc | hjc
          · exact (ends_lt h hjc hj hs).le
          · have : j = c - 1 := by
              have := (List.getElem?_eq_some_iff.mp hs).1
              omega
            subst this
            rw [hj] at hs; cases hs; exact le_refl _
        omega
  obtain ⟨ec, hec⟩ := hc
  unfold bump
  by_cases hb : ends[c]? = some row
  · rw [if_pos hb]
    rw [hec] at hb
    cases hb
    have hjc : c < j := by
      rcases Nat.lt_trichotomy c j with hh | hh | hh
      · exact hh
      · subst hh; rw [hec] at hj; cases hj; omega
      · have := ends_lt h hh hj hec; omega
    have hc1 : c + 1 < ends.length := by
      have := (List.getElem?_eq_some_iff.mp hj).1
      omega
    have hn := List.getElem?_eq_getElem hc1
    have hgt := ends_lt h (Nat.lt_succ_self c) hec hn
    refine ⟨⟨Or.inr ⟨row, by simpa using hec, le_refl _⟩, _, hn, hgt⟩,
      Or.inr ⟨row, by simpa using hec, Nat.le_succ _⟩, ?_⟩
    intro e' he'
    rw [hn] at he'; cases he'; exact hgt
  · rw [if_neg hb]
    have hle := h2 ec hec
    have hne : row ≠ ec := by
      rintro rfl; exact hb hec
    refine ⟨⟨h1, ec, hec, by omega⟩, ?_, ?_⟩
    · rcases h1 with rfl | ⟨s, hs, hsr⟩
      · exact Or.inl rfl
      · exact Or.inr ⟨s, hs, by omega⟩
    · intro e' he'
      rw [hec] at he'; cases he'; omega

theorem inv_zero (ends : List Nat) : Inv ends 0 0 := ⟨Or.inl rfl, fun _ _ => Nat.zero_le _⟩

theorem denseLoop_spec {α : Type} {ends : List Nat} (h : NoEmptyCase ends) :
    ∀ (rows : List (Nat × α)) (row c : Nat) (out : Nat → Nat → α), Inv ends row c →
      (rows ≠ [] → ∃ e ∈ ends, row + rows.length ≤ e) →
      ∀ cc aa,
        (∃ (k : Nat) (v : α), rows[k]? = some (aa, v) ∧ RowInCase ends (row + k) cc ∧
          denseLoop ends rows row c out cc aa = v) ∨
        ((∀ (k : Nat) (v : α), rows[k]? = some (aa, v) → ¬ RowInCase ends (row + k) cc) ∧
          denseLoop ends rows row c out cc aa = out cc aa) := by
  intro rows
  induction rows with
  | nil => intro row c out _ _ cc aa; right; simp [denseLoop]
  | cons r rest ih =>
    obtain ⟨a, v⟩ := r
    intro row c out hinv hlen cc aa
    obtain ⟨e, he, hle⟩ := hlen (by simp)
    rw [List.length_cons] at hle
    obtain ⟨hb1, hb2⟩ := bump_spec h hinv ⟨e, he, by omega⟩
    simp only [denseLoop]
    rcases ih (row + 1) (bump ends c row) (put out (bump ends c row) a v) hb2
      (fun hne => ⟨e, he, by omega⟩) cc aa with ⟨k, w, hk, hcase, hval⟩ | ⟨hnone, hval⟩
    · left
      exact ⟨k + 1, w, by simpa using hk, by rw [show row + (k + 1) = row + 1 + k by omega]; exact hcase, hval⟩
    · by_cases hhit : cc = bump ends c row ∧ aa = a
      · left
        obtain ⟨rfl, rfl⟩ := hhit
        refine ⟨0, v, by simp, by simpa using hb1, ?_⟩
        rw [hval]; simp [put]
      · right
        refine ⟨?_, ?_⟩
        · intro k w hk hcase
          cases k with
          | zero =>
            simp only [List.getElem?_cons_zero, Option.some.injEq, Prod.mk.injEq] at hk
            refine hhit ⟨?_, hk.1.symm⟩
            have hmono : ends.Pairwise (· ≤ ·) := h.imp (fun h => le_of_lt h)
            exact rowInCase_unique hmono (by simpa using hcase) hb1
          | succ k =>
            refine hnone k w (by simpa using hk) ?_
            rw [show row + 1 + k = row + (k + 1) by omega]; exact hcase
        · rw [hval]
          unfold put
          by_cases h1 : cc = bump ends c row
          · subst h1
            have h2 : aa ≠ a := fun h2 => hhit ⟨rfl, h2⟩
            simp [h2]
          · simp [h1]

/-- **C10 (no empty case).** When no case other than possibly the first is empty and the pointers cover all rows,
`ce_to_dense` puts at `[case, alternative]` the value of a row of this case and alternative, and zero exactly where there
is no such row; if each case has at most one row per alternative this determines the whole array.
The full property fails for empty cases, see `C10_fails_empty_case`. -/
theorem C10_dense_partial {α : Type} [Zero α] (ends : List Nat) (rows : List (Nat × α)) (h : NoEmptyCase ends)
    (hlen : rows ≠ [] → ∃ e ∈ ends, rows.length ≤ e)
    (huniq : ∀ k k' a v v' c, rows[k]? = some (a, v) → rows[k']? = some (a, v') → RowInCase ends k c →
      RowInCase ends k' c → k = k') :
    (∀ k a v c, rows[k]? = some (a, v) → RowInCase ends k c → ceToDense ends rows c a = v) ∧
    (∀ c a, (∀ k v, rows[k]? = some (a, v) → ¬ RowInCase ends k c) → ceToDense ends rows c a = 0) := by
  constructor
  · intro k a v c hk hc
    rcases denseLoop_spec h rows 0 0 (fun _ _ => (0 : α)) (inv_zero ends)
      (fun hne => by simpa using hlen hne) c a with ⟨k', v', hk', hc', hval⟩ | ⟨hnone, _⟩
    · have := huniq k k' a v v' c hk hk' hc (by simpa using hc')
      subst this
      rw [hk] at hk'
      cases hk'
      exact hval
    · exact absurd (by simpa using hc) (hnone k v hk)
  · intro c a hno
    rcases denseLoop_spec h rows 0 0 (fun _ _ => (0 : α)) (inv_zero ends)
      (fun hne => by simpa using hlen hne) c a with ⟨k', v', hk', hc', hval⟩ | ⟨_, hval⟩
    · exact absurd (by simpa using hc') (hno k' v' hk')
    · exact hval

/-- Every row has a case, so no row is lost. -/
theorem C10_every_row_has_case (ends : List Nat) (row : Nat) (h : ∃ e ∈ ends, row < e) :
    ∃ c, RowInCase ends row c := by
  obtain ⟨e, he, hre⟩ := h
  obtain ⟨j, hj⟩ := List.mem_iff_getElem?.mp he
  have hex : ∃ j, ∃ e, ends[j]? = some e ∧ row < e := ⟨j, e, hj, hre⟩
  classical
  obtain ⟨e', he', hre'⟩ := Nat.find_spec hex
  refine ⟨Nat.find hex, ?_, e', he', hre'⟩
  by_cases h0 : Nat.find hex = 0
  · exact Or.inl h0
  · right
    have hlt : Nat.find hex - 1 < Nat.find hex := by omega
    have hmin := Nat.find_min hex hlt
    have hl := (List.getElem?_eq_some_iff.mp he').1
    refine ⟨_, List.getElem?_eq_getElem (by omega), ?_⟩
    by_contra hc
    exact hmin ⟨_, List.getElem?_eq_getElem (by omega), by omega⟩

/-- **C10 (availability).** Same for `ce_bool_to_dense`: 1 exactly at the present (case, alternative) pairs. -/
theorem C10_bool_partial (ends : List Nat) (alts : List Nat) (h : NoEmptyCase ends)
    (hlen : alts ≠ [] → ∃ e ∈ ends, alts.length ≤ e) (c a : Nat) :
    (ceBoolToDense ends alts c a = 1 ↔ ∃ k, alts[k]? = some a ∧ RowInCase ends k c) ∧
    (ceBoolToDense ends alts c a = 0 ↔ ¬ ∃ k, alts[k]? = some a ∧ RowInCase ends k c) := by
  have hm : ∀ (k v : Nat), (alts.map (fun a => (a, 1)))[k]? = some (a, v) ↔ alts[k]? = some a ∧ v = 1 := by
    intro k v
    rw [List.getElem?_map]
    cases hk : alts[k]? with
    | none => simp
    | some b => simp [eq_comm]
  rcases denseLoop_spec h (alts.map (fun a => (a, 1))) 0 0 (fun _ _ => 0) (inv_zero ends)
      (fun hne => by simpa using hlen (by simpa using hne)) c a with ⟨k, v, hk, hc, hval⟩ | ⟨hno, hval⟩
  · obtain ⟨hk1, rfl⟩ := (hm k v).mp hk
    have hv : ceBoolToDense ends alts c a = 1 := hval
    have hex : ∃ k, alts[k]? = some a ∧ RowInCase ends k c := ⟨k, hk1, by simpa using hc⟩
    simp [hv, hex]
  · have hv : ceBoolToDense ends alts c a = 0 := hval
    have hex : ¬ ∃ k, alts[k]? = some a ∧ RowInCase ends k c := by
      rintro ⟨k, hk, hc⟩
      exact hno k 1 ((hm k 1).mpr ⟨hk, rfl⟩) (by simpa using hc)
    simp only [hv, hex]
    simp

/-- Hypotheses met by a three-case example: the value of alternative 2 in case 1. -/
example : ceToDense [2, 3, 5] [(0, (10 : Int)), (1, 11), (2, 12), (0, 13), (2, 14)] 1 2 = 12 ∧
    NoEmptyCase [2, 3, 5] := ⟨by decide, by unfold NoEmptyCase; decide⟩

/-- **C10 violated (empty case).** With pointers `[0, 1, 1, 2]` the second case has no rows; the second row belongs to the
third case but is stored in the second, and the third case is left without data. -/
theorem C10_fails_empty_case :
    RowInCase [1, 1, 2] 1 2 ∧
    ceToDense [1, 1, 2] [(0, (10 : Int)), (0, 20)] 2 0 = 0 ∧ ceToDense [1, 1, 2] [(0, (10 : Int)), (0, 20)] 1 0 = 20 ∧
    ceBoolToDense [1, 1, 2] [0, 0] 2 0 = 0 := by
  refine ⟨⟨Or.inr ⟨1, rfl, le_refl _⟩, 2, rfl, by decide⟩, by decide, by decide, by decide⟩

/-- **C10 (row to case index).** `case_ptr_to_indexes` gives every row its case, with empty cases allowed. -/
theorem C10_case_indexes (ends : List Nat) (h : (0 :: ends).Pairwise (· ≤ ·)) (row c : Nat)
    (hc : RowInCase ends row c) : casePtrToIndexes (0 :: ends) row = c := by
  have hmono : ends.Pairwise (· ≤ ·) := (List.pairwise_cons.mp h).2
  have hslice : ∀ k, k < ends.length →
      (((0 :: ends).getD k 0 ≤ row ∧ row < (0 :: ends).getD (k + 1) 0) ↔ RowInCase ends row k) := by
    intro k hk
    have h1 : (0 :: ends).getD (k + 1) 0 = ends[k] := by simp [List.getD, List.getElem?_eq_getElem hk]
    rw [h1]
    cases k with
    | zero =>
      simp only [RowInCase, List.getD_cons_zero, Nat.zero_le, true_and, true_or]
      simp [List.getElem?_eq_getElem hk]
    | succ k =>
      have hk' : k < ends.length := by omega
      have h2 : (0 :: ends).getD (k + 1) 0 = ends[k] := by simp [List.getD, List.getElem?_eq_getElem hk']
      rw [h2]
      simp [RowInCase, List.getElem?_eq_getElem hk, List.getElem?_eq_getElem hk']
  have key : ∀ n, n ≤ ends.length → (List.range n).foldl
      (fun idx c => fillSlice idx ((0 :: ends).getD c 0) ((0 :: ends).getD (c + 1) 0) c) (fun _ => 0) row =
        if c < n then c else 0 := by
    intro n
    induction n with
    | zero => simp
    | succ n ih =>
      intro hn
      rw [List.range_succ, List.foldl_append]
      simp only [List.foldl_cons, List.foldl_nil, fillSlice]
      by_cases hin : (0 :: ends).getD n 0 ≤ row ∧ row < (0 :: ends).getD (n + 1) 0
      · rw [if_pos hin]
        have := rowInCase_unique hmono ((hslice n (by omega)).mp hin) hc
        simp [this]
      · rw [if_neg hin, ih (by omega)]
        have hne : c ≠ n := by
          rintro rfl
          exact hin ((hslice _ (by omega)).mpr hc)
        by_cases h1 : c < n
        · rw [if_pos h1, if_pos (by omega)]
        · rw [if_neg h1, if_neg (by omega)]
  obtain ⟨_, e, he, _⟩ := hc
  have hcl := (List.getElem?_eq_some_iff.mp he).1
  unfold casePtrToIndexes
  rw [show (0 :: ends).length - 1 = ends.length by simp, key _ (le_refl _), if_pos hcl]

example : (List.range 5).map (casePtrToIndexes [0, 2, 2, 3, 5]) = [0, 0, 2, 3, 3] := by decide

/-! ## C11 -/

theorem dissolveLoop_keep {α : Type} [BEq α] (ends : List Nat) :
    ∀ (data : List α) (row c : Nat) (out : Nat → α) (cc : Nat), cc ≤ c →
      (dissolveLoop ends data row c out).1 cc = out cc := by
  intro data
  induction data with
  | nil => intros; rfl
  | cons v rest ih =>
    intro row c out cc hcc
    simp only [dissolveLoop]
    split
    · rw [ih _ _ _ _ (by omega)]
      rw [update_of_ne (by omega)]
    · split
      · rfl
      · exact ih _ _ _ _ hcc

theorem dissolveLoop_spec {α : Type} [BEq α] [LawfulBEq α] {ends : List Nat} (h : NoEmptyCase ends) :
    ∀ (data : List α) (row c : Nat) (out : Nat → α), Inv ends row c →
      (data ≠ [] → ∃ e ∈ ends, row + data.length ≤ e) →
      ((dissolveLoop ends data row c out).2 = false →
        ∀ k v cc, data[k]? = some v → RowInCase ends (row + k) cc →
          (dissolveLoop ends data row c out).1 cc = v) ∧
      ((dissolveLoop ends data row c out).2 = true →
        ∃ k v cc, data[k]? = some v ∧ RowInCase ends (row + k) cc ∧ (
          (∃ k' v', data[k']? = some v' ∧ RowInCase ends (row + k') cc ∧ v ≠ v') ∨ (cc = c ∧ out c ≠ v))) := by
  intro data
  induction data with
  | nil => intro row c out _ _; simp [dissolveLoop]
  | cons v rest ih =>
    intro row c out hinv hlen
    obtain ⟨e, he, hle⟩ := hlen (by simp)
    rw [List.length_cons] at hle
    obtain ⟨hb1, hb2⟩ := bump_spec h hinv ⟨e, he, by omega⟩
    have hlen' : rest ≠ [] → ∃ e ∈ ends, row + 1 + rest.length ≤ e := fun _ => ⟨e, he, by omega⟩
    have hmono : ends.Pairwise (· ≤ ·) := h.imp (fun h => le_of_lt h)
    simp only [dissolveLoop]
    by_cases hb : ends[c]? = some row
    · have hbump : bump ends c row = c + 1 := by simp [bump, hb]
      rw [hbump] at hb1 hb2
      simp only [hb, if_true]
      obtain ⟨i1, i2⟩ := ih (row + 1) (c + 1) (update out (c + 1) v) hb2 hlen'
      constructor
      · intro hf k w cc hk hcc
        cases k with
        | zero =>
          have : cc = c + 1 := rowInCase_unique hmono (by simpa using hcc) hb1
          subst this
          rw [dissolveLoop_keep _ _ _ _ _ _ (le_refl _)]
          simpa using hk
        | succ k =>
          exact i1 hf k w cc (by simpa using hk) (by rw [show row + 1 + k = row + (k + 1) by omega]; exact hcc)
      · intro hf
        obtain ⟨k, w, cc, hk, hcc, hor⟩ := i2 hf
        refine ⟨k + 1, w, cc, by simpa using hk, by rw [show row + (k + 1) = row + 1 + k by omega]; exact hcc, ?_⟩
        left
        rcases hor with ⟨k', v', hk', hcc', hne⟩ | ⟨hcc2, hne⟩
        · exact ⟨k' + 1, v', by simpa using hk', by rw [show row + (k' + 1) = row + 1 + k' by omega]; exact hcc', hne⟩
        · refine ⟨0, v, by simp, by rw [hcc2]; simpa using hb1, ?_⟩
          rw [update_self] at hne
          exact Ne.symm hne
    · have hbump : bump ends c row = c := by simp [bump, hb]
      rw [hbump] at hb1 hb2
      simp only [hb, if_false]
      by_cases hv : out c = v
      · simp only [hv, bne_self_eq_false, Bool.false_eq_true, if_false]
        obtain ⟨i1, i2⟩ := ih (row + 1) c out hb2 hlen'
        constructor
        · intro hf k w cc hk hcc
          cases k with
          | zero =>
            have : cc = c := rowInCase_unique hmono (by simpa using hcc) hb1
            subst this
            rw [dissolveLoop_keep _ _ _ _ _ _ (le_refl _), hv]
            simpa using hk
          | succ k =>
            exact i1 hf k w cc (by simpa using hk) (by rw [show row + 1 + k = row + (k + 1) by omega]; exact hcc)
        · intro hf
          obtain ⟨k, w, cc, hk, hcc, hor⟩ := i2 hf
          refine ⟨k + 1, w, cc, by simpa using hk, by rw [show row + (k + 1) = row + 1 + k by omega]; exact hcc, ?_⟩
          rcases hor with ⟨k', v', hk', hcc', hne⟩ | ⟨hcc2, hne⟩
          · exact Or.inl ⟨k' + 1, v', by simpa using hk',
              by rw [show row + (k' + 1) = row + 1 + k' by omega]; exact hcc', hne⟩
          · exact Or.inr ⟨hcc2, hv ▸ hne⟩
      · have : (out c != v) = true := by simpa using hv
        simp only [this, if_true]
        refine ⟨by simp, fun _ => ⟨0, v, c, by simp, by simpa using hb1, Or.inr ⟨rfl, hv⟩⟩⟩

/-- **C11 (no empty case).** For values with ordinary equality (no NaN) and no empty case after the first: if the flag is
clear, the per-case output has, for every row, the row's value at the row's case; if the flag is set, some case really
has two different values. -/
theorem C11_dissolve_partial {α : Type} [BEq α] [LawfulBEq α] [Zero α] (ends : List Nat) (data : List α)
    (h : NoEmptyCase ends) (hne : data ≠ []) (hlen : ∃ e ∈ ends, data.length ≤ e) :
    ∃ out flag, dissolve ends data = some (out, flag) ∧
      (flag = false → ∀ k v c, data[k]? = some v → RowInCase ends k c → out c = v) ∧
      (flag = true → ∃ k k' v v' c, data[k]? = some v ∧ data[k']? = some v' ∧ RowInCase ends k c ∧
        RowInCase ends k' c ∧ v ≠ v') := by
  cases data with
  | nil => exact absurd rfl hne
  | cons v rest =>
    obtain ⟨s1, s2⟩ := dissolveLoop_spec h (v :: rest) 0 0 (update (fun _ => (0 : α)) 0 v) (inv_zero ends)
      (fun _ => by simpa using hlen)
    refine ⟨_, _, rfl, ?_, ?_⟩
    · intro hf k w c hk hc
      exact s1 hf k w c hk (by simpa using hc)
    · intro hf
      obtain ⟨k, w, c, hk, hc, hor⟩ := s2 hf
      rcases hor with ⟨k', w', hk', hc', hw⟩ | ⟨hc2, hw⟩
      · exact ⟨k, k', w, w', c, hk, hk', by simpa using hc, by simpa using hc', hw⟩
      · rw [update_self] at hw
        subst hc2
        refine ⟨k, 0, w, v, 0, hk, by simp, by simpa using hc, ?_, Ne.symm hw⟩
        -- row 0 is in case 0 because some row is
        obtain ⟨_, e, he, hke⟩ := hc
        exact ⟨Or.inl rfl, e, he, by omega⟩

/-- Hypotheses met, both outcomes. -/
example : ((dissolve [2, 3, 5] [(7 : Int), 7, 8, 9, 9]).map (fun r => ((List.range 3).map r.1, r.2))) =
      some ([7, 8, 9], false) ∧
    ((dissolve [2, 3, 5] [(7 : Int), 7, 8, 9, 1]).map (fun r => r.2)) = some true := by decide

/-- **C11 violated (empty case).** Pointers `[0,1,1,2]`, values 5 and 7: success is reported, but the third case (the case
of the second row) is given 0 instead of 7. -/
theorem C11_fails_empty_case :
    RowInCase [1, 1, 2] 1 2 ∧
    (dissolve [1, 1, 2] [(5 : Int), 7]).map (fun r => (r.1 2, r.2)) = some (0, false) :=
  ⟨⟨Or.inr ⟨1, rfl, le_refl _⟩, 2, rfl, by decide⟩, by decide⟩

/-- Floating point comparison on integers with a NaN (`none`). -/
instance nanBEq : BEq (Option Int) where
  beq a b := match a, b with
    | some x, some y => x == y
    | _, _ => false

/-- **C11 (NaN).** A single row holding NaN is reported as varying (the first row is compared with itself), so the second
half of the property fails for missing data; nothing is lost, the variable is just not dissolved. -/
theorem C11_fails_nan :
    (@dissolve (Option Int) nanBEq ⟨some 0⟩ [1] [none]).map (fun r => r.2) = some true := by decide

end Larch.Props
