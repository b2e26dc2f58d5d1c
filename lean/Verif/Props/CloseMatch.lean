import Verif.Model.CloseMatch
import Mathlib.Data.List.Perm.Basic
import Mathlib.Tactic.Linarith
import Mathlib.Tactic.NormNum

/-! # C200: similar names -/

namespace Larch.Props

open Larch.CloseMatch

variable {W K : Type} [LinearOrder W]

/-- What `difflib` promises: the quick ratios are upper bounds. -/
def Bounds (M : Matcher W K) : Prop := ∀ a b, M.ratio a b ≤ M.quick a b ∧ M.quick a b ≤ M.realQuick a b

/-- How alike a possibility is to the word. -/
def likeness (M : Matcher W K) (word x : W) : ℚ := M.ratio (M.fold x) (M.fold word)

theorem cm_total (a b : ℚ × W) : before a b = true ∨ before b a = true := by
  unfold before
  rcases lt_trichotomy a.1 b.1 with h | h | h
  · right; simp [h]
  · rcases le_total a.2 b.2 with h2 | h2
    · right; simp [h, h2]
    · left; simp [h, h2]
  · left; simp [h]

theorem cm_trans (a b c : ℚ × W) : before a b = true → before b c = true → before a c = true := by
  unfold before
  simp only [Bool.or_eq_true, Bool.and_eq_true, decide_eq_true_eq]
  rintro (h | ⟨h, h'⟩) (k | ⟨k, k'⟩)
  · left; linarith
  · left; rw [← k]; exact h
  · left; rw [h]; exact k
  · right; exact ⟨h.trans k, k'.trans h'⟩

omit [LinearOrder W] in
theorem cm_scored (M : Matcher W K) (hM : Bounds M) (word : W) (poss : List W) (cutoff : ℚ) :
    scored M word poss cutoff = (poss.filter (fun x => decide (cutoff ≤ likeness M word x))).map (fun x => (likeness M word x, x)) := by
  unfold scored likeness
  congr 1
  apply List.filter_congr
  intro x _
  have h := hM (M.fold x) (M.fold word)
  by_cases hc : cutoff ≤ M.ratio (M.fold x) (M.fold word)
  · simp [hc, hc.trans h.1, (hc.trans h.1).trans h.2]
  · simp [hc]

/-- **C200, the names of the message.** Without `excpt`, for a positive `n` and a cutoff between 0 and 1, the names returned and some others are together
the possibilities alike enough, each as often as it is there; there are `n` of them, or all; the most alike come first, of equally alike ones the
last in the alphabet; and none of the others is more alike than one returned. -/
theorem C200_best (M : Matcher W K) (hM : Bounds M) (word : W) (poss : List W) (n : Int) (cutoff : ℚ) (hn : 0 < n) (h0 : 0 ≤ cutoff) (h1 : cutoff ≤ 1) :
    ∃ ret others, closeMatches M word poss n cutoff false = .ok ret ∧
      (ret ++ others).Perm (poss.filter (fun x => decide (cutoff ≤ likeness M word x))) ∧
      ((ret.length : Int) = n ∨ ((ret.length : Int) < n ∧ others = [])) ∧
      (ret ++ others).Pairwise (fun x y => likeness M word y < likeness M word x ∨ (likeness M word x = likeness M word y ∧ y ≤ x)) := by
  obtain ⟨q, hq⟩ : ∃ q, q = (scored M word poss cutoff).insertionSort (fun a b => before a b = true) := ⟨_, rfl⟩
  have : Std.Total (fun a b : ℚ × W => before a b = true) := ⟨cm_total⟩
  have : IsTrans (ℚ × W) (fun a b => before a b = true) := ⟨cm_trans⟩
  have hsort : q.Pairwise (fun a b => before a b = true) := by rw [hq]; exact List.pairwise_insertionSort _ _
  have hperm : q.Perm (scored M word poss cutoff) := by rw [hq]; exact List.perm_insertionSort _ _
  have hval : ∀ e ∈ q, e.1 = likeness M word e.2 := by
    intro e he
    have := hperm.mem_iff.1 he
    rw [cm_scored M hM] at this
    obtain ⟨x, _, rfl⟩ := List.mem_map.1 this
    rfl
  have hlen : q.length = (q.map Prod.snd).length := by simp
  refine ⟨(q.take n.toNat).map Prod.snd, (q.drop n.toNat).map Prod.snd, ?_, ?_, ?_, ?_⟩
  · unfold closeMatches nlargest
    rw [if_neg (by simpa using hn), if_neg (by simp [h0, h1]), ← hq]
    rfl
  · rw [← List.map_append, List.take_append_drop]
    refine (hperm.map Prod.snd).trans ?_
    rw [cm_scored M hM, List.map_map]
    simp [Function.comp_def]
  · rw [List.length_map, List.length_take]
    rcases Nat.lt_or_ge q.length n.toNat with h | h
    · right
      refine ⟨by omega, ?_⟩
      rw [List.drop_eq_nil_of_le (by omega)]
      rfl
    · left; omega
  · rw [← List.map_append, List.take_append_drop, List.pairwise_map]
    refine hsort.imp_of_mem (fun {a b} ha hb h => ?_)
    unfold before at h
    simp only [Bool.or_eq_true, Bool.and_eq_true, decide_eq_true_eq] at h
    rwa [hval a ha, hval b hb] at h

/-- A matcher for numbers: alike if equal, half alike if of the same parity. -/
def cmMatcher : Matcher Nat Nat := ⟨id, fun a b => if a = b then 1 else if a % 2 = b % 2 then 1 / 2 else 0, fun _ _ => 1, fun _ _ => 1⟩

theorem cmx_bounds : Bounds cmMatcher := by
  intro a b
  refine ⟨?_, le_refl _⟩
  show (if a = b then (1 : ℚ) else if a % 2 = b % 2 then 1 / 2 else 0) ≤ 1
  split_ifs <;> norm_num

example : closeMatches cmMatcher 4 [1, 2, 4, 8, 6] 3 (1 / 10) false = .ok [4, 8, 6] := by decide +kernel

/-- **C200, a name that is there.** A possibility that is the word up to case and accents is among the names, unless there are `n` others as alike. -/
theorem C200_same_found (M : Matcher W K) (hM : Bounds M) (hone : ∀ a b, M.ratio a b ≤ 1) (hself : ∀ a, M.ratio a a = 1)
    (word : W) (poss : List W) (n : Int) (cutoff : ℚ) (hn : 0 < n) (h0 : 0 ≤ cutoff) (h1 : cutoff ≤ 1) (x : W) (hx : x ∈ poss)
    (hw : M.fold x = M.fold word) :
    ∃ ret, closeMatches M word poss n cutoff false = .ok ret ∧
      (x ∈ ret ∨ ((ret.length : Int) = n ∧ ∀ y ∈ ret, likeness M word y = 1)) := by
  obtain ⟨ret, others, r1, r2, r3, r4⟩ := C200_best M hM word poss n cutoff hn h0 h1
  have hl : likeness M word x = 1 := by unfold likeness; rw [hw]; exact hself _
  refine ⟨ret, r1, ?_⟩
  have hm : x ∈ ret ++ others := r2.mem_iff.2 (List.mem_filter.2 ⟨hx, by simpa [hl] using h1⟩)
  rcases List.mem_append.1 hm with h | h
  · exact Or.inl h
  · right
    refine ⟨?_, fun y hy => ?_⟩
    · rcases r3 with r3 | ⟨_, r3⟩
      · exact r3
      · rw [r3] at h; cases h
    · have hle : likeness M word y ≤ 1 := hone _ _
      rcases (List.pairwise_append.1 r4).2.2 y hy x h with k | k
      · rw [hl] at k; linarith
      · rw [k.1, hl]

example : (4 : Nat) ∈ [1, 2, 4] ∧ cmMatcher.fold 4 = cmMatcher.fold 4 := ⟨by decide, rfl⟩

/-- **C200, errors.** The arguments are refused exactly if `n` is not positive or the cutoff not between 0 and 1; with `excpt` there is always
that error, with the names that would have been returned. -/
theorem C200_errors (M : Matcher W K) (word : W) (poss : List W) (n : Int) (cutoff : ℚ) :
    (closeMatches M word poss n cutoff false = .error .value ↔ n ≤ 0 ∨ cutoff < 0 ∨ 1 < cutoff) ∧
      (∀ ret, closeMatches M word poss n cutoff false = .ok ret → closeMatches M word poss n cutoff true = .error (.wanted word ret)) := by
  unfold closeMatches
  by_cases a : 0 < n
  · by_cases b : 0 ≤ cutoff ∧ cutoff ≤ 1
    · simp only [a, b, not_true, if_false]
      refine ⟨⟨fun h => (by cases h), ?_⟩, fun ret h => ?_⟩
      · rintro (h | h | h)
        · omega
        · linarith [b.1]
        · linarith [b.2]
      · obtain rfl := Except.ok.inj h
        rfl
    · simp only [a, b, not_true, not_false_eq_true, if_false, if_true, true_iff]
      refine ⟨?_, fun ret h => (by cases h)⟩
      rcases lt_or_ge cutoff 0 with h | h
      · exact Or.inr (Or.inl h)
      · exact Or.inr (Or.inr (lt_of_not_ge (fun h' => b ⟨h, h'⟩)))
  · simp only [a, not_false_eq_true, if_true, true_iff]
    exact ⟨Or.inl (by omega), fun ret h => by cases h⟩

example : closeMatches cmMatcher 4 [1, 2] 0 (1 / 10) false = .error .value := by decide +kernel

omit [LinearOrder W] in
/-- **C200, case.** Words and possibilities that are the same up to case and accents are treated the same: the likenesses are equal. -/
theorem C200_case (M : Matcher W K) (word word' x x' : W) (h1 : M.fold word = M.fold word') (h2 : M.fold x = M.fold x') :
    likeness M word x = likeness M word' x' := by
  unfold likeness
  rw [h1, h2]

/-- **C200, what goes wrong.** Names that are there twice take places of others: with `n` copies of one, only it is named. -/
theorem C200_fails_copies (M : Matcher W K) (hM : Bounds M) (word a : W) (n : Nat) (hn : 0 < n) (cutoff : ℚ) (h0 : 0 ≤ cutoff) (h1 : cutoff ≤ 1)
    (others : List W) (ha : cutoff ≤ likeness M word a) (hb : ∀ b ∈ others, likeness M word b < likeness M word a) :
    closeMatches M word (List.replicate n a ++ others) n cutoff false = .ok (List.replicate n a) := by
  obtain ⟨ret, rest, r1, r2, r3, r4⟩ := C200_best M hM word (List.replicate n a ++ others) n cutoff (by exact_mod_cast hn) h0 h1
  rw [r1]
  congr 1
  have hcount : n ≤ (ret ++ rest).count a := by
    rw [r2.count_eq, List.filter_append, List.count_append]
    have : (List.replicate n a).filter (fun x => decide (cutoff ≤ likeness M word x)) = List.replicate n a :=
      List.filter_eq_self.2 (fun x hx => by rw [List.eq_of_mem_replicate hx]; simpa using ha)
    rw [this, List.count_replicate_self]
    omega
  have hle : ∀ y ∈ ret ++ rest, y ≠ a → likeness M word y < likeness M word a := by
    intro y hy hya
    rcases List.mem_append.1 (List.mem_filter.1 (r2.mem_iff.1 hy)).1 with h | h
    · exact absurd (List.eq_of_mem_replicate h) hya
    · exact hb y h
  have hlen : ret.length ≤ n := by rcases r3 with h | ⟨h, _⟩ <;> omega
  have hall : ∀ y ∈ ret, y = a := by
    intro y hy
    by_contra hya
    have hnot : a ∉ rest := by
      intro har
      have h1 := hle y (List.mem_append_left _ hy) hya
      rcases (List.pairwise_append.1 r4).2.2 y hy a har with k | k
      · exact absurd (h1.trans k) (lt_irrefl _)
      · rw [k.1] at h1; exact lt_irrefl _ h1
    rw [List.count_append, List.count_eq_zero_of_not_mem hnot, Nat.add_zero] at hcount
    have hc : ret.count a < ret.length := by
      rcases Nat.lt_or_ge (ret.count a) ret.length with h | h
      · exact h
      · have := List.count_eq_length.1 (le_antisymm List.count_le_length h) y hy
        exact absurd this.symm hya
    omega
  have : n ≤ ret.length := by
    rcases r3 with h | ⟨_, h⟩
    · omega
    · rw [h, List.append_nil] at hcount
      exact hcount.trans List.count_le_length
  exact List.eq_replicate_iff.2 ⟨by omega, hall⟩

example : closeMatches cmMatcher 4 [4, 4, 4, 8, 6] 3 (1 / 10) false = .ok [4, 4, 4] := by decide +kernel

end Larch.Props
