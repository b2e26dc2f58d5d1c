import Verif.Lemmas.KernelRun

namespace Larch.Kernel

open Function Larch Larch.Spec
open scoped BigOperators
open Classical

theorem codeG_congr (T : Tree) (θ : Nat → ℝ) (av : Nat → Bool) (V k : Nat → ℝ) (d0 d0' : Nat → Nat → ℝ) (p : Nat)
    (hd : ∀ n, d0 n p = d0' n p) :
    ∀ n, codeG T θ av V k d0 n p = codeG T θ av V k d0' n p := by
  intro n
  induction n using Nat.strong_induction_on with
  | _ n ih =>
    rw [codeG, codeG]
    have : (∑ c : Fin n, if (n, (c : Nat)) ∈ T.edges ∧ av c = true then
        k c * codeG T θ av V k d0 c p - (if slotIs T n p then k c * V c else 0) else 0) =
        ∑ c : Fin n, if (n, (c : Nat)) ∈ T.edges ∧ av c = true then
        k c * codeG T θ av V k d0' c p - (if slotIs T n p then k c * V c else 0) else 0 := by
      apply Finset.sum_congr rfl
      intro c _
      rw [ih c c.2]
    simp only [hd, this]

theorem codeRow_congr (T : Tree) (θ : Nat → ℝ) (av : Nat → Bool) (V k : Nat → ℝ) (d0 d0' : Nat → Nat → ℝ) (p : Nat)
    (hd : ∀ n, d0 n p = d0' n p) (n : Nat) :
    codeRow T θ av V k d0 n p = codeRow T θ av V k d0' n p := by
  unfold codeRow codeAcc
  simp only [codeG_congr T θ av V k d0 d0' p hd, hd]

theorem codeG_zero (T : Tree) (θ : Nat → ℝ) (av : Nat → Bool) (V k : Nat → ℝ) (d0 : Nat → Nat → ℝ) (p : Nat)
    (hd : ∀ n, d0 n p = 0) (hs : ∀ n, T.nAlts ≤ n → ¬ slotIs T n p) (hlow : ∀ e ∈ T.edges, T.nAlts ≤ e.1) :
    ∀ n, codeG T θ av V k d0 n p = 0 := by
  intro n
  induction n using Nat.strong_induction_on with
  | _ n ih =>
    rw [codeG_eq, if_neg (fun hh => hs n hh.1 hh.2)]
    unfold codeAcc
    rw [hd, zero_add]
    apply Finset.sum_eq_zero
    intro c _
    split_ifs with h1 h2
    · exact absurd h2 (hs n (hlow _ h1.1))
    · rw [ih c c.2]; ring
    · rfl

theorem codeRow_zero (T : Tree) (θ : Nat → ℝ) (av : Nat → Bool) (V k : Nat → ℝ) (d0 : Nat → Nat → ℝ) (p : Nat)
    (hd : ∀ n, d0 n p = 0) (hs : ∀ n, T.nAlts ≤ n → ¬ slotIs T n p) (hlow : ∀ e ∈ T.edges, T.nAlts ≤ e.1) (n : Nat) :
    codeRow T θ av V k d0 n p = 0 := by
  have hG := codeG_zero T θ av V k d0 p hd hs hlow
  unfold codeRow codeAcc
  by_cases hn : n = T.nNodes - 1
  · rw [if_pos hn, hd, zero_add]
    apply Finset.sum_eq_zero
    intro c _
    split_ifs with h1 h2
    · exact absurd h2 (hs n (hlow _ h1.1))
    · rw [hG]; ring
    · rfl
  · rw [if_neg hn]; exact hG n

theorem codeDP_congr {T : Tree} (θ : Nat → ℝ) (ch : Nat → ℝ) (V k P : Nat → ℝ) (row row' : Nat → Nat → ℝ) (p : Nat)
    (hr : ∀ n, row n p = row' n p) :
    ∀ n, codeDP T θ ch V k P row n p = codeDP T θ ch V k P row' n p := by
  have key : ∀ m n, T.nNodes - n = m → codeDP T θ ch V k P row n p = codeDP T θ ch V k P row' n p := by
    intro m
    induction m using Nat.strong_induction_on with
    | _ m ih =>
      intro n hn
      rw [codeDP, codeDP]
      congr 1
      apply Finset.sum_congr rfl
      intro j _
      rw [hr, hr, ih (T.nNodes - (n + 1 + j)) (by have := j.2; omega) _ rfl]
  exact fun n => key _ n rfl

theorem codeDP_zero {T : Tree} (θ : Nat → ℝ) (ch : Nat → ℝ) (V k P : Nat → ℝ) (row : Nat → Nat → ℝ) (p : Nat)
    (hr : ∀ n, row n p = 0) (hs : ∀ n, T.nAlts ≤ n → ¬ slotIs T n p) (hlow : ∀ e ∈ T.edges, T.nAlts ≤ e.1) :
    ∀ n, codeDP T θ ch V k P row n p = 0 := by
  have key : ∀ m n, T.nNodes - n = m → codeDP T θ ch V k P row n p = 0 := by
    intro m
    induction m using Nat.strong_induction_on with
    | _ m ih =>
      intro n hn
      rw [codeDP]
      split_ifs
      · rfl
      · apply Finset.sum_eq_zero
        intro j _
        split_ifs with h1 h2
        · exact absurd h2 (hs _ (hlow _ h1))
        · rw [hr, hr, ih (T.nNodes - (n + 1 + j)) (by have := j.2; omega) _ rfl]; ring
        · rfl
  exact fun n => key _ n rfl

theorem codeCoef_hold {hold : Nat → Bool} (M : Terms) (θ : Nat → ℝ) (co : Nat → ℝ) (ca : Nat → Nat → ℝ) (a : Nat)
    {p : Nat} (hp : hold p = true) : codeCoef hold M θ co ca a p = 0 := by
  unfold codeCoef codeSizeCoef
  simp [hp]

theorem codeCoef_congr {hold hold' : Nat → Bool} (M : Terms) (θ : Nat → ℝ) (co : Nat → ℝ) (ca : Nat → Nat → ℝ)
    (a : Nat) {p : Nat} (hp : hold p = hold' p) : codeCoef hold M θ co ca a p = codeCoef hold' M θ co ca a p := by
  unfold codeCoef codeSizeCoef
  rw [hp]

end Larch.Kernel
