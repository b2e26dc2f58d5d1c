import Verif.Spec.Constraints
import Mathlib.Analysis.Calculus.Deriv.Basic
import Mathlib.Analysis.Calculus.Deriv.Add
import Mathlib.Analysis.Calculus.Deriv.Mul
import Mathlib.Analysis.Calculus.LocalExtr.Basic
import Mathlib.Tactic.Linarith
import Mathlib.Tactic.Positivity
import Mathlib.Tactic.FieldSimp
import Mathlib.Tactic.Ring
import Mathlib.Tactic.NormNum

/-!
# C26, C27, C59, C60: constraints
-/

namespace Larch.Props

open Larch Larch.Con

theorem loc_spec {names : List String} {p : String} {i : Nat} (h : loc names p = some i) :
    i < names.length ∧ names.getD i "" = p := by
  unfold loc at h
  rw [List.findIdx?_eq_some_iff_getElem] at h
  obtain ⟨hi, h1, -⟩ := h
  exact ⟨hi, by simp [hi] at h1 ⊢; exact h1⟩

theorem vec_loc {names : List String} {p : String} {i : Nat} (h : loc names p = some i) (v : String → ℝ) :
    vec names v i = v p := by rw [vec, (loc_spec h).2]

theorem loc_ne {names : List String} {p q : String} {i j : Nat} (hp : loc names p = some i) (hq : loc names q = some j)
    (h : p ≠ q) : i ≠ j := by
  rintro rfl
  exact h ((loc_spec hp).2.symm.trans (loc_spec hq).2)

/-! ## C26 -/

/-- C26, ordering constraints. -/
theorem C26_ordering (c : Con.Ordering) (names : List String) (scale : ℝ) (hs : 0 < scale) (v : String → ℝ) (L : OrderingL)
    (h : c.link names scale = .ok L) : 0 ≤ L.fn (vec names v) ↔ c.Holds v := by
  unfold Ordering.link at h
  split at h
  · rename_i i j hi hj
    obtain rfl := Except.ok.inj h
    simp only [OrderingL.fn, vec_loc hi, vec_loc hj, Ordering.Holds]
    rw [mul_nonneg_iff_of_pos_right hs, sub_nonneg]
  · simp at h

theorem nonneg_pyMin {a b : X} (hb : b ≠ .nan) : NonNeg (pyMin a b) ↔ NonNeg a ∧ NonNeg b := by
  unfold pyMin
  by_cases hab : X.gt a b
  · rw [if_pos hab]
    cases a <;> cases b <;> simp_all [NonNeg, X.gt]
    intro h; linarith
  · rw [if_neg hab]
    cases a <;> cases b <;> simp_all [NonNeg, X.gt]
    intro h; linarith

theorem nonneg_minFun (L : FixedL) (hs : 0 < L.scale) (x : Nat → ℝ) :
    NonNeg (L.minFun x) ↔ ∀ m, L.mn = some m → AtLeast (x L.i) m := by
  unfold FixedL.minFun
  cases hm : L.mn with
  | none => simp [NonNeg]
  | some m =>
    simp only [Option.some.injEq, forall_eq']
    cases m with
    | fin r => simp [NonNeg, AtLeast, mul_nonneg_iff_of_pos_right hs]
    | ninf => show NonNeg (X.mul (X.add (.fin (x L.i)) .pinf) _) ↔ _; simp [X.add, X.mul, X.infSign, hs, NonNeg, AtLeast]
    | pinf => show NonNeg (X.mul (X.add (.fin (x L.i)) .ninf) _) ↔ _; simp [X.add, X.mul, X.infSign, hs, NonNeg, AtLeast]
    | nan => show NonNeg (X.mul (X.add (.fin (x L.i)) .nan) _) ↔ _; simp [X.add, X.mul, NonNeg, AtLeast]

theorem nonneg_maxFun (L : FixedL) (hs : 0 < L.scale) (x : Nat → ℝ) :
    NonNeg (L.maxFun x) ↔ ∀ m, L.mx = some m → AtMost (x L.i) m := by
  unfold FixedL.maxFun
  cases hm : L.mx with
  | none => simp [NonNeg]
  | some m =>
    simp only [Option.some.injEq, forall_eq']
    cases m with
    | fin r => simp [NonNeg, AtMost, mul_nonneg_iff_of_pos_right hs]
    | ninf => show NonNeg (X.mul (X.add .ninf (.fin (-(x L.i)))) _) ↔ _; simp [X.add, X.mul, X.infSign, hs, NonNeg, AtMost]
    | pinf => show NonNeg (X.mul (X.add .pinf (.fin (-(x L.i)))) _) ↔ _; simp [X.add, X.mul, X.infSign, hs, NonNeg, AtMost]
    | nan => show NonNeg (X.mul (X.add .nan (.fin (-(x L.i)))) _) ↔ _; simp [X.add, X.mul, NonNeg, AtMost]

theorem maxFun_ne_nan (L : FixedL) (hs : 0 < L.scale) (x : Nat → ℝ) (h : L.mx ≠ some .nan) : L.maxFun x ≠ .nan := by
  unfold FixedL.maxFun
  cases hm : L.mx with
  | none => simp
  | some m =>
    cases m with
    | fin r => simp
    | ninf => show X.mul (X.add .ninf (.fin (-(x L.i)))) _ ≠ _; simp [X.add, X.mul, X.infSign, hs]
    | pinf => show X.mul (X.add .pinf (.fin (-(x L.i)))) _ ≠ _; simp [X.add, X.mul, X.infSign, hs]
    | nan => exact absurd hm h

/-- C26, bounds on one parameter (bounds may be absent or infinite). -/
theorem C26_fixed (c : Fixed) (names : List String) (scale : ℝ) (hs : 0 < scale) (hn : c.mx ≠ some .nan) (v : String → ℝ)
    (L : FixedL) (h : c.link names scale = .ok L) : NonNeg (L.fn (vec names v)) ↔ c.Holds v := by
  unfold Fixed.link at h
  split at h
  · rename_i i hi
    obtain rfl := Except.ok.inj h
    unfold FixedL.fn
    rw [nonneg_pyMin (maxFun_ne_nan _ hs _ hn), nonneg_minFun _ hs, nonneg_maxFun _ hs]
    simp only [vec_loc hi, Fixed.Holds]
  · simp at h

theorem scaling_pos {r : ℝ} (hr : 0 < r) : 0 < max r (1 / r) := lt_of_lt_of_le hr (le_max_left _ _)

theorem scaling_neg {r : ℝ} (hr : r < 0) : max r (1 / r) < 0 := max_lt hr (one_div_neg.2 hr)

theorem den_pos {d : ℝ} {bmin bmax : X} (h : DenOk d bmin bmax) (hg : ge0 bmin) : 0 < d := by
  obtain ⟨h0, h1, -⟩ := h
  cases bmin with
  | fin r => exact lt_of_le_of_ne (le_trans hg h1) (Ne.symm h0)
  | pinf => exact absurd h1 id
  | ninf => exact absurd hg id
  | nan => exact absurd hg id

theorem den_neg {d : ℝ} {bmin bmax : X} (h : DenOk d bmin bmax) (hg : le0 bmax) : d < 0 := by
  obtain ⟨h0, -, h1⟩ := h
  cases bmax with
  | fin r => exact lt_of_le_of_ne (le_trans h1 hg) h0
  | pinf => exact absurd hg id
  | ninf => exact absurd h1 id
  | nan => exact absurd hg id

/-- The sign of one side of a ratio constraint: `k` is the scaling. -/
theorem side_pos {n d r k : ℝ} (hd : 0 < d) : 0 ≤ n * (1 * k) + d * (-r * k) ↔ 0 ≤ k * (n / d - r) := by
  have : n * (1 * k) + d * (-r * k) = d * (k * (n / d - r)) := by field_simp; ring
  rw [this, mul_nonneg_iff_of_pos_left hd]

theorem side_neg {n d r k : ℝ} (hd : d < 0) : 0 ≤ n * (-1 * k) + d * (r * k) ↔ 0 ≤ k * (n / d - r) := by
  have hd' : d ≠ 0 := ne_of_lt hd
  have : n * (-1 * k) + d * (r * k) = (-d) * (k * (n / d - r)) := by field_simp; ring
  rw [this, mul_nonneg_iff_of_pos_left (by linarith)]

theorem minCoef_spec {scale : ℝ} {bmin bmax : X} {r : ℝ} {m : ℝ × ℝ} (h : minCoef scale bmin bmax (some r) = .ok m) {n d : ℝ}
    (hd : DenOk d bmin bmax) : r ≠ 0 ∧ (0 ≤ n * m.1 + d * m.2 ↔ 0 ≤ (max r (1 / r) * scale) * (n / d - r)) := by
  unfold minCoef at h
  simp only at h
  split at h
  · simp at h
  · rename_i hr
    refine ⟨hr, ?_⟩
    split at h
    · rename_i hg
      obtain rfl := Except.ok.inj h
      exact side_pos (den_pos hd hg)
    · split at h
      · rename_i hg
        obtain rfl := Except.ok.inj h
        exact side_neg (den_neg hd hg)
      · simp at h

theorem maxCoef_spec {scale : ℝ} {bmin bmax : X} {r : ℝ} {m : ℝ × ℝ} (h : maxCoef scale bmin bmax (some r) = .ok m) {n d : ℝ}
    (hd : DenOk d bmin bmax) : r ≠ 0 ∧ (0 ≤ n * m.1 + d * m.2 ↔ 0 ≤ (max r (1 / r) * scale) * (r - n / d)) := by
  unfold maxCoef at h
  simp only at h
  split at h
  · simp at h
  · rename_i hr
    refine ⟨hr, ?_⟩
    split at h
    · rename_i hg
      obtain rfl := Except.ok.inj h
      have hd' := den_pos hd hg
      have : n * (-1 * (max r (1 / r) * scale)) + d * (r * (max r (1 / r) * scale)) =
          d * ((max r (1 / r) * scale) * (r - n / d)) := by
        generalize max r (1 / r) * scale = k; field_simp; ring
      rw [this, mul_nonneg_iff_of_pos_left hd']
    · split at h
      · rename_i hg
        obtain rfl := Except.ok.inj h
        have hd' := den_neg hd hg
        have hd0 : d ≠ 0 := ne_of_lt hd'
        have : n * (1 * (max r (1 / r) * scale)) + d * (-r * (max r (1 / r) * scale)) =
            (-d) * ((max r (1 / r) * scale) * (r - n / d)) := by
          generalize max r (1 / r) * scale = k; field_simp; ring
        rw [this, mul_nonneg_iff_of_pos_left (by linarith)]
      · simp at h

theorem link_ratio {c : Ratio} {names : List String} {bmin bmax : X} {scale : ℝ} {L : RatioL}
    (h : c.link names bmin bmax scale = .ok L) :
    loc names c.num = some L.iNum ∧ loc names c.den = some L.iDen ∧
      minCoef scale bmin bmax c.minR = .ok (L.cminNum, L.cminDen) ∧ maxCoef scale bmin bmax c.maxR = .ok (L.cmaxNum, L.cmaxDen) := by
  unfold Ratio.link at h
  split at h
  · rename_i i j hi hj
    split at h
    · simp at h
    · rename_i mn hmn
      split at h
      · simp at h
      · rename_i mx hmx
        obtain rfl := Except.ok.inj h
        exact ⟨hi, hj, hmn, hmx⟩
  · simp at h

/-- C26, ratios: for positive limits and a denominator inside its bounds.  (Missing for the full C26: negative and zero limits,
`C26_fails_negative`, `C26_fails_zero`.) -/
theorem C26_ratio_partial (c : Ratio) (names : List String) (bmin bmax : X) (scale : ℝ) (hs : 0 < scale) (v : String → ℝ)
    (hd : DenOk (v c.den) bmin bmax) (hmin : ∀ r, c.minR = some r → 0 < r) (hmax : ∀ r, c.maxR = some r → 0 < r) (L : RatioL)
    (h : c.link names bmin bmax scale = .ok L) : 0 ≤ L.fn (vec names v) ↔ c.Holds v := by
  obtain ⟨hi, hj, hmn, hmx⟩ := link_ratio h
  unfold RatioL.fn
  rw [le_min_iff, RatioL.minFun, RatioL.maxFun, vec_loc hi, vec_loc hj]
  refine and_congr ?_ ?_
  · cases hr : c.minR with
    | none =>
      rw [hr] at hmn
      have h0 := Prod.mk.inj (Except.ok.inj hmn)
      simp [← h0.1, ← h0.2]
    | some r =>
      rw [hr] at hmn
      rw [(minCoef_spec hmn hd).2, mul_nonneg_iff_of_pos_left (mul_pos (scaling_pos (hmin r hr)) hs), sub_nonneg]
      simp
  · cases hr : c.maxR with
    | none =>
      rw [hr] at hmx
      have h0 := Prod.mk.inj (Except.ok.inj hmx)
      simp [← h0.1, ← h0.2]
    | some r =>
      rw [hr] at hmx
      rw [(maxCoef_spec hmx hd).2, mul_nonneg_iff_of_pos_left (mul_pos (scaling_pos (hmax r hr)) hs), sub_nonneg]
      simp

/-- Linking succeeds whenever the parameters exist, the limits are not zero and the denominator's sign is known. -/
theorem link_ratio_ok (c : Ratio) (names : List String) (bmin bmax : X) (scale : ℝ) (h1 : c.num ∈ names) (h2 : c.den ∈ names)
    (h3 : c.minR ≠ some 0) (h4 : c.maxR ≠ some 0) (h5 : ge0 bmin ∨ le0 bmax) : ∃ L, c.link names bmin bmax scale = .ok L := by
  have hloc : ∀ p ∈ names, ∃ i, loc names p = some i := by
    intro p hp
    cases hl : loc names p with
    | some i => exact ⟨i, rfl⟩
    | none =>
      rw [loc, List.findIdx?_eq_none_iff] at hl
      simpa using hl p hp
  obtain ⟨i, hi⟩ := hloc _ h1
  obtain ⟨j, hj⟩ := hloc _ h2
  have hmin : ∃ m, minCoef scale bmin bmax c.minR = .ok m := by
    unfold minCoef
    split
    · exact ⟨_, rfl⟩
    · rename_i r hr
      have : r ≠ 0 := by rintro rfl; exact h3 hr
      simp only [this, if_false]
      split
      · exact ⟨_, rfl⟩
      · rename_i hb
        rw [if_pos (h5.resolve_left hb)]
        exact ⟨_, rfl⟩
  have hmax : ∃ m, maxCoef scale bmin bmax c.maxR = .ok m := by
    unfold maxCoef
    split
    · exact ⟨_, rfl⟩
    · rename_i r hr
      have : r ≠ 0 := by rintro rfl; exact h4 hr
      simp only [this, if_false]
      split
      · exact ⟨_, rfl⟩
      · rename_i hb
        rw [if_pos (h5.resolve_left hb)]
        exact ⟨_, rfl⟩
  obtain ⟨m, hm⟩ := hmin
  obtain ⟨M, hM⟩ := hmax
  refine ⟨⟨i, j, m.1, m.2, M.1, M.2⟩, ?_⟩
  rw [Ratio.link, hi, hj]; simp only [hm, hM]

/-- "value of time between 3 and 5", denominator bounded above by 0: the hypotheses are met and the constraint distinguishes values. -/
example : ∃ L, (Ratio.mk "time" "cost" (some 3) (some 5)).link ["cost", "time"] .ninf (.fin 0) 10 = .ok L ∧
    0 ≤ L.fn (vec ["cost", "time"] (fun p => if p = "cost" then -1 else -4)) ∧
    ¬ 0 ≤ L.fn (vec ["cost", "time"] (fun p => if p = "cost" then -1 else -2)) := by
  obtain ⟨L, hL⟩ := link_ratio_ok (Ratio.mk "time" "cost" (some 3) (some 5)) ["cost", "time"] .ninf (.fin 0) 10 (by simp)
    (by simp) (by simp) (by simp) (Or.inr (by simp [le0]))
  refine ⟨L, hL, ?_, ?_⟩
  · rw [C26_ratio_partial _ _ _ _ 10 (by norm_num) _ (by simp [DenOk, AtLeast, AtMost]) (by simp) (by simp) L hL]
    constructor <;> intro r hr <;> obtain rfl := Option.some.inj hr <;> simp <;> norm_num
  · rw [C26_ratio_partial _ _ _ _ 10 (by norm_num) _ (by simp [DenOk, AtLeast, AtMost]) (by simp) (by simp) L hL]
    rintro ⟨h1, -⟩
    have := h1 3 rfl
    simp at this
    norm_num at this

/-- C26 fails for every negative limit: the constraint function of `num / den ≥ r` is non-negative exactly when
`num / den ≤ r`. -/
theorem C26_fails_negative (num den : String) (r : ℝ) (hr : r < 0) (names : List String) (bmin bmax : X) (scale : ℝ) (hs : 0 < scale)
    (v : String → ℝ) (hd : DenOk (v den) bmin bmax) (L : RatioL)
    (h : (Ratio.mk num den (some r) none).link names bmin bmax scale = .ok L) :
    0 ≤ L.fn (vec names v) ↔ v num / v den ≤ r := by
  obtain ⟨hi, hj, hmn, hmx⟩ := link_ratio h
  unfold RatioL.fn
  rw [le_min_iff, RatioL.minFun, RatioL.maxFun, vec_loc hi, vec_loc hj]
  have h0 := Prod.mk.inj (Except.ok.inj hmx)
  rw [(minCoef_spec hmn hd).2, ← h0.1, ← h0.2]
  have hk := mul_neg_of_neg_of_pos (scaling_neg hr) hs
  simp only [mul_zero, add_zero, le_refl, and_true]
  constructor
  · intro h1; nlinarith [mul_nonneg_iff.1 h1]
  · intro h1; exact mul_nonneg_of_nonpos_of_nonpos (le_of_lt hk) (by linarith)

example : ∃ L, (Ratio.mk "a" "b" (some (-2)) none).link ["a", "b"] (.fin 0) .pinf 10 = .ok L :=
  link_ratio_ok _ _ _ _ _ (by simp) (by simp) (by simp) (by simp) (Or.inl (by simp [ge0]))

/-- C26 fails for the limit zero: the constraint `num / den ≥ 0` cannot be linked to any model. -/
theorem C26_fails_zero (num den : String) (maxR : Option ℝ) (names : List String) (h1 : num ∈ names) (h2 : den ∈ names)
    (bmin bmax : X) (scale : ℝ) : (Ratio.mk num den (some 0) maxR).link names bmin bmax scale = .error .zeroDiv := by
  have hloc : ∀ p ∈ names, ∃ i, loc names p = some i := by
    intro p hp
    cases hl : loc names p with
    | some i => exact ⟨i, rfl⟩
    | none =>
      rw [loc, List.findIdx?_eq_none_iff] at hl
      simpa using hl p hp
  obtain ⟨i, hi⟩ := hloc _ h1
  obtain ⟨j, hj⟩ := hloc _ h2
  simp [Ratio.link, hi, hj, minCoef]

/-! ### The rendering as linear constraints says the same -/

theorem sum_two {i j n : Nat} (hi : i < n) (hj : j < n) (hij : i ≠ j) (a b : ℝ) (x : Nat → ℝ) :
    ∑ k ∈ Finset.range n, Function.update (Function.update (fun _ => (0 : ℝ)) i a) j b k * x k = x i * a + x j * b := by
  have : ∀ k, Function.update (Function.update (fun _ => (0 : ℝ)) i a) j b k * x k =
      (if k = i then x i * a else 0) + (if k = j then x j * b else 0) := by
    intro k
    by_cases h1 : k = j
    · subst h1; simp [Ne.symm hij, mul_comm]
    · by_cases h2 : k = i
      · subst h2; simp [h1, mul_comm]
      · simp [h1, h2]
  rw [Finset.sum_congr rfl (fun k _ => this k), Finset.sum_add_distrib]
  simp [hi, hj]

theorem sum_one {i n : Nat} (hi : i < n) (a : ℝ) (x : Nat → ℝ) :
    ∑ k ∈ Finset.range n, Function.update (fun _ => (0 : ℝ)) i a k * x k = a * x i := by
  have : ∀ k, Function.update (fun _ => (0 : ℝ)) i a k * x k = if k = i then a * x i else 0 := by
    intro k
    by_cases h : k = i
    · subst h; simp
    · simp [h]
  rw [Finset.sum_congr rfl (fun k _ => this k)]
  simp [hi]

/-- C26: the linear constraints given to `trust-constr` are satisfied exactly when the constraint function is non-negative
(ratios). -/
theorem C26_ratio_linear (c : Ratio) (names : List String) (bmin bmax : X) (scale : ℝ) (v : String → ℝ) (hne : c.num ≠ c.den)
    (L : RatioL) (h : c.link names bmin bmax scale = .ok L) :
    (∀ r ∈ L.linear, r.Sat names.length (vec names v)) ↔ 0 ≤ L.fn (vec names v) := by
  obtain ⟨hi, hj, -, -⟩ := link_ratio h
  have hij := loc_ne hi hj hne
  simp only [RatioL.linear, List.mem_cons, List.not_mem_nil, or_false, forall_eq_or_imp, forall_eq, LinRow.Sat, AtMost, and_true,
    AtLeast, sum_two (loc_spec hi).1 (loc_spec hj).1 hij]
  rw [RatioL.fn, le_min_iff]
  rfl

/-- C26: the same for orderings. -/
theorem C26_ordering_linear (c : Con.Ordering) (names : List String) (scale : ℝ) (v : String → ℝ) (hne : c.less ≠ c.more)
    (L : OrderingL) (h : c.link names scale = .ok L) :
    (∀ r ∈ L.linear, r.Sat names.length (vec names v)) ↔ 0 ≤ L.fn (vec names v) := by
  unfold Ordering.link at h
  split at h
  · rename_i i j hi hj
    obtain rfl := Except.ok.inj h
    have hij := loc_ne hj hi (Ne.symm hne)
    simp only [OrderingL.linear, List.mem_cons, List.not_mem_nil, or_false, forall_eq, LinRow.Sat, AtMost, and_true, AtLeast,
      sum_two (loc_spec hj).1 (loc_spec hi).1 hij, OrderingL.fn]
    ring_nf
  · simp at h

/-- C26: the same for bounds, here directly against the meaning. -/
theorem C26_fixed_linear (c : Fixed) (names : List String) (scale : ℝ) (v : String → ℝ) (L : FixedL)
    (h : c.link names scale = .ok L) : (∀ r ∈ L.linear, r.Sat names.length (vec names v)) ↔ c.Holds v := by
  unfold Fixed.link at h
  split at h
  · rename_i i hi
    obtain rfl := Except.ok.inj h
    simp only [FixedL.linear, List.mem_cons, List.not_mem_nil, or_false, forall_eq, LinRow.Sat, sum_one (loc_spec hi).1, one_mul,
      vec_loc hi, Fixed.Holds]
    refine and_congr ?_ ?_
    · cases c.mn <;> simp [AtLeast]
    · cases c.mx <;> simp [AtMost]
  · simp at h

example : ∃ L, (Con.Ordering.mk "a" "b").link ["a", "b", "c"] 10 = .ok L := ⟨_, rfl⟩
example : ∃ L, (Fixed.mk "b" (some (.fin 1)) none).link ["a", "b", "c"] 10 = .ok L := ⟨_, rfl⟩

/-! ## C27 -/

/-- A function with two linear pieces: where it is differentiable, its derivative is the slope of the chosen piece. -/
theorem deriv_min_lin (a1 b1 a2 b2 t : ℝ) (hd : DifferentiableAt ℝ (fun s => min (a1 * s + b1) (a2 * s + b2)) t) :
    deriv (fun s => min (a1 * s + b1) (a2 * s + b2)) t = if a1 * t + b1 < a2 * t + b2 then a1 else a2 := by
  have hlin : ∀ a b : ℝ, HasDerivAt (fun s => a * s + b) a t := by
    intro a b
    simpa using ((hasDerivAt_id t).const_mul a).add_const b
  have hc : ∀ a b : ℝ, ContinuousAt (fun s => a * s + b) t := fun a b => (hlin a b).continuousAt
  split
  · rename_i hlt
    have : (fun s => min (a1 * s + b1) (a2 * s + b2)) =ᶠ[nhds t] (fun s => a1 * s + b1) := by
      filter_upwards [(hc a1 b1).eventually_lt (hc a2 b2) hlt] with s hs
      exact min_eq_left (le_of_lt hs)
    exact ((hlin a1 b1).congr_of_eventuallyEq this).deriv
  · rename_i hnlt
    rcases lt_or_eq_of_le (not_lt.1 hnlt) with hlt | heq
    · have : (fun s => min (a1 * s + b1) (a2 * s + b2)) =ᶠ[nhds t] (fun s => a2 * s + b2) := by
        filter_upwards [(hc a2 b2).eventually_lt (hc a1 b1) hlt] with s hs
        exact min_eq_right (le_of_lt hs)
      exact ((hlin a2 b2).congr_of_eventuallyEq this).deriv
    · -- both pieces touch: the difference from either piece has an extremum at t
      obtain ⟨D, hD⟩ : ∃ D, HasDerivAt (fun s => min (a1 * s + b1) (a2 * s + b2)) D t := ⟨_, hd.hasDerivAt⟩
      have h2 : HasDerivAt (fun s => min (a1 * s + b1) (a2 * s + b2) - (a2 * s + b2)) (D - a2) t := hD.sub (hlin a2 b2)
      have hmax : IsLocalMax (fun s => min (a1 * s + b1) (a2 * s + b2) - (a2 * s + b2)) t := by
        refine Filter.Eventually.of_forall fun s => ?_
        have e1 : min (a1 * s + b1) (a2 * s + b2) - (a2 * s + b2) ≤ 0 := by linarith [min_le_right (a1 * s + b1) (a2 * s + b2)]
        have e2 : min (a1 * t + b1) (a2 * t + b2) - (a2 * t + b2) = 0 := by rw [heq, min_self]; ring
        simp only []
        rw [e2]; exact e1
      have := hmax.hasDerivAt_eq_zero h2
      rw [hD.deriv]; linarith

/-- C27, ratios: in every coordinate in which the constraint function is differentiable, `jac` is its partial derivative. -/
theorem C27_ratio (c : Ratio) (names : List String) (bmin bmax : X) (scale : ℝ) (hne : c.num ≠ c.den)
    (L : RatioL) (h : c.link names bmin bmax scale = .ok L) (x : Nat → ℝ) (k : Nat)
    (hd : DifferentiableAt ℝ (fun t => L.fn (Function.update x k t)) (x k)) :
    deriv (fun t => L.fn (Function.update x k t)) (x k) = L.jac x k := by
  obtain ⟨hi, hj, -, -⟩ := link_ratio h
  have hij := loc_ne hi hj hne
  by_cases h1 : k = L.iNum
  · have hk : ∀ t, L.fn (Function.update x k t) = min (L.cminNum * t + x L.iDen * L.cminDen) (L.cmaxNum * t + x L.iDen * L.cmaxDen) := by
      intro t
      simp [RatioL.fn, RatioL.minFun, RatioL.maxFun, h1, Ne.symm hij, mul_comm]
    simp only [hk] at hd ⊢
    rw [deriv_min_lin _ _ _ _ _ hd]
    have e : (L.cminNum * x k + x L.iDen * L.cminDen < L.cmaxNum * x k + x L.iDen * L.cmaxDen) ↔ L.minFun x < L.maxFun x := by
      rw [h1, RatioL.minFun, RatioL.maxFun, mul_comm (x L.iNum), mul_comm (x L.iNum)]
    simp only [RatioL.jac, e]
    split <;> simp [h1, hij]
  · by_cases h2 : k = L.iDen
    · have hk : ∀ t, L.fn (Function.update x k t) =
          min (L.cminDen * t + x L.iNum * L.cminNum) (L.cmaxDen * t + x L.iNum * L.cmaxNum) := by
        intro t
        simp [RatioL.fn, RatioL.minFun, RatioL.maxFun, h2, hij, mul_comm, add_comm]
      simp only [hk] at hd ⊢
      rw [deriv_min_lin _ _ _ _ _ hd]
      have e : (L.cminDen * x k + x L.iNum * L.cminNum < L.cmaxDen * x k + x L.iNum * L.cmaxNum) ↔ L.minFun x < L.maxFun x := by
        rw [h2, RatioL.minFun, RatioL.maxFun, mul_comm (x L.iDen), mul_comm (x L.iDen), add_comm (x L.iNum * _),
          add_comm (x L.iNum * _)]
      simp only [RatioL.jac, e]
      split <;> simp [h2]
    · have hk : ∀ t, L.fn (Function.update x k t) = L.fn x := by
        intro t
        simp [RatioL.fn, RatioL.minFun, RatioL.maxFun, Ne.symm h1, Ne.symm h2]
      simp only [hk, deriv_const]
      unfold RatioL.jac
      split <;> simp [h1, h2]

/-- C27, orderings: everywhere. -/
theorem C27_ordering (c : Con.Ordering) (names : List String) (scale : ℝ) (hne : c.less ≠ c.more) (L : OrderingL)
    (h : c.link names scale = .ok L) (x : Nat → ℝ) (k : Nat) :
    HasDerivAt (fun t => L.fn (Function.update x k t)) (L.jac x k) (x k) := by
  unfold Ordering.link at h
  split at h
  · rename_i i j hi hj
    obtain rfl := Except.ok.inj h
    have hij := loc_ne hi hj hne
    by_cases h1 : k = j
    · subst h1
      have : (fun t => OrderingL.fn ⟨i, k, scale⟩ (Function.update x k t)) = fun t => (t - x i) * scale := by
        funext t; simp [OrderingL.fn, hij]
      rw [this]
      simpa [OrderingL.jac, Ne.symm hij] using ((hasDerivAt_id (x k)).sub_const (x i)).mul_const scale
    · by_cases h2 : k = i
      · subst h2
        have : (fun t => OrderingL.fn ⟨k, j, scale⟩ (Function.update x k t)) = fun t => (x j - t) * scale := by
          funext t; simp [OrderingL.fn, Ne.symm h1]
        rw [this]
        simpa [OrderingL.jac] using ((hasDerivAt_id (x k)).const_sub (x j)).mul_const scale
      · have : (fun t => OrderingL.fn ⟨i, j, scale⟩ (Function.update x k t)) = fun _ => OrderingL.fn ⟨i, j, scale⟩ x := by
          funext t; simp [OrderingL.fn, Ne.symm h1, Ne.symm h2]
        rw [this]
        simpa [OrderingL.jac, h1, h2] using hasDerivAt_const (x k) (OrderingL.fn ⟨i, j, scale⟩ x)
  · simp at h

/-- C27 needs the numerator and the denominator to be different parameters: for `p / p` the reported derivative is that of one side
only. -/
theorem C27_fails_same_parameter :
    ∃ L, (Ratio.mk "p" "p" (some 2) none).link ["p"] (.fin 0) .pinf 1 = .ok L ∧
      ∃ x : Nat → ℝ, HasDerivAt (fun t => L.fn (Function.update x 0 t)) (-2) (x 0) ∧ L.jac x 0 = -4 := by
  refine ⟨⟨0, 0, 2, -4, 0, 0⟩, ?_, fun _ => 1, ?_, ?_⟩
  · have h2 : max (2 : ℝ) (1 / 2) = 2 := max_eq_left (by norm_num)
    simp only [Ratio.link, loc, List.findIdx?_cons, minCoef, maxCoef, ge0, h2]
    norm_num
  · have : (fun t => RatioL.fn ⟨0, 0, 2, -4, 0, 0⟩ (Function.update (fun _ => (1 : ℝ)) 0 t)) =ᶠ[nhds 1] (fun t => (-2) * t) := by
      filter_upwards [eventually_gt_nhds (show (0 : ℝ) < 1 by norm_num)] with t ht
      simp only [RatioL.fn, RatioL.minFun, RatioL.maxFun, Function.update_self]
      rw [min_eq_left (by linarith)]
      ring
    have h := (hasDerivAt_id (1 : ℝ)).const_mul (-2)
    exact HasDerivAt.congr_of_eventuallyEq (by simpa using h) this
  · simp [RatioL.jac, RatioL.minFun, RatioL.maxFun]
    norm_num

/-- C27, bounds: with at least one finite bound (infinite ones count as absent, as in the bounds that larch makes from the frame)
the constraint function is a real function of the parameter, and wherever it is differentiable `jac` is its derivative. -/
theorem C27_fixed (c : Fixed) (names : List String) (scale : ℝ) (hs : 0 < scale) (L : FixedL) (h : c.link names scale = .ok L)
    (hmn : ∀ m, c.mn = some m → m = .ninf ∨ ∃ r, m = .fin r) (hmx : ∀ m, c.mx = some m → m = .pinf ∨ ∃ r, m = .fin r)
    (hone : (∃ r, c.mn = some (.fin r)) ∨ ∃ r, c.mx = some (.fin r)) (x : Nat → ℝ) (k : Nat) :
    ∃ f : ℝ → ℝ, (∀ t, L.fn (Function.update x k t) = .fin (f t)) ∧ (DifferentiableAt ℝ f (x k) → deriv f (x k) = L.jac x k) := by
  unfold Fixed.link at h
  split at h
  case h_2 => simp at h
  rename_i i hi
  obtain rfl := Except.ok.inj h
  -- the two sides
  have hminfin : ∀ r y, c.mn = some (.fin r) → FixedL.minFun ⟨i, c.mn, c.mx, scale⟩ y = .fin ((y i - r) * scale) := by
    intro r y hr; simp [FixedL.minFun, hr]
  have hmaxfin : ∀ r y, c.mx = some (.fin r) → FixedL.maxFun ⟨i, c.mn, c.mx, scale⟩ y = .fin ((r - y i) * scale) := by
    intro r y hr; simp [FixedL.maxFun, hr]
  have hmininf : ∀ y, (∀ r, c.mn ≠ some (.fin r)) → FixedL.minFun ⟨i, c.mn, c.mx, scale⟩ y = .pinf := by
    intro y hr
    unfold FixedL.minFun
    cases hm : c.mn with
    | none => rfl
    | some m =>
      rcases hmn m hm with rfl | ⟨r, rfl⟩
      · show X.mul (X.add (.fin (y i)) .pinf) _ = _; simp [X.add, X.mul, X.infSign, hs]
      · exact absurd hm (hr r)
  have hmaxinf : ∀ y, (∀ r, c.mx ≠ some (.fin r)) → FixedL.maxFun ⟨i, c.mn, c.mx, scale⟩ y = .pinf := by
    intro y hr
    unfold FixedL.maxFun
    cases hm : c.mx with
    | none => rfl
    | some m =>
      rcases hmx m hm with rfl | ⟨r, rfl⟩
      · show X.mul (X.add .pinf (.fin (-(y i)))) _ = _; simp [X.add, X.mul, X.infSign, hs]
      · exact absurd hm (hr r)
  have hupd : ∀ t, Function.update x k t i = if i = k then t else x i := by
    intro t; by_cases h : i = k <;> simp [h]
  -- one finite description: slopes and intercepts
  have key : ∃ a1 b1 a2 b2 : ℝ, (∀ y : Nat → ℝ, FixedL.fn ⟨i, c.mn, c.mx, scale⟩ y = .fin (min (a1 * y i + b1) (a2 * y i + b2))) ∧
      (∀ y : Nat → ℝ, FixedL.jac ⟨i, c.mn, c.mx, scale⟩ y =
        Function.update (fun _ => 0) i (if a1 * y i + b1 < a2 * y i + b2 then a1 else a2)) := by
    by_cases h1 : ∃ r, c.mn = some (.fin r)
    · obtain ⟨r, hr⟩ := h1
      by_cases h2 : ∃ R, c.mx = some (.fin R)
      · obtain ⟨R, hR⟩ := h2
        refine ⟨scale, -r * scale, -scale, R * scale, fun y => ?_, fun y => ?_⟩
        · simp only [FixedL.fn, pyMin, hminfin r y hr, hmaxfin R y hR, X.fin_gt_fin]
          split
          · rename_i hlt
            rw [X.fin_inj, min_eq_right]
            · ring
            · nlinarith
          · rename_i hlt
            rw [X.fin_inj, min_eq_left]
            · ring
            · nlinarith
        · simp only [FixedL.jac, hminfin r y hr, hmaxfin R y hR, X.fin_gt_fin]
          have e : ((y i - r) * scale < (R - y i) * scale) ↔ (scale * y i + -r * scale < -scale * y i + R * scale) := by
            constructor <;> intro h <;> nlinarith
          simp only [e]
          split <;> rfl
      · push Not at h2
        refine ⟨scale, -r * scale, scale, -r * scale, fun y => ?_, fun y => ?_⟩
        · simp only [FixedL.fn, pyMin, hminfin r y hr, hmaxinf y h2, X.gt, if_false, min_self]
          rw [X.fin_inj]; ring
        · simp only [FixedL.jac, hminfin r y hr, hmaxinf y h2, X.gt, if_true, ite_self]
    · push Not at h1
      obtain ⟨R, hR⟩ := hone.resolve_left (by rintro ⟨r, hr⟩; exact h1 r hr)
      refine ⟨-scale, R * scale, -scale, R * scale, fun y => ?_, fun y => ?_⟩
      · simp only [FixedL.fn, pyMin, hmininf y h1, hmaxfin R y hR, X.gt, if_true, min_self]
        rw [X.fin_inj]; ring
      · simp only [FixedL.jac, hmininf y h1, hmaxfin R y hR, X.gt, if_false, ite_self]
  obtain ⟨a1, b1, a2, b2, hf, hj⟩ := key
  refine ⟨fun t => min (a1 * (Function.update x k t i) + b1) (a2 * (Function.update x k t i) + b2), fun t => hf _, fun hd => ?_⟩
  rw [hj]
  by_cases hk : k = i
  · subst hk
    simp only [Function.update_self] at hd ⊢
    exact deriv_min_lin _ _ _ _ _ hd
  · simp [hk, Ne.symm hk]

/-- The hypotheses of `C27_fixed` for the bounds larch makes from a row of the frame with a minimum only. -/
example : ∃ L, (Fixed.mk "b" (some (.fin 1)) (some .pinf)).link ["a", "b", "c"] 10 = .ok L := ⟨_, rfl⟩

/-! ## C59: binding -/

/-- C59, orderings: reported as binding exactly when the two parameters are within `tol / scale` of each other. -/
theorem C59_ordering (c : Con.Ordering) (names : List String) (scale tol : ℝ) (hs : 0 < scale) (v : String → ℝ) (L : OrderingL)
    (h : c.link names scale = .ok L) : binding tol (L.fn (vec names v)) ↔ |v c.more - v c.less| < tol / scale := by
  unfold Ordering.link at h
  split at h
  · rename_i i j hi hj
    obtain rfl := Except.ok.inj h
    simp only [OrderingL.fn, vec_loc hi, vec_loc hj, binding, abs_mul, abs_of_pos hs]
    rw [lt_div_iff₀ hs]
  · simp at h

/-- C59, bounds: a bound reported as binding is within `tol / scale` of one of its limits. -/
theorem C59_fixed (c : Fixed) (names : List String) (scale tol : ℝ) (hs : 0 < scale) (v : String → ℝ) (L : FixedL)
    (h : c.link names scale = .ok L) (hb : bindingX tol (L.fn (vec names v))) :
    (∃ r, c.mn = some (.fin r) ∧ |v c.p - r| < tol / scale) ∨ ∃ r, c.mx = some (.fin r) ∧ |r - v c.p| < tol / scale := by
  unfold Fixed.link at h
  split at h
  case h_2 => simp at h
  rename_i i hi
  obtain rfl := Except.ok.inj h
  have hsplit : bindingX tol (FixedL.minFun ⟨i, c.mn, c.mx, scale⟩ (vec names v)) ∨
      bindingX tol (FixedL.maxFun ⟨i, c.mn, c.mx, scale⟩ (vec names v)) := by
    unfold FixedL.fn pyMin at hb
    split at hb
    · exact Or.inr hb
    · exact Or.inl hb
  rcases hsplit with hb | hb
  · left
    unfold FixedL.minFun at hb
    cases hm : c.mn with
    | none => simp [hm, bindingX] at hb
    | some m =>
      simp only [hm] at hb
      cases m with
      | fin r =>
        refine ⟨r, rfl, ?_⟩
        simp only [X.fin_sub, X.fin_mul, bindingX, abs_mul, abs_of_pos hs, vec_loc hi] at hb
        rwa [lt_div_iff₀ hs]
      | ninf => exact absurd hb (by show ¬ bindingX _ (X.mul (X.add (.fin _) .pinf) _); simp [X.add, X.mul, X.infSign, hs, bindingX])
      | pinf => exact absurd hb (by show ¬ bindingX _ (X.mul (X.add (.fin _) .ninf) _); simp [X.add, X.mul, X.infSign, hs, bindingX])
      | nan => exact absurd hb (by show ¬ bindingX _ (X.mul (X.add (.fin _) .nan) _); simp [X.add, X.mul, bindingX])
  · right
    unfold FixedL.maxFun at hb
    cases hm : c.mx with
    | none => simp [hm, bindingX] at hb
    | some m =>
      simp only [hm] at hb
      cases m with
      | fin r =>
        refine ⟨r, rfl, ?_⟩
        simp only [X.fin_sub, X.fin_mul, bindingX, abs_mul, abs_of_pos hs, vec_loc hi] at hb
        rwa [lt_div_iff₀ hs]
      | ninf => exact absurd hb (by show ¬ bindingX _ (X.mul (X.add .ninf (.fin _)) _); simp [X.add, X.mul, X.infSign, hs, bindingX])
      | pinf => exact absurd hb (by show ¬ bindingX _ (X.mul (X.add .pinf (.fin _)) _); simp [X.add, X.mul, X.infSign, hs, bindingX])
      | nan => exact absurd hb (by show ¬ bindingX _ (X.mul (X.add .nan (.fin _)) _); simp [X.add, X.mul, bindingX])

/-- C59, ratios with both limits (both positive, denominator inside its bounds): a satisfied constraint reported as binding is close to
one of its limits, `scale · |den| · max(r, 1/r) · |ratio - r| < tol`. -/
theorem C59_ratio_two_sided_partial (c : Ratio) (r R : ℝ) (h1 : c.minR = some r) (h2 : c.maxR = some R) (names : List String)
    (bmin bmax : X) (scale tol : ℝ) (v : String → ℝ) (hd : DenOk (v c.den) bmin bmax) (L : RatioL)
    (h : c.link names bmin bmax scale = .ok L) (hb : binding tol (L.fn (vec names v))) :
    |v c.den| * |max r (1 / r) * scale| * |v c.num / v c.den - r| < tol ∨
      |v c.den| * |max R (1 / R) * scale| * |v c.num / v c.den - R| < tol := by
  obtain ⟨hi, hj, hmn, hmx⟩ := link_ratio h
  rw [h1] at hmn
  rw [h2] at hmx
  have h0 := hd.1
  have hA : L.minFun (vec names v) = v c.num * L.cminNum + v c.den * L.cminDen := by
    rw [RatioL.minFun, vec_loc hi, vec_loc hj]
  have hB : L.maxFun (vec names v) = v c.num * L.cmaxNum + v c.den * L.cmaxDen := by
    rw [RatioL.maxFun, vec_loc hi, vec_loc hj]
  have eA : |L.minFun (vec names v)| = |v c.den| * |max r (1 / r) * scale| * |v c.num / v c.den - r| := by
    rw [hA]
    unfold minCoef at hmn
    simp only at hmn
    generalize max r (1 / r) * scale = k at hmn ⊢
    split at hmn
    · simp at hmn
    · split at hmn
      · obtain ⟨e1, e2⟩ := Prod.mk.inj (Except.ok.inj hmn)
        rw [← e1, ← e2, ← abs_mul, ← abs_mul]
        congr 1; field_simp; ring
      · split at hmn
        · obtain ⟨e1, e2⟩ := Prod.mk.inj (Except.ok.inj hmn)
          rw [← e1, ← e2, ← abs_mul, ← abs_mul, ← abs_neg]
          congr 1; field_simp; ring
        · simp at hmn
  have eB : |L.maxFun (vec names v)| = |v c.den| * |max R (1 / R) * scale| * |v c.num / v c.den - R| := by
    rw [hB]
    unfold maxCoef at hmx
    simp only at hmx
    generalize max R (1 / R) * scale = k at hmx ⊢
    split at hmx
    · simp at hmx
    · split at hmx
      · obtain ⟨e1, e2⟩ := Prod.mk.inj (Except.ok.inj hmx)
        rw [← e1, ← e2, ← abs_mul, ← abs_mul, ← abs_neg]
        congr 1; field_simp; ring
      · split at hmx
        · obtain ⟨e1, e2⟩ := Prod.mk.inj (Except.ok.inj hmx)
          rw [← e1, ← e2, ← abs_mul, ← abs_mul]
          congr 1; field_simp; ring
        · simp at hmx
  unfold binding RatioL.fn at hb
  rcases min_choice (L.minFun (vec names v)) (L.maxFun (vec names v)) with e | e
  · rw [e, eA] at hb; exact Or.inl hb
  · rw [e, eB] at hb; exact Or.inr hb

/-- C59 fails for every ratio with a single limit: as long as it is satisfied, however far from the limit, it is reported as binding,
and the covariance code notes both parameters as constrained. -/
theorem C59_fails_one_sided (num den : String) (r : ℝ) (hr : 0 < r) (names : List String) (bmin bmax : X) (scale tol : ℝ)
    (hs : 0 < scale) (ht : 0 < tol) (v : String → ℝ) (hd : DenOk (v den) bmin bmax) (L : RatioL)
    (h : (Ratio.mk num den (some r) none).link names bmin bmax scale = .ok L) (hholds : r ≤ v num / v den) :
    binding tol (L.fn (vec names v)) := by
  obtain ⟨hi, hj, hmn, hmx⟩ := link_ratio h
  have h0 := Prod.mk.inj (Except.ok.inj hmx)
  have h1 : 0 ≤ L.minFun (vec names v) := by
    rw [RatioL.minFun, vec_loc hi, vec_loc hj, (minCoef_spec hmn hd).2]
    exact mul_nonneg (le_of_lt (mul_pos (scaling_pos hr) hs)) (by linarith)
  have h2 : L.maxFun (vec names v) = 0 := by rw [RatioL.maxFun, ← h0.1, ← h0.2]; ring
  rw [RatioL.fn, h2, min_eq_right h1, binding, abs_zero]
  exact ht

/-! ## C60: constraint_violation -/

/-- C60: no violation is reported exactly when every parameter is within its bounds and every constraint function is non-negative
(all numbers being numbers, not NaN). -/
theorem C60_violation_iff (rows : List (X × X × X)) (funs : List X) :
    violation rows funs = false ↔
      (∀ r ∈ rows, ¬ X.gt r.1 r.2.2 ∧ ¬ X.gt r.2.1 r.1) ∧ (∀ f ∈ funs, f = .nan ∨ NonNeg f) := by
  unfold violation
  simp only [Bool.or_eq_false_iff, List.any_eq_false, decide_eq_true_eq]
  constructor
  · rintro ⟨⟨h1, h2⟩, h3⟩
    refine ⟨fun r hr => ⟨h1 r hr, h2 r hr⟩, fun f hf => ?_⟩
    have := h3 f hf
    cases f with
    | fin a => right; simpa [X.gt, NonNeg] using this
    | pinf => right; trivial
    | ninf => exact absurd trivial this
    | nan => left; rfl
  · rintro ⟨h1, h2⟩
    refine ⟨⟨fun r hr => (h1 r hr).1, fun r hr => (h1 r hr).2⟩, fun f hf => ?_⟩
    rcases h2 f hf with rfl | h
    · simp [X.gt]
    · cases f <;> simp_all [X.gt, NonNeg]

/-- C60: for finite parameter values and proper bounds the report is exactly "every parameter is within its bounds". -/
theorem C60_bounds (v : ℝ) (mn mx : X) (h1 : mn ≠ .nan) (h2 : mx ≠ .nan) :
    violation [(.fin v, mn, mx)] [] = false ↔ AtLeast v mn ∧ AtMost v mx := by
  rw [C60_violation_iff]
  simp only [List.mem_singleton, forall_eq, List.not_mem_nil, false_imp_iff, implies_true, and_true]
  cases mn <;> cases mx <;> simp_all [X.gt, AtLeast, AtMost, and_comm]

end Larch.Props
