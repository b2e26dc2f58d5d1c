import Verif.Model.StdErr
import Verif.Spec.StdErr
import Verif.Props.Covariance
import Mathlib.Tactic.NormNum
import Mathlib.LinearAlgebra.Matrix.ToLin
import Mathlib.LinearAlgebra.Matrix.NonsingularInverse

/-!
# C112, C113, C114: statistics of the estimates
-/

open Matrix

namespace Larch.Props

open Larch.Cov Larch.CovSpec Larch.StdErr Larch.StdErrSpec

set_option linter.unusedSectionVars false

/-! ## Rounding -/

theorem roundEven_close (y : ℝ) : |(roundEven y : ℝ) - y| ≤ 1 / 2 := by
  have h0 := Int.floor_le y
  have h1 := Int.lt_floor_add_one y
  unfold roundEven
  rw [abs_le]
  split_ifs <;> push_cast <;> constructor <;> linarith

theorem roundEven_zero (y : ℝ) : roundEven y = 0 ↔ |y| ≤ 1 / 2 := by
  constructor
  · intro h
    have := roundEven_close y
    rw [h] at this
    simpa using this
  · intro h
    have h0 := Int.floor_le y
    have h1 := Int.lt_floor_add_one y
    rw [abs_le] at h
    have hf : ⌊y⌋ = 0 ∨ ⌊y⌋ = -1 := by
      have a : (-1 : ℝ) ≤ ⌊y⌋ := by
        have : (-2 : ℝ) < ⌊y⌋ := by linarith
        exact_mod_cast this
      have b : (⌊y⌋ : ℝ) < 1 := by linarith
      have a' : (-1 : ℤ) ≤ ⌊y⌋ := by exact_mod_cast a
      have b' : ⌊y⌋ < 1 := by exact_mod_cast b
      omega
    unfold roundEven
    rcases hf with e | e
    · rw [e]
      push_cast
      rw [if_neg (c := 1 / 2 < y - 0) (by linarith)]
      simp
    · rw [e]
      push_cast
      rw [if_neg (by linarith)]
      split_ifs with h3
      · rfl
      · rfl

theorem round7_close (x : ℝ) : |round7 x - x| ≤ 5 / 10 ^ 8 := by
  have h := roundEven_close (x * 10 ^ 7)
  unfold round7
  have e : (roundEven (x * 10 ^ 7) : ℝ) / 10 ^ 7 - x = ((roundEven (x * 10 ^ 7) : ℝ) - x * 10 ^ 7) / 10 ^ 7 := by field_simp
  rw [e, abs_div, abs_of_pos (show (0 : ℝ) < 10 ^ 7 by norm_num), div_le_iff₀ (by norm_num)]
  refine h.trans (by norm_num)

theorem round7_zero (x : ℝ) : round7 x = 0 ↔ |x| ≤ 5 / 10 ^ 8 := by
  unfold round7
  rw [div_eq_zero_iff]
  have : ((roundEven (x * 10 ^ 7) : ℤ) : ℝ) = 0 ↔ |x * 10 ^ 7| ≤ 1 / 2 := by
    rw [Int.cast_eq_zero, roundEven_zero]
  rw [this, abs_mul, abs_of_pos (show (0 : ℝ) < 10 ^ 7 by norm_num)]
  constructor
  · rintro (h | h)
    · linarith
    · norm_num at h
  · intro h
    exact Or.inl (by linarith)

/-! ## C112 -/

/-- An eigenvector of the part of the matrix, as a direction of all parameters. -/
def extend {p : Nat} (q : Fin p → Bool) (v : Free q → ℝ) : Fin p → ℝ := fun i => if h : q i = false then v ⟨i, h⟩ else 0

theorem sum_extend {p : Nat} (q : Fin p → Bool) (f : Fin p → ℝ) (v : Free q → ℝ) :
    ∑ j, f j * extend q v j = ∑ j : Free q, f j.1 * v j := by
  rw [← Finset.sum_subtype (Finset.univ.filter fun i => q i = false) (by simp) (fun j => f j * extend q v j)
    |>.trans (Finset.sum_congr rfl fun j _ => by simp [extend, j.2])]
  refine (Finset.sum_filter_of_ne fun i _ hi => ?_).symm
  by_contra hc
  exact hi (by simp [extend, hc])

theorem lower_eq {m : Type} [LinearOrder m] (a : Matrix m m ℝ) (h : aᵀ = a) : lower a = a := by
  ext i j
  unfold lower
  split
  · rfl
  · exact congrFun (congrFun h i) j

theorem block_symm {p : Nat} (q : Fin p → Bool) (a : Matrix (Fin p) (Fin p) ℝ) (h : aᵀ = a) : (block q a)ᵀ = block q a := by
  ext i j
  exact congrFun (congrFun h i.1) j.1

/-- The eigenvectors delivered by `eigh` span everything. -/
theorem eigh_complete {m : Type} [LinearOrder m] [Fintype m] (a : Matrix m m ℝ) (hs : aᵀ = a) (e : Eigen m) (he : IsEigh a e)
    (v : m → ℝ) (hv : v ≠ 0) (l : ℝ) (hl : a *ᵥ v = l • v) : ∃ i, e.val i = l := by
  let V : Matrix m m ℝ := Matrix.of e.vec
  have h1 : V * Vᵀ = 1 := by
    ext i j
    rw [Matrix.mul_apply, Matrix.one_apply, ← he.orth i j]
    rfl
  have h2 : Vᵀ * V = 1 := mul_eq_one_comm.1 h1
  have hne : V *ᵥ v ≠ 0 := by
    intro h
    apply hv
    have := congrArg (fun w => Vᵀ *ᵥ w) h
    simpa [Matrix.mulVec_mulVec, h2] using this
  obtain ⟨i, hi⟩ : ∃ i, (V *ᵥ v) i ≠ 0 := by
    by_contra hc
    push Not at hc
    exact hne (funext hc)
  refine ⟨i, ?_⟩
  have hi' : e.vec i ⬝ᵥ v ≠ 0 := hi
  have e1 : e.vec i ⬝ᵥ a *ᵥ v = l * (e.vec i ⬝ᵥ v) := by rw [hl, dotProduct_smul, smul_eq_mul]
  have e2 : e.vec i ⬝ᵥ a *ᵥ v = e.val i * (e.vec i ⬝ᵥ v) := by
    have := he.eig i
    rw [lower_eq a hs] at this
    rw [dotProduct_mulVec, ← mulVec_transpose, hs, this, smul_dotProduct, smul_eq_mul]
  exact mul_right_cancel₀ hi' (e2.symm.trans e1)

theorem overspecOf_some {p : Nat} (eigh : Eigh p) (hess : Matrix (Fin p) (Fin p) ℝ) (q : Fin p → Bool) (e)
    (h : eigh q (block q hess) = some e) :
    overspecOf eigh hess q = (List.finRange p).filterMap (item q e) := by
  unfold overspecOf
  rw [h]

theorem item_some {p : Nat} (q : Fin p → Bool) (e : Eigen (Free q)) (i : Fin p) (r : Report p) (h : item q e i = some r) :
    ∃ hq : q i = false, |e.val ⟨i, hq⟩| < 0.001 ∧
      r = .flat (e.val ⟨i, hq⟩) ((List.finRange p).filter (fun j => decide (unpack q (e.vec ⟨i, hq⟩) j ≠ 0)))
        (((List.finRange p).filter (fun j => decide (unpack q (e.vec ⟨i, hq⟩) j ≠ 0))).map (unpack q (e.vec ⟨i, hq⟩))) := by
  unfold item at h
  by_cases hq : q i = false
  · rw [dif_pos hq] at h
    by_cases hv : |e.val ⟨i, hq⟩| < 0.001
    · rw [if_pos hv] at h
      refine ⟨hq, hv, ?_⟩
      simp only [Option.some.injEq] at h
      rw [← h]
    · rw [if_neg hv] at h
      cases h
  · rw [dif_neg hq] at h
    cases h

/-- No parameter that can move is left out: every free parameter has some entry in its column. -/
def NoZeroColumn {p : Nat} (info : Matrix (Fin p) (Fin p) ℝ) (held : Fin p → Bool) : Prop :=
  ∀ j, held j = false → ∃ i, info i j ≠ 0

theorem leftOut_eq {p : Nat} (hold : Fin p → Bool) (a : Matrix (Fin p) (Fin p) ℝ) (h : NoZeroColumn a hold) : leftOut hold a = hold := by
  funext j
  unfold leftOut
  cases hj : hold j
  · obtain ⟨i, hi⟩ := h j hj
    simp only [Bool.false_or, decide_eq_false_iff_not]
    exact fun hc => hi (hc i)
  · simp

/-- C112 (missing: free parameters that do not occur in the log likelihood at all, see `C112_fails_zero`; later calculations, see
`C112_fails_stale`): something is reported exactly when there is a direction of the free parameters with curvature below 0.001. -/
theorem C112_reported_partial {p : Nat} (eigh : Eigh p) (info : Matrix (Fin p) (Fin p) ℝ) (held : Fin p → Bool)
    (hs : infoᵀ = info) (hz : NoZeroColumn info held)
    (e : Eigen (Free held)) (he : eigh held (block held info) = some e) (hc : IsEigh (block held info) e) :
    overspec eigh info held ≠ [] ↔ ∃ v l, FlatDirection info held v l ∧ |l| < 0.001 := by
  have hq := leftOut_eq held info hz
  have ho : overspec eigh info held = (List.finRange p).filterMap (item held e) := by
    unfold overspec
    rw [hq, overspecOf_some eigh info held e he]
  have hne : overspec eigh info held ≠ [] ↔ ∃ i : Free held, |e.val i| < 0.001 := by
    rw [ho]
    constructor
    · intro h
      obtain ⟨r, hr⟩ := List.exists_mem_of_ne_nil _ h
      obtain ⟨i, _, hi⟩ := List.mem_filterMap.1 hr
      obtain ⟨h1, h2, _⟩ := item_some held e i r hi
      exact ⟨⟨i, h1⟩, h2⟩
    · rintro ⟨⟨i, hi⟩, hv⟩ h
      have : item held e i = none := by
        cases hr : item held e i with
        | none => rfl
        | some r =>
          have : r ∈ (List.finRange p).filterMap (item held e) := List.mem_filterMap.2 ⟨i, List.mem_finRange i, hr⟩
          rw [h] at this
          cases this
      unfold item at this
      rw [dif_pos hi, if_pos hv] at this
      cases this
  rw [hne]
  constructor
  · rintro ⟨i, hi⟩
    refine ⟨extend held (e.vec i), e.val i, ⟨?_, ?_, ?_⟩, hi⟩
    · intro h0
      have h1 := hc.orth i i
      rw [if_pos rfl] at h1
      have : e.vec i = 0 := by
        funext j
        have := congrFun h0 j.1
        simpa [extend, j.2] using this
      rw [this] at h1
      simp at h1
    · intro j hj
      simp [extend, hj]
    · intro j hj
      rw [sum_extend]
      have := congrFun (hc.eig i) ⟨j, hj⟩
      rw [lower_eq _ (block_symm held info hs)] at this
      simp only [extend, hj, dif_pos]
      simpa [mulVec, dotProduct, block] using this
  · rintro ⟨v, l, hf, hl⟩
    obtain ⟨i, hi⟩ := eigh_complete (block held info) (block_symm held info hs) e hc (fun j => v j.1)
      (by
        intro h0
        apply hf.moves
        funext j
        cases hj : held j
        · exact congrFun h0 ⟨j, hj⟩
        · exact hf.free j hj) l
      (by
        funext j
        have := hf.curvature j.1 j.2
        have ext : v = extend held (fun j => v j.1) := by
          funext k
          unfold extend
          split
          · rfl
          · next hk => exact hf.free k (by cases hh : held k <;> simp_all)
        have h2 : ∑ k, info j.1 k * v k = ∑ k : Free held, info j.1 k.1 * v k.1 := by
          conv_lhs => rw [ext]
          exact sum_extend held (fun k => info j.1 k) (fun j => v j.1)
        rw [h2] at this
        simpa [mulVec, dotProduct, block] using this)
    exact ⟨i, hi ▸ hl⟩

theorem overspecOf_item {p : Nat} (eigh : Eigh p) (info : Matrix (Fin p) (Fin p) ℝ) (held q : Fin p → Bool)
    (hs : infoᵀ = info) (hle : ∀ j, held j = true → q j = true)
    (hzero : ∀ j, held j = false → q j = true → ∀ k, info k j = 0) (e : Eigen (Free q))
    (he : eigh q (block q info) = some e) (hc : IsEigh (block q info) e)
    (r : Report p) (hr : r ∈ overspecOf eigh info q) :
    ∃ l ps ws v, r = .flat l ps ws ∧ |l| < 0.001 ∧ FlatDirection info held v l ∧ ∑ i, v i * v i = 1 ∧
      (∀ i, i ∈ ps ↔ 5 / 10 ^ 8 < |v i|) ∧ ps.Nodup ∧
      ws.length = ps.length ∧ (∀ (k : Nat) (i : Fin p) (w : ℝ), ps[k]? = some i → ws[k]? = some w → |w - v i| ≤ 5 / 10 ^ 8) := by
  rw [overspecOf_some eigh info q e he] at hr
  obtain ⟨i, _, hi⟩ := List.mem_filterMap.1 hr
  obtain ⟨hq, hv, rfl⟩ := item_some _ e i r hi
  have hun : ∀ j, unpack q (e.vec ⟨i, hq⟩) j = round7 (extend q (e.vec ⟨i, hq⟩) j) := by
    intro j
    unfold unpack extend
    split
    · rfl
    · exact ((round7_zero 0).2 (by norm_num)).symm
  refine ⟨_, _, _, extend q (e.vec ⟨i, hq⟩), rfl, hv, ⟨?_, ?_, ?_⟩, ?_, ?_, ?_, ?_, ?_⟩
  · intro h0
    have h1 := hc.orth ⟨i, hq⟩ ⟨i, hq⟩
    rw [if_pos rfl] at h1
    have : e.vec ⟨i, hq⟩ = 0 := by
      funext j
      have := congrFun h0 j.1
      simpa [extend, j.2] using this
    rw [this] at h1
    simp at h1
  · intro j hj
    simp [extend, hle j hj]
  · intro j hj
    rw [sum_extend]
    by_cases hqj : q j = false
    · have := congrFun (hc.eig ⟨i, hq⟩) ⟨j, hqj⟩
      rw [lower_eq _ (block_symm q info hs)] at this
      simp only [extend, hqj, dif_pos]
      simpa [mulVec, dotProduct, block] using this
    · have hqj : q j = true := by cases h : q j <;> simp_all
      have hz := hzero j hj hqj
      simp only [extend, hqj, Bool.true_eq_false, dif_neg, not_false_eq_true, mul_zero]
      refine Finset.sum_eq_zero fun k _ => ?_
      have : info j k.1 = 0 := by
        have := congrFun (congrFun hs j) k.1
        rw [← this, transpose_apply, hz]
      rw [this, zero_mul]
  · have h1 := hc.orth ⟨i, hq⟩ ⟨i, hq⟩
    rw [if_pos rfl] at h1
    rw [sum_extend q (fun j => extend q (e.vec ⟨i, hq⟩) j), ← h1]
    refine Finset.sum_congr rfl fun j _ => ?_
    simp [extend, j.2]
  · intro j
    rw [List.mem_filter]
    simp only [List.mem_finRange, true_and, decide_eq_true_eq]
    rw [hun, ne_eq, round7_zero, not_le]
  · exact (List.nodup_finRange p).filter _
  · simp
  · intro k j w hk hw
    rw [List.getElem?_map, hk] at hw
    simp only [Option.map_some, Option.some.injEq] at hw
    rw [← hw, hun]
    exact round7_close _

/-- C112: each item of a report is a direction of the free parameters whose curvature is the reported eigenvalue (below 0.001); the weights are
those of the direction up to rounding at the seventh decimal, and the parameters listed are exactly those whose weight is not
rounded to zero. -/
theorem C112_item {p : Nat} (eigh : Eigh p) (info : Matrix (Fin p) (Fin p) ℝ) (held : Fin p → Bool)
    (hs : infoᵀ = info) (e : Eigen (Free (leftOut held info)))
    (he : eigh (leftOut held info) (block (leftOut held info) info) = some e) (hc : IsEigh (block (leftOut held info) info) e)
    (r : Report p) (hr : r ∈ overspec eigh info held) :
    ∃ l ps ws v, r = .flat l ps ws ∧ |l| < 0.001 ∧ FlatDirection info held v l ∧ ∑ i, v i * v i = 1 ∧
      (∀ i, i ∈ ps ↔ 5 / 10 ^ 8 < |v i|) ∧ ps.Nodup ∧
      ws.length = ps.length ∧ (∀ (k : Nat) (i : Fin p) (w : ℝ), ps[k]? = some i → ws[k]? = some w → |w - v i| ≤ 5 / 10 ^ 8) := by
  refine overspecOf_item eigh info held _ hs ?_ ?_ e he hc r hr
  · intro j hj
    simp [leftOut, hj]
  · intro j hj hqj
    simpa [leftOut, hj] using hqj

/-- C112: held-fast parameters are never listed, and every item lists some parameter. -/
theorem C112_named {p : Nat} (hp : p ≤ 10 ^ 14) (eigh : Eigh p) (info : Matrix (Fin p) (Fin p) ℝ) (held : Fin p → Bool)
    (hs : infoᵀ = info) (e : Eigen (Free (leftOut held info)))
    (he : eigh (leftOut held info) (block (leftOut held info) info) = some e) (hc : IsEigh (block (leftOut held info) info) e)
    (l : ℝ) (ps : List (Fin p)) (ws : List ℝ) (hr : Report.flat l ps ws ∈ overspec eigh info held) :
    ps ≠ [] ∧ ∀ i ∈ ps, held i = false := by
  obtain ⟨l', ps', ws', v, heq, _, hf, hu, hm, _⟩ := C112_item eigh info held hs e he hc _ hr
  obtain ⟨rfl, rfl, rfl⟩ : l = l' ∧ ps = ps' ∧ ws = ws' := by
    cases heq
    exact ⟨rfl, rfl, rfl⟩
  constructor
  · rintro rfl
    have hsmall : ∀ i, v i * v i ≤ 25 / 10 ^ 16 := by
      intro i
      have : |v i| ≤ 5 / 10 ^ 8 := by
        by_contra hc
        have := (hm i).2 (not_le.1 hc)
        cases this
      have h2 := mul_le_mul this this (abs_nonneg _) (by norm_num)
      rw [abs_mul_abs_self] at h2
      refine h2.trans (by norm_num)
    have : ∑ i, v i * v i ≤ (p : ℝ) * (25 / 10 ^ 16) := by
      calc ∑ i, v i * v i ≤ ∑ _i : Fin p, (25 / 10 ^ 16 : ℝ) := Finset.sum_le_sum fun i _ => hsmall i
        _ = (p : ℝ) * (25 / 10 ^ 16) := by simp
    rw [hu] at this
    have hp' : (p : ℝ) ≤ 10 ^ 14 := by exact_mod_cast hp
    nlinarith
  · intro i hi
    cases hh : held i
    · rfl
    · have h1 := hf.free i hh
      have h2 := (hm i).1 hi
      rw [h1, abs_zero] at h2
      norm_num at h2

/-- C112 is violated: a free parameter on which the log likelihood does not depend at all (its row and column of the information matrix are
zero: moving it alone is a flat direction) is never listed. -/
theorem C112_fails_zero {p : Nat} (eigh : Eigh p) (info : Matrix (Fin p) (Fin p) ℝ) (held : Fin p → Bool) (i : Fin p)
    (hi : held i = false) (hz : ∀ k, info k i = 0) :
    FlatDirection info held (Pi.single i 1) 0 ∧
      ∀ l ps ws, Report.flat l ps ws ∈ overspec eigh info held → i ∉ ps := by
  refine ⟨⟨?_, ?_, ?_⟩, ?_⟩
  · intro h
    have := congrFun h i
    simp at this
  · intro j hj
    rw [Pi.single_apply, if_neg]
    rintro rfl
    rw [hi] at hj
    cases hj
  · intro j _
    rw [zero_mul]
    refine Finset.sum_eq_zero fun k _ => ?_
    by_cases hk : k = i
    · rw [hk, hz, zero_mul]
    · simp [hk]
  · intro l ps ws hr him
    have hq : leftOut held info i = true := by simp [leftOut, hz]
    unfold overspec overspecOf at hr
    split at hr
    · simp at hr
    · obtain ⟨k, _, hk⟩ := List.mem_filterMap.1 hr
      obtain ⟨h1, _, h3⟩ := item_some _ _ k _ hk
      cases h3
      rw [List.mem_filter] at him
      have := him.2
      simp [unpack, hq] at this

/-- C112 is violated: such a model has no report at all if the other directions are well determined; here is one with a single parameter. -/
theorem C112_fails_empty (eigh : Eigh 1) (heigh : ∀ q a, ∃ e, eigh q a = some e) :
    overspec eigh (0 : Matrix (Fin 1) (Fin 1) ℝ) (fun _ => false) = [] ∧
      FlatDirection (0 : Matrix (Fin 1) (Fin 1) ℝ) (fun _ => false) (fun _ => 1) 0 := by
  constructor
  · obtain ⟨e, he⟩ := heigh (leftOut (fun _ => false) 0) (block (leftOut (fun _ => false) 0) 0)
    unfold overspec
    rw [overspecOf_some _ _ _ e he]
    have : item (leftOut (fun _ : Fin 1 => false) 0) e 0 = none := by
      unfold item
      rw [dif_neg]
      simp [leftOut]
    simp [List.finRange_succ, this]
  · refine ⟨?_, by simp, by simp⟩
    intro h
    have := congrFun h 0
    simp at this

/-- C112 is violated: a calculation that finds nothing leaves the report of an earlier one in place. -/
theorem C112_fails_stale {p : Nat} (eigh : Eigh p) (old : Option (List (Report p))) (info : Matrix (Fin p) (Fin p) ℝ)
    (held : Fin p → Bool) (h : overspec eigh info held = []) : recorded eigh old info held = old := by
  unfold recorded
  rw [h]
  rfl

/-- C112: when a calculation finds something, that is what `possible_overspecification` shows. -/
theorem C112_recorded {p : Nat} (eigh : Eigh p) (old : Option (List (Report p))) (info : Matrix (Fin p) (Fin p) ℝ)
    (held : Fin p → Bool) (h : overspec eigh info held ≠ []) : recorded eigh old info held = some (overspec eigh info held) := by
  unfold recorded
  rw [if_neg]
  simpa using h

/-- An `eigh` for the examples: right on diagonal matrices. -/
noncomputable def diagEigh (p : Nat) : Eigh p :=
  fun _ a => some ⟨fun i => a i i, fun i => Pi.single i 1⟩

theorem diagEigh_right {p : Nat} (q : Fin p → Bool) (d : Fin p → ℝ) :
    ∃ e, diagEigh p q (block q (Matrix.diagonal d)) = some e ∧ IsEigh (block q (Matrix.diagonal d)) e := by
  refine ⟨_, rfl, ⟨?_, ?_⟩⟩
  · intro i
    have hl : lower (block q (Matrix.diagonal d)) = block q (Matrix.diagonal d) :=
      lower_eq _ (block_symm q _ (Matrix.diagonal_transpose d))
    rw [hl]
    funext j
    simp only [Matrix.mulVec_single, Pi.smul_apply, block, Matrix.submatrix_apply]
    by_cases h : j = i
    · subst h
      simp
    · have : j.1 ≠ i.1 := fun e => h (Subtype.ext e)
      simp [h, this]
  · intro i j
    by_cases h : i = j
    · subst h; simp
    · have h' : j ≠ i := fun e => h e.symm
      simp [h]

/-- A model with two free parameters, one of them hardly identified, and a third held fast: reported. -/
example : overspec (diagEigh 3) (Matrix.diagonal ![5, 0.0001, 7]) ![false, false, true] ≠ [] := by
  obtain ⟨e, he, hc⟩ := diagEigh_right (p := 3) ![false, false, true] ![5, 0.0001, 7]
  refine (C112_reported_partial (diagEigh 3) _ _ (Matrix.diagonal_transpose _) ?_ e he hc).2
    ⟨Pi.single 1 1, 0.0001, ⟨?_, ?_, ?_⟩, ?_⟩
  · intro j _
    refine ⟨j, ?_⟩
    fin_cases j <;> simp <;> norm_num
  · intro h
    have := congrFun h 1
    simp at this
  · intro i hi
    fin_cases i <;> simp_all
  · intro i hi
    fin_cases i <;> simp [Matrix.diagonal]
  · rw [abs_of_pos] <;> norm_num

/-- … and with well determined parameters nothing is reported, so an old report stays. -/
example (old : Option (List (Report 2))) :
    recorded (diagEigh 2) old (Matrix.diagonal ![5, 7]) (fun _ => false) = old := by
  refine C112_fails_stale _ _ _ _ ?_
  obtain ⟨e, he, hc⟩ := diagEigh_right (p := 2) (fun _ => false) ![5, 7]
  by_contra hne
  have hz : NoZeroColumn (Matrix.diagonal ![(5 : ℝ), 7]) (fun _ => false) := by
    intro j _
    refine ⟨j, ?_⟩
    fin_cases j <;> simp
  obtain ⟨v, l, hf, hl⟩ := (C112_reported_partial (diagEigh 2) _ _ (Matrix.diagonal_transpose _) hz e he hc).1 hne
  have h0 := hf.curvature 0 rfl
  have h1 := hf.curvature 1 rfl
  simp [Matrix.diagonal] at h0 h1
  rw [abs_lt] at hl
  apply hf.moves
  funext i
  fin_cases i
  · rcases h0 with h | h
    · linarith [hl.2]
    · exact h
  · rcases h1 with h | h
    · linarith [hl.2]
    · exact h

/-! ## C113 -/

variable {n : Type} [Fintype n] [DecidableEq n]

theorem isStat_of_pos (var value null : ℝ) (h : 0 < var) :
    IsStat var value null (sqrtX var) ((.fin value - .fin null) / sqrtX var) := by
  have hs : 0 < Real.sqrt var := Real.sqrt_pos.2 h
  refine ⟨Real.sqrt var, (value - null) / Real.sqrt var, ?_, ?_, hs, Real.mul_self_sqrt h.le, by field_simp⟩
  · simp [sqrtX, not_lt.2 h.le]
  · have : sqrtX var = .fin (Real.sqrt var) := by simp [sqrtX, not_lt.2 h.le]
    rw [this, X.fin_sub, X.fin_div hs.ne']

/-- C113: without constraints and bounds, the standard error of every parameter with a positive variance is the root of that variance in the
stored covariance matrix, and its t statistic is the distance of the estimate from the null value in standard errors. -/
theorem C113_unconstrained (f : Param n) (cov robust : Matrix n n ℝ) (old : Cols n) (i : n) (h : 0 < cov i i) :
    let c := columns f cov robust [] old
    c.cov = cov ∧ IsStat (c.cov i i) (f.value i) (f.null i) (c.stdErr i) (c.tStat i) :=
  ⟨rfl, isStat_of_pos _ _ _ h⟩

/-- The variance of every free parameter is positive if the model is identified: the information matrix of the free parameters is positive
semidefinite and invertible. -/
theorem variance_pos (hold : n → Bool) (info : Matrix n n ℝ) (hpos : IsCovariance (block hold info))
    (hdet : IsUnit (block hold info).det) (x : Matrix (Free hold) (Free hold) ℝ) (hx : GeneralInverse (block hold info) x)
    (i : n) (hi : hold i = false) : 0 < covariance hold x i i := by
  have hc := isCovariance_of_inverse hpos hx
  have hxi : x * block hold info = 1 := by
    have h := (C46_inverse hold info hdet x hx).1
    have hb : block hold (covariance hold x) = x := by
      ext i j
      simp [block, covariance, scatter, i.2, j.2]
    rwa [hb] at h
  have hix : block hold info * x = 1 := mul_eq_one_comm.1 hxi
  have hd : covariance hold x i i = variance x (Pi.single ⟨i, hi⟩ 1) := by
    simp [covariance, scatter, hi, variance]
  rw [hd]
  refine lt_of_le_of_ne (hc.nonneg _) fun h => ?_
  have h0 := mulVec_zero_of_variance hc _ h.symm
  have h1 := congrArg (fun w => block hold info *ᵥ w) h0
  simp only [mulVec_mulVec, hix, one_mulVec, mulVec_zero] at h1
  have := congrFun h1 ⟨i, hi⟩
  simp at this

/-- C113: in an identified model without constraints every free parameter has a positive, finite standard error, whose square is its entry in
the inverse of the information matrix of the free parameters, and a finite t statistic. -/
theorem C113_identified (f : Param n) (info robust : Matrix n n ℝ) (hpos : IsCovariance (block f.hold info))
    (hdet : IsUnit (block f.hold info).det) (x : Matrix (Free f.hold) (Free f.hold) ℝ) (hx : GeneralInverse (block f.hold info) x)
    (old : Cols n) (i : n) (hi : f.hold i = false) :
    let c := columns f (covariance f.hold x) robust [] old
    IsStat ((block f.hold info)⁻¹ ⟨i, hi⟩ ⟨i, hi⟩) (f.value i) (f.null i) (c.stdErr i) (c.tStat i) := by
  have hp := variance_pos f.hold info hpos hdet x hx i hi
  have h := (C113_unconstrained f (covariance f.hold x) robust old i hp).2
  have e : covariance f.hold x i i = (block f.hold info)⁻¹ ⟨i, hi⟩ ⟨i, hi⟩ := by
    have hb : block f.hold (covariance f.hold x) = x := by
      ext i j
      simp [block, covariance, scatter, i.2, j.2]
    have h2 := (C46_inverse f.hold info hdet x hx).1
    rw [hb] at h2
    rw [← Matrix.inv_eq_left_inv h2] at *
    simp [covariance, scatter, hi]
  rw [← e]
  exact h

/-! ### Constraints -/

theorem fixHigh_other (st : (n → X) × (n → X)) (p i : n) (h : i ≠ p) : (fixHigh st p).1 i = st.1 i ∧ (fixHigh st p).2 i = st.2 i := by
  unfold fixHigh
  split
  · exact ⟨Function.update_of_ne h _ _, Function.update_of_ne h _ _⟩
  · exact ⟨rfl, rfl⟩

theorem fixLow_other (st : (n → X) × (n → X)) (p i : n) (h : i ≠ p) : (fixLow st p).1 i = st.1 i ∧ (fixLow st p).2 i = st.2 i := by
  unfold fixLow
  split
  · exact ⟨Function.update_of_ne h _ _, Function.update_of_ne h _ _⟩
  · exact ⟨rfl, rfl⟩

theorem fix_other (st : (n → X) × (n → X)) (p i : n) (h : i ≠ p) : (fix st p).1 i = st.1 i ∧ (fix st p).2 i = st.2 i := by
  obtain ⟨a, b⟩ := fixHigh_other st p i h
  obtain ⟨c, d⟩ := fixLow_other (fixHigh st p) p i h
  exact ⟨c.trans a, d.trans b⟩

theorem fix_small (st : (n → X) × (n → X)) (p : n) (r : ℝ) (h : st.2 p = .fin r) (hr : |r| ≤ 100000) : fix st p = st := by
  rw [abs_le] at hr
  have h1 : ¬ X.gt (st.2 p) (.fin 100000) := by
    rw [h, X.fin_gt_fin]
    linarith [hr.2]
  have h2 : ¬ X.gt (.fin (-100000)) (st.2 p) := by
    rw [h, X.fin_gt_fin]
    linarith [hr.1]
  unfold fix fixHigh
  rw [if_neg h1]
  unfold fixLow
  rw [if_neg h2]

theorem fix_nan (st : (n → X) × (n → X)) (p : n) (h : st.2 p = .nan) : fix st p = st := by
  have h1 : ¬ X.gt (st.2 p) (.fin 100000) := by rw [h]; exact id
  have h2 : ¬ X.gt (.fin (-100000)) (st.2 p) := by rw [h]; exact id
  unfold fix fixHigh
  rw [if_neg h1]
  unfold fixLow
  rw [if_neg h2]

theorem fix_pinf (st : (n → X) × (n → X)) (p : n) (h : st.2 p = .pinf) : (fix st p).1 p = .nan ∧ (fix st p).2 p = .pinf := by
  have h1 : X.gt (st.2 p) (.fin 100000) := by rw [h]; trivial
  have h2 : ¬ X.gt (.fin (-100000)) (Function.update st.2 p .pinf p) := by rw [Function.update_self]; exact id
  unfold fix fixHigh
  rw [if_pos h1]
  unfold fixLow
  rw [if_neg h2]
  exact ⟨Function.update_self _ _ _, Function.update_self _ _ _⟩

theorem fix_ninf (st : (n → X) × (n → X)) (p : n) (h : st.2 p = .ninf) : (fix st p).1 p = .nan ∧ (fix st p).2 p = .ninf := by
  have h1 : ¬ X.gt (st.2 p) (.fin 100000) := by rw [h]; exact id
  have h2 : X.gt (.fin (-100000)) (st.2 p) := by rw [h]; trivial
  unfold fix fixHigh
  rw [if_neg h1]
  unfold fixLow
  rw [if_pos h2]
  exact ⟨Function.update_self _ _ _, Function.update_self _ _ _⟩

theorem fix_fin (st : (n → X) × (n → X)) (p i : n) (s : ℝ) (h : (fix st p).1 i = .fin s) : st.1 i = .fin s := by
  by_cases e : i = p
  · subst e
    have h1 : (fixHigh st i).1 i = .fin s := by
      unfold fix fixLow at h
      split at h
      · simp at h
      · exact h
    unfold fixHigh at h1
    split at h1
    · simp at h1
    · exact h1
  · rwa [(fix_other st p i e).1] at h

theorem fixes_not_mem (ps : List n) (i : n) (h : i ∉ ps) (st : (n → X) × (n → X)) :
    (ps.foldl fix st).1 i = st.1 i ∧ (ps.foldl fix st).2 i = st.2 i := by
  induction ps generalizing st with
  | nil => exact ⟨rfl, rfl⟩
  | cons p ps ih =>
    rw [List.mem_cons, not_or] at h
    obtain ⟨a, b⟩ := ih h.2 (fix st p)
    obtain ⟨c, d⟩ := fix_other st p i h.1
    exact ⟨a.trans c, b.trans d⟩

/-- If the t statistic of a parameter has one of the values a test does not change, neither statistic changes. -/
theorem fixes_keep (ps : List n) (i : n) (st : (n → X) × (n → X))
    (h : (∃ r, st.2 i = .fin r ∧ |r| ≤ 100000) ∨ st.2 i = .nan) :
    (ps.foldl fix st).1 i = st.1 i ∧ (ps.foldl fix st).2 i = st.2 i := by
  induction ps generalizing st with
  | nil => exact ⟨rfl, rfl⟩
  | cons p ps ih =>
    have hp : (fix st p).1 i = st.1 i ∧ (fix st p).2 i = st.2 i := by
      by_cases e : i = p
      · subst e
        rcases h with ⟨r, h1, h2⟩ | h1
        · rw [fix_small st i r h1 h2]; exact ⟨rfl, rfl⟩
        · rw [fix_nan st i h1]; exact ⟨rfl, rfl⟩
      · exact fix_other st p i e
    obtain ⟨a, b⟩ := ih (fix st p) (by rw [hp.2]; exact h)
    exact ⟨a.trans hp.1, b.trans hp.2⟩

/-- An infinite t statistic of a parameter in the list: no standard error. -/
theorem fixes_inf (ps : List n) (i : n) (hi : i ∈ ps) (st : (n → X) × (n → X)) (t : X) (ht : t = .pinf ∨ t = .ninf)
    (h : st.2 i = t) : (ps.foldl fix st).1 i = .nan ∧ (ps.foldl fix st).2 i = t := by
  have step : ∀ (st : (n → X) × (n → X)) p, st.2 i = t → (fix st p).2 i = t ∧ (i = p → (fix st p).1 i = .nan) ∧
      (st.1 i = .nan → (fix st p).1 i = .nan) := by
    intro st p h
    by_cases e : i = p
    · subst e
      rcases ht with rfl | rfl
      · obtain ⟨a, b⟩ := fix_pinf st i h; exact ⟨b, fun _ => a, fun _ => a⟩
      · obtain ⟨a, b⟩ := fix_ninf st i h; exact ⟨b, fun _ => a, fun _ => a⟩
    · obtain ⟨a, b⟩ := fix_other st p i e
      exact ⟨b.trans h, fun e' => absurd e' e, fun h1 => a.trans h1⟩
  have keep : ∀ (ps : List n) (st : (n → X) × (n → X)), st.2 i = t → st.1 i = .nan →
      (ps.foldl fix st).1 i = .nan ∧ (ps.foldl fix st).2 i = t := by
    intro ps
    induction ps with
    | nil => exact fun st h1 h2 => ⟨h2, h1⟩
    | cons p ps ih =>
      intro st h1 h2
      obtain ⟨a, _, c⟩ := step st p h1
      exact ih _ a (c h2)
  induction ps generalizing st with
  | nil => cases hi
  | cons p ps ih =>
    obtain ⟨a, b, _⟩ := step st p h
    rcases List.mem_cons.1 hi with e | hm
    · exact keep ps _ a (b e)
    · exact ih hm _ a

/-- The columns, case by case: which statistics result. -/
theorem columns_cons (f : Param n) (cov robust : Matrix n n ℝ) (cs : List (Con n)) (hcs : cs ≠ []) (old : Cols n) :
    let c := columns f cov robust cs old
    let s := Cov.constrained cov (cs.map Con.toAtEst)
    let st := ((binding cs).flatMap Con.params).foldl fix (stdErrs s, tStats f (stdErrs s))
    c.cov = s ∧
      (∀ i, f.hold i = false → c.stdErr i = st.1 i ∧ c.tStat i = st.2 i) ∧
      (∀ i, f.hold i = true → c.stdErr i = .nan ∧ c.tStat i = .nan) ∧
      c.unconstrained = some (stdErrs cov, tStats f (stdErrs cov)) ∧
      ((binding cs ≠ [] ∨ ∃ i, f.hold i = true) → c.constrained =
        some (fun i => if f.hold i then "fixed value" else "\n".intercalate (notesOf (binding cs) i))) ∧
      (binding cs = [] → (∀ i, f.hold i = false) → c.constrained = old.constrained) := by
  have h0 : cs.isEmpty = false := by cases cs <;> simp_all
  by_cases hb : binding cs = [] ∧ ∀ i, f.hold i = false
  · have hc : (!(binding cs).isEmpty || decide (∃ i, f.hold i = true)) = false := by
      simp [hb.1, hb.2]
    intro c s st
    have hcol : c = { cov := s, stdErr := stdErrs s, tStat := tStats f (stdErrs s), robustStdErr := stdErrs robust, robustT := tStats f (stdErrs robust), unconstrained := some (stdErrs cov, tStats f (stdErrs cov)), constrained := old.constrained } := by
      show columns f cov robust cs old = _
      unfold columns
      simp only [h0, hc, Bool.false_eq_true, if_false]
      rfl
    have hst : st = (stdErrs s, tStats f (stdErrs s)) := by
      show ((binding cs).flatMap Con.params).foldl fix _ = _
      rw [hb.1]
      rfl
    rw [hcol, hst]
    refine ⟨rfl, fun i _ => ⟨rfl, rfl⟩, fun i hi => ?_, rfl, ?_, fun _ _ => rfl⟩
    · rw [hb.2 i] at hi; cases hi
    · rintro (h | ⟨i, hi⟩)
      · exact absurd hb.1 h
      · rw [hb.2 i] at hi; cases hi
  · have hc : (!(binding cs).isEmpty || decide (∃ i, f.hold i = true)) = true := by
      rw [Bool.or_eq_true]
      by_cases h1 : binding cs = []
      · right
        by_contra h2
        apply hb
        refine ⟨h1, fun i => ?_⟩
        cases hi : f.hold i
        · rfl
        · exact absurd (decide_eq_true ⟨i, hi⟩) h2
      · left
        cases h : binding cs <;> simp_all
    intro c s st
    have hcol : c = { cov := s, stdErr := fun i => if f.hold i then .nan else st.1 i, tStat := fun i => if f.hold i then .nan else st.2 i, robustStdErr := stdErrs robust, robustT := tStats f (stdErrs robust), unconstrained := some (stdErrs cov, tStats f (stdErrs cov)), constrained := some (fun i => if f.hold i then "fixed value" else "\n".intercalate (notesOf (binding cs) i)) } := by
      show columns f cov robust cs old = _
      unfold columns
      simp only [h0, hc, Bool.false_eq_true, if_false, if_true]
      rfl
    rw [hcol]
    refine ⟨rfl, fun i hi => ?_, fun i hi => ?_, rfl, fun _ => rfl, fun h1 h2 => absurd ⟨h1, h2⟩ hb⟩
    · simp [hi]
    · simp [hi]

/-- C113: with constraints and bounds, the standard error of every free parameter whose variance stays positive is the root of its variance in
the stored (constrained) covariance matrix, with the matching t statistic - provided that t is at most 100000, or that no binding
constraint involves the parameter. -/
theorem C113_constrained (f : Param n) (cov robust : Matrix n n ℝ) (cs : List (Con n)) (hcs : cs ≠ []) (old : Cols n) (i : n)
    (hi : f.hold i = false) :
    let c := columns f cov robust cs old
    0 < c.cov i i →
    (|f.value i - f.null i| ≤ 100000 * Real.sqrt (c.cov i i) ∨ ∀ k ∈ cs, |k.value| < k.tol → i ∉ k.params) →
    IsStat (c.cov i i) (f.value i) (f.null i) (c.stdErr i) (c.tStat i) := by
  intro c hv ht
  obtain ⟨h1, h2, _⟩ := columns_cons f cov robust cs hcs old
  obtain ⟨h3, h4⟩ := h2 i hi
  have hs := isStat_of_pos (c.cov i i) (f.value i) (f.null i) hv
  have key : c.stdErr i = sqrtX (c.cov i i) ∧ c.tStat i = (.fin (f.value i) - .fin (f.null i)) / sqrtX (c.cov i i) := by
    have e1 : stdErrs (Cov.constrained cov (cs.map Con.toAtEst)) i = sqrtX (c.cov i i) := by
      rw [show c.cov = _ from h1]; rfl
    have e2 : tStats f (stdErrs (Cov.constrained cov (cs.map Con.toAtEst))) i =
        (.fin (f.value i) - .fin (f.null i)) / sqrtX (c.cov i i) := by
      rw [← e1]; rfl
    have fk : ∀ h : (((binding cs).flatMap Con.params).foldl fix
        (stdErrs (Cov.constrained cov (cs.map Con.toAtEst)), tStats f (stdErrs (Cov.constrained cov (cs.map Con.toAtEst))))).1 i =
          stdErrs (Cov.constrained cov (cs.map Con.toAtEst)) i ∧
        (((binding cs).flatMap Con.params).foldl fix
        (stdErrs (Cov.constrained cov (cs.map Con.toAtEst)), tStats f (stdErrs (Cov.constrained cov (cs.map Con.toAtEst))))).2 i =
          tStats f (stdErrs (Cov.constrained cov (cs.map Con.toAtEst))) i,
        c.stdErr i = sqrtX (c.cov i i) ∧ c.tStat i = (.fin (f.value i) - .fin (f.null i)) / sqrtX (c.cov i i) :=
      fun h => ⟨(h3.trans h.1).trans e1, (h4.trans h.2).trans e2⟩
    rcases ht with ht | ht
    · refine fk (fixes_keep _ i _ (Or.inl ?_))
      have hsp : 0 < Real.sqrt (c.cov i i) := Real.sqrt_pos.2 hv
      have : sqrtX (c.cov i i) = .fin (Real.sqrt (c.cov i i)) := by simp [sqrtX, not_lt.2 hv.le]
      refine ⟨(f.value i - f.null i) / Real.sqrt (c.cov i i), ?_, ?_⟩
      · show tStats f _ i = _
        rw [e2, this, X.fin_sub, X.fin_div hsp.ne']
      · rw [abs_div, abs_of_pos hsp, div_le_iff₀ hsp]
        exact ht
    · refine fk (fixes_not_mem _ i ?_ _)
      intro hm
      obtain ⟨k, hk, hik⟩ := List.mem_flatMap.1 hm
      have := List.mem_filter.1 hk
      exact ht k this.1 (by simpa using this.2) hik
  rw [key.1, key.2]
  exact hs

theorem variance_single (s : Matrix n n ℝ) (i : n) (a : ℝ) : variance s (Pi.single i a) = a * a * s i i := by
  simp [variance]
  ring

/-- C113: taking account of constraints does not increase any standard error: the column `unconstrained_std_err` has the root of the variance in
the covariance matrix without constraints, and the constrained one is not greater. -/
theorem C113_not_greater (f : Param n) (cov robust : Matrix n n ℝ) (hcov : IsCovariance cov) (cs : List (Con n)) (hcs : cs ≠ [])
    (old : Cols n) (i : n) :
    let c := columns f cov robust cs old
    0 ≤ c.cov i i ∧ c.cov i i ≤ cov i i ∧
      ∃ u t, c.unconstrained = some (u, t) ∧ u i = .fin (Real.sqrt (cov i i)) ∧ ∀ s, c.stdErr i = .fin s → s ≤ Real.sqrt (cov i i) := by
  intro c
  obtain ⟨h1, h2, h3, h4, _⟩ := columns_cons f cov robust cs hcs old
  obtain ⟨p1, p2, _⟩ := C46_constrained cov hcov (cs.map Con.toAtEst)
  have e1 : 0 ≤ c.cov i i := by
    have := p1.nonneg (Pi.single i 1)
    rw [variance_single] at this
    rw [show c.cov = _ from h1]
    linarith
  have e2 : c.cov i i ≤ cov i i := by
    have := p2 (Pi.single i 1)
    rw [variance_single, variance_single] at this
    rw [show c.cov = _ from h1]
    linarith
  refine ⟨e1, e2, _, _, h4, ?_, ?_⟩
  · simp [stdErrs, sqrtX, not_lt.2 (e1.trans e2)]
  · intro s hs
    cases hi : f.hold i
    · obtain ⟨h5, _⟩ := h2 i hi
      have hs' : c.stdErr i = _ := h5
      rw [hs] at hs'
      have key : ∀ (ps : List n) (st : (n → X) × (n → X)) (s : ℝ), (ps.foldl fix st).1 i = .fin s → st.1 i = .fin s := by
        intro ps
        induction ps with
        | nil => exact fun st s h => h
        | cons p ps ih =>
          intro st s h
          have := ih _ s h
          exact fix_fin st p i s this
      have := key _ _ s hs'.symm
      rw [← show c.cov = _ from h1] at this
      simp only [stdErrs, sqrtX, if_neg (not_lt.2 e1), X.fin.injEq] at this
      rw [← this]
      exact Real.sqrt_le_sqrt e2
    · have := (h3 i hi).1
      rw [show c.stdErr i = _ from this] at hs
      cases hs

/-- C113: a free parameter pinned by a binding constraint of its own (a bound, say: the gradient of the constraint is a multiple of the
parameter) has no standard error, and an infinite t statistic with the sign of its distance from the null value. -/
theorem C113_pinned (f : Param n) (cov robust : Matrix n n ℝ) (hcov : IsCovariance cov) (cs : List (Con n)) (old : Cols n) (i : n)
    (hi : f.hold i = false) (k : Con n) (hk : k ∈ cs) (hb : |k.value| < k.tol) (a : ℝ) (ha : a ≠ 0) (hj : k.jac = Pi.single i a)
    (hp : i ∈ k.params) (hne : f.value i ≠ f.null i) :
    let c := columns f cov robust cs old
    c.cov i i = 0 ∧ c.stdErr i = .nan ∧ c.tStat i = if f.null i < f.value i then .pinf else .ninf := by
  intro c
  have hcs : cs ≠ [] := List.ne_nil_of_mem hk
  obtain ⟨h1, h2, _⟩ := columns_cons f cov robust cs hcs old
  obtain ⟨_, _, p3⟩ := C46_constrained cov hcov (cs.map Con.toAtEst)
  have hv := p3 k.toAtEst (List.mem_map.2 ⟨k, hk, rfl⟩) hb
  have h0 : (Cov.constrained cov (cs.map Con.toAtEst)) i i = 0 := by
    rw [hj, variance_single] at hv
    rcases mul_eq_zero.1 hv with h | h
    · exact absurd h (mul_self_ne_zero.2 ha)
    · exact h
  obtain ⟨h3, h4⟩ := h2 i hi
  have hm : i ∈ (binding cs).flatMap Con.params :=
    List.mem_flatMap.2 ⟨k, List.mem_filter.2 ⟨hk, by simpa using hb⟩, hp⟩
  have ht : tStats f (stdErrs (Cov.constrained cov (cs.map Con.toAtEst))) i = if f.null i < f.value i then .pinf else .ninf := by
    show (X.fin (f.value i) - X.fin (f.null i)) / stdErrs _ i = _
    have : stdErrs (Cov.constrained cov (cs.map Con.toAtEst)) i = .fin 0 := by simp [stdErrs, sqrtX, h0]
    rw [this, X.fin_sub]
    show X.div _ _ = _
    simp only [X.div, if_true, X.infSign, sub_pos]
    by_cases hlt : f.null i < f.value i
    · rw [if_pos hlt, if_pos hlt]
    · rw [if_neg hlt, if_neg hlt, if_pos]
      rw [sub_neg]
      exact lt_of_le_of_ne (not_lt.1 hlt) hne
  have := fixes_inf _ i hm (stdErrs (Cov.constrained cov (cs.map Con.toAtEst)), tStats f (stdErrs (Cov.constrained cov (cs.map Con.toAtEst))))
    (if f.null i < f.value i then .pinf else .ninf) (by split <;> simp) ht
  exact ⟨(congrFun (congrFun h1 i) i).trans h0, h3.trans this.1, h4.trans this.2⟩

/-- C113: if the model has constraints or bounds, parameters held fast have no statistics and are noted as fixed. -/
theorem C113_holdfast (f : Param n) (cov robust : Matrix n n ℝ) (cs : List (Con n)) (hcs : cs ≠ []) (old : Cols n) (i : n)
    (hi : f.hold i = true) :
    let c := columns f cov robust cs old
    c.stdErr i = .nan ∧ c.tStat i = .nan ∧ ∃ g, c.constrained = some g ∧ g i = "fixed value" := by
  obtain ⟨_, _, h3, _, h5, _⟩ := columns_cons f cov robust cs hcs old
  exact ⟨(h3 i hi).1, (h3 i hi).2, _, h5 (Or.inr ⟨i, hi⟩), by simp [hi]⟩

/-- C113 is violated: without constraints and bounds a parameter held fast is given the standard error 0 and an infinite t statistic (NaN if it
is held at its null value), and no note. -/
theorem C113_fails_holdfast (f : Param n) (robust : Matrix n n ℝ) (x : Matrix (Free f.hold) (Free f.hold) ℝ) (old : Cols n) (i : n)
    (hi : f.hold i = true) :
    let c := columns f (covariance f.hold x) robust [] old
    c.stdErr i = .fin 0 ∧ (f.null i < f.value i → c.tStat i = .pinf) ∧ (f.value i < f.null i → c.tStat i = .ninf) ∧
      (f.value i = f.null i → c.tStat i = .nan) ∧ c.constrained = old.constrained := by
  have h0 : covariance f.hold x i i = 0 := by simp [covariance, scatter, hi]
  have hs : stdErrs (covariance f.hold x) i = .fin 0 := by simp [stdErrs, sqrtX, h0]
  have ht : tStats f (stdErrs (covariance f.hold x)) i = X.infSign (f.value i - f.null i) .pinf .ninf := by
    show (X.fin (f.value i) - X.fin (f.null i)) / stdErrs _ i = _
    rw [hs, X.fin_sub]
    show X.div _ _ = _
    simp [X.div]
  refine ⟨hs, fun h => ht.trans ?_, fun h => ht.trans ?_, fun h => ht.trans ?_, rfl⟩
  · rw [X.infSign, if_pos (sub_pos.2 h)]
  · rw [X.infSign, if_neg (by linarith), if_pos (sub_neg.2 h)]
  · rw [X.infSign, if_neg (by linarith), if_neg (by linarith)]

/-- C113 is violated: a parameter pinned by a bound at its null value keeps the standard error 0. -/
theorem C113_fails_pinned_null (f : Param n) (cov robust : Matrix n n ℝ) (hcov : IsCovariance cov) (cs : List (Con n)) (old : Cols n)
    (i : n) (hi : f.hold i = false) (k : Con n) (hk : k ∈ cs) (hb : |k.value| < k.tol) (a : ℝ) (ha : a ≠ 0)
    (hj : k.jac = Pi.single i a) (heq : f.value i = f.null i) :
    let c := columns f cov robust cs old
    c.stdErr i = .fin 0 ∧ c.tStat i = .nan := by
  intro c
  have hcs : cs ≠ [] := List.ne_nil_of_mem hk
  obtain ⟨h1, h2, _⟩ := columns_cons f cov robust cs hcs old
  obtain ⟨_, _, p3⟩ := C46_constrained cov hcov (cs.map Con.toAtEst)
  have hv := p3 k.toAtEst (List.mem_map.2 ⟨k, hk, rfl⟩) hb
  have h0 : (Cov.constrained cov (cs.map Con.toAtEst)) i i = 0 := by
    rw [hj, variance_single] at hv
    rcases mul_eq_zero.1 hv with h | h
    · exact absurd h (mul_self_ne_zero.2 ha)
    · exact h
  obtain ⟨h3, h4⟩ := h2 i hi
  have hs : stdErrs (Cov.constrained cov (cs.map Con.toAtEst)) i = .fin 0 := by simp [stdErrs, sqrtX, h0]
  have ht : tStats f (stdErrs (Cov.constrained cov (cs.map Con.toAtEst))) i = .nan := by
    show (X.fin (f.value i) - X.fin (f.null i)) / stdErrs _ i = _
    rw [hs, X.fin_sub]
    show X.div _ _ = _
    simp [X.div, X.infSign, heq]
  have := fixes_keep ((binding cs).flatMap Con.params) i
    (stdErrs (Cov.constrained cov (cs.map Con.toAtEst)), tStats f (stdErrs (Cov.constrained cov (cs.map Con.toAtEst)))) (Or.inr ht)
  exact ⟨(h3.trans this.1).trans hs, (h4.trans this.2).trans ht⟩

/-- C113: the notes of a free parameter, when there are binding constraints: none if no binding constraint involves it, the note of the
constraint if exactly one does. -/
theorem C113_notes (f : Param n) (cov robust : Matrix n n ℝ) (cs : List (Con n)) (old : Cols n) (i : n) (hi : f.hold i = false)
    (hb : ∃ k ∈ cs, |k.value| < k.tol) :
    ∃ g, (columns f cov robust cs old).constrained = some g ∧
      ((∀ k ∈ cs, |k.value| < k.tol → i ∉ k.params) → g i = "") ∧
      (∀ l1 k l2, cs = l1 ++ k :: l2 → |k.value| < k.tol → k.params.count i = 1 →
        (∀ k' ∈ l1 ++ l2, |k'.value| < k'.tol → i ∉ k'.params) → g i = k.note) := by
  obtain ⟨k0, hk0, hb0⟩ := hb
  have hcs : cs ≠ [] := List.ne_nil_of_mem hk0
  obtain ⟨_, _, _, _, h5, _⟩ := columns_cons f cov robust cs hcs old
  have hbn : binding cs ≠ [] := List.ne_nil_of_mem (List.mem_filter.2 ⟨hk0, by simpa using hb0⟩)
  have hnil : ∀ l : List (Con n), (∀ k ∈ l, |k.value| < k.tol → i ∉ k.params) → notesOf (binding l) i = [] := by
    intro l hl
    unfold notesOf
    rw [List.flatMap_eq_nil_iff]
    intro k hk
    have := List.mem_filter.1 hk
    have hni := hl k this.1 (by simpa using this.2)
    rw [List.map_eq_nil_iff, List.filter_eq_nil_iff]
    intro q hq he
    simp only [decide_eq_true_eq] at he
    exact hni (he ▸ hq)
  refine ⟨_, h5 (Or.inl hbn), ?_, ?_⟩
  · intro h
    simp only [hi, Bool.false_eq_true, if_false]
    rw [hnil cs h]
    rfl
  · intro l1 k l2 he hkb hcount hrest
    simp only [hi, Bool.false_eq_true, if_false]
    have e : binding cs = binding l1 ++ k :: binding l2 := by
      subst he
      unfold binding
      rw [List.filter_append, List.filter_cons_of_pos (by simpa using hkb)]
    have e2 : notesOf (binding cs) i = [k.note] := by
      rw [e]
      have a := hnil l1 (fun k' hk' => hrest k' (List.mem_append_left _ hk'))
      have b := hnil l2 (fun k' hk' => hrest k' (List.mem_append_right _ hk'))
      unfold notesOf at *
      rw [List.flatMap_append, List.flatMap_cons, a, b]
      have : (k.params.filter (fun q => decide (q = i))).length = 1 := by
        rw [← hcount, List.count_eq_length_filter]
        congr 1
      obtain ⟨z, hz⟩ := List.length_eq_one_iff.1 this
      simp [hz]
    rw [e2]
    rfl

/-- C113: whatever was calculated before, the standard errors, t statistics (also the robust ones) and the matrix are those of this
calculation. -/
theorem C113_current (f : Param n) (cov robust : Matrix n n ℝ) (cs : List (Con n)) (old old' : Cols n) :
    let c := columns f cov robust cs old
    let c' := columns f cov robust cs old'
    c.cov = c'.cov ∧ c.stdErr = c'.stdErr ∧ c.tStat = c'.tStat ∧ c.robustStdErr = c'.robustStdErr ∧ c.robustT = c'.robustT := by
  unfold columns
  simp only
  split_ifs <;> exact ⟨rfl, rfl, rfl, rfl, rfl⟩

/-- C113: the robust standard errors are those of the robust covariance matrix, which takes no account of constraints. -/
theorem C113_robust (f : Param n) (cov robust : Matrix n n ℝ) (cs : List (Con n)) (old : Cols n) (i : n) (h : 0 < robust i i) :
    let c := columns f cov robust cs old
    IsStat (robust i i) (f.value i) (f.null i) (c.robustStdErr i) (c.robustT i) := by
  intro c
  have : c.robustStdErr = stdErrs robust ∧ c.robustT = tStats f (stdErrs robust) := by
    show (columns f cov robust cs old).robustStdErr = _ ∧ (columns f cov robust cs old).robustT = _
    unfold columns
    simp only
    split_ifs <;> exact ⟨rfl, rfl⟩
  rw [this.1, this.2]
  exact isStat_of_pos _ _ _ h

/-- C113 is violated: if no constraint is binding any more and no parameter is held fast, the notes of an earlier calculation stay. -/
theorem C113_fails_stale (f : Param n) (cov robust : Matrix n n ℝ) (cs : List (Con n)) (old : Cols n)
    (hb : ∀ k ∈ cs, ¬ |k.value| < k.tol) (hh : ∀ i, f.hold i = false) :
    (columns f cov robust cs old).constrained = old.constrained := by
  by_cases hcs : cs = []
  · subst hcs; rfl
  · obtain ⟨_, _, _, _, _, h6⟩ := columns_cons f cov robust cs hcs old
    refine h6 ?_ hh
    unfold binding
    rw [List.filter_eq_nil_iff]
    intro k hk
    simpa using hb k hk

/-! ### Examples -/

/-- A model with two parameters (estimates 3 and 2, null values 0), variances 4 and 1, uncorrelated. -/
def exParam : Param (Fin 2) := ⟨fun _ => false, ![3, 2], fun _ => 0⟩

/-- The bound `p1 ≤ 2`, which is binding. -/
noncomputable def exBound : StdErr.Con (Fin 2) := { value := 0, jac := Pi.single 1 (-1), tol := 1 / 10000, params := [1], note := "p1 ≤ 2" }

theorem exCov : IsCovariance (Matrix.diagonal ![(4 : ℝ), 1]) := by
  refine ⟨Matrix.diagonal_transpose _, fun v => ?_⟩
  simp [variance, Matrix.mulVec_diagonal, dotProduct, Fin.sum_univ_two]
  nlinarith [mul_self_nonneg (v 0), mul_self_nonneg (v 1)]

/-- Without the bound both have a standard error; with it the second has none and is noted, the first keeps its own. -/
example (old : Cols (Fin 2)) :
    IsStat 4 3 0 ((columns exParam (Matrix.diagonal ![4, 1]) 1 [] old).stdErr 0) ((columns exParam (Matrix.diagonal ![4, 1]) 1 [] old).tStat 0) ∧
    (columns exParam (Matrix.diagonal ![4, 1]) 1 [exBound] old).stdErr 1 = .nan ∧
    (columns exParam (Matrix.diagonal ![4, 1]) 1 [exBound] old).tStat 1 = .pinf ∧
    (∃ g, (columns exParam (Matrix.diagonal ![4, 1]) 1 [exBound] old).constrained = some g ∧ g 0 = "" ∧ g 1 = "p1 ≤ 2") := by
  refine ⟨?_, ?_, ?_, ?_⟩
  · have := (C113_unconstrained exParam (Matrix.diagonal ![4, 1]) 1 old 0 (by simp)).2
    simpa [columns, exParam] using this
  · exact (C113_pinned exParam _ 1 exCov [exBound] old 1 rfl exBound (by simp) (by simp [exBound]) (-1) (by norm_num) rfl
      (by simp [exBound]) (by simp [exParam])).2.1
  · have := (C113_pinned exParam _ 1 exCov [exBound] old 1 rfl exBound (by simp) (by simp [exBound]) (-1) (by norm_num) rfl
      (by simp [exBound]) (by simp [exParam])).2.2
    simpa [exParam] using this
  · have hb : ∃ k ∈ [exBound], |k.value| < k.tol := ⟨exBound, by simp, by simp [exBound]⟩
    obtain ⟨g, hg, h1, _⟩ := C113_notes exParam (Matrix.diagonal ![4, 1]) 1 [exBound] old 0 rfl hb
    obtain ⟨g', hg', _, h2⟩ := C113_notes exParam (Matrix.diagonal ![4, 1]) 1 [exBound] old 1 rfl hb
    have : g = g' := by rw [hg] at hg'; exact Option.some.inj hg'
    subst this
    refine ⟨g, hg, h1 ?_, h2 [] exBound [] rfl (by simp [exBound]) (by simp [exBound]) (by simp)⟩
    simp [exBound]

/-- … and when the bound is taken away, its note stays in the table. -/
example (old : Cols (Fin 2)) :
    ∃ g, (columns exParam (Matrix.diagonal ![4, 1]) 1 [] (columns exParam (Matrix.diagonal ![4, 1]) 1 [exBound] old)).constrained = some g ∧
      g 1 = "p1 ≤ 2" := by
  have hb : ∃ k ∈ [exBound], |k.value| < k.tol := ⟨exBound, by simp, by simp [exBound]⟩
  obtain ⟨g', hg', _, h2⟩ := C113_notes exParam (Matrix.diagonal ![4, 1]) 1 [exBound] old 1 rfl hb
  refine ⟨g', ?_, h2 [] exBound [] rfl (by simp [exBound]) (by simp [exBound]) (by simp)⟩
  rw [C113_fails_stale exParam _ _ [] _ (by simp) (fun _ => rfl), hg']

/-! ## C114 -/

theorem exceeded_three (x a b c : ℝ) (hab : a < b) (hbc : b < c) :
    exceeded x [a, b, c] = if c < x then 3 else if b < x then 2 else if a < x then 1 else 0 := by
  unfold exceeded
  by_cases h1 : a < x <;> by_cases h2 : b < x <;> by_cases h3 : c < x <;> simp [h1, h2, h3] <;> linarith

/-- C114: a parameter with a finite t statistic gets as many asterisks as the absolute value of t exceeds of the levels of the normal
distribution, whatever the likelihood ratio. -/
theorem C114_t (t : ℝ) (lr : Option X) : signif (some (.fin t)) lr = stars (exceeded |t| normalLevels) := by
  have e : signif (some (.fin t)) lr = signifT (some (.fin t)) := by
    unfold signif
    cases lr <;> simp [finite, nonFiniteT]
  have hn : (fixie (.fin t)).isNa = false := by
    simp only [fixie]
    split_ifs <;> rfl
  rw [e, normalLevels, exceeded_three _ _ _ _ (by norm_num) (by norm_num)]
  unfold signifT
  simp only [absX, X.fin_gt_fin, hn, Bool.false_eq_true, if_false]
  split_ifs <;> rfl

/-- C114: a parameter without finite t statistic (or all of them, if none were calculated) gets the marks of its likelihood ratio, in
brackets. -/
theorem C114_ratio (t : Option X) (ht : ∀ r, t ≠ some (.fin r)) (l : ℝ) :
    signif t (some (.fin l)) = "[" ++ stars (exceeded l ratioLevels) ++ "]" := by
  have hnf : nonFiniteT t = true := by
    cases t with
    | none => rfl
    | some x =>
      cases x with
      | fin r => exact absurd rfl (ht r)
      | _ => rfl
  rw [ratioLevels, exceeded_three _ _ _ _ (by norm_num) (by norm_num)]
  unfold signif
  simp only [hnf, X.fin_gt_fin, finite, Bool.and_self, if_true, and_true]
  split_ifs <;> decide

/-- C114: with neither, there is no mark; in particular a NaN or an infinite t statistic is no evidence. -/
theorem C114_none (t : Option X) (ht : ∀ r, t ≠ some (.fin r)) (lr : Option X) (hl : lr = none ∨ lr = some .nan) :
    signif t lr = "" := by
  have h1 : signifT t = "" := by
    cases t with
    | none => rfl
    | some x =>
      cases x with
      | fin r => exact absurd rfl (ht r)
      | _ => simp [signifT, fixie, Shown.isNa]
  rcases hl with rfl | rfl
  · exact h1
  · unfold signif
    simp [h1, finite, X.gt]

/-- C114: the two kinds of marks agree: where the log likelihood is quadratic, the likelihood ratio is half the square of t, and as many levels are
exceeded (unless it is within 0.0002 of one of the levels). -/
theorem C114_agree (t : ℝ) (h : ∀ x ∈ ratioLevels, 0.0002 ≤ |t * t / 2 - x|) :
    exceeded (t * t / 2) ratioLevels = exceeded |t| normalLevels := by
  have key : ∀ a x : ℝ, 0 < a → |a * a / 2 - x| < 0.0002 → 0.0002 ≤ |t * t / 2 - x| → (x < t * t / 2 ↔ a < |t|) := by
    intro a x ha hax htx
    rw [abs_lt] at hax
    have hsq : t * t = |t| * |t| := (abs_mul_abs_self t).symm
    constructor
    · intro hx
      rw [abs_of_pos (by linarith)] at htx
      by_contra hc
      have := mul_le_mul (not_lt.1 hc) (not_lt.1 hc) (abs_nonneg _) ha.le
      linarith [hax.1, hax.2]
    · intro hx
      by_contra hc
      rw [abs_of_nonpos (by linarith)] at htx
      have := mul_lt_mul'' hx hx ha.le ha.le
      linarith [hax.1, hax.2]
  have h1 := key 1.9600 1.9207 (by norm_num) (by norm_num [abs_of_pos]) (h _ (by simp [ratioLevels]))
  have h2 := key 2.5758 3.3174 (by norm_num) (by rw [abs_lt]; constructor <;> norm_num) (h _ (by simp [ratioLevels]))
  have h3 := key 3.2905 5.4138 (by norm_num) (by rw [abs_lt]; constructor <;> norm_num) (h _ (by simp [ratioLevels]))
  rw [ratioLevels, normalLevels, exceeded_three _ _ _ _ (by norm_num) (by norm_num), exceeded_three _ _ _ _ (by norm_num) (by norm_num)]
  simp only [h1, h2, h3]

/-- C114: a greater distance from the null value never gets fewer marks. -/
theorem C114_monotone (t t' : ℝ) (lr lr' : Option X) (h : |t| ≤ |t'|) :
    (signif (some (.fin t)) lr).length ≤ (signif (some (.fin t')) lr').length := by
  rw [C114_t, C114_t]
  have : ∀ k, (stars k).length = k := fun k => by simp [stars]
  rw [this, this]
  unfold exceeded
  refine List.Sublist.length_le (List.monotone_filter_right _ ?_)
  intro x hx
  simp only [decide_eq_true_eq] at *
  exact hx.trans_le h

/-- t = 2.6: two asterisks; a parameter at its bound with likelihood ratio 4: two in brackets. -/
example : signif (some (.fin (-2.6))) none = "**" ∧ signif (some .pinf) (some (.fin 4)) = "[**]" := by
  have e1 : exceeded |(-2.6 : ℝ)| normalLevels = 2 := by
    rw [abs_of_neg (by norm_num), normalLevels, exceeded_three _ _ _ _ (by norm_num) (by norm_num)]
    norm_num
  have e2 : exceeded (4 : ℝ) ratioLevels = 2 := by
    rw [ratioLevels, exceeded_three _ _ _ _ (by norm_num) (by norm_num)]
    norm_num
  exact ⟨by rw [C114_t, e1]; decide, by rw [C114_ratio _ (by simp), e2]; decide⟩

end Larch.Props
