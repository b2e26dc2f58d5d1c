import Verif.Model.Jump
import Verif.Spec.Jump
import Verif.Spec.Cases
import Verif.Lemmas.Cases
import Verif.Props.Covariance
import Mathlib.Data.List.Perm.Basic
import Mathlib.Tactic.NormNum
import Mathlib.Tactic.Positivity

/-!
# C133: jump-starting an estimation
-/

open Matrix

namespace Larch.Props

open Larch.Jump Larch.Cov Larch.CovSpec Larch.Spec Larch.Cases

set_option linter.unusedSectionVars false

variable {n : Type} [Fintype n] [DecidableEq n]

/-- `inv` is a generalised inverse, as `general_inverse` is. -/
def InvOk (P : Problem n) : Prop := ∀ a, GeneralInverse a (P.inv a)

/-! ## one step -/

theorem jp_direction_held (P : Problem n) (cs : List Int) (v : n → ℝ) (i : n) (h : P.hold i = true) : direction P cs v i = 0 := by
  unfold direction vecMul dotProduct
  exact Finset.sum_eq_zero fun j _ => by simp [scatter, h]

theorem jp_setValues (P : Problem n) (cs : List Int) (v : n → ℝ) (s : ℝ) :
    setValues P v (v + s • direction P cs v) = v + s • direction P cs v := by
  funext i
  unfold setValues
  by_cases h : P.hold i = true
  · simp [h, jp_direction_held P cs v i h]
  · simp [h]

theorem jp_block_symm (P : Problem n) (cs : List Int) (v : n → ℝ) : (block P.hold (bhhh P cs v))ᵀ = block P.hold (bhhh P cs v) := by
  ext a b
  simp only [block, transpose_apply, submatrix_apply, bhhh]
  congr 1
  exact List.map_congr_left fun c _ => by ring

/-- C133: what is computed for a group of cases is the BHHH step. -/
theorem C133_step (P : Problem n) (h : InvOk P) (cs : List Int) (v : n → ℝ) :
    IsStep P.hold P.weight (P.score v) cs (direction P cs v) := by
  refine ⟨jp_direction_held P cs v, P.inv (block P.hold (bhhh P cs v)), h _, fun a => ?_⟩
  have hs := generalInverse_symm (jp_block_symm P cs v) (h (block P.hold (bhhh P cs v)))
  unfold direction vecMul dotProduct
  have key : ∀ f : n → ℝ, (∀ i, P.hold i = true → f i = 0) → ∑ i, f i = ∑ b : Free P.hold, f b := by
    intro f hf
    rw [← Finset.sum_filter_add_sum_filter_not Finset.univ (fun i => P.hold i = false)]
    rw [Finset.sum_eq_zero (s := Finset.univ.filter fun i => ¬ P.hold i = false) (f := f)
      (fun i hi => hf i (by simpa using (Finset.mem_filter.mp hi).2)), add_zero]
    apply Finset.sum_subtype
    simp
  rw [key]
  · refine Finset.sum_congr rfl fun b _ => ?_
    rw [mul_comm]
    congr 1
    exact (dif_pos (c := P.hold b = false ∧ P.hold a = false) ⟨b.2, a.2⟩).trans (congrFun (congrFun hs a) b)
  · intro i hi
    simp [scatter, hi]

theorem jp_sum_sq (w : Int → ℝ) (hw : ∀ c, 0 ≤ w c) {m : Type} [Fintype m] (g : Int → m → ℝ) (cs : List Int) :
    IsCovariance (fun (a b : m) => (cs.map fun c => w c * (g c a * g c b)).sum : Matrix m m ℝ) := by
  refine ⟨?_, fun v => ?_⟩
  · ext a b
    show (cs.map fun c => w c * (g c b * g c a)).sum = (cs.map fun c => w c * (g c a * g c b)).sum
    congr 1
    exact List.map_congr_left fun c _ => by ring
  · have : variance (fun (a b : m) => (cs.map fun c => w c * (g c a * g c b)).sum : Matrix m m ℝ) v =
        (cs.map fun c => w c * ((∑ a, v a * g c a) * (∑ a, v a * g c a))).sum := by
      unfold variance dotProduct mulVec dotProduct
      induction cs with
      | nil => simp
      | cons c cs ih =>
        simp only [List.map_cons, List.sum_cons]
        rw [← ih]
        simp only [add_mul, mul_add, Finset.sum_add_distrib]
        congr 1
        rw [Finset.sum_mul_sum, Finset.mul_sum]
        refine Finset.sum_congr rfl fun a _ => ?_
        rw [Finset.mul_sum, Finset.mul_sum]
        exact Finset.sum_congr rfl fun b _ => by ring
    rw [this]
    apply List.sum_nonneg
    intro x hx
    obtain ⟨c, -, rfl⟩ := List.mem_map.mp hx
    exact mul_nonneg (hw c) (mul_self_nonneg _)

/-- C133: with non-negative weights a step never points downhill for the cases it is made for. -/
theorem C133_uphill (hold : n → Bool) (w : Int → ℝ) (hw : ∀ c, 0 ≤ w c) (g : Int → n → ℝ) (cs : List Int) (d : n → ℝ)
    (h : IsStep hold w g cs d) : 0 ≤ ∑ i, d i * (cs.map fun c => w c * g c i).sum := by
  obtain ⟨h0, X, hX, hd⟩ := h
  have hc := isCovariance_of_inverse (jp_sum_sq w hw (fun c (a : { i // hold i = false }) => g c a) cs) hX
  have key : ∑ i, d i * (cs.map fun c => w c * g c i).sum =
      variance X fun (a : { i // hold i = false }) => (cs.map fun c => w c * g c a).sum := by
    rw [← Finset.sum_filter_add_sum_filter_not Finset.univ (fun i => hold i = false)]
    rw [Finset.sum_eq_zero (s := Finset.univ.filter fun i => ¬ hold i = false) (fun i hi => by
      rw [h0 i (by simpa using (Finset.mem_filter.mp hi).2), zero_mul]), add_zero]
    rw [Finset.sum_subtype (p := fun i => hold i = false) _ (by simp)]
    unfold variance dotProduct mulVec dotProduct
    exact Finset.sum_congr rfl fun a _ => by rw [hd a, mul_comm]
  rw [key]
  exact hc.nonneg _

/-! ## numba -/

theorem jp_loopN (P : Problem n) (h : InvOk P) (s : ℝ) (split : Nat) (l : List Nat) (v : n → ℝ) :
    Walk P.hold P.weight P.score s (l.map (sliceN P.nCases split)) v (loopN P s split l v v) := by
  induction l generalizing v with
  | nil => exact .done v
  | cons j0 rest ih =>
    unfold loopN
    rw [jp_setValues]
    exact .step (C133_step P h _ v) (ih _)

theorem jp_walk_append {hold : n → Bool} {w : Int → ℝ} {g : (n → ℝ) → Int → n → ℝ} {s : ℝ} {l l' : List (List Int)} {p q r : n → ℝ}
    (h : Walk hold w g s l p q) (h' : Walk hold w g s l' q r) : Walk hold w g s (l ++ l') p r := by
  induction h with
  | done p => exact h'
  | step hd _ ih => exact .step hd (ih h')

theorem jp_walk_held {hold : n → Bool} {w : Int → ℝ} {g : (n → ℝ) → Int → n → ℝ} {s : ℝ} {l : List (List Int)} {p q : n → ℝ}
    (h : Walk hold w g s l p q) (i : n) (hi : hold i = true) : q i = p i := by
  induction h with
  | done p => rfl
  | step hd _ ih => rw [ih]; simp [hd.1 i hi]

theorem jp_sliceN (m split j0 : Nat) (hs : 0 < split) (c : Int) :
    c ∈ sliceN m split j0 ↔ (j0 : Int) ≤ c ∧ c < m ∧ (split : Int) ∣ c - j0 := by
  unfold sliceN numbaCases
  simp only [Option.map_some, Option.getD_some, Option.map_none, Option.getD_none]
  rw [mem_range (by omega)]
  have : clampBound m (j0 : Int) = min (j0 : Int) m := by unfold clampBound; rw [if_neg (by omega)]
  rw [this]
  constructor
  · rintro ⟨h1, h2, h3⟩
    have : min (j0 : Int) m = j0 := by omega
    rw [this] at h1 h3
    exact ⟨h1, h2, h3⟩
  · rintro ⟨h1, h2, h3⟩
    have : min (j0 : Int) m = j0 := by omega
    rw [this]
    exact ⟨h1, h2, h3⟩

/-- The groups of a round of the numba engine. -/
theorem jp_cover (m split : Nat) (hs : 0 < split) : Covers m ((List.range split).map (sliceN m split)) := by
  unfold Covers
  rw [List.perm_ext_iff_of_nodup]
  · intro c
    simp only [List.mem_flatten, List.mem_map, List.mem_range]
    constructor
    · rintro ⟨l, ⟨j, hj, rfl⟩, hc⟩
      rw [jp_sliceN _ _ _ hs] at hc
      exact ⟨c.toNat, by omega, by omega⟩
    · rintro ⟨i, hi, rfl⟩
      refine ⟨sliceN m split (i % split), ⟨i % split, Nat.mod_lt _ hs, rfl⟩, ?_⟩
      rw [jp_sliceN _ _ _ hs]
      refine ⟨by exact_mod_cast Nat.mod_le _ _, by omega, ⟨(i / split : Nat), ?_⟩⟩
      have := Nat.div_add_mod i split
      push_cast
      have h2 : (i : Int) = split * (i / split : Nat) + (i % split : Nat) := by exact_mod_cast this.symm
      push_cast at h2
      omega
  · rw [List.nodup_flatten]
    constructor
    · intro l hl
      obtain ⟨j, -, rfl⟩ := List.mem_map.mp hl
      exact (range_sorted (by simpa using hs)).imp (fun h => ne_of_lt h)
    · rw [List.pairwise_map]
      refine (List.nodup_range (n := split)).imp_of_mem ?_
      intro a b ha hb hab
      rw [List.disjoint_left]
      intro c hca hcb
      rw [jp_sliceN _ _ _ hs] at hca hcb
      rw [List.mem_range] at ha hb
      apply hab
      have h3 : (split : Int) ∣ (a : Int) - b := by
        have := dvd_sub hcb.2.2 hca.2.2
        have e : c - (b : Int) - (c - a) = a - b := by ring
        rwa [e] at this
      obtain ⟨k, hk⟩ := h3
      have : k = 0 := by
        by_contra hne
        rcases lt_or_gt_of_ne hne with h | h
        · have : (split : Int) * k ≤ split * (-1) := by apply mul_le_mul_of_nonneg_left <;> omega
          omega
        · have : (split : Int) * 1 ≤ split * k := by apply mul_le_mul_of_nonneg_left <;> omega
          omega
      subst this
      omega
  · exact List.Nodup.map (fun a b h => by simpa using h) List.nodup_range

/-- C133, numba: each of the `jumpstart` rounds goes once through all cases, in `jumpstart_split` groups, and makes the BHHH step of each
group from where the previous step ended. -/
theorem C133_numba (P : Problem n) (h : InvOk P) (s : ℝ) (jumpstart split : Nat) (hs : 0 < split) (v : n → ℝ) :
    ∃ groups : List (List Int), groups.length = split ∧ Covers P.nCases groups ∧
      Walk P.hold P.weight P.score s (List.replicate jumpstart groups).flatten v (jumpN P s jumpstart split v) := by
  refine ⟨(List.range split).map (sliceN P.nCases split), by simp, jp_cover _ _ hs, ?_⟩
  unfold jumpN
  induction jumpstart generalizing v with
  | zero => exact .done v
  | succ k ih =>
    rw [List.replicate_succ, List.flatten_cons, Function.iterate_succ_apply]
    exact jp_walk_append (jp_loopN P h s split _ v) (ih _)

/-- C133, numba: parameters held fast stay where they are, whatever the split. -/
theorem C133_numba_held (P : Problem n) (h : InvOk P) (s : ℝ) (jumpstart split : Nat) (v : n → ℝ) (i : n) (hi : P.hold i = true) :
    jumpN P s jumpstart split v i = v i := by
  unfold jumpN
  induction jumpstart generalizing v with
  | zero => rfl
  | succ k ih =>
    rw [Function.iterate_succ_apply, ih]
    exact jp_walk_held (jp_loopN P h s split _ v) i hi

/-! ## the compiled engine -/

theorem jp_sliceLen (m split : Nat) (hm : 0 < m) (hs : 0 < split) : 0 < sliceLen m split ∧ m ≤ sliceLen m split * split := by
  unfold sliceLen
  have h := Nat.div_add_mod m split
  have hlt0 := Nat.mod_lt m hs
  generalize m / split = q at *
  generalize m % split = r at *
  by_cases h0 : r = 0
  · rw [if_neg (by simpa using h0), add_zero, mul_comm]
    refine ⟨?_, by omega⟩
    rcases Nat.eq_zero_or_pos q with rfl | hq
    · simp at h; omega
    · exact hq
  · rw [if_pos h0]
    refine ⟨by omega, ?_⟩
    have hlt : r < split := by assumption
    rw [add_mul, one_mul, mul_comm]
    omega

theorem jp_plain (m : Nat) (a b : Int) : sliceC m noCv (a, b) = pyRange a (if b < 0 then (m : Int) else b) 1 := by
  unfold sliceC
  rw [List.filter_eq_self.mpr]
  · rfl
  · intro c _
    simp [skips, noCv]

theorem jp_split_range (a b N : Int) (hab : a ≤ b) (hb : b ≤ N) : pyRange a N 1 = pyRange a b 1 ++ pyRange b N 1 := by
  obtain ⟨k, hk⟩ := Int.eq_ofNat_of_zero_le (show 0 ≤ b - a by omega)
  induction k generalizing a with
  | zero =>
    obtain rfl : a = b := by simp at hk; omega
    rw [pyRange_nil (a := a) (b := a) (le_refl _), List.nil_append]
  | succ k ih =>
    rw [pyRange_step (a := a) (b := N) (by omega) (by push_cast at hk; omega),
      pyRange_step (a := a) (b := b) (by omega) (by push_cast at hk; omega), List.cons_append,
      ih (a + 1) (by push_cast at hk; omega) (by push_cast at hk; omega)]

theorem jp_flatten (m : Nat) (L : Int) (hL : 0 < L) (k : Nat) : ∀ a : Int, 0 ≤ a → a < m → (m - a).toNat ≤ k →
    (((pyRange a m L ++ [-1]).zip (pyRange a m L ++ [-1]).tail).map (sliceC m noCv)).flatten = pyRange a m 1 := by
  induction k with
  | zero => intro a h0 h1 h2; omega
  | succ k ih =>
    intro a h0 h1 h2
    rw [pyRange_step hL h1]
    by_cases h : a + L < m
    · have e := pyRange_step (a := a + L) hL h
      have := ih (a + L) (by omega) h (by omega)
      rw [e] at this ⊢
      simp only [List.cons_append, List.tail_cons, List.zip_cons_cons, List.map_cons, List.flatten_cons] at this ⊢
      rw [this, jp_plain, if_neg (by omega)]
      exact (jp_split_range a (a + L) m (by omega) (by omega)).symm
    · rw [pyRange_nil (a := a + L) (by omega)]
      simp [jp_plain]

theorem jp_range_eq (m : Nat) : pyRange 0 m 1 = (List.range m).map fun (i : Nat) => (i : Int) := by
  induction m with
  | zero => rw [pyRange_nil (by simp)]; rfl
  | succ k ih =>
    rw [jp_split_range 0 k ((k + 1 : Nat) : Int) (by omega) (by push_cast; omega), ih, List.range_succ, List.map_append]
    congr 1
    rw [pyRange_step (by omega) (by push_cast; omega), pyRange_nil (by push_cast; omega)]
    rfl

/-- C133, compiled: a round cuts the cases into at most `jumpstart_split` groups of consecutive cases, every case in exactly one. -/
theorem C133_compiled_groups (m split : Nat) (hm : 0 < m) (hs : 0 < split) :
    (slicesC m split noCv).flatten = (List.range m).map (fun (i : Nat) => (i : Int)) ∧ (slicesC m split noCv).length ≤ split := by
  obtain ⟨hL, hle⟩ := jp_sliceLen m split hm hs
  constructor
  · rw [← jp_range_eq]
    exact jp_flatten m (sliceLen m split) (by omega) m 0 (le_refl _) (by omega) (by omega)
  · unfold slicesC breaks
    rw [List.length_map, List.length_zip, List.length_tail, List.length_append, List.length_singleton]
    have hb : (pyRange 0 (m : Int) (sliceLen m split : Int)).length ≤ split := by
      by_contra hc
      have hlt : split < (pyRange 0 (m : Int) (sliceLen m split : Int)).length := by omega
      have hg : ∃ c, (pyRange 0 (m : Int) (sliceLen m split : Int))[split]? = some c := ⟨_, List.getElem?_eq_getElem hlt⟩
      obtain ⟨c, hc⟩ := hg
      have hmem : c ∈ pyRange 0 (m : Int) (sliceLen m split : Int) := List.mem_of_getElem? hc
      have := pyRange_get (b := m) (s := sliceLen m split) (by omega) split 0 c hc
      rw [mem_range (by omega)] at hmem
      have h2 : (m : Int) ≤ sliceLen m split * split := by exact_mod_cast hle
      have h3 : (split : Int) * sliceLen m split = sliceLen m split * split := mul_comm _ _
      omega
    omega

theorem jp_loopC (P : Problem n) (h : InvOk P) (s : ℝ) (j : n → ℝ) (l : List (List Int)) (u : n → ℝ)
    (hu : ∀ i, P.hold i = true → u i = j i) :
    (∀ i, P.hold i = true → loopC P s j l u i = j i) ∧
    ∀ cs, l.getLast? = some cs → ∃ w d, (∀ i, P.hold i = true → w i = j i) ∧ IsStep P.hold P.weight (P.score w) cs d ∧
      loopC P s j l u = j + s • d := by
  induction l generalizing u with
  | nil => exact ⟨hu, fun cs h => by simp at h⟩
  | cons cs rest ih =>
    have hset : setValues P u (j + s • direction P cs u) = j + s • direction P cs u := by
      funext i
      unfold setValues
      by_cases hi : P.hold i = true
      · simp [hi, jp_direction_held P cs u i hi, hu i hi]
      · simp [hi]
    unfold loopC
    rw [hset]
    have hu' : ∀ i, P.hold i = true → (j + s • direction P cs u) i = j i := fun i hi => by
      simp [jp_direction_held P cs u i hi]
    refine ⟨(ih _ hu').1, fun cs' hl => ?_⟩
    cases rest with
    | nil =>
      obtain rfl : cs = cs' := by simpa using hl
      exact ⟨u, direction P cs u, hu, C133_step P h cs u, rfl⟩
    | cons a b => exact (ih _ hu').2 cs' (by simpa using hl)

/-- C133, compiled: parameters held fast stay where they are. -/
theorem C133_compiled_held (P : Problem n) (h : InvOk P) (s : ℝ) (jumpstart split : Nat) (cv : Cv) (v v' : n → ℝ)
    (hr : jumpC P s jumpstart split cv v = some v') (i : n) (hi : P.hold i = true) : v' i = v i := by
  unfold jumpC at hr
  by_cases h0 : jumpstart = 0
  · rw [if_pos h0] at hr; simp at hr; rw [hr]
  · rw [if_neg h0] at hr
    by_cases h1 : split = 0 ∨ P.nCases = 0
    · rw [if_pos h1] at hr; simp at hr
    · rw [if_neg h1] at hr
      obtain rfl := Option.some.inj hr
      clear hr h0
      induction jumpstart generalizing v with
      | zero => rfl
      | succ k ih =>
        rw [Function.iterate_succ_apply, ih]
        exact (jp_loopC P h s v _ v (fun _ _ => rfl)).1 i hi

/-- C133, compiled: it raises exactly when there is something to do and no slice to do it with. -/
theorem C133_compiled_raises (P : Problem n) (s : ℝ) (jumpstart split : Nat) (cv : Cv) (v : n → ℝ) :
    jumpC P s jumpstart split cv v = none ↔ jumpstart ≠ 0 ∧ (split = 0 ∨ P.nCases = 0) := by
  unfold jumpC
  by_cases h0 : jumpstart = 0
  · simp [h0]
  · by_cases h1 : split = 0 ∨ P.nCases = 0
    · simp [h0, h1]
    · simp [h0, h1]

/-- C133, compiled, partial: with `jumpstart_split=1` each round makes the BHHH step of all cases, from where the previous one ended.
Missing: more than one group. -/
theorem C133_compiled_partial (P : Problem n) (h : InvOk P) (hm : 0 < P.nCases) (s : ℝ) (jumpstart : Nat) (v v' : n → ℝ)
    (hr : jumpC P s jumpstart 1 noCv v = some v') :
    Walk P.hold P.weight P.score s (List.replicate jumpstart ((List.range P.nCases).map fun (i : Nat) => (i : Int))) v v' := by
  have hg : slicesC P.nCases 1 noCv = [(List.range P.nCases).map fun (i : Nat) => (i : Int)] := by
    obtain ⟨h1, h2⟩ := C133_compiled_groups P.nCases 1 hm (by omega)
    match hsl : slicesC P.nCases 1 noCv with
    | [] => rw [hsl] at h1; simp at h1; omega
    | [x] => rw [hsl] at h1; simpa using h1
    | x :: y :: z => rw [hsl] at h2; simp at h2
  unfold jumpC at hr
  by_cases h0 : jumpstart = 0
  · rw [if_pos h0] at hr; simp at hr; subst hr; subst h0; exact .done v
  · rw [if_neg h0, if_neg (by omega)] at hr
    obtain rfl := Option.some.inj hr
    clear hr h0
    induction jumpstart generalizing v with
    | zero => exact .done v
    | succ k ih =>
      rw [List.replicate_succ, Function.iterate_succ_apply]
      have hround : roundC P s 1 noCv v = v + s • direction P ((List.range P.nCases).map fun (i : Nat) => (i : Int)) v := by
        unfold roundC
        rw [hg]
        unfold loopC loopC
        rw [jp_setValues]
      refine .step (C133_step P h _ v) ?_
      rw [← hround]
      exact ih _

/-- C133, compiled: after a round, whatever the earlier groups did, the model is one step of the last group away from where the round
began (so their steps are lost). -/
theorem C133_compiled_last (P : Problem n) (h : InvOk P) (s : ℝ) (split : Nat) (cv : Cv) (v : n → ℝ) (cs : List Int)
    (hl : (slicesC P.nCases split cv).getLast? = some cs) :
    ∃ w d, (∀ i, P.hold i = true → w i = v i) ∧ IsStep P.hold P.weight (P.score w) cs d ∧
      jumpC P s 1 split cv v = (if split = 0 ∨ P.nCases = 0 then none else some (v + s • d)) := by
  obtain ⟨w, d, h1, h2, h3⟩ := (jp_loopC P h s v (slicesC P.nCases split cv) v (fun _ _ => rfl)).2 cs hl
  refine ⟨w, d, h1, h2, ?_⟩
  unfold jumpC
  rw [if_neg (by omega)]
  by_cases hc : split = 0 ∨ P.nCases = 0
  · rw [if_pos hc, if_pos hc]
  · rw [if_neg hc, if_neg hc]
    exact congrArg some h3

/-! ## concrete problems -/

instance jp_unique : Unique (Free (fun _ : Unit => false)) := ⟨⟨⟨(), rfl⟩⟩, fun a => Subtype.ext rfl⟩

/-- One parameter, `m` cases of weight 1, the score of case `c` is `g c` everywhere. -/
noncomputable def flat (m : Nat) (g : Int → ℝ) : Problem Unit :=
  { nCases := m, weight := fun _ => 1, score := fun _ c _ => g c, hold := fun _ => false, inv := fun a => fun i j => (a i j)⁻¹ }

theorem inv_ok {m : Type} [Fintype m] [Unique m] (a x : Matrix m m ℝ)
    (hx : x default default = (a default default)⁻¹) : GeneralInverse a x := by
  have e : ∀ x y : Matrix m m ℝ, x default default = y default default → x = y := by
    intro x y h
    ext i j
    rw [Subsingleton.elim i default, Subsingleton.elim j default, h]
  by_cases h : a default default = 0
  · constructor <;> apply e <;> simp [Matrix.mul_apply, hx, h]
  · constructor <;> apply e <;> simp [Matrix.mul_apply, hx, h]

theorem flat_ok (m : Nat) (g : Int → ℝ) : InvOk (flat m g) := fun a =>
  inv_ok (m := Free (fun _ : Unit => false)) a _ rfl

theorem flat_direction (m : Nat) (g : Int → ℝ) (cs : List Int) (v : Unit → ℝ) :
    direction (flat m g) cs v = fun _ => (cs.map g).sum / (cs.map fun c => g c * g c).sum := by
  funext i
  unfold direction vecMul dotProduct
  simp [scatter, flat, dll, bhhh, block, div_eq_mul_inv]

theorem flat_step {m : Nat} {g : Int → ℝ} {cs : List Int} {v d : Unit → ℝ}
    (h : IsStep (flat m g).hold (flat m g).weight ((flat m g).score v) cs d) :
    d = fun _ => (cs.map g).sum / (cs.map fun c => g c * g c).sum := by
  obtain ⟨-, X, hX, hd⟩ := h
  obtain ⟨-, Y, hY, hd'⟩ := C133_step (flat m g) (flat_ok m g) cs v
  obtain rfl := generalInverse_unique hX hY
  rw [← flat_direction m g cs v]
  funext i
  exact (hd ⟨i, rfl⟩).trans (hd' ⟨i, rfl⟩).symm

/-- C133 fails in the compiled engine: two cases, two groups; the first case pulls the parameter up, the second is indifferent.  The two
steps lead half a unit up; the compiled engine ends where it began. -/
theorem C133_fails_compiled : ∃ (P : Problem Unit) (v : Unit → ℝ), InvOk P ∧ slicesC P.nCases 2 noCv = [[0], [1]] ∧
    jumpC P (1 / 2) 1 2 noCv v = some v ∧
    (∀ q, Walk P.hold P.weight P.score (1 / 2) [[0], [1]] v q → q = fun i => v i + 1 / 2) := by
  refine ⟨flat 2 fun c => if c = 0 then 1 else 0, fun _ => 0, flat_ok _ _, by decide +kernel, ?_, ?_⟩
  · have hs : slicesC 2 2 noCv = [[0], [1]] := by decide +kernel
    unfold jumpC
    rw [if_neg (by omega), if_neg (by simp [flat])]
    show some (roundC (flat 2 fun c => if c = 0 then 1 else 0) (1 / 2) 2 noCv fun _ => 0) = _
    unfold roundC
    rw [show (flat 2 fun c => if c = 0 then 1 else 0).nCases = 2 from rfl, hs]
    unfold loopC loopC loopC
    rw [flat_direction, flat_direction]
    congr 1
    funext i
    simp [setValues, flat]
  · intro q hq
    cases hq with
    | step h1 h2 =>
      cases h2 with
      | step h3 h4 =>
        cases h4
        rw [flat_step h1, flat_step h3]
        funext i
        simp

/-- C133 fails under cross validation, in both engines: the jump start of an estimation that leaves out every second case still depends
on the cases left out. -/
theorem C133_fails_leave_out : ∃ (g g' : Int → ℝ) (cv : Cv) (v : Unit → ℝ),
    (∀ c, KeptBy cv.leaveOut cv.keepOnly cv.subsample c → g c = g' c) ∧
    fitJumpC (flat 2 g) 1 1 cv v ≠ fitJumpC (flat 2 g') 1 1 cv v ∧ fitJumpN (flat 2 g) 1 1 cv v ≠ fitJumpN (flat 2 g') 1 1 cv v := by
  have hs : slicesC 2 1 noCv = [[0, 1]] := by decide +kernel
  have hn : sliceN 2 1 0 = [0, 1] := by decide +kernel
  have hc : ∀ g : Int → ℝ, fitJumpC (flat 2 g) 1 1 ⟨0, -1, 2⟩ (fun _ => 0) = some fun _ => 1 / 2 * ((g 0 + g 1) / (g 0 * g 0 + g 1 * g 1)) := by
    intro g
    unfold fitJumpC jumpC
    rw [if_neg (by omega), if_neg (by simp [flat])]
    show some (roundC (flat 2 g) (1 / 2) 1 noCv fun _ => 0) = _
    unfold roundC
    rw [show (flat 2 g).nCases = 2 from rfl, hs]
    unfold loopC loopC
    rw [flat_direction]
    congr 1
    funext i
    simp [setValues, flat]
  have hcn : ∀ g : Int → ℝ, fitJumpN (flat 2 g) 1 1 ⟨0, -1, 2⟩ (fun _ => 0) = fun _ => 1 / 2 * ((g 0 + g 1) / (g 0 * g 0 + g 1 * g 1)) := by
    intro g
    unfold fitJumpN jumpN
    rw [if_neg (by omega)]
    show roundN (flat 2 g) (1 / 2) 1 (fun _ => 0) = _
    unfold roundN
    show loopN (flat 2 g) (1 / 2) 1 [0] _ _ = _
    unfold loopN loopN
    rw [show (flat 2 g).nCases = 2 from rfl, hn, flat_direction]
    funext i
    simp [setValues, flat]
  refine ⟨fun _ => 1, fun c => if c = 0 then 3 else 1, ⟨0, -1, 2⟩, fun _ => 0, ?_, ?_, ?_⟩
  · intro c h
    have := h.1 (by norm_num)
    by_cases h0 : c = 0
    · subst h0; simp at this
    · simp [h0]
  · rw [hc, hc]
    intro h
    have := congrFun (Option.some.inj h) ()
    norm_num at this
  · rw [hcn, hcn]
    intro h
    have := congrFun h ()
    norm_num at this

/-- The hypotheses of C133 are met: 5 cases, 2 groups, scores of both signs. -/
example : InvOk (flat 5 fun c => if c = 0 then -1 else 2) ∧ (0 : Nat) < 2 ∧ 0 < (flat 5 fun c => if c = 0 then (-1 : ℝ) else 2).nCases ∧
    slicesC 5 2 noCv = [[0, 1, 2], [3, 4]] ∧ (List.range 2).map (sliceN 5 2) = [[0, 2, 4], [1, 3]] :=
  ⟨flat_ok _ _, by norm_num, by simp [flat], by decide +kernel, by decide +kernel⟩

/-- A parameter held fast. -/
noncomputable def heldPair : Problem Bool :=
  { nCases := 1, weight := fun _ => 1, score := fun _ _ _ => 1, hold := fun b => b,
    inv := fun a => fun i j => (a i j)⁻¹ }

instance jp_unique_held : Unique (Free (fun b : Bool => b)) := ⟨⟨⟨false, rfl⟩⟩, fun a => Subtype.ext (by simpa using a.2)⟩

example : InvOk heldPair ∧ heldPair.hold true = true ∧ heldPair.hold false = false := 
  ⟨fun a => inv_ok (m := Free (fun b : Bool => b)) a _ rfl, rfl, rfl⟩

end Larch.Props
