import Verif.Spec.Runner
import Mathlib.Tactic.Ring
import Mathlib.Tactic.NormNum
import Mathlib.Tactic.Linarith

/-!
# C105: evaluations do not depend on earlier evaluations
-/

namespace Larch.Props

open Larch Larch.Runner

variable {Θ A : Type}

/-- What is in force in a state. -/
def nowOf (s : St Θ) : Runner.Spec.Now Θ := ⟨s.x, s.intensity, s.sharpness⟩

theorem gradLoop_eq (wt : ℝ) (l : List (ℝ × (Nat → ℝ))) (d : Nat → ℝ) (p : Nat) :
    gradLoop wt l d p = d p + wt * (l.map (fun a => a.1 * a.2 p)).sum := by
  induction l generalizing d with
  | nil => simp [gradLoop]
  | cons a as ih => simp only [gradLoop, ih, List.map_cons, List.sum_cons]; ring

theorem bhhhLoop_eq (wt : ℝ) (l : List (ℝ × (Nat → ℝ))) (b : Nat → Nat → ℝ) (p q : Nat) :
    bhhhLoop wt l b p q = b p q + wt * (l.map (fun a => a.1 * (a.2 p * a.2 q))).sum := by
  induction l generalizing b with
  | nil => simp [bhhhLoop]
  | cons a as ih => simp only [bhhhLoop, ih, List.map_cons, List.sum_cons]; ring

theorem gradLoop_zero (v : Vals) : gradLoop v.wt v.chosen (fun _ => 0) = Runner.Spec.grad v := by
  funext p; simp [gradLoop_eq, Runner.Spec.grad]

theorem bhhhLoop_zero (v : Vals) : bhhhLoop v.wt v.chosen (fun _ _ => 0) = Runner.Spec.outer v := by
  funext p q; simp [bhhhLoop_eq, Runner.Spec.outer]

/-- The row of a case of the slice after the runner. -/
theorem runner_row (W : World Θ A) (only : Nat) (rp rg rb : Bool) (x : Option A) (c : Slice) (s : St Θ) (i : Int) (hi : i ∈ c.cases W.n) :
    (runner W only rp rg rb x c s).1.rows i =
      if s.intensity ≠ 0 then
        penalise (W.pen s.intensity s.sharpness ((x.map (W.setValues s.x)).getD s.x))
          (W.dpen s.intensity s.sharpness ((x.map (W.setValues s.x)).getD s.x))
          (kernel only rp rg rb (W.vals ((x.map (W.setValues s.x)).getD s.x) i) (s.rows i))
      else kernel only rp rg rb (W.vals ((x.map (W.setValues s.x)).getD s.x) i) (s.rows i) := by
  by_cases h : s.intensity = 0 <;> simp [runner, h, hi]

theorem runner_now (W : World Θ A) (only : Nat) (rp rg rb : Bool) (x : Option A) (c : Slice) (s : St Θ) :
    nowOf (runner W only rp rg rb x c s).1 = ⟨(x.map (W.setValues s.x)).getD s.x, s.intensity, s.sharpness⟩ := by
  by_cases h : s.intensity = 0 <;> simp [runner, h, nowOf]

theorem runner_penalty (W : World Θ A) (only : Nat) (rp rg rb : Bool) (x : Option A) (c : Slice) (s : St Θ) :
    (runner W only rp rg rb x c s).2 = Runner.Spec.penalty W ⟨(x.map (W.setValues s.x)).getD s.x, s.intensity, s.sharpness⟩ := by
  by_cases h : s.intensity = 0 <;> simp [runner, h, Runner.Spec.penalty]

/-- What is in force after a history. -/
theorem history_now (W : World Θ A) (root : Nat) (h : List (Call A)) (s : St Θ) :
    nowOf (history W root s h) = Runner.Spec.Now.after W (nowOf s) h := by
  induction h generalizing s with
  | nil => rfl
  | cons c h ih =>
    show nowOf (history W root (call W root s c) h) = _
    rw [ih]
    cases c with
    | eval m x c =>
      have := runner_now W (flags m).1 (flags m).2.1 (flags m).2.2.1 (flags m).2.2.2 x c s
      cases x with
      | none => simp only [call, eval, this, Runner.Spec.Now.after]; rfl
      | some a => simp only [call, eval, this, Runner.Spec.Now.after]; rfl
    | setIntensity r => rfl
    | setSharpness r => rfl

/-- One evaluation, in any state. -/
theorem eval_result (W : World Θ A) (root : Nat) (m : Method) (x : Option A) (c : Slice) (s : St Θ) :
    (eval W root m x c s).2 =
      Runner.Spec.result W root ⟨(x.map (W.setValues s.x)).getD s.x, s.intensity, s.sharpness⟩ m (c.cases W.n) := by
  have row := runner_row W (flags m).1 (flags m).2.1 (flags m).2.2.1 (flags m).2.2.2 x c s
  have key : ∀ (β : Type) (f : Row → β) (g : Int → β),
      (∀ i ∈ c.cases W.n, f ((runner W (flags m).1 (flags m).2.1 (flags m).2.2.1 (flags m).2.2.2 x c s).1.rows i) = g i) →
      ((c.cases W.n).map (runner W (flags m).1 (flags m).2.1 (flags m).2.2.1 (flags m).2.2.2 x c s).1.rows).map f =
        (c.cases W.n).map g := by
    intro β f g h
    rw [List.map_map]
    exact List.map_congr_left (fun i hi => h i hi)
  have hp := runner_penalty W (flags m).1 (flags m).2.1 (flags m).2.2.1 (flags m).2.2.2 x c s
  generalize hx : (x.map (W.setValues s.x)).getD s.x = x' at row hp ⊢
  have hll : (flags m).1 = 0 → ∀ i ∈ c.cases W.n,
      ((runner W (flags m).1 (flags m).2.1 (flags m).2.2.1 (flags m).2.2.2 x c s).1.rows i).ll =
        (W.vals x' i).ll + Runner.Spec.penalty W ⟨x', s.intensity, s.sharpness⟩ := by
    intro h0 i hi
    rw [row i hi, h0]
    by_cases hs : s.intensity = 0
    · simp only [hs, Runner.Spec.penalty, kernel]
      split_ifs <;> simp_all
    · simp only [hs, Runner.Spec.penalty, kernel, penalise]
      split_ifs <;> simp_all
  have hdll : (flags m).1 = 0 → ((flags m).2.2.1 || (flags m).2.2.2) = true → ∀ i ∈ c.cases W.n, ∀ p,
      ((runner W (flags m).1 (flags m).2.1 (flags m).2.2.1 (flags m).2.2.2 x c s).1.rows i).dll p =
        Runner.Spec.grad (W.vals x' i) p + Runner.Spec.dPenalty W ⟨x', s.intensity, s.sharpness⟩ p := by
    intro h0 h1 i hi p
    rw [row i hi, h0]
    have h2 : ((flags m).2.1 || (flags m).2.2.1 || (flags m).2.2.2) = true := by
      rw [Bool.or_assoc, h1]; simp
    by_cases hs : s.intensity = 0
    · simp only [hs, Runner.Spec.dPenalty, kernel, h1, h2]
      split_ifs <;> simp_all [gradLoop_zero]
    · simp only [hs, Runner.Spec.dPenalty, kernel, penalise, h1, h2]
      split_ifs <;> simp_all [gradLoop_zero]
  have hb : (flags m).1 = 0 → (flags m).2.2.2 = true → ∀ i ∈ c.cases W.n, ∀ p q,
      ((runner W (flags m).1 (flags m).2.1 (flags m).2.2.1 (flags m).2.2.2 x c s).1.rows i).bhhh p q =
        if s.intensity = 0 then Runner.Spec.outer (W.vals x' i) p q
        else (Runner.Spec.grad (W.vals x' i) p + Runner.Spec.dPenalty W ⟨x', s.intensity, s.sharpness⟩ p) *
          (Runner.Spec.grad (W.vals x' i) q + Runner.Spec.dPenalty W ⟨x', s.intensity, s.sharpness⟩ q) := by
    intro h0 h1 i hi p q
    by_cases hs : s.intensity = 0
    · rw [row i hi, h0]
      simp [hs, kernel, h1, bhhhLoop_zero]
    · rw [if_neg hs, ← hdll h0 (by simp [h1]) i hi p, ← hdll h0 (by simp [h1]) i hi q, row i hi, if_pos hs]
      simp [penalise]
  cases m with
  | loglike =>
    simp only [eval, output, Runner.Spec.result, Runner.Spec.ll]
    rw [key _ _ _ (hll rfl)]; exact congrArg Out.num (mul_comm _ _)
  | dLoglike =>
    simp only [eval, output, Runner.Spec.result, Runner.Spec.dll, sumV]
    congr 1
    funext p
    rw [List.map_map, key _ _ _ (fun i hi => hdll rfl rfl i hi p)]; exact mul_comm _ _
  | loglikeCasewise =>
    simp only [eval, output, Runner.Spec.result, Runner.Spec.ll]
    congr 1
    refine key _ _ _ (fun i hi => ?_)
    rw [hll rfl i hi]; simp [mul_comm]
  | dLoglikeCasewise =>
    simp only [eval, output, Runner.Spec.result, Runner.Spec.dll]
    congr 1
    refine key _ _ _ (fun i hi => ?_)
    funext p
    rw [hdll rfl rfl i hi p]; simp [mul_comm, Runner.Spec.dll]
  | bhhh =>
    simp only [eval, output, Runner.Spec.result, Runner.Spec.bhhh, sumM]
    congr 1
    funext p q
    rw [List.map_map, key _ _ _ (fun i hi => hb rfl rfl i hi p q)]; exact mul_comm _ _
  | probability =>
    simp only [eval, output, Runner.Spec.result]
    congr 1
    refine key _ _ _ (fun i hi => ?_)
    rw [row i hi]
    split_ifs <;> simp [kernel, flags, penalise]
  | utility =>
    simp only [eval, output, Runner.Spec.result]
    congr 1
    refine key _ _ _ (fun i hi => ?_)
    rw [row i hi]
    split_ifs <;> simp [kernel, flags, penalise]
  | quantity =>
    simp only [eval, output, Runner.Spec.result]
    congr 1
    refine key _ _ _ (fun i hi => ?_)
    rw [row i hi]
    split_ifs <;> simp [kernel, flags, penalise]
  | logsums =>
    simp only [eval, output, Runner.Spec.result]
    congr 1
    refine key _ _ _ (fun i hi => ?_)
    rw [row i hi]
    split_ifs <;> simp [kernel, flags, penalise]
  | loglike2 =>
    simp only [eval, output, Runner.Spec.result, Runner.Spec.ll, Runner.Spec.dll, sumV]
    congr 1
    · rw [key _ _ _ (hll rfl)]; exact mul_comm _ _
    · funext p
      rw [List.map_map, key _ _ _ (fun i hi => hdll rfl rfl i hi p)]; exact mul_comm _ _
  | loglike2Bhhh =>
    simp only [eval, output, Runner.Spec.result, Runner.Spec.ll, Runner.Spec.dll, Runner.Spec.bhhh, sumV, sumM]
    congr 1
    · rw [key _ _ _ (hll rfl)]; exact mul_comm _ _
    · funext p
      rw [List.map_map, key _ _ _ (fun i hi => hdll rfl rfl i hi p)]; exact mul_comm _ _
    · funext p q
      rw [List.map_map, key _ _ _ (fun i hi => hb rfl rfl i hi p q)]; exact mul_comm _ _

/-- **C105.** After any history of evaluations (with any parameters, on any slices, through any method) and changes of the settings, from any
contents of the work arrays, each method returns what the kernel's numbers give at the parameters and settings now in force.  What was
evaluated before has no influence. -/
theorem C105_value (W : World Θ A) (root : Nat) (s : St Θ) (h : List (Call A)) (m : Method) (c : Slice) :
    (eval W root m none c (history W root s h)).2 = Runner.Spec.result W root (Runner.Spec.Now.after W (nowOf s) h) m (c.cases W.n) := by
  rw [eval_result, ← history_now W root h s]; rfl

/-- **C105.** The same for an evaluation that is given parameter values: it is an evaluation at the values these make of those in force, and
they stay in force. -/
theorem C105_value_at (W : World Θ A) (root : Nat) (s : St Θ) (h : List (Call A)) (m : Method) (a : A) (c : Slice) :
    (eval W root m (some a) c (history W root s h)).2 =
      Runner.Spec.result W root (Runner.Spec.Now.after W (nowOf s) (h ++ [.eval m (some a) c])) m (c.cases W.n) ∧
    nowOf (eval W root m (some a) c (history W root s h)).1 = Runner.Spec.Now.after W (nowOf s) (h ++ [.eval m (some a) c]) := by
  have h2 : nowOf (eval W root m (some a) c (history W root s h)).1 = Runner.Spec.Now.after W (nowOf s) (h ++ [.eval m (some a) c]) := by
    rw [← history_now W root (h ++ [Call.eval m (some a) c]) s]
    simp [history, List.foldl_append, call]
  refine ⟨?_, h2⟩
  rw [eval_result, ← h2]
  congr 1
  exact (runner_now W _ _ _ _ _ _ _).symm

/-- **C105.** Repeating an evaluation gives the same result, whatever was evaluated in between at the same parameters. -/
theorem C105_repeatable (W : World Θ A) (root : Nat) (s : St Θ) (m : Method) (c : Slice) (h : List (Method × Slice)) :
    (eval W root m none c (history W root (eval W root m none c s).1 (h.map (fun k => Call.eval k.1 none k.2)))).2 =
      (eval W root m none c s).2 := by
  have h1 : ∀ (h : List (Method × Slice)) (t : Runner.Spec.Now Θ),
      Runner.Spec.Now.after W t (h.map (fun k => Call.eval k.1 none k.2)) = t := by
    intro h t
    induction h with
    | nil => rfl
    | cons k h ih => simpa [Runner.Spec.Now.after] using ih
  rw [C105_value, h1, eval_result]
  congr 1
  exact runner_now W _ _ _ _ none c s

/-- **C105, partial.** Switching penalties on where they vanish together with their gradient changes neither log likelihood nor gradient,
and not the BHHH matrix either if every case has weight one and one chosen alternative with choice one. -/
theorem C105_no_penalty_partial (W : World Θ A) (x : Θ) (int sh : ℝ) (is : List Int) (hp : W.pen int sh x = 0)
    (hd : ∀ p, W.dpen int sh x p = 0) :
    Runner.Spec.ll W ⟨x, int, sh⟩ is = Runner.Spec.ll W ⟨x, 0, sh⟩ is ∧
    Runner.Spec.dll W ⟨x, int, sh⟩ is = Runner.Spec.dll W ⟨x, 0, sh⟩ is ∧
    ((∀ i ∈ is, (W.vals x i).wt = 1 ∧ ∃ g, (W.vals x i).chosen = [(1, g)]) →
      Runner.Spec.bhhh W ⟨x, int, sh⟩ is = Runner.Spec.bhhh W ⟨x, 0, sh⟩ is) := by
  refine ⟨by simp [Runner.Spec.ll, Runner.Spec.penalty, hp], ?_, fun h => ?_⟩
  · funext p; simp [Runner.Spec.dll, Runner.Spec.dPenalty, hd]
  · funext p q
    simp only [Runner.Spec.bhhh, Runner.Spec.dPenalty, hd]
    congr 2
    refine List.map_congr_left (fun i hi => ?_)
    obtain ⟨hw, g, hg⟩ := h i hi
    by_cases h0 : int = 0 <;> simp [h0, Runner.Spec.outer, Runner.Spec.grad, hw, hg]

/-! ## A concrete model -/

/-- Two cases of weight two, one parameter, gradient one, penalty and its gradient constant. -/
def demoR (pen dpen : ℝ) : World Unit Unit where
  n := 2
  wn := 1
  vals := fun _ _ => ⟨fun _ => 0, fun _ => 0, fun _ => 1, fun _ => 0, fun _ => 1, fun _ => 1, -1, 2, [(1, fun _ => 1)]⟩
  setValues := fun _ _ => ()
  pen := fun _ _ _ => pen
  dpen := fun _ _ _ _ => dpen

/-- All cases. -/
def allCases : Slice := ⟨none, none, none⟩

theorem allCases_two (pen dpen : ℝ) : allCases.cases (demoR pen dpen).n = [0, 1] := by
  show Cases.numbaCases 2 none none none = [0, 1]
  decide +kernel

/-- Rows of zeros. -/
def zeroRow : Row := ⟨fun _ => 0, fun _ => 0, fun _ => 0, fun _ _ => 0, fun _ => 0, 0⟩

/-- **C105, violation.** The BHHH matrix depends on whether penalties are switched on even where they vanish together with their gradient:
with weights the matrix is a different one. -/
theorem C105_fails_bhhh :
    ∃ (W : World Unit Unit) (s : St Unit), (∀ i sh x, W.pen i sh x = 0) ∧ (∀ i sh x p, W.dpen i sh x p = 0) ∧
      ∃ b b' : Nat → Nat → ℝ, (eval W 0 .bhhh none allCases s).2 = .mat b ∧
        (eval W 0 .bhhh none allCases { s with intensity := 1 }).2 = .mat b' ∧ b 0 0 = 4 ∧ b' 0 0 = 8 := by
  refine ⟨demoR 0 0, ⟨(), 0, 1, fun _ => zeroRow⟩, fun _ _ _ => rfl, fun _ _ _ _ => rfl, _, _,
    eval_result _ _ _ _ _ _, eval_result _ _ _ _ _ _, ?_, ?_⟩
  · rw [allCases_two]
    simp [Runner.Spec.bhhh, Runner.Spec.outer, demoR]; norm_num
  · rw [allCases_two]
    simp [Runner.Spec.bhhh, Runner.Spec.grad, Runner.Spec.dPenalty, demoR]; norm_num

/-- **C105, violation.** The penalty returned by `loglike2_bhhh` is that of one case, and the "actual" log likelihood reported by `fit_bhhh`
subtracts it once: it is not the log likelihood without penalty. -/
theorem C105_fails_actual :
    ∃ (W : World Unit Unit) (s : St Unit) (ll pen : ℝ), (∃ d b, (eval W 0 .loglike2Bhhh none allCases s).2 = .three ll d b pen) ∧
      (eval W 0 .loglike none allCases { s with intensity := 0 }).2 = .num (-2) ∧ ll - pen = -3 ∧ (status W.n ll pen).2.2 = -3 := by
  refine ⟨demoR (-1) 0, ⟨(), 1, 1, fun _ => zeroRow⟩, -4, -1, ⟨Runner.Spec.dll (demoR (-1) 0) ⟨(), 1, 1⟩ [0, 1], Runner.Spec.bhhh (demoR (-1) 0) ⟨(), 1, 1⟩ [0, 1], ?_⟩, ?_, by norm_num, by norm_num [status]⟩
  · rw [eval_result, allCases_two]
    simp only [Runner.Spec.result, Runner.Spec.ll, Runner.Spec.penalty, demoR]
    norm_num
  · rw [eval_result, allCases_two]
    simp only [Runner.Spec.result, Runner.Spec.ll, Runner.Spec.penalty, demoR]
    norm_num

/-- A history with gradients, penalties switched on, a slice: the log likelihood is that of two cases at -1 with a penalty of -1 each. -/
example : (eval (demoR (-1) 0) 0 .loglike none allCases (history (demoR (-1) 0) 0 ⟨(), 0, 1, fun _ => zeroRow⟩
    [.eval .dLoglike (some ()) allCases, .setIntensity 1, .eval .utility none ⟨some 1, none, none⟩])).2 = .num (-4) := by
  rw [C105_value, allCases_two]
  simp only [Runner.Spec.Now.after, nowOf, Runner.Spec.result, Runner.Spec.ll, Runner.Spec.penalty, demoR]
  norm_num

/-- The hypotheses of `C105_no_penalty_partial` are met by a model with unit weights. -/
example : ∃ W : World Unit Unit, (∀ i sh x, W.pen i sh x = 0) ∧ (∀ i sh x p, W.dpen i sh x p = 0) ∧
    ∀ i ∈ [(0 : Int), 1], (W.vals () i).wt = 1 ∧ ∃ g, (W.vals () i).chosen = [(1, g)] :=
  ⟨{ demoR 0 0 with vals := fun _ _ => { (demoR 0 0).vals () 0 with wt := 1 } }, fun _ _ _ => rfl, fun _ _ _ _ => rfl,
    fun _ _ => ⟨rfl, _, rfl⟩⟩

/-- **C105.** What is reported is right as far as the total and the penalty go: with unit weight normalization, total log likelihood less
the reported penalty is the log likelihood without penalties. -/
theorem C105_status_partial (W : World Θ A) (s : Runner.Spec.Now Θ) (is : List Int) (hn : is.length = W.n) (hw : W.wn = 1) :
    (status W.n (Runner.Spec.ll W s is) (Runner.Spec.penalty W s)).2.1 - (status W.n (Runner.Spec.ll W s is) (Runner.Spec.penalty W s)).1 =
      Runner.Spec.ll W { s with intensity := 0 } is := by
  simp only [status, Runner.Spec.ll, hw, one_mul, ← hn]
  have hz : Runner.Spec.penalty W { s with intensity := 0 } = 0 := by simp [Runner.Spec.penalty]
  simp only [hz, add_zero]
  have : ∀ (l : List Int) (b : ℝ), (l.map (fun i => (W.vals s.x i).ll + b)).sum - b * l.length = (l.map (fun i => (W.vals s.x i).ll)).sum := by
    intro l b
    induction l with
    | nil => simp
    | cons i l ih => simp only [List.map_cons, List.sum_cons, List.length_cons, Nat.cast_add, Nat.cast_one] at ih ⊢; linarith
  exact this is _

end Larch.Props
