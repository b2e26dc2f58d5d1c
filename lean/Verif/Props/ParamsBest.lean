import Verif.Props.ParamsOps
import Verif.Props.Cases

/-!
# C21: which evaluations are compared

`C21_best` follows the record through any history of reported values.  Here: which evaluations are reported.
-/

namespace Larch.Props

open Larch Larch.Params Larch.Cases

theorem mem_pyRange_one (n : Nat) (c : Int) : c ∈ pyRange 0 n 1 ↔ 0 ≤ c ∧ c < n := by
  have h := C31_visits n ⟨0, -1, 1, -1, -1, -1⟩ (by norm_num)
  have := h.1 c
  simp only [effStop] at this
  simpa [Larch.Spec.InSlice] using this

/-- **C21 (numba).** The numba models report only evaluations over all cases. -/
theorem C21_numba_full (n : Nat) (start stop step : Option Int) (h : numbaReports start stop step = true) (c : Int) :
    c ∈ numbaCases n start stop step ↔ 0 ≤ c ∧ c < n := by
  cases start <;> cases stop <;> cases step <;> simp [numbaReports] at h
  simpa [numbaCases] using mem_pyRange_one n c

/-- **C21 (compiled, without folds).** Without `leave_out` and `keep_only` a reported evaluation covers all cases. -/
theorem C21_compiled_full (n : Nat) (r : Req) (h : compiledReports r = true) (hl : r.leaveOut < 0) (hk : r.keepOnly < 0)
    (c : Int) : c ∈ (pyRange r.start (effStop n r) r.step).filter (fun c => !skips r c) ↔ 0 ≤ c ∧ c < n := by
  simp only [compiledReports, Bool.and_eq_true, decide_eq_true_eq] at h
  obtain ⟨⟨h1, h2⟩, h3⟩ := h
  have hs : ∀ c, skips r c = false := by
    intro c
    have e1 : ¬ (0 ≤ r.leaveOut) := by omega
    have e2 : ¬ (0 ≤ r.keepOnly) := by omega
    simp [skips, e1, e2]
  have he : effStop n r = n := by simp [effStop, h2]
  simp only [List.mem_filter, hs, Bool.not_false, and_true, h1, h3, he]
  exact mem_pyRange_one n c

/-- **C21 violated (folds).** The compiled models also report the log likelihood of a cross validation fold, which
leaves cases out: with two cases of log likelihood `-1`, after a full evaluation (`-2`) the evaluation of the fold
`keep_only=0, subsample=2` (at parameters that are no better: the cases have the same log likelihoods) replaces the
record, although `-1` is not the log likelihood of the data at any parameters. -/
theorem C21_fails_fold (f : Frame) (hf : f.bestLL = .ninf) :
    let full : Req := ⟨0, -1, 1, -1, -1, -1⟩
    let fold : Req := ⟨0, -1, 1, -1, 0, 2⟩
    let total (r : Req) : ℝ := (((pyRange r.start (effStop 2 r) r.step).filter (fun c => !skips r c)).map
      (fun _ => (-1 : ℝ))).sum
    compiledReports full = true ∧ compiledReports fold = true ∧ skips fold 1 = true ∧
    (checkIfBest f (.fin (total full))).bestLL = .fin (-2) ∧
    (checkIfBest (checkIfBest f (.fin (total full))) (.fin (total fold))).bestLL = .fin (-1) := by
  intro full fold total
  have e1 : total full = -2 := by
    have : (pyRange full.start (effStop 2 full) full.step).filter (fun c => !skips full c) = [0, 1] := by decide +kernel
    simp only [total, this]; norm_num
  have e2 : total fold = -1 := by
    have : (pyRange fold.start (effStop 2 fold) fold.step).filter (fun c => !skips fold c) = [0] := by decide +kernel
    simp only [total, this]; norm_num
  rw [e1, e2]
  refine ⟨by decide, by decide, by decide, ?_⟩
  have g1 : X.gt (.fin (-2)) .ninf := trivial
  have g2 : X.gt (.fin (-1)) (.fin (-2)) := by simp
  simp only [checkIfBest, hf, g1, g2, if_true, true_and]

end Larch.Props
