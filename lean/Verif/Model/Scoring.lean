import Mathlib.Data.Real.Basic
import Mathlib.Data.List.Perm.Basic
import Mathlib.Algebra.BigOperators.Group.Finset.Basic
import Mathlib.Data.Finset.Range

/-!
# Ranks and the share of choices among the best (`larch/scoring.py`, `larch/model/controller.pyx:1390-1429`)

An array with a row for each of `n` cases and a column for each of `m` alternatives is a function.
-/

namespace Larch.Scoring

open Finset

/-- What numpy's `argsort` of a row may return: the positions, values increasing.  Equal values come in any order. -/
def IsArgsort (m : Nat) (p : Nat → ℝ) (t : List Nat) : Prop := t.Perm (List.range m) ∧ t.Pairwise (fun a b => p a ≤ p b)

/-- `ranks[i, temp[i]] = seq` with `seq = arange(1, m + 1)[::-1]`, lines 41-45: the rank of alternative `a`. -/
def rank (m : Nat) (t : List Nat) (a : Nat) : Nat := m - t.idxOf a

/-- `top_k_accuracy(ranks, choices, k)` for an integer `k`, lines 72-77: the choices that are positive, counted if ranked at `k` or better, by the
sum of all choices.  (A sum of zero gives NaN in the program.) -/
noncomputable def topK (n m : Nat) (r : Nat → Nat → Nat) (ch : Nat → Nat → ℝ) (k : Nat) : ℝ :=
  (∑ c ∈ range n, ∑ a ∈ range m, if 0 < ch c a then (if r c a ≤ k then 1 else 0) * ch c a else 0) / (∑ c ∈ range n, ∑ a ∈ range m, ch c a)

/-- `choices` as `Model.top_k_accuracy` passes them, `controller.pyx:1411-1422`: times the weights if there are any. -/
noncomputable def weighted (ch : Nat → Nat → ℝ) (w : Option (Nat → ℝ)) (c a : Nat) : ℝ := (w.map (fun w => ch c a * w c)).getD (ch c a)

/-- `Model.top_k_accuracy(k)`, `controller.pyx:1390-1422`; `t c` is the `argsort` of the probabilities of case `c`. -/
noncomputable def accuracy (n m : Nat) (t : Nat → List Nat) (ch : Nat → Nat → ℝ) (w : Option (Nat → ℝ)) (k : Nat) : ℝ :=
  topK n m (fun c a => rank m (t c) a) (weighted ch w) k

end Larch.Scoring
