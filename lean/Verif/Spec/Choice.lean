import Verif.Spec.Nested
import Verif.Spec.Utility

/-!
# Specification: one evaluated case

How the kernel's inputs denote a nested logit model (`Spec.Nested`) with declared utilities
(`Spec.Utility`), and the standing conditions on a case used by the kernel properties.
-/

namespace Larch.Spec

open Larch.Kernel

/-- The tree denoted by the tree arrays, with the availability of the alternatives. -/
def shapeOf (T : Tree) (av : Nat → Bool) : Shape where
  nAlts := T.nAlts
  nNodes := T.nNodes
  child p c := (p, c) ∈ T.edges
  av a := av a = true

/-- The logsum parameter value of a nest: 1 when the nest has no parameter. -/
def muN (T : Tree) (θ : Nat → ℝ) (n : Nat) : ℝ :=
  match T.muSlot (n - T.nAlts) with
  | none => 1
  | some s => θ s

/-- Standing conditions on a case with dense data: well-formed tree arrays, positive logsum parameters,
finite data for available alternatives, positive sizes, and utility terms that address alternatives. -/
structure DenseCase (T : Tree) (M : Terms) (θ : Nat → ℝ) (C : Case) : Prop where
  wf : T.WF
  dense : C.ce = none
  mu : ∀ n, T.nAlts ≤ n → n < T.nNodes → 0 < muN T θ n
  data : FiniteData T.nAlts M C
  size : PositiveSize T.nAlts M θ C
  co : ∀ t ∈ M.co, t.alt < T.nAlts

/-- The nested logit model the case denotes: shape, logsum parameters and utilities. -/
noncomputable def caseProb (T : Tree) (M : Terms) (θ : Nat → ℝ) (C : Case) (n : Nat) : ℝ :=
  (shapeOf T C.av).prob (muN T θ) (utility M θ (coReal C) (caReal C)) n

/-- Value (utility or logsum) of a node. -/
noncomputable def caseValue (T : Tree) (M : Terms) (θ : Nat → ℝ) (C : Case) (n : Nat) : ℝ :=
  (shapeOf T C.av).value (muN T θ) (utility M θ (coReal C) (caReal C)) n

/-- Log likelihood of the case. -/
noncomputable def caseLoglike (T : Tree) (M : Terms) (θ : Nat → ℝ) (C : Case) : ℝ :=
  (shapeOf T C.av).loglike (muN T θ) (utility M θ (coReal C) (caReal C)) C.ch C.wt

/-- Nodes strictly below `n`. -/
def Below (T : Tree) (n c : Nat) : Prop := Relation.TransGen (fun a b => (a, b) ∈ T.edges) n c

/-- Parameter `p` does not occur in any utility or quantity function. -/
def NotInUtility (M : Terms) (p : Nat) : Prop :=
  (∀ t ∈ M.q ++ M.ca, t.param ≠ p) ∧ (∀ t ∈ M.co, t.param ≠ p) ∧ M.qScale ≠ some p

/-- No logsum parameter occurs in a utility function or in a nest and one of its descendants. -/
def SeparateLogsums (T : Tree) (M : Terms) : Prop :=
  ∀ n p, T.nAlts ≤ n → n < T.nNodes → T.muSlot (n - T.nAlts) = some p →
    NotInUtility M p ∧ ∀ c, T.nAlts ≤ c → Below T n c → T.muSlot (c - T.nAlts) ≠ some p

end Larch.Spec
