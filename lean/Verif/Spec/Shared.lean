import Verif.Model.Shared
import Verif.Spec.Weights

/-!
# What an object holds, and who owns an array
-/

namespace Larch.Spec

open Larch.Weights Larch.Shared

variable {K : Type} [Field K] [LinearOrder K]

/-- Choices, weights and normalization of object `k`. -/
def held (s : World K) (k : Nat) : Option (W K) := (s.objs[k]?).map s.view

/-- Every array has one owner. -/
structure OwnArrays (s : World K) : Prop where
  chUsed : ∀ o ∈ s.objs, o.ch < s.next
  wtUsed : ∀ o ∈ s.objs, ∀ r, o.wt = some r → r < s.next
  ch : ∀ (k l : Nat) (o p : Obj K), s.objs[k]? = some o → s.objs[l]? = some p → k ≠ l → o.ch ≠ p.ch
  wt : ∀ (k l : Nat) (o p : Obj K), s.objs[k]? = some o → s.objs[l]? = some p → k ≠ l → ∀ r, o.wt = some r → p.wt ≠ some r

/-- Two sets of choices and weights count the same: the choice of every alternative in every case with the same weight. -/
def SameCounts (v w : W K) : Prop :=
  v.nCases = w.nCases ∧ v.nAlts = w.nAlts ∧ ∀ i < w.nCases, ∀ j < w.nAlts, contribution v i j = contribution w i j

/-- A load that names its choices and its weights. -/
def NamesBoth : Op K → Prop
  | .load _ r _ => r.ch.isSome = true ∧ r.wt.isSome = true
  | .call _ _ => True

end Larch.Spec
