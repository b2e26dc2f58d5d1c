import Verif.Model.Slots

/-!
# Specification: utilities in terms of names

What a model specification written with names means, for parameter values and data looked up by name.
-/

namespace Larch.Spec

open Larch.Slots

/-- The value of a term of an alternative's own utility function; `X('1')` is a constant. -/
def nTerm (v co : String → ℝ) (t : NTerm) : ℝ := t.scale * v t.param * (if t.data = "1" then 1 else co t.data)

/-- The utility of the alternative with code `a`, for parameter values `v`, case data `co` and alternative data `ca`. -/
noncomputable def nUtility (S : NSpec) (v co : String → ℝ) (ca : Int → String → ℝ) (a : Int) : ℝ :=
  (if S.q = [] then 0
   else (S.qScale.elim 1 v) * Real.log ((S.q.map fun t => t.scale * Real.exp (v t.param) * ca a t.data).sum)) +
  (S.ca.map fun t => t.scale * v t.param * ca a t.data).sum +
  (S.co.map fun e => if e.1 = a then (e.2.map (nTerm v co)).sum else 0).sum

/-- The parameter array holds the values in the order of the frame. -/
def LaidParams (T : Table) (v : String → ℝ) (θ : Nat → ℝ) : Prop := ∀ k (h : k < T.params.length), θ k = v T.params[k]

/-- The row of case data holds the named values in the order of the columns. -/
def LaidCo (T : Table) (co : String → X) (arr : Nat → X) : Prop :=
  ∀ k (h : k < (T.co.getD []).length), arr k = co (T.co.getD [])[k]

/-- A row of alternative data holds the named values in the order of `cols`. -/
def LaidRow (cols : List String) (x : String → X) (arr : Nat → X) : Prop := ∀ k (h : k < cols.length), arr k = x cols[k]

end Larch.Spec
