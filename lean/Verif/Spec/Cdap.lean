import Verif.Model.Cdap
import Verif.Spec.Linear
import Mathlib.Data.Finset.Powerset
import Mathlib.Data.Finset.Sort
import Mathlib.Order.Interval.Finset.Nat
import Mathlib.Algebra.BigOperators.Group.Finset.Basic

/-!
# What a coordinated daily activity pattern model should be
-/

namespace Larch.Cdap

open Larch.Py Larch.Linear

/-- Position of the letter in "MNH". -/
def Act.digit : Act → Nat
  | .M => 0
  | .N => 1
  | .H => 2

/-- The pattern as a number in base three, the first person's letter being the most significant. -/
def base3 : List Act → Nat
  | [] => 0
  | a :: l => a.digit * 3 ^ l.length + base3 l

/-- The code of a pattern. -/
def patternCode (a : List Act) : Nat := 1 + base3 a

/-- The name under which the data has the column for a person: columns that differ by person have the prefix `p1_`, `p2_`, ... -/
def personName (k : Nat) (tokens : List String) (s : String) : String := if s ∈ tokens then "p" ++ toString k ++ "_" ++ s else s

/-- The data as seen by the person: the name `x` stands for the column `p1_x`, ... -/
def personEnv (env : Env) (k : Nat) (tokens : List String) : Env :=
  { env with
    var := fun s => env.var (personName k tokens s)
    call := fun s => env.call (personName k tokens s) }

/-- What a row of the person spec contributes when the person does the activity. -/
noncomputable def PRow.value (p : String → ℝ) (act : Act) (r : PRow) (x : ℝ) : ℝ :=
  match r.coef act with
  | none => 0
  | some c => p c * x

/-- The value of the literal of a person type. -/
noncomputable def typeValue (env : Env) (t : Char) : ℝ :=
  if t.isDigit then ((t.toNat - 48 : Nat) : ℝ) else env.var (String.singleton t)

/-- No person type is tested by the row. -/
def IRow.wildcard (r : IRow) : Prop := ∀ t ∈ r.ptypes.take r.card, t = '*'

/-- The persons of the set, in order, have the types of the row. -/
def IRow.typesMatch (env : Env) (r : IRow) (S : Finset ℕ) : Prop :=
  ∀ x ∈ (S.sort (· ≤ ·)).zip r.ptypes, x.2 ≠ '*' → env.var ("p" ++ toString x.1 ++ "_ptype") = typeValue env x.2

open Classical in
/-- What a row of the interaction table contributes to a pattern of `n` persons: its parameter, once for every set of as many persons
as its cardinality who all do the activity and have the types of the row; a row without types only counts when it is about the whole
household. -/
noncomputable def IRow.value (env : Env) (par : ℝ) (n : Nat) (a : List Act) (r : IRow) : ℝ :=
  ∑ S ∈ (Finset.Icc 1 n).powersetCard r.card,
    if (∀ q ∈ S, a[q - 1]? = some r.activity) ∧ r.typesMatch env S ∧ (r.wildcard → r.card = n) then par else 0

end Larch.Cdap
