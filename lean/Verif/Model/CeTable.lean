import Verif.Model.FramesCe

/-!
# Tables as idce rows, names of alternatives, the simple model (`larch/dataframes.pyx`)

Tables are functions of case and alternative position, with a shape.  Codes are integers.
-/

namespace Larch.CeTable

open Larch.Frames

variable {α K : Type} [Zero K]

/-- One turn of the loops of `array_to_ce`, lines 2336-2340: `none` for the `IndexError` of reading `_array_ce_reversemap` or `arr` outside of
its shape (the typed view is checked, being compiled without directives).  `R`, `C` is the shape of `arr`. -/
def putCell (f : MF α) (R C : Nat) (M : Nat → Nat → K) (acc : Option (List K)) (p : Nat × Nat) : Option (List K) :=
  acc.bind (fun arr =>
    if p.1 < ceCases f ∧ p.2 < ceAlts f then
      (match reverseMap f p.1 p.2 with
        | none => some arr
        | some k => if p.1 < R ∧ p.2 < C then some (arr.set k (M p.1 p.2)) else none)
    else none)

/-- `DataFrames.array_to_ce(arr)`, lines 2316-2341: the loops are over the cases and alternatives of the container (`_n_cases()`, `_n_alts()`),
not of the idce data as in `data_ch_as_ce`. -/
def arrayToCe (f : MF α) (nCases nAlts R C : Nat) (M : Nat → Nat → K) : Option (List K) :=
  ((List.range nCases).flatMap (fun c => (List.range nAlts).map (fun a => (c, a)))).foldl (putCell f R C M) (some (List.replicate f.rows.length 0))

/-- What may be given as names: a mapping, a sequence, something else. -/
inductive Names
  | mapping (m : List (Int × String))
  | sequence (l : List String)
  | other

/-- What can be raised. -/
inductive Fault
  | value
  | type
  deriving DecidableEq

/-- `set_alternative_names`, lines 1337-1356; `codes` is `alternative_codes()`, `none` before there are any (then the loop raises `TypeError`). -/
def setAltNames (codes : Option (List Int)) (names : Names) : Except Fault (List String) :=
  match names with
  | .mapping m => (match codes with
      | none => .error .type
      | some cs => .ok (cs.map (fun c => (m.lookup c).getD (toString c))))
  | .sequence l => .ok l
  | .other => .error .value

/-- `alternative_pairs`, lines 1396-1402 (`alternatives`, lines 1387-1393, is the dict of these). -/
def altPairs (codes : List Int) (names : Option (List String)) : List (Int × String) :=
  match names with
  | some l => codes.zip l
  | none => codes.map (fun c => (c, toString c))

/-- The linear utility of an alternative in the model of `make_mnl`, lines 3037-3054: a term `P(j)*X(j)` for each column `j`: of `data_co` for every
alternative but the first, of `data_ca` for all.  `coVars`, `caVars` are the names of the columns (`none`: no such frame); `co`, `ca` the values in the case.
Parameters are named as the columns are. -/
def makeMnlU {F : Type} [Field F] (codes : List Int) (coVars caVars : Option (List String)) (co : String → F) (ca : Int → String → F) (β : String → F)
    (a : Int) : F :=
  (match coVars with
    | some vs => if a ∈ codes.drop 1 then (vs.map (fun j => β j * co j)).sum else 0
    | none => 0) +
  (match caVars with
    | some vs => (vs.map (fun j => β j * ca a j)).sum
    | none => 0)

end Larch.CeTable
