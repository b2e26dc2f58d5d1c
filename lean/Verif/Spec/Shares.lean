import Verif.Model.Shares

/-! # What the tables of shares are to show (C172) -/

namespace Larch.Props

open Larch.Shares

variable {K : Type} [Field K] [LinearOrder K]

/-- A value is in bin `k`: from its edge (included) to the next (not included, but in the last bin). -/
def inBin (edges : List K) (k : Nat) (v : K) : Bool :=
  match edges[k]?, edges[k + 1]? with
  | some a, some b => decide (a ≤ v) && (decide (v < b) || (decide (k + 2 = edges.length) && decide (v = b)))
  | _, _ => false

/-- The weighted sum of a quantity over the cases of a bin. -/
def massIn (edges : List K) (k : Nat) (cases : List (Case K)) (q : Case K → K) : K :=
  ((cases.filter (fun c => inBin edges k c.x)).map (fun c => q c * c.wt)).sum

/-- Edges from low to high. -/
def Increasing (edges : List K) : Prop := edges.Pairwise (fun a b => a ≤ b)

/-- The entry of a table for a column and a bin. -/
def cellOf (rows : List (Nat × List (Option K))) (i k : Nat) : Option (Option K) := (rows.lookup i).bind (fun l => l[k]?)

end Larch.Props
