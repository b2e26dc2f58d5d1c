import Verif.Model.DistFig
import Verif.Spec.Shares

/-! # What is to be drawn (C173) -/

namespace Larch.Props

open Larch.Shares Larch.DistFig

variable {K : Type} [Field K] [LinearOrder K]

/-- The line around bars: from one edge to the next at the height of the bar; with a gap bars end before the next edge and go down to zero. -/
def outline (gap : K) : List K → List K → List (K × K)
  | a :: b :: r, y :: ys => (if gap = 0 then [(a, y), (b, y)] else [(a, 0), (a, y), (b - gap, y), (b - gap, 0)]) ++ outline gap (b :: r) ys
  | _, _ => []

/-- Edges that differ. -/
def StrictlyUp (edges : List K) : Prop := edges.Pairwise (fun a b => a < b)

end Larch.Props
