/-!
# Where the cells of a table belong

The rule of HTML: the cells of a row go, in order, to the first columns that are free, where a column is taken in a row if a cell of an
earlier row reaches down into it.  Nothing here mentions the model.
-/

namespace Larch.HtmlTableSpec

/-- A cell that has its place. -/
structure Placed where
  row : Nat
  col : Nat
  colspan : Nat
  rowspan : Nat

/-- A cell of an earlier row reaches into row `r` at column `c`. -/
def Taken (before : List Placed) (r c : Nat) : Prop :=
  ∃ e ∈ before, e.row < r ∧ r < e.row + e.rowspan ∧ e.col ≤ c ∧ c < e.col + e.colspan

/-- The cells of row `r` (given by their spans) are at these columns, from column `c` on. -/
def RowPlaced (before : List Placed) (r : Nat) : Nat → List (Nat × Nat) → List Nat → Prop
  | _, [], [] => True
  | c, x :: xs, p :: ps => c ≤ p ∧ ¬ Taken before r p ∧ (∀ q, c ≤ q → q < p → Taken before r q) ∧
      RowPlaced before r (p + x.1) xs ps
  | _, [], _ :: _ => False
  | _, _ :: _, [] => False

/-- The cells of a row with their places. -/
def placedOf (r : Nat) (spans : List (Nat × Nat)) (cols : List Nat) : List Placed :=
  (spans.zip cols).map (fun e => ⟨r, e.2, e.1.1, e.1.2⟩)

/-- All rows, from row `r` on. -/
def TablePlaced : List Placed → Nat → List (List (Nat × Nat)) → List (List Nat) → Prop
  | _, _, [], [] => True
  | before, r, xs :: rows, ps :: cols => RowPlaced before r 0 xs ps ∧
      TablePlaced (before ++ placedOf r xs ps) (r + 1) rows cols
  | _, _, [], _ :: _ => False
  | _, _, _ :: _, [] => False

end Larch.HtmlTableSpec
