import Verif.Model.Workbook

/-!
# What a workbook should contain, told from the additions alone
-/

namespace Larch.Spec.Workbook
open Larch.Workbook

/-- Neither a nested dict. -/
def Content.plain : Content → Bool
  | .dict _ => false
  | _ => true

/-- Whether the content is a table (true) or a picture (false). -/
def kindOf : Content → Option Bool
  | .frame .. => some true
  | .dict _ => some true
  | .picture _ => some false
  | .other => none

/-- The rows a content covers. -/
def heightOf : Content → Nat
  | .frame rows levels _ header => if header then (if levels > 1 then rows + levels + 1 else rows + levels) else rows
  | .dict rows => rows
  | .picture height => height
  | .other => 0

/-- Sheets are told apart by their names without regard to case, and none is a sheet of the writer. -/
def Apart (l : List Addition) : Prop :=
  (∀ a ∈ l, a.sheet.toLower ∉ ["contents", "_log_", "_metadata_"]) ∧ ∀ a ∈ l, ∀ b ∈ l, a.sheet.toLower = b.sheet.toLower → a.sheet = b.sheet

/-- The headings in the order of the additions: tables and figures numbered each on their own, from `t` and `f`; empty headings have no number. -/
def headings (t f : Nat) : List Addition → List (String × String)
  | [] => []
  | a :: r =>
    match kindOf a.content, a.heading with
    | some _, some "" => ("", a.sheet) :: headings t f r
    | some true, some h => ("Table " ++ toString t ++ ": " ++ h, a.sheet) :: headings (t + 1) f r
    | some false, some h => ("Figure " ++ toString f ++ ": " ++ h, a.sheet) :: headings t (f + 1) r
    | _, _ => headings t f r

/-- The bodies in the order of the additions: number, sheet and height. -/
def bodies (i : Nat) : List Addition → List (Nat × String × Nat)
  | [] => []
  | a :: r => if (kindOf a.content).isSome then (i, a.sheet, heightOf a.content) :: bodies (i + 1) r else bodies (i + 1) r

/-- What is on the same sheet comes one below the other. -/
def Below (marks : List Mark) : Prop := marks.Pairwise (fun a b => a.sheet = b.sheet → a.stop ≤ b.start)

/-- A heading as the table of contents names it: caption, sheet, row of the caption (counted from 0). -/
def linkOf (m : Mark) : Option (String × String × Nat) :=
  match m.what with
  | .heading c => some (c, m.sheet, m.start + 1)
  | _ => none

/-- A body: number, sheet, rows. -/
def bodyOf (m : Mark) : Option (Nat × String × Nat) :=
  match m.what with
  | .body i => some (i, m.sheet, m.stop - m.start)
  | _ => none

/-! ## Nested dicts -/

/-- The outline of a nested content: each leaf with its depth, in reading order. -/
def outline (d : Nat) : Item → List (Nat × String)
  | .leaf v => [(d, v)]
  | .ended => []
  | .entry k v rest => (d, k) :: (outline (d + 1) v ++ outline d rest)
  | .element v rest => outline d v ++ outline d rest
  | .frame columns _ => columns.map (fun c => (d, c))

end Larch.Spec.Workbook
