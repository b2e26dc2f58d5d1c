/-!
# What the name of an alternative should say

Nothing here mentions codes, masks or the model.
-/

namespace Larch.AltNamesSpec

/-- Texts, each followed by a dash, and then an ending. -/
def dashed : List (List Char) → List Char → List Char
  | [], ending => ending
  | t :: rest, ending => t ++ '-' :: dashed rest ending

/-- The text has no dash in it. -/
def Plain (t : List Char) : Prop := '-' ∉ t

end Larch.AltNamesSpec
