import Verif.Model.AltCodes

/-!
# The names of systematic alternatives

Models `alternative_name_from_code` and `altnames` of `SystematicAlternatives`,
larch/model/systematic_alternatives.py:41-77 (`larch/data_services/general.py` carries a copy).

Simplifications: a text is its list of characters; `str` of a category is a parameter (`text`), as is the
prefix of a level; codes are non-negative and unbounded (see `Verif.Model.AltCodes`).
-/

namespace Larch.AltNames
open Larch.AltCodes

/-- A text, as its characters. -/
abbrev Chars := List Char

/-- The decimal digits of a number, as `f"{j}"` writes them. -/
def digits (n : Nat) : Chars := (Nat.repr n).toList

/-- The piece of the name one level gives, systematic_alternatives.py:57-66: `§-` when the field is zero, the
category's text and a dash when there is such a category, otherwise `+k-` where `k` counts the places past the
last category (the padding places). -/
def groupText (cats : List Chars) (mask code : Nat) : Chars :=
  match field mask code with
  | 0 => ['§', '-']
  | j + 1 => match cats[j]? with
    | some c => c ++ ['-']
    | none => '+' :: digits (j + 1 - cats.length) ++ ['-']

/-- The last piece, systematic_alternatives.py:67-72: the counter, or `§` when the field is zero. -/
def counterText (mask code : Nat) : Chars :=
  match field mask code with
  | 0 => ['§']
  | j + 1 => digits (j + 1)

/-- `alternative_name_from_code`, systematic_alternatives.py:41-73. `cats` holds the texts of the categories
of every level; `masks` has one entry more. With no mask at all `self.masks[-1]` raises (`none`). -/
def alternativeName (masks : List Nat) (cats : List (List Chars)) (code : Nat) : Option Chars :=
  masks.getLast?.map (fun last =>
    ((List.range (masks.length - 1)).map
        (fun i => groupText (cats.getD i []) (masks.getD i 0) code)).flatten ++
      counterText last code)

/-- `altnames`, systematic_alternatives.py:75-77. -/
def altNames (masks : List Nat) (cats : List (List Chars)) (codes : List Nat) : List (Option Chars) :=
  codes.map (alternativeName masks cats)

/-- The `categoricals` that `new_alternative_codes` stores, systematic_alternatives.py:440-443: for every level
the found values in order, each as a text (`text g` is `str` with the prefix of level `g` put in front). -/
def categoryTexts {β : Type} [LinearOrder β] (text : Nat → β → Chars) (G : Nat) (rows : List (Row β)) :
    List (List Chars) :=
  (List.range G).map (fun g => (groupUniq rows g).map (text g))

end Larch.AltNames
