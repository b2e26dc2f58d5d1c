import Mathlib.Data.List.Sort
import Mathlib.Data.Rat.Defs
import Mathlib.Algebra.Order.Ring.Rat

/-!
# Similar names (`larch/util/text_manip.py`)

`case_insensitive_close_matches`, which the messages about missing names use.  Names are of any linearly ordered type; `fold` is `supercasefold`, and the
three ratios of `difflib.SequenceMatcher` are functions of the two folded names.
-/

namespace Larch.CloseMatch

/-- `supercasefold` and `SequenceMatcher(None, seq1, seq2)`: `ratio`, `quick_ratio`, `real_quick_ratio`. -/
structure Matcher (W K : Type) where
  fold : W → K
  ratio : K → K → ℚ
  quick : K → K → ℚ
  realQuick : K → K → ℚ

/-- Exceptions: `ValueError`, or `excpt` with the names of the message. -/
inductive Fault (W : Type) where
  | value
  | wanted (word : W) (names : List W)
deriving DecidableEq

variable {W K : Type} [LinearOrder W]

/-- The tuple `(score, x)` of the one is before that of the other in `nlargest`. -/
def before (a b : ℚ × W) : Bool := decide (b.1 < a.1) || (decide (a.1 = b.1) && decide (b.2 ≤ a.2))

/-- `result`: the possibilities that score `cutoff` or more, with the score, `text_manip.py:54-63`. -/
def scored (M : Matcher W K) (word : W) (poss : List W) (cutoff : ℚ) : List (ℚ × W) :=
  (poss.filter (fun x => decide (cutoff ≤ M.realQuick (M.fold x) (M.fold word)) && decide (cutoff ≤ M.quick (M.fold x) (M.fold word)) &&
    decide (cutoff ≤ M.ratio (M.fold x) (M.fold word)))).map (fun x => (M.ratio (M.fold x) (M.fold word), x))

/-- `_nlargest(n, result)`: the same as `sorted(result, reverse=True)[:n]`. -/
def nlargest (n : Nat) (l : List (ℚ × W)) : List (ℚ × W) := (l.insertionSort (fun a b => before a b = true)).take n

/-- `case_insensitive_close_matches(word, possibilities, n, cutoff, excpt)`, `text_manip.py:17-72`; `excpt` says if one is given. -/
def closeMatches (M : Matcher W K) (word : W) (poss : List W) (n : Int) (cutoff : ℚ) (excpt : Bool) : Except (Fault W) (List W) :=
  if ¬ 0 < n then .error .value
  else if ¬ (0 ≤ cutoff ∧ cutoff ≤ 1) then .error .value
  else
    let ret := (nlargest n.toNat (scored M word poss cutoff)).map Prod.snd
    if excpt then .error (.wanted word ret) else .ok ret

end Larch.CloseMatch
