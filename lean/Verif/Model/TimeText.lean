import Mathlib.Algebra.Order.Floor.Ring
import Mathlib.Data.Rat.Floor
import Mathlib.Algebra.Ring.Int.Parity

/-!
# How long something took (`larch/util/timesize.py`, `larch/log/normal.py`)

`timesize_single`, `timesize_stack`, `Seconds.__repr__` and the durations of `TimingLog`.  A time is an exact rational number of seconds; in
`timesize_single` the rounding of `t/60` in floating point is left out (in `timesize_stack`, the floor and the remainder of floats are exact).  A text is
kept as its numbers with their unit letters.
-/

namespace Larch.TimeText

/-- The unit letters `s`, `m`, `h`, `d`. -/
inductive Letter where
  | s | m | h | d
deriving DecidableEq

/-- A number in the text: `{x:.0f}` of an integer, or `{x:.2f}` as a number of hundredths. -/
inductive Num where
  | whole (n : Int)
  | hundredths (n : Int)
deriving DecidableEq

/-- `{x:.2f}`: the nearest number of hundredths, of two the even one. -/
def cents (x : ℚ) : Int :=
  if 100 * x - ⌊100 * x⌋ < 1 / 2 then ⌊100 * x⌋
  else if 1 / 2 < 100 * x - ⌊100 * x⌋ then ⌊100 * x⌋ + 1
  else if ⌊100 * x⌋ % 2 = 0 then ⌊100 * x⌋ else ⌊100 * x⌋ + 1

/-- `t % k` for a positive `k`. -/
def rest (t : ℚ) (k : Int) : ℚ := t - k * ⌊t / k⌋

/-- `timesize_single`, `timesize.py:4-12`. -/
def single (t : ℚ) : Num × Letter :=
  if t < 60 then (.hundredths (cents t), .s)
  else if t < 3600 then (.hundredths (cents (t / 60)), .m)
  else if t < 86400 then (.hundredths (cents (t / 3600)), .h)
  else (.hundredths (cents (t / 86400)), .d)

/-- `timesize_stack` of less than a minute, `timesize.py:16-17`. -/
def seconds (t : ℚ) : List (Num × Letter) := [(.hundredths (cents t), .s)]

/-- `timesize_stack` of less than an hour, `timesize.py:16-19`. -/
def minutes (t : ℚ) : List (Num × Letter) := if t < 60 then seconds t else (.whole ⌊t / 60⌋, .m) :: seconds (rest t 60)

/-- `timesize_stack` of less than a day, `timesize.py:16-21`. -/
def hours (t : ℚ) : List (Num × Letter) := if t < 3600 then minutes t else (.whole ⌊t / 3600⌋, .h) :: minutes (rest t 3600)

/-- `timesize_stack`, `timesize.py:15-23`, and `Seconds.__repr__`, `timesize.py:29-38`.  The recursion is written out: what remains is always below the divisor. -/
def stack (t : ℚ) : List (Num × Letter) := if t < 86400 then hours t else (.whole ⌊t / 86400⌋, .d) :: hours (rest t 86400)

/-- A line of `TimingLog`: a split (`normal.py:97-104`), the last split (`:89-91`), the end (`:92-95`). -/
inductive Line where
  | split (dur : ℚ)
  | final (dur : ℚ)
  | finish (dur : ℚ)
deriving DecidableEq

/-- The lines that `split` writes at the clock times `l`; `prev` is `split_time`. -/
def splitLines (prev : ℚ) : List ℚ → List Line
  | [] => []
  | now :: r => .split (now - prev) :: splitLines now r

/-- The block of a `TimingLog` entered at `start`, with splits at the times `l`, left at `stop`: `normal.py:83-104`.  `old` is the `split_time` that is
left from an earlier block of the same object: `__enter__` sets only `start_time`. -/
def timing (old : Option ℚ) (start : ℚ) (l : List ℚ) (stop : ℚ) : List Line :=
  splitLines (old.getD start) l ++ (if old.isNone && l.isEmpty then [] else [.final (stop - l.getLastD (old.getD start))]) ++ [.finish (stop - start)]

/-- `split_time` after the block. -/
def splitTimeAfter (old : Option ℚ) (l : List ℚ) : Option ℚ := if l.isEmpty then old else l.getLast?

end Larch.TimeText
