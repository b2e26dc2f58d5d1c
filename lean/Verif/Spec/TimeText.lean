import Verif.Model.TimeText

/-! What a written duration means. -/

namespace Larch.Spec

open Larch.TimeText

/-- Seconds in a unit. -/
def unitSeconds : Letter → ℚ
  | .s => 1
  | .m => 60
  | .h => 3600
  | .d => 86400

/-- The value of a written number. -/
def numValue : Num → ℚ
  | .whole n => n
  | .hundredths n => n / 100

/-- The seconds that a text says. -/
def saidSeconds (l : List (Num × Letter)) : ℚ := (l.map (fun p => numValue p.1 * unitSeconds p.2)).sum

/-- A text of the usual form: days, hours and minutes as whole numbers from one on, hours below 24 and minutes below 60 if something larger
precedes or not, each unit at most once and the larger first, then the seconds with two places between 0 and 60. -/
def UsualForm (l : List (Num × Letter)) : Prop :=
  ∃ (pre : List (Num × Letter)) (c : Int), l = pre ++ [(.hundredths c, .s)] ∧ 0 ≤ c ∧ c ≤ 6000 ∧
    pre.Pairwise (fun a b => unitSeconds b.2 < unitSeconds a.2) ∧
    ∀ p ∈ pre, ∃ n : Int, p.1 = .whole n ∧ 1 ≤ n ∧ ((p.2 = .m ∧ n < 60) ∨ (p.2 = .h ∧ n < 24) ∨ p.2 = .d)

/-- The duration in a line of a split. -/
def partOf : Line → ℚ
  | .split x => x
  | .final x => x
  | .finish _ => 0

/-- The duration in the last line. -/
def wholeOf : Line → ℚ
  | .finish x => x
  | _ => 0

end Larch.Spec
