import Verif.Model.ConText
import Verif.Spec.Constraints

/-!
# How an inequality is written, and what it says

`Written` is the grammar of the documentation: a name, a number or a ratio of names on each side of `<`, `<=`, `>`, `>=`, or one of the
two between two numbers, with spaces around each part.  `<` is read as `≤` (constraints of an optimisation are closed).
-/

namespace Larch.ConText

/-- What the theorems need of `\s`, `\d`, `\w`: digits are word characters, spaces are not, and the signs used in constraints are
neither. -/
structure Cls.Ok (k : Cls) : Prop where
  digit_word : ∀ c, k.dg c = true → k.wd c = true
  space_word : ∀ c, k.sp c = true → k.wd c = false
  sign_space : ∀ c ∈ ['#', ':', '*', '&', '^', '%', '$', '!', '@', '<', '>', '=', '/', '.', '+', '-'], k.sp c = false
  sign_word : ∀ c ∈ ['<', '>', '=', '/', '.', '+', '-'], k.wd c = false
  exp_word : k.wd 'e' = true ∧ k.wd 'E' = true

/-- `t` is `u` with spaces around it. -/
def Spaced (k : Cls) (t u : Text) : Prop := ∃ w w', (∀ c ∈ w, k.sp c = true) ∧ (∀ c ∈ w', k.sp c = true) ∧ t = w ++ u ++ w'

/-- Digits. -/
def Digits (k : Cls) (t : Text) : Prop := ∀ c ∈ t, k.dg c = true

/-- At most one character of the given ones. -/
def AtMostOne (cs : Text) (t : Text) : Prop := t = [] ∨ ∃ c ∈ cs, t = [c]

/-- The outer form of a decimal number: sign, digits, point, digits, `e`, sign, digits, each part optional. -/
def Decimal (k : Cls) (t : Text) : Prop := ∃ s d p f e s' x, AtMostOne ['-', '+'] s ∧ Digits k d ∧ AtMostOne ['.'] p ∧ Digits k f ∧
  AtMostOne ['e', 'E'] e ∧ AtMostOne ['-', '+'] s' ∧ Digits k x ∧ t = s ++ d ++ p ++ f ++ e ++ s' ++ x

/-- A text written as a number with value `x`: a decimal number that `float` reads, or a fraction of whole numbers. -/
inductive Number (k : Cls) (flt : Text → Option ℝ) : Text → ℝ → Prop
  | decimal {t x} : Decimal k t → flt t = some x → Number k flt t x
  | fraction {a b x y} : a ≠ [] → Digits k a → b ≠ [] → Digits k b → flt a = some x → flt b = some y → y ≠ 0 →
      Number k flt (a ++ '/' :: b) (x / y)

/-- A text usable as the name of a parameter. -/
def Name (k : Cls) (t : Text) : Prop := t ≠ [] ∧ ∀ c ∈ t, k.wd c = true ∨ c ∈ ['#', ':', '*', '&', '^', '%', '$', '!', '@']

/-- An inequality about parameters. -/
inductive Ineq where
  | atMost (p : String) (x : ℝ)
  | atLeast (p : String) (x : ℝ)
  | between (x : ℝ) (p : String) (y : ℝ)
  | ordered (p q : String)
  | ratioAtMost (p q : String) (x : ℝ)
  | ratioAtLeast (p q : String) (x : ℝ)
  | ratioBetween (x : ℝ) (p q : String) (y : ℝ)

/-- What it says about the values of the parameters. -/
def Ineq.Holds (v : String → ℝ) : Ineq → Prop
  | .atMost p x => v p ≤ x
  | .atLeast p x => x ≤ v p
  | .between x p y => x ≤ v p ∧ v p ≤ y
  | .ordered p q => v p ≤ v q
  | .ratioAtMost p q x => v p / v q ≤ x
  | .ratioAtLeast p q x => x ≤ v p / v q
  | .ratioBetween x p q y => x ≤ v p / v q ∧ v p / v q ≤ y

/-- `<` or `<=`. -/
def IsLe (r : Text) : Prop := r = ['<', '='] ∨ r = ['<']
/-- `>` or `>=`. -/
def IsGe (r : Text) : Prop := r = ['>', '='] ∨ r = ['>']

/-- The text is the name of a parameter, with spaces around it; the names must satisfy `ok`. -/
def NameIn (k : Cls) (ok : Text → Prop) (t : Text) (p : String) : Prop := ∃ u, Spaced k t u ∧ Name k u ∧ ok u ∧ p = String.ofList u

/-- The text is a number, with spaces around it. -/
def NumberIn (k : Cls) (flt : Text → Option ℝ) (t : Text) (x : ℝ) : Prop := ∃ u, Spaced k t u ∧ Number k flt u x

/-- The text says the inequality; all names satisfy `ok`. -/
inductive Written (k : Cls) (flt : Text → Option ℝ) (ok : Text → Prop) : Text → Ineq → Prop
  | nameLe {a r b p x} : NameIn k ok a p → IsLe r → NumberIn k flt b x → Written k flt ok (a ++ r ++ b) (.atMost p x)
  | nameGe {a r b p x} : NameIn k ok a p → IsGe r → NumberIn k flt b x → Written k flt ok (a ++ r ++ b) (.atLeast p x)
  | numLe {a r b p x} : NumberIn k flt a x → IsLe r → NameIn k ok b p → Written k flt ok (a ++ r ++ b) (.atLeast p x)
  | numGe {a r b p x} : NumberIn k flt a x → IsGe r → NameIn k ok b p → Written k flt ok (a ++ r ++ b) (.atMost p x)
  | both {a r b r' c p x y} : NumberIn k flt a x → IsLe r → NameIn k ok b p → IsLe r' → NumberIn k flt c y →
      Written k flt ok (a ++ r ++ b ++ r' ++ c) (.between x p y)
  | le {a r b p q} : NameIn k ok a p → IsLe r → NameIn k ok b q → Written k flt ok (a ++ r ++ b) (.ordered p q)
  | ge {a r b p q} : NameIn k ok a p → IsGe r → NameIn k ok b q → Written k flt ok (a ++ r ++ b) (.ordered q p)
  | ratioLe {a d r b p q x} : NameIn k ok a p → NameIn k ok d q → IsLe r → NumberIn k flt b x →
      Written k flt ok (a ++ ['/'] ++ d ++ r ++ b) (.ratioAtMost p q x)
  | ratioGe {a d r b p q x} : NameIn k ok a p → NameIn k ok d q → IsGe r → NumberIn k flt b x →
      Written k flt ok (a ++ ['/'] ++ d ++ r ++ b) (.ratioAtLeast p q x)
  | ratioBoth {a r b d r' c p q x y} : NumberIn k flt a x → IsLe r → NameIn k ok b p → NameIn k ok d q → IsLe r' → NumberIn k flt c y →
      Written k flt ok (a ++ r ++ b ++ ['/'] ++ d ++ r' ++ c) (.ratioBetween x p q y)

/-- What a constraint object stands for (`Spec/Constraints`). -/
def Constraint.Holds (v : String → ℝ) : Constraint → Prop
  | .fixed f => f.Holds v
  | .ordering o => o.Holds v
  | .ratio r => r.Holds v

/-- ASCII. -/
def ascii : Cls where
  sp c := c == ' ' || c == '\t' || c == '\n'
  dg c := c.isDigit
  wd c := c.isAlphanum || c == '_'

end Larch.ConText
