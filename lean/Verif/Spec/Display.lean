import Verif.Model.Display
import Verif.Spec.Linear
import Mathlib.Analysis.SpecialFunctions.Log.Basic

/-!
# What printed utility functions should mean

The value of a linear function, of a quantity function and of a systematic utility, written directly; what the names in a
printed text stand for; what Python makes of a printed text when it is read back; reading a reference from its characters.
-/

namespace Larch.Display

open Larch.Py Larch.Linear

/-- The value of a term: scale × parameter × data. -/
def termVal (p : String → ℝ) (dv : List Tok → ℝ) (c : Comp) : ℝ := c.scale * p c.param * dv c.data

/-- The value of a linear function. -/
def funcVal (p : String → ℝ) (dv : List Tok → ℝ) (l : List Comp) : ℝ := (l.map (termVal p dv)).sum

/-- The value of a quantity function: the parameters are exponentiated. -/
noncomputable def quantityVal (p : String → ℝ) (dv : List Tok → ℝ) (l : List Comp) : ℝ :=
  (l.map (fun c => c.scale * Real.exp (p c.param) * dv c.data)).sum

/-- The value of the scale parameter of the quantity function, 1 if there is none. -/
def scaleVal (p : String → ℝ) : Option String → ℝ
  | some q => p q
  | none => 1

/-- The contribution of the quantity function to the utility. -/
noncomputable def quantityPart (p : String → ℝ) (dv : List Tok → ℝ) (l : List Comp) (qs : Option String) : ℝ :=
  if l = [] then 0 else scaleVal p qs * Real.log (quantityVal p dv l)

/-- The systematic utility of an alternative. -/
noncomputable def utility (p : String → ℝ) (dv : List Tok → ℝ) (ca co quantity : List Comp) (qs : Option String) : ℝ :=
  funcVal p dv ca + funcVal p dv co + quantityPart p dv quantity qs

/-- The names in the text of the function stand for the values of its parameters and data; a data text that is a number stands
for that number. -/
structure Faithful (N : Names) (env : Env) (p : String → ℝ) (dv : List Tok → ℝ) (l : List Comp) : Prop where
  par : ∀ c ∈ l, env.var (N.par c.param) = p c.param
  dat : ∀ c ∈ l, env.var (N.dat c.data) = dv c.data
  lit : ∀ c ∈ l, ∀ v, floatOf c.data = some v → dv c.data = v

/-- Python's reading of a text as an expression over larch objects: names are looked up in the namespace, the operators are
larch's. -/
def toEx (ns : String → Option Obj) (txt : ℝ → String) : E → Option Ex
  | .var s => (ns s).map .leaf
  | .lit v => some (.leaf (.num ⟨false, txt v, v⟩))
  | .neg e => (toEx ns txt e).map .neg
  | .bin .add a b => (toEx ns txt a).bind fun x => (toEx ns txt b).map fun y => .bin .add x y
  | .bin .sub a b => (toEx ns txt a).bind fun x => (toEx ns txt b).map fun y => .bin .sub x y
  | .bin .mul a b => (toEx ns txt a).bind fun x => (toEx ns txt b).map fun y => .bin .mul x y
  | .bin .div a b => (toEx ns txt a).bind fun x => (toEx ns txt b).map fun y => .bin .div x y
  | _ => none

/-- `eval(text)` gives the object `o`. -/
def Evaluates (fm : Fmt) (ns : String → Option Obj) (txt : ℝ → String) (ts : List Tok) (o : Obj) : Prop :=
  ∃ e ex, Reads ts e ∧ toEx ns txt e = some ex ∧ ex.eval fm = .ok o

/-- In the namespace the names of the function's references are those references. -/
structure Namespace (N : Names) (ns : String → Option Obj) (l : List Comp) : Prop where
  par : ∀ c ∈ l, ns (N.par c.param) = some (.par c.param)
  dat : ∀ c ∈ l, ns (N.dat c.data) = some (.dat c.data)

/-- The body of a Python string literal in single quotes, up to the closing quote: no backslashes and no line breaks in it. -/
inductive LitBody : List Char → List Char → List Char → Prop
  | close {r} : LitBody ('\'' :: r) [] r
  | char {c cs s r} : c ≠ '\'' → c ≠ '\\' → c ≠ '\n' → LitBody cs s r → LitBody (c :: cs) (c :: s) r

/-- A Python identifier (of plain letters) that is not a keyword. -/
def Identifier (kw : List Char → Bool) (s : List Char) : Prop :=
  (∃ c cs, s = c :: cs ∧ startChar c = true ∧ ∀ d ∈ cs, identChar d = true) ∧ kw s = false

/-- The text, read as Python, is the reference `pre` of the name `s`: `pre.s` or `pre('s')`. -/
inductive RefReads (kw : List Char → Bool) (pre : Char) : List Char → List Char → Prop
  | attr {s} : Identifier kw s → RefReads kw pre (pre :: '.' :: s) s
  | call {b s} : LitBody b s [')'] → RefReads kw pre (pre :: '(' :: '\'' :: b) s

end Larch.Display
