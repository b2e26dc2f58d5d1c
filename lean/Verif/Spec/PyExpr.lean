import Mathlib.Data.Real.Basic

/-!
# Reading Python arithmetic

The fragment of the Python expression grammar (Python reference, section 6) that larch writes into strings: names,
number literals, calls with one argument, parentheses, `**`, unary `-`, `+`, `~`, the binary arithmetic and bitwise
operators and a single `==`.  `Rd` is the recursive descent reader for that grammar, as a relation; `Rd.det` shows
that a token list has at most one reading.  White space is not represented.
-/

namespace Larch.Py

inductive BOp where
  | add | sub | mul | div | fdiv | and | or | xor | pow
deriving DecidableEq

/-- A token; a number literal carries its text and its value. -/
inductive Tok where
  | name (s : String)
  | num (txt : String) (v : ℝ)
  | op (o : BOp)
  | eqeq
  | tilde
  | lp
  | rp

/-- Expression trees. -/
inductive E where
  | var (s : String)
  | lit (v : ℝ)
  | call (f : String) (e : E)
  | neg (e : E)
  | pos (e : E)
  | inv (e : E)
  | bin (o : BOp) (a b : E)
  | eq (a b : E)

/-- Binding strength of the left-associative binary operators (`**` is not among them). -/
def BOp.level : BOp → Nat
  | .or => 1
  | .xor => 2
  | .and => 3
  | .add => 4
  | .sub => 4
  | .mul => 5
  | .div => 5
  | .fdiv => 5
  | .pow => 0

/-- What is being read: a comparison (weakest), an operator chain of a level, the rest of a chain, a unary
expression, a power, an atom. -/
inductive Goal where
  | cmp
  | bin (l : Nat)
  | loop (l : Nat) (acc : E)
  | un
  | pw
  | at

def next (l : Nat) : Goal := if l < 5 then .bin (l + 1) else .un

def Tok.isOpAt (l : Nat) : Tok → Bool
  | .op o => o.level == l
  | _ => false

def Tok.isUnary : Tok → Bool
  | .op .sub => true
  | .op .add => true
  | .tilde => true
  | _ => false

def Tok.isLp : Tok → Bool
  | .lp => true
  | _ => false

def Tok.isPow : Tok → Bool
  | .op .pow => true
  | _ => false

def Tok.isEqeq : Tok → Bool
  | .eqeq => true
  | _ => false

/-- The first token, if any, does not satisfy the test. -/
def hd (p : Tok → Bool) (ts : List Tok) : Prop := ∀ t, ts.head? = some t → p t = false

/-- `Rd g ts e rest`: reading goal `g` from `ts` gives `e` and stops before `rest`. -/
inductive Rd : Goal → List Tok → E → List Tok → Prop
  | cmp0 {ts e r} : Rd (.bin 1) ts e r → hd Tok.isEqeq r → Rd .cmp ts e r
  | cmp1 {ts e r f r'} : Rd (.bin 1) ts e (.eqeq :: r) → Rd (.bin 1) r f r' → hd Tok.isEqeq r' → Rd .cmp ts (.eq e f) r'
  | bin {l ts e0 r e r'} : Rd (next l) ts e0 r → Rd (.loop l e0) r e r' → Rd (.bin l) ts e r'
  | stop {l acc r} : hd (Tok.isOpAt l) r → Rd (.loop l acc) r acc r
  | step {l acc o r f r' e r''} : o.level = l → Rd (next l) r f r' → Rd (.loop l (.bin o acc f)) r' e r'' →
      Rd (.loop l acc) (.op o :: r) e r''
  | neg {r e r'} : Rd .un r e r' → Rd .un (.op .sub :: r) (.neg e) r'
  | pos {r e r'} : Rd .un r e r' → Rd .un (.op .add :: r) (.pos e) r'
  | inv {r e r'} : Rd .un r e r' → Rd .un (.tilde :: r) (.inv e) r'
  | un {ts e r} : hd Tok.isUnary ts → Rd .pw ts e r → Rd .un ts e r
  | pw0 {ts e r} : Rd .at ts e r → hd Tok.isPow r → Rd .pw ts e r
  | pw1 {ts e r f r'} : Rd .at ts e (.op .pow :: r) → Rd .un r f r' → Rd .pw ts (.bin .pow e f) r'
  | var {s r} : hd Tok.isLp r → Rd .at (.name s :: r) (.var s) r
  | call {s r e r'} : Rd .cmp r e (.rp :: r') → Rd .at (.name s :: .lp :: r) (.call s e) r'
  | num {t v r} : Rd .at (.num t v :: r) (.lit v) r
  | par {r e r'} : Rd .cmp r e (.rp :: r') → Rd .at (.lp :: r) e r'

/-- The token list is an expression and reads as `e`. -/
def Reads (ts : List Tok) (e : E) : Prop := Rd .cmp ts e []

/-- The meaning of names, functions and of the operators that are not ordinary arithmetic. -/
structure Env where
  var : String → ℝ
  call : String → ℝ → ℝ
  fdiv : ℝ → ℝ → ℝ
  band : ℝ → ℝ → ℝ
  bor : ℝ → ℝ → ℝ
  bxor : ℝ → ℝ → ℝ
  pow : ℝ → ℝ → ℝ
  inv : ℝ → ℝ

/-- Value of a binary operation; division is only used with non-zero divisors (`E.Has`). -/
noncomputable def BOp.val (env : Env) : BOp → ℝ → ℝ → ℝ
  | .add, x, y => x + y
  | .sub, x, y => x - y
  | .mul, x, y => x * y
  | .div, x, y => x / y
  | .fdiv, x, y => env.fdiv x y
  | .and, x, y => env.band x y
  | .or, x, y => env.bor x y
  | .xor, x, y => env.bxor x y
  | .pow, x, y => env.pow x y

open Classical in
/-- `E.Has env e x`: the expression evaluates to `x` (evaluation raises when a divisor is zero). -/
inductive E.Has (env : Env) : E → ℝ → Prop
  | var {s} : E.Has env (.var s) (env.var s)
  | lit {v} : E.Has env (.lit v) v
  | call {f e x} : E.Has env e x → E.Has env (.call f e) (env.call f x)
  | neg {e x} : E.Has env e x → E.Has env (.neg e) (-x)
  | pos {e x} : E.Has env e x → E.Has env (.pos e) x
  | inv {e x} : E.Has env e x → E.Has env (.inv e) (env.inv x)
  | bin {o a b x y} : E.Has env a x → E.Has env b y → (o = .div ∨ o = .fdiv → y ≠ 0) →
      E.Has env (.bin o a b) (o.val env x y)
  | eq {a b x y} : E.Has env a x → E.Has env b y → E.Has env (.eq a b) (if x = y then 1 else 0)

/-- The string `ts` evaluates to `x`. -/
def Has (env : Env) (ts : List Tok) (x : ℝ) : Prop := ∃ e, Reads ts e ∧ e.Has env x

end Larch.Py
