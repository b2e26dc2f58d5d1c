import Verif.Model.Linear

/-!
# What the objects of a utility expression mean

The value of each object, given parameter values `p` and the meaning of data expressions `env`.  A linear component is
`scale * parameter * data` (`LinearComponent_C.evaluate`, `linear.pyx:721-731`), a linear function the sum of its components
(`LinearFunction_C.evaluate`, `linear.pyx:1217-1246`).  The placeholder parameter `_` stands for 1.
-/

namespace Larch.Linear

open Larch.Py

def Comp.Has (env : Env) (p : String → ℝ) (c : Comp) (x : ℝ) : Prop :=
  ∃ v, Py.Has env c.data v ∧ x = c.scale * p c.param * v

inductive FuncHas (env : Env) (p : String → ℝ) : List Comp → ℝ → Prop
  | nil : FuncHas env p [] 0
  | cons {c cs x y} : c.Has env p x → FuncHas env p cs y → FuncHas env p (c :: cs) (x + y)

/-- The value of an object. -/
def Obj.Has (env : Env) (p : String → ℝ) : Obj → ℝ → Prop
  | .num n, x => x = n.val
  | .par s, x => x = p s
  | .dat d, x => Py.Has env d x
  | .comp c, x => c.Has env p x
  | .func l, x => FuncHas env p l x
  | .pm e, x => PM.Has p e x

/-- The text of a literal determines its value, for the texts the code compares with. -/
def LitOk (d : List Tok) : Prop :=
  ∀ t v, d = [.num t v] → ((t = "0" ∨ t = "0.0" ∨ t = "00") → v = 0) ∧ ((t = "1" ∨ t = "1.0") → v = 1)

def Obj.LitOk : Obj → Prop
  | .dat d => Linear.LitOk d
  | .comp c => Linear.LitOk c.data
  | .func l => ∀ c ∈ l, Linear.LitOk c.data
  | _ => True

/-- The data expressions in an object. -/
def Obj.datas : Obj → List (List Tok)
  | .dat d => [d]
  | .comp c => [c.data]
  | .func l => l.map Comp.data
  | _ => []

/-- The value of an arithmetic operation on values. -/
noncomputable def opVal : POp → ℝ → ℝ → ℝ
  | .add, x, y => x + y
  | .sub, x, y => x - y
  | .mul, x, y => x * y
  | .div, x, y => x / y

/-- The larch operation. -/
noncomputable def apply (fm : Fmt) : POp → Obj → Obj → Except Exc Obj
  | .add => add fm
  | .sub => sub fm
  | .mul => mul fm
  | .div => div fm

/-- An expression as the user writes it. -/
inductive Ex where
  | leaf (o : Obj)
  | neg (e : Ex)
  | bin (o : POp) (a b : Ex)

/-- What Python makes of it. -/
noncomputable def Ex.eval (fm : Fmt) : Ex → Except Exc Obj
  | .leaf o => .ok o
  | .neg e =>
    match e.eval fm with
    | .ok a => Linear.neg fm a
    | .error x => .error x
  | .bin o a b =>
    match a.eval fm, b.eval fm with
    | .ok x, .ok y => apply fm o x y
    | .error x, _ => .error x
    | _, .error y => .error y

/-- The corresponding arithmetic on values (no value when a divisor is zero). -/
inductive Ex.Has (env : Env) (p : String → ℝ) : Ex → ℝ → Prop
  | leaf {o x} : o.Has env p x → Ex.Has env p (.leaf o) x
  | neg {e x} : Ex.Has env p e x → Ex.Has env p (.neg e) (-x)
  | bin {o a b x y} : Ex.Has env p a x → Ex.Has env p b y → (o = .div → y ≠ 0) → Ex.Has env p (.bin o a b) (opVal o x y)

/-- All leaves satisfy a predicate. -/
def Ex.All (q : Obj → Prop) : Ex → Prop
  | .leaf o => q o
  | .neg e => e.All q
  | .bin _ a b => a.All q ∧ b.All q

end Larch.Linear
