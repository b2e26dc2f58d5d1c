import Verif.Model.PValue
import Verif.Spec.PyExpr

/-!
# Evaluating a linear function

Model of `LinearComponent_C.evaluate`, `LinearFunction_C.evaluate`, `DataRef_C.eval` and of `reformat_param`, `reformat_data`
(`larch/model/linear.pyx:399-412, 721-731, 1088-1154, 1217-1243`).  Data values are real numbers (the code also accepts arrays, and
then works element by element).  `re.sub` and `str.format` are arbitrary functions of the text.
-/

namespace Larch.Evaluate

open Larch.Linear Larch.Py

/-- A namespace: the keys are strings (as tokens), the values numbers. -/
abbrev NS := List (List Tok × ℝ)

open Classical in
/-- `ns[k]` (keys are unique in a Python dictionary). -/
noncomputable def nsGet (ns : NS) (k : List Tok) : Option ℝ := (ns.find? (fun q => decide (q.1 = k))).map Prod.snd

/-- The variables of an expression. -/
def vars : E → List String
  | .var s => [s]
  | .lit _ => []
  | .call _ e => vars e
  | .neg e => vars e
  | .pos e => vars e
  | .inv e => vars e
  | .bin _ a b => vars a ++ vars b
  | .eq a b => vars a ++ vars b

/-- The value of a variable in `DataRef_C.eval`: `use_namespace.update(namespace)`, then `use_namespace.update(more_namespace)`,
`linear.pyx:409-412`. -/
noncomputable def evalVar (ns kw : NS) (s : String) : Option ℝ := (nsGet kw [.name s]).or (nsGet ns [.name s])

/-- The environment of `eval(self, globals, use_namespace)`. -/
noncomputable def evalEnv (base : Env) (ns kw : NS) : Env := { base with var := fun s => (evalVar ns kw s).getD 0 }

/-- The data of a component, `linear.pyx:722-727`: the whole text is looked up first in `x_namespace`, then in the keyword arguments;
otherwise it is evaluated (a variable that has no value raises `NameError`). -/
inductive DataVal (base : Env) (ns kw : NS) (d : List Tok) : ℝ → Prop
  | direct {x} : nsGet ns d = some x → DataVal base ns kw d x
  | keyword {x} : nsGet ns d = none → nsGet kw d = some x → DataVal base ns kw d x
  | expression {e x} : nsGet ns d = none → nsGet kw d = none → Reads d e → (∀ s ∈ vars e, (evalVar ns kw s).isSome) →
      e.Has (evalEnv base ns kw) x → DataVal base ns kw d x

/-- The parameter's factor, `linear.pyx:728-731`. -/
noncomputable def paramFactor (expParams : Bool) (p : ℝ) : ℝ := if expParams then Real.exp p else p

/-- `LinearComponent_C.evaluate` returns `x`, `linear.pyx:721-731`; without `x_namespace` the test `self.data in None` raises
`TypeError`. -/
inductive CompVal (getter : String → Option ℝ) (base : Env) (kw : NS) (expParams : Bool) : Option NS → Comp → ℝ → Prop
  | mk {ns c p v} : DataVal base ns kw c.data v → getter c.param = some p →
      CompVal getter base kw expParams (some ns) c (c.scale * paramFactor expParams p * v)

/-- `LinearFunction_C.evaluate`: `sum(j.evaluate(…) for j in self)`, `linear.pyx:1241-1243`. -/
inductive FuncVal (getter : String → Option ℝ) (base : Env) (ns : Option NS) (kw : NS) (expParams : Bool) : List Comp → ℝ → Prop
  | nil : FuncVal getter base ns kw expParams [] 0
  | cons {c cs x y} : CompVal getter base kw expParams ns c x → FuncVal getter base ns kw expParams cs y →
      FuncVal getter base ns kw expParams (c :: cs) (x + y)

/-- A value, if it is a finite number. -/
def finiteOf : Except PVal.VErr X → Option ℝ
  | .ok (.fin v) => some v
  | _ => none

/-- `param_source.pvalue` of a model, `linear.pyx:1241-1242`, given the name as a plain string. -/
noncomputable def modelGetter (m : Params.Mentions) (f : Params.Frame) (s : String) : Option ℝ :=
  finiteOf (PVal.leafValue m none f (.name s)).2

/-- `reformat_param`, `linear.pyx:1088-1126`: `sub` is `re.sub(pattern, repl, ·)` if a pattern is given, `cont` is
`container.format(·)`. -/
def reformatParam (sub cont : Option (String → String)) (l : List Comp) : List Comp :=
  l.map fun c => ⟨(cont.getD id) ((sub.getD id) c.param), c.data, c.scale⟩

/-- `reformat_data`, `linear.pyx:1128-1154`. -/
def reformatData (sub cont : Option (List Tok → List Tok)) (l : List Comp) : List Comp :=
  l.map fun c => ⟨c.param, (cont.getD id) ((sub.getD id) c.data), c.scale⟩

end Larch.Evaluate
