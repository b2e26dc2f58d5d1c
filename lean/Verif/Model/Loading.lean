import Mathlib.Data.List.Basic

/-!
# Reuse of prepared flows and of work arrays

Two caches of `larch/numba`: the flow objects kept in `model.dataflows` (`larch/numba/data_arrays.py:354-366, 378-396, 435-453, 505-512`,
`larch/numba/model.py:995-1003`) and the output arrays kept in `model.work_arrays` (`numba/model.py:917-925, 1068-1103, 1150-1156, 1232-1234,
1386-1391`).
-/

namespace Larch.Loading

/-! ## Flows -/

/-- A definition: names and expressions.  `_prep_co`, `_prep_ca`, `_prep_ce` turn a list of expressions into `{i: i for i in vars}`. -/
abbrev Spec := List (String × String)

def specOf (vars : List String) : Spec := vars.map fun v => (v, v)

/-- What `flownamer(tag, spec, extra)` feeds to MD5, `data_arrays.py:366-375`; the name of the flow is a function of this text, and MD5 is
taken to have no collisions. -/
def flowText (tag : String) (spec : Spec) (extra : List String) : String :=
  tag ++ String.join (spec.map fun kv => kv.1 ++ kv.2) ++ String.join extra

/-- `if flow is None or flowname != flow.name: flow = setup_flow(..)`, `data_arrays.py:395-397, 451-453, 508-510`: the definition whose values
are loaded.  `flow` is the flow kept from the previous time, given by its definition. -/
def prep (tag : String) (extra : List String) (flow : Option Spec) (spec : Spec) : Spec :=
  match flow with
  | none => spec
  | some f => if flowText tag spec extra = flowText tag f extra then f else spec

/-! ## Work arrays -/

/-- One set of work arrays; each array holds the parameter values with which it was last filled (`none`: zeros). -/
structure Cell where
  utility : Option Nat := none
  probability : Option Nat := none
deriving DecidableEq

inductive Field where
  | utility | probability
deriving DecidableEq

/-- `heap`: all sets of arrays ever made; `cur`: `model.work_arrays`. -/
structure St where
  heap : Nat → Cell := fun _ => {}
  next : Nat := 0
  cur : Option Nat := none

/-- A NumPy view of an array of a set. -/
structure View where
  cell : Nat
  field : Field
deriving DecidableEq

/-- The methods.  The parameter vector is a number naming it; all cases are evaluated (no case slice). -/
inductive Op where
  | probability (x : Nat)   -- `numba/model.py:1586-1616`
  | utility (x : Nat)       -- `:1618-1686`
  | logsums (x : Nat)       -- `:1708-1729`, without `arr`
  | loglike (x : Nat)       -- `:1441-1482`, `loglike_casewise` `:1507-1521`
  | d_loglike (x : Nat)     -- `:1484-1505`, also `bhhh`, `loglike2`, `loglike2_bhhh`
  | mangle
deriving DecidableEq

/-- `_rebuild_work_arrays` through `unmangle`: a new set of zeros if there is none. -/
def St.ensure (s : St) : St × Nat :=
  match s.cur with
  | some c => (s, c)
  | none => ({ heap := Function.update s.heap s.next {}, next := s.next + 1, cur := some s.next }, s.next)

/-- What the kernel writes (`numba/model.py:576-577, 381-406`: utilities always, probabilities when asked for), and what is returned:
`some` for a view, `none` for a fresh value. -/
def St.step (s : St) : Op → St × Option View
  | .probability x =>
    let (s, c) := s.ensure
    ({ s with heap := Function.update s.heap c { utility := some x, probability := some x } }, some ⟨c, .probability⟩)
  | .utility x =>
    let (s, c) := s.ensure
    ({ s with heap := Function.update s.heap c { s.heap c with utility := some x } }, some ⟨c, .utility⟩)
  | .logsums x =>
    let (s, c) := s.ensure
    ({ s with heap := Function.update s.heap c { s.heap c with utility := some x } }, some ⟨c, .utility⟩)
  | .loglike x =>
    let (s, c) := s.ensure
    ({ s with heap := Function.update s.heap c { s.heap c with utility := some x } }, none)
  | .d_loglike x =>
    let (s, c) := s.ensure
    ({ s with heap := Function.update s.heap c { utility := some x, probability := some x } }, none)
  | .mangle => ({ s with cur := none }, none)

def St.run (s : St) (ops : List Op) : St := ops.foldl (fun s o => (s.step o).1) s

/-- What a view shows now. -/
def St.read (s : St) (v : View) : Option Nat :=
  match v.field with
  | .utility => (s.heap v.cell).utility
  | .probability => (s.heap v.cell).probability

end Larch.Loading
