import Verif.Model.Params
import Verif.Model.GraphModel

/-!
# Unused parameters; saving, copying and cloning models

Model of `remove_unused_parameters` (`larch/model/model.py:761-786`), of pickling (`larch/model/controller.pyx:98-183`,
`larch/numba/model.py:1957-1973`, `larch/model/tree.py:492-515`), `dumps`, `copy`, `get_params`, the constructor
(`larch/model/model.py:144-222,743-759`, `larch/model/controller.pyx:31-96`, `larch/numba/model.py:902-915`) and `predict` as far as
it depends on them.

Values are copied, not shared: aliasing between a model and what is saved is not modelled, nor is the byte format (that
`cloudpickle`, `gzip` and `base64` give back what they were given).
-/

namespace Larch.Persist

open Larch.Params Larch.Graph

/-- One cell of the overlay, `model.py:775-777`: the old number unless it is missing. -/
def over (old new : X) : X := if old.isNaN then new else old

/-- The columns of one row of the overlay, `model.py:774-777` (the column `best` is gone, `mangle` deletes it). -/
def overlay (old new : Row) : Row :=
  { new with
    value := over old.value new.value, init := over old.init new.init, null := over old.null new.null
    min := over old.min new.min, max := over old.max new.max
    holdfast := match old.holdfast with
      | none => new.holdfast
      | some k => some k }

/-- `remove_unused_parameters()`, `model.py:761-786`, without the log messages. -/
noncomputable def removeUnused (m : Mentions) (f : Frame) : Frame :=
  let f1 := unmangle m true f
  let f2 := unmangle m true { f1 with rows := [] }
  { f2 with rows := f2.rows.map (fun r => match rowOf f1.rows r.name with
      | none => r
      | some o => overlay o r) }

/-- The position at which a constraint acts, `link_model` (`larch/model/constraints.py:56-70,322-326`): found once. -/
def linkPos (f : Frame) (p : String) : Nat := f.names.idxOf p

/-! ## Saving and copying -/

/-- A model.  `spec` is all the saved state that is stored and read back as it is (utility and quantity functions, scale, logsum
parameter, renamings, choice, availability and weight definitions, display order, overspecification, last result, cached
log likelihoods other than the null one, title, matrices).  `cgraph` is the attribute `_graph` of the compiled class, `pgraph` that of the
descriptor `_graph` of the Python class, which the numba models use (`numba/model.py:928-940`).  `service` is the data service,
`data` the loaded data, `sklearn` the attribute `_sklearn_data_format`, `none` if it was never set. -/
structure Obj (S C D : Type) where
  spec : S
  cgraph : Option G
  pgraph : Option G
  constraints : List C
  intensity : X
  sharpness : X
  dashboard : Bool
  frame : Frame
  service : Option D
  data : Option D
  sklearn : Option String

variable {S C D : Type}

/-- The nesting structure a model computes with. -/
def Obj.graph (nb : Bool) (o : Obj S C D) : Option G := if nb then o.pgraph else o.cgraph

/-- The names mentioned, given those of the specification (`sp`) and the nesting structure, `controller.pyx:292-371`,
`numba/model.py:1160-1177`; `none` for the `KeyError` when a nest has no parameter. -/
def mentions (sp : S → Mentions) (s : S) : Option G → Option Mentions
  | none => some (sp s)
  | some g => (logsumNames g).map (fun l => { sp s with logsum := l ++ (sp s).logsum })

/-- What `__getstate__` saves, `controller.pyx:98-140`, `numba/model.py:1957-1965` (the last three only for numba). -/
structure State (S : Type) where
  spec : S
  frame : Frame
  cgraph : Option G
  pgraph : Option G
  intensity : X
  sharpness : X

/-- `__getstate__`, `controller.pyx:98-140`: the saved state and the model afterwards (a dashboard in the last result is deleted). -/
def getstate (o : Obj S C D) : State S × Obj S C D :=
  (⟨o.spec, o.frame, o.cgraph, o.pgraph, o.intensity, o.sharpness⟩, { o with dashboard := false })

/-- `__setstate__` of an object `o` that has no data yet, `controller.pyx:142-183`, `numba/model.py:1967-1973`: the final
`unmangle(True)` scans the names and, for numba, asks for the graph, which raises if there is none. -/
noncomputable def setstate (nb : Bool) (sp : S → Mentions) (st : State S) (o : Obj S C D) : Except String (Obj S C D) :=
  let pg := if nb then st.pgraph else o.pgraph
  match mentions sp st.spec (if nb then pg else st.cgraph) with
  | none => .error "KeyError"
  | some m =>
    if nb && pg.isNone then .error "RuntimeError: cannot initialize graph"
    else .ok { o with
      spec := st.spec
      frame := unmangle m true st.frame
      cgraph := st.cgraph
      pgraph := pg
      intensity := if nb then st.intensity else o.intensity
      sharpness := if nb then st.sharpness else o.sharpness
      dashboard := false }

/-- An object made by `__new__` alone: no attribute is set (for a numba model an unset intensity cannot be read; the number here
is never seen). -/
noncomputable def blank (s : S) : Obj S C D :=
  ⟨s, none, none, [], .fin 0, .fin 0, false, ⟨[], false, true, .ninf, .fin 0⟩, none, none, none⟩

/-- `pickle.loads(m.dumps())`, `model.py:176-187`. -/
noncomputable def roundTrip (nb : Bool) (sp : S → Mentions) (o : Obj S C D) : Except String (Obj S C D) :=
  setstate nb sp (getstate o).1 (blank o.spec)

/-- `m.dataservice = x`, `controller.pyx:485-491` (the validation of the service itself is not modelled). -/
def setService (o : Obj S C D) : Option D → Except String (Obj S C D)
  | none => .error "TypeError: proposed dataservice does not implement 'validate_dataservice'"
  | some d => .ok { o with service := some d }

/-- `copy()`, `model.py:743-759`: the last line assigns through the descriptor, which wants a tree, copies it and mangles the
model; reading `graph` makes one from the data service if there is none (`controller.pyx:1266-1273`). -/
noncomputable def copyModel (nb : Bool) (sp : S → Mentions) (ofData : D → G) (o : Obj S C D) : Except String (Obj S C D) :=
  match roundTrip nb sp o with
  | .error e => .error e
  | .ok r =>
    match setService r o.service with
    | .error e => .error e
    | .ok r1 =>
      match (r1.graph nb).or (r1.service.map ofData) with
      | none => .error "AssertionError"
      | some g => .ok { r1 with
          cgraph := if nb then r1.cgraph else some g
          pgraph := some (assign g)
          frame := mangle r1.frame }

/-- The arguments of the constructor (`Model(…)`) that are modelled; `alts` and `root_id` make the graph
(`controller.pyx:82-92`). -/
structure Args (S C D : Type) where
  spec : S
  frame : Frame
  graph : Option G
  constraints : List C
  service : Option D

/-- `Model(utility_ca=…, …, constraints=…, frame=…, graph=…, dataservice=…)`, `model.py:144-174`, `controller.pyx:31-96`,
`numba/model.py:902-915`: the constraints are linked before there is a frame; the graph goes to the attribute of the compiled
class; the scan of a numba model makes a graph from the data service. -/
noncomputable def construct (nb : Bool) (sp : S → Mentions) (ofData : D → G) (a : Args S C D) : Except String (Obj S C D) :=
  if a.constraints.length ≠ 0 then .error "AttributeError: 'NoneType' object has no attribute 'index'"
  else
    let pg := if nb then a.service.map (fun d => assign (ofData d)) else none
    match mentions sp a.spec (if nb then pg else a.graph) with
    | none => .error "KeyError"
    | some m => .ok ⟨a.spec, a.graph, pg, [], .fin 0, .fin 0, false, mangle { a.frame with rows := scanAll m a.frame.rows },
        a.service, none, some "idce"⟩

/-- `NumbaModel(m)` / `Model(m)`, that is `Model(model=m)`, `model.py:154-174`, `numba/model.py:906-915`: service and loaded data
are assigned (`controller.pyx:485-536`: both must exist); the numba constructor sets the penalty settings after the state has been
taken over. -/
noncomputable def constructFrom (nb : Bool) (sp : S → Mentions) (o : Obj S C D) : Except String (Obj S C D) :=
  match setstate nb sp (getstate o).1 { (blank o.spec : Obj S C D) with sklearn := some "idce" } with
  | .error e => .error e
  | .ok r =>
    match setService r o.service with
    | .error e => .error e
    | .ok r1 =>
      match o.data with
      | none => .error "AttributeError: 'NoneType' object has no attribute 'computational'"
      | some d => .ok { r1 with
          data := some d
          intensity := if nb then .fin 0 else r1.intensity
          sharpness := if nb then .fin 0 else r1.sharpness
          frame := mangle r1.frame }

/-- `get_params()` followed by the constructor, as in `sklearn.base.clone`, `model.py:189-210`; `f` is `m.pf`. -/
noncomputable def clone (nb : Bool) (sp : S → Mentions) (ofData : D → G) (o : Obj S C D) (f : Frame) : Except String (Obj S C D) :=
  construct nb sp ofData ⟨o.spec, f, o.graph nb, o.constraints, none⟩

/-- Giving data to a model: the structure is made from the data if there is none (`controller.pyx:1266-1273`,
`numba/model.py:928-936,1944-1948`). -/
def Obj.withData (nb : Bool) (ofData : D → G) (o : Obj S C D) (d : D) : Obj S C D :=
  { o with
    data := some d
    cgraph := if nb then o.cgraph else o.cgraph.or (some (ofData d))
    pgraph := if nb then o.pgraph.or (some (assign (ofData d))) else o.pgraph }

/-- The first thing `predict` does, `model.py:318`: read the format of the data. -/
def predictFormat (o : Obj S C D) : Except String String :=
  match o.sklearn with
  | none => .error "AttributeError: _sklearn_data_format"
  | some s => .ok s

end Larch.Persist
