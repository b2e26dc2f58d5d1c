import Verif.Model.Slots

/-!
# Models, the data attached to them, and the links between the two

A history of statements on any number of models and any number of `DataFrames`.  In the compiled engine the positions and the
parameter values used by the kernels are stored in the `DataFrames` (`larch/dataframes.pyx` lines 2107-2284); in the numba engine
the positions are stored in the model (`larch/numba/model.py` lines 905-925, 1104-1158).
-/

namespace Larch.Link

open Larch.Kernel Larch.Slots Function

/-- The labels of a `DataFrames`: alternative codes and the columns of its tables. -/
structure Cols where
  alts : List Int
  co : Option (List String)
  ca : Option (List String)
  ce : Option (List String)

/-- A `DataFrames`: its labels (never changed here), `_model` and the arrays of positions. -/
structure Dfs where
  cols : Cols
  linked : Option Nat
  slots : Terms

/-- A model: its specification, the parameter frame (names and values), `_mangled`, `_dataframes` and, in the numba engine,
`_fixed_arrays`. -/
structure Mdl where
  spec : NSpec
  frame : List (String × ℝ)
  mangled : Bool
  data : Option Nat
  fixed : Option Terms

/-- All models and all `DataFrames`. -/
structure World where
  models : Nat → Mdl
  dfs : Nat → Dfs

/-- `_ensure_names`, `larch/model/parameter_frame.pyx`: missing names are appended; `init` are the values new parameters get.
(Simplified: in order of appearance; the code uses the order of a Python set.) -/
def ensure (init : String → ℝ) (frame : List (String × ℝ)) (names : List String) : List (String × ℝ) :=
  names.foldl (fun f n => if n ∈ f.map Prod.fst then f else f ++ [(n, init n)]) frame

/-- `_scan_all_ensure_names`, `larch/model/controller.pyx:285-289`, without renamed or logsum parameters. -/
def scan (init : String → ℝ) (m : Mdl) : Mdl := { m with frame := ensure init m.frame (scanNames id m.spec) }

/-- What linking reads. -/
def table (m : Mdl) (c : Cols) : Table := ⟨m.frame.map Prod.fst, c.alts, c.co, c.ca, c.ce⟩

/-- An entry of the `model_utility_co_*` arrays before it is filled (`zeros`, `ones`), `larch/dataframes.pyx:2166-2171`. -/
def blank : CoTerm := { alt := 0, scale := 1, param := 0, data := some 0 }

/-- The `model_utility_co_*` arrays when the loop `larch/dataframes.pyx:2182-2191` has ended, with or without exception: the
entries after the exception are still blank.  (Simplified: an entry whose parameter or column is missing keeps its place of the
alternative.) -/
def fillCo (T : Table) : List (Int × NTerm) → List CoTerm
  | [] => []
  | (a, t) :: rest =>
    match (getLoc T.alts a).bind fun i => coSlot T.params (T.co.getD []) i t with
    | some c => c :: fillCo T rest
    | none => blank :: rest.map fun _ => blank

/-- The arrays left by a failed `_link_to_model_structure`.  (Simplified: after a failure in the `idca` part all arrays keep their
old contents.) -/
def leftover (T : Table) (S : NSpec) (old : Terms) : Terms :=
  match allOf (caSlot T) S.q, scaleSlot T S, allOf (caSlot T) S.ca with
  | some q, some s, some ca => { q := q, qScale := s, ca := ca, co := fillCo T (S.co.flatMap fun e => e.2.map fun t => (e.1, t)) }
  | _, _, _ => old

/-- `_link_to_model_structure(model)`, `larch/dataframes.pyx:2107-2201`; the flag tells whether it ended without exception. -/
def link (w : World) (m d : Nat) : World × Bool :=
  let D := w.dfs d
  let T := table (w.models m) D.cols
  match compiledSlots T (w.models m).spec with
  | some M => ({ w with dfs := update w.dfs d { D with linked := some m, slots := M } }, true)
  | none => ({ w with dfs := update w.dfs d { D with linked := some m, slots := leftover T (w.models m).spec D.slots } }, false)

/-- The scan at the beginning of `set_dataframes` and `unmangle`, done for a mangled model. -/
def rescan (init : String → ℝ) (w : World) (m : Nat) : World :=
  if (w.models m).mangled then { w with models := update w.models m (scan init (w.models m)) } else w

/-- An edit of the utility functions: `model.utility_ca = ...` etc.; it mangles the model (C42), which in the numba engine also
discards `_fixed_arrays` (`larch/numba/model.py:917-925`). -/
def edit (w : World) (m : Nat) (S : NSpec) : World :=
  { w with models := update w.models m { w.models m with spec := S, mangled := true, fixed := none } }

/-- `set_values`: every parameter of the frame gets the value `v` assigns to its name.  (`_frame_values_have_changed`,
`controller.pyx:276-283`, reads the values into the `DataFrames`; evaluations read them again, so this is left out.) -/
def setValues (w : World) (m : Nat) (v : String → ℝ) : World :=
  { w with models := update w.models m { w.models m with frame := (w.models m).frame.map fun e => (e.1, v e.1) } }

/-- `model.dataframes = d` in the compiled engine, `set_dataframes`, `larch/model/controller.pyx:497-530`; the flag tells whether
it ended without exception. -/
def attach (init : String → ℝ) (w : World) (m d : Nat) : World × Bool :=
  let w := rescan init w m
  if sufficient (table (w.models m) (w.dfs d).cols) (w.models m).spec then
    link { w with models := update w.models m { w.models m with data := some d } } m d
  else (w, false)

/-- What the kernels work with: positions, parameter values, and the labels of the data arrays. -/
structure Used where
  slots : Terms
  values : List ℝ
  cols : Cols

/-- `_read_in_model_parameters`, `larch/dataframes.pyx:2249-2284`: the values in the frame of `_model`. -/
def readIn (w : World) (d : Nat) : List ℝ :=
  match (w.dfs d).linked with
  | some m => (w.models m).frame.map Prod.snd
  | none => []

/-- An evaluation in the compiled engine, `__prepare_for_compute`, `larch/model/controller.pyx:837-847` (with `unmangle`,
266-274): the world afterwards and what the kernels work with; `none` when it raises. -/
def eval (init : String → ℝ) (w : World) (m : Nat) : World × Option Used :=
  match (w.models m).data with
  | none => (w, none)
  | some d =>
    if (w.models m).mangled then
      let w := rescan init w m
      if sufficient (table (w.models m) (w.dfs d).cols) (w.models m).spec then
        match link w m d with
        | (w, false) => (w, none)
        | (w, true) =>
          let w := { w with models := update w.models m { w.models m with mangled := false } }
          (w, some ⟨(w.dfs d).slots, readIn w d, (w.dfs d).cols⟩)
      else (w, none)
    else (w, some ⟨(w.dfs d).slots, readIn w d, (w.dfs d).cols⟩)

/-! ## The numba engine -/

/-- `model.dataframes = d` in the numba engine, `set_dataframes`, `larch/numba/model.py:1910-1951`: `_fixed_arrays` is left as it
is. -/
def attachN (init : String → ℝ) (w : World) (m d : Nat) : World × Bool :=
  let w := rescan init w m
  if sufficient (table (w.models m) (w.dfs d).cols) (w.models m).spec then
    ({ w with models := update w.models m { w.models m with data := some d } }, true)
  else (w, false)

/-- The end of an evaluation in the numba engine on the data `d`, `larch/numba/model.py:1193-1241`: the positions are computed when
there are none; the values are those of the model's own frame, the data those attached now (`reflow_data_arrays` runs at every
evaluation). -/
def computeN (w : World) (m d : Nat) : World × Option Used :=
  match (w.models m).fixed with
  | some M => (w, some ⟨M, (w.models m).frame.map Prod.snd, (w.dfs d).cols⟩)
  | none =>
    match numbaSlots (table (w.models m) (w.dfs d).cols) (w.models m).spec with
    | none => (w, none)
    | some M =>
      ({ w with models := update w.models m { w.models m with fixed := some M } },
        some ⟨M, (w.models m).frame.map Prod.snd, (w.dfs d).cols⟩)

/-- An evaluation in the numba engine, `__prepare_for_compute`, `larch/numba/model.py:1193-1241`, with `unmangle` (1150-1158;
the base class part is `controller.pyx:266-274`, which checks the data and links the `DataFrames`; the link is not used). -/
def evalN (init : String → ℝ) (w : World) (m : Nat) : World × Option Used :=
  match (w.models m).data with
  | none => (w, none)
  | some d =>
    let w0 := rescan init w m
    if (w.models m).mangled && (compiledSlots (table (w0.models m) (w.dfs d).cols) (w.models m).spec).isNone then (w0, none)
    else computeN { w0 with models := update w0.models m { w0.models m with mangled := false } } m d

end Larch.Link
