import Mathlib.Data.List.Basic

/-!
# Where a numba model takes its data from (`larch/numba/model.py`)

A model can be given a `DataTree`, a `DataFrames` or a prepared `Dataset`.  What it holds besides are results of earlier steps: the nesting graph, the prepared
data set, the arrays made of it, the positions of the terms (`_fixed_arrays`) and the work arrays.  Data are named by numbers; a specification (utility
functions, choices, availability, weights) is a number as well; every edit of it mangles the model.  Left out: nests (the graph is its list of
alternatives), the number of parameters, the data service, `float_dtype`.
-/

namespace Larch.DataSource

/-- A data tree (or data set): its alternatives, number of cases, values. -/
structure Tree where
  alts : List Int
  cases : Nat
  data : Nat
deriving DecidableEq

/-- A `DataFrames`. -/
structure Frm where
  alts : List Int
  cases : Nat
  data : Nat
  hasCh : Bool
deriving DecidableEq

/-- What the specifications ask for. -/
structure Env where
  /-- the tree has everything that the specification names -/
  treeHas : Tree → Nat → Bool
  /-- so has the `DataFrames` (`check_data_is_sufficient_for_model`) -/
  frmHas : Frm → Nat → Bool
  /-- the specification asks for choices -/
  specCh : Nat → Bool
  frms : Nat → Frm

/-- A data set prepared for a specification. -/
structure DS where
  content : Tree
  spec : Nat
deriving DecidableEq

/-- `_data_arrays`: values, number of cases, specification, graph; `blank`: the choices are zeros. -/
structure Arr where
  data : Nat
  cases : Nat
  spec : Nat
  graph : List Int
  blank : Bool
deriving DecidableEq

/-- `_fixed_arrays`: found in the labels of which alternatives, for which specification. -/
structure Pos where
  alts : List Int
  spec : Nat
deriving DecidableEq

/-- The program's trees, and the model. -/
structure St where
  trees : Nat → Tree
  spec : Nat
  mangled : Bool
  tree : Option Nat
  frames : Option Nat
  graph : Option (List Int)
  dataset : Option DS
  arrays : Option Arr
  fixed : Option Pos
  /-- cases and nodes -/
  work : Option (Nat × Nat)

/-- Exceptions. -/
inductive Err where
  | missing
  | key
  | value
  | runtime
  | attribute
  | type
deriving DecidableEq

/-- A state, and the exception that ended the step, if any. -/
abbrev Out := St × Option Err

/-- The next step, unless there was an exception. -/
def Out.andThen (o : Out) (f : St → Out) : Out :=
  match o.2 with
  | some _ => o
  | none => f o.1

/-- `mangle`, lines 917-925. -/
def mangle (s : St) : St := { s with mangled := true, dataset := none, fixed := none, arrays := none, work := none }

/-- The alternatives found by `initialize_graph`, lines 956-1006 and `larch/model/controller.pyx:1303-1319`: those of the `DataFrames`, if there is one. -/
def altsNow (E : Env) (s : St) : Option (List Int) :=
  match s.frames, s.tree with
  | some j, _ => some (E.frms j).alts
  | none, some i => some (s.trees i).alts
  | none, none => none

/-- Reading `_graph` (`larch/model/tree.py:15-33`): a missing graph is made, and setting it (35-48) mangles the model. -/
def getGraph (E : Env) (s : St) : St :=
  match s.graph, altsNow E s with
  | none, some a => mangle { s with graph := some a }
  | _, _ => s

/-- `sufficient`: the check of the `DataFrames`, if there is one. -/
def sufficient (E : Env) (s : St) : Bool := s.frames.all (fun j => E.frmHas (E.frms j) s.spec)

/-- `unmangle` of the parent class, `controller.pyx:266-274`: the scan of names reads `_graph` (lines 1160-1178). -/
def superUnmangle (E : Env) (s : St) : Out :=
  if s.mangled then
    if sufficient E (getGraph E s) then ({ getGraph E s with mangled := false }, none) else (getGraph E s, some .key)
  else (s, none)

/-- `n_cases`, lines 1976-1981, 2062-2071. -/
def nCases (E : Env) (s : St) : Option Nat :=
  match s.dataset, s.frames, s.tree with
  | some d, _, _ => some d.content.cases
  | none, some j, _ => some (E.frms j).cases
  | none, none, some i => some (s.trees i).cases
  | none, none, none => none

/-- `_rebuild_work_arrays()`, lines 1068-1102: arrays of the right size are kept, so only the size matters. -/
def rebuildWork (E : Env) (s : St) : St := { s with work := (nCases E s).map (fun n => (n, (s.graph.getD []).length + 1)) }

/-- `result[:, :graph.n_elementals()] = arr_ch` (`larch/numba/cascading.py`): the numbers of alternatives must agree, or numpy repeats a single column. -/
def fits (a g : List Int) : Bool := a.length == g.length || a.length == 1

/-- Lines 1018-1032, with a tree: `self.dataset` (line 1026) unmangles.  (The specification is taken to have choices or availability, so that the sizes are
compared.) -/
def reflowTree (E : Env) (s : St) (T : Tree) : Out :=
  if E.treeHas T s.spec then
    Out.andThen (superUnmangle E { s with dataset := some ⟨T, s.spec⟩, arrays := none }) (fun s =>
      if fits T.alts (s.graph.getD []) then
        let s := { s with arrays := some ⟨T.data, T.cases, s.spec, s.graph.getD [], false⟩ }
        (if s.work.isSome then rebuildWork E s else s, none)
      else (s, some .value))
  else (s, some .key)

/-- Lines 1034-1066, with a `DataFrames`. -/
def reflowFrames (s : St) (F : Frm) : Out :=
  if fits F.alts (s.graph.getD []) then ({ s with arrays := some ⟨F.data, F.cases, s.spec, s.graph.getD [], false⟩ }, none)
  else (s, some .value)

/-- Which of the two is used, lines 1017-1034. -/
def reflowData (E : Env) (s : St) : Out :=
  match s.tree, s.frames with
  | some i, _ => reflowTree E s (s.trees i)
  | none, some j => reflowFrames s (E.frms j)
  | none, none => (s, none)

/-- `reflow_data_arrays`, lines 1008-1066; without a graph, line 933 raises. -/
def reflow (E : Env) (s : St) : Out := if (getGraph E s).graph = none then (getGraph E s, some .runtime) else reflowData E (getGraph E s)

/-- `model.dataset`, lines 2024-2032. -/
def readDataset (E : Env) (s : St) : Out :=
  Out.andThen (superUnmangle E s) (fun s => if s.dataset = none then reflow E s else (s, none))

/-- `data_as_loaded`, lines 2054-2060: the alternatives of what is used. -/
def provider (E : Env) (s : St) : Option (List Int) := (s.dataset.map (fun d => d.content.alts)).or (s.frames.map (fun j => (E.frms j).alts))

/-- `_rebuild_fixed_arrays`, lines 1104-1147.  (The lookups of columns and alternatives are taken to succeed on data that were loaded for the specification.) -/
def rebuildFixed (E : Env) (s : St) : Out :=
  Out.andThen (readDataset E s) (fun s => ({ s with fixed := (provider E s).map (fun a => ⟨a, s.spec⟩) }, none))

/-- `unmangle`, lines 1150-1158. -/
def unmangle (E : Env) (s : St) : Out :=
  Out.andThen (Out.andThen (superUnmangle E s) (fun s => if s.dataset = none then reflow E s else (s, none)))
    (fun s => if s.fixed = none then Out.andThen (rebuildFixed E s) (fun s => (rebuildWork E s, none)) else (s, none))

/-- Lines 1210-1230: choices that are missing.  `allow` is `allow_missing_ch`. -/
def checkCh (E : Env) (allow : Bool) (s : St) : Out :=
  match s.frames with
  | some j =>
    if (E.frms j).hasCh then (s, none)
    else if allow then
      match s.arrays with
      | some a => ({ s with arrays := some { a with blank := true } }, none)
      | none => (s, some .attribute)
    else (s, some .missing)
  | none => Out.andThen (readDataset E s) (fun s => if s.dataset.all (fun d => E.specCh d.spec) || allow then (s, none) else (s, some .missing))

/-- What an evaluation has used: values, number of cases, specification, the graph, and where it took the positions from. -/
structure Used where
  data : Nat
  cases : Nat
  spec : Nat
  graph : List Int
  blank : Bool
  pos : Pos
deriving DecidableEq

/-- Lines 1236-1241 and the kernel, which refuses arrays with different numbers of cases. -/
def use (s : St) : Except Err Used :=
  match s.fixed, s.arrays, s.work with
  | none, _, _ => .error .type
  | some _, none, _ => .error .attribute
  | some p, some a, some w => if w.1 = a.cases then .ok ⟨a.data, a.cases, a.spec, a.graph, a.blank, p⟩ else .error .value
  | some _, some _, none => .error .type

/-- Lines 1232-1233. -/
def ensureWork (E : Env) (s : St) : Out := (if s.work = none then rebuildWork E s else s, none)

/-- The steps of `__prepare_for_compute`, lines 1193-1241. -/
def prepare (E : Env) (allow : Bool) (s : St) : Out :=
  if s.frames = none ∧ s.tree = none then (s, some .missing)
  else Out.andThen (Out.andThen (unmangle E s) (checkCh E allow)) (ensureWork E)

/-- An evaluation: what it used, or the exception. -/
def outcome (E : Env) (allow : Bool) (s : St) : Except Err Used :=
  match (prepare E allow s).2 with
  | some e => .error e
  | none => use (prepare E allow s).1

/-- `model.datatree = ...`, lines 2004-2022: nothing happens if it is the same object. -/
def setTree (s : St) (t : Option Nat) : St := if t = s.tree then s else mangle { s with tree := t }

/-- `model.dataframes = ...`, lines 1910-1951. -/
def setFrames (E : Env) (s : St) (j : Nat) : Out :=
  let s := if s.mangled then getGraph E s else s
  if E.frmHas (E.frms j) s.spec then
    Out.andThen (reflow E { s with frames := some j }) (fun s =>
      ({ s with work := some ((E.frms j).cases, (s.graph.getD []).length + 1) }, none))
  else (s, some .key)

/-- `model.dataset = ...`, lines 2035-2046. -/
def setDataset (s : St) (d : DS) : St := { s with dataset := some d, arrays := none }

/-- `del model.dataset`, lines 2049-2051. -/
def delDataset (s : St) : St := { s with dataset := none, arrays := none }

/-- Statements. -/
inductive Op where
  | setTree (t : Option Nat)
  | setFrames (j : Nat)
  | setDataset (d : DS)
  | delDataset
  | readDataset
  | editSpec (n : Nat)
  | editTree (i : Nat) (T : Tree)
  | evaluate (allow : Bool)

/-- The state after a statement (exceptions are caught by the caller). -/
def step (E : Env) (s : St) : Op → St
  | .setTree t => setTree s t
  | .setFrames j => (setFrames E s j).1
  | .setDataset d => setDataset s d
  | .delDataset => delDataset s
  | .readDataset => (readDataset E s).1
  | .editSpec n => mangle { s with spec := n }
  | .editTree i T => { s with trees := fun k => if k = i then T else s.trees k }
  | .evaluate allow => (prepare E allow s).1

/-- A new model, lines 900-915. -/
def new (trees : Nat → Tree) (spec : Nat) : St := ⟨trees, spec, true, none, none, none, none, none, none, none⟩

/-- A history. -/
def run (E : Env) (s : St) (ops : List Op) : St := ops.foldl (step E) s

end Larch.DataSource
