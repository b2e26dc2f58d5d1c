import Verif.Model.Graph

/-!
# The nesting graph inside a model

The default graph of a model, what assignment to `model.graph` does to a graph, where the kernel looks for an alternative, and the
cached orders.
-/

namespace Larch.Graph

/-- `AbstractChoiceModel.initialize_graph`, `larch/model/controller.pyx:1323-1331`, before `self.graph = g`. -/
def plainGraph (root : Int) (codes : List Int) : G := codes.foldl (fun g a => (addNode g a {}).1) (new root)

/-- `model.graph = g`: `NestingTree.__set__`, `larch/model/tree.py:35-48`, through the setter `larch/numba/model.py:938-940`. -/
def assign (g : G) : G := copy g

/-- `model.initialize_graph(alternative_codes=codes, root_id=root)`. -/
def initGraph (root : Int) (codes : List Int) : G := assign (plainGraph root codes)

/-- The column at which the data of alternative `a` is found in every data array: the position of its code in the alternative
index of the data, `larch/numba/model.py:798, 803` (`get_loc`); the arrays themselves are in that order, `larch/numba/data_arrays.py:73-330`. -/
def dataSlot (codes : List Int) (a : Int) : Nat := codes.idxOf a

/-- The slot that stands for alternative `a` in the edge arrays and in the labels of the results (`standard_sort`,
`larch/numba/model.py:1573-1588`). -/
def graphSlot (g : G) (a : Int) : Option Nat := (standardSort g).bind fun std => slotMap std a

/-- The names of the logsum parameters, `larch/numba/model.py:1167-1171`: every nest except the root must have a `parameter`;
`none` for the `KeyError`. -/
def logsumNames (g : G) : Option (List String) :=
  (nests g).bind fun l => (l.filter (fun n => n ≠ g.root)).mapM g.nparam

/-! ## Cached orders -/

/-- A tree with its lazy attributes (`larch/model/tree.py:331-416`), the dictionaries of slots, and the number of times the owning
model was told to forget its arrays (`touch`). -/
structure S where
  g : G
  topo : Option (List Int) := none
  nests : Option (List Int) := none
  elem : Option (List Int) := none
  std : Option (List Int) := none
  smap : Option (List Int) := none
  pred : Int → Option (List Nat) := fun _ => none
  succ : Int → Option (List Nat) := fun _ => none
  touches : Nat := 0

/-- `_clear_caches`, `larch/model/tree.py:116-132`. -/
def S.clear (s : S) : S := { g := s.g, touches := s.touches + 1 }

/-- Reading `topological_sorted`: the stored list if there is one (`lazy`, `larch/util/lazy.py:44-58`). -/
def S.readTopo (s : S) : Option (List Int) × S :=
  match s.topo with
  | some l => (some l, s)
  | none => match Graph.topo s.g with
    | none => (none, s)
    | some l => (some l, { s with topo := some l })

/-- Reading `topological_sorted_no_elementals`. -/
def S.readNests (s : S) : Option (List Int) × S :=
  match s.nests with
  | some l => (some l, s)
  | none => match s.readTopo with
    | (none, s) => (none, s)
    | (some l, s) =>
      let r := l.filter (fun n => s.g.outDeg n ≠ 0)
      (some r, { s with nests := some r })

/-- Reading `elementals`. -/
def S.readElem (s : S) : Option (List Int) × S :=
  match s.elem with
  | some l => (some l, s)
  | none => match Graph.elementals s.g with
    | none => (none, s)
    | some l => (some l, { s with elem := some l })

/-- Reading `standard_sort`. -/
def S.readStd (s : S) : Option (List Int) × S :=
  match s.std with
  | some l => (some l, s)
  | none => match s.readElem with
    | (none, s) => (none, s)
    | (some a, s) => match s.readNests with
      | (none, s) => (none, s)
      | (some b, s) => (some (a ++ b), { s with std := some (a ++ b) })

/-- Reading `standard_slot_map` (kept here as the order it was built from). -/
def S.readMap (s : S) : Option (List Int) × S :=
  match s.smap with
  | some l => (some l, s)
  | none => match s.readStd with
    | (none, s) => (none, s)
    | (some l, s) => (some l, { s with smap := some l })

/-- `successor_slots(c)`. -/
def S.readSucc (s : S) (c : Int) : Option (List Nat) × S :=
  match s.succ c with
  | some l => (some l, s)
  | none => match s.readMap with
    | (none, s) => (none, s)
    | (some std, s) => match successorSlots s.g std c with
      | none => (none, s)
      | some l => (some l, { s with succ := Function.update s.succ c (some l) })

/-- `predecessor_slots(c)`. -/
def S.readPred (s : S) (c : Int) : Option (List Nat) × S :=
  match s.pred c with
  | some l => (some l, s)
  | none => match s.readMap with
    | (none, s) => (none, s)
    | (some std, s) => match predecessorSlots s.g std c with
      | none => (none, s)
      | some l => (some l, { s with pred := Function.update s.pred c (some l) })

/-- An editing call on the tree with its caches.  `add_edge` clears before the edge is put in (`larch/model/tree.py:164-166`), the
others after; a call that raises does not reach `_clear_caches`; `suggest_elemental_order` (`95-96`) never calls it. -/
def S.edit (s : S) (o : Op) : S :=
  let r := step s.g o
  match o with
  | .suggest _ => { s with g := r.1 }
  | _ => if r.2 then { s with g := r.1 } else { s.clear with g := r.1 }

/-- Calls on the tree: editing, reading, and the inherited `DiGraph.add_edges_from`, which knows nothing of caches. -/
inductive Call where
  | edit (o : Op)
  | topo | nests | elem | std
  | succ (c : Int) | pred (c : Int)
  | addEdgesFrom (es : List (Int × Int))

def S.call (s : S) : Call → S
  | .edit o => s.edit o
  | .topo => s.readTopo.2
  | .nests => s.readNests.2
  | .elem => s.readElem.2
  | .std => s.readStd.2
  | .succ c => (s.readSucc c).2
  | .pred c => (s.readPred c).2
  | .addEdgesFrom es => { s with g := es.foldl (fun g e => nxAddEdge g { u := e.1, v := e.2, implied := false, param := none }) s.g }

def S.run (s : S) (cs : List Call) : S := cs.foldl S.call s

end Larch.Graph
