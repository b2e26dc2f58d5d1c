import Verif.Model.Kernel
import Mathlib.Data.List.Sort

/-!
# The nesting tree (`larch/model/tree.py`, class `NestingTree`)

A `networkx.DiGraph` is modelled by its node list and its edge list, both in insertion order: `successors`, `predecessors`,
`in_edges`, `out_degree` iterate the corresponding dictionaries, whose order is that of insertion (an existing edge keeps its
place when it is added again).  Node codes are integers (`int(u)` in `add_edge`).  Of the attributes only `implied` and
`parameter` (of edges and nodes) are kept.
-/

namespace Larch.Graph

/-- An edge with the attributes `implied` and `parameter`. -/
structure Edge where
  u : Int
  v : Int
  implied : Bool
  param : Option String
deriving DecidableEq, Repr

/-- A `NestingTree`: nodes, edges, the node attribute `parameter`, `_root_id` and `_suggested_elemental_order`. -/
structure G where
  nodes : List Int
  edges : List Edge
  nparam : Int → Option String
  root : Int
  suggested : List Int

/-! ## networkx primitives -/

/-- `(u, v) in self.edges` -/
def G.hasEdge (g : G) (u v : Int) : Bool := g.edges.any (fun e => decide (e.u = u ∧ e.v = v))

/-- `self.in_edges(v)` -/
def G.inEdges (g : G) (v : Int) : List Edge := g.edges.filter (fun e => e.v = v)

/-- `self.edges(u)`, the out-edges -/
def G.outEdges (g : G) (u : Int) : List Edge := g.edges.filter (fun e => e.u = u)

/-- `DiGraph.add_node(n)` without attributes. -/
def nxAddNode (g : G) (n : Int) : G := if n ∈ g.nodes then g else { g with nodes := g.nodes ++ [n] }

/-- `DiGraph.add_edge(u, v, implied=.., [parameter=..])`: creates missing nodes, updates the attributes of an existing edge. -/
def nxAddEdge (g : G) (e : Edge) : G :=
  let g := nxAddNode (nxAddNode g e.u) e.v
  { g with edges :=
      if g.hasEdge e.u e.v then
        g.edges.map (fun d => if d.u = e.u ∧ d.v = e.v then { e with param := e.param <|> d.param } else d)
      else g.edges ++ [e] }

/-- `DiGraph.remove_edge(u, v)`; `none` when it raises `NetworkXError`. -/
def nxRemoveEdge (g : G) (u v : Int) : Option G :=
  if g.hasEdge u v then some { g with edges := g.edges.filter (fun e => ¬ (e.u = u ∧ e.v = v)) } else none

/-- `DiGraph.remove_node(n)`; `none` when it raises. -/
def nxRemoveNode (g : G) (n : Int) : Option G :=
  if n ∈ g.nodes then
    some { g with
      nodes := g.nodes.filter (fun m => m ≠ n)
      edges := g.edges.filter (fun e => e.u ≠ n ∧ e.v ≠ n)
      nparam := Function.update g.nparam n none }
  else none

/-! ## Editing methods -/

/-- `NestingTree(root_id=r)`, `larch/model/tree.py:71-85`. -/
def new (r : Int) (suggested : List Int := []) : G :=
  { nodes := [r], edges := [], nparam := fun _ => none, root := r, suggested := suggested }

/-- `add_edge`, `larch/model/tree.py:134-166`: an edge that is not implied first drops the implied edges into `v` (through the
networkx method). -/
def addEdge (g : G) (u v : Int) (implied : Bool := false) (param : Option String := none) : G :=
  let g := if implied then g else { g with edges := g.edges.filter (fun e => ¬ (e.v = v ∧ e.implied = true)) }
  nxAddEdge g { u := u, v := v, implied := implied, param := param }

/-- `remove_edge`, `larch/model/tree.py:173-191`; `none` when it raises. -/
def removeEdge (g : G) (u v : Int) : Option G :=
  (nxRemoveEdge g u v).map fun g =>
    if (g.inEdges v).isEmpty ∧ v ≠ g.root then addEdge g g.root v (implied := true) else g

/-- The arguments of `add_node` other than the code; `param` is the node attribute `parameter`. -/
structure NodeArgs where
  children : List Int := []
  parent : Option Int := none
  parents : Option (List Int) := none
  phi : List (Int × String) := []
  param : Option String := none

/-- The phi_parameters loop, `larch/model/tree.py:245-255`: name the parameter of the edge from the new node, else of the edge to
it.  The flag tells whether it ended with the `ValueError`; the edges before the offending one keep their new parameters. -/
def setPhi (g : G) (code : Int) : List (Int × String) → G × Bool
  | [] => (g, false)
  | (k, s) :: rest =>
    if g.hasEdge code k then
      setPhi { g with edges := g.edges.map (fun d => if d.u = code ∧ d.v = k then { d with param := some s } else d) } code rest
    else if g.hasEdge k code then
      setPhi { g with edges := g.edges.map (fun d => if d.u = k ∧ d.v = code then { d with param := some s } else d) } code rest
    else (g, true)

/-- `add_node`, `larch/model/tree.py:193-256`, up to the phi_parameters loop. -/
def addNodeCore (g : G) (code : Int) (a : NodeArgs) : G :=
  let g := nxAddNode g code
  let g := match a.param with
    | none => g
    | some s => { g with nparam := Function.update g.nparam code (some s) }
  let g := a.children.foldl (fun g c => addEdge g code c) g
  match a.parent, a.parents with
  | some p, _ => addEdge g p code
  | none, some ps => ps.foldl (fun g p => addEdge g p code) g
  | none, none => if (g.inEdges code).isEmpty ∧ code ≠ g.root then addEdge g g.root code (implied := true) else g

/-- `add_node`, `larch/model/tree.py:193-256`: the graph afterwards, and whether it raised.  `TypeError` when both `parent` and
`parents` are given, before anything is changed. -/
def addNode (g : G) (code : Int) (a : NodeArgs) : G × Bool :=
  if a.parents.isSome ∧ a.parent.isSome then (g, true)
  else setPhi (addNodeCore g code a) code a.phi

/-- The search of `new_node`, `larch/model/tree.py:296-298`: `while proposed_code in self: proposed_code += 1`, started at
`proposed_code`, at most `fuel` increments (the number of nodes is enough, `C17_search_ends`). -/
def searchCode (nodes : List Int) : Nat → Int → Int
  | 0, c => c
  | fuel + 1, c => if c ∈ nodes then searchCode nodes fuel (c + 1) else c

/-- The code `new_node` will use; `none` for the `ValueError`.  `larch/model/tree.py:295-302`. -/
def proposeCode (g : G) : Option Int → Option Int
  | none => some (searchCode g.nodes g.nodes.length g.nodes.length)
  | some c => if c ∈ g.nodes then none else some c

/-- `new_node`, `larch/model/tree.py:258-304`: the graph afterwards, and the returned code (`none` when it raised). -/
def newNode (g : G) (code : Option Int) (a : NodeArgs) : G × Option Int :=
  match proposeCode g code with
  | none => (g, none)
  | some c =>
    let r := addNode g c a
    (r.1, if r.2 then none else some c)

/-- `remove_node`, `larch/model/tree.py:310-329`; `none` when it raises. -/
def removeNode (g : G) (n : Int) : Option G :=
  let replaceEdges := g.outEdges n
  let replaceHeads := (g.inEdges n).map Edge.u
  (nxRemoveNode g n).map fun g =>
    replaceEdges.foldl (fun g k => replaceHeads.foldl (fun g h => nxAddEdge g { k with u := h }) g) g

/-- The `root_id` setter, `larch/model/tree.py:103-114`.  (`successors` of a root that is no longer in the graph raises:
`none`.) -/
def setRoot (g : G) (x : Int) : Option G :=
  let top := g.outEdges g.root
  (removeNode g g.root).map fun g =>
    let g := { g with root := x }
    let g := if x ∈ g.nodes then g else (addNode g x {}).1
    top.foldl (fun g a => addEdge g x a.v a.implied a.param) g

/-- `suggest_elemental_order`, `larch/model/tree.py:95-96`. -/
def suggest (g : G) (order : List Int) : G := { g with suggested := order.filter (fun j => j ∈ g.nodes) }

/-- `DiGraph.copy()`, inherited: `G = self.__class__()` makes a `NestingTree` with root 0 and the node 0, to which
`add_nodes_from` and `add_edges_from` add the nodes in order and the edges grouped by start node in node order.  Used by
`NestingTree.__set__`, `larch/model/tree.py:35-42`, that is, by every assignment `model.graph = g`. -/
def copy (g : G) : G :=
  let h := g.nodes.foldl nxAddNode (new 0)
  let h := { h with nparam := fun n => if n ∈ g.nodes then g.nparam n else none }
  (g.nodes.flatMap g.outEdges).foldl nxAddEdge h

/-- The public editing calls. -/
inductive Op where
  | addEdge (u v : Int) (implied : Bool) (param : Option String)
  | removeEdge (u v : Int)
  | addNode (code : Int) (a : NodeArgs)
  | newNode (code : Option Int) (a : NodeArgs)
  | removeNode (n : Int)
  | setRoot (x : Int)
  | suggest (order : List Int)

/-- The graph after a call and whether the call raised. -/
def step (g : G) : Op → G × Bool
  | .addEdge u v i p => (addEdge g u v i p, false)
  | .removeEdge u v => match removeEdge g u v with
    | none => (g, true)
    | some h => (h, false)
  | .addNode c a => addNode g c a
  | .newNode c a => ((newNode g c a).1, (newNode g c a).2.isNone)
  | .removeNode n => match removeNode g n with
    | none => (g, true)
    | some h => (h, false)
  | .setRoot x => match setRoot g x with
    | none => (g, true)
    | some h => (h, false)
  | .suggest o => (suggest g o, false)

/-- The graph after a history of calls, some of which may have raised. -/
def run (g : G) (ops : List Op) : G := ops.foldl (fun g o => (step g o).1) g

/-! ## Orders -/

def G.outDeg (g : G) (n : Int) : Nat := (g.outEdges n).length

/-- The state of `reverse_lexicographical_topological_sort`: the heap (as a list), the out-degree map, the nodes yielded. -/
structure Topo where
  ready : List Int
  deg : Int → Option Nat
  out : List Int

/-- Body of the loop over the in-edges, `larch/model/tree.py:1181-1188`; `none` for the `RuntimeError`. -/
def relax (s : Topo) (parent : Int) : Option Topo :=
  match s.deg parent with
  | none => none
  | some d =>
    if d - 1 = 0 then some { s with ready := s.ready ++ [parent], deg := Function.update s.deg parent none }
    else some { s with deg := Function.update s.deg parent (some (d - 1)) }

/-- One round of the `while` loop, `larch/model/tree.py:1175-1190`.  The heap holds `(node, index, node)` for distinct nodes, so
the smallest entry is that of the smallest node. -/
def topoStep (g : G) (s : Topo) (m : Int) : Option Topo :=
  (((g.inEdges m).map Edge.u).foldlM relax { s with ready := s.ready.erase m }).map fun s => { s with out := s.out ++ [m] }

/-- The `while` loop; at most `fuel` rounds (the number of nodes is enough, see `topo_total`). -/
def topoLoop (g : G) : Nat → Topo → Option Topo
  | 0, s => some s
  | fuel + 1, s =>
    match s.ready.min? with
    | none => some s
    | some m => (topoStep g s m).bind (topoLoop g fuel)

/-- `list(reverse_lexicographical_topological_sort(self))`, `larch/model/tree.py:1116-1194, 332-334`; `none` when it raises. -/
def topo (g : G) : Option (List Int) :=
  (topoLoop g g.nodes.length
    { ready := g.nodes.filter (fun n => g.outDeg n = 0)
      deg := fun n => if n ∈ g.nodes ∧ g.outDeg n > 0 then some (g.outDeg n) else none
      out := [] }).bind fun s => if s.ready.isEmpty then some s.out else none

/-- `elementals`, `larch/model/tree.py:399-416`.  `out_degree(e)` raises when `e` is not in the graph. -/
def elementals (g : G) : Option (List Int) :=
  if g.suggested.all (fun e => e ∈ g.nodes) then
    let first := g.suggested.filter (fun e => g.outDeg e = 0)
    let rest := (g.nodes.filter (fun n => g.outDeg n = 0)).insertionSort (· ≤ ·)
    some (first ++ rest.filter (fun e => e ∉ first))
  else none

/-- `topological_sorted_no_elementals`, `larch/model/tree.py:335-358`. -/
def nests (g : G) : Option (List Int) := (topo g).map fun l => l.filter (fun n => g.outDeg n ≠ 0)

/-- `standard_sort`, `larch/model/tree.py:360-362`. -/
def standardSort (g : G) : Option (List Int) :=
  (elementals g).bind fun a => (nests g).map fun b => a ++ b

/-- `standard_slot_map[c]`, `larch/model/tree.py:377-379`: the dictionary built from `enumerate`, where a later entry replaces an
earlier one; `none` for the `KeyError`. -/
def slotMap (std : List Int) (c : Int) : Option Nat :=
  (std.zipIdx.reverse.find? (fun e => e.1 = c)).map Prod.snd

/-- `successor_slots`, `larch/model/tree.py:390-397`. -/
def successorSlots (g : G) (std : List Int) (c : Int) : Option (List Nat) :=
  (g.outEdges c).mapM (fun e => slotMap std e.v)

/-- `predecessor_slots`, `larch/model/tree.py:381-388`. -/
def predecessorSlots (g : G) (std : List Int) (c : Int) : Option (List Nat) :=
  (g.inEdges c).mapM (fun e => slotMap std e.u)

/-! ## Slot arrays -/

/-- `a[i] = x` with Python's negative indices; `none` for the `IndexError`. -/
def pySet {α : Type} (a : List α) (i : Int) (x : α) : Option (List α) :=
  if 0 ≤ i ∧ i < a.length then some (a.set i.toNat x)
  else if i < 0 ∧ 0 ≤ a.length + i then some (a.set (a.length + i).toNat x)
  else none

/-- The order in which both fills visit the edges, `larch/model/tree.py:449-451` and `899-901`: `for upcode in
reversed(standard_sort)`, `for dnslot in reversed(successor_slots(upcode))`. -/
def visits (g : G) (std : List Int) : Option (List (Nat × Nat)) :=
  (std.reverse.mapM fun c => (slotMap std c).bind fun up =>
    (successorSlots g std c).map fun dn => dn.reverse.map fun d => (up, d)).map List.flatten

/-- The fill of `edge_slot_arrays`, `larch/model/tree.py:440-454`: `n` counts down from the number of edges. -/
def fillEdges (g : G) (std : List Int) : Option (List Nat × List Nat) :=
  (visits g std).bind fun ps =>
    (ps.foldlM (fun (st : Int × List Nat × List Nat) p =>
      (pySet st.2.1 (st.1 - 1) p.1).bind fun up => (pySet st.2.2 (st.1 - 1) p.2).map fun dn => (st.1 - 1, up, dn))
      ((g.edges.length : Int), List.replicate g.edges.length 0, List.replicate g.edges.length 0)).map Prod.snd

/-- The first-visit marks, `larch/model/tree.py:455-458`. -/
def firstVisits : List Nat → List Nat → List Nat
  | _, [] => []
  | found, d :: dn => if d ∈ found then 0 :: firstVisits found dn else 1 :: firstVisits (d :: found) dn

/-- `edge_slot_arrays()`, `larch/model/tree.py:440-463` (the allocation column, always `-1` without a locator, is left out). -/
def edgeSlotArrays (g : G) (std : List Int) : Option (List Nat × List Nat × List Nat) :=
  (fillEdges g std).map fun r => (r.1, r.2, firstVisits [] r.2)

/-- The `start` and `num` arrays of `node_slot_arrays`, `larch/model/tree.py:896-908`. -/
def fillNodes (g : G) (std : List Int) : Option (List Int × List Nat) :=
  (visits g std).bind fun ps =>
    (ps.foldlM (fun (st : Int × List Int × List Nat) p =>
      (pySet st.2.1 (p.1 : Int) (st.1 - 1)).bind fun start =>
        (pySet st.2.2 (p.1 : Int) (st.2.2.getD p.1 0 + 1)).map fun num => (st.1 - 1, start, num))
      ((g.edges.length : Int), List.replicate g.nodes.length (-1), List.replicate g.nodes.length 0)).map Prod.snd

/-- The `muslots` array of `node_slot_arrays` for a model, `larch/model/tree.py:877-884`: `slotX` is `model.get_slot_x` (see
`Verif.Model.Params`), with `none` for a negative slot. -/
def muSlots (g : G) (std : List Int) (slotX : Option String → Option Nat) : List (Option Nat) :=
  std.map fun c => slotX (g.nparam c)

/-- The arrays handed to the kernel, `larch/numba/model.py:1124-1145`: everything from `edge_slot_arrays` and, cut to the nests,
`node_slot_arrays`. -/
def toTree (g : G) (slotX : Option String → Option Nat) : Option Kernel.Tree :=
  (standardSort g).bind fun std => (elementals g).bind fun alts => (edgeSlotArrays g std).bind fun e =>
    (fillNodes g std).map fun n =>
      { nAlts := alts.length
        nNodes := g.nodes.length
        edges := e.1.zip e.2.1
        muSlot := fun k => ((muSlots g std slotX).drop alts.length).getD k none
        start := fun k => ((n.1.drop alts.length).getD k (-1)).toNat
        len := fun k => (n.2.drop alts.length).getD k 0 }

end Larch.Graph
