import Verif.Model.Graph
import Mathlib.Data.List.Sort

/-!
# Parts of the nesting tree (`larch/model/tree.py`)

`subgraph_from` (851-861), `elemental_descendants` (424-434), `n_intermediate_nests` (421-422) and
`standard_competitive_edge_list` (475-491).
-/

namespace Larch.TreeParts

open Larch.Graph

/-- The search of `subgraph_from`, `larch/model/tree.py:854-860`: the queue and what was found so far; `none` when the
rounds run out (there are enough, see `tp_search`). -/
def search (g : G) : Nat → List Int → List Int → Option (List Int)
  | _, [], found => some found
  | 0, _ :: _, _ => none
  | rounds + 1, i :: queue, found =>
    if i ∈ found then search g rounds queue found
    else search g rounds (queue ++ (g.outEdges i).map Edge.v) (found ++ [i])

/-- What is found from `node`; every edge is followed at most once. -/
def found (g : G) (node : Int) : Option (List Int) := search g (g.edges.length + 1) [node] []

/-- `self.subgraph(found)`: networkx makes a frozen graph of the same class, that is a `NestingTree()` with root code 0 and no
suggested order, which shows the nodes and the edges between them.  (Nodes are listed in the order of the graph here; networkx
takes the order of the set when it is less than half as long.) -/
def shown (g : G) (ns : List Int) : G :=
  { nodes := g.nodes.filter (fun n => n ∈ ns)
    edges := (g.nodes.filter (fun n => n ∈ ns)).flatMap (fun n => (g.outEdges n).filter (fun e => e.v ∈ ns))
    nparam := fun n => if n ∈ ns then g.nparam n else none
    root := 0
    suggested := [] }

/-- `NestingTree(h, root_id=r)` for a `NestingTree` `h`, `larch/model/tree.py:71-85`: the root code is that of `h`, and
`add_node(r)` is called if `h` does not have that node. -/
def rebuild (h : G) (r : Int) : G := if h.root ∈ h.nodes then h else (addNode h r {}).1

/-- `subgraph_from(node)`, `larch/model/tree.py:851-861`; `none` when it raises (`node` is not in the graph). -/
def subgraphFrom (g : G) (node : Int) : Option G :=
  if node ∈ g.nodes then (found g node).map (fun ns => rebuild (shown g ns) node) else none

/-- `elemental_descendants(code)`, `larch/model/tree.py:424-434`; `nx.descendants` is the search above without the code
itself, in the order of a set. -/
def elementalDescendants (g : G) (code : Int) : Option (List Int) :=
  if code ∈ g.nodes then
    if g.outDeg code = 0 then some [code]
    else (found g code).map (fun ns => (ns.filter (fun n => n ≠ code)).filter (fun n => g.outDeg n = 0))
  else none

/-- `n_intermediate_nests()`, `larch/model/tree.py:418-422`. -/
def nIntermediate (g : G) : Option Int := (elementals g).map (fun a => (g.nodes.length : Int) - a.length - 1)

/-- `standard_competitive_edge_list`, `larch/model/tree.py:470-482`. -/
def competitive (g : G) : List (Int × Int) :=
  (g.nodes.filter (fun n => 1 < (g.inEdges n).length)).flatMap (fun n =>
    (((g.inEdges n).map Edge.u).insertionSort (· ≤ ·)).map (fun k => (k, n)))

end Larch.TreeParts
