import Verif.Model.Graph
import Mathlib.Logic.Relation

/-!
# Words for nesting graphs
-/

namespace Larch.Graph

/-- `v` is a child of `u`. -/
def Child (g : G) (u v : Int) : Prop := ∃ e ∈ g.edges, e.u = u ∧ e.v = v

/-- `n` has a parent. -/
def HasParent (g : G) (n : Int) : Prop := ∃ p, Child g p n

/-- No node is its own descendant. -/
def Acyclic (g : G) : Prop := ∀ n, ¬ Relation.TransGen (Child g) n n

/-- The root is a node, and every other node has a parent. -/
def Rooted (g : G) : Prop := g.root ∈ g.nodes ∧ ∀ n ∈ g.nodes, n ≠ g.root → HasParent g n

/-- What the dictionaries of networkx guarantee: no node and no edge twice, edges between nodes. -/
structure Valid (g : G) : Prop where
  nodup : g.nodes.Nodup
  pairs : (g.edges.map (fun e => (e.u, e.v))).Nodup
  ends : ∀ e ∈ g.edges, e.u ∈ g.nodes ∧ e.v ∈ g.nodes

/-- A nesting *tree*: rooted, without cycles, nobody has two parents. -/
structure IsTree (g : G) : Prop where
  rooted : Rooted g
  acyclic : Acyclic g
  one : ∀ a b n, Child g a n → Child g b n → a = b
  top : ¬ HasParent g g.root
  nonempty : ∃ n, Child g g.root n

/-- `before l a b`: `a` is listed somewhere before `b`. -/
def Before (l : List Int) (a b : Int) : Prop := ∃ x y z, l = x ++ a :: y ++ b :: z

end Larch.Graph

namespace Larch.Graph

/-- Calls that keep to nodes already in the graph: an edge starts at an existing node, the given parents exist (and there is at
least one, unless the node exists), and the root is not removed. -/
def Polite (g : G) : Op → Prop
  | .addEdge u _ _ _ => u ∈ g.nodes
  | .removeEdge _ _ => True
  | .addNode c a =>
    (∀ p, a.parent = some p → p ∈ g.nodes) ∧ (∀ ps, a.parents = some ps → (∀ p ∈ ps, p ∈ g.nodes) ∧ (ps = [] → c ∈ g.nodes))
  | .newNode _ a =>
    (∀ p, a.parent = some p → p ∈ g.nodes) ∧ (∀ ps, a.parents = some ps → (∀ p ∈ ps, p ∈ g.nodes) ∧ ps ≠ [])
  | .removeNode n => n ≠ g.root
  | .setRoot _ => True
  | .suggest _ => True

/-- A history all of whose calls were polite when they were made. -/
def PoliteRun : G → List Op → Prop
  | _, [] => True
  | g, o :: os => Polite g o ∧ PoliteRun (step g o).1 os

end Larch.Graph
