import Verif.Model.MagicNest
import Verif.Spec.Graph

/-!
# What nests by categories mean

`rows` is the frame; row number `i` has the alternative code `alt i`.  In a nested (OGEV) structure over the columns `0 … G-1`
there is, for every row `r`, every column `l` and every shift `k ≤ t l`, a nest: the nest of the rows with the values of `r` in the
columns before `l` and the rank of `r` plus `k` in column `l`.
-/

namespace Larch.AltCodes

open Larch.Graph

/-- Rank of a value in column `l`: how many distinct values of the column are smaller. -/
def rank {β : Type} [LinearOrder β] (rows : List (Row β)) (l : Nat) (v : β) : Nat :=
  ((rows.map (fun r => r.vals l)).dedup.filter (fun w => decide (w < v))).length

/-- The graph `g` nests the alternatives by columns `0 … G-1`, with `t l` extra cross-nests at level `l`, and parameter `mu l` on
the nests of level `l`. -/
structure NestsBy {β : Type} [LinearOrder β] (rows : List (Row β)) (G : Nat) (alt : Nat → Int) (t : Nat → Nat)
    (mu : Nat → Option String) (g : Graph.G) (nest : Row β → Nat → Nat → Int) : Prop where
  /-- two nests are the same node exactly when they are described by the same values and the same shifted rank -/
  same : ∀ r ∈ rows, ∀ r' ∈ rows, ∀ l < G, ∀ l' < G, ∀ k ≤ t l, ∀ k' ≤ t l', (nest r l k = nest r' l' k' ↔
    l = l' ∧ (∀ m < l, r.vals m = r'.vals m) ∧ rank rows l (r.vals l) + k = rank rows l (r'.vals l) + k')
  notRoot : ∀ r ∈ rows, ∀ l < G, ∀ k ≤ t l, nest r l k ≠ g.root
  notAlt : ∀ r ∈ rows, ∀ l < G, ∀ k ≤ t l, ∀ i < rows.length, nest r l k ≠ alt i
  altNotRoot : ∀ i < rows.length, alt i ≠ g.root
  /-- the edges: root to first level, level to level, last level to alternatives, and nothing else -/
  edges : ∀ a b, Child g a b ↔
    (a = g.root ∧ ∃ r ∈ rows, ∃ k ≤ t 0, b = nest r 0 k) ∨
    (∃ r ∈ rows, ∃ l, l + 1 < G ∧ ∃ j ≤ t l, ∃ k ≤ t (l + 1), a = nest r l j ∧ b = nest r (l + 1) k) ∨
    (∃ i, ∃ hi : i < rows.length, ∃ k ≤ t (G - 1), a = nest rows[i] (G - 1) k ∧ b = alt i)
  /-- the nodes: the root, the nests, the alternatives -/
  nodes : ∀ n, n ∈ g.nodes ↔ n = g.root ∨ (∃ r ∈ rows, ∃ l < G, ∃ k ≤ t l, n = nest r l k) ∨ ∃ i < rows.length, n = alt i
  param : ∀ r ∈ rows, ∀ l < G, ∀ k ≤ t l, g.nparam (nest r l k) = mu l

/-- A model graph nobody has edited: root 0, every alternative (and nothing else) below it, by implied edges. -/
structure Untouched (g : Graph.G) (codes : List Int) : Prop where
  root : g.root = 0
  implied : ∀ e ∈ g.edges, e.implied = true
  edges : ∀ a b, Child g a b ↔ a = 0 ∧ b ∈ codes
  nodes : ∀ n, n ∈ g.nodes ↔ n = 0 ∨ n ∈ codes

end Larch.AltCodes
