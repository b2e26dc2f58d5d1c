import Verif.Model.MagicNest
import Verif.Lemmas.AltCodes
import Verif.Lemmas.Graph

namespace Larch.Graph

/-- There is an edge `a → b` with the given `implied` flag. -/
def Arc (g : G) (a b : Int) (i : Bool) : Prop := ∃ e ∈ g.edges, e.u = a ∧ e.v = b ∧ e.implied = i

theorem child_iff_arc (g : G) (a b : Int) : Child g a b ↔ ∃ i, Arc g a b i := by
  simp only [Child, Arc]
  constructor
  · rintro ⟨e, he, h1, h2⟩; exact ⟨e.implied, e, he, h1, h2, rfl⟩
  · rintro ⟨i, e, he, h1, h2, _⟩; exact ⟨e, he, h1, h2⟩

theorem arc_nxAddEdge (g : G) (e : Edge) (a b : Int) (i : Bool) :
    Arc (nxAddEdge g e) a b i ↔ (Arc g a b i ∧ ¬ (a = e.u ∧ b = e.v)) ∨ (a = e.u ∧ b = e.v ∧ i = e.implied) := by
  simp only [nxAddEdge, hasEdge_nxAddNode, edges_nxAddNode, Arc]
  by_cases h : g.hasEdge e.u e.v
  · rw [if_pos h]
    obtain ⟨w, hw, hwu, hwv⟩ := (hasEdge_iff g e.u e.v).1 h
    constructor
    · rintro ⟨d, hd, rfl, rfl, rfl⟩
      simp only [List.mem_map] at hd
      obtain ⟨c, hc, rfl⟩ := hd
      split
      · right; simp
      · rename_i hn; left; exact ⟨⟨c, hc, rfl, rfl, rfl⟩, hn⟩
    · rintro (⟨⟨d, hd, rfl, rfl, rfl⟩, hn⟩ | ⟨rfl, rfl, rfl⟩)
      · exact ⟨d, List.mem_map.2 ⟨d, hd, if_neg hn⟩, rfl, rfl, rfl⟩
      · exact ⟨_, List.mem_map.2 ⟨w, hw, if_pos ⟨hwu, hwv⟩⟩, rfl, rfl, rfl⟩
  · rw [if_neg h]
    have h' : ¬ Child g e.u e.v := fun hc => h ((hasEdge_iff g e.u e.v).2 hc)
    constructor
    · rintro ⟨d, hd, rfl, rfl, rfl⟩
      rcases List.mem_append.1 hd with hd | hd
      · left
        exact ⟨⟨d, hd, rfl, rfl, rfl⟩, fun hn => h' ⟨d, hd, hn⟩⟩
      · rw [List.mem_singleton.1 hd]; right; simp
    · rintro (⟨⟨d, hd, rfl, rfl, rfl⟩, _⟩ | ⟨rfl, rfl, rfl⟩)
      · exact ⟨d, List.mem_append_left _ hd, rfl, rfl, rfl⟩
      · exact ⟨e, by simp, rfl, rfl, rfl⟩

/-- An explicit `add_edge`: drops the implied arcs into `v`, adds the explicit arc. -/
theorem arc_addEdge_explicit (g : G) (u v : Int) (p : Option String) (a b : Int) (i : Bool) :
    Arc (addEdge g u v false p) a b i ↔
      (i = false ∧ (Arc g a b false ∨ (a = u ∧ b = v))) ∨ (i = true ∧ Arc g a b true ∧ b ≠ v) := by
  unfold addEdge
  simp only [Bool.false_eq_true, if_false]
  rw [arc_nxAddEdge]
  have hf : Arc { g with edges := g.edges.filter (fun e => ¬ (e.v = v ∧ e.implied = true)) } a b i ↔
      Arc g a b i ∧ ¬ (b = v ∧ i = true) := by
    constructor
    · rintro ⟨e, he, rfl, rfl, rfl⟩
      simp only [List.mem_filter, decide_eq_true_eq] at he
      exact ⟨⟨e, he.1, rfl, rfl, rfl⟩, he.2⟩
    · rintro ⟨⟨e, he, rfl, rfl, rfl⟩, hn⟩
      exact ⟨e, by simp only [List.mem_filter, decide_eq_true_eq]; exact ⟨he, hn⟩, rfl, rfl, rfl⟩
  rw [hf]
  cases i
  · simp only [Bool.false_eq_true, and_false, not_false_eq_true, and_true, true_and, false_and, or_false]
    constructor
    · rintro (⟨h, _⟩ | h)
      · exact Or.inl h
      · exact Or.inr h
    · rintro (h | h)
      · by_cases hh : a = u ∧ b = v
        · exact Or.inr hh
        · exact Or.inl ⟨h, hh⟩
      · exact Or.inr h
  · simp only [and_true, Bool.true_eq_false, and_false, or_false, true_and, false_and, false_or]
    constructor
    · rintro ⟨⟨h, hn⟩, _⟩; exact ⟨h, hn⟩
    · rintro ⟨h, hn⟩; exact ⟨⟨h, hn⟩, fun hh => hn hh.2⟩

theorem arc_addEdge_implied (g : G) (u v : Int) (a b : Int) (i : Bool) :
    Arc (addEdge g u v true none) a b i ↔ (Arc g a b i ∧ ¬ (a = u ∧ b = v)) ∨ (a = u ∧ b = v ∧ i = true) := by
  unfold addEdge
  simp only [if_true]
  exact arc_nxAddEdge g _ a b i

theorem addNode_plain (g : G) (c : Int) (p : Option String) :
    (addNode g c { param := p }).1 = addNodeCore g c { param := p } := by
  simp [addNode, setPhi]

/-- The graph with node `c` present and its parameter set. -/
def named (g : G) (c : Int) (s : String) : G :=
  { nxAddNode g c with nparam := Function.update (nxAddNode g c).nparam c (some s) }

theorem addNodeCore_plain (g : G) (c : Int) (s : String) :
    addNodeCore g c { param := some s } =
      if ((named g c s).inEdges c).isEmpty ∧ c ≠ (named g c s).root then
        addEdge (named g c s) (named g c s).root c true none
      else named g c s := rfl

/-- `add_node(c, parameter=p)` without children or parents: an implied arc from the root when `c` has no parent. -/
theorem arc_addNode_plain (g : G) (c : Int) (s : String) (a b : Int) (i : Bool) :
    Arc (addNode g c { param := some s }).1 a b i ↔
      Arc g a b i ∨ ((∀ x j, ¬ Arc g x c j) ∧ c ≠ g.root ∧ a = g.root ∧ b = c ∧ i = true) := by
  rw [addNode_plain, addNodeCore_plain]
  have hg1 : ∃ x : G, x = named g c s := ⟨_, rfl⟩
  obtain ⟨g1, hg1⟩ := hg1
  rw [← hg1]
  have hA : ∀ x y j, Arc g1 x y j ↔ Arc g x y j := by intro x y j; simp [Arc, hg1, named]
  have hr : g1.root = g.root := by simp [hg1, named]
  have hE : (g1.inEdges c).isEmpty = true ↔ ∀ x j, ¬ Arc g x c j := by
    rw [inEdges_isEmpty_iff]
    constructor
    · intro h x j hx
      obtain ⟨e, he, h1, h2, _⟩ := (hA x c j).2 hx
      exact h ⟨x, e, he, h1, h2⟩
    · rintro h ⟨x, hx⟩
      obtain ⟨j, hj⟩ := (child_iff_arc g1 x c).1 hx
      exact h x j ((hA x c j).1 hj)
  by_cases hc : (g1.inEdges c).isEmpty = true ∧ c ≠ g1.root
  · rw [if_pos hc, arc_addEdge_implied, hA, hr]
    have hno := hE.1 hc.1
    have hcr : c ≠ g.root := hr ▸ hc.2
    constructor
    · rintro (⟨h, _⟩ | ⟨h1, h2, h3⟩)
      · exact Or.inl h
      · exact Or.inr ⟨hno, hcr, h1, h2, h3⟩
    · rintro (h | ⟨_, _, h1, h2, h3⟩)
      · refine Or.inl ⟨h, ?_⟩
        rintro ⟨_, rfl⟩; exact hno _ _ h
      · exact Or.inr ⟨h1, h2, h3⟩
  · rw [if_neg hc, hA]
    constructor
    · exact Or.inl
    · rintro (h | ⟨h1, h2, _⟩)
      · exact h
      · exact absurd ⟨hE.2 h1, by rw [hr]; exact h2⟩ hc

theorem root_addEdge' (g : G) (u v : Int) (i : Bool) (p : Option String) : (addEdge g u v i p).root = g.root := by
  unfold addEdge; simp; split <;> rfl

theorem nparam_addNode_plain (g : G) (c : Int) (s : String) :
    (addNode g c { param := some s }).1.nparam = Function.update g.nparam c (some s) := by
  rw [addNode_plain, addNodeCore_plain]
  split
  · rw [nparam_addEdge]; simp [named]
  · simp [named]

theorem root_addNode_plain (g : G) (c : Int) (s : String) : (addNode g c { param := some s }).1.root = g.root := by
  rw [addNode_plain, addNodeCore_plain]
  split
  · rw [root_addEdge']; simp [named]
  · simp [named]

/-- The calls the nesting functions make. -/
def PlainOp (o : Op) : Prop := (∃ u v, o = .addEdge u v false none) ∨ ∃ c s, o = .addNode c { param := some s }

theorem run_append (g : G) (xs ys : List Op) : run g (xs ++ ys) = run (run g xs) ys := by simp [run]

/-- What a sequence of plain calls does to a graph all of whose edges are implied. -/
theorem run_plain (g0 : G) (h0 : ∀ e ∈ g0.edges, e.implied = true) (ops : List Op) (hops : ∀ o ∈ ops, PlainOp o) :
    (run g0 ops).root = g0.root ∧
    (∀ a b, Arc (run g0 ops) a b false ↔ Op.addEdge a b false none ∈ ops) ∧
    (∀ a b, Arc (run g0 ops) a b true → (∀ u, Op.addEdge u b false none ∉ ops) ∧
      ((∃ x, Child g0 x b) ∨ ∃ s, Op.addNode b { param := some s } ∈ ops)) := by
  induction ops using List.reverseRecOn with
  | nil =>
    refine ⟨rfl, ?_, ?_⟩
    · intro a b
      simp only [run, List.foldl_nil, List.not_mem_nil, iff_false]
      rintro ⟨e, he, _, _, hi⟩
      rw [h0 e he] at hi; cases hi
    · rintro a b ⟨e, he, h1, h2, _⟩
      exact ⟨by simp, Or.inl ⟨a, e, he, h1, h2⟩⟩
  | append_singleton ops o ih =>
    obtain ⟨hr, hx, hi⟩ := ih (fun o ho => hops o (by simp [ho]))
    rw [run_append]
    rcases hops o (by simp) with ⟨u, v, rfl⟩ | ⟨c, s, rfl⟩
    · have hs : run (run g0 ops) [Op.addEdge u v false none] = addEdge (run g0 ops) u v false none := rfl
      rw [hs]
      refine ⟨by rw [root_addEdge', hr], ?_, ?_⟩
      · intro a b
        rw [arc_addEdge_explicit, hx]
        simp
      · intro a b
        rw [arc_addEdge_explicit]
        simp only [Bool.true_eq_false, false_and, true_and, false_or]
        rintro ⟨h, hn⟩
        obtain ⟨h1, h2⟩ := hi a b h
        refine ⟨?_, ?_⟩
        · intro w hw
          rcases List.mem_append.1 hw with hw | hw
          · exact h1 w hw
          · simp at hw; exact hn hw.2
        · rcases h2 with h2 | ⟨s, h2⟩
          · exact Or.inl h2
          · exact Or.inr ⟨s, by simp [h2]⟩
    · have hs : run (run g0 ops) [Op.addNode c { param := some s }] = (addNode (run g0 ops) c { param := some s }).1 := rfl
      rw [hs]
      refine ⟨by rw [root_addNode_plain, hr], ?_, ?_⟩
      · intro a b
        rw [arc_addNode_plain, hx]
        simp
      · intro a b
        rw [arc_addNode_plain]
        rintro (h | ⟨hno, hcr, rfl, rfl, _⟩)
        · obtain ⟨h1, h2⟩ := hi a b h
          refine ⟨by simpa using h1, ?_⟩
          rcases h2 with h2 | ⟨s, h2⟩
          · exact Or.inl h2
          · exact Or.inr ⟨s, by simp [h2]⟩
        · refine ⟨?_, Or.inr ⟨s, by simp⟩⟩
          intro w hw
          simp only [List.mem_append, List.mem_singleton, reduceCtorEq, or_false] at hw
          exact hno w false ((hx w _).2 hw)

/-- If every node that could keep an implied edge gets an explicit parent, the edges are exactly the explicit ones. -/
theorem child_run_plain (g0 : G) (h0 : ∀ e ∈ g0.edges, e.implied = true) (ops : List Op) (hops : ∀ o ∈ ops, PlainOp o)
    (hcov0 : ∀ x b, Child g0 x b → ∃ u, Op.addEdge u b false none ∈ ops)
    (hcov1 : ∀ b s, Op.addNode b { param := some s } ∈ ops → ∃ u, Op.addEdge u b false none ∈ ops) (a b : Int) :
    Child (run g0 ops) a b ↔ Op.addEdge a b false none ∈ ops := by
  obtain ⟨_, hx, hi⟩ := run_plain g0 h0 ops hops
  rw [child_iff_arc]
  constructor
  · rintro ⟨i, h⟩
    cases i
    · exact (hx a b).1 h
    · obtain ⟨h1, h2⟩ := hi a b h
      exfalso
      rcases h2 with ⟨x, h2⟩ | ⟨s, h2⟩
      · obtain ⟨u, hu⟩ := hcov0 x b h2; exact h1 u hu
      · obtain ⟨u, hu⟩ := hcov1 b s h2; exact h1 u hu
  · intro h; exact ⟨false, (hx a b).2 h⟩

/-- The `parameter` of a node: the one given in the calls, if they agree; otherwise what it was. -/
theorem nparam_run_plain (g0 : G) (ops : List Op) (hops : ∀ o ∈ ops, PlainOp o) (c : Int) (s : String)
    (hall : ∀ s', Op.addNode c { param := some s' } ∈ ops → s' = s) :
    ((∃ s', Op.addNode c { param := some s' } ∈ ops) → (run g0 ops).nparam c = some s) ∧
    ((¬ ∃ s', Op.addNode c { param := some s' } ∈ ops) → (run g0 ops).nparam c = g0.nparam c) := by
  induction ops using List.reverseRecOn with
  | nil => simp [run]
  | append_singleton ops o ih =>
    have ih := ih (fun o ho => hops o (by simp [ho])) (fun s' hs' => hall s' (by simp [hs']))
    rw [run_append]
    rcases hops o (by simp) with ⟨u, v, rfl⟩ | ⟨d, s1, rfl⟩
    · have hs : run (run g0 ops) [Op.addEdge u v false none] = addEdge (run g0 ops) u v false none := rfl
      rw [hs, nparam_addEdge]
      simpa using ih
    · have hs : run (run g0 ops) [Op.addNode d { param := some s1 }] = (addNode (run g0 ops) d { param := some s1 }).1 := rfl
      rw [hs, nparam_addNode_plain]
      by_cases hdc : d = c
      · subst hdc
        have : s1 = s := hall s1 (by simp)
        subst this
        refine ⟨fun _ => by rw [Function.update_self], fun h => absurd ⟨s1, by simp⟩ h⟩
      · rw [Function.update_of_ne (fun h => hdc h.symm)]
        have : (∃ s', Op.addNode c { param := some s' } ∈ ops ++ [Op.addNode d { param := some s1 }]) ↔
            ∃ s', Op.addNode c { param := some s' } ∈ ops := by
          constructor
          · rintro ⟨s', h⟩
            rcases List.mem_append.1 h with h | h
            · exact ⟨s', h⟩
            · simp at h; exact absurd h.1.symm hdc
          · rintro ⟨s', h⟩; exact ⟨s', by simp [h]⟩
        rw [this]; exact ih

/-- The nodes after a sequence of plain calls. -/
theorem nodes_run_plain (g0 : G) (hr : g0.root ∈ g0.nodes) (ops : List Op) (hops : ∀ o ∈ ops, PlainOp o) (n : Int) :
    (run g0 ops).root = g0.root ∧
    (n ∈ (run g0 ops).nodes ↔ n ∈ g0.nodes ∨ (∃ s, Op.addNode n { param := some s } ∈ ops) ∨
      ∃ u v, Op.addEdge u v false none ∈ ops ∧ (n = u ∨ n = v)) := by
  induction ops using List.reverseRecOn generalizing n with
  | nil => simp [run]
  | append_singleton ops o ih =>
    have ih := ih (fun o ho => hops o (by simp [ho]))
    rw [run_append]
    rcases hops o (by simp) with ⟨u, v, rfl⟩ | ⟨c, s, rfl⟩
    · have hs : run (run g0 ops) [Op.addEdge u v false none] = addEdge (run g0 ops) u v false none := rfl
      rw [hs, root_addEdge']
      refine ⟨(ih n).1, ?_⟩
      rw [mem_nodes_addEdge, (ih n).2]
      constructor
      · rintro ((h | ⟨s, h⟩ | ⟨a, b, h, hn⟩) | h)
        · exact Or.inl h
        · exact Or.inr (Or.inl ⟨s, by simp [h]⟩)
        · exact Or.inr (Or.inr ⟨a, b, by simp [h], hn⟩)
        · exact Or.inr (Or.inr ⟨u, v, by simp, h⟩)
      · rintro (h | ⟨s, h⟩ | ⟨a, b, h, hn⟩)
        · exact Or.inl (Or.inl h)
        · simp at h; exact Or.inl (Or.inr (Or.inl ⟨s, h⟩))
        · rcases List.mem_append.1 h with h | h
          · exact Or.inl (Or.inr (Or.inr ⟨a, b, h, hn⟩))
          · simp at h; obtain ⟨rfl, rfl⟩ := h; exact Or.inr hn
    · have hs : run (run g0 ops) [Op.addNode c { param := some s }] = (addNode (run g0 ops) c { param := some s }).1 := rfl
      rw [hs, root_addNode_plain]
      refine ⟨(ih n).1, ?_⟩
      have hroot : (run g0 ops).root ∈ (run g0 ops).nodes := by
        rw [(ih n).1]; exact ((ih g0.root).2).2 (Or.inl hr)
      have hn : n ∈ (addNode (run g0 ops) c { param := some s }).1.nodes ↔ n ∈ (run g0 ops).nodes ∨ n = c := by
        rw [addNode_plain, addNodeCore_plain]
        split
        · rw [mem_nodes_addEdge]
          simp only [named, mem_nodes_nxAddNode, root_nxAddNode]
          constructor
          · rintro ((h | h) | h | h)
            · exact Or.inl h
            · exact Or.inr h
            · rw [h]; exact Or.inl hroot
            · exact Or.inr h
          · rintro (h | h)
            · exact Or.inl (Or.inl h)
            · exact Or.inl (Or.inr h)
        · simp [named]
      rw [hn, (ih n).2]
      constructor
      · rintro ((h | ⟨s', h⟩ | ⟨a, b, h, hn⟩) | rfl)
        · exact Or.inl h
        · exact Or.inr (Or.inl ⟨s', by simp [h]⟩)
        · exact Or.inr (Or.inr ⟨a, b, by simp [h], hn⟩)
        · exact Or.inr (Or.inl ⟨s, by simp⟩)
      · rintro (h | ⟨s', h⟩ | ⟨a, b, h, hn⟩)
        · exact Or.inl (Or.inl h)
        · rcases List.mem_append.1 h with h | h
          · exact Or.inl (Or.inr (Or.inl ⟨s', h⟩))
          · simp at h; exact Or.inr h.1
        · simp at h; exact Or.inl (Or.inr (Or.inr ⟨a, b, h, hn⟩))

end Larch.Graph

namespace Larch.AltCodes

open Larch.Graph

variable {β : Type} [LinearOrder β]

/-- Bits below the fields of levels `0..l`. -/
def low (G padding : Nat) (rows : List (Row β)) (l : Nat) : Nat :=
  ((sizes G padding rows).drop (l + 1)).sum + labelOffset G rows

/-- Width of the field of column `l`. -/
def fieldSize (padding : Nat) (rows : List (Row β)) (l : Nat) : Nat :=
  ceilLog2 ((groupUniq rows l).length + 1 + padding)

/-- Position of row `r` in column `l`. -/
def posOf (rows : List (Row β)) (r : Row β) (l : Nat) : Nat := (groupUniq rows l).idxOf (r.vals l)

/-- The digits of the nest of row `r` at level `l`, shifted by `k`. -/
def digits (G padding : Nat) (rows : List (Row β)) (r : Row β) (l k : Nat) : List (Nat × Nat) :=
  (rowGroups G padding rows r).take l ++ [(fieldSize padding rows l, posOf rows r l + k)]

/-- The code of that nest. -/
def nestN (G padding : Nat) (rows : List (Row β)) (r : Row β) (l k : Nat) : Nat :=
  packR (digits G padding rows r l k) * 2 ^ low G padding rows l

theorem take_succ_rowGroups (G padding : Nat) (rows : List (Row β)) (r : Row β) {l : Nat} (hl : l < G) :
    (rowGroups G padding rows r).take (l + 1) = digits G padding rows r l 0 := by
  rw [List.take_add_one]
  unfold digits
  congr 1
  simp [rowGroups, hl, fieldSize, posOf]

theorem packR_digits_add (G padding : Nat) (rows : List (Row β)) (r : Row β) (l k : Nat) :
    packR (digits G padding rows r l k) = packR (digits G padding rows r l 0) + k := by
  unfold digits
  rw [packR_append, packR_append]
  simp [packR, width]
  omega

theorem posOf_lt (rows : List (Row β)) (r : Row β) (hr : r ∈ rows) (l : Nat) : posOf rows r l < (groupUniq rows l).length := by
  apply List.idxOf_lt_length_iff.mpr
  unfold groupUniq; rw [mem_uniq]; exact List.mem_map.mpr ⟨r, hr, rfl⟩

theorem digit_lt (padding : Nat) (rows : List (Row β)) (r : Row β) (hr : r ∈ rows) (l k : Nat) (hk : k ≤ padding) :
    posOf rows r l + k + 1 < 2 ^ fieldSize padding rows l := by
  have h1 := posOf_lt rows r hr l
  have h2 : (groupUniq rows l).length + 1 + padding ≤ 2 ^ fieldSize padding rows l := Nat.le_pow_clog (by norm_num) _
  omega

theorem digits_valid (G padding : Nat) (rows : List (Row β)) (r : Row β) (hr : r ∈ rows) (l k : Nat) (hk : k ≤ padding) :
    Valid (digits G padding rows r l k) := by
  intro x hx
  rcases List.mem_append.1 hx with hx | hx
  · exact rowGroups_valid G padding rows r hr x (List.mem_of_mem_take hx)
  · rw [List.mem_singleton.1 hx]
    exact digit_lt padding rows r hr l k hk

theorem digits_fst (G padding : Nat) (rows : List (Row β)) (r : Row β) {l : Nat} (hl : l < G) (k : Nat) :
    (digits G padding rows r l k).map Prod.fst = (sizes G padding rows).take (l + 1) := by
  have h0 : (digits G padding rows r l k).map Prod.fst = (digits G padding rows r l 0).map Prod.fst := by simp [digits]
  rw [h0, ← take_succ_rowGroups G padding rows r hl, List.map_take, rowGroups_fst]

theorem width_digits (G padding : Nat) (rows : List (Row β)) (r : Row β) {l : Nat} (hl : l < G) (k : Nat) :
    width (digits G padding rows r l k) = ((sizes G padding rows).take (l + 1)).sum := by
  unfold width; rw [digits_fst G padding rows r hl]

theorem nestN_lt (G padding : Nat) (rows : List (Row β)) (r : Row β) (hr : r ∈ rows) {l : Nat} (hl : l < G) {k : Nat}
    (hk : k ≤ padding) : packR (digits G padding rows r l k) < 2 ^ ((sizes G padding rows).take (l + 1)).sum := by
  have := packR_lt (digits_valid G padding rows r hr l k hk)
  rwa [width_digits G padding rows r hl] at this

theorem low_succ (G padding : Nat) (rows : List (Row β)) {l : Nat} (hl : l + 1 < G) :
    low G padding rows l = fieldSize padding rows (l + 1) + low G padding rows (l + 1) := by
  unfold low
  have hlen : l + 1 < (sizes G padding rows).length := by rw [sizes_length]; exact hl
  rw [List.drop_eq_getElem_cons hlen, List.sum_cons]
  have := sizes_get G padding rows hl
  simp only [List.getD_eq_getElem?_getD, List.getElem?_eq_getElem hlen, Option.getD_some] at this
  rw [this]; unfold fieldSize; omega

theorem levelMask_eq (G padding : Nat) (rows : List (Row β)) {l : Nat} (hl : l < G) :
    (sysAlts G padding rows).levelMask l =
      (2 ^ ((sizes G padding rows).take (l + 1)).sum - 1) * 2 ^ low G padding rows l := by
  unfold SysAlts.levelMask sysAlts altMasks
  exact masks_take_sum _ _ _ (by rw [sizes_length]; omega)

theorem take_sum_pos (G padding : Nat) (rows : List (Row β)) (hne : rows ≠ []) {l : Nat} (hl : l < G) :
    1 ≤ ((sizes G padding rows).take (l + 1)).sum := by
  have hlen : l < (sizes G padding rows).length := by rw [sizes_length]; exact hl
  rw [List.take_add_one, List.sum_append]
  have := sizes_get G padding rows hl
  simp only [List.getD_eq_getElem?_getD, List.getElem?_eq_getElem hlen, Option.getD_some] at this
  have h1 := one_le_size padding rows hne l
  simp only [List.getElem?_eq_getElem hlen, Option.toList_some, List.sum_singleton, this]
  omega

theorem levelOne_eq (G padding : Nat) (rows : List (Row β)) (hne : rows ≠ []) {l : Nat} (hl : l < G) :
    (sysAlts G padding rows).levelOne l = 2 ^ low G padding rows l := by
  unfold SysAlts.levelOne
  rw [levelMask_eq G padding rows hl, bitmaskShiftValue_mask (take_sum_pos G padding rows hne hl), Nat.shiftLeft_eq, Nat.one_mul]

/-- Masking a code whose high part is known. -/
theorem masked_eq {W t x q : Nat} (hq : x / 2 ^ t = q) (hlt : q < 2 ^ W) : x &&& ((2 ^ W - 1) * 2 ^ t) = q * 2 ^ t := by
  rw [and_mask_high, hq]
  rw [pow_add, ← Nat.div_lt_iff_lt_mul (Nat.two_pow_pos t), hq]
  exact hlt

theorem altCode_div (G padding : Nat) (rows : List (Row β)) {i : Nat} (hi : i < rows.length)
    (hs : counter G rows i < 2 ^ labelOffset G rows) {l : Nat} (hl : l < G) :
    altCode G padding rows i / 2 ^ low G padding rows l = packR (digits G padding rows rows[i] l 0) := by
  have hval := rowGroups_valid G padding rows _ (List.getElem_mem hi)
  have hcode : altCode G padding rows i =
      pack (rowGroups G padding rows rows[i]) (labelOffset G rows) (counter G rows i) := by
    unfold altCode; simp [hi]
  have := packR_prefix (pre := (rowGroups G padding rows rows[i]).take (l + 1))
    (post := (rowGroups G padding rows rows[i]).drop (l + 1)) (fun x hx => hval x (List.mem_of_mem_drop hx))
  rw [List.take_append_drop, rowGroups_drop, take_succ_rowGroups G padding rows _ hl] at this
  unfold low
  rw [hcode, code_div hs, this]

/-- The shifted nest codes of an alternative. -/
theorem alt_shift (G padding : Nat) (rows : List (Row β)) {i : Nat} (hi : i < rows.length)
    (hs : counter G rows i < 2 ^ labelOffset G rows) {l : Nat} (hl : l < G) {k : Nat} (hk : k ≤ padding) :
    (altCode G padding rows i + (sysAlts G padding rows).levelOne l * k) &&& (sysAlts G padding rows).levelMask l =
      nestN G padding rows rows[i] l k := by
  have hne : rows ≠ [] := by rintro rfl; simp at hi
  rw [levelOne_eq G padding rows hne hl, levelMask_eq G padding rows hl]
  apply masked_eq
  · rw [Nat.add_mul_div_left _ _ (Nat.two_pow_pos _), altCode_div G padding rows hi hs hl, packR_digits_add G padding rows _ l k]
  · exact nestN_lt G padding rows _ (List.getElem_mem hi) hl hk

/-- The shifted parent codes of a nest. -/
theorem nest_shift (G padding : Nat) (rows : List (Row β)) (r : Row β) (hr : r ∈ rows) {l : Nat} (hl : l + 1 < G) {j k : Nat}
    (hj : j ≤ padding) (hk : k ≤ padding) :
    (nestN G padding rows r (l + 1) k + (sysAlts G padding rows).levelOne l * j) &&& (sysAlts G padding rows).levelMask l =
      nestN G padding rows r l j := by
  have hne : rows ≠ [] := by rintro rfl; simp at hr
  rw [levelOne_eq G padding rows hne (by omega), levelMask_eq G padding rows (by omega)]
  apply masked_eq
  · rw [Nat.add_mul_div_left _ _ (Nat.two_pow_pos _), packR_digits_add G padding rows _ l j]
    congr 1
    rw [low_succ G padding rows hl, Nat.add_comm (fieldSize _ _ _), pow_add, ← Nat.div_div_eq_div_mul]
    unfold nestN
    rw [Nat.mul_div_cancel _ (Nat.two_pow_pos _)]
    have hd : digits G padding rows r (l + 1) k =
        digits G padding rows r l 0 ++ [(fieldSize padding rows (l + 1), posOf rows r (l + 1) + k)] := by
      rw [← take_succ_rowGroups G padding rows r (by omega : l < G)]; rfl
    have hp := packR_prefix (pre := digits G padding rows r l 0) (post := [(fieldSize padding rows (l + 1), posOf rows r (l + 1) + k)])
      (by intro x hx; rw [List.mem_singleton.1 hx]; exact digit_lt padding rows r hr (l + 1) k hk)
    rw [hd]
    simpa [width] using hp
  · exact nestN_lt G padding rows _ hr (by omega) hj

/-- The lowest field of a nest code. -/
theorem nestN_digit (G padding : Nat) (rows : List (Row β)) (r : Row β) (hr : r ∈ rows) (l k : Nat) (hk : k ≤ padding) :
    nestN G padding rows r l k / 2 ^ low G padding rows l % 2 ^ fieldSize padding rows l = posOf rows r l + k + 1 := by
  unfold nestN
  rw [Nat.mul_div_cancel _ (Nat.two_pow_pos _)]
  have h := packR_digit (pre := (rowGroups G padding rows r).take l)
    (g := (fieldSize padding rows l, posOf rows r l + k)) (post := []) (digits_valid G padding rows r hr l k hk)
  simpa [width, digits] using h

theorem low_anti (G padding : Nat) (rows : List (Row β)) {l l' : Nat} (h : l < l') (hl' : l' < G) :
    fieldSize padding rows l' + low G padding rows l' ≤ low G padding rows l := by
  induction l' with
  | zero => omega
  | succ m ih =>
    rw [← low_succ G padding rows hl']
    rcases Nat.lt_or_ge l m with hlm | hlm
    · have := ih hlm (by omega); omega
    · have : l = m := by omega
      rw [this]

/-- Codes of different levels differ. -/
theorem nestN_level (G padding : Nat) (rows : List (Row β)) (r r' : Row β) (hr' : r' ∈ rows) {l l' : Nat}
    (h : l < l') (hl' : l' < G) (k : Nat) {k' : Nat} (hk' : k' ≤ padding) :
    nestN G padding rows r l k ≠ nestN G padding rows r' l' k' := by
  intro he
  have h1 := nestN_digit G padding rows r' hr' l' k' hk'
  rw [← he] at h1
  obtain ⟨c, hc⟩ := Nat.exists_eq_add_of_le (low_anti G padding rows h hl')
  unfold nestN at h1
  rw [hc, pow_add, pow_add] at h1
  have e : packR (digits G padding rows r l k) * (2 ^ fieldSize padding rows l' * 2 ^ low G padding rows l' * 2 ^ c) =
      (packR (digits G padding rows r l k) * 2 ^ c * 2 ^ fieldSize padding rows l') * 2 ^ low G padding rows l' := by ring
  rw [e, Nat.mul_div_cancel _ (Nat.two_pow_pos _), Nat.mul_mod_left] at h1
  omega

theorem nestN_inj (G padding : Nat) (rows : List (Row β)) (r r' : Row β) (hr : r ∈ rows) (hr' : r' ∈ rows) {l l' : Nat}
    (hl : l < G) (hl' : l' < G) {k k' : Nat} (hk : k ≤ padding) (hk' : k' ≤ padding) :
    nestN G padding rows r l k = nestN G padding rows r' l' k' ↔
      l = l' ∧ (∀ m < l, r.vals m = r'.vals m) ∧ posOf rows r l + k = posOf rows r' l + k' := by
  constructor
  · intro h
    rcases Nat.lt_trichotomy l l' with hlt | rfl | hgt
    · exact absurd h (nestN_level G padding rows r r' hr' hlt hl' k hk')
    · refine ⟨rfl, ?_⟩
      have h' := Nat.eq_of_mul_eq_mul_right (Nat.two_pow_pos _) h
      have hinj := packR_inj (digits_valid G padding rows r hr l k hk) (digits_valid G padding rows r' hr' l k' hk')
        (by rw [digits_fst G padding rows r hl, digits_fst G padding rows r' hl]) h'
      simp only [digits, List.map_append, List.map_cons, List.map_nil] at hinj
      have hlen : (((rowGroups G padding rows r).take l).map Prod.snd).length =
          (((rowGroups G padding rows r').take l).map Prod.snd).length := by simp [rowGroups]
      obtain ⟨h1, h2⟩ := List.append_inj hinj hlen
      refine ⟨?_, by simpa using h2⟩
      intro m hm
      have e1 : ∀ q : Row β, (((rowGroups G padding rows q).take l).map Prod.snd)[m]? =
          some ((groupUniq rows m).idxOf (q.vals m)) := by
        intro q
        rw [List.map_take, List.getElem?_take]
        simp [rowGroups, show m < G by omega, hm]
      have e2 := e1 r
      rw [h1, e1 r'] at e2
      simp only [Option.some.injEq] at e2
      have hmem : r'.vals m ∈ groupUniq rows m := by
        unfold groupUniq; rw [mem_uniq]; exact List.mem_map.mpr ⟨_, hr', rfl⟩
      exact ((List.idxOf_inj hmem).mp e2).symm
    · exact absurd h.symm (nestN_level G padding rows r' r hr hgt hl k' hk)
  · rintro ⟨rfl, h1, h2⟩
    unfold nestN digits
    rw [h2]
    congr 3
    unfold rowGroups
    rw [← List.map_take, ← List.map_take]
    apply List.map_congr_left
    intro m hm
    rw [List.take_range, List.mem_range] at hm
    rw [h1 m (by omega)]

theorem nestN_pos (G padding : Nat) (rows : List (Row β)) (r : Row β) (hr : r ∈ rows) (l k : Nat) (hk : k ≤ padding) :
    nestN G padding rows r l k ≠ 0 := by
  intro h
  have := nestN_digit G padding rows r hr l k hk
  rw [h] at this
  simp at this

theorem nestN_ne_alt (G padding : Nat) (rows : List (Row β)) (r : Row β) (l k : Nat) {i : Nat} (hi : i < rows.length)
    (hs : counter G rows i < 2 ^ labelOffset G rows) : nestN G padding rows r l k ≠ altCode G padding rows i := by
  intro h
  have h1 := congrArg (· % 2 ^ labelOffset G rows) h
  have hcode : altCode G padding rows i =
      pack (rowGroups G padding rows rows[i]) (labelOffset G rows) (counter G rows i) := by
    unfold altCode; simp [hi]
  have hp := counter_pos G rows hi
  simp only [nestN, low, hcode, pack, Nat.shiftLeft_eq, pow_add, ← Nat.mul_assoc, Nat.mul_mod_left] at h1
  rw [Nat.add_comm, Nat.add_mul_mod_self_right, Nat.mod_eq_of_lt hs] at h1
  omega

end Larch.AltCodes
