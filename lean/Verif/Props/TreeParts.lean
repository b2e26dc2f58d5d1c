import Verif.Model.TreeParts
import Verif.Props.Graph
import Verif.Spec.Graph
import Verif.Lemmas.Graph
import Verif.Lemmas.GraphOrder
import Mathlib.Data.List.Perm.Basic
/-!
# C159: parts of the nesting tree
-/

namespace Larch.Props

open Larch.Graph Larch.TreeParts

/-! ## Specification -/

/-- `n` is `a` or below it. -/
def Below (g : G) (a n : Int) : Prop := Relation.ReflTransGen (Child g) a n

/-! ## Lemmas -/

theorem tp_rem (g : G) (fd : List Int) (i : Int) (hi : i ∉ fd) :
    (g.edges.filter (fun e => decide (e.u ∉ fd ++ [i]))).length + (g.outEdges i).length =
      (g.edges.filter (fun e => decide (e.u ∉ fd))).length := by
  unfold G.outEdges
  induction g.edges with
  | nil => rfl
  | cons e es ih =>
    by_cases h1 : e.u = i
    · have h2 : e.u ∉ fd := h1 ▸ hi
      rw [List.filter_cons_of_neg (by simp [h1]), List.filter_cons_of_pos (by simp [h1]), List.filter_cons_of_pos (by simpa using h2)]
      simp only [List.length_cons]; omega
    · by_cases h2 : e.u ∈ fd
      · rw [List.filter_cons_of_neg (by simp [h2]), List.filter_cons_of_neg (by simpa using h1), List.filter_cons_of_neg (by simpa using h2)]
        exact ih
      · rw [List.filter_cons_of_pos (by simp [h1, h2]), List.filter_cons_of_neg (by simpa using h1), List.filter_cons_of_pos (by simpa using h2)]
        simp only [List.length_cons]; omega

theorem tp_search (g : G) (a : Int) (rounds : Nat) : ∀ (queue fd : List Int),
    queue.length + (g.edges.filter (fun e => decide (e.u ∉ fd))).length ≤ rounds → fd.Nodup →
    (∀ n ∈ queue, Below g a n) → (∀ n ∈ fd, Below g a n) → (a ∈ fd ∨ a ∈ queue) →
    (∀ n ∈ fd, ∀ c, Child g n c → c ∈ fd ∨ c ∈ queue) →
    ∃ r, search g rounds queue fd = some r ∧ r.Nodup ∧ ∀ n, n ∈ r ↔ Below g a n := by
  induction rounds with
  | zero =>
    intro queue fd hl hnd hq hf ha hc
    have : queue = [] := List.length_eq_zero_iff.1 (by omega)
    subst this
    refine ⟨fd, rfl, hnd, fun n => ⟨hf n, fun h => ?_⟩⟩
    induction h with
    | refl => simpa using ha
    | tail _ h2 ih => simpa using hc _ ih _ h2
  | succ k ih =>
    intro queue fd hl hnd hq hf ha hc
    cases queue with
    | nil =>
      refine ⟨fd, rfl, hnd, fun n => ⟨hf n, fun h => ?_⟩⟩
      clear hl
      induction h with
      | refl => simpa using ha
      | tail _ h2 ih => simpa using hc _ ih _ h2
    | cons i queue =>
      simp only [search]
      by_cases hi : i ∈ fd
      · rw [if_pos hi]
        refine ih queue fd (by simp only [List.length_cons] at hl; omega) hnd (fun n hn => hq n (by simp [hn])) hf ?_ ?_
        · rcases ha with h | h
          · exact Or.inl h
          · rcases List.mem_cons.1 h with rfl | h
            · exact Or.inl hi
            · exact Or.inr h
        · intro n hn c hcc
          rcases hc n hn c hcc with h | h
          · exact Or.inl h
          · rcases List.mem_cons.1 h with rfl | h
            · exact Or.inl hi
            · exact Or.inr h
      · rw [if_neg hi]
        have hbi := hq i (by simp)
        refine ih _ _ ?_ ?_ ?_ ?_ ?_ ?_
        · have := tp_rem g fd i hi
          simp only [List.length_cons] at hl
          rw [List.length_append, List.length_map]
          omega
        · rw [List.nodup_append]
          exact ⟨hnd, by simp, by intro x hx y hy; simp at hy; rintro rfl; exact hi (hy ▸ hx)⟩
        · intro n hn
          rcases List.mem_append.1 hn with h | h
          · exact hq n (by simp [h])
          · exact hbi.tail (mem_children.1 h)
        · intro n hn
          rcases List.mem_append.1 hn with h | h
          · exact hf n h
          · simp at h; exact h ▸ hbi
        · rcases ha with h | h
          · exact Or.inl (by simp [h])
          · rcases List.mem_cons.1 h with rfl | h
            · exact Or.inl (by simp)
            · exact Or.inr (by simp [h])
        · intro n hn c hcc
          rcases List.mem_append.1 hn with h | h
          · rcases hc n h c hcc with h | h
            · exact Or.inl (by simp [h])
            · rcases List.mem_cons.1 h with rfl | h
              · exact Or.inl (by simp)
              · exact Or.inr (by simp [h])
          · simp at h
            subst h
            exact Or.inr (List.mem_append.2 (Or.inr (mem_children.2 hcc)))

theorem tp_found (g : G) (a : Int) : ∃ r, found g a = some r ∧ r.Nodup ∧ ∀ n, n ∈ r ↔ Below g a n := by
  unfold found
  refine tp_search g a _ [a] [] ?_ List.nodup_nil ?_ ?_ ?_ ?_
  · have : (g.edges.filter (fun e => decide (e.u ∉ ([] : List Int)))).length ≤ g.edges.length := List.length_filter_le _ _
    simp only [List.length_cons, List.length_nil]
    omega
  · intro n hn; simp at hn; subst hn; exact .refl
  · intro n hn; cases hn
  · right; simp
  · intro n hn; cases hn

theorem tp_below_mem {g : G} (hg : Valid g) {a n : Int} (ha : a ∈ g.nodes) (h : Below g a n) : n ∈ g.nodes := by
  induction h with
  | refl => exact ha
  | tail _ h2 _ =>
    obtain ⟨e, he, _, rfl⟩ := h2
    exact (hg.ends e he).2

theorem tp_shown_edges (g : G) (hg : Valid g) (a : Int) (r : List Int) (hr : ∀ n, n ∈ r ↔ Below g a n) (e : Edge) :
    e ∈ (shown g r).edges ↔ e ∈ g.edges ∧ Below g a e.u := by
  simp only [shown, List.mem_flatMap, List.mem_filter, G.outEdges, decide_eq_true_eq]
  constructor
  · rintro ⟨n, ⟨_, hn⟩, ⟨⟨he, rfl⟩, _⟩⟩
    exact ⟨he, (hr _).1 hn⟩
  · rintro ⟨he, hb⟩
    exact ⟨e.u, ⟨(hg.ends e he).1, (hr _).2 hb⟩, ⟨⟨he, rfl⟩, (hr _).2 (hb.tail ⟨e, he, rfl, rfl⟩)⟩⟩

theorem tp_add_edges (h : G) (c : Int) (hc : ¬ HasParent h c) (hroot : c ≠ h.root) (e : Edge) :
    e ∈ (addNode h c {}).1.edges ↔ e ∈ h.edges ∨ e = ⟨h.root, c, true, none⟩ := by
  have he : (h.inEdges c).isEmpty = true := (inEdges_isEmpty_iff h c).2 hc
  have he' : ((nxAddNode h c).inEdges c).isEmpty = true := by
    simpa [G.inEdges] using he
  have hno : ¬ h.hasEdge h.root c = true := by
    rw [hasEdge_iff]; exact fun hh => hc ⟨_, hh⟩
  have hno' : ∀ x y, (nxAddNode (nxAddNode (nxAddNode h c) x) y).hasEdge h.root c = false := by
    intro x y
    rw [hasEdge_nxAddNode, hasEdge_nxAddNode, hasEdge_nxAddNode]
    simpa using hno
  simp [addNode, addNodeCore, setPhi, he', hroot, addEdge, nxAddEdge, hno']

/-- C159: `subgraph_from(a)` has every node at or below `a` and, starting from these, exactly the edges of
the graph, with their attributes, and it keeps the parameters of the nodes; apart from these there is at most the node 0. -/
theorem C159_subgraph (g : G) (hg : Valid g) (a : Int) (ha : a ∈ g.nodes) :
    ∃ h, subgraphFrom g a = some h ∧ (∀ n, Below g a n → n ∈ h.nodes) ∧ (∀ n ∈ h.nodes, n ≠ 0 → Below g a n) ∧
      (∀ e : Edge, Below g a e.u → (e ∈ h.edges ↔ e ∈ g.edges)) ∧ (∀ n, Below g a n → h.nparam n = g.nparam n) := by
  obtain ⟨r, hr, _, hmem⟩ := tp_found g a
  have hnodes : ∀ n, n ∈ (shown g r).nodes ↔ Below g a n := by
    intro n
    simp only [shown, List.mem_filter, decide_eq_true_eq, hmem]
    exact ⟨fun h => h.2, fun h => ⟨tp_below_mem hg ha h, h⟩⟩
  have hpar : ∀ n, Below g a n → (shown g r).nparam n = g.nparam n := by
    intro n hn
    simp only [shown]
    rw [if_pos ((hmem n).2 hn)]
  have hedges := tp_shown_edges g hg a r hmem
  refine ⟨rebuild (shown g r) a, by unfold subgraphFrom; rw [if_pos ha, hr]; rfl, ?_⟩
  unfold rebuild
  by_cases h0 : (shown g r).root ∈ (shown g r).nodes
  · rw [if_pos h0]
    exact ⟨fun n hn => (hnodes n).2 hn, fun n hn _ => (hnodes n).1 hn, fun e he => by rw [hedges]; simp [he], hpar⟩
  · rw [if_neg h0]
    have h0' : ¬ Below g a 0 := fun hb => h0 ((hnodes 0).2 hb)
    have hadd : (addNode (shown g r) a {}).1 = addNodeCore (shown g r) a {} := by simp [addNode, setPhi]
    obtain ⟨_, _, _, hn, _⟩ := addNodeCore_spec (shown g r) a {}
    have hpar' : (addNode (shown g r) a {}).1.nparam = (shown g r).nparam := by
      rw [hadd]
      simp only [addNodeCore]
      split_ifs <;> simp
    refine ⟨?_, ?_, ?_, ?_⟩
    · intro n hb
      rw [hadd]
      exact (hn n).2 (Or.inl ((hnodes n).2 hb))
    · intro n hm hn0
      rw [hadd] at hm
      rcases (hn n).1 hm with h | h | h | h
      · exact (hnodes n).1 h
      · subst h; exact .refl
      · cases h
      · exact absurd h.1 hn0
    · intro e he
      by_cases hc : HasParent (shown g r) a
      · have : (addNode (shown g r) a {}).1.edges = (shown g r).edges := by
          have hne : ¬ ((nxAddNode (shown g r) a).inEdges a).isEmpty = true := by
            have := (inEdges_isEmpty_iff (shown g r) a)
            have h2 : (nxAddNode (shown g r) a).inEdges a = (shown g r).inEdges a := by simp [G.inEdges]
            rw [h2, this]
            exact fun h => h hc
          simp [addNode, addNodeCore, setPhi, hne]
        rw [this, hedges]
        simp [he]
      · have hra : a ≠ (shown g r).root := by
          intro h
          exact h0' (h ▸ (.refl : Below g a a))
        rw [tp_add_edges _ _ hc hra, hedges]
        constructor
        · rintro (h | h)
          · exact h.1
          · subst h; exact absurd he h0'
        · intro h; exact Or.inl ⟨h, he⟩
    · intro n hb
      rw [hpar']
      exact hpar n hb

/-- C159: taken from the node 0, the part is rooted there and has no other nodes than those at or
below it. -/
theorem C159_root_zero (g : G) (hg : Valid g) (h0 : 0 ∈ g.nodes) :
    ∃ h, subgraphFrom g 0 = some h ∧ h.root = 0 ∧ ∀ n, n ∈ h.nodes ↔ Below g 0 n := by
  obtain ⟨r, hr, _, hmem⟩ := tp_found g 0
  have hnodes : ∀ n, n ∈ (shown g r).nodes ↔ Below g 0 n := by
    intro n
    simp only [shown, List.mem_filter, decide_eq_true_eq, hmem]
    exact ⟨fun h => h.2, fun h => ⟨tp_below_mem hg h0 h, h⟩⟩
  refine ⟨shown g r, ?_, rfl, hnodes⟩
  unfold subgraphFrom rebuild
  rw [if_pos h0, hr]
  simp only [Option.map_some]
  rw [if_pos (show (shown g r).root ∈ (shown g r).nodes from (hnodes 0).2 .refl)]

/-- C159 fails: taken from any other node which is not above node 0, the part is not rooted at that node: its root
code is 0, and there is an edge from a node 0, which is not at or below the node. -/
theorem C159_fails_root (g : G) (hg : Valid g) (hac : Acyclic g) (a : Int) (ha : a ∈ g.nodes) (h0 : ¬ Below g a 0) :
    ∃ h, subgraphFrom g a = some h ∧ h.root = 0 ∧ a ≠ 0 ∧ 0 ∈ h.nodes ∧ Child h 0 a := by
  obtain ⟨r, hr, _, hmem⟩ := tp_found g a
  have hnodes : ∀ n, n ∈ (shown g r).nodes ↔ Below g a n := by
    intro n
    simp only [shown, List.mem_filter, decide_eq_true_eq, hmem]
    exact ⟨fun h => h.2, fun h => ⟨tp_below_mem hg ha h, h⟩⟩
  have ha0 : a ≠ 0 := by rintro rfl; exact h0 .refl
  have hc : ¬ HasParent (shown g r) a := by
    rintro ⟨p, e, he, rfl, rfl⟩
    obtain ⟨hge, hb⟩ := (tp_shown_edges g hg _ r hmem e).1 he
    exact hac e.v (Relation.TransGen.tail' hb ⟨e, hge, rfl, rfl⟩)
  have hadd : (addNode (shown g r) a {}).1 = addNodeCore (shown g r) a {} := by simp [addNode, setPhi]
  obtain ⟨hroot, _, _, hn, _⟩ := addNodeCore_spec (shown g r) a {}
  refine ⟨(addNode (shown g r) a {}).1, ?_, ?_, ha0, ?_, ?_⟩
  · unfold subgraphFrom rebuild
    rw [if_pos ha, hr]
    simp only [Option.map_some]
    rw [if_neg (show ¬ (shown g r).root ∈ (shown g r).nodes from fun h => h0 ((hnodes _).1 h))]
  · rw [hadd, hroot]; rfl
  · rw [hadd]
    exact (hn 0).2 (Or.inr (Or.inr (Or.inr ⟨rfl, hc, by simp, ha0⟩)))
  · exact ⟨⟨0, a, true, none⟩, (tp_add_edges _ _ hc ha0 _).2 (Or.inr rfl), rfl, rfl⟩

/-- C159: the elemental descendants of a node are the nodes without children at or below it, each once. -/
theorem C159_elemental_descendants (g : G) (a : Int) (ha : a ∈ g.nodes) :
    ∃ l, elementalDescendants g a = some l ∧ l.Nodup ∧ ∀ n, n ∈ l ↔ Below g a n ∧ ∀ c, ¬ Child g n c := by
  unfold elementalDescendants
  rw [if_pos ha]
  by_cases hd : g.outDeg a = 0
  · rw [if_pos hd]
    have hno := (outDeg_eq_zero_iff g a).1 hd
    refine ⟨[a], rfl, by simp, fun n => ⟨?_, ?_⟩⟩
    · intro h; simp at h; subst h; exact ⟨.refl, hno⟩
    · rintro ⟨h, _⟩
      rcases Relation.ReflTransGen.cases_head h with h | ⟨c, hc, _⟩
      · simp [h]
      · exact absurd hc (hno c)
  · rw [if_neg hd]
    obtain ⟨r, hr, hnd, hmem⟩ := tp_found g a
    refine ⟨_, by rw [hr]; rfl, (hnd.filter _).filter _, fun n => ?_⟩
    simp only [List.mem_filter, decide_eq_true_eq, hmem, outDeg_eq_zero_iff]
    constructor
    · rintro ⟨⟨h1, _⟩, h2⟩; exact ⟨h1, h2⟩
    · rintro ⟨h1, h2⟩
      exact ⟨⟨h1, fun h => hd ((outDeg_eq_zero_iff g a).2 (h ▸ h2))⟩, h2⟩

/-- C159: the edges which compete for a node are those to nodes with several parents, each once. -/
theorem C159_competitive (g : G) (hg : Valid g) :
    (competitive g).Nodup ∧ ∀ k n, (k, n) ∈ competitive g ↔ Child g k n ∧ ∃ j, j ≠ k ∧ Child g j n := by
  constructor
  · unfold competitive
    rw [List.nodup_flatMap]
    constructor
    · intro n _
      refine List.Nodup.map (fun x y h => by simpa using h) ?_
      rw [(List.perm_insertionSort _ _).nodup_iff]
      exact nodup_parents hg n
    · refine (hg.nodup.filter _).imp_of_mem ?_
      intro x y _ _ hxy
      simp only [Function.onFun]
      intro p hp hq
      obtain ⟨_, _, rfl⟩ := List.mem_map.1 hp
      obtain ⟨_, _, h⟩ := List.mem_map.1 hq
      injection h with _ h
      exact hxy h.symm
  · intro k n
    have hlen : 1 < (g.inEdges n).length → Child g k n → ∃ j, j ≠ k ∧ Child g j n := by
      intro hl hk
      by_contra hno
      push Not at hno
      have hnd := nodup_parents hg n
      have hall : ∀ x ∈ (g.inEdges n).map Edge.u, x = k := by
        intro x hx
        by_contra hne
        exact hno x hne (mem_parents.1 hx)
      have := List.Nodup.length_le_of_subset hnd (l₂ := [k]) (fun x hx => by simp [hall x hx])
      simp only [List.length_map, List.length_cons, List.length_nil] at this
      omega
    unfold competitive
    simp only [List.mem_flatMap, List.mem_filter, decide_eq_true_eq, List.mem_map, List.mem_insertionSort, Prod.mk.injEq]
    constructor
    · rintro ⟨m, ⟨_, hl⟩, j, ⟨e, he, rfl⟩, rfl, rfl⟩
      have hc : Child g e.u m := mem_parents.1 (List.mem_map.2 ⟨e, he, rfl⟩)
      exact ⟨hc, hlen hl hc⟩
    · rintro ⟨hk, j, hj, hjn⟩
      have h1 := mem_parents.2 hk
      have h2 := mem_parents.2 hjn
      refine ⟨n, ⟨?_, ?_⟩, k, List.mem_map.1 h1, rfl, rfl⟩
      · obtain ⟨e, he, _, rfl⟩ := hk
        exact (hg.ends e he).2
      · have := List.Nodup.length_le_of_subset (l₁ := [j, k]) (by simp [hj]) (l₂ := (g.inEdges n).map Edge.u)
          (fun x hx => by simp at hx; rcases hx with rfl | rfl <;> assumption)
        simp only [List.length_cons, List.length_nil, List.length_map] at this
        omega

/-- C159: `n_intermediate_nests()` is the number of nests other than the root, when the root has something below it. -/
theorem C159_intermediate (g : G) (hg : Valid g) (hn : g.suggested.Nodup) (hs : ∀ e ∈ g.suggested, e ∈ g.nodes)
    (hr : g.root ∈ g.nodes) (hc : ∃ c, Child g g.root c) (l : List Int) (hl : l.Nodup)
    (hm : ∀ n, n ∈ l ↔ n ∈ g.nodes ∧ n ≠ g.root ∧ ∃ c, Child g n c) : nIntermediate g = some (l.length : Int) := by
  have h1 : g.suggested.all (fun e => e ∈ g.nodes) = true := by simpa using hs
  obtain ⟨alts, halts⟩ : ∃ alts, elementals g = some alts := by
    unfold elementals; rw [if_pos h1]; exact ⟨_, rfl⟩
  have hma := mem_elementals hs halts
  have hna := nodup_elementals hg hn hs halts
  have hperm : (g.root :: (l ++ alts)).Perm g.nodes := by
    refine (List.perm_ext_iff_of_nodup ?_ hg.nodup).2 ?_
    · rw [List.nodup_cons, List.nodup_append]
      refine ⟨?_, hl, hna, ?_⟩
      · simp only [List.mem_append, hm, hma, not_or]
        obtain ⟨c, hc⟩ := hc
        exact ⟨fun h => h.2.1 rfl, fun h => h.2 c hc⟩
      · rintro x hx y hy rfl
        obtain ⟨c, hc⟩ := ((hm x).1 hx).2.2
        exact ((hma x).1 hy).2 c hc
    · intro n
      simp only [List.mem_cons, List.mem_append, hm, hma]
      constructor
      · rintro (rfl | h | h)
        · exact hr
        · exact h.1
        · exact h.1
      · intro h
        by_cases hnr : n = g.root
        · exact Or.inl hnr
        · by_cases hcn : ∃ c, Child g n c
          · exact Or.inr (Or.inl ⟨h, hnr, hcn⟩)
          · exact Or.inr (Or.inr ⟨h, by push Not at hcn; exact hcn⟩)
  have hlen := hperm.length_eq
  simp only [List.length_cons, List.length_append] at hlen
  simp only [nIntermediate, halts, Option.map_some, Option.some.injEq]
  omega

/-- C159 fails: in a tree with nothing but the root, `n_intermediate_nests()` is −1. -/
theorem C159_fails_intermediate (r : Int) : nIntermediate (new r) = some (-1) := by
  simp [nIntermediate, elementals, new, G.outDeg, G.outEdges]

/-- A nest 5 over 1 and 2 inside a nest 6, and 3 below the root and below 6. -/
def partsTree : G :=
  { nodes := [0, 1, 2, 3, 5, 6]
    edges := [⟨5, 1, false, none⟩, ⟨5, 2, false, none⟩, ⟨0, 3, false, none⟩, ⟨6, 5, false, none⟩, ⟨6, 3, false, some "a"⟩, ⟨0, 6, true, none⟩]
    nparam := fun n => if n = 5 then some "mu" else none
    root := 0
    suggested := [] }

example : Valid partsTree ∧ 6 ∈ partsTree.nodes ∧ (∃ c, Child partsTree partsTree.root c) :=
  ⟨⟨by decide, by decide, by decide⟩, by decide, ⟨3, ⟨0, 3, false, none⟩, by decide, rfl, rfl⟩⟩

example : elementalDescendants partsTree 6 = some [3, 1, 2] ∧ competitive partsTree = [(0, 3), (6, 3)] ∧ nIntermediate partsTree = some 2 ∧
    (subgraphFrom partsTree 6).map (fun h => (h.root, h.nodes)) = some (0, [1, 2, 3, 5, 6, 0]) := by decide +kernel

end Larch.Props
