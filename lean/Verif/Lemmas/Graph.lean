import Verif.Spec.Graph

namespace Larch.Graph

@[simp] theorem mem_nodes_nxAddNode (g : G) (n m : Int) : m ∈ (nxAddNode g n).nodes ↔ m ∈ g.nodes ∨ m = n := by
  unfold nxAddNode
  split
  · constructor
    · exact Or.inl
    · rintro (h | rfl) <;> assumption
  · simp

@[simp] theorem edges_nxAddNode (g : G) (n : Int) : (nxAddNode g n).edges = g.edges := by
  unfold nxAddNode; split <;> rfl
@[simp] theorem root_nxAddNode (g : G) (n : Int) : (nxAddNode g n).root = g.root := by
  unfold nxAddNode; split <;> rfl
@[simp] theorem suggested_nxAddNode (g : G) (n : Int) : (nxAddNode g n).suggested = g.suggested := by
  unfold nxAddNode; split <;> rfl
@[simp] theorem nparam_nxAddNode (g : G) (n : Int) : (nxAddNode g n).nparam = g.nparam := by
  unfold nxAddNode; split <;> rfl

theorem nodup_nxAddNode {g : G} (h : g.nodes.Nodup) (n : Int) : (nxAddNode g n).nodes.Nodup := by
  unfold nxAddNode
  split
  · exact h
  · rename_i hn
    simp only [List.nodup_append, h, List.nodup_singleton, true_and]
    intro a ha b hb
    simp at hb
    rintro rfl
    exact hn (hb ▸ ha)

theorem hasEdge_iff (g : G) (u v : Int) : g.hasEdge u v = true ↔ Child g u v := by
  simp [G.hasEdge, Child]

theorem mem_nodes_nxAddEdge (g : G) (e : Edge) (m : Int) :
    m ∈ (nxAddEdge g e).nodes ↔ m ∈ g.nodes ∨ m = e.u ∨ m = e.v := by
  simp [nxAddEdge, or_assoc]

@[simp] theorem root_nxAddEdge (g : G) (e : Edge) : (nxAddEdge g e).root = g.root := by simp [nxAddEdge]
@[simp] theorem suggested_nxAddEdge (g : G) (e : Edge) : (nxAddEdge g e).suggested = g.suggested := by simp [nxAddEdge]
@[simp] theorem nparam_nxAddEdge (g : G) (e : Edge) : (nxAddEdge g e).nparam = g.nparam := by simp [nxAddEdge]

theorem hasEdge_nxAddNode (g : G) (n u v : Int) : (nxAddNode g n).hasEdge u v = g.hasEdge u v := by
  simp [G.hasEdge]

theorem child_nxAddEdge (g : G) (e : Edge) (a b : Int) :
    Child (nxAddEdge g e) a b ↔ Child g a b ∨ (a = e.u ∧ b = e.v) := by
  simp only [nxAddEdge, hasEdge_nxAddNode, edges_nxAddNode]
  by_cases h : g.hasEdge e.u e.v
  · rw [if_pos h]
    have h' := (hasEdge_iff g e.u e.v).1 h
    constructor
    · rintro ⟨d, hd, rfl, rfl⟩
      simp only [List.mem_map] at hd
      obtain ⟨c, hc, rfl⟩ := hd
      split
      · right; simp
      · left; exact ⟨c, hc, rfl, rfl⟩
    · rintro (⟨d, hd, rfl, rfl⟩ | ⟨rfl, rfl⟩)
      · refine ⟨_, List.mem_map.2 ⟨d, hd, rfl⟩, ?_⟩
        split
        · rename_i hh; simp [hh]
        · simp
      · obtain ⟨c, hc, hcu, hcv⟩ := h'
        refine ⟨_, List.mem_map.2 ⟨c, hc, rfl⟩, ?_⟩
        rw [if_pos ⟨hcu, hcv⟩]; simp
  · rw [if_neg h]
    constructor
    · rintro ⟨d, hd, rfl, rfl⟩
      simp only [List.mem_append, List.mem_singleton] at hd
      rcases hd with hd | rfl
      · exact Or.inl ⟨d, hd, rfl, rfl⟩
      · right; simp
    · rintro (⟨d, hd, rfl, rfl⟩ | ⟨rfl, rfl⟩)
      · exact ⟨d, by simp [hd], rfl, rfl⟩
      · exact ⟨e, by simp, rfl, rfl⟩

theorem Valid.nxAddNode {g : G} (h : Valid g) (n : Int) : Valid (nxAddNode g n) where
  nodup := nodup_nxAddNode h.nodup n
  pairs := by simpa using h.pairs
  ends := by
    intro e he
    simp only [edges_nxAddNode] at he
    have := h.ends e he
    simp [this.1, this.2]

theorem Valid.nxAddEdge {g : G} (h : Valid g) (e : Edge) : Valid (nxAddEdge g e) where
  nodup := by
    simp only [Graph.nxAddEdge]
    exact nodup_nxAddNode (nodup_nxAddNode h.nodup _) _
  pairs := by
    simp only [Graph.nxAddEdge, hasEdge_nxAddNode, edges_nxAddNode]
    split
    · rw [List.map_map]
      convert h.pairs using 2
      funext d
      simp only [Function.comp]
      split
      · rename_i hh; simp [hh]
      · rfl
    · rename_i hn
      rw [List.map_append, List.nodup_append]
      refine ⟨h.pairs, by simp, ?_⟩
      intro p hp q hq
      simp only [List.map_cons, List.map_nil, List.mem_singleton] at hq
      rintro rfl
      rw [List.mem_map] at hp
      obtain ⟨d, hd, hde⟩ := hp
      rw [hq] at hde
      injection hde with h1 h2
      exact hn ((hasEdge_iff _ _ _).2 ⟨d, hd, h1, h2⟩)
  ends := by
    intro d hd
    have : Child (Graph.nxAddEdge g e) d.u d.v := ⟨d, hd, rfl, rfl⟩
    rw [child_nxAddEdge] at this
    rw [mem_nodes_nxAddEdge, mem_nodes_nxAddEdge]
    rcases this with ⟨c, hc, h1, h2⟩ | ⟨h1, h2⟩
    · have := h.ends c hc
      rw [h1, h2] at this
      exact ⟨Or.inl this.1, Or.inl this.2⟩
    · exact ⟨Or.inr (Or.inl h1), Or.inr (Or.inr h2)⟩

theorem Valid.filterEdges {g : G} (h : Valid g) (p : Edge → Bool) : Valid { g with edges := g.edges.filter p } where
  nodup := h.nodup
  pairs := h.pairs.sublist (List.Sublist.map _ (List.filter_sublist))
  ends := fun e he => h.ends e (List.mem_filter.1 he).1

/-! ### addEdge -/

theorem mem_nodes_addEdge (g : G) (u v : Int) (i : Bool) (p : Option String) (m : Int) :
    m ∈ (addEdge g u v i p).nodes ↔ m ∈ g.nodes ∨ m = u ∨ m = v := by
  unfold addEdge
  rw [mem_nodes_nxAddEdge]
  split <;> simp

@[simp] theorem root_addEdge (g : G) (u v : Int) (i : Bool) (p : Option String) : (addEdge g u v i p).root = g.root := by
  unfold addEdge
  rw [root_nxAddEdge]
  split <;> simp
@[simp] theorem suggested_addEdge (g : G) (u v : Int) (i : Bool) (p : Option String) :
    (addEdge g u v i p).suggested = g.suggested := by
  unfold addEdge
  rw [suggested_nxAddEdge]
  split <;> simp
@[simp] theorem nparam_addEdge (g : G) (u v : Int) (i : Bool) (p : Option String) :
    (addEdge g u v i p).nparam = g.nparam := by
  unfold addEdge
  rw [nparam_nxAddEdge]
  split <;> simp

theorem Valid.addEdge {g : G} (h : Valid g) (u v : Int) (i : Bool) (p : Option String) : Valid (addEdge g u v i p) := by
  unfold Graph.addEdge
  apply Valid.nxAddEdge
  split
  · exact h
  · exact h.filterEdges _

/-- Children of `addEdge`: the new edge, and those of before except the implied edges into `v` (when the new one is not
implied). -/
theorem child_addEdge (g : G) (u v : Int) (i : Bool) (p : Option String) (a b : Int) :
    Child (addEdge g u v i p) a b ↔
      (a = u ∧ b = v) ∨ ∃ e ∈ g.edges, e.u = a ∧ e.v = b ∧ (i = false → e.v = v → e.implied = false) := by
  unfold addEdge
  rw [child_nxAddEdge]
  cases i
  · simp only [Bool.false_eq_true, if_false, Child, List.mem_filter, decide_eq_true_eq]
    constructor
    · rintro (⟨e, ⟨he, hi⟩, rfl, rfl⟩ | h)
      · refine Or.inr ⟨e, he, rfl, rfl, fun _ hv => ?_⟩
        cases hh : e.implied
        · rfl
        · exact absurd ⟨hv, hh⟩ hi
      · exact Or.inl h
    · rintro (h | ⟨e, he, rfl, rfl, hi⟩)
      · exact Or.inr h
      · refine Or.inl ⟨e, ⟨he, ?_⟩, rfl, rfl⟩
        rintro ⟨h1, h2⟩
        rw [hi trivial h1] at h2
        exact absurd h2 (by simp)
  · simp only [if_true, Child]
    constructor
    · rintro (⟨e, he, rfl, rfl⟩ | h)
      · exact Or.inr ⟨e, he, rfl, rfl, by simp⟩
      · exact Or.inl h
    · rintro (h | ⟨e, he, rfl, rfl, -⟩)
      · exact Or.inr h
      · exact Or.inl ⟨e, he, rfl, rfl⟩

theorem hasParent_addEdge (g : G) (u v : Int) (i : Bool) (p : Option String) (n : Int) :
    HasParent (addEdge g u v i p) n ↔ n = v ∨ HasParent g n := by
  constructor
  · rintro ⟨a, ha⟩
    rcases (child_addEdge ..).1 ha with ⟨-, h⟩ | ⟨e, he, h1, h2, -⟩
    · exact Or.inl h
    · exact Or.inr ⟨a, e, he, h1, h2⟩
  · intro h
    by_cases hn : n = v
    · exact ⟨u, (child_addEdge ..).2 (Or.inl ⟨rfl, hn⟩)⟩
    · rcases h with h | ⟨a, e, he, h1, h2⟩
      · exact absurd h hn
      · exact ⟨a, (child_addEdge ..).2 (Or.inr ⟨e, he, h1, h2, fun _ h => absurd (h2 ▸ h) hn⟩)⟩

theorem inEdges_isEmpty_iff (g : G) (n : Int) : (g.inEdges n).isEmpty = true ↔ ¬ HasParent g n := by
  simp only [List.isEmpty_iff, G.inEdges, List.filter_eq_nil_iff, decide_eq_true_eq, HasParent, Child]
  constructor
  · rintro h ⟨p, e, he, -, hv⟩
    exact h e he hv
  · intro h e he hv
    exact h ⟨e.u, e, he, rfl, hv⟩

/-! ### removeEdge -/

theorem removeEdge_spec {g h : G} {u v : Int} (hh : removeEdge g u v = some h) :
    ∃ g', nxRemoveEdge g u v = some g' ∧
      ((¬ HasParent g' v ∧ v ≠ g.root) → h = addEdge g' g.root v (implied := true)) ∧
      (¬ (¬ HasParent g' v ∧ v ≠ g.root) → h = g') ∧
      g'.root = g.root ∧ g'.nodes = g.nodes ∧ g'.suggested = g.suggested ∧ g'.nparam = g.nparam ∧
      (∀ a b, Child g' a b ↔ Child g a b ∧ ¬ (a = u ∧ b = v)) := by
  unfold removeEdge at hh
  cases hr : nxRemoveEdge g u v with
  | none => simp [hr] at hh
  | some g' =>
    rw [hr] at hh
    have hg' : g' = { g with edges := g.edges.filter (fun e => ¬ (e.u = u ∧ e.v = v)) } := by
      unfold nxRemoveEdge at hr
      split at hr
      · simpa using hr.symm
      · simp at hr
    have hroot : g'.root = g.root := by rw [hg']
    have hc : ((g'.inEdges v).isEmpty = true ∧ v ≠ g'.root) ↔ (¬ HasParent g' v ∧ v ≠ g.root) := by
      rw [inEdges_isEmpty_iff, hroot]
    simp only [Option.map_some, Option.some.injEq] at hh
    refine ⟨g', rfl, ?_, ?_, hroot, by rw [hg'], by rw [hg'], by rw [hg'], ?_⟩
    · intro h
      rw [if_pos (hc.2 h), hroot] at hh
      exact hh.symm
    · intro h
      rw [if_neg (fun h' => h (hc.1 h'))] at hh
      exact hh.symm
    · intro a b
      rw [hg']
      simp only [Child, List.mem_filter, decide_eq_true_eq]
      constructor
      · rintro ⟨e, ⟨he, hn⟩, rfl, rfl⟩
        exact ⟨⟨e, he, rfl, rfl⟩, hn⟩
      · rintro ⟨⟨e, he, rfl, rfl⟩, hn⟩
        exact ⟨e, ⟨he, hn⟩, rfl, rfl⟩

theorem Valid.removeEdge {g h : G} {u v : Int} (hg : Valid g) (hh : Graph.removeEdge g u v = some h) : Valid h := by
  obtain ⟨g', hr, he1, he2, -⟩ := removeEdge_spec hh
  have hv : Valid g' := by
    unfold nxRemoveEdge at hr
    split at hr
    · simp at hr; rw [← hr]; exact hg.filterEdges _
    · simp at hr
  by_cases hc : ¬ HasParent g' v ∧ v ≠ g.root
  · rw [he1 hc]; exact hv.addEdge _ _ _ _
  · rw [he2 hc]; exact hv

/-! ### removeNode -/

theorem nxRemoveNode_spec {g g' : G} {n : Int} (h : nxRemoveNode g n = some g') :
    n ∈ g.nodes ∧ g'.root = g.root ∧ g'.suggested = g.suggested ∧ (∀ m, m ∈ g'.nodes ↔ m ∈ g.nodes ∧ m ≠ n) ∧
    (∀ a b, Child g' a b ↔ Child g a b ∧ a ≠ n ∧ b ≠ n) ∧ (Valid g → Valid g') := by
  unfold nxRemoveNode at h
  split at h
  · rename_i hn
    simp only [Option.some.injEq] at h
    subst h
    refine ⟨hn, rfl, rfl, by simp, ?_, ?_⟩
    · intro a b
      simp only [Child, List.mem_filter, decide_eq_true_eq]
      constructor
      · rintro ⟨e, ⟨he, h1⟩, rfl, rfl⟩; exact ⟨⟨e, he, rfl, rfl⟩, h1⟩
      · rintro ⟨⟨e, he, rfl, rfl⟩, h1⟩; exact ⟨e, ⟨he, h1⟩, rfl, rfl⟩
    · intro hv
      refine ⟨hv.nodup.filter _, hv.pairs.sublist (List.Sublist.map _ List.filter_sublist), ?_⟩
      intro e he
      simp only [List.mem_filter, decide_eq_true_eq] at he
      have := hv.ends e he.1
      simp [this.1, this.2, he.2.1, he.2.2]
  · simp at h

theorem foldl_heads (hs : List Int) (k : Edge) (g : G) :
    (hs.foldl (fun g h => nxAddEdge g { k with u := h }) g).root = g.root ∧
    (hs.foldl (fun g h => nxAddEdge g { k with u := h }) g).suggested = g.suggested ∧
    (∀ m, m ∈ (hs.foldl (fun g h => nxAddEdge g { k with u := h }) g).nodes ↔ m ∈ g.nodes ∨ m ∈ hs ∨ (hs ≠ [] ∧ m = k.v)) ∧
    (∀ a b, Child (hs.foldl (fun g h => nxAddEdge g { k with u := h }) g) a b ↔ Child g a b ∨ (a ∈ hs ∧ b = k.v)) ∧
    (Valid g → Valid (hs.foldl (fun g h => nxAddEdge g { k with u := h }) g)) := by
  induction hs generalizing g with
  | nil => simp
  | cons h t ih =>
    simp only [List.foldl_cons]
    obtain ⟨h1, h2, h3, h4, h5⟩ := ih (nxAddEdge g { k with u := h })
    refine ⟨by simp [h1], by simp [h2], ?_, ?_, fun hv => h5 (hv.nxAddEdge _)⟩
    · intro m
      rw [h3, mem_nodes_nxAddEdge]
      simp only [List.mem_cons]
      grind
    · intro a b
      rw [h4, child_nxAddEdge]
      simp only [List.mem_cons]
      grind

theorem foldl_edges (ks : List Edge) (hs : List Int) (g : G) :
    let r := ks.foldl (fun g k => hs.foldl (fun g h => nxAddEdge g { k with u := h }) g) g
    r.root = g.root ∧ r.suggested = g.suggested ∧
    (∀ m, m ∈ r.nodes ↔ m ∈ g.nodes ∨ (ks ≠ [] ∧ m ∈ hs) ∨ (hs ≠ [] ∧ ∃ k ∈ ks, m = k.v)) ∧
    (∀ a b, Child r a b ↔ Child g a b ∨ (a ∈ hs ∧ ∃ k ∈ ks, b = k.v)) ∧
    (Valid g → Valid r) := by
  intro r
  induction ks generalizing g with
  | nil => simp [r]
  | cons k t ih =>
    obtain ⟨h1, h2, h3, h4, h5⟩ := ih (hs.foldl (fun g h => nxAddEdge g { k with u := h }) g)
    obtain ⟨f1, f2, f3, f4, f5⟩ := foldl_heads hs k g
    simp only [r, List.foldl_cons]
    refine ⟨by rw [h1, f1], by rw [h2, f2], ?_, ?_, fun hv => h5 (f5 hv)⟩
    · intro m
      rw [h3, f3]
      simp only [List.mem_cons]
      grind
    · intro a b
      rw [h4, f4]
      grind

theorem removeNode_spec {g h : G} {n : Int} (hh : removeNode g n = some h) :
    n ∈ g.nodes ∧ h.root = g.root ∧ h.suggested = g.suggested ∧
    (∀ m, m ∈ h.nodes ↔ (m ∈ g.nodes ∧ m ≠ n) ∨ ((∃ c, Child g n c) ∧ Child g m n) ∨ (HasParent g n ∧ Child g n m)) ∧
    (∀ a b, Child h a b ↔ (Child g a b ∧ a ≠ n ∧ b ≠ n) ∨ (Child g a n ∧ Child g n b)) ∧
    (Valid g → Valid h) := by
  unfold removeNode at hh
  cases hr : nxRemoveNode g n with
  | none => simp [hr] at hh
  | some g' =>
    obtain ⟨r1, r2, r3, r4, r5, r6⟩ := nxRemoveNode_spec hr
    simp only [hr, Option.map_some, Option.some.injEq] at hh
    obtain ⟨f1, f2, f3, f4, f5⟩ := foldl_edges (g.outEdges n) ((g.inEdges n).map Edge.u) g'
    have hin : ∀ a, a ∈ (g.inEdges n).map Edge.u ↔ Child g a n := by
      intro a
      simp only [G.inEdges, List.mem_map, List.mem_filter, decide_eq_true_eq, Child]
      constructor
      · rintro ⟨e, ⟨he, hv⟩, rfl⟩; exact ⟨e, he, rfl, hv⟩
      · rintro ⟨e, he, rfl, hv⟩; exact ⟨e, ⟨he, hv⟩, rfl⟩
    have hout : ∀ b, (∃ k ∈ g.outEdges n, b = k.v) ↔ Child g n b := by
      intro b
      simp only [G.outEdges, List.mem_filter, decide_eq_true_eq, Child]
      constructor
      · rintro ⟨e, ⟨he, hu⟩, rfl⟩; exact ⟨e, he, hu, rfl⟩
      · rintro ⟨e, he, hu, rfl⟩; exact ⟨e, ⟨he, hu⟩, rfl⟩
    have hin0 : (g.inEdges n).map Edge.u ≠ [] ↔ HasParent g n := by
      rw [List.ne_nil_iff_exists_cons]
      constructor
      · rintro ⟨b, l, hl⟩
        exact ⟨b, (hin b).1 (by rw [hl]; simp)⟩
      · rintro ⟨b, hb⟩
        have := (hin b).2 hb
        exact List.ne_nil_iff_exists_cons.1 (List.ne_nil_of_mem this)
    have hout0 : g.outEdges n ≠ [] ↔ ∃ c, Child g n c := by
      constructor
      · intro h
        obtain ⟨k, l, hl⟩ := List.ne_nil_iff_exists_cons.1 h
        exact ⟨k.v, (hout _).1 ⟨k, by rw [hl]; simp, rfl⟩⟩
      · rintro ⟨c, hc⟩
        obtain ⟨k, hk, -⟩ := (hout c).2 hc
        exact List.ne_nil_of_mem hk
    rw [← hh]
    refine ⟨r1, by rw [f1, r2], by rw [f2, r3], ?_, ?_, fun hv => f5 (r6 hv)⟩
    · intro m
      rw [f3, r4, hin0, hout0, hin, hout]
    · intro a b
      rw [f4, r5, hin, hout]

/-! ### addNode -/

theorem foldl_children (cs : List Int) (code : Int) (g : G) :
    let r := cs.foldl (fun g c => addEdge g code c) g
    r.root = g.root ∧ r.suggested = g.suggested ∧ r.nparam = g.nparam ∧
    (code ∈ g.nodes → ∀ m, m ∈ r.nodes ↔ m ∈ g.nodes ∨ m ∈ cs) ∧
    (∀ n, HasParent r n ↔ HasParent g n ∨ n ∈ cs) ∧ (Valid g → Valid r) := by
  intro r
  induction cs generalizing g with
  | nil => simp [r]
  | cons c t ih =>
    obtain ⟨h1, h2, h3, h4, h5, h6⟩ := ih (addEdge g code c)
    simp only [r, List.foldl_cons]
    refine ⟨by simp [h1], by simp [h2], by simp [h3], ?_, ?_, fun hv => h6 (hv.addEdge _ _ _ _)⟩
    · intro hc m
      rw [h4 (by rw [mem_nodes_addEdge]; simp), mem_nodes_addEdge]
      simp only [List.mem_cons]
      constructor
      · rintro ((h | rfl | h) | h)
        · exact Or.inl h
        · exact Or.inl hc
        · exact Or.inr (Or.inl h)
        · exact Or.inr (Or.inr h)
      · tauto
    · intro n
      rw [h5, hasParent_addEdge]
      simp only [List.mem_cons]
      tauto

theorem foldl_parents (ps : List Int) (code : Int) (g : G) :
    let r := ps.foldl (fun g p => addEdge g p code) g
    r.root = g.root ∧ r.suggested = g.suggested ∧ r.nparam = g.nparam ∧
    (code ∈ g.nodes → ∀ m, m ∈ r.nodes ↔ m ∈ g.nodes ∨ m ∈ ps) ∧
    (∀ n, HasParent r n ↔ HasParent g n ∨ (ps ≠ [] ∧ n = code)) ∧ (Valid g → Valid r) := by
  intro r
  induction ps generalizing g with
  | nil => simp [r]
  | cons c t ih =>
    obtain ⟨h1, h2, h3, h4, h5, h6⟩ := ih (addEdge g c code)
    simp only [r, List.foldl_cons]
    refine ⟨by simp [h1], by simp [h2], by simp [h3], ?_, ?_, fun hv => h6 (hv.addEdge _ _ _ _)⟩
    · intro hc m
      rw [h4 (by rw [mem_nodes_addEdge]; simp), mem_nodes_addEdge]
      simp only [List.mem_cons]
      constructor
      · rintro ((h | rfl | rfl) | h)
        · exact Or.inl h
        · exact Or.inr (Or.inl rfl)
        · exact Or.inl hc
        · exact Or.inr (Or.inr h)
      · tauto
    · intro n
      rw [h5, hasParent_addEdge]
      simp only [List.cons_ne_nil, ne_eq, not_false_eq_true, true_and]
      tauto

set_option maxHeartbeats 1000000 in
/-- `add_node`'s graph edits in terms of nodes and parents. -/
theorem addNodeCore_spec (g : G) (code : Int) (a : NodeArgs) :
    let r := addNodeCore g code a
    r.root = g.root ∧ r.suggested = g.suggested ∧ (Valid g → Valid r) ∧
    (∀ m, m ∈ r.nodes ↔ m ∈ g.nodes ∨ m = code ∨ m ∈ a.children ∨
      (match a.parent, a.parents with
        | some p, _ => m = p
        | none, some ps => m ∈ ps
        | none, none => m = g.root ∧ ¬ HasParent g code ∧ code ∉ a.children ∧ code ≠ g.root)) ∧
    (∀ n, HasParent r n ↔ HasParent g n ∨ n ∈ a.children ∨ (n = code ∧
      (match a.parent, a.parents with
        | some _, _ => True
        | none, some ps => ps ≠ []
        | none, none => code ≠ g.root))) := by
  intro r
  set g1 : G := match a.param with
    | none => nxAddNode g code
    | some s => { nxAddNode g code with nparam := Function.update (nxAddNode g code).nparam code (some s) } with hg1
  have e1 : g1.edges = g.edges := by rw [hg1]; cases a.param <;> simp
  have n1 : ∀ m, m ∈ g1.nodes ↔ m ∈ g.nodes ∨ m = code := by rw [hg1]; cases a.param <;> simp
  have r1 : g1.root = g.root := by rw [hg1]; cases a.param <;> simp
  have s1 : g1.suggested = g.suggested := by rw [hg1]; cases a.param <;> simp
  have p1 : ∀ n, HasParent g1 n ↔ HasParent g n := by intro n; simp only [HasParent, Child, e1]
  have v1 : Valid g → Valid g1 := by
    intro hv
    have := hv.nxAddNode code
    rw [hg1]
    cases a.param
    · exact this
    · exact ⟨this.nodup, this.pairs, this.ends⟩
  set g2 : G := a.children.foldl (fun g c => addEdge g code c) g1 with hg2
  obtain ⟨r2, s2, -, n2, p2, v2⟩ := foldl_children a.children code g1
  rw [← hg2] at r2 s2 n2 p2 v2
  have c1 : code ∈ g1.nodes := by rw [n1]; simp
  have n2' := n2 c1
  have c2 : code ∈ g2.nodes := by rw [n2']; exact Or.inl c1
  have hr : r = (match a.parent, a.parents with
    | some p, _ => addEdge g2 p code
    | none, some ps => ps.foldl (fun g p => addEdge g p code) g2
    | none, none => if (g2.inEdges code).isEmpty ∧ code ≠ g2.root then addEdge g2 g2.root code (implied := true) else g2) := by
    rfl
  clear_value r
  rw [hr]
  clear hr hg2 n2
  clear_value g2
  clear hg1
  clear_value g1
  rcases hp : a.parent with _ | p
  · rcases hps : a.parents with _ | ps
    · simp only
      have hiff : ((g2.inEdges code).isEmpty = true ∧ code ≠ g2.root) ↔
          ((¬ (HasParent g code ∨ code ∈ a.children)) ∧ code ≠ g.root) := by
        rw [inEdges_isEmpty_iff, p2, p1, r2, r1]
      by_cases hc : (¬ (HasParent g code ∨ code ∈ a.children)) ∧ code ≠ g.root
      · rw [if_pos (hiff.2 hc), r2, r1]
        refine ⟨by simp [r2, r1], by simp [s2, s1], fun hv => (v2 (v1 hv)).addEdge _ _ _ _, ?_, ?_⟩
        · intro m
          rw [mem_nodes_addEdge, n2', n1]
          have := hc.1
          push Not at this
          constructor
          · rintro (((h | h) | h) | h | h)
            · exact Or.inl h
            · exact Or.inr (Or.inl h)
            · exact Or.inr (Or.inr (Or.inl h))
            · exact Or.inr (Or.inr (Or.inr ⟨h, this.1, this.2, hc.2⟩))
            · exact Or.inr (Or.inl h)
          · rintro (h | h | h | h)
            · exact Or.inl (Or.inl (Or.inl h))
            · exact Or.inl (Or.inl (Or.inr h))
            · exact Or.inl (Or.inr h)
            · exact Or.inr (Or.inl h.1)
        · intro n
          rw [hasParent_addEdge, p2, p1]
          have := hc.2
          tauto
      · rw [if_neg (fun h => hc (hiff.1 h))]
        refine ⟨by simp [r2, r1], by simp [s2, s1], fun hv => v2 (v1 hv), ?_, ?_⟩
        · intro m
          rw [n2', n1]
          tauto
        · intro n
          rw [p2, p1]
          constructor
          · tauto
          · rintro (h | h | ⟨rfl, h⟩)
            · exact Or.inl h
            · exact Or.inr h
            · by_contra hh
              exact hc ⟨hh, h⟩
    · simp only
      obtain ⟨r3, s3, -, n3, p3, v3⟩ := foldl_parents ps code g2
      refine ⟨by rw [r3, r2, r1], by rw [s3, s2, s1], fun hv => v3 (v2 (v1 hv)), ?_, ?_⟩
      · intro m
        rw [n3 c2, n2', n1]
        tauto
      · intro n
        rw [p3, p2, p1]
        tauto
  · simp only
    refine ⟨by simp [r2, r1], by simp [s2, s1], fun hv => (v2 (v1 hv)).addEdge _ _ _ _, ?_, ?_⟩
    · intro m
      rw [mem_nodes_addEdge, n2', n1]
      constructor
      · rintro (((h | h) | h) | h | h) <;> tauto
      · tauto
    · intro n
      rw [hasParent_addEdge, p2, p1]
      tauto

theorem child_mapParam (g : G) (f : Edge → Edge) (hf : ∀ e, (f e).u = e.u ∧ (f e).v = e.v) (a b : Int) :
    Child { g with edges := g.edges.map f } a b ↔ Child g a b := by
  simp only [Child, List.mem_map]
  constructor
  · rintro ⟨_, ⟨d, hd, rfl⟩, rfl, rfl⟩
    exact ⟨d, hd, (hf d).1.symm, (hf d).2.symm⟩
  · rintro ⟨d, hd, rfl, rfl⟩
    exact ⟨f d, ⟨d, hd, rfl⟩, (hf d).1, (hf d).2⟩

theorem Valid.mapParam {g : G} (h : Valid g) (f : Edge → Edge) (hf : ∀ e, (f e).u = e.u ∧ (f e).v = e.v) :
    Valid { g with edges := g.edges.map f } where
  nodup := h.nodup
  pairs := by
    rw [List.map_map]
    convert h.pairs using 2
    funext d
    simp [Function.comp, hf d]
  ends := by
    intro e he
    simp only [List.mem_map] at he
    obtain ⟨d, hd, rfl⟩ := he
    rw [(hf d).1, (hf d).2]
    exact h.ends d hd

theorem setPhi_spec (g : G) (code : Int) (phi : List (Int × String)) :
    let r := (setPhi g code phi).1
    r.root = g.root ∧ r.suggested = g.suggested ∧ r.nodes = g.nodes ∧ r.nparam = g.nparam ∧
    (∀ a b, Child r a b ↔ Child g a b) ∧ (Valid g → Valid r) := by
  intro r
  induction phi generalizing g with
  | nil => simp [r, setPhi]
  | cons p t ih =>
    obtain ⟨k, s⟩ := p
    have hf1 : ∀ e : Edge, (if e.u = code ∧ e.v = k then { e with param := some s } else e : Edge).u = e.u ∧
        (if e.u = code ∧ e.v = k then { e with param := some s } else e : Edge).v = e.v := by
      intro e; split <;> simp
    have hf2 : ∀ e : Edge, (if e.u = k ∧ e.v = code then { e with param := some s } else e : Edge).u = e.u ∧
        (if e.u = k ∧ e.v = code then { e with param := some s } else e : Edge).v = e.v := by
      intro e; split <;> simp
    simp only [r, setPhi]
    split
    · obtain ⟨h1, h2, h3, h4, h5, h6⟩ := ih { g with edges := g.edges.map (fun d => if d.u = code ∧ d.v = k then { d with param := some s } else d) }
      refine ⟨h1, h2, h3, h4, ?_, fun hv => h6 (hv.mapParam _ hf1)⟩
      intro a b
      rw [h5, child_mapParam g _ hf1]
    · split
      · obtain ⟨h1, h2, h3, h4, h5, h6⟩ := ih { g with edges := g.edges.map (fun d => if d.u = k ∧ d.v = code then { d with param := some s } else d) }
        refine ⟨h1, h2, h3, h4, ?_, fun hv => h6 (hv.mapParam _ hf2)⟩
        intro a b
        rw [h5, child_mapParam g _ hf2]
      · simp

theorem Valid.addNode {g : G} (h : Valid g) (code : Int) (a : NodeArgs) : Valid (addNode g code a).1 := by
  unfold Graph.addNode
  split
  · exact h
  · exact (setPhi_spec _ _ _).2.2.2.2.2 ((addNodeCore_spec g code a).2.2.1 h)

theorem foldl_top (top : List Edge) (x : Int) (g : G) :
    let r := top.foldl (fun g a => addEdge g x a.v a.implied a.param) g
    r.root = g.root ∧ (x ∈ g.nodes → ∀ m, m ∈ r.nodes ↔ m ∈ g.nodes ∨ ∃ a ∈ top, m = a.v) ∧
    (∀ n, HasParent r n ↔ HasParent g n ∨ ∃ a ∈ top, n = a.v) ∧ (Valid g → Valid r) := by
  intro r
  induction top generalizing g with
  | nil => simp [r]
  | cons c t ih =>
    obtain ⟨h1, h4, h5, h6⟩ := ih (addEdge g x c.v c.implied c.param)
    simp only [r, List.foldl_cons]
    refine ⟨by simp [h1], ?_, ?_, fun hv => h6 (hv.addEdge _ _ _ _)⟩
    · intro hc m
      rw [h4 (by rw [mem_nodes_addEdge]; simp), mem_nodes_addEdge]
      simp only [List.exists_mem_cons_iff]
      constructor
      · rintro ((h | rfl | h) | h)
        · exact Or.inl h
        · exact Or.inl hc
        · exact Or.inr (Or.inl h)
        · exact Or.inr (Or.inr h)
      · tauto
    · intro n
      rw [h5, hasParent_addEdge]
      simp only [List.exists_mem_cons_iff]
      tauto

theorem Valid.setRoot {g h : G} {x : Int} (hg : Valid g) (hh : Graph.setRoot g x = some h) : Valid h := by
  unfold Graph.setRoot at hh
  cases hr : Graph.removeNode g g.root with
  | none => simp [hr] at hh
  | some g' =>
    simp only [hr, Option.map_some, Option.some.injEq] at hh
    rw [← hh]
    have v0 := (removeNode_spec hr).2.2.2.2.2 hg
    have v1 : Valid { g' with root := x } := ⟨v0.nodup, v0.pairs, v0.ends⟩
    apply (foldl_top _ x _).2.2.2
    split
    · exact v1
    · exact v1.addNode x {}

theorem Valid.step {g : G} (h : Valid g) (o : Op) : Valid (step g o).1 := by
  cases o with
  | addEdge u v i p => exact h.addEdge _ _ _ _
  | removeEdge u v =>
    simp only [Graph.step]
    cases hh : Graph.removeEdge g u v with
    | none => exact h
    | some g' => exact h.removeEdge hh
  | addNode c a => exact h.addNode _ _
  | newNode c a =>
    simp only [Graph.step, newNode]
    cases proposeCode g c with
    | none => exact h
    | some c => exact h.addNode _ _
  | removeNode n =>
    simp only [Graph.step]
    cases hh : Graph.removeNode g n with
    | none => exact h
    | some g' => exact (removeNode_spec hh).2.2.2.2.2 h
  | setRoot x =>
    simp only [Graph.step]
    cases hh : Graph.setRoot g x with
    | none => exact h
    | some g' => exact h.setRoot hh
  | suggest o => exact ⟨h.nodup, h.pairs, h.ends⟩

theorem valid_new (r : Int) (s : List Int) : Valid (new r s) := ⟨by simp [new], by simp [new], by simp [new]⟩

theorem Valid.run {g : G} (h : Valid g) (ops : List Op) : Valid (run g ops) := by
  unfold Graph.run
  induction ops generalizing g with
  | nil => exact h
  | cons o t ih => exact ih (h.step o)

end Larch.Graph
