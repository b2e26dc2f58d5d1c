import Verif.Props.GraphModel

/-!
# C56-C58: slots of data and graph; assigning a graph to a model; changing the root
-/

namespace Larch.Props

open Larch.Graph

/-! ## C57: assigning a graph to a model keeps the graph -/

theorem foldl_nxAddNode (ns : List Int) (g : G) (hnd : ns.Nodup) :
    (ns.foldl nxAddNode g).nodes = g.nodes ++ ns.filter (fun n => n ∉ g.nodes) ∧ (ns.foldl nxAddNode g).edges = g.edges ∧
    (ns.foldl nxAddNode g).root = g.root ∧ (ns.foldl nxAddNode g).suggested = g.suggested := by
  induction ns generalizing g with
  | nil => simp
  | cons n t ih =>
    obtain ⟨hn, ht⟩ := List.nodup_cons.1 hnd
    obtain ⟨h1, h2, h3, h4⟩ := ih (nxAddNode g n) ht
    rw [List.foldl_cons]
    refine ⟨?_, by simp [h2], by simp [h3], by simp [h4]⟩
    rw [h1]
    unfold nxAddNode
    by_cases hg : n ∈ g.nodes
    · simp [hg]
    · rw [if_neg hg]
      simp only [List.append_assoc]
      congr 1
      rw [List.filter_cons_of_pos (by simpa using hg)]
      simp only [List.singleton_append, List.cons.injEq, true_and]
      apply List.filter_congr
      intro x hx
      have : x ≠ n := by rintro rfl; exact hn hx
      simp [this]

theorem foldl_nxAddEdge (es : List Edge) (g : G) (hp : ((g.edges ++ es).map (fun e => (e.u, e.v))).Nodup)
    (hends : ∀ e ∈ es, e.u ∈ g.nodes ∧ e.v ∈ g.nodes) :
    es.foldl nxAddEdge g = { g with edges := g.edges ++ es } := by
  induction es generalizing g with
  | nil => simp
  | cons e t ih =>
    have hone : nxAddEdge g e = { g with edges := g.edges ++ [e] } := by
      have h1 := hends e (by simp)
      have hno : g.hasEdge e.u e.v = false := by
        rw [Bool.eq_false_iff, ne_eq, hasEdge_iff]
        rintro ⟨d, hd, hu, hv⟩
        rw [List.map_append, List.nodup_append] at hp
        exact hp.2.2 (d.u, d.v) (List.mem_map.2 ⟨d, hd, rfl⟩) (e.u, e.v) (by simp) (by rw [hu, hv])
      simp [nxAddEdge, nxAddNode, h1.1, h1.2, hno]
    rw [List.foldl_cons, hone, ih]
    · simp
    · simpa using hp
    · intro d hd; exact hends d (by simp [hd])

theorem copy_spec {g : G} (hg : Valid g) :
    (copy g).nodes = 0 :: g.nodes.filter (fun n => n ≠ 0) ∧ (copy g).edges = g.nodes.flatMap g.outEdges ∧ (copy g).root = 0 ∧
      (copy g).suggested = [] ∧ (∀ n ∈ g.nodes, (copy g).nparam n = g.nparam n) ∧ (copy g).edges.Perm g.edges := by
  obtain ⟨h1', h2', h3', h4'⟩ := foldl_nxAddNode g.nodes (new 0) hg.nodup
  have h1 : (g.nodes.foldl nxAddNode (new 0)).nodes = 0 :: g.nodes.filter (fun n => n ≠ 0) := by
    rw [h1']; simp [new]
  have h2 : (g.nodes.foldl nxAddNode (new 0)).edges = [] := h2'.trans rfl
  have h3 : (g.nodes.foldl nxAddNode (new 0)).root = 0 := h3'.trans rfl
  have h4 : (g.nodes.foldl nxAddNode (new 0)).suggested = [] := h4'.trans rfl
  have hperm : (g.nodes.flatMap g.outEdges).Perm g.edges :=
    flatMap_filter_perm g.edges g.nodes hg.nodup (fun e he => (hg.ends e he).1)
  have hc : copy g = { (g.nodes.foldl nxAddNode (new 0)) with
      nparam := fun n => if n ∈ g.nodes then g.nparam n else none
      edges := g.nodes.flatMap g.outEdges } := by
    unfold copy
    rw [foldl_nxAddEdge]
    · simp [h2]
    · simp only [h2, List.nil_append]
      exact (hperm.map _).nodup_iff.2 hg.pairs
    · intro e he
      have := hg.ends e (hperm.mem_iff.1 he)
      simp only [h1, List.mem_cons, List.mem_filter, decide_eq_true_eq]
      constructor
      · by_cases h : e.u = 0
        · exact Or.inl h
        · exact Or.inr ⟨this.1, h⟩
      · by_cases h : e.v = 0
        · exact Or.inl h
        · exact Or.inr ⟨this.2, h⟩
  rw [hc]
  refine ⟨?_, rfl, h3, h4, ?_, hperm⟩
  · exact h1
  · intro n hn; simp [hn]

theorem valid_copy {g : G} (hg : Valid g) : Valid (copy g) := by
  obtain ⟨h1, -, -, -, -, h6⟩ := copy_spec hg
  refine ⟨?_, (h6.map _).nodup_iff.2 hg.pairs, ?_⟩
  · rw [h1, List.nodup_cons]
    exact ⟨by simp, hg.nodup.filter _⟩
  · intro e he
    have := hg.ends e (h6.mem_iff.1 he)
    rw [h1]
    simp only [List.mem_cons, List.mem_filter, decide_eq_true_eq]
    exact ⟨by by_cases h : e.u = 0 <;> simp [h, this.1], by by_cases h : e.v = 0 <;> simp [h, this.2]⟩

theorem child_copy {g : G} (hg : Valid g) (a b : Int) : Child (copy g) a b ↔ Child g a b := by
  obtain ⟨-, -, -, -, -, h6⟩ := copy_spec hg
  simp only [Child, h6.mem_iff]

/-- C57: assigning a graph whose root is 0 to a model gives the model the same nodes, the same edges with the same attributes, the
same parameters and the same root.  (Missing for the full C57: other roots and the suggested order, `C57_fails_*`.) -/
theorem C57_assign_partial (g : G) (hg : Valid g) (hroot : g.root = 0) (hin : g.root ∈ g.nodes) :
    (assign g).nodes.Perm g.nodes ∧ (assign g).edges.Perm g.edges ∧ (∀ n ∈ g.nodes, (assign g).nparam n = g.nparam n) ∧
      (assign g).root = g.root := by
  obtain ⟨h1, -, h3, -, h5, h6⟩ := copy_spec hg
  refine ⟨?_, h6, h5, by rw [hroot]; exact h3⟩
  unfold assign
  rw [h1, List.perm_ext_iff_of_nodup]
  · intro n
    simp only [List.mem_cons, List.mem_filter, decide_eq_true_eq]
    constructor
    · rintro (rfl | h)
      · exact hroot ▸ hin
      · exact h.1
    · intro h
      by_cases hn : n = 0
      · exact Or.inl hn
      · exact Or.inr ⟨h, hn⟩
  · rw [List.nodup_cons]; exact ⟨by simp, hg.nodup.filter _⟩
  · exact hg.nodup

example : (new 0).root = 0 ∧ Valid (run (new 0) (demoOps.dropLast)) ∧ (run (new 0) demoOps.dropLast).root = 0 ∧
    (0 : Int) ∈ (run (new 0) demoOps.dropLast).nodes := ⟨rfl, C12_valid _ _ _, by decide +kernel, by decide +kernel⟩

/-- C57 fails: the copy that the model keeps has root 0 and no suggested order, whatever the graph had. -/
theorem C57_fails_root_lost (g : G) (hg : Valid g) : (assign g).root = 0 ∧ (assign g).suggested = [] := by
  obtain ⟨-, -, h3, h4, -, -⟩ := copy_spec hg
  exact ⟨h3, h4⟩

/-- C57 fails: if 0 is not a node of the graph, the model gains an alternative with code 0, connected to nothing. -/
theorem C57_fails_new_alternative (g : G) (hg : Valid g) (h0 : (0 : Int) ∉ g.nodes) :
    ∃ alts, elementals (assign g) = some alts ∧ (0 : Int) ∈ alts ∧ ¬ HasParent (assign g) 0 := by
  obtain ⟨h1, h2, h3, h4, -, h6⟩ := copy_spec hg
  have hno : ∀ a b, Child (assign g) a b → a ≠ 0 ∧ b ≠ 0 := by
    intro a b h
    obtain ⟨e, he, rfl, rfl⟩ := (child_copy hg a b).1 h
    have := hg.ends e he
    exact ⟨fun h => h0 (h ▸ this.1), fun h => h0 (h ▸ this.2)⟩
  have hs : ∀ e ∈ (assign g).suggested, e ∈ (assign g).nodes := by unfold assign; rw [h4]; simp
  obtain ⟨l, hl, -⟩ := topo_spec (valid_copy hg)
  have he := (standardSort_eq hs hl).1
  refine ⟨_, he, ?_, ?_⟩
  · rw [mem_elementals hs he]
    refine ⟨by unfold assign; rw [h1]; simp, fun c hc => (hno 0 c hc).1 rfl⟩
  · rintro ⟨p, hp⟩; exact (hno p 0 hp).2 rfl

/-- C57 fails: with any root other than 0 that has children (and, like every root, no `parameter`) the model can no longer name its
logsum parameters: reading them raises `KeyError`. -/
theorem C57_fails_keyerror (g : G) (hg : Valid g) (ha : Acyclic g) (hroot : g.root ≠ 0) (hp : g.nparam g.root = none) (n : Int)
    (hc : Child g g.root n) : logsumNames (assign g) = none := by
  obtain ⟨h1, h2, h3, h4, h5, h6⟩ := copy_spec hg
  have hv := valid_copy hg
  have hrn : g.root ∈ g.nodes := by obtain ⟨e, he, hu, -⟩ := hc; exact hu ▸ (hg.ends e he).1
  have hac : Acyclic (copy g) := by
    intro m hm
    exact ha m (Relation.TransGen.mono (fun a b h => (child_copy hg a b).1 h) m m hm)
  obtain ⟨l, hl, -, -, -, -⟩ := topo_spec hv
  have hcomp := topo_complete hv hac hl
  have hmem : g.root ∈ l.filter (fun n => (copy g).outDeg n ≠ 0) := by
    rw [List.mem_filter]
    refine ⟨hcomp _ ?_, ?_⟩
    · rw [h1]; simp [hroot, hrn]
    · simp only [decide_eq_true_eq, ne_eq, outDeg_eq_zero_iff]
      push Not
      exact ⟨n, (child_copy hg _ _).2 hc⟩
  have hnone : ∀ (f : Int → Option String) (l : List Int) (x : Int), x ∈ l → f x = none → l.mapM f = none := by
    intro f l x hx hf
    induction l with
    | nil => simp at hx
    | cons a t ih =>
      rw [List.mapM_cons]
      cases hfa : f a with
      | none => rfl
      | some y =>
        have hxt : x ∈ t := by
          rcases List.mem_cons.1 hx with rfl | h
          · rw [hf] at hfa; simp at hfa
          · exact h
        rw [ih hxt]
        rfl
  unfold logsumNames Graph.nests assign
  rw [hl, Option.map_some, Option.bind_some]
  apply hnone _ _ g.root
  · rw [List.mem_filter]
    refine ⟨hmem, ?_⟩
    rw [h3]
    simpa using hroot
  · rw [h5 _ hrn, hp]

/-- The model with alternatives 1, 2, 3 and root 99 (compare `larch/util/activitysim/auto_ownership.py:46-47`): the model's graph has
four alternatives and naming its logsum parameters raises. -/
example : elementals (initGraph 99 [1, 2, 3]) = some [0, 1, 2, 3] ∧ logsumNames (initGraph 99 [1, 2, 3]) = none ∧
    logsumNames (initGraph 99 [0, 1, 2]) = none ∧ logsumNames (initGraph 0 [1, 2, 3]) = some [] := by decide +kernel

/-! ## C56: every alternative's data is used for that alternative -/

theorem slotMap_alt {std alts rest : List Int} (hnd : std.Nodup) (h : std = alts ++ rest) {a : Int} (ha : a ∈ alts) :
    slotMap std a = some (alts.idxOf a) := by
  rw [slotMap_eq hnd (by rw [h]; simp [ha]), h, List.idxOf_append_of_mem ha]

/-- C56: data and graph use the same slot for every alternative exactly when the alternatives are listed in the data in the order of
the graph. -/
theorem C56_slots_agree_iff (g : G) (hg : Valid g) (ha : Acyclic g) (hn : g.suggested.Nodup) (hs : ∀ e ∈ g.suggested, e ∈ g.nodes)
    (alts codes : List Int) (he : elementals g = some alts) (hperm : codes.Perm alts) :
    (∀ a ∈ codes, graphSlot g a = some (dataSlot codes a)) ↔ codes = alts := by
  obtain ⟨alts', rest, he', hstd, hp, -, -⟩ := C13_standard_order g hg ha hn hs
  obtain rfl : alts' = alts := by rw [he'] at he; exact Option.some.inj he
  have hnd : (alts' ++ rest).Nodup := hp.nodup_iff.2 hg.nodup
  have hgs : ∀ a ∈ codes, graphSlot g a = some (alts'.idxOf a) := by
    intro a hac
    rw [graphSlot, hstd, Option.bind_some]
    exact slotMap_alt hnd rfl (hperm.mem_iff.1 hac)
  constructor
  · intro h
    apply List.ext_getElem hperm.length_eq
    intro i h1 h2
    have hca : codes.Nodup := hperm.nodup_iff.2 (List.nodup_append.1 hnd).1
    have h3 := h codes[i] (List.getElem_mem h1)
    rw [hgs _ (List.getElem_mem h1), dataSlot, hca.idxOf_getElem] at h3
    have h4 := Option.some.inj h3
    have h5 : alts'.idxOf codes[i] < alts'.length := by rw [h4]; exact h2
    have h6 := List.getElem_idxOf h5
    simp only [h4] at h6
    exact h6.symm
  · rintro rfl a hac
    rw [hgs a hac]; rfl

theorem addNode_plain {g : G} (hg : Valid g) {c : Int} (hc : c ∉ g.nodes) (hr : g.root ∈ g.nodes) :
    (addNode g c {}).1 = { g with nodes := g.nodes ++ [c], edges := g.edges ++ [⟨g.root, c, true, none⟩] } := by
  have hcr : c ≠ g.root := by rintro rfl; exact hc hr
  have h1 : nxAddNode g c = { g with nodes := g.nodes ++ [c] } := by simp [nxAddNode, hc]
  have hnp : ∀ e ∈ g.edges, ¬ e.v = c := fun e he h => hc (h ▸ (hg.ends e he).2)
  have h2 : (G.inEdges { g with nodes := g.nodes ++ [c] } c).isEmpty = true := by
    rw [List.isEmpty_iff, G.inEdges, List.filter_eq_nil_iff]
    intro e he
    simpa using hnp e he
  have h3 : G.hasEdge { g with nodes := g.nodes ++ [c] } g.root c = false := by
    rw [Bool.eq_false_iff, ne_eq, hasEdge_iff]
    rintro ⟨e, he, -, hv⟩
    exact hnp e he hv
  have hcore : addNodeCore g c {} = { g with nodes := g.nodes ++ [c], edges := g.edges ++ [⟨g.root, c, true, none⟩] } := by
    simp only [addNodeCore, h1, List.foldl_nil, h2, hcr, ne_eq, not_false_eq_true, and_self, if_true, addEdge, nxAddEdge]
    have h4 : nxAddNode (nxAddNode { g with nodes := g.nodes ++ [c] } g.root) c = { g with nodes := g.nodes ++ [c] } := by
      simp [nxAddNode, hr]
    rw [h4, h3]
    simp
  simp [addNode, setPhi, hcore]

theorem plainGraph_spec (codes : List Int) (g : G) (hg : Valid g) (hr : g.root ∈ g.nodes) (hnd : codes.Nodup)
    (hdis : ∀ c ∈ codes, c ∉ g.nodes) :
    codes.foldl (fun g a => (addNode g a {}).1) g =
      { g with nodes := g.nodes ++ codes, edges := g.edges ++ codes.map (fun c => ⟨g.root, c, true, none⟩) } := by
  induction codes generalizing g with
  | nil => simp
  | cons c t ih =>
    obtain ⟨hc, ht⟩ := List.nodup_cons.1 hnd
    have hv := hg.addNode c {}
    have h1 := addNode_plain hg (hdis c (by simp)) hr
    rw [List.foldl_cons]
    rw [h1] at hv ⊢
    rw [ih _ hv (by simp [hr]) ht]
    · simp
    · intro d hd
      have : d ≠ c := by rintro rfl; exact hc hd
      simp [hdis d (by simp [hd]), this]

/-- The graph that a model makes for alternatives without nests, root 0. -/
theorem initGraph_spec (codes : List Int) (hnd : codes.Nodup) (h0 : (0 : Int) ∉ codes) :
    Valid (initGraph 0 codes) ∧ Acyclic (initGraph 0 codes) ∧ (initGraph 0 codes).suggested = [] ∧
      (initGraph 0 codes).nodes = 0 :: codes ∧ (∀ a b, Child (initGraph 0 codes) a b ↔ a = 0 ∧ b ∈ codes) := by
  have hp := plainGraph_spec codes (new 0) (valid_new 0 []) (by simp [new]) hnd (by
    intro c hc; simp only [new, List.mem_singleton]; rintro rfl; exact h0 hc)
  have hpg : plainGraph 0 codes = G.mk (0 :: codes) (codes.map (fun c => ⟨0, c, true, none⟩)) (fun _ => none) 0 [] := by
    unfold plainGraph; rw [hp]; simp [new]
  have hv : Valid (plainGraph 0 codes) := by
    have : ∀ (l : List Int) (g : G), Valid g → Valid (l.foldl (fun g a => (addNode g a {}).1) g) := by
      intro l
      induction l with
      | nil => intro g hg; exact hg
      | cons a t ih => intro g hg; exact ih _ (hg.addNode a {})
    exact this codes _ (valid_new 0 [])
  obtain ⟨h1, h2, h3, h4, h5, h6⟩ := copy_spec hv
  have hch : ∀ a b, Child (initGraph 0 codes) a b ↔ a = 0 ∧ b ∈ codes := by
    intro a b
    rw [initGraph, assign, child_copy hv, hpg]
    simp only [Child, List.mem_map]
    constructor
    · rintro ⟨_, ⟨c, hc, rfl⟩, rfl, rfl⟩; exact ⟨rfl, hc⟩
    · rintro ⟨rfl, hb⟩; exact ⟨_, ⟨b, hb, rfl⟩, rfl, rfl⟩
  refine ⟨valid_copy hv, ?_, h4, ?_, hch⟩
  · apply acyclic_of_rank (fun n => if n = 0 then 1 else 0)
    intro e he
    have := (hch e.u e.v).1 ⟨e, he, rfl, rfl⟩
    rw [this.1]
    have hne : e.v ≠ 0 := by rintro h; rw [h] at this; exact h0 this.2
    simp [hne]
  · have : (initGraph 0 codes).nodes = _ := h1
    rw [this, hpg]
    congr 1
    simp only [ne_eq, not_true_eq_false, decide_false, Bool.false_eq_true, not_false_eq_true, List.filter_cons_of_neg]
    rw [List.filter_eq_self]
    intro a ha
    have : a ≠ 0 := by rintro rfl; exact h0 ha
    simpa using this

theorem initGraph_elementals (codes : List Int) (hnd : codes.Nodup) (h0 : (0 : Int) ∉ codes) (hne : codes ≠ []) :
    elementals (initGraph 0 codes) = some (codes.insertionSort (· ≤ ·)) := by
  obtain ⟨hv, -, hs, hnodes, hch⟩ := initGraph_spec codes hnd h0
  have hz : ∀ n ∈ (initGraph 0 codes).nodes, decide ((initGraph 0 codes).outDeg n = 0) = decide (n ≠ 0) := by
    intro n hn
    rw [decide_eq_decide, outDeg_eq_zero_iff]
    simp only [hch]
    constructor
    · rintro h rfl
      obtain ⟨c, t, rfl⟩ := List.ne_nil_iff_exists_cons.1 hne
      exact h c ⟨rfl, by simp⟩
    · rintro h c ⟨rfl, -⟩; exact h rfl
  unfold elementals
  rw [hs]
  simp only [List.all_nil, if_true, List.filter_nil, List.nil_append, List.not_mem_nil, not_false_eq_true, decide_true,
    List.filter_true]
  rw [List.filter_congr hz, hnodes]
  congr 2
  simp only [ne_eq, not_true_eq_false, decide_false, Bool.false_eq_true, not_false_eq_true, List.filter_cons_of_neg]
  rw [List.filter_eq_self]
  intro a ha
  have : a ≠ 0 := by rintro rfl; exact h0 ha
  simpa using this

/-- C56: for a model without nests made by larch itself, when the data list the alternatives by increasing code.  (Missing for the
full C56: any other order in the data.) -/
theorem C56_increasing_codes_partial (codes : List Int) (hs : codes.Pairwise (· < ·)) (h0 : (0 : Int) ∉ codes) :
    ∀ a ∈ codes, graphSlot (initGraph 0 codes) a = some (dataSlot codes a) := by
  by_cases hne : codes = []
  · subst hne; simp
  · have hnd : codes.Nodup := hs.imp (fun h => ne_of_lt h)
    obtain ⟨hv, ha, hsug, -, -⟩ := initGraph_spec codes hnd h0
    have he := initGraph_elementals codes hnd h0 hne
    have hsort : codes.insertionSort (· ≤ ·) = codes := List.Pairwise.insertionSort_eq (hs.imp (fun h => le_of_lt h))
    rw [hsort] at he
    exact (C56_slots_agree_iff _ hv ha (by rw [hsug]; simp) (by rw [hsug]; simp) codes codes he (List.Perm.refl _)).2 rfl

example : ([1, 2, 3, 7] : List Int).Pairwise (· < ·) ∧ (0 : Int) ∉ ([1, 2, 3, 7] : List Int) := by decide

/-- C56 fails: whenever the data list the alternatives in another order, some alternative's data sits in the slot that the graph
(nest membership, result labels) takes for another alternative. -/
theorem C56_fails_other_orders (codes : List Int) (hnd : codes.Nodup) (h0 : (0 : Int) ∉ codes)
    (hs : ¬ codes.Pairwise (· ≤ ·)) :
    ∃ a ∈ codes, ∃ b ∈ codes, a ≠ b ∧ graphSlot (initGraph 0 codes) b = some (dataSlot codes a) := by
  have hne : codes ≠ [] := by rintro rfl; simp at hs
  obtain ⟨hv, ha, hsug, -, -⟩ := initGraph_spec codes hnd h0
  have he := initGraph_elementals codes hnd h0 hne
  have hperm : codes.Perm (codes.insertionSort (· ≤ ·)) := (List.perm_insertionSort _ _).symm
  have hiff := C56_slots_agree_iff _ hv ha (by rw [hsug]; simp) (by rw [hsug]; simp) _ codes he hperm
  have hnot : ¬ ∀ a ∈ codes, graphSlot (initGraph 0 codes) a = some (dataSlot codes a) := by
    intro h
    have h1 := hiff.1 h
    apply hs
    rw [h1]
    exact List.pairwise_insertionSort _ _
  push Not at hnot
  obtain ⟨a, hac, hne'⟩ := hnot
  -- the alternative at the graph slot equal to a's data slot
  obtain ⟨alts', rest, he', hstd, hp, -, -⟩ := C13_standard_order _ hv ha (by rw [hsug]; simp) (by rw [hsug]; simp)
  obtain rfl : alts' = codes.insertionSort (· ≤ ·) := by rw [he'] at he; exact Option.some.inj he
  have hnd2 := hp.nodup_iff.2 hv.nodup
  have hlt : dataSlot codes a < (codes.insertionSort (· ≤ ·)).length := by
    rw [← hperm.length_eq]; exact List.idxOf_lt_length_of_mem hac
  have hb := List.getElem_mem hlt
  have hgb : graphSlot (initGraph 0 codes) (codes.insertionSort (· ≤ ·))[dataSlot codes a] = some (dataSlot codes a) := by
    rw [graphSlot, hstd, Option.bind_some, slotMap_alt hnd2 rfl hb]
    rw [(hperm.nodup_iff.1 hnd).idxOf_getElem]
  refine ⟨a, hac, _, hperm.mem_iff.2 hb, ?_, hgb⟩
  intro heq
  rw [← heq] at hgb
  exact hne' hgb

/-- C56 fails, concretely: alternatives listed in the data as 3, 1, 2, a nest over 1 and 2.  The nest's edges lead to slots 0 and 1,
where the data of alternatives 3 and 1 are. -/
theorem C56_fails_nest :
    let g := (newNode (initGraph 0 [3, 1, 2]) none { children := [1, 2], param := some "mu" }).1
    standardSort g = some [1, 2, 3, 4, 0] ∧ graphSlot g 1 = some (dataSlot [3, 1, 2] 3) ∧
      graphSlot g 2 = some (dataSlot [3, 1, 2] 1) ∧ (toTree g (fun _ => none)).map (fun T => T.edges) = some [(3, 0), (3, 1), (4, 2), (4, 3)] := by
  decide +kernel

/-! ## C58: changing the root -/

theorem foldl_top_child (top : List Edge) (x : Int) (g : G) (hnd : (top.map Edge.v).Nodup) (hno : ∀ e ∈ top, ¬ HasParent g e.v)
    (a b : Int) :
    Child (top.foldl (fun g a => addEdge g x a.v a.implied a.param) g) a b ↔ Child g a b ∨ (a = x ∧ ∃ e ∈ top, b = e.v) := by
  induction top generalizing g with
  | nil => simp
  | cons e t ih =>
    rw [List.map_cons, List.nodup_cons] at hnd
    rw [List.foldl_cons, ih _ hnd.2]
    · rw [child_addEdge]
      constructor
      · rintro ((⟨rfl, rfl⟩ | ⟨d, hd, rfl, rfl, -⟩) | ⟨rfl, d, hd, rfl⟩)
        · exact Or.inr ⟨rfl, e, by simp, rfl⟩
        · exact Or.inl ⟨d, hd, rfl, rfl⟩
        · exact Or.inr ⟨rfl, d, by simp [hd], rfl⟩
      · rintro (⟨d, hd, rfl, rfl⟩ | ⟨rfl, d, hd, rfl⟩)
        · refine Or.inl (Or.inr ⟨d, hd, rfl, rfl, fun _ hv => ?_⟩)
          exact absurd ⟨d.u, d, hd, rfl, hv⟩ (hno e (by simp))
        · rcases List.mem_cons.1 hd with rfl | hd
          · exact Or.inl (Or.inl ⟨rfl, rfl⟩)
          · exact Or.inr ⟨rfl, d, hd, rfl⟩
    · intro d hd hp
      rcases (hasParent_addEdge ..).1 hp with h | h
      · exact hnd.1 (List.mem_map.2 ⟨d, hd, h⟩)
      · exact hno d (by simp [hd]) h

/-- What the setter does to a tree and a new code. -/
theorem setRoot_spec {g : G} (hg : Valid g) (ht : IsTree g) {x : Int} (hx : x ∉ g.nodes) :
    ∃ h, setRoot g x = some h ∧ Valid h ∧ h.root = x ∧ (∀ n, n ∈ h.nodes ↔ n = x ∨ (n ∈ g.nodes ∧ n ≠ g.root)) ∧
      (∀ a b, Child h a b ↔ (a ≠ g.root ∧ Child g a b) ∨ (a = x ∧ Child g g.root b)) := by
  cases hr : removeNode g g.root with
  | none => exact absurd hr (by simp [removeNode, nxRemoveNode, ht.rooted.1])
  | some g' =>
    obtain ⟨-, r1, -, n1, ch, hv'⟩ := removeNode_spec hr
    have hnodes : ∀ m, m ∈ g'.nodes ↔ m ∈ g.nodes ∧ m ≠ g.root := by
      intro m
      rw [n1]
      constructor
      · rintro (h | ⟨-, h⟩ | ⟨h, -⟩)
        · exact h
        · exact absurd ⟨m, h⟩ ht.top
        · exact absurd h ht.top
      · exact Or.inl
    have hch : ∀ a b, Child g' a b ↔ Child g a b ∧ a ≠ g.root := by
      intro a b
      rw [ch]
      constructor
      · rintro (h | ⟨h, -⟩)
        · exact ⟨h.1, h.2.1⟩
        · exact absurd ⟨a, h⟩ ht.top
      · rintro ⟨h1, h2⟩
        refine Or.inl ⟨h1, h2, ?_⟩
        rintro rfl
        exact ht.top ⟨a, h1⟩
    have hx' : x ∉ g'.nodes := fun h => hx ((hnodes x).1 h).1
    have hroot : ({ g' with root := x } : G).root = x := rfl
    set g2 : G := (addNode { g' with root := x } x {}).1 with hg2
    have hv1 : Valid { g' with root := x } := ⟨(hv' hg).nodup, (hv' hg).pairs, (hv' hg).ends⟩
    have s2 := setPhi_spec (addNodeCore { g' with root := x } x {}) x []
    have c2 := addNodeCore_spec { g' with root := x } x {}
    have hg2' : g2 = (setPhi (addNodeCore { g' with root := x } x {}) x []).1 := by
      rw [hg2]; simp [addNode]
    have n2 : ∀ m, m ∈ g2.nodes ↔ m ∈ g'.nodes ∨ m = x := by
      intro m
      rw [hg2', s2.2.2.1, c2.2.2.2.1]
      simp
    have e2 : g2.edges = g'.edges := by
      rw [hg2]
      simp only [addNode, setPhi, Option.isSome_none, Bool.false_eq_true, and_self, if_false]
      simp [addNodeCore]
    have ch2 : ∀ a b, Child g2 a b ↔ Child g' a b := by intro a b; simp only [Child, e2]
    have r2 : g2.root = x := by rw [hg2', s2.1, c2.1]
    have hx2 : x ∈ g2.nodes := (n2 x).2 (Or.inr rfl)
    have hv2 : Valid g2 := by rw [hg2]; exact hv1.addNode x {}
    obtain ⟨f1, f2, f3, f4⟩ := foldl_top (g.outEdges g.root) x g2
    have htop : ∀ b, (∃ e ∈ g.outEdges g.root, b = e.v) ↔ Child g g.root b := by
      intro b
      rw [← mem_children, List.mem_map]
      constructor
      · rintro ⟨e, he, rfl⟩; exact ⟨e, he, rfl⟩
      · rintro ⟨e, he, rfl⟩; exact ⟨e, he, rfl⟩
    have fc := foldl_top_child (g.outEdges g.root) x g2 (nodup_children hg _) (by
      rintro e he ⟨p, hp⟩
      rw [ch2, hch] at hp
      have : Child g g.root e.v := (htop e.v).1 ⟨e, he, rfl⟩
      exact hp.2 (ht.one p g.root e.v hp.1 this))
    refine ⟨(g.outEdges g.root).foldl (fun g a => addEdge g x a.v a.implied a.param) g2, ?_, f4 hv2, by rw [f1, r2], ?_, ?_⟩
    · unfold setRoot
      rw [hr]
      simp only [Option.map_some, if_neg hx']
      rfl
    · intro n
      rw [f2 hx2, n2, hnodes, htop]
      constructor
      · rintro ((h | h) | h)
        · exact Or.inr h
        · exact Or.inl h
        · obtain ⟨e, he, hu, rfl⟩ := h
          refine Or.inr ⟨(hg.ends e he).2, ?_⟩
          intro hroot'
          exact ht.top ⟨e.u, e, he, rfl, hroot'⟩
      · rintro (h | h)
        · exact Or.inl (Or.inr h)
        · exact Or.inl (Or.inl h)
    · intro a b
      rw [fc, ch2, hch, htop]
      tauto

/-- C58: giving a nesting tree a root code that is not in use keeps the tree: the former children of the root are the children of the
new root, nothing else changes, and the result is again a tree.  (Missing for the full C58: codes in use, `C58_fails_*`.) -/
theorem C58_new_root_partial (g : G) (hg : Valid g) (ht : IsTree g) (x : Int) (hx : x ∉ g.nodes) :
    ∃ h, setRoot g x = some h ∧ IsTree h ∧ h.root = x ∧ (∀ n, n ∈ h.nodes ↔ n = x ∨ (n ∈ g.nodes ∧ n ≠ g.root)) ∧
      (∀ a b, Child h a b ↔ (a ≠ g.root ∧ Child g a b) ∨ (a = x ∧ Child g g.root b)) := by
  obtain ⟨h, hh, hv, hr, hn, hc⟩ := setRoot_spec hg ht hx
  refine ⟨h, hh, ?_, hr, hn, hc⟩
  have hin : ∀ a b, Child g a b → a ∈ g.nodes ∧ b ∈ g.nodes := by
    rintro a b ⟨e, he, rfl, rfl⟩; exact hg.ends e he
  refine ⟨⟨by rw [hr, hn]; exact Or.inl rfl, ?_⟩, ?_, ?_, ?_, ?_⟩
  · intro n hmem hnr
    rw [hr] at hnr
    rcases (hn n).1 hmem with h1 | ⟨h1, h2⟩
    · exact absurd h1 hnr
    · obtain ⟨p, hp⟩ := ht.rooted.2 n h1 h2
      by_cases hpr : p = g.root
      · exact ⟨x, (hc x n).2 (Or.inr ⟨rfl, hpr ▸ hp⟩)⟩
      · exact ⟨p, (hc p n).2 (Or.inl ⟨hpr, hp⟩)⟩
  · -- a path in h is a path in g with x read as the old root
    have key : ∀ a b, Relation.TransGen (Child h) a b →
        Relation.TransGen (Child g) (if a = x then g.root else a) b ∧ b ≠ x := by
      have one : ∀ a b, Child h a b → Child g (if a = x then g.root else a) b ∧ b ≠ x := by
        intro a b hab
        rcases (hc a b).1 hab with ⟨h1, h2⟩ | ⟨rfl, h2⟩
        · have hax : a ≠ x := by rintro rfl; exact hx (hin _ _ h2).1
          rw [if_neg hax]
          exact ⟨h2, by rintro rfl; exact hx (hin _ _ h2).2⟩
        · rw [if_pos rfl]
          exact ⟨h2, by rintro rfl; exact hx (hin _ _ h2).2⟩
      intro a b hab
      induction hab with
      | single h1 => exact ⟨.single (one _ _ h1).1, (one _ _ h1).2⟩
      | tail _ h1 ih =>
        have h2 := one _ _ h1
        rw [if_neg ih.2] at h2
        exact ⟨ih.1.tail h2.1, h2.2⟩
    intro n hcyc
    obtain ⟨h1, h2⟩ := key n n hcyc
    rw [if_neg h2] at h1
    exact ht.acyclic n h1
  · intro a b n h1 h2
    rcases (hc a n).1 h1 with ⟨ha, h1⟩ | ⟨rfl, h1⟩
    · rcases (hc b n).1 h2 with ⟨hb, h2⟩ | ⟨rfl, h2⟩
      · exact ht.one a b n h1 h2
      · exact absurd (ht.one a g.root n h1 h2) ha
    · rcases (hc b n).1 h2 with ⟨hb, h2⟩ | ⟨rfl, h2⟩
      · exact absurd (ht.one b g.root n h2 h1) hb
      · rfl
  · rw [hr]
    rintro ⟨p, hp⟩
    rcases (hc p x).1 hp with ⟨-, h1⟩ | ⟨-, h1⟩
    · exact hx (hin _ _ h1).2
    · exact hx (hin _ _ h1).2
  · obtain ⟨n, hn'⟩ := ht.nonempty
    rw [hr]
    exact ⟨n, (hc x n).2 (Or.inr ⟨rfl, hn'⟩)⟩

example : IsTree (run (new 0) demoOps) ∧ (-5 : Int) ∉ (run (new 0) demoOps).nodes := ⟨demo_tree, by decide +kernel⟩

/-- C58 fails: making a child of the root the new root gives that node an edge to itself; every graph order then loses it. -/
theorem C58_fails_child_as_root :
    let g := run (new 0) [.addNode 1 {}, .addNode 2 {}, .newNode none { children := [1] }, .setRoot 3]
    Child g 3 3 ∧ standardSort g = some [1, 2] := by
  refine ⟨⟨⟨3, 3, true, none⟩, by decide +kernel, rfl, rfl⟩, by decide +kernel⟩

end Larch.Props
