import Verif.Lemmas.GraphOrder

/-!
# C12, C13, C14, C17: the nesting graph
-/

namespace Larch.Props

open Larch.Graph

/-! ## C12 -/

/-- What every history leaves intact: no node twice, no edge twice, edges only between nodes. -/
theorem C12_valid (r : Int) (s : List Int) (ops : List Op) : Valid (run (new r s) ops) := (valid_new r s).run ops

theorem rooted_addNode {g : G} (hg : Rooted g) (c : Int) (a : NodeArgs)
    (h1 : ∀ p, a.parent = some p → p ∈ g.nodes)
    (h2 : ∀ ps, a.parents = some ps → (∀ p ∈ ps, p ∈ g.nodes) ∧ (ps = [] → c ∈ g.nodes)) : Rooted (addNode g c a).1 := by
  unfold addNode
  split
  · exact hg
  · rename_i hboth
    obtain ⟨p1, -, p3, -, p5, -⟩ := setPhi_spec (addNodeCore g c a) c a.phi
    obtain ⟨c1, -, -, c4, c5⟩ := addNodeCore_spec g c a
    refine ⟨?_, ?_⟩
    · rw [p3, p1, c1, c4]; exact Or.inl hg.1
    · intro n hn hnr
      rw [p3, c4] at hn
      rw [p1, c1] at hnr
      have : HasParent (addNodeCore g c a) n := by
        rw [c5]
        rcases hn with hn | hn | hn | hn
        · exact Or.inl (hg.2 n hn hnr)
        · subst hn
          by_cases hold : n ∈ g.nodes
          · exact Or.inl (hg.2 n hold hnr)
          · refine Or.inr (Or.inr ⟨rfl, ?_⟩)
            rcases hp : a.parent with _ | p
            · rcases hps : a.parents with _ | ps
              · exact hnr
              · exact fun h => hold ((h2 ps hps).2 h)
            · trivial
        · exact Or.inr (Or.inl hn)
        · have : n ∈ g.nodes := by
            rcases hp : a.parent with _ | p
            · rcases hps : a.parents with _ | ps
              · rw [hp, hps] at hn
                exact absurd hn.1 hnr
              · rw [hp, hps] at hn
                exact (h2 ps hps).1 n hn
            · rw [hp] at hn
              simp only at hn
              exact hn ▸ h1 p hp
          exact Or.inl (hg.2 n this hnr)
      obtain ⟨p, hp⟩ := this
      exact ⟨p, (p5 p n).2 hp⟩

theorem rooted_step {g : G} (hg : Rooted g) (hv : Valid g) (o : Op) (ho : Polite g o) : Rooted (step g o).1 := by
  cases o with
  | addEdge u v i p =>
    refine ⟨?_, ?_⟩
    · simp only [step, mem_nodes_addEdge, root_addEdge]; exact Or.inl hg.1
    · intro n hn hr
      simp only [step, mem_nodes_addEdge, root_addEdge] at hn hr
      simp only [step, hasParent_addEdge]
      rcases hn with hn | rfl | hn
      · exact Or.inr (hg.2 n hn hr)
      · exact Or.inr (hg.2 n ho hr)
      · exact Or.inl hn
  | removeEdge u v =>
    simp only [step]
    cases hh : removeEdge g u v with
    | none => exact hg
    | some h =>
      obtain ⟨g', -, e1, e2, r1, n1, -, -, ch⟩ := removeEdge_spec hh
      have hp : ∀ n, n ≠ v → HasParent g n → HasParent g' n := by
        rintro n hnv ⟨p, hp⟩
        exact ⟨p, (ch p n).2 ⟨hp, fun h => hnv h.2⟩⟩
      simp only
      by_cases hc : ¬ HasParent g' v ∧ v ≠ g.root
      · rw [e1 hc]
        refine ⟨?_, ?_⟩
        · rw [mem_nodes_addEdge, root_addEdge, n1, r1]; exact Or.inl hg.1
        · intro n hn hr
          rw [mem_nodes_addEdge, n1] at hn
          rw [root_addEdge, r1] at hr
          rw [hasParent_addEdge]
          by_cases hnv : n = v
          · exact Or.inl hnv
          · refine Or.inr (hp n hnv ?_)
            rcases hn with hn | hn | hn
            · exact hg.2 n hn hr
            · exact absurd hn hr
            · exact absurd hn hnv
      · rw [e2 hc]
        refine ⟨by rw [n1, r1]; exact hg.1, ?_⟩
        intro n hn hr
        rw [n1] at hn
        rw [r1] at hr
        by_cases hnv : n = v
        · subst hnv
          by_contra h
          exact hc ⟨h, hr⟩
        · exact hp n hnv (hg.2 n hn hr)
  | addNode c a => exact rooted_addNode hg c a ho.1 ho.2
  | newNode c a =>
    simp only [step, newNode]
    cases proposeCode g c with
    | none => exact hg
    | some d => exact rooted_addNode hg d a ho.1 (fun ps h => ⟨(ho.2 ps h).1, fun h' => absurd h' (ho.2 ps h).2⟩)
  | removeNode n =>
    simp only [step]
    cases hh : removeNode g n with
    | none => exact hg
    | some h =>
      obtain ⟨hn, r1, -, n1, ch, -⟩ := removeNode_spec hh
      have hno : n ≠ g.root := ho
      have hpn : HasParent g n := hg.2 n hn hno
      simp only
      refine ⟨by rw [n1, r1]; exact Or.inl ⟨hg.1, hno.symm⟩, ?_⟩
      intro m hm hr
      rw [r1] at hr
      rw [n1] at hm
      have key : m ∈ g.nodes → HasParent g m := fun h => hg.2 m h hr
      have hmn : ∀ a, Child g a m → a ≠ n → m ≠ n → HasParent h m := fun a ha h1 h2 =>
        ⟨a, (ch a m).2 (Or.inl ⟨ha, h1, h2⟩)⟩
      have hsub : Child g n m → HasParent h m := by
        intro hc
        obtain ⟨q, hq⟩ := hpn
        exact ⟨q, (ch q m).2 (Or.inr ⟨hq, hc⟩)⟩
      rcases hm with ⟨hm, hne⟩ | ⟨-, hc⟩ | ⟨-, hc⟩
      · obtain ⟨a, ha⟩ := key hm
        by_cases han : a = n
        · subst han; exact hsub ha
        · exact hmn a ha han hne
      · have hmg : m ∈ g.nodes := by
          obtain ⟨e, he, rfl, -⟩ := hc
          exact (hv.ends e he).1
        by_cases hmn' : m = n
        · subst hmn'; exact hsub hc
        · obtain ⟨a, ha⟩ := key hmg
          by_cases han : a = n
          · subst han; exact hsub ha
          · exact hmn a ha han hmn'
      · exact hsub hc
  | setRoot x =>
    simp only [step]
    cases hh : setRoot g x with
    | none => exact hg
    | some h =>
      simp only
      unfold setRoot at hh
      cases hr : removeNode g g.root with
      | none => simp [hr] at hh
      | some g' =>
        simp only [hr, Option.map_some, Option.some.injEq] at hh
        obtain ⟨-, -, -, n1, ch, -⟩ := removeNode_spec hr
        set g2 : G := if x ∈ g'.nodes then { g' with root := x } else (addNode { g' with root := x } x {}).1 with hg2
        have r2 : g2.root = x := by
          rw [hg2]
          split
          · rfl
          · simp only [addNode]
            exact (setPhi_spec _ _ _).1.trans (addNodeCore_spec _ _ _).1
        have n2 : ∀ m, m ∈ g2.nodes ↔ m ∈ g'.nodes ∨ m = x := by
          intro m
          rw [hg2]
          split
          · rename_i hx
            constructor
            · exact Or.inl
            · rintro (h | rfl)
              · exact h
              · exact hx
          · simp only [addNode, Option.isSome_none, Bool.false_eq_true, and_self, if_false]
            rw [(setPhi_spec _ _ _).2.2.1, (addNodeCore_spec _ _ _).2.2.2.1]
            simp
        have p2 : ∀ m, HasParent g2 m ↔ HasParent g' m := by
          intro m
          rw [hg2]
          split
          · rfl
          · simp only [addNode, Option.isSome_none, Bool.false_eq_true, and_self, if_false]
            have h5 := (setPhi_spec (addNodeCore { g' with root := x } x {}) x []).2.2.2.2.1
            have h6 := (addNodeCore_spec { g' with root := x } x {}).2.2.2.2 m
            simp at h6
            constructor
            · rintro ⟨p, hp⟩
              exact h6.1 ⟨p, (h5 p m).1 hp⟩
            · intro hp
              obtain ⟨p, hp⟩ := h6.2 hp
              exact ⟨p, (h5 p m).2 hp⟩
        have hx2 : x ∈ g2.nodes := (n2 x).2 (Or.inr rfl)
        obtain ⟨f1, f2, f3, -⟩ := foldl_top (g.outEdges g.root) x g2
        have f2' := f2 hx2
        have hh' : (g.outEdges g.root).foldl (fun g a => addEdge g x a.v a.implied a.param) g2 = h := by
          rw [← hh, hg2]
        rw [hh'] at f1 f2' f3
        have hch : ∀ m, (∃ a ∈ g.outEdges g.root, m = a.v) ↔ Child g g.root m := by
          intro m
          simp only [G.outEdges, List.mem_filter, decide_eq_true_eq, Child]
          constructor
          · rintro ⟨e, ⟨he, hu⟩, rfl⟩; exact ⟨e, he, hu, rfl⟩
          · rintro ⟨e, he, hu, rfl⟩; exact ⟨e, ⟨he, hu⟩, rfl⟩
        refine ⟨by rw [f1, r2, f2']; exact Or.inl hx2, ?_⟩
        intro m hm hmr
        rw [f1, r2] at hmr
        rw [f2', n2, n1, hch] at hm
        rw [f3, p2, hch]
        by_cases hroot : Child g g.root m
        · exact Or.inr hroot
        · left
          have hmem : m ∈ g.nodes ∧ (m ≠ g.root ∨ Child g m g.root) := by
            rcases hm with ((⟨h1, h2⟩ | ⟨-, hc⟩ | ⟨-, hc⟩) | h) | h
            · exact ⟨h1, Or.inl h2⟩
            · obtain ⟨e, he, rfl, hv'⟩ := hc
              exact ⟨(hv.ends e he).1, Or.inr ⟨e, he, rfl, hv'⟩⟩
            · exact absurd hc hroot
            · exact absurd h hmr
            · exact absurd h hroot
          have hne : m ≠ g.root := by
            rintro rfl
            rcases hmem.2 with h | h
            · exact h rfl
            · exact hroot h
          obtain ⟨a, ha⟩ := hg.2 m hmem.1 hne
          have han : a ≠ g.root := by rintro rfl; exact hroot ha
          exact ⟨a, (ch a m).2 (Or.inl ⟨ha, han, hne⟩)⟩
  | suggest o => exact hg

/-- C12: after any sequence of calls that start edges at existing nodes, name existing parents and do not remove the root, every
node other than the root has a parent.  (Missing for the full C12: `C12_fails_*` below.) -/
theorem C12_rooted_partial (r : Int) (s : List Int) (ops : List Op) (h : PoliteRun (new r s) ops) :
    ∀ n ∈ (run (new r s) ops).nodes, n ≠ (run (new r s) ops).root → ∃ p, Child (run (new r s) ops) p n := by
  have key : ∀ (g : G), Rooted g → Valid g → PoliteRun g ops → Rooted (run g ops) := by
    clear h
    induction ops with
    | nil => intro g hg _ _; exact hg
    | cons o t ih =>
      intro g hg hv hp
      exact ih (step g o).1 (rooted_step hg hv o hp.1) (hv.step o) hp.2
  exact (key (new r s) ⟨by simp [new], by simp [new]⟩ (valid_new r s) h).2

theorem wf_parent {g : G} (hg : Valid g) (ha : Acyclic g) : WellFounded (fun a b : Int => Child g a b) := by
  classical
  let S := {n : Int // n ∈ g.nodes}
  have hfin : Finite S := List.finite_toSet g.nodes
  let r : S → S → Prop := fun a b => Relation.TransGen (Child g) a.1 b.1
  have htr : IsTrans S r := ⟨fun a b c hab hbc => hab.trans hbc⟩
  have hir : Std.Irrefl r := ⟨fun a h => ha _ h⟩
  have hwf : WellFounded r := Finite.wellFounded_of_trans_of_irrefl r
  have key : ∀ s : S, Acc (fun a b : Int => Child g a b) s.1 := by
    intro s
    induction s using hwf.induction with
    | _ s ih =>
      refine ⟨_, fun y hy => ?_⟩
      have hyn : y ∈ g.nodes := by
        obtain ⟨e, he, rfl, -⟩ := hy
        exact (hg.ends e he).1
      exact ih ⟨y, hyn⟩ (Relation.TransGen.single hy)
  refine ⟨fun a => ⟨_, fun y hy => ?_⟩⟩
  have hyn : y ∈ g.nodes := by
    obtain ⟨e, he, rfl, -⟩ := hy
    exact (hg.ends e he).1
  exact key ⟨y, hyn⟩

/-- C12, as the title says it: if moreover no cycle was made, every node hangs below the root. -/
theorem C12_reachable_partial (r : Int) (s : List Int) (ops : List Op) (h : PoliteRun (new r s) ops)
    (ha : Acyclic (run (new r s) ops)) :
    ∀ n ∈ (run (new r s) ops).nodes, Relation.ReflTransGen (Child (run (new r s) ops)) (run (new r s) ops).root n := by
  have hp := C12_rooted_partial r s ops h
  have hv := C12_valid r s ops
  intro n
  induction n using (wf_parent hv ha).induction with
  | _ n ih =>
    intro hn
    by_cases hr : n = (run (new r s) ops).root
    · rw [hr]
    · obtain ⟨p, hpn⟩ := hp n hn hr
      have hpm : p ∈ (run (new r s) ops).nodes := by
        obtain ⟨e, he, rfl, -⟩ := hpn
        exact (hv.ends e he).1
      exact (ih p hpn hpm).tail hpn

/-- The nested logit of the larch tutorials, and then some: alternatives 1-5, a nest over 4 and 5, a second level, an edge taken
out, a nest removed, the root renamed. -/
def demoOps : List Op :=
  [.addNode 1 {}, .addNode 2 {}, .addNode 3 {}, .addNode 4 {}, .addNode 5 {},
   .newNode none { children := [4, 5], param := some "mu_a" }, .newNode (some 11) { children := [6, 3], parent := some 0 },
   .addNode 12 { parents := some [0, 11] }, .removeEdge 0 12, .addEdge 12 2 false none, .removeEdge 12 2, .removeNode 12,
   .removeEdge 7 7, .newNode (some 11) {}, .setRoot 99]

example : PoliteRun (new 0) demoOps ∧ (run (new 0) demoOps).nodes = [1, 2, 3, 4, 5, 6, 11, 99] ∧
    (run (new 0) demoOps).edges.map (fun e => (e.u, e.v)) = [(6, 4), (6, 5), (11, 6), (11, 3), (99, 1), (99, 11), (99, 2)] := by
  refine ⟨?_, by decide +kernel, by decide +kernel⟩
  simp only [demoOps, PoliteRun, Polite, and_true]
  refine ⟨by simp, by simp, by simp, by simp, by simp, by simp, ⟨?_, by simp⟩, ⟨by simp, ?_⟩, trivial, ?_, trivial, ?_, trivial,
    by simp⟩
  · rintro p ⟨⟩; decide +kernel
  · rintro ps ⟨⟩; decide +kernel
  · decide +kernel
  · decide +kernel

/-- C12 fails: an edge from a code that is not a node creates that node without a parent. -/
theorem C12_fails_edge_from_new_node (g : G) (hg : Valid g) (u v : Int) (hu : u ∉ g.nodes) (huv : u ≠ v) (hr : u ≠ g.root) :
    let g' := (step g (.addEdge u v false none)).1
    u ∈ g'.nodes ∧ u ≠ g'.root ∧ ¬ ∃ p, Child g' p u := by
  simp only [step]
  refine ⟨by rw [mem_nodes_addEdge]; simp, by simpa using hr, ?_⟩
  intro h
  rcases (hasParent_addEdge ..).1 h with h | ⟨p, e, he, -, h2⟩
  · exact huv h
  · exact hu (h2 ▸ (hg.ends e he).2)

/-- C12 fails: `add_node(code, parents=[])` leaves the new node without a parent. -/
theorem C12_fails_no_parents (g : G) (hg : Valid g) (c : Int) (hc : c ∉ g.nodes) (hr : c ≠ g.root) :
    let g' := (step g (.addNode c { parents := some [] })).1
    c ∈ g'.nodes ∧ c ≠ g'.root ∧ ¬ ∃ p, Child g' p c := by
  simp only [step, addNode, setPhi]
  obtain ⟨c1, -, -, c4, c5⟩ := addNodeCore_spec g c { parents := some [] }
  refine ⟨(c4 c).2 (Or.inr (Or.inl rfl)), ?_, ?_⟩
  · simp only [Option.isSome_some, Option.isSome_none, Bool.false_eq_true, and_false, if_false]
    rw [c1]; exact hr
  · simp only [Option.isSome_some, Option.isSome_none, Bool.false_eq_true, and_false, if_false]
    intro h
    rcases (c5 c).1 h with ⟨p, e, he, -, h2⟩ | h | h
    · exact hc (h2 ▸ (hg.ends e he).2)
    · simp at h
    · simp at h

/-- C12 fails: removing the root orphans the nodes that had no other parent. -/
theorem C12_fails_remove_root (g : G) (htop : ¬ HasParent g g.root) (hr : g.root ∈ g.nodes) (n : Int)
    (hn : n ∈ g.nodes) (hnr : n ≠ g.root) (hp : ∀ p, Child g p n → p = g.root) :
    let g' := (step g (.removeNode g.root)).1
    n ∈ g'.nodes ∧ n ≠ g'.root ∧ ¬ ∃ p, Child g' p n := by
  simp only [step]
  cases hh : removeNode g g.root with
  | none => simp [removeNode, nxRemoveNode, hr] at hh
  | some h =>
    obtain ⟨-, r1, -, n1, ch, -⟩ := removeNode_spec hh
    refine ⟨(n1 n).2 (Or.inl ⟨hn, hnr⟩), by simp only; rw [r1]; exact hnr, ?_⟩
    rintro ⟨p, hpc⟩
    rcases (ch p n).1 hpc with ⟨h1, h2, -⟩ | ⟨h1, -⟩
    · exact h2 (hp p h1)
    · exact htop ⟨p, h1⟩

example : (1 : Int) ∈ (run (new 0) [.addNode 1 {}, .removeNode 0]).nodes ∧ (run (new 0) [.addNode 1 {}, .removeNode 0]).root = 0 ∧
    (run (new 0) [.addNode 1 {}, .removeNode 0]).edges = [] := by decide +kernel

/-! ## C13 -/

theorem standardSort_eq {g : G} (hs : ∀ e ∈ g.suggested, e ∈ g.nodes) {l : List Int} (hl : topo g = some l) :
    elementals g = some (g.suggested.filter (fun e => g.outDeg e = 0) ++
      ((g.nodes.filter (fun n => g.outDeg n = 0)).insertionSort (· ≤ ·)).filter
        (fun e => e ∉ g.suggested.filter (fun e => g.outDeg e = 0))) ∧
    standardSort g = some (g.suggested.filter (fun e => g.outDeg e = 0) ++
      ((g.nodes.filter (fun n => g.outDeg n = 0)).insertionSort (· ≤ ·)).filter
        (fun e => e ∉ g.suggested.filter (fun e => g.outDeg e = 0)) ++ l.filter (fun n => g.outDeg n ≠ 0)) := by
  have h1 : g.suggested.all (fun e => e ∈ g.nodes) = true := by simpa using hs
  refine ⟨?_, ?_⟩
  · unfold elementals
    rw [if_pos h1]
  · unfold standardSort elementals nests
    rw [if_pos h1, hl]
    rfl

theorem mem_elementals {g : G} (hs : ∀ e ∈ g.suggested, e ∈ g.nodes) {alts : List Int} (h : elementals g = some alts) (n : Int) :
    n ∈ alts ↔ n ∈ g.nodes ∧ ∀ c, ¬ Child g n c := by
  have h1 : g.suggested.all (fun e => e ∈ g.nodes) = true := by simpa using hs
  unfold elementals at h
  rw [if_pos h1] at h
  simp only [Option.some.injEq] at h
  rw [← h, ← outDeg_eq_zero_iff]
  simp only [List.mem_append, List.mem_filter, decide_eq_true_eq, List.mem_insertionSort]
  constructor
  · rintro (⟨h1, h2⟩ | ⟨h1, -⟩)
    · exact ⟨hs n h1, h2⟩
    · exact h1
  · rintro ⟨h1, h2⟩
    by_cases hn : n ∈ g.suggested
    · exact Or.inl ⟨hn, h2⟩
    · exact Or.inr ⟨⟨h1, h2⟩, fun h => hn h.1⟩

theorem nodup_elementals {g : G} (hg : Valid g) (hn : g.suggested.Nodup) (hs : ∀ e ∈ g.suggested, e ∈ g.nodes) {alts : List Int}
    (h : elementals g = some alts) : alts.Nodup := by
  have h1 : g.suggested.all (fun e => e ∈ g.nodes) = true := by simpa using hs
  unfold elementals at h
  rw [if_pos h1] at h
  simp only [Option.some.injEq] at h
  rw [← h, List.nodup_append]
  refine ⟨hn.filter _, ?_, ?_⟩
  · exact ((List.perm_insertionSort _ _).nodup_iff.2 (hg.nodup.filter _)).filter _
  · rintro a ha b hb rfl
    have := (List.mem_filter.1 hb).2
    simp only [decide_eq_true_eq] at this
    exact this ha

/-- C13: for a graph without cycles (whose suggested alternative order, if any, names nodes of the graph once each) the standard
order exists, lists every node exactly once, starts with the childless nodes, and lists every child before each of its parents. -/
theorem C13_standard_order (g : G) (hg : Valid g) (ha : Acyclic g) (hn : g.suggested.Nodup)
    (hs : ∀ e ∈ g.suggested, e ∈ g.nodes) :
    ∃ alts rest, elementals g = some alts ∧ standardSort g = some (alts ++ rest) ∧
      (alts ++ rest).Perm g.nodes ∧
      (∀ n, n ∈ alts ↔ n ∈ g.nodes ∧ ∀ c, ¬ Child g n c) ∧
      (∀ u v, Child g u v → Before (alts ++ rest) v u) := by
  obtain ⟨l, hl, hnd, hsub, hord, -⟩ := topo_spec hg
  obtain ⟨he, hstd⟩ := standardSort_eq hs hl
  have hcomp := topo_complete hg ha hl
  set alts := g.suggested.filter (fun e => g.outDeg e = 0) ++
      ((g.nodes.filter (fun n => g.outDeg n = 0)).insertionSort (· ≤ ·)).filter
        (fun e => e ∉ g.suggested.filter (fun e => g.outDeg e = 0)) with halts
  have hmem := mem_elementals hs he
  have hna := nodup_elementals hg hn hs he
  have hrest : ∀ n, n ∈ l.filter (fun n => g.outDeg n ≠ 0) ↔ n ∈ g.nodes ∧ ∃ c, Child g n c := by
    intro n
    rw [List.mem_filter]
    simp only [decide_eq_true_eq]
    rw [ne_eq, outDeg_eq_zero_iff]
    push Not
    exact and_congr_left fun _ => ⟨hsub n, hcomp n⟩
  refine ⟨alts, l.filter (fun n => g.outDeg n ≠ 0), he, hstd, ?_, hmem, ?_⟩
  · rw [List.perm_ext_iff_of_nodup]
    · intro n
      rw [List.mem_append, hmem, hrest]
      constructor
      · rintro (h | h) <;> exact h.1
      · intro h
        by_cases hc : ∃ c, Child g n c
        · exact Or.inr ⟨h, hc⟩
        · push Not at hc; exact Or.inl ⟨h, hc⟩
    · rw [List.nodup_append]
      refine ⟨hna, hnd.filter _, ?_⟩
      rintro a h1 b h2 rfl
      obtain ⟨c, hc⟩ := ((hrest a).1 h2).2
      exact ((hmem a).1 h1).2 c hc
    · exact hg.nodup
  · intro u v huv
    have hun : u ∈ g.nodes := by obtain ⟨e, he, rfl, -⟩ := huv; exact (hg.ends e he).1
    have hvn : v ∈ g.nodes := by obtain ⟨e, he, -, rfl⟩ := huv; exact (hg.ends e he).2
    by_cases hv : ∃ c, Child g v c
    · obtain ⟨l1, l2, rfl⟩ := List.append_of_mem (hcomp u hun)
      obtain ⟨x, y, rfl⟩ := List.append_of_mem (hord l1 u l2 rfl v huv)
      have h1 : g.outDeg u ≠ 0 := by rw [ne_eq, outDeg_eq_zero_iff]; push Not; exact ⟨v, huv⟩
      have h2 : g.outDeg v ≠ 0 := by rw [ne_eq, outDeg_eq_zero_iff]; push Not; exact hv
      refine ⟨alts ++ x.filter (fun n => g.outDeg n ≠ 0), y.filter (fun n => g.outDeg n ≠ 0),
        l2.filter (fun n => g.outDeg n ≠ 0), ?_⟩
      simp [h1, h2]
    · push Not at hv
      obtain ⟨x, y, hxy⟩ := List.append_of_mem ((hmem v).2 ⟨hvn, hv⟩)
      obtain ⟨z, w, hzw⟩ := List.append_of_mem ((hrest u).2 ⟨hun, v, huv⟩)
      refine ⟨x, y ++ z, w, ?_⟩
      rw [hxy, hzw]
      simp

/-- C13, order of the alternatives: the suggested ones first, in the suggested order, then the others by increasing code. -/
theorem C13_alternatives_order (g : G) (hs : ∀ e ∈ g.suggested, e ∈ g.nodes) :
    ∃ others, elementals g = some (g.suggested.filter (fun e => g.edges.all (fun d => d.u ≠ e)) ++ others) ∧
      others.Pairwise (· ≤ ·) ∧ ∀ n ∈ others, n ∉ g.suggested := by
  have h1 : g.suggested.all (fun e => e ∈ g.nodes) = true := by simpa using hs
  have h2 : ∀ e, decide (g.outDeg e = 0) = g.edges.all (fun d => d.u ≠ e) := by
    intro e
    rw [Bool.eq_iff_iff]
    simp [G.outDeg, G.outEdges]
  refine ⟨((g.nodes.filter (fun n => g.outDeg n = 0)).insertionSort (· ≤ ·)).filter
        (fun e => e ∉ g.suggested.filter (fun e => g.outDeg e = 0)), ?_, ?_, ?_⟩
  · unfold elementals
    rw [if_pos h1]
    simp only [h2]
  · exact (List.pairwise_insertionSort _ _).filter _
  · intro n hn hns
    simp only [List.mem_filter, List.mem_insertionSort, decide_eq_true_eq, not_and] at hn
    exact hn.2 hns hn.1.2

/-- The order of the demo graph: alternatives, then nest 6, nest 11 and the root. -/
example : standardSort (run (new 0) demoOps) = some [1, 2, 3, 4, 5, 6, 11, 99] := by decide +kernel

/-- and with a suggested order -/
example : standardSort (suggest (run (new 0) demoOps) [5, 11, 2, 77]) = some [5, 2, 1, 3, 4, 6, 11, 99] := by decide +kernel

theorem acyclic_of_rank {g : G} (rank : Int → Nat) (h : ∀ e ∈ g.edges, rank e.v < rank e.u) : Acyclic g := by
  have key : ∀ a b, Relation.TransGen (Child g) a b → rank b < rank a := by
    intro a b hab
    induction hab with
    | single h1 => obtain ⟨e, he, rfl, rfl⟩ := h1; exact h e he
    | tail _ h1 ih => obtain ⟨e, he, rfl, rfl⟩ := h1; exact (h e he).trans ih
  intro n hn
  exact absurd (key n n hn) (lt_irrefl _)

/-- The demo graph meets the hypotheses of `C13_standard_order`. -/
theorem demo_acyclic : Acyclic (run (new 0) demoOps) :=
  acyclic_of_rank (fun n => if n = 99 then 3 else if n = 11 then 2 else if n = 6 then 1 else 0) (by decide +kernel)

example : Valid (run (new 0) demoOps) ∧ Acyclic (run (new 0) demoOps) ∧ (run (new 0) demoOps).suggested = [] :=
  ⟨C12_valid _ _ _, demo_acyclic, by decide +kernel⟩

/-- C13 fails when the suggested order repeats an alternative: `suggest_elemental_order` does not remove duplicates. -/
theorem C13_fails_duplicate_suggestion :
    ∃ ops, Acyclic (run (new 0) ops) ∧ standardSort (run (new 0) ops) = some [2, 2, 1, 0] := by
  refine ⟨[.addNode 1 {}, .addNode 2 {}, .suggest [2, 2]], ?_, by decide +kernel⟩
  exact acyclic_of_rank (fun n => if n = 0 then 1 else 0) (by decide +kernel)

/-- C13 fails when a suggested alternative was removed since: asking for the order raises. -/
theorem C13_fails_stale_suggestion :
    ∃ ops, Acyclic (run (new 0) ops) ∧ elementals (run (new 0) ops) = none ∧ standardSort (run (new 0) ops) = none := by
  refine ⟨[.addNode 1 {}, .addNode 2 {}, .suggest [2, 1], .removeNode 2], ?_, by decide +kernel, by decide +kernel⟩
  exact acyclic_of_rank (fun n => if n = 0 then 1 else 0) (by decide +kernel)

/-! ## C14 -/

/-- Asking for the topological order never raises, whatever the graph. -/
theorem C14_never_raises (g : G) (hg : Valid g) : ∃ l, topo g = some l := by
  obtain ⟨l, hl, -⟩ := topo_spec hg
  exact ⟨l, hl⟩

/-- C14 fails: the order of a graph with a cycle is returned without complaint; exactly the nodes from which no cycle can be
reached are listed. -/
theorem C14_fails_cycles_dropped_silently (g : G) (hg : Valid g) :
    ∃ l, topo g = some l ∧ ∀ n ∈ g.nodes, n ∈ l ↔
      ¬ ∃ m, Relation.ReflTransGen (Child g) n m ∧ Relation.TransGen (Child g) m m := by
  obtain ⟨l, hl, hnd, hsub, hord, hrest⟩ := topo_spec hg
  refine ⟨l, hl, fun n hn => ⟨?_, ?_⟩⟩
  · rintro hnl ⟨m, hnm, hmm⟩
    have hml : m ∈ l := by
      rcases Relation.reflTransGen_iff_eq_or_transGen.1 hnm with rfl | h
      · exact hnl
      · obtain ⟨l1, l2, hl12⟩ := List.append_of_mem hnl
        have := desc_before hord h l1 l2 hl12
        rw [hl12]; simp [this]
    obtain ⟨l1, l2, hl12⟩ := List.append_of_mem hml
    have h1 := desc_before hord hmm l1 l2 hl12
    rw [hl12, List.nodup_append] at hnd
    exact hnd.2.2 m h1 m (by simp) rfl
  · intro hno
    by_contra hnl
    -- the unlisted nodes reachable from n form a finite set in which everything has a child
    classical
    have hacc : ∀ k : Nat, ∃ f : Nat → Int, f 0 = n ∧ (∀ i < k, Child g (f i) (f (i + 1))) ∧ ∀ i ≤ k, f i ∈ g.nodes ∧ f i ∉ l := by
      intro k
      induction k with
      | zero => exact ⟨fun _ => n, rfl, by simp, fun i _ => ⟨hn, hnl⟩⟩
      | succ k ih =>
        obtain ⟨f, h0, h1, h2⟩ := ih
        obtain ⟨c, hc, hcl⟩ := hrest (f k) (h2 k le_rfl).1 (h2 k le_rfl).2
        refine ⟨fun i => if i ≤ k then f i else c, by simp [h0], ?_, ?_⟩
        · intro i hi
          by_cases hik : i < k
          · simp only [show i ≤ k by omega, show i + 1 ≤ k by omega, if_true]
            exact h1 i hik
          · obtain rfl : i = k := by omega
            simp [hc]
        · intro i hi
          by_cases hik : i ≤ k
          · simp only [hik, if_true]; exact h2 i hik
          · simp only [hik, if_false]
            refine ⟨?_, hcl⟩
            obtain ⟨e, he, -, rfl⟩ := hc
            exact (hg.ends e he).2
    obtain ⟨f, h0, h1, h2⟩ := hacc g.nodes.length
    have hpath : ∀ i j, i ≤ j → j ≤ g.nodes.length → Relation.ReflTransGen (Child g) (f i) (f j) := by
      intro i j hij hj
      induction j, hij using Nat.le_induction with
      | base => exact .refl
      | succ j hij ih => exact (ih (by omega)).tail (h1 j (by omega))
    -- two of the first length+1 positions coincide
    have hpig : ∃ i j, i < j ∧ j ≤ g.nodes.length ∧ f i = f j := by
      by_contra hne
      push Not at hne
      have hnodup : ((List.range (g.nodes.length + 1)).map f).Nodup := by
        rw [List.nodup_map_iff_inj_on List.nodup_range]
        intro i hi j hj hij
        rw [List.mem_range] at hi hj
        rcases lt_trichotomy i j with h | h | h
        · exact absurd hij (hne i j h (by omega))
        · exact h
        · exact absurd hij.symm (hne j i h (by omega))
      have hsub' : (List.range (g.nodes.length + 1)).map f ⊆ g.nodes := by
        intro x hx
        rw [List.mem_map] at hx
        obtain ⟨i, hi, rfl⟩ := hx
        rw [List.mem_range] at hi
        exact (h2 i (by omega)).1
      have := (hnodup.subperm hsub').length_le
      simp at this
    obtain ⟨i, j, hij, hj, heq⟩ := hpig
    refine hno ⟨f i, h0 ▸ hpath 0 i (by omega) (by omega), ?_⟩
    have h3 : Relation.TransGen (Child g) (f i) (f (i + 1)) := .single (h1 i (by omega))
    have h4 := hpath (i + 1) j (by omega) hj
    rw [← heq] at h4
    exact h3.trans_left h4

/-- C14 fails, concretely: two nests placed below each other disappear from the order; the root, now childless, is listed as an
alternative; and the edge arrays consist of padding, edges from slot 0 to slot 0. -/
theorem C14_fails_example :
    let g := run (new 0) [.addNode 1 {}, .addNode 2 {}, .newNode none { children := [1] }, .newNode none { children := [2, 3] },
      .addEdge 3 4 false none]
    Relation.TransGen (Child g) 3 3 ∧ standardSort g = some [0, 1, 2] ∧
      (standardSort g).bind (edgeSlotArrays g) = some ([0, 0, 0, 0], [0, 0, 0, 0], [1, 0, 0, 0]) := by
  refine ⟨?_, by decide +kernel, by decide +kernel⟩
  have h1 : Child (run (new 0) [.addNode 1 {}, .addNode 2 {}, .newNode none { children := [1] },
      .newNode none { children := [2, 3] }, .addEdge 3 4 false none]) 3 4 := by
    refine ⟨⟨3, 4, false, none⟩, by decide +kernel, rfl, rfl⟩
  have h2 : Child (run (new 0) [.addNode 1 {}, .addNode 2 {}, .newNode none { children := [1] },
      .newNode none { children := [2, 3] }, .addEdge 3 4 false none]) 4 3 := by
    refine ⟨⟨4, 3, false, none⟩, by decide +kernel, rfl, rfl⟩
  exact (Relation.TransGen.single h1).tail h2

/-! ## C17 -/

theorem searchCode_spec (nodes : List Int) (fuel : Nat) (c : Int) :
    let r := searchCode nodes fuel c
    c ≤ r ∧ r ≤ c + fuel ∧ (∀ x, c ≤ x → x < r → x ∈ nodes) ∧ (r ∈ nodes → r = c + fuel) := by
  induction fuel generalizing c with
  | zero =>
    refine ⟨le_rfl, by simp [searchCode], ?_, fun _ => by simp [searchCode]⟩
    intro x h1 h2
    simp only [searchCode] at h2
    omega
  | succ fuel ih =>
    simp only [searchCode]
    split
    · rename_i hc
      obtain ⟨h1, h2, h3, h4⟩ := ih (c + 1)
      refine ⟨by omega, by push_cast; omega, ?_, ?_⟩
      · intro x hx1 hx2
        by_cases hx : x = c
        · exact hx ▸ hc
        · exact h3 x (by omega) hx2
      · intro h
        have := h4 h
        push_cast; omega
    · rename_i hc
      refine ⟨le_rfl, by omega, ?_, fun h => absurd h hc⟩
      intro x h1 h2; omega

/-- The search loop of `new_node` ends at an unused code within as many increments as there are nodes. -/
theorem C17_search_ends (nodes : List Int) (c : Int) : searchCode nodes nodes.length c ∉ nodes := by
  obtain ⟨h1, h2, h3, h4⟩ := searchCode_spec nodes nodes.length c
  intro hmem
  have hr := h4 hmem
  have hsub : (List.range (nodes.length + 1)).map (fun i : Nat => c + (i : Int)) ⊆ nodes := by
    intro x hx
    rw [List.mem_map] at hx
    obtain ⟨i, hi, rfl⟩ := hx
    rw [List.mem_range] at hi
    by_cases h : i = nodes.length
    · subst h; rw [← hr]; exact hmem
    · exact h3 _ (by omega) (by omega)
  have hnd : ((List.range (nodes.length + 1)).map (fun i : Nat => c + (i : Int))).Nodup := by
    rw [List.nodup_map_iff_inj_on List.nodup_range]
    intro i _ j _ h
    omega
  have := (hnd.subperm hsub).length_le
  simp at this

/-- C17: whenever `new_node` returns a code, that code was not in the graph before and is in it afterwards; a requested code is
the one returned; otherwise the code is the smallest unused one that is at least the number of nodes. -/
theorem C17_new_code_is_new (g : G) (code : Option Int) (a : NodeArgs) (c : Int) (h : (newNode g code a).2 = some c) :
    c ∉ g.nodes ∧ c ∈ (newNode g code a).1.nodes ∧ (∀ x, code = some x → c = x) ∧
      (code = none → (g.nodes.length : Int) ≤ c ∧ ∀ x, (g.nodes.length : Int) ≤ x → x < c → x ∈ g.nodes) := by
  unfold newNode at h ⊢
  cases hp : proposeCode g code with
  | none => simp [hp] at h
  | some d =>
    simp only [hp] at h ⊢
    split at h
    · simp at h
    · rename_i hr
      obtain rfl := Option.some.inj h
      have hnew : d ∉ g.nodes := by
        cases code with
        | none =>
          simp only [proposeCode, Option.some.injEq] at hp
          rw [← hp]; exact C17_search_ends _ _
        | some x =>
          simp only [proposeCode] at hp
          split at hp
          · simp at hp
          · rename_i hx; simp at hp; exact hp ▸ hx
      refine ⟨hnew, ?_, ?_, ?_⟩
      · unfold addNode at hr ⊢
        split
        · rename_i hh; simp [hh] at hr
        · rw [(setPhi_spec _ _ _).2.2.1, (addNodeCore_spec g d a).2.2.2.1]
          exact Or.inr (Or.inl rfl)
      · rintro x rfl
        simp only [proposeCode] at hp
        split at hp
        · simp at hp
        · simp at hp; exact hp.symm
      · rintro rfl
        simp only [proposeCode, Option.some.injEq] at hp
        obtain ⟨h1, h2, h3, h4⟩ := searchCode_spec g.nodes g.nodes.length g.nodes.length
        rw [hp] at h1 h3
        exact ⟨h1, h3⟩

/-- C17: a code in use is rejected and nothing changes. -/
theorem C17_used_code_raises (g : G) (c : Int) (a : NodeArgs) (h : c ∈ g.nodes) :
    (newNode g (some c) a).2 = none ∧ (newNode g (some c) a).1 = g := by
  simp [newNode, proposeCode, h]

/-- C17: a code is always found: `new_node()` with ordinary arguments does not raise. -/
theorem C17_code_found (g : G) (a : NodeArgs) (h1 : a.parent = none ∨ a.parents = none) (h2 : a.phi = []) :
    ∃ c, (newNode g none a).2 = some c := by
  refine ⟨searchCode g.nodes g.nodes.length g.nodes.length, ?_⟩
  simp only [newNode, proposeCode, addNode]
  have : ¬ (a.parents.isSome = true ∧ a.parent.isSome = true) := by rcases h1 with h | h <;> simp [h]
  simp [this, h2, setPhi]

example : (newNode (run (new 0) [.addNode 3 {}, .addNode 4 {}, .addNode 5 {}]) none {}).2 = some 6 := by decide +kernel

end Larch.Props
