import Verif.Lemmas.Graph
import Mathlib.Data.Fintype.Card
import Mathlib.Order.WellFounded
import Mathlib.Data.List.Nodup

namespace Larch.Graph

/-- Result of the loop over the parents of one node. -/
theorem relax_fold (d : Int → Nat) (ps : List Int) (hnd : ps.Nodup) (s : Topo)
    (hd : ∀ p ∈ ps, s.deg p = some (d p) ∧ 0 < d p) :
    ps.foldlM relax s = some
      { ready := s.ready ++ ps.filter (fun p => d p = 1)
        deg := fun n => if n ∈ ps then (if d n = 1 then none else some (d n - 1)) else s.deg n
        out := s.out } := by
  induction ps generalizing s with
  | nil => simp
  | cons p t ih =>
    obtain ⟨hp, ht⟩ := List.nodup_cons.1 hnd
    have hdp := hd p (by simp)
    rw [List.foldlM_cons]
    have hr : relax s p = some
        { ready := s.ready ++ (if d p = 1 then [p] else [])
          deg := Function.update s.deg p (if d p = 1 then none else some (d p - 1))
          out := s.out } := by
      unfold relax
      rw [hdp.1]
      by_cases h : d p = 1
      · simp [h]
      · have h0 : ¬ d p - 1 = 0 := by omega
        simp [h, h0]
    rw [hr]
    simp only [Option.bind_eq_bind, Option.bind_some]
    rw [ih ht]
    · congr 1
      congr 1
      · by_cases h : d p = 1 <;> simp [h]
      · funext n
        by_cases hn : n = p
        · subst hn; simp [hp]
        · simp [hn]
    · intro q hq
      have hqp : q ≠ p := by rintro rfl; exact hp hq
      simp only [Function.update_of_ne hqp]
      exact hd q (by simp [hq])

/-- The number of edges from `n` to nodes outside `out`. -/
def cnt (g : G) (out : List Int) (n : Int) : Nat := (g.outEdges n).countP (fun e => e.v ∉ out)

theorem mem_parents {g : G} {m p : Int} : p ∈ (g.inEdges m).map Edge.u ↔ Child g p m := by
  simp only [G.inEdges, List.mem_map, List.mem_filter, decide_eq_true_eq, Child]
  constructor
  · rintro ⟨e, ⟨he, hv⟩, rfl⟩; exact ⟨e, he, rfl, hv⟩
  · rintro ⟨e, he, rfl, hv⟩; exact ⟨e, ⟨he, hv⟩, rfl⟩

theorem nodup_parents {g : G} (hg : Valid g) (m : Int) : ((g.inEdges m).map Edge.u).Nodup := by
  have h1 : ((g.inEdges m).map (fun e => (e.u, e.v))).Nodup :=
    hg.pairs.sublist (List.Sublist.map _ List.filter_sublist)
  have h2 : (g.inEdges m).map (fun e => (e.u, e.v)) = ((g.inEdges m).map Edge.u).map (fun u => (u, m)) := by
    rw [List.map_map]
    apply List.map_congr_left
    intro e he
    simp only [G.inEdges, List.mem_filter, decide_eq_true_eq] at he
    simp [he.2]
  rw [h2] at h1
  exact List.Nodup.of_map _ h1

theorem nodup_children {g : G} (hg : Valid g) (n : Int) : ((g.outEdges n).map Edge.v).Nodup := by
  have h1 : ((g.outEdges n).map (fun e => (e.u, e.v))).Nodup :=
    hg.pairs.sublist (List.Sublist.map _ List.filter_sublist)
  have h2 : (g.outEdges n).map (fun e => (e.u, e.v)) = ((g.outEdges n).map Edge.v).map (fun v => (n, v)) := by
    rw [List.map_map]
    apply List.map_congr_left
    intro e he
    simp only [G.outEdges, List.mem_filter, decide_eq_true_eq] at he
    simp [he.2]
  rw [h2] at h1
  exact List.Nodup.of_map _ h1

theorem mem_children {g : G} {n c : Int} : c ∈ (g.outEdges n).map Edge.v ↔ Child g n c := by
  simp only [G.outEdges, List.mem_map, List.mem_filter, decide_eq_true_eq, Child]
  constructor
  · rintro ⟨e, ⟨he, hv⟩, rfl⟩; exact ⟨e, he, hv, rfl⟩
  · rintro ⟨e, he, hv, rfl⟩; exact ⟨e, ⟨he, hv⟩, rfl⟩

theorem cnt_eq (g : G) (out : List Int) (n : Int) :
    cnt g out n = ((g.outEdges n).map Edge.v).countP (fun c => c ∉ out) := by
  rw [cnt, List.countP_map]; rfl

theorem countP_add (l : List Int) (out : List Int) (m : Int) (hm : m ∉ out) :
    l.countP (fun c => c ∉ out) = l.countP (fun c => c ∉ out ++ [m]) + l.count m := by
  induction l with
  | nil => simp
  | cons a t ih =>
    simp only [List.countP_cons, List.count_cons, ih]
    by_cases ha : a = m
    · subst ha; simp [hm]; omega
    · by_cases h : a ∈ out <;> simp [ha, h]; omega

theorem cnt_append {g : G} (hg : Valid g) {out : List Int} {m : Int} (hm : m ∉ out) (n : Int) :
    (Child g n m → cnt g out n = cnt g (out ++ [m]) n + 1) ∧ (¬ Child g n m → cnt g out n = cnt g (out ++ [m]) n) := by
  rw [cnt_eq, cnt_eq, countP_add _ _ _ hm]
  constructor
  · intro h
    rw [List.count_eq_one_of_mem (nodup_children hg n) (mem_children.2 h)]
  · intro h
    rw [List.count_eq_zero_of_not_mem (fun h' => h (mem_children.1 h'))]; rfl

theorem cnt_pos_iff (g : G) (out : List Int) (n : Int) : 0 < cnt g out n ↔ ∃ c, Child g n c ∧ c ∉ out := by
  rw [cnt_eq, List.countP_pos_iff]
  simp only [mem_children, decide_eq_true_eq]

theorem outDeg_eq_cnt (g : G) (n : Int) : g.outDeg n = cnt g [] n := by
  simp [G.outDeg, cnt]

theorem outDeg_eq_zero_iff (g : G) (n : Int) : g.outDeg n = 0 ↔ ∀ c, ¬ Child g n c := by
  rw [outDeg_eq_cnt]
  have := cnt_pos_iff g [] n
  simp only [List.not_mem_nil, not_false_eq_true, and_true] at this
  constructor
  · intro h c hc
    have := this.2 ⟨c, hc⟩
    omega
  · intro h
    by_contra h'
    obtain ⟨c, hc⟩ := this.1 (by omega)
    exact h c hc

/-- The loop invariant of the topological sort. -/
structure TI (g : G) (s : Topo) : Prop where
  nd : (s.out ++ s.ready).Nodup
  sub : ∀ n ∈ s.out ++ s.ready, n ∈ g.nodes
  deg : ∀ n ∈ g.nodes, n ∉ s.out ++ s.ready → s.deg n = some (cnt g s.out n) ∧ 0 < cnt g s.out n
  closed : ∀ n ∈ s.out ++ s.ready, ∀ c, Child g n c → c ∈ s.out
  ord : ∀ l1 n l2, s.out = l1 ++ n :: l2 → ∀ c, Child g n c → c ∈ l1

theorem topoStep_spec {g : G} (hg : Valid g) {s : Topo} (hs : TI g s) {m : Int} (hm : m ∈ s.ready) :
    ∃ s', topoStep g s m = some s' ∧ TI g s' ∧ s'.out = s.out ++ [m] := by
  have hmo : m ∉ s.out := by
    intro h
    exact (List.disjoint_of_nodup_append hs.nd) h hm
  have hpar : ∀ p ∈ (g.inEdges m).map Edge.u, p ∈ g.nodes ∧ p ∉ s.out ++ s.ready := by
    intro p hp
    rw [mem_parents] at hp
    refine ⟨?_, fun h => hmo (hs.closed p h m hp)⟩
    obtain ⟨e, he, rfl, -⟩ := hp
    exact (hg.ends e he).1
  have hf := relax_fold (cnt g s.out) ((g.inEdges m).map Edge.u) (nodup_parents hg m)
    { s with ready := s.ready.erase m } (fun p hp => hs.deg p (hpar p hp).1 (hpar p hp).2)
  refine ⟨_, by rw [topoStep, hf]; rfl, ?_, rfl⟩
  have hnr : s.ready.Nodup := (List.nodup_append.1 hs.nd).2.1
  have hno : s.out.Nodup := (List.nodup_append.1 hs.nd).1
  have herase : ∀ x, x ∈ s.ready.erase m ↔ x ≠ m ∧ x ∈ s.ready := fun x => hnr.mem_erase_iff
  have hfilt : ∀ x, x ∈ ((g.inEdges m).map Edge.u).filter (fun p => cnt g s.out p = 1) ↔
      Child g x m ∧ cnt g s.out x = 1 := by
    intro x; rw [List.mem_filter, mem_parents]; simp
  -- membership in the new out ++ ready
  have hmem : ∀ x, x ∈ (s.out ++ [m]) ++ (s.ready.erase m ++ ((g.inEdges m).map Edge.u).filter (fun p => cnt g s.out p = 1)) ↔
      x ∈ s.out ++ s.ready ∨ (Child g x m ∧ cnt g s.out x = 1) := by
    intro x
    simp only [List.mem_append, List.mem_singleton, herase, hfilt]
    constructor
    · rintro ((h | rfl) | ⟨-, h⟩ | h)
      · exact Or.inl (Or.inl h)
      · exact Or.inl (Or.inr hm)
      · exact Or.inl (Or.inr h)
      · exact Or.inr h
    · rintro ((h | h) | h)
      · exact Or.inl (Or.inl h)
      · by_cases hx : x = m
        · exact Or.inl (Or.inr hx)
        · exact Or.inr (Or.inl ⟨hx, h⟩)
      · exact Or.inr (Or.inr h)
  refine ⟨?_, ?_, ?_, ?_, ?_⟩
  · -- nodup
    simp only
    rw [List.nodup_append]
    refine ⟨?_, ?_, ?_⟩
    · rw [List.nodup_append]
      refine ⟨hno, by simp, ?_⟩
      intro a ha b hb
      simp at hb
      rintro rfl
      exact hmo (hb ▸ ha)
    · rw [List.nodup_append]
      refine ⟨hnr.erase m, (nodup_parents hg m).filter _, ?_⟩
      intro a ha b hb
      rintro rfl
      have h1 := (herase a).1 ha
      have h2 := (hfilt a).1 hb
      exact (hpar a (mem_parents.2 h2.1)).2 (by simp [h1.2])
    · intro a ha b hb
      rintro rfl
      rw [List.mem_append] at ha hb
      rcases ha with ha | ha
      · rcases hb with hb | hb
        · exact (List.disjoint_of_nodup_append hs.nd) ha ((herase a).1 hb).2
        · exact (hpar a (mem_parents.2 ((hfilt a).1 hb).1)).2 (by simp [ha])
      · simp only [List.mem_singleton] at ha
        rcases hb with hb | hb
        · exact ((herase a).1 hb).1 ha
        · exact (hpar a (mem_parents.2 ((hfilt a).1 hb).1)).2 (by simp [ha, hm])
  · intro n hn
    rcases (hmem n).1 hn with h | h
    · exact hs.sub n h
    · exact (hpar n (mem_parents.2 h.1)).1
  · intro n hn hno'
    simp only
    have hx : ¬ (n ∈ s.out ++ s.ready ∨ (Child g n m ∧ cnt g s.out n = 1)) := fun h => hno' ((hmem n).2 h)
    push Not at hx
    have hd := hs.deg n hn hx.1
    have hca := cnt_append hg hmo n
    by_cases hc : Child g n m
    · have h1 := hca.1 hc
      have h2 := hx.2 hc
      rw [if_pos (mem_parents.2 hc), if_neg h2]
      refine ⟨by congr 1; omega, by omega⟩
    · have h1 := hca.2 hc
      rw [if_neg (fun h => hc (mem_parents.1 h)), ← h1]
      exact hd
  · intro n hn c hc
    simp only [List.mem_append, List.mem_singleton]
    rcases (hmem n).1 hn with h | h
    · exact Or.inl (hs.closed n h c hc)
    · by_contra hh
      push Not at hh
      have h1 := (cnt_append hg hmo n).1 h.1
      have h2 := (cnt_pos_iff g (s.out ++ [m]) n).2 ⟨c, hc, by simp [hh.1, hh.2]⟩
      omega
  · intro l1 n l2 hl c hc
    simp only at hl
    rcases List.eq_nil_or_concat l2 with rfl | ⟨l2', z, rfl⟩
    · obtain ⟨h1, h2⟩ := List.append_inj' hl rfl
      simp only [List.cons.injEq, and_true] at h2
      rw [← h1]
      subst h2
      exact hs.closed m (by simp [hm]) c hc
    · have h3 : s.out ++ [m] = (l1 ++ n :: l2') ++ [z] := by rw [hl]; simp
      have h4 := (List.append_inj' h3 rfl).1
      exact hs.ord l1 n l2' h4 c hc

theorem topoLoop_spec {g : G} (hg : Valid g) (fuel : Nat) {s : Topo} (hs : TI g s) (hf : g.nodes.length ≤ s.out.length + fuel) :
    ∃ s', topoLoop g fuel s = some s' ∧ TI g s' ∧ s'.ready = [] := by
  induction fuel generalizing s with
  | zero =>
    refine ⟨s, rfl, hs, ?_⟩
    have h1 : (s.out ++ s.ready).length ≤ g.nodes.length :=
      (hs.nd.subperm hs.sub).length_le
    rw [List.length_append] at h1
    exact List.eq_nil_of_length_eq_zero (by omega)
  | succ fuel ih =>
    unfold topoLoop
    cases hmin : s.ready.min? with
    | none =>
      refine ⟨s, rfl, hs, ?_⟩
      simpa using hmin
    | some m =>
      have hm : m ∈ s.ready := List.min?_mem hmin
      obtain ⟨s1, e1, t1, o1⟩ := topoStep_spec hg hs hm
      simp only [e1, Option.bind_some]
      apply ih t1
      rw [o1, List.length_append]
      simp
      omega

/-- The sort always returns, and what it returns. -/
theorem topo_spec {g : G} (hg : Valid g) : ∃ l, topo g = some l ∧ l.Nodup ∧ (∀ n ∈ l, n ∈ g.nodes) ∧
    (∀ l1 n l2, l = l1 ++ n :: l2 → ∀ c, Child g n c → c ∈ l1) ∧
    (∀ n ∈ g.nodes, n ∉ l → ∃ c, Child g n c ∧ c ∉ l) := by
  have hinit : TI g { ready := g.nodes.filter (fun n => g.outDeg n = 0)
                      deg := fun n => if n ∈ g.nodes ∧ g.outDeg n > 0 then some (g.outDeg n) else none
                      out := [] } := by
    refine ⟨?_, ?_, ?_, ?_, ?_⟩
    · simpa using hg.nodup.filter _
    · intro n hn; simp at hn; exact hn.1
    · intro n hn hx
      simp only [List.nil_append, List.mem_filter, hn, decide_eq_true_eq, true_and] at hx
      have : g.outDeg n > 0 := by omega
      simp only [hn, this, and_self, if_true]
      rw [← outDeg_eq_cnt]
      exact ⟨rfl, this⟩
    · intro n hn c hc
      simp only [List.nil_append, List.mem_filter, decide_eq_true_eq] at hn
      exact absurd hc ((outDeg_eq_zero_iff g n).1 hn.2 c)
    · intro l1 n l2 h
      simp at h
  obtain ⟨s, h1, h2, h3⟩ := topoLoop_spec hg g.nodes.length hinit (by simp)
  refine ⟨s.out, by simp [topo, h1, h3], ?_, ?_, h2.ord, ?_⟩
  · exact (List.nodup_append.1 h2.nd).1
  · intro n hn; exact h2.sub n (by simp [hn])
  · intro n hn hx
    have := h2.deg n hn (by simp [h3, hx])
    exact (cnt_pos_iff g s.out n).1 this.2

/-- Listed nodes come after all their descendants. -/
theorem desc_before {g : G} {l : List Int} (hord : ∀ l1 n l2, l = l1 ++ n :: l2 → ∀ c, Child g n c → c ∈ l1)
    {a b : Int} (h : Relation.TransGen (Child g) a b) : ∀ l1 l2, l = l1 ++ a :: l2 → b ∈ l1 := by
  induction h with
  | single h => intro l1 l2 hl; exact hord l1 _ l2 hl _ h
  | tail _ hbc ih =>
    intro l1 l2 hl
    obtain ⟨x, y, rfl⟩ := List.append_of_mem (ih l1 l2 hl)
    have := hord x _ (y ++ a :: l2) (by rw [hl]; simp) _ hbc
    simp [this]

/-- In an acyclic graph, everything is listed. -/
theorem wf_child {g : G} (hg : Valid g) (ha : Acyclic g) : WellFounded (fun a b : Int => Child g b a) := by
  classical
  let S := {n : Int // n ∈ g.nodes}
  have hfin : Finite S := List.finite_toSet g.nodes
  let r : S → S → Prop := fun a b => Relation.TransGen (Child g) b.1 a.1
  have htr : IsTrans S r := ⟨fun a b c hab hbc => hbc.trans hab⟩
  have hir : Std.Irrefl r := ⟨fun a h => ha _ h⟩
  have hwf : WellFounded r := Finite.wellFounded_of_trans_of_irrefl r
  refine ⟨fun a => ?_⟩
  have key : ∀ s : S, Acc (fun a b : Int => Child g b a) s.1 := by
    intro s
    induction s using hwf.induction with
    | _ s ih =>
      refine ⟨_, fun y hy => ?_⟩
      have hyn : y ∈ g.nodes := by
        obtain ⟨e, he, -, rfl⟩ := hy
        exact (hg.ends e he).2
      exact ih ⟨y, hyn⟩ (Relation.TransGen.single hy)
  refine ⟨_, fun y hy => ?_⟩
  have hyn : y ∈ g.nodes := by
    obtain ⟨e, he, -, rfl⟩ := hy
    exact (hg.ends e he).2
  exact key ⟨y, hyn⟩

theorem topo_complete {g : G} (hg : Valid g) (ha : Acyclic g) {l : List Int} (hl : topo g = some l) : ∀ n ∈ g.nodes, n ∈ l := by
  obtain ⟨l', h1, -, -, -, h5⟩ := topo_spec hg
  rw [hl] at h1
  obtain rfl := Option.some.inj h1
  intro n hn
  induction n using (wf_child hg ha).induction with
  | _ n ih =>
    by_contra hx
    obtain ⟨c, hc, hcx⟩ := h5 n hn hx
    refine hcx (ih c hc ?_)
    obtain ⟨e, he, -, rfl⟩ := hc
    exact (hg.ends e he).2

end Larch.Graph
