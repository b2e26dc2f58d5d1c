import Verif.Lemmas.Graph
import Verif.Spec.Nesting
import Verif.Props.Graph
import Verif.Props.GraphRoot

namespace Larch.Graph

open Larch.Props

/-- An edge with these ends and this `implied` flag. -/
def EdgeI (g : G) (a b : Int) (i : Bool) : Prop := ∃ e ∈ g.edges, e.u = a ∧ e.v = b ∧ e.implied = i

theorem edgeI_addEdge (g : G) (u v : Int) (a b : Int) (i : Bool) :
    EdgeI (addEdge g u v) a b i ↔
      (a = u ∧ b = v ∧ i = false) ∨ (¬ (a = u ∧ b = v) ∧ ¬ (b = v ∧ i = true) ∧ EdgeI g a b i) := by
  have key : ∀ es : List Edge, ∀ (h : G), h.edges = es →
      (EdgeI (nxAddEdge h ⟨u, v, false, none⟩) a b i ↔ (a = u ∧ b = v ∧ i = false) ∨ (¬ (a = u ∧ b = v) ∧ EdgeI h a b i)) := by
    intro es h hh
    unfold EdgeI nxAddEdge
    simp only [hasEdge_nxAddNode, edges_nxAddNode]
    by_cases hc : h.hasEdge u v = true
    · simp only [hc, if_true, List.mem_map]
      constructor
      · rintro ⟨_, ⟨d, hd, rfl⟩, h1, h2, h3⟩
        by_cases hx : d.u = u ∧ d.v = v
        · simp only [hx, and_self, if_true] at h1 h2 h3
          exact Or.inl ⟨h1.symm, h2.symm, h3.symm⟩
        · simp only [hx, if_false] at h1 h2 h3
          refine Or.inr ⟨?_, d, hd, h1, h2, h3⟩
          rw [← h1, ← h2]; exact hx
      · rintro (⟨rfl, rfl, rfl⟩ | ⟨hn, d, hd, rfl, rfl, rfl⟩)
        · obtain ⟨e, he, hu, hv⟩ := (hasEdge_iff h _ _).1 hc
          exact ⟨_, ⟨e, he, rfl⟩, by simp [hu, hv], by simp [hu, hv], by simp [hu, hv]⟩
        · refine ⟨d, ⟨d, hd, ?_⟩, rfl, rfl, rfl⟩
          rw [if_neg hn]
    · simp only [hc, Bool.false_eq_true, if_false, List.mem_append, List.mem_singleton]
      have hc' : ¬ Child h u v := fun hh => hc ((hasEdge_iff h u v).2 hh)
      constructor
      · rintro ⟨e, he | rfl, h1, h2, h3⟩
        · refine Or.inr ⟨?_, e, he, h1, h2, h3⟩
          rintro ⟨rfl, rfl⟩
          exact hc' ⟨e, he, h1, h2⟩
        · exact Or.inl ⟨h1.symm, h2.symm, h3.symm⟩
      · rintro (⟨rfl, rfl, rfl⟩ | ⟨-, e, he, h1, h2, h3⟩)
        · exact ⟨_, Or.inr rfl, rfl, rfl, rfl⟩
        · exact ⟨e, Or.inl he, h1, h2, h3⟩
  unfold addEdge
  simp only [Bool.false_eq_true, if_false]
  rw [key _ _ rfl]
  have : EdgeI { g with edges := g.edges.filter (fun e => decide ¬ (e.v = v ∧ e.implied = true)) } a b i ↔
      ¬ (b = v ∧ i = true) ∧ EdgeI g a b i := by
    unfold EdgeI
    simp only [List.mem_filter, decide_eq_true_eq]
    constructor
    · rintro ⟨e, ⟨he, hx⟩, rfl, rfl, rfl⟩; exact ⟨hx, e, he, rfl, rfl, rfl⟩
    · rintro ⟨hx, e, he, rfl, rfl, rfl⟩; exact ⟨e, ⟨he, hx⟩, rfl, rfl, rfl⟩
  rw [this]

theorem child_iff_edgeI (g : G) (a b : Int) : Child g a b ↔ ∃ i, EdgeI g a b i := by
  constructor
  · rintro ⟨e, he, h1, h2⟩; exact ⟨_, e, he, h1, h2, rfl⟩
  · rintro ⟨i, e, he, h1, h2, -⟩; exact ⟨e, he, h1, h2⟩

/-! ### Dictionaries -/

theorem dget_of_mem {d : List (String × Int)} (hn : (d.map Prod.fst).Nodup) {k : String} {v : Int} (h : (k, v) ∈ d) :
    dget d k = some v := by
  unfold dget
  induction d with
  | nil => cases h
  | cons e t ih =>
    rw [List.map_cons, List.nodup_cons] at hn
    rcases List.mem_cons.1 h with rfl | h
    · simp
    · have : e.1 ≠ k := by
        rintro rfl
        exact hn.1 (List.mem_map.2 ⟨_, h, rfl⟩)
      rw [List.find?_cons_of_neg (by simpa using this)]
      exact ih hn.2 h

theorem dget_mem {d : List (String × Int)} {k : String} {v : Int} (h : dget d k = some v) : (k, v) ∈ d := by
  unfold dget at h
  rw [Option.map_eq_some_iff] at h
  obtain ⟨e, he, rfl⟩ := h
  have h1 := List.find?_some he
  have h2 := List.mem_of_find?_eq_some he
  simp only [beq_iff_eq] at h1
  rw [← h1]; exact h2

theorem dget_none {d : List (String × Int)} {k : String} (h : k ∉ d.map Prod.fst) : dget d k = none := by
  cases hh : dget d k with
  | none => rfl
  | some v => exact absurd (List.mem_map.2 ⟨_, dget_mem hh, rfl⟩) h

theorem mem_key {d : List (String × Int)} {k : String} (h : k ∈ d.map Prod.fst) : ∃ v, (k, v) ∈ d := by
  obtain ⟨e, he, rfl⟩ := List.mem_map.1 h
  exact ⟨e.2, he⟩

theorem key_mem {d : List (String × Int)} {k : String} {v : Int} (h : (k, v) ∈ d) : k ∈ d.map Prod.fst :=
  List.mem_map.2 ⟨_, h, rfl⟩

theorem code_mem {d : List (String × Int)} {k : String} {v : Int} (h : (k, v) ∈ d) : v ∈ d.map Prod.snd :=
  List.mem_map.2 ⟨_, h, rfl⟩

theorem fst_inj {d : List (String × Int)} (hn : (d.map Prod.snd).Nodup) {k l : String} {v : Int} (h1 : (k, v) ∈ d)
    (h2 : (l, v) ∈ d) : k = l := by
  have := List.inj_on_of_nodup_map hn h1 h2 rfl
  exact congrArg Prod.fst this

theorem snd_inj {d : List (String × Int)} (hn : (d.map Prod.fst).Nodup) {k : String} {v w : Int} (h1 : (k, v) ∈ d)
    (h2 : (k, w) ∈ d) : v = w := by
  have := List.inj_on_of_nodup_map hn h1 h2 rfl
  exact congrArg Prod.snd this

/-! ### The invariant -/

/-- After some of the settings (links `L`, nests `N`) have been read. -/
structure Good (alts : List (String × Int)) (s : Bld) (L : List (String × String)) (N : List (String × Option String)) : Prop where
  keys : s.names.map Prod.fst = alts.map Prod.fst ++ "root" :: N.map Prod.fst
  alt : ∀ e ∈ alts, e ∈ s.names
  rootMem : ("root", (0 : Int)) ∈ s.names
  kn : (s.names.map Prod.fst).Nodup
  cn : (s.names.map Prod.snd).Nodup
  nodes : ∀ m, m ∈ s.g.nodes ↔ m ∈ s.names.map Prod.snd
  valid : Valid s.g
  root : s.g.root = 0
  sug : s.g.suggested = []
  edges : ∀ a b i, EdgeI s.g a b i ↔
    (i = false ∧ ∃ p c, (p, c) ∈ L ∧ (p, a) ∈ s.names ∧ (c, b) ∈ s.names) ∨
    (i = true ∧ a = 0 ∧ ∃ n ∈ alts.map Prod.fst, (n, b) ∈ s.names ∧ n ∉ L.map Prod.snd)
  par1 : ∀ n k m, (n, some k) ∈ N → (n, m) ∈ s.names → s.g.nparam m = some k
  par2 : ∀ n m, (n, m) ∈ s.names → n ∉ N.map Prod.fst → s.g.nparam m = none
  rank : ∀ p c, (p, c) ∈ L → p ∈ s.names.map Prod.fst ∧ c ∈ s.names.map Prod.fst ∧ p ∉ alts.map Prod.fst ∧ c ≠ "root" ∧
    (c ∉ alts.map Prod.fst → (s.names.map Prod.fst).idxOf p < (s.names.map Prod.fst).idxOf c)

theorem good_link {alts s L N} (h : Good alts s L N) {own a : String} {o c : Int} (ho : (own, o) ∈ s.names)
    (hoa : own ∉ alts.map Prod.fst) (ha : a ∈ alts.map Prod.fst) (hc : (a, c) ∈ s.names) (hr : "root" ∉ alts.map Prod.fst) :
    Good alts { s with g := addEdge s.g o c } (L ++ [(own, a)]) N where
  keys := h.keys
  alt := h.alt
  rootMem := h.rootMem
  kn := h.kn
  cn := h.cn
  nodes := by
    intro m
    rw [mem_nodes_addEdge, h.nodes]
    constructor
    · rintro (h1 | rfl | rfl)
      · exact h1
      · exact code_mem ho
      · exact code_mem hc
    · exact Or.inl
  valid := h.valid.addEdge _ _ _ _
  root := by simp [h.root]
  sug := by simp [h.sug]
  edges := by
    intro x y i
    show EdgeI (addEdge s.g o c) x y i ↔ _
    rw [edgeI_addEdge, h.edges]
    simp only [List.mem_append, List.mem_singleton, Prod.mk.injEq, List.map_append, List.map_cons, List.map_nil]
    constructor
    · rintro (⟨rfl, rfl, rfl⟩ | ⟨h1, h2, ⟨rfl, p, d, hl, hp, hd⟩ | ⟨rfl, rfl, n, hn, hy, hnl⟩⟩)
      · exact Or.inl ⟨rfl, own, a, Or.inr ⟨rfl, rfl⟩, ho, hc⟩
      · exact Or.inl ⟨rfl, p, d, Or.inl hl, hp, hd⟩
      · refine Or.inr ⟨rfl, rfl, n, hn, hy, ?_⟩
        rintro (h3 | rfl)
        · exact hnl h3
        · exact h2 ⟨snd_inj h.kn hy hc, rfl⟩
    · rintro (⟨rfl, p, d, hl | ⟨rfl, rfl⟩, hp, hd⟩ | ⟨rfl, rfl, n, hn, hy, hnl⟩)
      · by_cases hxy : x = o ∧ y = c
        · exact Or.inl ⟨hxy.1, hxy.2, rfl⟩
        · exact Or.inr ⟨hxy, by simp, Or.inl ⟨rfl, p, d, hl, hp, hd⟩⟩
      · exact Or.inl ⟨snd_inj h.kn hp ho, snd_inj h.kn hd hc, rfl⟩
      · have hyc : y ≠ c := by
          rintro rfl
          exact hnl (Or.inr (fst_inj h.cn hy hc))
        exact Or.inr ⟨fun hh => hyc hh.2, fun hh => hyc hh.1, Or.inr ⟨rfl, rfl, n, hn, hy, fun hh => hnl (Or.inl hh)⟩⟩
  par1 := by simpa using h.par1
  par2 := by simpa using h.par2
  rank := by
    intro p d hpd
    rcases List.mem_append.1 hpd with hpd | hpd
    · exact h.rank p d hpd
    · simp only [List.mem_singleton, Prod.mk.injEq] at hpd
      obtain ⟨rfl, rfl⟩ := hpd
      exact ⟨key_mem ho, key_mem hc, hoa, fun hh => hr (hh ▸ ha), fun hh => absurd ha hh⟩

theorem newNode_parent (g : G) (p : Int) (c : String) :
    ∃ n, n ∉ g.nodes ∧ newNode g none { parent := some p, param := some c } =
      (addEdge { nxAddNode g n with nparam := Function.update g.nparam n (some c) } p n, some n) := by
  refine ⟨searchCode g.nodes g.nodes.length g.nodes.length, C17_search_ends _ _, ?_⟩
  simp [newNode, proposeCode, addNode, setPhi, addNodeCore]

theorem good_nest {alts s L N} (h : Good alts s L N) {own nm k : String} {o : Int} (ho : (own, o) ∈ s.names)
    (hoa : own ∉ alts.map Prod.fst) (hnm : nm ∉ s.names.map Prod.fst) :
    ∃ g n, newNode s.g none { parent := some o, param := some k } = (g, some n) ∧
      Good alts { g := g, names := s.names ++ [(nm, n)] } (L ++ [(own, nm)]) (N ++ [(nm, some k)]) := by
  obtain ⟨n, hn, he⟩ := newNode_parent s.g o k
  refine ⟨_, n, he, ?_⟩
  have hcode : n ∉ s.names.map Prod.snd := fun hh => hn ((h.nodes n).2 hh)
  have hon : o ∈ s.g.nodes := (h.nodes o).2 (code_mem ho)
  have hna : nm ∉ alts.map Prod.fst := by
    intro hh; apply hnm; rw [h.keys]; exact List.mem_append_left _ hh
  have hnr : nm ≠ "root" := by
    rintro rfl; apply hnm; rw [h.keys]; simp
  have hold : ∀ (x : String) (m : Int), (x, m) ∈ s.names → x ≠ nm ∧ m ≠ n :=
    fun x m hm => ⟨fun hh => hnm (hh ▸ key_mem hm), fun hh => hcode (hh ▸ code_mem hm)⟩
  have hLk : ∀ p d, (p, d) ∈ L → d ≠ nm := fun p d hpd hh => hnm (hh ▸ (h.rank p d hpd).2.1)
  have hidx : ∀ x ∈ s.names.map Prod.fst, (s.names.map Prod.fst ++ [nm]).idxOf x = (s.names.map Prod.fst).idxOf x :=
    fun x hx => List.idxOf_append_of_mem hx
  constructor
  · simp [h.keys]
  · intro e he; exact List.mem_append_left _ (h.alt e he)
  · exact List.mem_append_left _ h.rootMem
  · simp only [List.map_append, List.map_cons, List.map_nil]
    rw [List.nodup_append]
    exact ⟨h.kn, by simp, by
      intro a ha b hb; simp only [List.mem_singleton] at hb; subst hb; rintro rfl; exact hnm ha⟩
  · simp only [List.map_append, List.map_cons, List.map_nil]
    rw [List.nodup_append]
    exact ⟨h.cn, by simp, by
      intro a ha b hb; simp only [List.mem_singleton] at hb; subst hb; rintro rfl; exact hcode ha⟩
  · intro m
    rw [mem_nodes_addEdge]
    simp only [mem_nodes_nxAddNode, List.map_append, List.map_cons, List.map_nil, List.mem_append, List.mem_singleton]
    rw [h.nodes]
    constructor
    · rintro ((h1 | h1) | rfl | h1)
      · exact Or.inl h1
      · exact Or.inr h1
      · exact Or.inl (code_mem ho)
      · exact Or.inr h1
    · rintro (h1 | h1)
      · exact Or.inl (Or.inl h1)
      · exact Or.inl (Or.inr h1)
  · apply Valid.addEdge
    have := h.valid.nxAddNode n
    exact ⟨this.nodup, this.pairs, this.ends⟩
  · simp [h.root]
  · simp [h.sug]
  · intro x y i
    rw [edgeI_addEdge]
    have hg : EdgeI { nxAddNode s.g n with nparam := Function.update s.g.nparam n (some k) } x y i ↔ EdgeI s.g x y i := by
      simp [EdgeI]
    rw [hg, h.edges]
    simp only [List.mem_append, List.mem_singleton, Prod.mk.injEq, List.map_append, List.map_cons, List.map_nil]
    constructor
    · rintro (⟨rfl, rfl, rfl⟩ | ⟨h1, h2, ⟨rfl, p, d, hl, hp, hd⟩ | ⟨rfl, rfl, z, hz, hy, hnl⟩⟩)
      · exact Or.inl ⟨rfl, own, nm, Or.inr ⟨rfl, rfl⟩, Or.inl ho, Or.inr ⟨rfl, rfl⟩⟩
      · exact Or.inl ⟨rfl, p, d, Or.inl hl, Or.inl hp, Or.inl hd⟩
      · refine Or.inr ⟨rfl, rfl, z, hz, Or.inl hy, ?_⟩
        rintro (h3 | rfl)
        · exact hnl h3
        · exact hna hz
    · rintro (⟨rfl, p, d, hl | ⟨rfl, rfl⟩, hp, hd⟩ | ⟨rfl, rfl, z, hz, hy, hnl⟩)
      · have hp' : (p, x) ∈ s.names := by
          rcases hp with hp | ⟨rfl, -⟩
          · exact hp
          · exact absurd (h.rank _ _ hl).1 hnm
        have hd' : (d, y) ∈ s.names := by
          rcases hd with hd | ⟨rfl, -⟩
          · exact hd
          · exact absurd (h.rank _ _ hl).2.1 hnm
        have hyn : y ≠ n := (hold _ _ hd').2
        exact Or.inr ⟨fun hh => hyn hh.2, by simp, Or.inl ⟨rfl, p, d, hl, hp', hd'⟩⟩
      · left
        refine ⟨?_, ?_, rfl⟩
        · rcases hp with hp | ⟨rfl, -⟩
          · exact snd_inj h.kn hp ho
          · exact absurd (key_mem ho) hnm
        · rcases hd with hd | ⟨-, rfl⟩
          · exact absurd (key_mem hd) hnm
          · rfl
      · have hy' : (z, y) ∈ s.names := by
          rcases hy with hy | ⟨rfl, -⟩
          · exact hy
          · exact absurd hz hna
        have hyn : y ≠ n := (hold _ _ hy').2
        exact Or.inr ⟨fun hh => hyn hh.2, fun hh => hyn hh.1, Or.inr ⟨rfl, rfl, z, hz, hy', fun hh => hnl (Or.inl hh)⟩⟩
  · intro z q m hz hm
    rw [nparam_addEdge]
    show Function.update s.g.nparam n (some k) m = _
    simp only [List.mem_append, List.mem_singleton, Prod.mk.injEq, Option.some.injEq] at hz hm
    rcases hm with hm | ⟨rfl, rfl⟩
    · have := hold _ _ hm
      rw [Function.update_of_ne this.2]
      rcases hz with hz | ⟨rfl, -⟩
      · exact h.par1 z q m hz hm
      · exact absurd rfl this.1
    · rw [Function.update_self]
      rcases hz with hz | ⟨-, rfl⟩
      · exfalso
        apply hnm
        rw [h.keys]
        exact List.mem_append_right _ (List.mem_cons_of_mem _ (List.mem_map.2 ⟨_, hz, rfl⟩))
      · rfl
  · intro z m hm hz
    rw [nparam_addEdge]
    show Function.update s.g.nparam n (some k) m = _
    simp only [List.map_append, List.map_cons, List.map_nil, List.mem_append, List.mem_singleton, not_or, Prod.mk.injEq] at hz hm
    rcases hm with hm | ⟨rfl, rfl⟩
    · rw [Function.update_of_ne (hold _ _ hm).2]
      exact h.par2 z m hm hz.1
    · exact absurd rfl hz.2
  · intro p d hpd
    simp only [List.mem_append, List.mem_singleton, Prod.mk.injEq, List.map_append, List.map_cons, List.map_nil] at hpd ⊢
    rcases hpd with hpd | ⟨rfl, rfl⟩
    · obtain ⟨h1, h2, h3, h4, h5⟩ := h.rank p d hpd
      refine ⟨Or.inl h1, Or.inl h2, h3, h4, fun hh => ?_⟩
      rw [hidx p h1, hidx d h2]
      exact h5 hh
    · refine ⟨Or.inl (key_mem ho), Or.inr rfl, hoa, hnr, fun _ => ?_⟩
      rw [hidx _ (key_mem ho), List.idxOf_append_of_notMem hnm]
      have := List.idxOf_lt_length_of_mem (key_mem ho)
      omega

theorem dset_new {d : List (String × Int)} {k : String} {v : Int} (h : k ∉ d.map Prod.fst) : dset d k v = d ++ [(k, v)] := by
  unfold dset; rw [if_neg h]

theorem good_start {alts : List (String × Int)} (h1 : (alts.map Prod.fst).Nodup) (h2 : (alts.map Prod.snd).Nodup)
    (h3 : "root" ∉ alts.map Prod.fst) (h4 : (0 : Int) ∉ alts.map Prod.snd) : Good alts (startBld alts) [] [] := by
  have hd : (startBld alts).names = alts ++ [("root", 0)] := dset_new h3
  have hg : (startBld alts).g = { new 0 with nodes := 0 :: alts.map Prod.snd, edges := (alts.map Prod.snd).map (fun c => ⟨0, c, true, none⟩) } := by
    have := plainGraph_spec (alts.map Prod.snd) (new 0) (valid_new 0 []) (by simp [new]) h2
      (by intro c hc; simp only [new, List.mem_singleton]; rintro rfl; exact h4 hc)
    unfold startBld
    simp only [this]
    simp [new]
  constructor
  · rw [hd]; simp
  · intro e he; rw [hd]; exact List.mem_append_left _ he
  · rw [hd]; simp
  · rw [hd, List.map_append, List.nodup_append]
    refine ⟨h1, by simp, ?_⟩
    intro a ha b hb
    simp only [List.map_cons, List.map_nil, List.mem_singleton] at hb
    subst hb; rintro rfl; exact h3 ha
  · rw [hd, List.map_append, List.nodup_append]
    refine ⟨h2, by simp, ?_⟩
    intro a ha b hb
    simp only [List.map_cons, List.map_nil, List.mem_singleton] at hb
    subst hb; rintro rfl; exact h4 ha
  · intro m
    rw [hd, hg]
    simp only [List.mem_cons, List.map_append, List.map_cons, List.map_nil, List.mem_append, List.not_mem_nil, or_false]
    tauto
  · have : ∀ (l : List Int) (g : G), Valid g → Valid (l.foldl (fun g a => (addNode g a {}).1) g) := by
      intro l
      induction l with
      | nil => intro g hg; exact hg
      | cons a t ih => intro g hg; exact ih _ (hg.addNode a {})
    exact this _ _ (valid_new 0 [])
  · rw [hg]; rfl
  · rw [hg]; rfl
  · intro a b i
    rw [hd, hg]
    simp only [EdgeI, List.not_mem_nil, false_and, exists_false, and_false, false_or, List.map_nil, not_false_eq_true, and_true]
    constructor
    · rintro ⟨e, he, rfl, rfl, rfl⟩
      obtain ⟨c, hc, rfl⟩ := List.mem_map.1 he
      obtain ⟨x, hx, rfl⟩ := List.mem_map.1 hc
      exact ⟨rfl, rfl, x.1, List.mem_map.2 ⟨x, hx, rfl⟩, List.mem_append_left _ hx⟩
    · rintro ⟨rfl, rfl, n, hn, hb⟩
      rcases List.mem_append.1 hb with hb | hb
      · exact ⟨_, List.mem_map.2 ⟨b, List.mem_map.2 ⟨_, hb, rfl⟩, rfl⟩, rfl, rfl, rfl⟩
      · simp only [List.mem_singleton, Prod.mk.injEq] at hb
        exact absurd (hb.1 ▸ hn) h3
  · intro n k m hk; cases hk
  · intro n m _ _; rw [hg]; rfl
  · intro p c hpc; cases hpc

mutual
theorem makeNest_good {alts s L N} (h : Good alts s L N) (hr : "root" ∉ alts.map Prod.fst) {own : String} {o : Int}
    (ho : (own, o) ∈ s.names) (hoa : own ∉ alts.map Prod.fst) (nm : String) (coef : Option String) (kids : List Cfg)
    (hnm : nm ∉ s.names.map Prod.fst) (hco : coef ≠ none)
    (hnd : (nm :: (kidNests kids).map Prod.fst).Nodup) (hdis : ∀ n ∈ kidNests kids, n.1 ∉ s.names.map Prod.fst)
    (hcoef : ∀ n ∈ kidNests kids, n.2 ≠ none) (hlv : ∀ a ∈ kidLeaves kids, a ∈ alts.map Prod.fst) :
    ∃ s', makeNest s o (.nest nm coef kids) = some s' ∧
      Good alts s' (L ++ (own, nm) :: kidLinks nm kids) (N ++ (nm, coef) :: kidNests kids) ∧
      ∀ e ∈ s.names, e ∈ s'.names := by
  obtain ⟨k, rfl⟩ := Option.ne_none_iff_exists'.1 hco
  have hnr : nm ≠ "root" := by
    rintro rfl; exact hnm (key_mem h.rootMem)
  obtain ⟨g, n, he, hg⟩ := good_nest h ho hoa hnm (k := k)
  have hna : nm ∉ alts.map Prod.fst := by
    intro hh; apply hnm; rw [h.keys]; exact List.mem_append_left _ hh
  obtain ⟨s', h1, h2, h3⟩ := makeKids_good hg hr (own := nm) (o := n) (by simp) hna kids (List.nodup_cons.1 hnd).2
    (by
      intro z hz
      simp only [List.map_append, List.map_cons, List.map_nil, List.mem_append, List.mem_singleton, not_or]
      refine ⟨hdis z hz, ?_⟩
      rintro rfl
      exact (List.nodup_cons.1 hnd).1 (List.mem_map.2 ⟨z, hz, rfl⟩)) hcoef hlv
  refine ⟨s', ?_, ?_, fun e he => h3 e (List.mem_append_left _ he)⟩
  · rw [makeNest, if_neg hnr, dget_none hnm]
    simp only [he, dset_new hnm]
    exact h1
  · simpa using h2
termination_by (sizeOf kids, 1)

theorem makeKids_good {alts s L N} (h : Good alts s L N) (hr : "root" ∉ alts.map Prod.fst) {own : String} {o : Int}
    (ho : (own, o) ∈ s.names) (hoa : own ∉ alts.map Prod.fst) (kids : List Cfg)
    (hnd : ((kidNests kids).map Prod.fst).Nodup) (hdis : ∀ n ∈ kidNests kids, n.1 ∉ s.names.map Prod.fst)
    (hcoef : ∀ n ∈ kidNests kids, n.2 ≠ none) (hlv : ∀ a ∈ kidLeaves kids, a ∈ alts.map Prod.fst) :
    ∃ s', makeKids s own kids = some s' ∧ Good alts s' (L ++ kidLinks own kids) (N ++ kidNests kids) ∧
      ∀ e ∈ s.names, e ∈ s'.names := by
  match kids with
  | [] => exact ⟨s, by rw [makeKids], by simpa [kidLinks, kidNests] using h, fun e he => he⟩
  | .alt a :: rest =>
    have ha : a ∈ alts.map Prod.fst := hlv a (by simp [kidLeaves, Cfg.leaves])
    obtain ⟨c, hc'⟩ := mem_key ha
    have hc : (a, c) ∈ s.names := h.alt _ hc'
    obtain ⟨s', h1, h2, h3⟩ := makeKids_good (good_link h ho hoa ha hc hr) hr (own := own) (o := o) ho hoa rest
      (by simpa [kidNests, Cfg.nests] using hnd) (fun n hn => hdis n (by simpa [kidNests, Cfg.nests] using hn))
      (fun n hn => hcoef n (by simpa [kidNests, Cfg.nests] using hn))
      (fun z hz => hlv z (by simp [kidLeaves, hz]))
    refine ⟨s', ?_, ?_, h3⟩
    · rw [makeKids, dget_of_mem h.kn ho]
      simp only [dget_of_mem h.kn hc]
      exact h1
    · simpa [kidLinks, kidNests, Cfg.nests, Cfg.links, Cfg.name] using h2
  | .nest nm coef ks :: rest =>
    have hn0 : kidNests (.nest nm coef ks :: rest) = (nm, coef) :: (kidNests ks ++ kidNests rest) := by
      simp [kidNests, Cfg.nests]
    rw [hn0] at hnd hdis hcoef
    simp only [List.map_cons, List.map_append] at hnd
    have hnd1 : (nm :: (kidNests ks).map Prod.fst).Nodup := by
      refine hnd.sublist ?_
      exact List.Sublist.cons₂ _ (List.sublist_append_left _ _)
    obtain ⟨s1, h1, h2, h3⟩ := makeNest_good h hr ho hoa nm coef ks (hdis (nm, coef) (by simp)) (hcoef (nm, coef) (by simp)) hnd1
      (fun n hn => hdis n (by simp [hn])) (fun n hn => hcoef n (by simp [hn]))
      (fun a ha => hlv a (by simp [kidLeaves, Cfg.leaves, ha]))
    obtain ⟨s', h4, h5, h6⟩ := makeKids_good h2 hr (own := own) (o := o) (h3 _ ho) hoa rest
      (hnd.sublist (List.Sublist.cons _ (List.sublist_append_right _ _)))
      (by
        intro n hn
        rw [h2.keys]
        have hin := hdis n (by simp [hn])
        rw [h.keys] at hin
        simp only [List.mem_append, List.mem_cons, List.map_append, List.map_cons, not_or] at hin ⊢
        refine ⟨hin.1, hin.2.1, hin.2.2, ?_, ?_⟩
        · intro hh
          exact (List.nodup_cons.1 hnd).1 (hh ▸ List.mem_append_right _ (List.mem_map.2 ⟨n, hn, rfl⟩))
        · intro hh
          have := (List.nodup_append.1 (List.nodup_cons.1 hnd).2).2.2
          exact this _ hh _ (List.mem_map.2 ⟨n, hn, rfl⟩) rfl)
      (fun n hn => hcoef n (by simp [hn])) (fun a ha => hlv a (by simp [kidLeaves, ha]))
    refine ⟨s', ?_, ?_, fun e he => h6 e (h3 e he)⟩
    · rw [makeKids, dget_of_mem h.kn ho]
      simp only [h1]
      exact h4
    · rw [hn0]
      simpa [kidLinks, Cfg.links, Cfg.name] using h5
termination_by (sizeOf kids, 0)
end

end Larch.Graph
