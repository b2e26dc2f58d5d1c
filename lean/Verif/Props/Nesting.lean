import Verif.Lemmas.Nesting

/-!
# C94: the nesting tree made from ActivitySim settings is the one written there
-/

namespace Larch.Props

open Larch.Graph

mutual
theorem nests_listed (c : Cfg) (n : String) (h : n ∈ c.nests.map Prod.fst) (hn : n ≠ c.name) : n ∈ c.links.map Prod.snd := by
  match c with
  | .alt a => simp [Cfg.nests] at h
  | .nest nm coef kids =>
    simp only [Cfg.nests, List.map_cons, List.mem_cons, Cfg.name] at h hn
    rcases h with h | h
    · exact absurd h hn
    · rw [Cfg.links]; exact kidNests_listed nm kids n h
termination_by (sizeOf c, 0)

theorem kidNests_listed (own : String) (kids : List Cfg) (n : String) (h : n ∈ (kidNests kids).map Prod.fst) :
    n ∈ (kidLinks own kids).map Prod.snd := by
  match kids with
  | [] => simp [kidNests] at h
  | k :: rest =>
    simp only [kidNests, kidLinks, List.map_append, List.map_cons, List.mem_append, List.mem_cons] at h ⊢
    rcases h with h | h
    · by_cases hk : n = k.name
      · exact Or.inl hk
      · exact Or.inr (Or.inl (nests_listed k n h hk))
    · exact Or.inr (Or.inr (kidNests_listed own rest n h))
termination_by (sizeOf kids, 0)
end

/-- Running the whole construction on well-formed settings. -/
theorem construct_good {alts : List (String × Int)} {cfg : Cfg} (h : Sensible alts cfg) :
    ∃ s, makeNest (startBld alts) 0 cfg = some s ∧ Good alts s cfg.links cfg.nests.tail ∧
      cfg.nests.map Prod.fst = "root" :: cfg.nests.tail.map Prod.fst := by
  match cfg, h with
  | .alt a, h => exact absurd rfl (h.isNest a)
  | .nest nm coef kids, h =>
    have hnm : nm = "root" := h.top
    subst hnm
    have hs := good_start h.altNames h.altCodes h.noRoot h.noZero
    have hnd := h.nestNames
    simp only [Cfg.nests, List.map_cons] at hnd
    have hin : ∀ n ∈ kidNests kids, n ∈ (Cfg.nest "root" coef kids).nests := by
      intro n hn; simp [Cfg.nests, hn]
    have hne : ∀ n ∈ kidNests kids, n.1 ≠ "root" := by
      intro n hn hh
      exact (List.nodup_cons.1 hnd).1 (List.mem_map.2 ⟨n, hn, hh⟩)
    obtain ⟨s, h1, h2, -⟩ := makeKids_good hs h.noRoot (own := "root") (o := 0) hs.rootMem h.noRoot kids
      (List.nodup_cons.1 hnd).2
      (by
        intro n hn
        rw [hs.keys]
        simp only [List.map_nil, List.mem_append, List.mem_singleton, not_or]
        exact ⟨h.nestNew n (hin n hn), hne n hn⟩)
      (fun n hn => h.coefs n (hin n hn) (hne n hn)) h.leaves
    refine ⟨s, ?_, ?_, ?_⟩
    · show makeNest (startBld alts) 0 (.nest "root" coef kids) = some s
      rw [makeNest.eq_def]; simp only [if_true]; exact h1
    · simpa [Cfg.links, Cfg.nests] using h2
    · simp [Cfg.nests]

/-- C94 (partial: for well-formed settings only, and an alternative that is nowhere listed is not refused but put under the
root): the tree has the root 0, one node for each alternative, with its own code, and one new node for each nest; a node is the
child of another exactly when it is listed under it, or it is an alternative that is listed nowhere and the other is the root; the
parameter of each nest is its coefficient; there are no cycles and every node but the root has a parent. -/
theorem C94_tree_partial (alts : List (String × Int)) (cfg : Cfg) (h : Sensible alts cfg) :
    ∃ (g : G) (code : String → Int), construct alts cfg = some g ∧ Valid g ∧ g.root = 0 ∧ g.suggested = [] ∧
      code "root" = 0 ∧ (∀ e ∈ alts, code e.1 = e.2) ∧
      (∀ m, m ∈ g.nodes ↔ ∃ n ∈ alts.map Prod.fst ++ cfg.nests.map Prod.fst, code n = m) ∧
      (∀ n ∈ alts.map Prod.fst ++ cfg.nests.map Prod.fst, ∀ n' ∈ alts.map Prod.fst ++ cfg.nests.map Prod.fst,
        code n = code n' → n = n') ∧
      (∀ a b, Child g a b ↔ (∃ p c, (p, c) ∈ cfg.links ∧ code p = a ∧ code c = b) ∨
        (a = 0 ∧ ∃ n ∈ alts.map Prod.fst, code n = b ∧ n ∉ cfg.links.map Prod.snd)) ∧
      (∀ n k, (n, some k) ∈ cfg.nests → n ≠ "root" → g.nparam (code n) = some k) ∧
      (∀ n ∈ "root" :: alts.map Prod.fst, g.nparam (code n) = none) ∧
      Acyclic g ∧ Rooted g := by
  obtain ⟨s, h1, h2, h3⟩ := construct_good h
  set code : String → Int := fun n => (dget s.names n).getD 0 with hcode
  have hget : ∀ n m, (n, m) ∈ s.names → code n = m := by
    intro n m hm; simp [hcode, dget_of_mem h2.kn hm]
  have hkeys : ∀ n, n ∈ s.names.map Prod.fst ↔ n ∈ alts.map Prod.fst ++ cfg.nests.map Prod.fst := by
    intro n; rw [h2.keys, h3]
  have hmem : ∀ n, n ∈ s.names.map Prod.fst → (n, code n) ∈ s.names := by
    intro n hn
    obtain ⟨m, hm⟩ := mem_key hn
    rw [hget n m hm]; exact hm
  have hlk : ∀ p c, (p, c) ∈ cfg.links → (p, code p) ∈ s.names ∧ (c, code c) ∈ s.names :=
    fun p c hpc => ⟨hmem p (h2.rank p c hpc).1, hmem c (h2.rank p c hpc).2.1⟩
  have halt : ∀ n ∈ alts.map Prod.fst, (n, code n) ∈ s.names := by
    intro n hn; apply hmem; rw [h2.keys]; exact List.mem_append_left _ hn
  have hchild : ∀ a b, Child s.g a b ↔ (∃ p c, (p, c) ∈ cfg.links ∧ code p = a ∧ code c = b) ∨
        (a = 0 ∧ ∃ n ∈ alts.map Prod.fst, code n = b ∧ n ∉ cfg.links.map Prod.snd) := by
    intro a b
    rw [child_iff_edgeI]
    constructor
    · rintro ⟨i, hi⟩
      rcases (h2.edges a b i).1 hi with ⟨-, p, c, hpc, hp, hc⟩ | ⟨-, ha, n, hn, hb, hnl⟩
      · exact Or.inl ⟨p, c, hpc, hget _ _ hp, hget _ _ hc⟩
      · exact Or.inr ⟨ha, n, hn, hget _ _ hb, hnl⟩
    · rintro (⟨p, c, hpc, rfl, rfl⟩ | ⟨rfl, n, hn, rfl, hnl⟩)
      · exact ⟨false, (h2.edges _ _ _).2 (Or.inl ⟨rfl, p, c, hpc, hlk p c hpc⟩)⟩
      · exact ⟨true, (h2.edges _ _ _).2 (Or.inr ⟨rfl, rfl, n, hn, halt n hn, hnl⟩)⟩
  have hroot : code "root" = 0 := hget _ _ h2.rootMem
  have hnodes : ∀ m, m ∈ s.g.nodes ↔ ∃ n ∈ alts.map Prod.fst ++ cfg.nests.map Prod.fst, code n = m := by
    intro m
    rw [h2.nodes]
    constructor
    · intro hm
      obtain ⟨e, he, rfl⟩ := List.mem_map.1 hm
      exact ⟨e.1, (hkeys _).1 (key_mem he), hget _ _ he⟩
    · rintro ⟨n, hn, rfl⟩
      exact code_mem (hmem n ((hkeys n).2 hn))
  refine ⟨s.g, code, by simp [construct, h1], h2.valid, h2.root, h2.sug, hroot, fun e he => hget _ _ (h2.alt e he), hnodes, ?_,
    hchild, ?_, ?_, ?_, ?_⟩
  · intro n hn n' hn' he
    exact fst_inj h2.cn (he ▸ hmem n ((hkeys n).2 hn)) (hmem n' ((hkeys n').2 hn'))
  · intro n k hn hnr
    have : (n, some k) ∈ cfg.nests.tail := by
      cases hc : cfg.nests with
      | nil => rw [hc] at hn; cases hn
      | cons e t =>
        rw [hc] at hn h3
        simp only [List.map_cons, List.tail_cons, List.cons.injEq] at h3
        rcases List.mem_cons.1 hn with rfl | hn
        · exact absurd h3.1 hnr
        · exact hn
    refine h2.par1 n k _ this (hmem n ?_)
    rw [h2.keys]
    exact List.mem_append_right _ (List.mem_cons_of_mem _ (List.mem_map.2 ⟨_, this, rfl⟩))
  · intro n hn
    have hk := h2.kn
    rw [h2.keys] at hk
    have hk2 := List.nodup_append.1 hk
    refine h2.par2 n _ (hmem n ?_) ?_
    · rw [h2.keys]
      rcases List.mem_cons.1 hn with rfl | hn
      · simp
      · exact List.mem_append_left _ hn
    · rcases List.mem_cons.1 hn with rfl | hn
      · exact (List.nodup_cons.1 hk2.2.1).1
      · intro hh
        exact hk2.2.2 n hn n (List.mem_cons_of_mem _ hh) rfl
  · -- rank: alternatives 0, others by distance from the end of the list of names
    let name : Int → String := fun m => ((s.names.find? (fun e => e.2 == m)).map Prod.fst).getD ""
    have hname : ∀ n m, (n, m) ∈ s.names → name m = n := by
      intro n m hm
      have : s.names.find? (fun e => e.2 == m) ≠ none := by
        rw [ne_eq, List.find?_eq_none]
        intro hh; exact absurd (by simp) (hh _ hm)
      obtain ⟨e, he⟩ := Option.ne_none_iff_exists'.1 this
      have e1 := List.find?_some he
      have e2 := List.mem_of_find?_eq_some he
      simp only [beq_iff_eq] at e1
      simp only [name, he, Option.map_some, Option.getD_some]
      exact fst_inj h2.cn (e1 ▸ e2 : (e.1, m) ∈ s.names) hm
    apply acyclic_of_rank (fun m => if name m ∈ alts.map Prod.fst then 0 else (s.names.map Prod.fst).length - (s.names.map Prod.fst).idxOf (name m))
    intro e he
    have hc : Child s.g e.u e.v := ⟨e, he, rfl, rfl⟩
    rcases (hchild _ _).1 hc with ⟨p, c, hpc, hp, hcv⟩ | ⟨hu, n, hn, hb, -⟩
    · obtain ⟨r1, r2, r3, r4, r5⟩ := h2.rank p c hpc
      rw [← hp, ← hcv]
      simp only [hname _ _ (hlk p c hpc).1, hname _ _ (hlk p c hpc).2, r3, if_false]
      have hlt := List.idxOf_lt_length_of_mem r1
      split
      · omega
      · rename_i hca
        have := r5 hca
        have hlt2 := List.idxOf_lt_length_of_mem r2
        omega
    · rw [hu, ← hb]
      simp only [hname _ _ (halt n hn), hname _ _ h2.rootMem, hn, if_true, h.noRoot, if_false]
      have := List.idxOf_lt_length_of_mem (key_mem h2.rootMem)
      omega
  · refine ⟨?_, ?_⟩
    · rw [h2.root, h2.nodes]; exact code_mem h2.rootMem
    · intro m hm hmr
      rw [h2.root] at hmr
      obtain ⟨n, hn, rfl⟩ := (hnodes m).1 hm
      rcases List.mem_append.1 hn with hn | hn
      · by_cases hl : n ∈ cfg.links.map Prod.snd
        · obtain ⟨e, he, rfl⟩ := List.mem_map.1 hl
          exact ⟨code e.1, (hchild _ _).2 (Or.inl ⟨e.1, e.2, he, rfl, rfl⟩)⟩
        · exact ⟨0, (hchild _ _).2 (Or.inr ⟨rfl, n, hn, rfl, hl⟩)⟩
      · have hnr : n ≠ "root" := by rintro rfl; exact hmr hroot
        have : n ∈ cfg.links.map Prod.snd := by
          exact nests_listed cfg n hn (by rw [h.top]; exact hnr)
        obtain ⟨e, he, rfl⟩ := List.mem_map.1 this
        exact ⟨code e.1, (hchild _ _).2 (Or.inl ⟨e.1, e.2, he, rfl, rfl⟩)⟩

/-- C94 (partial, as above): when moreover nothing is listed twice, and every nest lists something, the
graph is a tree and its alternatives (childless nodes) are exactly the given ones, in increasing order of code. -/
theorem C94_alternatives_partial (alts : List (String × Int)) (cfg : Cfg) (h : Sensible alts cfg)
    (once : (cfg.links.map Prod.snd).Nodup) (full : ∀ n ∈ cfg.nests, n.1 ∈ cfg.links.map Prod.fst) :
    ∃ g l, construct alts cfg = some g ∧ IsTree g ∧ elementals g = some l ∧ l.Perm (alts.map Prod.snd) ∧ l.Pairwise (· ≤ ·) := by
  obtain ⟨g, code, h1, hv, hr, hsug, hc0, halt, hnodes, hinj, hchild, -, -, hac, hroot⟩ := C94_tree_partial alts cfg h
  obtain ⟨s, h2, h3, h4⟩ := construct_good h
  have hrootn : "root" ∈ cfg.nests.map Prod.fst := by rw [h4]; simp
  have hlm : ∀ p c, (p, c) ∈ cfg.links → p ∈ alts.map Prod.fst ++ cfg.nests.map Prod.fst ∧
      c ∈ alts.map Prod.fst ++ cfg.nests.map Prod.fst ∧ p ∉ alts.map Prod.fst ∧ c ≠ "root" := by
    intro p c hpc
    obtain ⟨r1, r2, r3, r4, -⟩ := h3.rank p c hpc
    rw [h3.keys, ← h4] at r1 r2
    exact ⟨r1, r2, r3, r4⟩
  have hroot0 : "root" ∈ alts.map Prod.fst ++ cfg.nests.map Prod.fst := List.mem_append_right _ hrootn
  have hmemA : ∀ n ∈ alts.map Prod.fst, n ∈ alts.map Prod.fst ++ cfg.nests.map Prod.fst := fun n hn => List.mem_append_left _ hn
  have hs0 : ∀ e ∈ g.suggested, e ∈ g.nodes := by rw [hsug]; intro e he; cases he
  obtain ⟨others, ho, hsorted, -⟩ := C13_alternatives_order g hs0
  rw [hsug] at ho
  simp only [List.filter_nil, List.nil_append] at ho
  refine ⟨g, others, h1, ⟨hroot, hac, ?_, ?_, ?_⟩, ho, ?_, hsorted⟩
  · intro a b n ha hb
    rcases (hchild _ _).1 ha with ⟨p, c, hpc, rfl, rfl⟩ | ⟨rfl, n1, hn1, rfl, hnl⟩
    · rcases (hchild _ _).1 hb with ⟨p', c', hpc', rfl, hcc⟩ | ⟨rfl, n1, hn1, hcc, hnl⟩
      · have := hinj _ (hlm _ _ hpc').2.1 _ (hlm _ _ hpc).2.1 hcc
        subst this
        have := List.inj_on_of_nodup_map once hpc hpc' rfl
        exact congrArg (fun e => code e.1) this
      · have := hinj _ (hmemA _ hn1) _ (hlm _ _ hpc).2.1 hcc
        subst this
        exact absurd (List.mem_map.2 ⟨_, hpc, rfl⟩) hnl
    · rcases (hchild _ _).1 hb with ⟨p', c', hpc', rfl, hcc⟩ | ⟨rfl, -⟩
      · have := hinj _ (hlm _ _ hpc').2.1 _ (hmemA _ hn1) hcc
        subst this
        exact absurd (List.mem_map.2 ⟨_, hpc', rfl⟩) hnl
      · rfl
  · rintro ⟨a, ha⟩
    rw [hr] at ha
    rcases (hchild _ _).1 ha with ⟨p, c, hpc, rfl, hcc⟩ | ⟨-, n1, hn1, hcc, -⟩
    · exact (hlm _ _ hpc).2.2.2 (hinj _ (hlm _ _ hpc).2.1 _ hroot0 (hcc.trans hc0.symm))
    · have := hinj _ (hmemA _ hn1) _ hroot0 (hcc.trans hc0.symm)
      exact h.noRoot (this ▸ hn1)
  · obtain ⟨n, hn, hn1⟩ := List.mem_map.1 hrootn
    have := full n hn
    rw [hn1] at this
    obtain ⟨e, he, he1⟩ := List.mem_map.1 this
    exact ⟨code e.2, (hchild _ _).2 (Or.inl ⟨e.1, e.2, he, by rw [he1, hc0, hr], rfl⟩)⟩
  · refine (List.perm_ext_iff_of_nodup (nodup_elementals hv (by rw [hsug]; simp) hs0 ho) h.altCodes).2 ?_
    intro m
    rw [mem_elementals hs0 ho]
    constructor
    · rintro ⟨hm, hno⟩
      obtain ⟨n, hn, rfl⟩ := (hnodes m).1 hm
      rcases List.mem_append.1 hn with hn | hn
      · obtain ⟨e, he, rfl⟩ := List.mem_map.1 hn
        rw [halt e he]
        exact List.mem_map.2 ⟨e, he, rfl⟩
      · obtain ⟨e, he, rfl⟩ := List.mem_map.1 hn
        obtain ⟨l, hl, hl1⟩ := List.mem_map.1 (full e he)
        exact absurd ((hchild _ _).2 (Or.inl ⟨l.1, l.2, hl, by rw [hl1], rfl⟩)) (hno (code l.2))
    · intro hm
      obtain ⟨e, he, rfl⟩ := List.mem_map.1 hm
      have hen : e.1 ∈ alts.map Prod.fst := List.mem_map.2 ⟨e, he, rfl⟩
      refine ⟨(hnodes _).2 ⟨e.1, hmemA _ hen, halt e he⟩, ?_⟩
      intro c hc
      rw [← halt e he] at hc
      rcases (hchild _ _).1 hc with ⟨p, d, hpd, hp, -⟩ | ⟨h0, -⟩
      · have := hinj _ (hlm _ _ hpd).1 _ (hmemA _ hen) hp
        exact (hlm _ _ hpd).2.2.1 (this ▸ hen)
      · have := hinj _ (hmemA _ hen) _ hroot0 (h0.trans hc0.symm)
        exact h.noRoot (this ▸ hen)

/-- The codes given to a plain list of different names are 1, 2, 3, ... in the order of the list. -/
theorem C94_sequence (names : List String) (h : names.Nodup) :
    numberNames names = (names.zipIdx 1).map (fun e => (e.1, (e.2 : Int))) ∧
      ((numberNames names).map Prod.fst) = names ∧ (0 : Int) ∉ (numberNames names).map Prod.snd ∧
      ((numberNames names).map Prod.snd).Nodup := by
  have key : ∀ (l : List (String × Nat)) (d : List (String × Int)), (d.map Prod.fst ++ l.map Prod.fst).Nodup →
      l.foldl (fun d e => dset d e.1 e.2) d = d ++ l.map (fun e => (e.1, (e.2 : Int))) := by
    intro l
    induction l with
    | nil => intro d _; simp
    | cons e t ih =>
      intro d hd
      have hne : e.1 ∉ d.map Prod.fst := by
        intro hh
        exact (List.nodup_append.1 hd).2.2 _ hh e.1 (by simp) rfl
      rw [List.foldl_cons, dset_new hne, ih _ (by simpa using hd)]
      simp
  have hz : (names.zipIdx 1).map Prod.fst = names := by
    simp
  have h1 : numberNames names = (names.zipIdx 1).map (fun e => (e.1, (e.2 : Int))) := by
    unfold numberNames
    rw [key _ _ (by simpa [hz] using h)]
    simp
  have h2 : (numberNames names).map Prod.snd = ((names.zipIdx 1).map Prod.snd).map (fun n : Nat => (n : Int)) := by
    rw [h1, List.map_map, List.map_map]; rfl
  have h3 : (names.zipIdx 1).map Prod.snd = List.range' 1 names.length := by
    simp
  refine ⟨h1, ?_, ?_, ?_⟩
  · rw [h1, List.map_map]
    exact hz
  · rw [h2, h3]
    intro hh
    obtain ⟨n, hn, h0⟩ := List.mem_map.1 hh
    have := List.mem_range'_1.1 hn
    omega
  · rw [h2, h3]
    exact (List.nodup_range' (s := 1) (n := names.length)).map (fun a b hab => by simpa using hab)

theorem mem_dset (d : List (String × Int)) (k x : String) (v : Int) : x ∈ (dset d k v).map Prod.fst ↔ x ∈ d.map Prod.fst ∨ x = k := by
  unfold dset
  split
  · rename_i hk
    have : (d.map (fun e => if e.1 = k then (k, v) else e)).map Prod.fst = d.map Prod.fst := by
      rw [List.map_map]
      apply List.map_congr_left
      intro e _
      simp only [Function.comp]
      split
      · rename_i h; exact h.symm
      · rfl
    rw [this]
    constructor
    · exact Or.inl
    · rintro (h | rfl)
      · exact h
      · exact hk
  · simp

mutual
theorem makeNest_keys (s s' : Bld) (p : Int) (c : Cfg) (h : makeNest s p c = some s') :
    (∀ x, x ∈ s'.names.map Prod.fst → x ∈ s.names.map Prod.fst ∨ x ∈ c.nests.map Prod.fst) ∧
      (∀ x ∈ s.names.map Prod.fst, x ∈ s'.names.map Prod.fst) ∧ ∀ a ∈ c.leaves, a ∈ s'.names.map Prod.fst := by
  match c with
  | .alt a => simp [makeNest] at h
  | .nest nm coef kids =>
    rw [makeNest.eq_def] at h
    simp only at h
    simp only [Cfg.nests, List.map_cons, List.mem_cons, Cfg.leaves]
    split at h
    · obtain ⟨h1, h2, h3⟩ := makeKids_keys s s' nm kids h
      exact ⟨fun x hx => (h1 x hx).imp id Or.inr, h2, h3⟩
    · split at h
      · split at h
        · cases h
        · split at h
          · cases h
          · obtain ⟨h1, h2, h3⟩ := makeKids_keys _ s' nm kids h
            simp only [mem_dset] at h1 h2
            refine ⟨fun x hx => ?_, fun x hx => h2 x (Or.inl hx), h3⟩
            rcases h1 x hx with (h4 | h4) | h4
            · exact Or.inl h4
            · exact Or.inr (Or.inl h4)
            · exact Or.inr (Or.inr h4)
      · obtain ⟨h1, h2, h3⟩ := makeKids_keys _ s' nm kids h
        exact ⟨fun x hx => (h1 x hx).imp id Or.inr, h2, h3⟩
termination_by (sizeOf c, 0)

theorem makeKids_keys (s s' : Bld) (own : String) (kids : List Cfg) (h : makeKids s own kids = some s') :
    (∀ x, x ∈ s'.names.map Prod.fst → x ∈ s.names.map Prod.fst ∨ x ∈ (kidNests kids).map Prod.fst) ∧
      (∀ x ∈ s.names.map Prod.fst, x ∈ s'.names.map Prod.fst) ∧ ∀ a ∈ kidLeaves kids, a ∈ s'.names.map Prod.fst := by
  match kids with
  | [] =>
    simp only [makeKids, Option.some.injEq] at h
    subst h
    exact ⟨fun x hx => Or.inl hx, fun x hx => hx, fun a ha => by simp [kidLeaves] at ha⟩
  | .alt a :: rest =>
    rw [makeKids.eq_def] at h
    simp only at h
    split at h
    · cases h
    · split at h
      · cases h
      · rename_i c hc
        obtain ⟨h1, h2, h3⟩ := makeKids_keys _ s' own rest h
        refine ⟨fun x hx => ?_, h2, ?_⟩
        · simpa [kidNests, Cfg.nests] using h1 x hx
        · intro b hb
          simp only [kidLeaves, Cfg.leaves, List.singleton_append, List.mem_cons] at hb
          rcases hb with rfl | hb
          · exact h2 b (key_mem (dget_mem hc))
          · exact h3 b hb
  | .nest nm coef ks :: rest =>
    rw [makeKids.eq_def] at h
    simp only at h
    split at h
    · cases h
    · split at h
      · cases h
      · rename_i s1 hs1
        obtain ⟨h1, h2, h3⟩ := makeNest_keys _ s1 _ (.nest nm coef ks) hs1
        obtain ⟨h4, h5, h6⟩ := makeKids_keys s1 s' own rest h
        refine ⟨fun x hx => ?_, fun x hx => h5 x (h2 x hx), ?_⟩
        · simp only [kidNests, List.map_append, List.mem_append]
          rcases h4 x hx with h7 | h7
          · rcases h1 x h7 with h8 | h8
            · exact Or.inl h8
            · exact Or.inr (Or.inl h8)
          · exact Or.inr (Or.inr h7)
        · intro b hb
          simp only [kidLeaves, List.mem_append] at hb
          rcases hb with hb | hb
          · exact h5 b (h3 b hb)
          · exact h6 b hb
termination_by (sizeOf kids, 0)
end

/-- An edge put in by the settings, not implied by the lack of a parent. -/
def Firm (g : G) (a b : Int) : Prop := ∃ e ∈ g.edges, e.u = a ∧ e.v = b ∧ e.implied = false

theorem firm_nxAddEdge {g : G} {a b : Int} (e : Edge) (he : e.implied = false) (h : Firm g a b) : Firm (nxAddEdge g e) a b := by
  obtain ⟨d, hd, rfl, rfl, hi⟩ := h
  have hedges : (nxAddNode (nxAddNode g e.u) e.v).edges = g.edges := by
    unfold nxAddNode; split <;> split <;> rfl
  unfold nxAddEdge Firm
  simp only [hedges]
  split
  · by_cases hc : d.u = e.u ∧ d.v = e.v
    · exact ⟨_, List.mem_map.2 ⟨d, hd, rfl⟩, by rw [if_pos hc]; exact hc.1.symm, by rw [if_pos hc]; exact hc.2.symm,
        by rw [if_pos hc]; exact he⟩
    · exact ⟨_, List.mem_map.2 ⟨d, hd, rfl⟩, by rw [if_neg hc], by rw [if_neg hc], by rw [if_neg hc]; exact hi⟩
  · exact ⟨d, List.mem_append_left _ hd, rfl, rfl, hi⟩

theorem firm_nxAddEdge_self (g : G) (e : Edge) (he : e.implied = false) : Firm (nxAddEdge g e) e.u e.v := by
  unfold nxAddEdge Firm
  simp only
  split
  · rename_i h
    unfold G.hasEdge at h
    rw [List.any_eq_true] at h
    obtain ⟨d, hd, hc⟩ := h
    have hc' : d.u = e.u ∧ d.v = e.v := of_decide_eq_true hc
    exact ⟨_, List.mem_map.2 ⟨d, hd, rfl⟩, by rw [if_pos hc'], by rw [if_pos hc'], by rw [if_pos hc']; exact he⟩
  · exact ⟨e, by simp, rfl, rfl, he⟩

theorem firm_addEdge {g : G} {a b : Int} (u v : Int) (h : Firm g a b) : Firm (addEdge g u v) a b := by
  unfold addEdge
  refine firm_nxAddEdge _ rfl ?_
  obtain ⟨d, hd, h1, h2, hi⟩ := h
  exact ⟨d, by simp [hd, hi], h1, h2, hi⟩

theorem firm_addEdge_self (g : G) (u v : Int) : Firm (addEdge g u v) u v := by
  unfold addEdge
  exact firm_nxAddEdge_self _ { u := u, v := v, implied := false, param := none } rfl

theorem firm_newNode {g g' : G} {p n : Int} {c : String} (h : newNode g none { parent := some p, param := some c } = (g', some n)) :
    Firm g' p n ∧ ∀ a b, Firm g a b → Firm g' a b := by
  have hN : ∀ m a b, Firm g a b → Firm (nxAddNode g m) a b := by
    intro m a b hab; unfold nxAddNode; split
    · exact hab
    · exact hab
  simp only [newNode, proposeCode, addNode, addNodeCore, setPhi, Option.isSome_none, Option.isSome_some, Bool.false_eq_true,
    false_and, if_false, Prod.mk.injEq, Option.some.injEq, List.foldl_nil] at h
  obtain ⟨rfl, rfl⟩ := h
  refine ⟨firm_addEdge_self _ _ _, fun a b hab => firm_addEdge _ _ ?_⟩
  exact hN _ a b hab

theorem dget_dset_old {d : List (String × Int)} {k x : String} {v w : Int} (hk : dget d k = none) (h : dget d x = some w) :
    dget (dset d k v) x = some w := by
  have hk' : k ∉ d.map Prod.fst := by
    intro hm
    obtain ⟨e, he, rfl⟩ := List.mem_map.1 hm
    unfold dget at hk
    rw [Option.map_eq_none_iff, List.find?_eq_none] at hk
    exact hk e he (by simp)
  rw [dset_new hk']
  unfold dget at h ⊢
  rw [Option.map_eq_some_iff] at h ⊢
  obtain ⟨e, he, rfl⟩ := h
  exact ⟨e, by rw [List.find?_append, he]; rfl, rfl⟩

theorem dget_dset_self {d : List (String × Int)} {k : String} {v : Int} (hk : dget d k = none) :
    dget (dset d k v) k = some v := by
  have hf : d.find? (fun e => e.1 == k) = none := by
    unfold dget at hk; rwa [Option.map_eq_none_iff] at hk
  have hk' : k ∉ d.map Prod.fst := by
    intro hm
    obtain ⟨e, he, rfl⟩ := List.mem_map.1 hm
    rw [List.find?_eq_none] at hf
    exact hf e he (by simp)
  rw [dset_new hk']
  unfold dget
  rw [List.find?_append, hf]
  simp

mutual
theorem makeNest_firm (s s' : Bld) (p : Int) (c : Cfg) (h : makeNest s p c = some s') :
    (∀ x v, dget s.names x = some v → dget s'.names x = some v) ∧ (∀ a b, Firm s.g a b → Firm s'.g a b) ∧
      (c.name ≠ "root" → ∃ v, dget s'.names c.name = some v ∧ Firm s'.g p v) ∧
      ∀ l ∈ c.links, l.2 ≠ "root" → ∃ a b, dget s'.names l.1 = some a ∧ dget s'.names l.2 = some b ∧ Firm s'.g a b := by
  match c with
  | .alt a => simp [makeNest] at h
  | .nest nm coef kids =>
    rw [makeNest.eq_def] at h
    simp only at h
    simp only [Cfg.name, Cfg.links]
    by_cases hr : nm = "root"
    · rw [if_pos hr] at h
      obtain ⟨h1, h2, h3⟩ := makeKids_firm s s' nm kids h
      exact ⟨h1, h2, fun hn => absurd hr hn, h3⟩
    · rw [if_neg hr] at h
      cases hd : dget s.names nm with
      | some code =>
        rw [hd] at h
        obtain ⟨h1, h2, h3⟩ := makeKids_firm _ s' nm kids h
        exact ⟨h1, fun a b hab => h2 a b (firm_addEdge _ _ hab), fun _ => ⟨code, h1 _ _ hd, h2 _ _ (firm_addEdge_self _ _ _)⟩, h3⟩
      | none =>
        rw [hd] at h
        cases coef with
        | none => cases h
        | some cf =>
          simp only at h
          cases hn : newNode s.g none { parent := some p, param := some cf } with
          | mk g' o =>
            rw [hn] at h
            cases o with
            | none => cases h
            | some n =>
              obtain ⟨h1, h2, h3⟩ := makeKids_firm _ s' nm kids h
              obtain ⟨k1, k2⟩ := firm_newNode hn
              exact ⟨fun x v hx => h1 x v (dget_dset_old hd hx), fun a b hab => h2 a b (k2 a b hab),
                fun _ => ⟨n, h1 _ _ (dget_dset_self hd), h2 _ _ k1⟩, h3⟩
termination_by (sizeOf c, 0)

theorem makeKids_firm (s s' : Bld) (own : String) (kids : List Cfg) (h : makeKids s own kids = some s') :
    (∀ x v, dget s.names x = some v → dget s'.names x = some v) ∧ (∀ a b, Firm s.g a b → Firm s'.g a b) ∧
      ∀ l ∈ kidLinks own kids, l.2 ≠ "root" →
        ∃ a b, dget s'.names l.1 = some a ∧ dget s'.names l.2 = some b ∧ Firm s'.g a b := by
  match kids with
  | [] =>
    simp only [makeKids, Option.some.injEq] at h
    subst h
    exact ⟨fun x v hx => hx, fun a b hx => hx, fun l hl => by simp [kidLinks] at hl⟩
  | .alt a :: rest =>
    rw [makeKids.eq_def] at h
    simp only at h
    cases ho : dget s.names own with
    | none => rw [ho] at h; cases h
    | some o =>
      rw [ho] at h
      simp only at h
      cases hc : dget s.names a with
      | none => rw [hc] at h; cases h
      | some c =>
        rw [hc] at h
        obtain ⟨h1, h2, h3⟩ := makeKids_firm _ s' own rest h
        refine ⟨h1, fun x y hxy => h2 x y (firm_addEdge _ _ hxy), ?_⟩
        intro l hl hlr
        simp only [kidLinks, Cfg.name, Cfg.links, List.nil_append, List.mem_cons] at hl
        rcases hl with rfl | hl
        · exact ⟨o, c, h1 _ _ ho, h1 _ _ hc, h2 _ _ (firm_addEdge_self _ _ _)⟩
        · exact h3 l hl hlr
  | .nest nm coef ks :: rest =>
    rw [makeKids.eq_def] at h
    simp only at h
    cases ho : dget s.names own with
    | none => rw [ho] at h; cases h
    | some o =>
      rw [ho] at h
      simp only at h
      cases hm : makeNest s o (.nest nm coef ks) with
      | none => rw [hm] at h; cases h
      | some s1 =>
        rw [hm] at h
        obtain ⟨h1, h2, h3, h4⟩ := makeNest_firm _ s1 _ (.nest nm coef ks) hm
        obtain ⟨k1, k2, k3⟩ := makeKids_firm s1 s' own rest h
        refine ⟨fun x v hx => k1 x v (h1 x v hx), fun x y hxy => k2 x y (h2 x y hxy), ?_⟩
        intro l hl hlr
        simp only [kidLinks, List.mem_cons, List.mem_append] at hl
        rcases hl with rfl | hl | hl
        · obtain ⟨v, hv1, hv2⟩ := h3 hlr
          exact ⟨o, v, k1 _ _ (h1 _ _ ho), k1 _ _ hv1, k2 _ _ hv2⟩
        · obtain ⟨x, y, hx, hy, hxy⟩ := h4 l hl hlr
          exact ⟨x, y, k1 _ _ hx, k1 _ _ hy, k2 _ _ hxy⟩
        · exact k3 l hl hlr
termination_by (sizeOf kids, 0)
end

/-- C94, for every settings that are accepted (also when a nest or an alternative is listed several times): each name stands for
one node — the root for 0, each alternative for its code — and whatever is listed under a nest is a child of it. -/
theorem C94_listed (alts : List (String × Int)) (cfg : Cfg) (g : G) (h : construct alts cfg = some g)
    (hn : (alts.map Prod.fst).Nodup) (hr : "root" ∉ alts.map Prod.fst) :
    ∃ code : String → Int, code "root" = 0 ∧ (∀ e ∈ alts, code e.1 = e.2) ∧
      ∀ p c, (p, c) ∈ cfg.links → c ≠ "root" → Child g (code p) (code c) := by
  unfold construct at h
  rw [Option.map_eq_some_iff] at h
  obtain ⟨s, hs, rfl⟩ := h
  obtain ⟨h1, -, -, h4⟩ := makeNest_firm _ _ _ _ hs
  refine ⟨fun n => (dget s.names n).getD 0, ?_, ?_, ?_⟩
  · show (dget s.names "root").getD 0 = 0
    rw [h1 "root" 0 (dget_dset_self (dget_none hr))]; rfl
  · intro e he
    show (dget s.names e.1).getD 0 = e.2
    rw [h1 e.1 e.2 (dget_dset_old (dget_none hr) (dget_of_mem hn he))]
    rfl
  · intro p c hpc hcr
    obtain ⟨a, b, ha, hb, e, he, hu, hv, -⟩ := h4 (p, c) hpc hcr
    refine ⟨e, he, ?_, ?_⟩
    · show e.u = (dget s.names p).getD 0
      rw [hu, ha]; rfl
    · show e.v = (dget s.names c).getD 0
      rw [hv, hb]; rfl

/-- An accepted setting with a nest listed under two others (a network, not a tree). -/
example : (construct [("a", 1), ("b", 2)] (.nest "root" none [.nest "M" (some "m") [.nest "N" (some "n") [.alt "a"]],
    .nest "L" (some "l") [.nest "N" none [.alt "b"]]])).isSome = true := by decide +kernel

/-- C94, for every settings: a listed name that is neither an alternative nor a nest (nor `root`) raises. -/
theorem C94_unknown_raises (alts : List (String × Int)) (cfg : Cfg) (a : String) (ha : a ∈ cfg.leaves)
    (h1 : a ∉ alts.map Prod.fst) (h2 : a ∉ cfg.nests.map Prod.fst) (h3 : a ≠ "root") : construct alts cfg = none := by
  cases h : makeNest (startBld alts) 0 cfg with
  | none => simp [construct, h]
  | some s' =>
    obtain ⟨k1, -, k3⟩ := makeNest_keys _ _ _ _ h
    have hs : ∀ x, x ∈ (startBld alts).names.map Prod.fst ↔ x ∈ alts.map Prod.fst ∨ x = "root" := mem_dset alts "root" (v := 0)
    rcases k1 a (k3 a ha) with h4 | h4
    · rcases (hs a).1 h4 with h5 | h5
      · exact absurd h5 h1
      · exact absurd h5 h3
    · exact absurd h4 h2

/-- A mode choice: car alone, shared ride (a nest of two), and a nest of transit with a nest in it. -/
def modeAlts : List (String × Int) := [("alone", 1), ("two", 2), ("three", 3), ("walk", 4), ("bus", 5), ("rail", 6)]

def modeCfg : Cfg :=
  .nest "root" (some "one") [
    .nest "auto" (some "c_auto") [.alt "alone", .nest "shared" (some "c_shared") [.alt "two", .alt "three"]],
    .alt "walk",
    .nest "transit" (some "c_transit") [.alt "bus", .alt "rail"]]

theorem mode_sensible : Sensible modeAlts modeCfg where
  altNames := by decide
  altCodes := by decide
  noRoot := by decide
  noZero := by decide
  top := rfl
  isNest := by intro a h; cases h
  nestNames := by decide +kernel
  nestNew := by decide +kernel
  coefs := by decide +kernel
  leaves := by decide +kernel

example : (modeCfg.links.map Prod.snd).Nodup := by decide +kernel
example : ∀ n ∈ modeCfg.nests, n.1 ∈ modeCfg.links.map Prod.fst := by decide +kernel

example : (construct modeAlts modeCfg).map G.nodes = some [0, 1, 2, 3, 4, 5, 6, 7, 8, 9] := by decide +kernel

example : (construct modeAlts modeCfg).bind standardSort = some [1, 2, 3, 4, 5, 6, 8, 7, 9, 0] := by decide +kernel

example : (construct modeAlts (.nest "root" none [.alt "alone", .alt "boat"])).isNone = true := by decide +kernel

/-- C94 fails: an alternative left out of well-formed settings is not reported; it ends up directly under the root. -/
theorem C94_fails_omitted (alts : List (String × Int)) (cfg : Cfg) (h : Sensible alts cfg) (e : String × Int) (he : e ∈ alts)
    (hl : e.1 ∉ cfg.links.map Prod.snd) : ∃ g, construct alts cfg = some g ∧ Child g 0 e.2 := by
  obtain ⟨g, code, h1, -, -, -, -, halt, -, -, hchild, -⟩ := C94_tree_partial alts cfg h
  exact ⟨g, h1, (hchild _ _).2 (Or.inr ⟨rfl, e.1, List.mem_map.2 ⟨e, he, rfl⟩, halt e he, hl⟩)⟩

example : Sensible modeAlts (.nest "root" none [.nest "auto" (some "c") [.alt "alone", .alt "two"]]) where
  altNames := by decide
  altCodes := by decide
  noRoot := by decide
  noZero := by decide
  top := rfl
  isNest := by intro a h; cases h
  nestNames := by decide +kernel
  nestNew := by decide +kernel
  coefs := by decide +kernel
  leaves := by decide +kernel

/-- C94 fails: a second nest of the same name is merged into the first; its own coefficient is dropped. -/
theorem C94_fails_same_name :
    ∃ g, construct [("a", 1), ("b", 2)] (.nest "root" none [.nest "N" (some "c1") [.alt "a"], .nest "N" (some "c2") [.alt "b"]]) = some g ∧
      g.nodes = [0, 1, 2, 3] ∧ g.nparam 3 = some "c1" ∧ Child g 3 1 ∧ Child g 3 2 ∧ ∀ n ∈ g.nodes, g.nparam n ≠ some "c2" := by
  refine ⟨_, rfl, by decide +kernel, by decide +kernel, ⟨⟨3, 1, false, none⟩, by decide +kernel, rfl, rfl⟩,
    ⟨⟨3, 2, false, none⟩, by decide +kernel, rfl, rfl⟩, by decide +kernel⟩

/-- C94 fails: a nest that lists nothing becomes an additional alternative. -/
theorem C94_fails_empty_nest :
    (construct [("a", 1), ("b", 2)] (.nest "root" none [.alt "a", .nest "N" (some "c") [], .alt "b"])).bind elementals = some [1, 2, 3] := by
  decide +kernel

/-- C94 fails: a nest with the name of an alternative turns that alternative into the nest, without coefficient. -/
theorem C94_fails_alternative_as_nest :
    (construct [("a", 1), ("b", 2)] (.nest "root" none [.nest "a" (some "c") [.alt "b"]])).bind elementals = some [2] ∧
    ((construct [("a", 1), ("b", 2)] (.nest "root" none [.nest "a" (some "c") [.alt "b"]])).bind (fun g => g.nparam 1)) = none := by
  constructor <;> decide +kernel

/-- C94 fails: listing `root` as an alternative puts the root under itself. -/
theorem C94_fails_root_listed :
    ∃ g, construct [("a", 1)] (.nest "root" none [.alt "a", .alt "root"]) = some g ∧ Child g 0 0 := by
  exact ⟨_, rfl, ⟨0, 0, false, none⟩, by decide +kernel, rfl, rfl⟩

end Larch.Props
