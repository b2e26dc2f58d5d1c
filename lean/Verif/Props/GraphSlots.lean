import Verif.Lemmas.GraphSlots
import Verif.Props.Graph

/-!
# C15: the slot arrays of a nesting graph
-/

namespace Larch.Props

open Larch.Graph

theorem idxOf_lt_of_before {l : List Int} (hnd : l.Nodup) {a b : Int} (h : Before l a b) : l.idxOf a < l.idxOf b := by
  obtain ⟨x, y, z, rfl⟩ := h
  rw [List.append_assoc, List.nodup_append] at hnd
  obtain ⟨-, h2, h3⟩ := hnd
  rw [List.cons_append, List.nodup_cons] at h2
  have hax : a ∉ x := fun h => h3 a h a (by simp) rfl
  have hbx : b ∉ x := fun h => h3 b h b (by simp) rfl
  have hba : a ≠ b := by
    rintro rfl
    exact h2.1 (by simp)
  rw [List.append_assoc, List.idxOf_append_of_notMem hax, List.idxOf_append_of_notMem hbx, List.cons_append,
    List.idxOf_cons_self, List.idxOf_cons_ne _ hba]
  omega

/-- C15: for every graph without cycles, with `std` its standard order: the edge arrays list each edge exactly once as
(slot of parent, slot of child), grouped by increasing parent slot, children at smaller slots; `start` and `num` delimit exactly the
edges out of each node (`start = -1` for a node without children); `first` marks the first listing of each child; and the mu slot of
a node is that of its own parameter. -/
theorem C15_arrays (g : G) (hg : Valid g) (ha : Acyclic g) (hn : g.suggested.Nodup) (hs : ∀ e ∈ g.suggested, e ∈ g.nodes)
    (slotX : Option String → Option Nat) :
    ∃ std up dn first start num, standardSort g = some std ∧ edgeSlotArrays g std = some (up, dn, first) ∧
      fillNodes g std = some (start, num) ∧
      up.length = g.edges.length ∧ dn.length = g.edges.length ∧ first.length = g.edges.length ∧
      start.length = g.nodes.length ∧ num.length = g.nodes.length ∧
      (up.zip dn).Perm (g.edges.map fun e => (std.idxOf e.u, std.idxOf e.v)) ∧
      up.Pairwise (· ≤ ·) ∧
      (∀ p ∈ up.zip dn, p.2 < p.1 ∧ p.1 < g.nodes.length) ∧
      (∀ k < g.nodes.length,
        ((up.zip dn).drop (start.getD k (-1)).toNat).take (num.getD k 0) = (up.zip dn).filter (fun p => p.1 = k) ∧
        (start.getD k (-1)).toNat + num.getD k 0 ≤ g.edges.length ∧ (start.getD k (-1) = -1 ↔ num.getD k 0 = 0) ∧
        -1 ≤ start.getD k (-1)) ∧
      (∀ i (h : i < dn.length), first[i]? = some (if dn[i] ∈ dn.take i then 0 else 1)) ∧
      (∀ c ∈ g.nodes, (muSlots g std slotX)[std.idxOf c]? = some (slotX (g.nparam c))) := by
  obtain ⟨alts, rest, he, hstd, hperm, hmem, hbef⟩ := C13_standard_order g hg ha hn hs
  set std := alts ++ rest with hstd'
  have hnd : std.Nodup := hperm.nodup_iff.2 hg.nodup
  obtain ⟨start, num, hN, l1, l2, hnum, hstart⟩ := fillNodes_eq hg hnd hperm
  obtain ⟨hfl, hf⟩ := firstVisits_spec [] ((W g std).map Prod.snd)
  have hzip : ((W g std).map Prod.fst).zip ((W g std).map Prod.snd) = W g std := by
    rw [List.zip_map']
    simp
  have hlen := W_length hg hnd hperm
  refine ⟨std, (W g std).map Prod.fst, (W g std).map Prod.snd, firstVisits [] ((W g std).map Prod.snd), start, num, hstd,
    by rw [edgeSlotArrays, fillEdges_eq hg hnd hperm]; rfl, hN, by simp [hlen], by simp [hlen], by rw [hfl]; simp [hlen], l1, l2,
    ?_, ?_, ?_, ?_, ?_, ?_⟩
  · rw [hzip]; exact W_perm hg hnd hperm
  · rw [List.pairwise_map]; exact W_sorted hnd
  · rw [hzip]
    intro p hp
    refine ⟨?_, fst_lt hperm p hp⟩
    have := (W_perm hg hnd hperm).mem_iff.1 hp
    rw [List.mem_map] at this
    obtain ⟨e, hee, rfl⟩ := this
    exact idxOf_lt_of_before hnd (hbef e.u e.v ⟨e, hee, rfl, rfl⟩)
  · intro k hk
    rw [hzip, hnum k hk, hstart k hk]
    by_cases hany : (W g std).any (fun p => p.1 = k) = true
    · rw [if_pos hany]
      have hpos : 0 < (W g std).countP (fun p => p.1 = k) := by
        rw [List.countP_pos_iff]
        exact List.any_eq_true.1 hany
      refine ⟨?_, ?_, ?_, by omega⟩
      · rw [Int.toNat_natCast]; exact sorted_group _ (W_sorted hnd) k
      · rw [Int.toNat_natCast, ← hlen]; exact findIdx_add_countP_le _ k
      · constructor
        · intro h; omega
        · intro h; omega
    · rw [if_neg hany]
      have hzero : (W g std).countP (fun p => p.1 = k) = 0 := by
        rw [List.countP_eq_zero]
        intro a haW hk'
        exact hany (List.any_eq_true.2 ⟨a, haW, hk'⟩)
      have hfilt : (W g std).filter (fun p => p.1 = k) = [] := by
        rw [← List.length_eq_zero_iff, ← List.countP_eq_length_filter]; exact hzero
      rw [hzero, hfilt]
      simp
  · intro i h
    have := hf i h
    simpa using this
  · intro c hc
    have hcs : c ∈ std := hperm.mem_iff.2 hc
    unfold muSlots
    rw [List.getElem?_map, List.getElem?_eq_getElem (List.idxOf_lt_length_of_mem hcs)]
    simp

/-- C15 for the kernel: the arrays of a nesting *tree* are well-formed in the sense every kernel theorem (C01-C07, C16) assumes. -/
theorem C15_kernel_tree (g : G) (hg : Valid g) (ht : IsTree g) (hn : g.suggested.Nodup) (hs : ∀ e ∈ g.suggested, e ∈ g.nodes)
    (slotX : Option String → Option Nat) :
    ∃ T std alts, toTree g slotX = some T ∧ T.WF ∧ standardSort g = some std ∧ elementals g = some alts ∧
      T.nAlts = alts.length ∧ T.nNodes = g.nodes.length ∧ std[g.nodes.length - 1]? = some g.root ∧
      (∀ u v, Child g u v ↔ u ∈ g.nodes ∧ v ∈ g.nodes ∧ (std.idxOf u, std.idxOf v) ∈ T.edges) ∧
      (∀ c ∈ g.nodes, (∃ d, Child g c d) → T.muSlot (std.idxOf c - alts.length) = slotX (g.nparam c)) := by
  obtain ⟨alts, rest, he, hstd0, hperm0, hmem, hbef0⟩ := C13_standard_order g hg ht.acyclic hn hs
  obtain ⟨std, up, dn, first, start, num, hstd, hE, hN, l1, l2, l3, l4, l5, hperm, hsort, hlt, hslots, hfirst, hmu⟩ :=
    C15_arrays g hg ht.acyclic hn hs slotX
  obtain rfl : alts ++ rest = std := by rw [hstd0] at hstd; exact Option.some.inj hstd
  set std := alts ++ rest with hstd'
  have hnd : std.Nodup := hperm0.nodup_iff.2 hg.nodup
  have hstdlen : std.length = g.nodes.length := hperm0.length_eq
  have hmemstd : ∀ c, c ∈ std ↔ c ∈ g.nodes := fun c => hperm0.mem_iff
  have hinj : ∀ a ∈ g.nodes, ∀ b ∈ g.nodes, std.idxOf a = std.idxOf b → a = b := by
    intro a ha b _ h
    exact (List.idxOf_inj ((hmemstd a).2 ha)).1 h
  have hchild : ∀ u v, Child g u v → u ∈ g.nodes ∧ v ∈ g.nodes := by
    rintro u v ⟨e, hee, rfl, rfl⟩; exact hg.ends e hee
  have hedge : ∀ p, p ∈ up.zip dn ↔ ∃ u v, Child g u v ∧ p = (std.idxOf u, std.idxOf v) := by
    intro p
    rw [hperm.mem_iff, List.mem_map]
    constructor
    · rintro ⟨e, hee, rfl⟩; exact ⟨e.u, e.v, ⟨e, hee, rfl, rfl⟩, rfl⟩
    · rintro ⟨u, v, ⟨e, hee, rfl, rfl⟩, rfl⟩; exact ⟨e, hee, rfl⟩
  -- alternatives have slots below alts.length, nests do not
  have hnest : ∀ c ∈ g.nodes, (∃ d, Child g c d) → alts.length ≤ std.idxOf c := by
    intro c hc ⟨d, hd⟩
    have : c ∉ alts := fun h => ((hmem c).1 h).2 d hd
    rw [hstd', List.idxOf_append_of_notMem this]
    omega
  have hroot : g.root ∈ g.nodes := ht.rooted.1
  have haltlen : alts.length < g.nodes.length := by
    obtain ⟨n, hn'⟩ := ht.nonempty
    have h1 := hnest g.root hroot ⟨n, hn'⟩
    have h2 := List.idxOf_lt_length_of_mem ((hmemstd g.root).2 hroot)
    omega
  -- every node but the root has a parent at a larger slot
  have hpar : ∀ c ∈ g.nodes, c ≠ g.root → ∃ p, Child g p c := ht.rooted.2
  have hlast : std.idxOf g.root = g.nodes.length - 1 := by
    have hl : g.nodes.length - 1 < std.length := by omega
    have hz : std[g.nodes.length - 1] ∈ g.nodes := (hmemstd _).1 (List.getElem_mem hl)
    by_contra hne
    have hzr : std[g.nodes.length - 1] ≠ g.root := by
      intro h
      apply hne
      rw [← h, hnd.idxOf_getElem]
    obtain ⟨p, hp⟩ := hpar _ hz hzr
    have h1 := idxOf_lt_of_before hnd (hbef0 _ _ hp)
    rw [hnd.idxOf_getElem] at h1
    have h2 := List.idxOf_lt_length_of_mem ((hmemstd p).2 (hchild _ _ hp).1)
    omega
  refine ⟨_, std, alts, by rw [toTree, hstd, he, Option.bind_some, Option.bind_some, hE, Option.bind_some, hN, Option.map_some],
    ?_, hstd, he, rfl, rfl, ?_, ?_, ?_⟩
  · refine ⟨haltlen, ?_, ?_, ?_, ?_, ?_⟩
    · intro e hee
      refine ⟨(hlt e hee).1, ?_, (hlt e hee).2⟩
      obtain ⟨u, v, huv, rfl⟩ := (hedge e).1 hee
      exact hnest u (hchild u v huv).1 ⟨v, huv⟩
    · have h1 : ((up.zip dn).map Prod.fst).Pairwise (· ≤ ·) := by
        rw [List.map_fst_zip (by omega)]; exact hsort
      rw [List.pairwise_map] at h1
      exact h1
    · have h1 : ((up.zip dn).map Prod.snd).Perm (g.edges.map fun e => std.idxOf e.v) := by
        have := hperm.map Prod.snd
        rw [List.map_map] at this
        exact this
      rw [h1.nodup_iff]
      have h2 : (g.edges.map (fun e => e.v)).Nodup := by
        have h3 : g.edges.Pairwise (fun a b => (a.u, a.v) ≠ (b.u, b.v)) := List.pairwise_map.1 hg.pairs
        rw [List.Nodup, List.pairwise_map]
        refine h3.imp_of_mem ?_
        intro a b ha hb hab hv
        apply hab
        rw [Prod.mk.injEq]
        exact ⟨ht.one a.u b.u a.v ⟨a, ha, rfl, rfl⟩ ⟨b, hb, rfl, hv.symm⟩, hv⟩
      have h4 : (g.edges.map fun e => std.idxOf e.v) = (g.edges.map (fun e => e.v)).map (std.idxOf ·) := by
        rw [List.map_map]; rfl
      rw [h4]
      refine h2.map_on ?_
      intro a ha b hb hab
      rw [List.mem_map] at ha hb
      obtain ⟨e, hee, rfl⟩ := ha
      obtain ⟨d, hd, rfl⟩ := hb
      exact hinj _ (hg.ends e hee).2 _ (hg.ends d hd).2 hab
    · intro n hnn
      simp only at hnn
      have hl : n < std.length := by omega
      have hz : std[n] ∈ g.nodes := (hmemstd _).1 (List.getElem_mem hl)
      have hzr : std[n] ≠ g.root := by
        intro h
        have : std.idxOf g.root = n := by rw [← h, hnd.idxOf_getElem]
        omega
      obtain ⟨p, hp⟩ := hpar _ hz hzr
      refine ⟨std.idxOf p, (hedge _).2 ⟨p, std[n], hp, ?_⟩⟩
      rw [hnd.idxOf_getElem]
    · intro k hk
      simp only at hk
      have hh := hslots (alts.length + k) hk
      have e1 : (List.drop alts.length start).getD k (-1) = start.getD (alts.length + k) (-1) := by
        simp [List.getD_eq_getElem?_getD]
      have e2 : (List.drop alts.length num).getD k 0 = num.getD (alts.length + k) 0 := by
        simp [List.getD_eq_getElem?_getD]
      simp only
      rw [e1, e2]
      refine ⟨?_, hh.1⟩
      rw [List.length_zip, l1, l2, min_self]
      exact hh.2.1
  · have hl : g.nodes.length - 1 < std.length := by omega
    rw [List.getElem?_eq_getElem hl]
    have h1 : std.idxOf g.root < std.length := by omega
    have h2 := List.getElem_idxOf h1
    simp only [hlast] at h2
    rw [h2]
  · intro u v
    constructor
    · intro h
      exact ⟨(hchild u v h).1, (hchild u v h).2, (hedge _).2 ⟨u, v, h, rfl⟩⟩
    · rintro ⟨hu, hv, h⟩
      obtain ⟨a, b, hab, heq⟩ := (hedge _).1 h
      rw [Prod.mk.injEq] at heq
      rw [hinj u hu a (hchild a b hab).1 heq.1, hinj v hv b (hchild a b hab).2 heq.2]
      exact hab
  · intro c hc hd
    have h1 := hnest c hc hd
    have h2 := hmu c hc
    simp only [List.getD_eq_getElem?_getD, List.getElem?_drop]
    rw [show alts.length + (std.idxOf c - alts.length) = std.idxOf c by omega, h2]
    rfl

/-- The demo graph is a tree, and these are its arrays: alternatives 1..5 at slots 0..4, nest 6 = {4, 5} at slot 5, nest 11 = {6, 3}
at slot 6, root 99 at slot 7. -/
theorem demo_tree : IsTree (run (new 0) demoOps) := by
  have he : (run (new 0) demoOps).edges =
    [⟨6, 4, false, none⟩, ⟨6, 5, false, none⟩, ⟨11, 6, false, none⟩, ⟨11, 3, false, none⟩, ⟨99, 1, true, none⟩,
     ⟨99, 11, false, none⟩, ⟨99, 2, true, none⟩] := by decide +kernel
  have hr : (run (new 0) demoOps).root = 99 := by decide +kernel
  refine ⟨⟨by decide +kernel, ?_⟩, demo_acyclic, ?_, ?_, ?_⟩
  · have hn : (run (new 0) demoOps).nodes = [1, 2, 3, 4, 5, 6, 11, 99] := by decide +kernel
    rw [hn, hr]
    intro n h1 h2
    simp only [HasParent, Child, he]
    simp only [List.mem_cons, List.not_mem_nil, or_false] at h1
    rcases h1 with rfl | rfl | rfl | rfl | rfl | rfl | rfl | rfl
    · exact ⟨99, by simp⟩
    · exact ⟨99, by simp⟩
    · exact ⟨11, by simp⟩
    · exact ⟨6, by simp⟩
    · exact ⟨6, by simp⟩
    · exact ⟨11, by simp⟩
    · exact ⟨99, by simp⟩
    · exact absurd rfl h2
  · intro a b n h1 h2
    simp only [Child, he] at h1 h2
    obtain ⟨e, hm, rfl, rfl⟩ := h1
    obtain ⟨d, hm', rfl, hv⟩ := h2
    simp only [List.mem_cons, List.not_mem_nil, or_false] at hm hm'
    rcases hm with rfl | rfl | rfl | rfl | rfl | rfl | rfl <;>
      rcases hm' with rfl | rfl | rfl | rfl | rfl | rfl | rfl <;> simp_all
  · rintro ⟨p, e, hm, -, hv⟩
    rw [he] at hm
    rw [hr] at hv
    simp only [List.mem_cons, List.not_mem_nil, or_false] at hm
    rcases hm with rfl | rfl | rfl | rfl | rfl | rfl | rfl <;> simp at hv
  · rw [hr]; exact ⟨1, ⟨99, 1, true, none⟩, by rw [he]; simp, rfl, rfl⟩

example : (edgeSlotArrays (run (new 0) demoOps) [1, 2, 3, 4, 5, 6, 11, 99]) =
      some ([5, 5, 6, 6, 7, 7, 7], [3, 4, 5, 2, 0, 6, 1], [1, 1, 1, 1, 1, 1, 1]) ∧
    fillNodes (run (new 0) demoOps) [1, 2, 3, 4, 5, 6, 11, 99] =
      some ([-1, -1, -1, -1, -1, 0, 2, 4], [0, 0, 0, 0, 0, 2, 2, 3]) := by decide +kernel

example : Valid (run (new 0) demoOps) ∧ IsTree (run (new 0) demoOps) ∧ (run (new 0) demoOps).suggested.Nodup ∧
    (∀ e ∈ (run (new 0) demoOps).suggested, e ∈ (run (new 0) demoOps).nodes) :=
  ⟨C12_valid _ _ _, demo_tree, by decide +kernel, by decide +kernel⟩

end Larch.Props
