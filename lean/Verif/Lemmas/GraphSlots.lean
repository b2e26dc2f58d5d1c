import Verif.Lemmas.GraphOrder

namespace Larch.Graph

theorem find_zipIdx (std : List Int) (hnd : std.Nodup) (c : Int) (hc : c ∈ std) (k : Nat) :
    ((std.zipIdx k).reverse.find? (fun e => e.1 = c)).map Prod.snd = some (std.idxOf c + k) := by
  induction std generalizing k with
  | nil => simp at hc
  | cons a t ih =>
    obtain ⟨ha, ht⟩ := List.nodup_cons.1 hnd
    rw [List.zipIdx_cons, List.reverse_cons, List.find?_append]
    by_cases hac : a = c
    · subst hac
      have : (t.zipIdx (k + 1)).reverse.find? (fun e => e.1 = a) = none := by
        rw [List.find?_eq_none]
        rintro ⟨x, i⟩ hx
        rw [List.mem_reverse] at hx
        have := List.fst_mem_of_mem_zipIdx hx
        simp only [decide_eq_true_eq]
        rintro rfl
        exact ha this
      rw [this]
      simp
    · have hct : c ∈ t := by simpa [Ne.symm hac] using hc
      have h1 := ih ht hct (k + 1)
      cases hf : (t.zipIdx (k + 1)).reverse.find? (fun e => e.1 = c) with
      | none => rw [hf] at h1; simp at h1
      | some x =>
        rw [hf] at h1
        simp only [Option.map_some, Option.some.injEq] at h1
        simp only [Option.some_or, Option.map_some, Option.some.injEq]
        rw [h1, List.idxOf_cons_ne _ hac]
        omega

theorem slotMap_eq {std : List Int} (hnd : std.Nodup) {c : Int} (hc : c ∈ std) : slotMap std c = some (std.idxOf c) := by
  have := find_zipIdx std hnd c hc 0
  simpa [slotMap] using this

/-- The edges in the order of the arrays. -/
def W (g : G) (std : List Int) : List (Nat × Nat) :=
  std.flatMap fun c => (g.outEdges c).map fun e => (std.idxOf c, std.idxOf e.v)

theorem mapM_some {α β : Type} (f : α → Option β) (h : α → β) (l : List α) (hf : ∀ a ∈ l, f a = some (h a)) :
    l.mapM f = some (l.map h) := by
  induction l with
  | nil => simp
  | cons a t ih =>
    rw [List.mapM_cons, hf a (by simp), ih (fun b hb => hf b (by simp [hb]))]
    rfl

theorem flatten_reverse_map {α β : Type} (l : List α) (f : α → List β) :
    (l.reverse.map fun a => (f a).reverse).flatten = (l.flatMap f).reverse := by
  induction l with
  | nil => rfl
  | cons a t ih =>
    rw [List.reverse_cons, List.map_append, List.flatten_append, ih]
    simp

theorem visits_eq {g : G} (hg : Valid g) {std : List Int} (hnd : std.Nodup) (hp : std.Perm g.nodes) :
    visits g std = some (W g std).reverse := by
  unfold visits
  rw [mapM_some _ (fun c => ((g.outEdges c).map fun e => (std.idxOf c, std.idxOf e.v)).reverse)]
  · rw [Option.map_some, flatten_reverse_map]; rfl
  · intro c hc
    rw [List.mem_reverse] at hc
    have hs : successorSlots g std c = some ((g.outEdges c).map (fun e => std.idxOf e.v)) := by
      unfold successorSlots
      apply mapM_some
      intro e he
      apply slotMap_eq hnd
      rw [hp.mem_iff]
      exact (hg.ends e (List.mem_filter.1 he).1).2
    rw [slotMap_eq hnd hc, hs]
    simp [← List.map_reverse]

/-- All edges, grouped by their start nodes. -/
theorem flatMap_filter_perm (es : List Edge) (std : List Int) (hnd : std.Nodup) (h : ∀ e ∈ es, e.u ∈ std) :
    (std.flatMap fun c => es.filter (fun e => e.u = c)).Perm es := by
  induction std generalizing es with
  | nil =>
    cases es with
    | nil => simp
    | cons e t => exact absurd (h e (by simp)) (by simp)
  | cons a t ih =>
    obtain ⟨ha, ht⟩ := List.nodup_cons.1 hnd
    rw [List.flatMap_cons]
    have h1 : (t.flatMap fun c => es.filter (fun e => e.u = c)) =
        t.flatMap fun c => (es.filter (fun e => ¬ e.u = a)).filter (fun e => e.u = c) := by
      apply List.flatMap_congr
      intro c hc
      rw [List.filter_filter]
      apply List.filter_congr
      intro e _
      have : c ≠ a := by rintro rfl; exact ha hc
      by_cases hec : e.u = c
      · simp [hec, this]
      · simp [hec]
    rw [h1]
    have h2 := ih (es.filter (fun e => ¬ e.u = a)) ht (by
      intro e he
      simp only [List.mem_filter, decide_eq_true_eq] at he
      have := h e he.1
      simpa [he.2] using this)
    refine (List.Perm.append_left _ h2).trans ?_
    have h3 := List.filter_append_perm (fun e : Edge => decide (e.u = a)) es
    refine Eq.subst (motive := fun x => (List.filter (fun e : Edge => decide (e.u = a)) es ++ x).Perm es) ?_ h3
    apply List.filter_congr
    intro e _
    simp

theorem W_perm {g : G} (hg : Valid g) {std : List Int} (hnd : std.Nodup) (hp : std.Perm g.nodes) :
    (W g std).Perm (g.edges.map fun e => (std.idxOf e.u, std.idxOf e.v)) := by
  have h1 := (flatMap_filter_perm g.edges std hnd (fun e he => hp.mem_iff.2 (hg.ends e he).1)).map
    (fun e => (std.idxOf e.u, std.idxOf e.v))
  rw [List.map_flatMap] at h1
  refine Eq.subst (motive := fun x => List.Perm x _) ?_ h1
  apply List.flatMap_congr
  intro c _
  apply List.map_congr_left
  intro e he
  simp only [List.mem_filter, decide_eq_true_eq] at he
  rw [he.2]

theorem W_length {g : G} (hg : Valid g) {std : List Int} (hnd : std.Nodup) (hp : std.Perm g.nodes) :
    (W g std).length = g.edges.length := by
  rw [(W_perm hg hnd hp).length_eq, List.length_map]

theorem W_sorted {g : G} {std : List Int} (hnd : std.Nodup) : (W g std).Pairwise (fun a b => a.1 ≤ b.1) := by
  unfold W
  rw [List.pairwise_flatMap]
  refine ⟨?_, ?_⟩
  · intro c _
    rw [List.pairwise_map]
    exact List.pairwise_of_forall (fun _ _ => le_rfl)
  · have hp : std.Pairwise (fun a b => std.idxOf a < std.idxOf b) := by
      rw [List.pairwise_iff_getElem]
      intro i j hi hj hij
      rw [hnd.idxOf_getElem i hi, hnd.idxOf_getElem j hj]
      exact hij
    refine hp.imp ?_
    intro a b hab x hx y hy
    rw [List.mem_map] at hx hy
    obtain ⟨e, -, rfl⟩ := hx
    obtain ⟨d, -, rfl⟩ := hy
    exact hab.le

/-! ### The backwards fill -/

theorem pySet_nat {α : Type} (a : List α) (i : Nat) (x : α) (h : i < a.length) : pySet a (i : Int) x = some (a.set i x) := by
  unfold pySet
  rw [if_pos ⟨by omega, by omega⟩]
  simp

theorem fill_spec (V : List (Nat × Nat)) (up dn : List Nat) (hu : V.length ≤ up.length) (hd : V.length ≤ dn.length) :
    V.reverse.foldlM (fun (st : Int × List Nat × List Nat) p =>
      (pySet st.2.1 (st.1 - 1) p.1).bind fun up => (pySet st.2.2 (st.1 - 1) p.2).map fun dn => (st.1 - 1, up, dn))
      ((V.length : Int), up, dn) =
    some (0, V.map Prod.fst ++ up.drop V.length, V.map Prod.snd ++ dn.drop V.length) := by
  induction V using List.reverseRecOn generalizing up dn with
  | nil => simp
  | append_singleton t p ih =>
    rw [List.reverse_append, List.reverse_singleton, List.singleton_append, List.foldlM_cons]
    rw [List.length_append, List.length_singleton] at hu hd ⊢
    have e1 : (((t.length + 1 : Nat) : Int) - 1) = (t.length : Int) := by push_cast; omega
    simp only [e1]
    rw [pySet_nat _ _ _ (by omega), pySet_nat _ _ _ (by omega)]
    simp only [Option.bind_some, Option.map_some, Option.bind_eq_bind]
    rw [ih _ _ (by rw [List.length_set]; omega) (by rw [List.length_set]; omega)]
    have hdrop : ∀ (l : List Nat) (x : Nat), t.length + 1 ≤ l.length → (l.set t.length x).drop t.length = x :: l.drop (t.length + 1) := by
      intro l x hl
      rw [List.drop_eq_getElem_cons (by rw [List.length_set]; omega)]
      simp [List.getElem_set_self]
      rw [List.drop_set_of_lt (by omega)]
    rw [hdrop _ _ hu, hdrop _ _ hd]
    simp

theorem fillEdges_eq {g : G} (hg : Valid g) {std : List Int} (hnd : std.Nodup) (hp : std.Perm g.nodes) :
    fillEdges g std = some ((W g std).map Prod.fst, (W g std).map Prod.snd) := by
  unfold fillEdges
  rw [visits_eq hg hnd hp, Option.bind_some, ← W_length hg hnd hp, fill_spec _ _ _ (by simp) (by simp)]
  simp

/-- The result of the node fill over `V`, on arrays of `m` nodes. -/
theorem fillN_spec (m : Nat) (V : List (Nat × Nat)) (hV : ∀ p ∈ V, p.1 < m) (start : List Int) (num : List Nat)
    (hs : start.length = m) (hn : num.length = m) :
    ∃ start' num', V.reverse.foldlM (fun (st : Int × List Int × List Nat) p =>
      (pySet st.2.1 (p.1 : Int) (st.1 - 1)).bind fun start =>
        (pySet st.2.2 (p.1 : Int) (st.2.2.getD p.1 0 + 1)).map fun num => (st.1 - 1, start, num))
      ((V.length : Int), start, num) = some (0, start', num') ∧ start'.length = m ∧ num'.length = m ∧
      (∀ k < m, num'.getD k 0 = num.getD k 0 + V.countP (fun p => p.1 = k)) ∧
      (∀ k < m, start'.getD k (-1) = if V.any (fun p => p.1 = k) then (V.findIdx (fun p => p.1 = k) : Int) else start.getD k (-1)) := by
  induction V using List.reverseRecOn generalizing start num with
  | nil => exact ⟨start, num, by simp, hs, hn, by simp, by simp⟩
  | append_singleton t p ih =>
    rw [List.reverse_append, List.reverse_singleton, List.singleton_append, List.foldlM_cons]
    rw [List.length_append, List.length_singleton]
    have e1 : (((t.length + 1 : Nat) : Int) - 1) = (t.length : Int) := by push_cast; omega
    have hpm : p.1 < m := hV p (by simp)
    simp only [e1]
    rw [pySet_nat _ _ _ (by omega), pySet_nat _ _ _ (by omega)]
    simp only [Option.bind_some, Option.map_some, Option.bind_eq_bind]
    obtain ⟨s', n', h1, h2, h3, h4, h5⟩ := ih (fun q hq => hV q (by simp [hq])) (start.set p.1 (t.length : Int))
      (num.set p.1 (num.getD p.1 0 + 1)) (by simpa using hs) (by simpa using hn)
    refine ⟨s', n', h1, h2, h3, ?_, ?_⟩
    · intro k hk
      rw [h4 k hk, List.countP_append, List.countP_singleton]
      by_cases hkp : p.1 = k
      · subst hkp
        have : p.1 < num.length := by omega
        simp [List.getD_eq_getElem?_getD, this]
        omega
      · simp [List.getD_eq_getElem?_getD, List.getElem?_set_ne hkp, hkp]
    · intro k hk
      rw [h5 k hk]
      by_cases ht : t.any (fun p => p.1 = k)
      · rw [if_pos ht, if_pos (by rw [List.any_append, ht]; rfl)]
        congr 1
        have : ∃ x ∈ t, decide (x.1 = k) = true := List.any_eq_true.1 ht
        rw [List.findIdx_append, if_pos (List.findIdx_lt_length.2 this)]
      · rw [if_neg ht]
        by_cases hkp : p.1 = k
        · subst hkp
          rw [if_pos (by simp)]
          have : p.1 < start.length := by omega
          have hnone : ¬ ∃ x ∈ t, decide (x.1 = p.1) = true := fun h => ht (List.any_eq_true.2 h)
          rw [List.findIdx_append, if_neg (fun h => hnone (List.findIdx_lt_length.1 h))]
          simp [List.getD_eq_getElem?_getD, this]
        · rw [if_neg (by rw [List.any_append, Bool.not_eq_true _ |>.mp ht]; simp [hkp])]
          simp [List.getD_eq_getElem?_getD, List.getElem?_set_ne hkp]

theorem fst_lt {g : G} {std : List Int} (hp : std.Perm g.nodes) : ∀ p ∈ W g std, p.1 < g.nodes.length := by
  intro p hpW
  unfold W at hpW
  rw [List.mem_flatMap] at hpW
  obtain ⟨c, hc, h⟩ := hpW
  rw [List.mem_map] at h
  obtain ⟨e, -, rfl⟩ := h
  rw [← hp.length_eq]
  exact List.idxOf_lt_length_of_mem hc

theorem fillNodes_eq {g : G} (hg : Valid g) {std : List Int} (hnd : std.Nodup) (hp : std.Perm g.nodes) :
    ∃ start num, fillNodes g std = some (start, num) ∧ start.length = g.nodes.length ∧ num.length = g.nodes.length ∧
      (∀ k < g.nodes.length, num.getD k 0 = (W g std).countP (fun p => p.1 = k)) ∧
      (∀ k < g.nodes.length, start.getD k (-1) =
        if (W g std).any (fun p => p.1 = k) then ((W g std).findIdx (fun p => p.1 = k) : Int) else -1) := by
  obtain ⟨s, n, h1, h2, h3, h4, h5⟩ := fillN_spec g.nodes.length (W g std) (fst_lt hp)
    (List.replicate g.nodes.length (-1)) (List.replicate g.nodes.length 0) (by simp) (by simp)
  refine ⟨s, n, ?_, h2, h3, ?_, ?_⟩
  · unfold fillNodes
    rw [visits_eq hg hnd hp, Option.bind_some, ← W_length hg hnd hp, h1]
    rfl
  · intro k hk
    rw [h4 k hk]
    simp [List.getD_eq_getElem?_getD, hk]
  · intro k hk
    rw [h5 k hk]
    simp [List.getD_eq_getElem?_getD, hk]

/-- In a list sorted by first component, the entries with first component `k` are consecutive. -/
theorem sorted_group (l : List (Nat × Nat)) (h : l.Pairwise (fun a b => a.1 ≤ b.1)) (k : Nat) :
    (l.drop (l.findIdx (fun p => p.1 = k))).take (l.countP (fun p => p.1 = k)) = l.filter (fun p => p.1 = k) := by
  induction l with
  | nil => simp
  | cons a t ih =>
    obtain ⟨h1, h2⟩ := List.pairwise_cons.1 h
    by_cases hk : a.1 = k
    · have hf : List.findIdx (fun p : Nat × Nat => decide (p.1 = k)) (a :: t) = 0 := by simp [List.findIdx_cons, hk]
      rw [hf, List.countP_cons_of_pos (by simpa using hk), List.filter_cons_of_pos (by simpa using hk)]
      simp only [List.drop_zero, List.take_succ_cons, List.cons.injEq, true_and]
      -- the rest of the group is a prefix of t
      have key : ∀ l : List (Nat × Nat), l.Pairwise (fun a b => a.1 ≤ b.1) → (∀ b ∈ l, k ≤ b.1) →
          l.take (l.countP (fun p => p.1 = k)) = l.filter (fun p => p.1 = k) := by
        intro l hl hge
        induction l with
        | nil => simp
        | cons b s ih2 =>
          obtain ⟨g1, g2⟩ := List.pairwise_cons.1 hl
          by_cases hb : b.1 = k
          · rw [List.countP_cons_of_pos (by simpa using hb), List.filter_cons_of_pos (by simpa using hb), List.take_succ_cons,
              ih2 g2 (fun c hc => hge c (by simp [hc]))]
          · have hgt : ∀ c ∈ b :: s, ¬ c.1 = k := by
              have hb' : k < b.1 := lt_of_le_of_ne (hge b (by simp)) (Ne.symm hb)
              intro c hc
              rcases List.mem_cons.1 hc with rfl | hc
              · omega
              · have := g1 c hc; omega
            have hf : (b :: s).filter (fun p => decide (p.1 = k)) = [] := by
              rw [List.filter_eq_nil_iff]
              intro c hc
              simpa using hgt c hc
            rw [hf, List.countP_eq_length_filter, hf]
            rfl
      exact key t h2 (fun b hb => hk ▸ h1 b hb)
    · rw [List.findIdx_cons, List.countP_cons_of_neg (by simpa using hk), List.filter_cons_of_neg (by simpa using hk)]
      simp only [hk, decide_false, cond_false, List.drop_succ_cons]
      exact ih h2

theorem findIdx_add_countP_le (l : List (Nat × Nat)) (k : Nat) :
    (l.findIdx (fun p => p.1 = k)) + l.countP (fun p => p.1 = k) ≤ l.length := by
  induction l with
  | nil => simp
  | cons a t ih =>
    rw [List.findIdx_cons]
    by_cases hk : a.1 = k
    · simp only [hk, decide_true, cond_true]
      have := List.countP_le_length (p := fun p : Nat × Nat => decide (p.1 = k)) (l := a :: t)
      omega
    · rw [List.countP_cons_of_neg (by simpa using hk)]
      simp only [hk, decide_false, cond_false, List.length_cons]
      omega

theorem firstVisits_spec (found dn : List Nat) :
    (firstVisits found dn).length = dn.length ∧
    ∀ i (h : i < dn.length), (firstVisits found dn)[i]? = some (if dn[i] ∈ found ++ dn.take i then 0 else 1) := by
  induction dn generalizing found with
  | nil => simp [firstVisits]
  | cons d t ih =>
    unfold firstVisits
    split
    · rename_i hd
      obtain ⟨h1, h2⟩ := ih found
      refine ⟨by simp [h1], ?_⟩
      intro i hi
      cases i with
      | zero => simp [hd]
      | succ j =>
        have := h2 j (by simpa using hi)
        simp only [List.getElem?_cons_succ, this, List.getElem_cons_succ, List.take_succ_cons]
        congr 1
        have hiff : (t[j]'(by simpa using hi) ∈ found ++ t.take j) ↔ (t[j]'(by simpa using hi) ∈ found ++ d :: t.take j) := by
          simp only [List.mem_append, List.mem_cons]
          constructor
          · rintro (h | h) <;> simp [h]
          · rintro (h | h | h)
            · exact Or.inl h
            · rw [h]; exact Or.inl hd
            · exact Or.inr h
        exact if_congr hiff rfl rfl
    · rename_i hd
      obtain ⟨h1, h2⟩ := ih (d :: found)
      refine ⟨by simp [h1], ?_⟩
      intro i hi
      cases i with
      | zero => simp [hd]
      | succ j =>
        have := h2 j (by simpa using hi)
        simp only [List.getElem?_cons_succ, this, List.getElem_cons_succ, List.take_succ_cons]
        congr 1
        have hiff : (t[j]'(by simpa using hi) ∈ (d :: found) ++ t.take j) ↔ (t[j]'(by simpa using hi) ∈ found ++ d :: t.take j) := by
          simp only [List.mem_append, List.mem_cons]
          tauto
        exact if_congr hiff rfl rfl

end Larch.Graph
