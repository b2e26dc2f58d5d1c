import Verif.Model.MultiIdx
import Mathlib.Data.List.Basic
import Mathlib.Data.List.Nodup
import Mathlib.Data.List.Perm.Basic
/-!
# C156: levels of a MultiIndex

Removing unused labels of a level leaves the index as it looks; so does replacing the labels of a
level by others among which they are.
-/

namespace Larch.Props

open Larch.MultiIdx

variable {L : Type}

/-! ## Specification -/

/-- What is seen of a level: the label of every row, or nothing. -/
def labelsSeen (l : Level L) : List (Option L) :=
  l.codes.map fun c => if c < 0 then none else l.labels[c.toNat]?

/-- A level as pandas keeps it: every code is -1 or the place of a label. -/
def GoodLevel (l : Level L) : Prop := ∀ c ∈ l.codes, c = -1 ∨ (0 ≤ c ∧ c.toNat < l.labels.length)

/-- Every label is the label of some row. -/
def AllUsed (l : Level L) : Prop := ∀ i : Nat, i < l.labels.length → (i : Int) ∈ l.codes

/-! ## Lemmas -/

theorem mi_firsts_mem (cs : List Int) (c : Int) : c ∈ firsts cs ↔ c ∈ cs := by
  induction cs with
  | nil => simp [firsts]
  | cons d ds ih =>
    simp only [firsts, List.mem_cons, List.mem_filter, ih, decide_eq_true_eq]
    by_cases h : c = d <;> simp [h]

theorem mi_firsts_nodup (cs : List Int) : (firsts cs).Nodup := by
  induction cs with
  | nil => simp [firsts]
  | cons d ds ih =>
    simp only [firsts, List.nodup_cons, List.mem_filter, decide_eq_true_eq]
    exact ⟨fun h => h.2 rfl, ih.filter _⟩

theorem mi_naFirst (u : List Int) (h : (-1 : Int) ∈ u) : ∃ t, naFirst u = -1 :: t ∧ (naFirst u).Perm u := by
  cases u with
  | nil => cases h
  | cons x t =>
    by_cases hx : x = -1
    · subst hx
      refine ⟨t, ?_, ?_⟩
      · simp [naFirst]
      · simp [naFirst]
    · have ht : (-1 : Int) ∈ t := by
        rcases List.mem_cons.1 h with h | h
        · exact absurd h.symm hx
        · exact h
      have hi : (x :: t).idxOf (-1) = t.idxOf (-1) + 1 := by
        exact List.idxOf_cons_ne _ hx
      obtain ⟨a, b, hab, hna⟩ := List.eq_append_cons_of_mem ht
      refine ⟨t.set (t.idxOf (-1)) x, ?_, ?_⟩
      · simp [naFirst, hi]
      · simp only [naFirst, hi, List.set_cons_succ, List.set_cons_zero]
        have hk : t.idxOf (-1) = a.length := by
          rw [hab, List.idxOf_append_of_notMem hna]; simp
        rw [hk, hab]
        have : (a ++ (-1) :: b).set a.length x = a ++ x :: b := by
          rw [List.set_append_right _ _ (Nat.le_refl _)]; simp
        rw [this]
        exact ((List.perm_middle).cons _).trans ((List.Perm.swap _ _ _).trans ((List.perm_middle.symm).cons _))

theorem mi_writes (w : List (Nat × Int)) : ∀ (m : List Int), (w.map Prod.fst).Nodup →
    (∀ q ∈ w, q.1 < m.length → (w.foldl (fun m q => m.set q.1 q.2) m)[q.1]? = some q.2) ∧
    (∀ i, i ∉ w.map Prod.fst → (w.foldl (fun m q => m.set q.1 q.2) m)[i]? = m[i]?) := by
  induction w with
  | nil => intro m _; exact ⟨fun q h => (by cases h), fun i _ => rfl⟩
  | cons p w ih =>
    intro m hn
    simp only [List.map_cons, List.nodup_cons] at hn
    obtain ⟨h1, h2⟩ := ih (m.set p.1 p.2) hn.2
    simp only [List.foldl_cons]
    constructor
    · intro q hq hl
      rcases List.mem_cons.1 hq with rfl | hq
      · rw [h2 _ hn.1, List.getElem?_set_self hl]
      · exact h1 q hq (by rw [List.length_set]; exact hl)
    · intro i hi
      simp only [List.map_cons, List.mem_cons, not_or] at hi
      rw [h2 i hi.2, List.getElem?_set_ne (by omega)]

theorem mi_occurring (n : Nat) (cs : List Int) (h : ∀ c ∈ cs, c = -1 ∨ (0 ≤ c ∧ c.toNat < n)) (c : Int) :
    c ∈ occurring n cs ↔ c ∈ cs := by
  unfold occurring
  simp only [List.mem_filter, List.mem_map, List.mem_range, decide_eq_true_eq]
  constructor
  · exact fun h => h.2
  · intro hc
    refine ⟨⟨(c + 1).toNat, ?_, ?_⟩, hc⟩ <;> rcases h c hc with h | h <;> omega

theorem mi_occurring_nodup (n : Nat) (cs : List Int) : (occurring n cs).Nodup := by
  unfold occurring
  refine List.Nodup.filter _ (List.Nodup.map ?_ List.nodup_range)
  intro a b h
  simp only at h
  omega

theorem mi_hasNa (n : Nat) (cs : List Int) : hasNa n cs = if (-1 : Int) ∈ cs then 1 else 0 := by
  have hr : List.range (n + 1) = 0 :: (List.range n).map Nat.succ := List.range_succ_eq_map
  have : (occurring n cs).head? = some (-1) ↔ (-1 : Int) ∈ cs := by
    unfold occurring
    rw [hr]
    simp only [List.map_cons, Int.ofNat_zero, List.map_map]
    by_cases hm : (-1 : Int) ∈ cs
    · simp [List.filter_cons, hm]
    · simp only [hm, iff_false]
      intro hh
      have hmem := List.mem_of_head? hh
      have := (List.mem_filter.1 hmem).2
      simp only [decide_eq_true_eq] at this
      exact hm this
  unfold hasNa
  by_cases hm : (-1 : Int) ∈ cs
  · rw [if_pos (this.2 hm), if_pos hm]
  · rw [if_neg (fun h => hm (this.1 h)), if_neg hm]

/-- The mapping of codes for distinct codes `u`. -/
theorem mi_mapping (n na : Nat) (hna : na ≤ 1) (u : List Int) (hu : u.Nodup)
    (hr : ∀ c ∈ u, (c = -1 ∧ na = 1) ∨ (0 ≤ c ∧ c.toNat < n)) (i : Nat) (c : Int) (hi : u[i]? = some c) :
    (codeMapping (n + na) na u).getD (wrap (n + na) c) 0 = (i : Int) - na := by
  have hw : ∀ c ∈ u, wrap (n + na) c < n + na := by
    intro c hc
    unfold wrap
    rcases hr c hc with ⟨h, h1⟩ | h
    · subst h; subst h1; rw [if_neg (by omega)]; omega
    · rw [if_pos h.1]; omega
  have hinj : ∀ a ∈ u, ∀ b ∈ u, wrap (n + na) a = wrap (n + na) b → a = b := by
    intro a ha b hb hab
    unfold wrap at hab
    rcases hr a ha with ⟨h, h1⟩ | h <;> rcases hr b hb with ⟨h', h1'⟩ | h'
    · omega
    · rw [if_neg (by omega), if_pos h'.1] at hab; omega
    · rw [if_pos h.1, if_neg (by omega)] at hab; omega
    · rw [if_pos h.1, if_pos h'.1] at hab; omega
  have hmem : (c, i) ∈ u.zipIdx := by
    rw [List.mem_zipIdx_iff_getElem?]; exact hi
  have hcm : c ∈ u := List.mem_of_getElem? hi
  have hfst : (u.zipIdx.map fun p => (wrap (n + na) p.1, (p.2 : Int) - na)).map Prod.fst = u.map (wrap (n + na)) := by
    rw [List.map_map]
    have : (Prod.fst ∘ fun p : Int × Nat => (wrap (n + na) p.1, (p.2 : Int) - na)) = wrap (n + na) ∘ Prod.fst := rfl
    rw [this, ← List.map_map, List.zipIdx_map_fst]
  have hnd : ((u.zipIdx.map fun p => (wrap (n + na) p.1, (p.2 : Int) - na)).map Prod.fst).Nodup := by
    rw [hfst]
    exact List.Nodup.map_on (fun a ha b hb h => hinj a ha b hb h) hu
  have := (mi_writes _ (List.replicate (n + na) 0) hnd).1 (wrap (n + na) c, (i : Int) - na)
    (List.mem_map.2 ⟨(c, i), hmem, rfl⟩) (by rw [List.length_replicate]; exact hw c hcm)
  unfold codeMapping
  rw [List.getD_eq_getElem?_getD, this]
  rfl

/-- What `removeUnused` does when there are unused labels. -/
theorem mi_shape (l : Level L) (h : GoodLevel l) 
    (hcond : ¬ (occurring l.labels.length l.codes).length = l.labels.length + hasNa l.labels.length l.codes) :
    ∃ na u, na = (if (-1 : Int) ∈ l.codes then 1 else 0) ∧ u.Nodup ∧ (∀ c, c ∈ u ↔ c ∈ l.codes) ∧
      (na = 1 → u[0]? = some (-1)) ∧ (∀ c ∈ u, (c = -1 ∧ na = 1) ∨ (0 ≤ c ∧ c.toNat < l.labels.length)) ∧
      removeUnused l = ⟨(u.drop na).filterMap fun c => l.labels[wrap l.labels.length c]?,
        l.codes.map fun c => (codeMapping (l.labels.length + na) na u).getD (wrap (l.labels.length + na) c) 0⟩ := by
  have hn := mi_hasNa l.labels.length l.codes
  refine ⟨hasNa l.labels.length l.codes, if hasNa l.labels.length l.codes = 1 then naFirst (firsts l.codes) else firsts l.codes,
    hn, ?_, ?_, ?_, ?_, ?_⟩
  · split
    · rename_i h1
      have : (-1 : Int) ∈ l.codes := by
        by_contra hc; rw [hn, if_neg hc] at h1; omega
      obtain ⟨t, _, hp⟩ := mi_naFirst _ ((mi_firsts_mem _ _).2 this)
      exact hp.nodup_iff.2 (mi_firsts_nodup _)
    · exact mi_firsts_nodup _
  · intro c
    split
    · rename_i h1
      have : (-1 : Int) ∈ l.codes := by
        by_contra hc; rw [hn, if_neg hc] at h1; omega
      obtain ⟨t, _, hp⟩ := mi_naFirst _ ((mi_firsts_mem _ _).2 this)
      rw [hp.mem_iff, mi_firsts_mem]
    · exact mi_firsts_mem _ _
  · intro h1
    rw [if_pos h1]
    have : (-1 : Int) ∈ l.codes := by
      by_contra hc; rw [hn, if_neg hc] at h1; omega
    obtain ⟨t, ht, _⟩ := mi_naFirst _ ((mi_firsts_mem _ _).2 this)
    rw [ht]; rfl
  · intro c hc
    have hc' : c ∈ l.codes := by
      split at hc
      · rename_i h1
        have : (-1 : Int) ∈ l.codes := by
          by_contra hc; rw [hn, if_neg hc] at h1; omega
        obtain ⟨t, _, hp⟩ := mi_naFirst _ ((mi_firsts_mem _ _).2 this)
        exact (mi_firsts_mem _ _).1 (hp.mem_iff.1 hc)
      · exact (mi_firsts_mem _ _).1 hc
    rcases h c hc' with h' | h'
    · left
      refine ⟨h', ?_⟩
      rw [hn, if_pos (h' ▸ hc')]
    · exact Or.inr h'
  · unfold removeUnused
    simp only [hcond, if_false]

/-- The labels kept, by place. -/
theorem mi_kept (labels : List L) (n na : Nat) (u : List Int) (hn : n = labels.length)
    (hr : ∀ c ∈ u.drop na, 0 ≤ c ∧ c.toNat < labels.length) :
    ∀ i : Nat, ((u.drop na).filterMap fun c => labels[wrap n c]?)[i]? = (u[na + i]?).bind fun c => labels[c.toNat]? := by
  intro i
  rw [← List.getElem?_drop]
  generalize u.drop na = v at hr
  induction v generalizing i with
  | nil => simp
  | cons c v ih =>
    obtain ⟨h0, h1⟩ := hr c (by simp)
    have hw : labels[wrap n c]? = some labels[c.toNat] := by
      unfold wrap
      rw [if_pos h0, List.getElem?_eq_getElem h1]
    rw [List.filterMap_cons_some (f := fun c => labels[wrap n c]?) hw]
    cases i with
    | zero => simp [List.getElem?_eq_getElem h1]
    | succ i =>
      simp only [List.getElem?_cons_succ]
      exact ih i (fun d hd => hr d (List.mem_cons_of_mem _ hd))

theorem mi_all_used (n : Nat) (cs : List Int) (h : (occurring n cs).length = n + (if (-1 : Int) ∈ cs then 1 else 0)) :
    ∀ i : Nat, i < n → (i : Int) ∈ cs := by
  have hr : List.range (n + 1) = 0 :: (List.range n).map Nat.succ := List.range_succ_eq_map
  have hl : (((List.range n).map fun (i : Nat) => (i : Int)).filter fun c => decide (c ∈ cs)).length = n := by
    unfold occurring at h
    rw [hr, List.map_cons, List.map_map] at h
    have he : ((fun (i : Nat) => (i : Int) - 1) ∘ Nat.succ) = fun (i : Nat) => (i : Int) := by
      funext i; simp
    rw [he] at h
    by_cases hm : (-1 : Int) ∈ cs
    · rw [if_pos hm, List.filter_cons_of_pos (by simpa using hm), List.length_cons] at h
      omega
    · rw [if_neg hm, List.filter_cons_of_neg (by simpa using hm)] at h
      omega
  have hall := List.length_filter_eq_length_iff.1 (hl.trans (by simp : n = ((List.range n).map fun (i : Nat) => (i : Int)).length))
  intro i hi
  have := hall (i : Int) (List.mem_map.2 ⟨i, List.mem_range.2 hi, rfl⟩)
  simpa using this

/-- C156: after `remove_unused_level` a level looks as before, its codes are in order, every label
left is used by some row, the labels left are among the old ones, and distinct if those were. -/
theorem C156_same_look (l : Level L) (h : GoodLevel l) :
    labelsSeen (removeUnused l) = labelsSeen l ∧ GoodLevel (removeUnused l) ∧ AllUsed (removeUnused l) ∧
      (∀ x ∈ (removeUnused l).labels, x ∈ l.labels) ∧ (l.labels.Nodup → (removeUnused l).labels.Nodup) := by
  by_cases hc : (occurring l.labels.length l.codes).length = l.labels.length + hasNa l.labels.length l.codes
  · have hne : removeUnused l = l := by
      unfold removeUnused
      simp only [hc, if_true]
    rw [hne]
    rw [mi_hasNa] at hc
    exact ⟨rfl, h, mi_all_used _ _ hc, fun x hx => hx, fun hx => hx⟩
  · obtain ⟨na, u, hna, hnd, hmem, hhead, hr, he⟩ := mi_shape l h hc
    have hna1 : na ≤ 1 := by rw [hna]; split <;> omega
    -- the codes left of the missing one are places of labels
    have hpos : ∀ (i : Nat) (c : Int), u[i]? = some c → na ≤ i → 0 ≤ c ∧ c.toNat < l.labels.length := by
      intro i c hi hle
      rcases hr c (List.mem_of_getElem? hi) with ⟨h1, h2⟩ | h1
      · exfalso
        have h0 := hhead h2
        rw [← h1] at h0
        have hlt : i < u.length := (List.getElem?_eq_some_iff.1 hi).1
        have hlt0 : 0 < u.length := by omega
        have := (List.getElem?_inj hlt0 hnd).1 (h0.trans hi.symm)
        omega
      · exact h1
    have hdrop : ∀ c ∈ u.drop na, 0 ≤ c ∧ c.toNat < l.labels.length := by
      intro c hc
      obtain ⟨i, hi⟩ := List.getElem?_of_mem hc
      rw [List.getElem?_drop] at hi
      exact hpos _ c hi (by omega)
    have hget := mi_kept l.labels l.labels.length na u rfl hdrop
    have hcode : ∀ (i : Nat) (c : Int), u[i]? = some c → (codeMapping (l.labels.length + na) na u).getD (wrap (l.labels.length + na) c) 0 = (i : Int) - na :=
      fun i c hi => mi_mapping l.labels.length na hna1 u hnd hr i c hi
    -- a missing label comes first, and only there
    have hfirst : ∀ (i : Nat) (c : Int), u[i]? = some c → i < na → c = -1 := by
      intro i c hi hlt
      have h1 : na = 1 := by omega
      have := hhead h1
      have hi0 : i = 0 := by omega
      subst hi0
      rw [this] at hi
      injection hi with hi
      exact hi.symm
    have hlen : ((u.drop na).filterMap fun c => l.labels[wrap l.labels.length c]?).length = u.length - na := by
      have hall : ∀ c ∈ u.drop na, (l.labels[wrap l.labels.length c]?).isSome := by
        intro c hc
        obtain ⟨h0, h1⟩ := hdrop c hc
        unfold wrap
        rw [if_pos h0, List.getElem?_eq_getElem h1]; rfl
      rw [List.filterMap_length_eq_length.2 hall, List.length_drop]
    rw [he]
    refine ⟨?_, ?_, ?_, ?_, ?_⟩
    · unfold labelsSeen
      simp only [List.map_map]
      apply List.map_congr_left
      intro c hcm
      obtain ⟨i, hi⟩ := List.getElem?_of_mem ((hmem c).2 hcm)
      simp only [Function.comp_apply, hcode i c hi]
      by_cases hlt : i < na
      · rw [hfirst i c hi hlt, if_pos (by omega), if_pos (by omega)]
      · have hp := hpos i c hi (by omega)
        rw [if_neg (by omega), if_neg (by omega), hget, show na + ((i : Int) - na).toNat = i by omega, hi]
        rfl
    · intro d hd
      obtain ⟨c, hcm, rfl⟩ := List.mem_map.1 hd
      obtain ⟨i, hi⟩ := List.getElem?_of_mem ((hmem c).2 hcm)
      simp only [hcode i c hi]
      have hil : i < u.length := (List.getElem?_eq_some_iff.1 hi).1
      by_cases hlt : i < na
      · left; omega
      · right
        rw [hlen]
        omega
    · intro i hi
      simp only [hlen] at hi
      have hil : na + i < u.length := by omega
      refine List.mem_map.2 ⟨u[na + i], (hmem _).1 (List.getElem_mem _), ?_⟩
      rw [hcode (na + i) _ (List.getElem?_eq_getElem hil)]
      omega
    · intro x hx
      obtain ⟨c, _, hcx⟩ := List.mem_filterMap.1 hx
      exact List.mem_of_getElem? hcx
    · intro hld
      rw [List.nodup_iff_getElem?_ne_getElem?]
      intro i j hij hj heq
      rw [hlen] at hj
      have hi' : na + i < u.length := by omega
      have hj' : na + j < u.length := by omega
      rw [hget, hget, List.getElem?_eq_getElem hi', List.getElem?_eq_getElem hj'] at heq
      simp only [Option.bind_some] at heq
      have h1 := hpos (na + i) _ (List.getElem?_eq_getElem hi') (by omega)
      have h2 := hpos (na + j) _ (List.getElem?_eq_getElem hj') (by omega)
      have h3 := (List.getElem?_inj h1.2 hld).1 heq
      have h4 : u[na + i] = u[na + j] := by omega
      have := (List.Nodup.getElem_inj_iff hnd).1 h4
      omega

/-- C156: the whole index looks the same, row by row, the levels not named are untouched, and the
levels named have no unused labels left. -/
theorem C156_index (levels : List (Level L)) (which : List Nat) (h : ∀ l ∈ levels, GoodLevel l) :
    (removeUnusedLevel levels which).map labelsSeen = levels.map labelsSeen ∧
      ∀ (n : Nat) (l : Level L), levels[n]? = some l → ∃ l', (removeUnusedLevel levels which)[n]? = some l' ∧
        (n ∉ which → l' = l) ∧ (n ∈ which → AllUsed l') := by
  have hget : ∀ (n : Nat), (removeUnusedLevel levels which)[n]? =
      (levels[n]?).map fun l => if n ∈ which then removeUnused l else l := by
    intro n
    unfold removeUnusedLevel
    rw [List.getElem?_mapIdx]
  constructor
  · apply List.ext_getElem?
    intro n
    rw [List.getElem?_map, List.getElem?_map, hget]
    cases hl : levels[n]? with
    | none => rfl
    | some l =>
      simp only [Option.map_some]
      split
      · rw [(C156_same_look l (h l (List.mem_of_getElem? hl))).1]
      · rfl
  · intro n l hl
    refine ⟨if n ∈ which then removeUnused l else l, by rw [hget, hl]; rfl, ?_, ?_⟩
    · intro hn; rw [if_neg hn]
    · intro hn; rw [if_pos hn]
      exact (C156_same_look l (h l (List.mem_of_getElem? hl))).2.2.1

/-! ## Replacing the labels -/

theorem mi_places [DecidableEq L] (new : List L) (j : L) (i : Nat) : i ∈ places new j ↔ new[i]? = some j := by
  unfold places
  simp only [List.mem_filter, List.mem_range, decide_eq_true_eq, and_iff_right_iff_imp]
  intro h
  exact (List.getElem?_eq_some_iff.1 h).1

theorem mi_places_one [DecidableEq L] (new : List L) (hn : new.Nodup) (j : L) (hj : j ∈ new) :
    places new j = [new.idxOf j] := by
  have hlt := List.idxOf_lt_length_of_mem hj
  have hmem : new.idxOf j ∈ places new j := (mi_places _ _ _).2 (by rw [List.getElem?_eq_getElem hlt]; simp)
  have hall : ∀ i ∈ places new j, i = new.idxOf j := by
    intro i hi
    have h1 := (mi_places _ _ _).1 hi
    have h2 := (mi_places _ _ _).1 hmem
    exact (List.getElem?_inj (List.getElem?_eq_some_iff.1 h1).1 hn).1 (h1.trans h2.symm)
  have hnd : (places new j).Nodup := List.nodup_range.filter _
  generalize places new j = ps at *
  match ps, hmem with
  | [a], _ => rw [hall a (by simp)]
  | a :: b :: r, _ =>
    exfalso
    have h1 := hall a (by simp)
    have h2 := hall b (by simp)
    simp only [List.nodup_cons, List.mem_cons, not_or] at hnd
    exact hnd.1.1 (h1.trans h2.symm)

theorem mi_whereIn [DecidableEq L] (old new : List L) (hn : new.Nodup) (h : ∀ j ∈ old, j ∈ new) :
    whereIn old new = .ok (old.map new.idxOf) := by
  unfold whereIn
  induction old with
  | nil => rfl
  | cons j old ih =>
    rw [List.mapM_cons, mi_places_one new hn j (h j (by simp))]
    simp only [ih (fun k hk => h k (List.mem_cons_of_mem _ hk))]
    rfl

/-- C156: with new labels, each once, among which are all the old ones, and no missing label,
`replace_levels` gives a level which looks the same and has the new labels. -/
theorem C156_replaced [DecidableEq L] (l : Level L) (new : List L) (h : GoodLevel l) (hm : (-1 : Int) ∉ l.codes)
    (hn : new.Nodup) (hold : ∀ j ∈ l.labels, j ∈ new) :
    ∃ l', replaceLevel l new = .ok l' ∧ l'.labels = new ∧ labelsSeen l' = labelsSeen l ∧ GoodLevel l' := by
  have hget : ∀ c ∈ l.codes, ∃ x ∈ l.labels, l.labels[c.toNat]? = some x ∧ ¬ c < 0 ∧
      (l.labels.map new.idxOf).getD c.toNat 0 = new.idxOf x := by
    intro c hc
    rcases h c hc with h1 | h1
    · exact absurd (h1 ▸ hc) hm
    · refine ⟨l.labels[c.toNat], List.getElem_mem _, List.getElem?_eq_getElem h1.2, by omega, ?_⟩
      rw [List.getD_eq_getElem?_getD, List.getElem?_map, List.getElem?_eq_getElem h1.2]
      rfl
  refine ⟨⟨new, l.codes.map fun c => ((l.labels.map new.idxOf).getD c.toNat 0 : Int)⟩, ?_, rfl, ?_, ?_⟩
  · unfold replaceLevel
    rw [mi_whereIn l.labels new hn hold]
    simp only [hm, if_false, hn, if_true]
  · unfold labelsSeen
    simp only [List.map_map]
    apply List.map_congr_left
    intro c hc
    obtain ⟨x, hx, hgx, hc0, hw⟩ := hget c hc
    simp only [Function.comp_apply, hw, if_neg hc0, hgx]
    rw [if_neg (by omega), Int.toNat_natCast, List.getElem?_eq_getElem (List.idxOf_lt_length_of_mem (hold x hx))]
    simp
  · intro d hd
    obtain ⟨c, hc, rfl⟩ := List.mem_map.1 hd
    obtain ⟨x, hx, _, _, hw⟩ := hget c hc
    right
    simp only [hw]
    exact ⟨by omega, by rw [Int.toNat_natCast]; exact List.idxOf_lt_length_of_mem (hold x hx)⟩

/-- C156: an old label which is not among the new ones is refused, even if no row has it. -/
theorem C156_refused [DecidableEq L] (l : Level L) (new : List L) (j : L) (hj : j ∈ l.labels) (hn : j ∉ new) :
    replaceLevel l new = .error .notOnce := by
  have hw : whereIn l.labels new = .error .notOnce := by
    unfold whereIn
    generalize l.labels = old at hj
    induction old with
    | nil => cases hj
    | cons k old ih =>
      rw [List.mapM_cons]
      by_cases hk : ∃ i, places new k = [i]
      · obtain ⟨i, hi⟩ := hk
        rw [hi]
        have hj' : j ∈ old := by
          rcases List.mem_cons.1 hj with rfl | h
          · have := (mi_places new j i).1 (by rw [hi]; simp)
            exact absurd (List.mem_of_getElem? this) hn
          · exact h
        simp only [ih hj']
        rfl
      · split
        · rename_i i hi; exact absurd ⟨i, hi⟩ hk
        · rfl
  unfold replaceLevel
  rw [hw]

/-- C156 fails: an index with a missing label is refused, although the new labels hold all the old
ones. -/
theorem C156_fails_missing [DecidableEq L] (l : Level L) (new : List L) (hm : (-1 : Int) ∈ l.codes)
    (hn : new.Nodup) (hold : ∀ j ∈ l.labels, j ∈ new) : replaceLevel l new = .error .missing := by
  unfold replaceLevel
  rw [mi_whereIn l.labels new hn hold]
  simp only [hm, if_true]

/-! ## Non-vacuity -/

/-- Four labels, of which the second is unused, and a missing one. -/
def someLevel : Level String := ⟨["a", "b", "c", "d"], [3, 0, -1, 2, 0]⟩

example : GoodLevel someLevel ∧ removeUnused someLevel = ⟨["a", "d", "c"], [1, 0, -1, 2, 0]⟩ ∧
    labelsSeen someLevel = [some "d", some "a", none, some "c", some "a"] := by
  refine ⟨?_, by decide, by decide⟩
  intro c hc
  simp only [someLevel, List.mem_cons, List.not_mem_nil, or_false] at hc
  simp only [someLevel, List.length_cons, List.length_nil]
  omega

example : replaceLevel (⟨["a", "b"], [1, 0, 1]⟩ : Level String) ["c", "b", "a"] = .ok ⟨["c", "b", "a"], [1, 2, 1]⟩ := by decide

end Larch.Props
