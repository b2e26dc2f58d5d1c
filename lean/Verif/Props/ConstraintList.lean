import Verif.Spec.ConstraintList
import Verif.Props.Constraints
import Mathlib.Data.List.Nodup
import Mathlib.Data.List.InsertIdx

/-!
# C28, C61, C62: constraint lists
-/

namespace Larch.Props

open Larch Larch.ConList

/-! ## Basic facts -/

theorem mapM_some_iff {α β : Type} (f : α → Option β) (l : List α) (r : List β) :
    l.mapM f = some r ↔ l.map f = r.map some := by
  induction l generalizing r with
  | nil => cases r <;> simp
  | cons a t ih =>
    rw [List.mapM_cons]
    cases hf : f a with
    | none => cases r <;> simp [hf]
    | some b =>
      cases ht : t.mapM f with
      | none =>
        cases r with
        | nil => simp
        | cons c r' =>
          simp only [Option.pure_def, Option.bind_eq_bind, Option.bind_some, Option.bind_none, reduceCtorEq, List.map_cons, hf,
            List.cons.injEq, Option.some.injEq, false_iff, not_and]
          intro _ h2
          have := (ih r').2 h2
          rw [ht] at this
          simp at this
      | some u =>
        cases r with
        | nil => simp
        | cons c r' =>
          have := ih r'
          rw [ht, Option.some.injEq] at this
          simp [hf, this]

theorem loc_of_mem {names : List String} {p : String} (h : p ∈ names) : ∃ i, Con.loc names p = some i := by
  cases hl : Con.loc names p with
  | some i => exact ⟨i, rfl⟩
  | none =>
    rw [Con.loc, List.findIdx?_eq_none_iff] at hl
    simpa using hl p h

theorem positions_of_known {names : List String} {c : Item} (h : ∀ p ∈ c.params, p ∈ names) :
    ∃ ps, positions names c = some ps ∧ ps.map (fun k => names[k]?) = c.params.map some := by
  unfold positions
  obtain ⟨ps, hl⟩ : ∃ ps, c.params.mapM (Con.loc names) = some ps := by
    have : ∀ l : List String, (∀ p ∈ l, p ∈ names) → ∃ ps, l.mapM (Con.loc names) = some ps := by
      intro l
      induction l with
      | nil => intro _; exact ⟨[], rfl⟩
      | cons a t ih =>
        intro h
        obtain ⟨i, hi⟩ := loc_of_mem (h a (by simp))
        obtain ⟨ps, hps⟩ := ih (fun p hp => h p (by simp [hp]))
        exact ⟨i :: ps, by rw [List.mapM_cons, hi, hps]; rfl⟩
    exact this _ h
  refine ⟨ps, hl, ?_⟩
  rw [mapM_some_iff] at hl
  generalize c.params = l at hl ⊢
  induction l generalizing ps with
  | nil => cases ps <;> simp_all
  | cons a t ih =>
    cases ps with
    | nil => simp at hl
    | cons k r =>
      simp only [List.map_cons, List.cons.injEq] at hl ⊢
      refine ⟨?_, ih r hl.2⟩
      obtain ⟨h1, h2⟩ := loc_spec hl.1
      simp [h1] at h2
      simp [h1, h2]

theorem link_known {s : St} {m i : Nat} (h : Known s m i) :
    ∃ ps, ps.map (fun k => (s.mdls m).names[k]?) = (s.objs i).item.params.map some ∧
      s.link m i = (s.setObj i { s.objs i with link := some ps }, false) := by
  obtain ⟨ps, h1, h2⟩ := positions_of_known h
  exact ⟨ps, h2, by simp [St.link, h1]⟩

theorem link_mdls (s : St) (m i : Nat) : (s.link m i).1.mdls = s.mdls := by
  unfold St.link; split <;> rfl

theorem link_item (s : St) (m i j : Nat) : ((s.link m i).1.objs j).item = (s.objs j).item := by
  unfold St.link
  split
  · simp only [St.setObj, Function.update_apply]
    split
    · rename_i h; rw [h]
    · rfl
  · rfl

theorem link_other (s : St) (m i j : Nat) (h : j ≠ i) : (s.link m i).1.objs j = s.objs j := by
  unfold St.link
  split
  · simp [St.setObj, h]
  · rfl

theorem linkAll_mdls (ids : List Nat) (s : St) (m : Nat) : (s.linkAll m ids).1.mdls = s.mdls := by
  induction ids generalizing s with
  | nil => rfl
  | cons i t ih =>
    unfold St.linkAll
    have := link_mdls s m i
    split
    · rename_i s' h; rw [h] at this; exact this
    · rename_i s' h; rw [h] at this; rw [ih]; exact this

theorem linkAll_item (ids : List Nat) (s : St) (m j : Nat) : ((s.linkAll m ids).1.objs j).item = (s.objs j).item := by
  induction ids generalizing s with
  | nil => rfl
  | cons i t ih =>
    unfold St.linkAll
    have := link_item s m i j
    split
    · rename_i s' h; rw [h] at this; exact this
    · rename_i s' h; rw [h] at this; rw [ih]; exact this

theorem linkAll_other (ids : List Nat) (s : St) (m j : Nat) (hj : j ∉ ids) : (s.linkAll m ids).1.objs j = s.objs j := by
  induction ids generalizing s with
  | nil => rfl
  | cons i t ih =>
    simp only [List.mem_cons, not_or] at hj
    unfold St.linkAll
    have := link_other s m i j hj.1
    split
    · rename_i s' h; rw [h] at this; exact this
    · rename_i s' h; rw [h] at this; rw [ih _ hj.2]; exact this

theorem refers_link {s : St} {m i : Nat} (h : Known s m i) : Refers (s.link m i).1 m i := by
  obtain ⟨ps, h1, h2⟩ := link_known h
  rw [h2]
  exact ⟨ps, by simp [St.setObj], by simpa [St.setObj] using h1⟩

theorem refers_congr {s s' : St} {m i : Nat} (h1 : s'.objs i = s.objs i) (h2 : (s'.mdls m).names = (s.mdls m).names) :
    Refers s' m i ↔ Refers s m i := by simp [Refers, h1, h2]

theorem refers_link_self {s : St} {m i : Nat} (j : Nat) (h : Known s m i) (hj : Refers s m j) : Refers (s.link m i).1 m j := by
  by_cases hji : j = i
  · rw [hji]; exact refers_link h
  · rw [refers_congr (link_other s m i j hji) (by rw [link_mdls])]; exact hj

theorem known_congr {s s' : St} {m i : Nat} (h1 : (s'.objs i).item = (s.objs i).item) (h2 : (s'.mdls m).names = (s.mdls m).names) :
    Known s' m i ↔ Known s m i := by simp [Known, h1, h2]

theorem linkAll_refers (ids : List Nat) (s : St) (m : Nat) (h : ∀ i ∈ ids, Known s m i) :
    (s.linkAll m ids).2 = false ∧ (∀ i ∈ ids, Refers (s.linkAll m ids).1 m i) ∧
      (∀ i, Refers s m i → Refers (s.linkAll m ids).1 m i) := by
  induction ids generalizing s with
  | nil => exact ⟨rfl, by simp, fun i h => h⟩
  | cons i t ih =>
    have hi := h i (by simp)
    obtain ⟨ps, h1, h2⟩ := link_known hi
    have hr := refers_link hi
    have hs := fun j hj => refers_link_self (s := s) (m := m) (i := i) j hi hj
    unfold St.linkAll
    have hitem := fun j => link_item s m i j
    have hm := link_mdls s m i
    rw [h2] at hr hs hitem hm ⊢
    simp only at hr hs hitem hm ⊢
    obtain ⟨a1, a2, a3⟩ := ih _ (fun j hj => (known_congr (hitem j) (by rw [hm])).2 (h j (by simp [hj])))
    refine ⟨a1, ?_, fun j hj => a3 j (hs j hj)⟩
    intro j hj
    rcases List.mem_cons.1 hj with rfl | hj
    · exact a3 j hr
    · exact a2 j hj

/-! ## What every statement leaves alone -/

@[simp] theorem setCs_cs (s : St) (m : Nat) (cs : List Nat) : ((s.setCs m cs).mdls m).cs = cs := by simp [St.setCs, St.setM]
@[simp] theorem setCs_names (s : St) (m m' : Nat) (cs : List Nat) : ((s.setCs m cs).mdls m').names = (s.mdls m').names := by
  simp only [St.setCs, St.setM, Function.update_apply]; split
  · rename_i h; rw [h]
  · rfl
@[simp] theorem setCs_objs (s : St) (m : Nat) (cs : List Nat) : (s.setCs m cs).objs = s.objs := rfl
theorem setCs_other (s : St) {m m' : Nat} (h : m' ≠ m) (cs : List Nat) : (s.setCs m cs).mdls m' = s.mdls m' := by
  simp [St.setCs, St.setM, h]

theorem insert_spec (s : St) (m : Nat) (k : Int) (i : Nat) :
    (s.isDup m i = true ∧ s.insert m k i = (s, false)) ∨
      (s.isDup m i = false ∧ (((s.insert m k i).1.mdls m).cs = (s.mdls m).cs.insertIdx (insPos (s.mdls m).cs.length k) i)) := by
  unfold St.insert
  cases h : s.isDup m i with
  | true => left; simp
  | false =>
    right
    simp only [Bool.false_eq_true, if_false, true_and]
    split
    · simp
    · rw [link_mdls]; simp

theorem insert_item (s : St) (m : Nat) (k : Int) (i j : Nat) : ((s.insert m k i).1.objs j).item = (s.objs j).item := by
  unfold St.insert
  split
  · rfl
  · simp only
    split
    · rfl
    · rw [link_item]; rfl

theorem insert_mdls_other (s : St) {m m' : Nat} (h : m' ≠ m) (k : Int) (i : Nat) : (s.insert m k i).1.mdls m' = s.mdls m' := by
  unfold St.insert
  split
  · rfl
  · simp only
    split
    · exact setCs_other s h _
    · rw [link_mdls]; exact setCs_other s h _

theorem insert_names (s : St) (m m' : Nat) (k : Int) (i : Nat) : ((s.insert m k i).1.mdls m').names = (s.mdls m').names := by
  unfold St.insert
  split
  · rfl
  · simp only
    split
    · simp
    · rw [link_mdls]; simp

theorem extend_facts (ids : List Nat) (s : St) (m : Nat) :
    (∀ j, ((s.extend m ids).1.objs j).item = (s.objs j).item) ∧ (∀ m', ((s.extend m ids).1.mdls m').names = (s.mdls m').names) ∧
      (∀ m', m' ≠ m → (s.extend m ids).1.mdls m' = s.mdls m') := by
  induction ids generalizing s with
  | nil => exact ⟨fun _ => rfl, fun _ => rfl, fun _ _ => rfl⟩
  | cons i t ih =>
    unfold St.extend
    have e1 := fun j => insert_item s m ((s.mdls m).cs.length : Int) i j
    have e2 := fun m' => insert_names s m m' ((s.mdls m).cs.length : Int) i
    have e3 := fun m' (h : m' ≠ m) => insert_mdls_other s h ((s.mdls m).cs.length : Int) i
    unfold St.append
    split
    · rename_i s' h
      rw [h] at e1 e2 e3
      exact ⟨e1, e2, e3⟩
    · rename_i s' h
      rw [h] at e1 e2 e3
      obtain ⟨f1, f2, f3⟩ := ih s'
      exact ⟨fun j => (f1 j).trans (e1 j), fun m' => (f2 m').trans (e2 m'), fun m' h => (f3 m' h).trans (e3 m' h)⟩

theorem setitem_dup (s : St) {m i : Nat} (k : Int) (h : i ∈ (s.mdls m).cs) : s.setitem m k i = (s, false) := by
  have : s.isDup m i = true := by
    unfold St.isDup
    rw [List.any_eq_true]
    exact ⟨i, h, by simp⟩
  simp [St.setitem, this]

/-- `reverse()` changes nothing at all: every assignment it makes is refused as a duplicate. -/
theorem C62_fails_reverse (s : St) (m : Nat) : s.reverse m = (s, false) := by
  unfold St.reverse
  have : ∀ l : List Nat, (∀ i ∈ l, i < (s.mdls m).cs.length) →
      l.foldl (fun r i => if r.2 then r else r.1.swap m i ((s.mdls m).cs.length - i - 1)) (s, false) = (s, false) := by
    intro l
    induction l with
    | nil => intro _; rfl
    | cons i t ih =>
      intro h
      have hi := h i (by simp)
      have hj : (s.mdls m).cs.length - i - 1 < (s.mdls m).cs.length := by omega
      rw [List.foldl_cons]
      have : (s.swap m i ((s.mdls m).cs.length - i - 1)) = (s, false) := by
        unfold St.swap
        simp only [List.getElem?_eq_getElem hi, List.getElem?_eq_getElem hj]
        rw [setitem_dup s _ (List.getElem_mem hj)]
        simp only
        exact setitem_dup s _ (List.getElem_mem hi)
      simp only [Bool.false_eq_true, if_false, this]
      exact ih (fun i hi => h i (by simp [hi]))
  apply this
  intro i hi
  rw [List.mem_range] at hi
  omega

theorem setitem_facts (s : St) (m : Nat) (k : Int) (i : Nat) :
    (∀ j, ((s.setitem m k i).1.objs j).item = (s.objs j).item) ∧ (∀ m', m' ≠ m → (s.setitem m k i).1.mdls m' = s.mdls m') ∧
      (∀ m', ((s.setitem m k i).1.mdls m').names = (s.mdls m').names) ∧
      ((s.setitem m k i).1 = s ∨ (s.isDup m i = false ∧ ∃ n, pyIdx (s.mdls m).cs.length k = some n ∧
        ((s.setitem m k i).1.mdls m).cs = (s.mdls m).cs.set n i ∧ (s.setitem m k i) = (s.setCs m ((s.mdls m).cs.set n i)).link m i)) := by
  unfold St.setitem
  cases hd : s.isDup m i with
  | true => simp
  | false =>
    simp only [Bool.false_eq_true, if_false]
    cases hk : pyIdx (s.mdls m).cs.length k with
    | none => simp
    | some n =>
      simp only
      refine ⟨fun j => by rw [link_item]; rfl, fun m' h => by rw [link_mdls]; exact setCs_other s h _,
        fun m' => by rw [link_mdls]; simp, Or.inr ⟨trivial, n, rfl, by rw [link_mdls]; simp, rfl⟩⟩

/-! ## C28 -/

theorem nodup_insertIdx {α : Type} {l : List α} {a : α} (h : l.Nodup) (ha : a ∉ l) (n : Nat) (hn : n ≤ l.length) :
    (l.insertIdx n a).Nodup := by
  rw [(List.perm_insertIdx a l hn).nodup_iff]
  exact List.nodup_cons.2 ⟨ha, h⟩

theorem map_insertIdx' {α β : Type} (f : α → β) (l : List α) (n : Nat) (a : α) :
    (l.insertIdx n a).map f = (l.map f).insertIdx n (f a) := by
  rw [List.map_insertIdx]

theorem insPos_le' (n : Nat) (k : Int) : insPos n k ≤ n := by
  unfold insPos; split <;> omega

theorem notDup_iff (s : St) (m i : Nat) : s.isDup m i = false ↔ (s.objs i).item ∉ (s.mdls m).cs.map (fun j => (s.objs j).item) := by
  unfold St.isDup
  rw [List.any_eq_false]
  simp

theorem distinct_congr {s s' : St} {m : Nat} (h1 : ∀ j, (s'.objs j).item = (s.objs j).item) (h2 : (s'.mdls m).cs = (s.mdls m).cs) :
    Distinct s' m ↔ Distinct s m := by simp [Distinct, h1, h2]

theorem distinct_insert {s : St} {m : Nat} (h : Distinct s m) (k : Int) (i : Nat) : Distinct (s.insert m k i).1 m := by
  rcases insert_spec s m k i with ⟨-, e⟩ | ⟨hd, e⟩
  · rw [e]; exact h
  · unfold Distinct
    rw [e]
    simp only [insert_item]
    rw [map_insertIdx']
    exact nodup_insertIdx h ((notDup_iff s m i).1 hd) _ (by rw [List.length_map]; exact insPos_le' _ _)

theorem distinct_extend (ids : List Nat) {s : St} {m : Nat} (h : Distinct s m) : Distinct (s.extend m ids).1 m := by
  induction ids generalizing s with
  | nil => exact h
  | cons i t ih =>
    unfold St.extend
    have := distinct_insert h ((s.mdls m).cs.length : Int) i
    unfold St.append
    split
    · rename_i s' e; rw [e] at this; exact this
    · rename_i s' e; rw [e] at this; exact ih this

theorem nodup_set {α : Type} {l : List α} (h : l.Nodup) {a : α} (ha : a ∉ l) (n : Nat) : (l.set n a).Nodup := by
  induction l generalizing n with
  | nil => simp
  | cons b t ih =>
    rw [List.nodup_cons] at h
    simp only [List.mem_cons, not_or] at ha
    cases n with
    | zero => rw [List.set_cons_zero, List.nodup_cons]; exact ⟨ha.2, h.2⟩
    | succ n =>
      rw [List.set_cons_succ, List.nodup_cons]
      refine ⟨?_, ih h.2 ha.2 n⟩
      intro hb
      rcases List.mem_or_eq_of_mem_set hb with hb | hb
      · exact h.1 hb
      · exact ha.1 hb.symm

/-- The constraints given in a whole-list assignment are all different. -/
def AssignsDistinct (objs : Nat → Obj) : Op → Prop
  | .assign _ ids => (ids.map (fun i => (objs i).item)).Nodup
  | _ => True

theorem step_items (s : St) (o : Op) (j : Nat) : ((s.step o).1.objs j).item = (s.objs j).item := by
  cases o with
  | assign m ids => simp only [St.step, St.assign, linkAll_item, setCs_objs]
  | assignFrom m m' => simp only [St.step, St.assignFrom]; split <;> simp only [St.assign, linkAll_item, setCs_objs]
  | iadd m ids =>
    simp only [St.step, St.iadd]
    have := (extend_facts ids s m).1 j
    split
    · rename_i s' e; rw [e] at this; exact this
    · rename_i s' e; rw [e] at this
      simp only [St.assignFrom, if_true, St.assign, linkAll_item, setCs_objs]
      exact this
  | insert m k i => exact insert_item s m k i j
  | append m i => exact insert_item s m _ i j
  | setitem m k i => exact (setitem_facts s m k i).1 j
  | delitem m k => simp only [St.step, St.delitem]; split <;> rfl
  | reverse m => simp [St.step, C62_fails_reverse]
  | frame m names => rfl
  | rescale m => exact linkAll_item _ _ _ _

theorem distinct_step {s : St} (h : ∀ m, Distinct s m) (o : Op) (ho : AssignsDistinct s.objs o) : ∀ m, Distinct (s.step o).1 m := by
  intro m₀
  cases o with
  | assign m ids =>
    simp only [St.step, St.assign]
    rw [distinct_congr (s := s.setCs m ids) (linkAll_item ids _ m) (by rw [linkAll_mdls])]
    by_cases hm : m₀ = m
    · subst hm; unfold Distinct; simp only [setCs_cs, setCs_objs]; exact ho
    · unfold Distinct; rw [setCs_other s hm]; exact h m₀
  | assignFrom m m' =>
    have key : ∀ ids, (ids.map (fun i => (s.objs i).item)).Nodup → Distinct (s.assign m ids).1 m₀ := by
      intro ids hi
      simp only [St.assign]
      rw [distinct_congr (s := s.setCs m ids) (linkAll_item ids _ m) (by rw [linkAll_mdls])]
      by_cases hm : m₀ = m
      · subst hm; unfold Distinct; simp only [setCs_cs, setCs_objs]; exact hi
      · unfold Distinct; rw [setCs_other s hm]; exact h m₀
    simp only [St.step, St.assignFrom]
    split
    · exact key [] (by simp)
    · exact key _ (h m')
  | iadd m ids =>
    simp only [St.step, St.iadd]
    have e0 := distinct_extend ids (h m)
    obtain ⟨e1, -, e3⟩ := extend_facts ids s m
    have e4 : ∀ m', Distinct (s.extend m ids).1 m' := by
      intro m'
      by_cases hm : m' = m
      · rw [hm]; exact e0
      · rw [distinct_congr e1 (by rw [e3 m' hm])]; exact h m'
    split
    · rename_i s' e; rw [e] at e4; exact e4 m₀
    · rename_i s' e; rw [e] at e4
      simp only [St.assignFrom, if_true, St.assign, St.linkAll]
      by_cases hm : m₀ = m
      · subst hm; unfold Distinct; simp
      · unfold Distinct; rw [setCs_other s' hm]; exact e4 m₀
  | insert m k i =>
    by_cases hm : m₀ = m
    · rw [hm]; exact distinct_insert (h m) k i
    · exact (distinct_congr (insert_item s m k i) (congrArg M.cs (insert_mdls_other s hm k i))).2 (h m₀)
  | append m i =>
    by_cases hm : m₀ = m
    · rw [hm]; exact distinct_insert (h m) _ i
    · exact (distinct_congr (insert_item s m _ i) (congrArg M.cs (insert_mdls_other s hm _ i))).2 (h m₀)
  | setitem m k i =>
    obtain ⟨e1, e2, -, e4⟩ := setitem_facts s m k i
    by_cases hm : m₀ = m
    · subst hm
      rcases e4 with e | ⟨hd, n, -, e, -⟩
      · simp only [St.step]; rw [e]; exact h m₀
      · unfold Distinct
        simp only [St.step, e1]
        rw [e, List.map_set]
        exact nodup_set (h m₀) ((notDup_iff s m₀ i).1 hd) n
    · exact (distinct_congr e1 (congrArg M.cs (e2 m₀ hm))).2 (h m₀)
  | delitem m k =>
    simp only [St.step, St.delitem]
    split
    · exact h m₀
    · by_cases hm : m₀ = m
      · subst hm
        unfold Distinct
        simp only [setCs_cs, setCs_objs]
        exact ((List.eraseIdx_sublist _ _).map _).nodup (h m₀)
      · unfold Distinct; simp only []; rw [setCs_other s hm]; exact h m₀
  | reverse m => rw [St.step, C62_fails_reverse]; exact h m₀
  | frame m names =>
    have e : ∀ m', ((s.step (.frame m names)).1.mdls m').cs = (s.mdls m').cs := by
      intro m'
      simp only [St.step, St.setM, Function.update_apply]
      split
      · rename_i h; rw [h]
      · rfl
    exact (distinct_congr (s := s) (s' := (s.step (.frame m names)).1) (fun _ => rfl) (e m₀)).2 (h m₀)
  | rescale m => exact (distinct_congr (s := s) (linkAll_item _ s m) (congrArg (fun f => (f m₀).cs) (linkAll_mdls _ s m))).2 (h m₀)

/-- C28: whatever is done to the constraint lists of any number of models, by statements that may or may not raise, no list ever holds
two equal constraints - provided that whole-list assignments are given lists without duplicates.  (Missing for the full C28: that
proviso, `C28_fails_assignment`.) -/
theorem C28_no_duplicates_partial (s : St) (h0 : ∀ m, (s.mdls m).cs = []) (ops : List Op)
    (ho : ∀ o ∈ ops, AssignsDistinct s.objs o) : ∀ m, Distinct (s.run ops) m := by
  have key : ∀ (ops : List Op) (s' : St), (∀ j, (s'.objs j).item = (s.objs j).item) → (∀ m, Distinct s' m) →
      (∀ o ∈ ops, AssignsDistinct s.objs o) → ∀ m, Distinct (s'.run ops) m := by
    intro ops
    induction ops with
    | nil => intro s' _ h _; exact h
    | cons o t ih =>
      intro s' hi h ho
      have ho' : AssignsDistinct s'.objs o := by
        have := ho o (by simp)
        cases o <;> simp only [AssignsDistinct] at this ⊢
        simpa [hi] using this
      exact ih _ (fun j => (step_items s' o j).trans (hi j)) (distinct_step h o ho') (fun o ho'' => ho o (by simp [ho'']))
  exact key ops s (fun _ => rfl) (fun m => by simp [Distinct, h0]) ho

/-- Three constraints, two of them equal. -/
def demoObjs : Nat → Obj
  | 0 => ⟨⟨1, ["a", "c"], []⟩, none⟩
  | 1 => ⟨⟨1, ["a", "c"], []⟩, none⟩
  | 2 => ⟨⟨1, ["b", "c"], []⟩, none⟩
  | _ => ⟨⟨2, ["c"], [some 0, none]⟩, none⟩

def demoSt : St := { objs := demoObjs, mdls := fun _ => ⟨["a", "b", "c"], []⟩ }

example : (∀ m, (demoSt.mdls m).cs = []) ∧ ((demoSt.run [.append 0 0, .append 0 1, .insert 0 0 2, .setitem 0 1 3]).mdls 0).cs = [2, 3] := by
  refine ⟨fun _ => rfl, by decide +kernel⟩

/-- C28 fails: `model.constraints = [c, c]`, or the constructor argument, keeps both. -/
theorem C28_fails_assignment : ∃ (s : St) (m : Nat) (ids : List Nat), (s.assign m ids).2 = false ∧ ¬ Distinct (s.assign m ids).1 m :=
  ⟨demoSt, 0, [0, 1], by decide +kernel, by unfold Distinct; decide +kernel⟩

/-! ## C62: list operations -/

/-- C62: appending a constraint that is not in the list yet puts it at the end (even when linking then raises). -/
theorem C62_append (s : St) (m i : Nat) (h : ∀ j ∈ (s.mdls m).cs, (s.objs j).item ≠ (s.objs i).item) :
    ((s.append m i).1.mdls m).cs = (s.mdls m).cs ++ [i] := by
  rcases insert_spec s m ((s.mdls m).cs.length : Int) i with ⟨hd, -⟩ | ⟨-, e⟩
  · unfold St.isDup at hd
    rw [List.any_eq_true] at hd
    obtain ⟨j, hj, e⟩ := hd
    exact absurd (by simpa using e) (h j hj)
  · unfold St.append
    rw [e]
    have : insPos (s.mdls m).cs.length ((s.mdls m).cs.length : Int) = (s.mdls m).cs.length := by
      unfold insPos; split <;> omega
    rw [this, List.insertIdx_length_self]

/-- C62: appending a constraint that is there already does nothing. -/
theorem C62_append_duplicate (s : St) (m i j : Nat) (hj : j ∈ (s.mdls m).cs) (h : (s.objs j).item = (s.objs i).item) :
    s.append m i = (s, false) := by
  rcases insert_spec s m ((s.mdls m).cs.length : Int) i with ⟨-, e⟩ | ⟨hd, -⟩
  · exact e
  · exact absurd (List.mem_map.2 ⟨j, hj, h⟩) ((notDup_iff s m i).1 hd)

/-- C62: deleting by index removes that entry. -/
theorem C62_delitem (s : St) (m k : Nat) (h : k < (s.mdls m).cs.length) :
    ((s.delitem m (k : Int)).1.mdls m).cs = (s.mdls m).cs.eraseIdx k ∧ (s.delitem m (k : Int)).2 = false := by
  simp [St.delitem, pyIdx, h]

/-- C62 fails: whenever `model.constraints += cs` does not raise, the model is left without any constraint. -/
theorem C62_fails_iadd (s : St) (m : Nat) (ids : List Nat) (h : (s.iadd m ids).2 = false) : ((s.iadd m ids).1.mdls m).cs = [] := by
  unfold St.iadd at h ⊢
  split at h
  · simp at h
  · rename_i s' e
    simp [St.assignFrom, St.assign, St.linkAll]

example : (demoSt.iadd 0 [0, 2]).2 = false ∧ ((demoSt.run [.append 0 3, .iadd 0 [0, 2]]).mdls 0).cs = [] := by decide +kernel

/-! ## C61: constraints refer to the right parameters -/

/-- Every constraint of every model refers to its parameters, and no constraint object is shared between models. -/
structure Good (s : St) : Prop where
  refers : ∀ m, ∀ i ∈ (s.mdls m).cs, Refers s m i ∧ Known s m i
  alone : ∀ m, ∀ i ∈ (s.mdls m).cs, Exclusive s m i

theorem good_assign {s : St} (hg : Good s) {m : Nat} {ids : List Nat} (h : ∀ i ∈ ids, Known s m i ∧ Exclusive s m i) :
    Good (s.assign m ids).1 := by
  have hk : ∀ i ∈ ids, Known (s.setCs m ids) m i := fun i hi => (known_congr (s := s) (s' := s.setCs m ids) rfl (by simp)).2 (h i hi).1
  obtain ⟨-, h2, -⟩ := linkAll_refers ids (s.setCs m ids) m hk
  have hm := linkAll_mdls ids (s.setCs m ids) m
  have hcs : ∀ m', m' ≠ m → ((s.assign m ids).1.mdls m') = s.mdls m' := fun m' h' => by
    rw [St.assign, hm, setCs_other s h']
  have hcsm : ((s.assign m ids).1.mdls m).cs = ids := by rw [St.assign, hm]; simp
  have hkn : ∀ m' i, Known s m' i → Known (s.assign m ids).1 m' i := by
    intro m' i hki
    refine (known_congr (s := s) ?_ ?_).2 hki
    · rw [St.assign, linkAll_item]; rfl
    · rw [St.assign, hm]; simp
  constructor
  · intro m' i hi
    by_cases hmm : m' = m
    · subst hmm
      rw [hcsm] at hi
      exact ⟨h2 i hi, hkn _ _ (h i hi).1⟩
    · rw [hcs m' hmm] at hi
      have hni : i ∉ ids := fun hin => (h i hin).2 m' hmm hi
      refine ⟨(refers_congr (s := s) ?_ ?_).2 (hg.refers m' i hi).1, hkn _ _ (hg.refers m' i hi).2⟩
      · rw [St.assign, linkAll_other ids _ m i hni]; rfl
      · rw [hcs m' hmm]
  · intro m' i hi m'' hne hin
    by_cases hmm : m' = m
    · subst hmm
      rw [hcsm] at hi
      rw [hcs m'' hne] at hin
      exact (h i hi).2 m'' hne hin
    · rw [hcs m' hmm] at hi
      by_cases hm2 : m'' = m
      · subst hm2
        rw [hcsm] at hin
        exact (h i hin).2 m' hmm hi
      · rw [hcs m'' hm2] at hin
        exact hg.alone m' i hi m'' hne hin

/-- Linking one object of the list of `m` after the list became `cs'`. -/
theorem good_relink {s : St} (hg : Good s) {m i : Nat} (hk : Known s m i) (hx : Exclusive s m i) (cs' : List Nat)
    (hsub : ∀ j ∈ cs', j = i ∨ j ∈ (s.mdls m).cs) : Good ((s.setCs m cs').link m i).1 := by
  have hk' : Known (s.setCs m cs') m i := (known_congr (s := s) (s' := s.setCs m cs') rfl (by simp)).2 hk
  have hm := link_mdls (s.setCs m cs') m i
  have hkn : ∀ m' j, Known s m' j → Known ((s.setCs m cs').link m i).1 m' j := by
    intro m' j hkj
    exact (known_congr (s := s) (by rw [link_item]; rfl) (by rw [hm]; simp)).2 hkj
  constructor
  · intro m' j hj
    rw [hm] at hj
    by_cases hmm : m' = m
    · subst hmm
      rw [setCs_cs] at hj
      by_cases hji : j = i
      · subst hji; exact ⟨refers_link hk', hkn _ _ hk⟩
      · have hjc := (hsub j hj).resolve_left hji
        refine ⟨(refers_congr (s := s) ?_ ?_).2 (hg.refers m' j hjc).1, hkn _ _ (hg.refers m' j hjc).2⟩
        · rw [link_other _ _ _ _ hji]; rfl
        · rw [hm]; simp
    · rw [setCs_other s hmm] at hj
      have hji : j ≠ i := by rintro rfl; exact hx m' hmm hj
      refine ⟨(refers_congr (s := s) ?_ ?_).2 (hg.refers m' j hj).1, hkn _ _ (hg.refers m' j hj).2⟩
      · rw [link_other _ _ _ _ hji]; rfl
      · rw [hm]; simp
  · intro m' j hj m'' hne hin
    rw [hm] at hj hin
    by_cases hmm : m' = m
    · subst hmm
      rw [setCs_cs] at hj
      rw [setCs_other s hne] at hin
      rcases hsub j hj with rfl | hj
      · exact hx m'' hne hin
      · exact hg.alone m' j hj m'' hne hin
    · rw [setCs_other s hmm] at hj
      by_cases hm2 : m'' = m
      · subst hm2
        rw [setCs_cs] at hin
        rcases hsub j hin with rfl | hin
        · exact hx m' hmm hj
        · exact hg.alone m' j hj m'' hne hin
      · rw [setCs_other s hm2] at hin
        exact hg.alone m' j hj m'' hne hin

theorem good_insert {s : St} (hg : Good s) {m i : Nat} {k : Int} (h0 : 0 ≤ k) (h1 : k ≤ (s.mdls m).cs.length) (hk : Known s m i)
    (hx : Exclusive s m i) : Good (s.insert m k i).1 := by
  unfold St.insert
  split
  · exact hg
  · have hp : insPos (s.mdls m).cs.length k = k.toNat := by unfold insPos; split <;> omega
    have hle : k.toNat ≤ (s.mdls m).cs.length := by omega
    have hlen : ((s.mdls m).cs.insertIdx k.toNat i).length = (s.mdls m).cs.length + 1 := List.length_insertIdx_of_le_length hle i
    have hpy : pyIdx ((s.mdls m).cs.insertIdx k.toNat i).length k = some k.toNat := by
      unfold pyIdx; rw [hlen, if_pos h0, if_pos (by push_cast; omega)]
    have hget : ((s.mdls m).cs.insertIdx k.toNat i)[k.toNat]? = some i := by
      rw [List.getElem?_insertIdx_self, if_pos (by omega)]
    simp only [hp, hpy, Option.bind_some, hget]
    exact good_relink hg hk hx _ (fun j hj => List.eq_or_mem_of_mem_insertIdx hj)

theorem good_extend (ids : List Nat) {s : St} (hg : Good s) {m : Nat} (h : ∀ i ∈ ids, Known s m i ∧ Exclusive s m i) :
    Good (s.extend m ids).1 := by
  induction ids generalizing s with
  | nil => exact hg
  | cons i t ih =>
    have hi := h i (by simp)
    have hgi := good_insert hg (k := ((s.mdls m).cs.length : Int)) (by omega) (by omega) hi.1 hi.2
    have hit := insert_item s m ((s.mdls m).cs.length : Int) i
    have hnm := insert_names s m m ((s.mdls m).cs.length : Int) i
    have hot := fun m' (h : m' ≠ m) => insert_mdls_other s h ((s.mdls m).cs.length : Int) i
    unfold St.extend St.append
    split
    · rename_i s' e; rw [e] at hgi; exact hgi
    · rename_i s' e; rw [e] at hgi hit hnm hot
      refine ih hgi (fun j hj => ?_)
      have := h j (by simp [hj])
      refine ⟨(known_congr (hit j) hnm).2 this.1, fun m' hm' => ?_⟩
      rw [hot m' hm']
      exact this.2 m' hm'

theorem good_setCs_sub {s : St} (hg : Good s) (m : Nat) (cs : List Nat) (hsub : ∀ j ∈ cs, j ∈ (s.mdls m).cs) : Good (s.setCs m cs) := by
  constructor
  · intro m' j hj
    have hj' : j ∈ (s.mdls m').cs := by
      by_cases hm : m' = m
      · subst hm; rw [setCs_cs] at hj; exact hsub j hj
      · rwa [setCs_other s hm] at hj
    have := hg.refers m' j hj'
    exact ⟨(refers_congr (s := s) (s' := s.setCs m cs) rfl (by simp)).2 this.1,
      (known_congr (s := s) (s' := s.setCs m cs) rfl (by simp)).2 this.2⟩
  · intro m' j hj m'' hne hin
    have hj' : j ∈ (s.mdls m').cs := by
      by_cases hm : m' = m
      · subst hm; rw [setCs_cs] at hj; exact hsub j hj
      · rwa [setCs_other s hm] at hj
    have hin' : j ∈ (s.mdls m'').cs := by
      by_cases hm : m'' = m
      · subst hm; rw [setCs_cs] at hin; exact hsub j hin
      · rwa [setCs_other s hm] at hin
    exact hg.alone m' j hj' m'' hne hin'

theorem good_step {s : St} (hg : Good s) (o : Op) (ho : Polite s o) : Good (s.step o).1 := by
  cases o with
  | assign m ids => exact good_assign hg ho
  | assignFrom m m' =>
    simp only [St.step, St.assignFrom]
    split
    · exact good_assign hg (by simp)
    · rename_i hne
      rw [ho.resolve_left hne]
      exact good_assign hg (by simp)
  | iadd m ids =>
    simp only [St.step, St.iadd]
    have hge := good_extend ids hg ho
    split
    · rename_i s' e; rw [e] at hge; exact hge
    · rename_i s' e; rw [e] at hge
      simp only [St.assignFrom, if_true]
      exact good_assign hge (by simp)
  | insert m k i => exact good_insert hg ho.1 ho.2.1 ho.2.2.1 ho.2.2.2
  | append m i => exact good_insert hg (by omega) (by omega) ho.1 ho.2
  | setitem m k i =>
    obtain ⟨-, -, -, e⟩ := setitem_facts s m k i
    simp only [St.step]
    rcases e with e | ⟨-, n, -, -, e⟩
    · rw [e]; exact hg
    · rw [e]
      exact good_relink hg ho.1 ho.2 _ (fun j hj => (List.mem_or_eq_of_mem_set hj).symm)
  | delitem m k =>
    simp only [St.step, St.delitem]
    split
    · exact hg
    · exact good_setCs_sub hg m _ (fun j hj => List.mem_of_mem_eraseIdx hj)
  | reverse m => rw [St.step, C62_fails_reverse]; exact hg
  | frame m names =>
    have hcs : ∀ m', ((s.step (.frame m names)).1.mdls m').cs = (s.mdls m').cs := by
      intro m'
      simp only [St.step, St.setM, Function.update_apply]
      split
      · rename_i h; rw [h]
      · rfl
    have hot : ∀ m', m' ≠ m → (s.step (.frame m names)).1.mdls m' = s.mdls m' := by
      intro m' h; simp [St.step, St.setM, h]
    have hnm : ((s.step (.frame m names)).1.mdls m).names = names := by simp [St.step, St.setM]
    have hob : (s.step (.frame m names)).1.objs = s.objs := rfl
    constructor
    · intro m' i hi
      rw [hcs] at hi
      have hgi := hg.refers m' i hi
      by_cases hm : m' = m
      · subst hm
        obtain ⟨⟨ps, h1, h2⟩, h3⟩ := hgi
        have hpos : ∀ p ∈ (s.objs i).item.params, ∀ k : Nat, (s.mdls m').names[k]? = some p → names[k]? = some p := ho i hi
        refine ⟨⟨ps, by rw [hob]; exact h1, ?_⟩, ?_⟩
        · rw [hnm, hob]
          have : ∀ (ps : List Nat) (l : List String), (∀ p ∈ l, p ∈ (s.objs i).item.params) →
              ps.map (fun k => (s.mdls m').names[k]?) = l.map some → ps.map (fun k => names[k]?) = l.map some := by
            intro ps
            induction ps with
            | nil => intro l _ h; exact h
            | cons k r ih =>
              intro l hl h
              cases l with
              | nil => simp at h
              | cons p l =>
                simp only [List.map_cons, List.cons.injEq] at h ⊢
                exact ⟨hpos p (hl p (by simp)) k h.1, ih l (fun q hq => hl q (by simp [hq])) h.2⟩
          exact this ps _ (fun p hp => hp) h2
        · intro p hp
          rw [hob] at hp
          rw [hnm]
          obtain ⟨k, hk, e⟩ := List.mem_iff_getElem.1 (h3 p hp)
          exact List.mem_of_getElem? (hpos p hp k (by rw [List.getElem?_eq_getElem hk, e]))
      · exact ⟨(refers_congr (s := s) (by rw [hob]) (by rw [hot m' hm])).2 hgi.1,
          (known_congr (s := s) (by rw [hob]) (by rw [hot m' hm])).2 hgi.2⟩
    · intro m' i hi m'' hne hin
      rw [hcs] at hi hin
      exact hg.alone m' i hi m'' hne hin
  | rescale m =>
    simp only [St.step]
    have hk : ∀ i ∈ (s.mdls m).cs, Known s m i := fun i hi => (hg.refers m i hi).2
    obtain ⟨-, h2, h3⟩ := linkAll_refers _ s m hk
    have hm := linkAll_mdls (s.mdls m).cs s m
    constructor
    · intro m' i hi
      rw [hm] at hi
      refine ⟨?_, (known_congr (s := s) (linkAll_item _ _ _ _) (by rw [hm])).2 (hg.refers m' i hi).2⟩
      by_cases hmm : m' = m
      · subst hmm; exact h2 i hi
      · refine (refers_congr (s := s) (linkAll_other _ _ _ _ ?_) (by rw [hm])).2 (hg.refers m' i hi).1
        intro hin
        exact hg.alone m i hin m' hmm hi
    · intro m' i hi m'' hne hin
      rw [hm] at hi hin
      exact hg.alone m' i hi m'' hne hin

/-- C61: after any polite history over any number of models, every constraint in every list refers to the positions at which its
parameters are in the model's frame.  (Missing for the full C61: the statements excluded by `Polite`; see `C61_fails_*`.) -/
theorem C61_constraints_linked_partial (s : St) (h0 : ∀ m, (s.mdls m).cs = []) (ops : List Op) (h : PoliteRun s ops) :
    ∀ m, ∀ i ∈ ((s.run ops).mdls m).cs, Refers (s.run ops) m i := by
  have key : ∀ (ops : List Op) (s : St), Good s → PoliteRun s ops → Good (s.run ops) := by
    intro ops
    induction ops with
    | nil => intro s h _; exact h
    | cons o t ih => intro s hg h; exact ih _ (good_step hg o h.1) h.2
  have hg : Good (s.run ops) := key ops s ⟨fun m i hi => by simp [h0] at hi, fun m i hi => by simp [h0] at hi⟩ h
  exact fun m i hi => (hg.refers m i hi).1

example : PoliteRun demoSt [.append 0 0, .frame 0 ["a", "b", "c", "d"], .insert 0 0 2, .append 1 3, .delitem 0 (-1)] := by
  simp only [PoliteRun, Polite, Known, Exclusive, and_true, St.step]
  refine ⟨⟨by decide +kernel, fun m' _ => ?_⟩, ?_, ⟨by decide +kernel, by decide +kernel, by decide +kernel, fun m' hm => ?_⟩,
    ⟨by decide +kernel, fun m' hm => ?_⟩⟩
  · show 0 ∉ []
    simp
  · have e1 : ((demoSt.append 0 0).1.mdls 0) = ⟨["a", "b", "c"], [0]⟩ := by decide +kernel
    have e2 : ((demoSt.append 0 0).1.objs 0).item.params = ["a", "c"] := by decide +kernel
    intro i hi p hp k hk
    rw [e1] at hi hk
    simp only [List.mem_singleton] at hi
    subst hi
    rcases k with _ | _ | _ | k
    · exact hk
    · exact hk
    · exact hk
    · simp at hk
  · simp only [St.setM, Function.update_of_ne hm, St.append]
    rw [insert_mdls_other _ hm]
    show 2 ∉ []
    simp
  · by_cases h0 : m' = 0
    · subst h0
      have : ((((demoSt.append 0 0).1.setM 0 { ((demoSt.append 0 0).1.mdls 0) with names := ["a", "b", "c", "d"] }).insert 0 0 2).1.mdls 0).cs
        = [2, 0] := by decide +kernel
      rw [this]; decide
    · rw [insert_mdls_other _ h0]
      simp only [St.setM, Function.update_of_ne h0, St.append]
      rw [insert_mdls_other _ h0]
      show 3 ∉ []
      simp

/-- C61 fails when the model gets another parameter after the constraint was added: parameters are kept in order of name, but the
constraint keeps the old positions.  Here `a ≤ c` comes to mean `a ≤ b`. -/
theorem C61_fails_new_parameter :
    let s := ({ demoSt with mdls := fun _ => ⟨["a", "c"], []⟩ } : St).run [.append 0 0, .frame 0 ["a", "b", "c"]]
    (s.mdls 0).cs = [0] ∧ (s.objs 0).link = some [0, 1] ∧ ¬ Refers s 0 0 := by
  refine ⟨by decide +kernel, by decide +kernel, ?_⟩
  have e1 : (({ demoSt with mdls := fun _ => ⟨["a", "c"], []⟩ } : St).run [.append 0 0, .frame 0 ["a", "b", "c"]]).objs 0 =
    ⟨⟨1, ["a", "c"], []⟩, some [0, 1]⟩ := by decide +kernel
  have e2 : ((({ demoSt with mdls := fun _ => ⟨["a", "c"], []⟩ } : St).run [.append 0 0, .frame 0 ["a", "b", "c"]]).mdls 0).names =
    ["a", "b", "c"] := by decide +kernel
  rintro ⟨ps, h1, h2⟩
  rw [e1] at h1 h2
  rw [e2] at h2
  obtain rfl := Option.some.inj h1
  simp at h2

/-- The same, seen in the constraint function: the bound `a ≤ c`, linked when the parameters were `a, c`, evaluated when they are
`a, b, c`, tests `a ≤ b`. -/
theorem C61_fails_effect (v : String → ℝ) (scale : ℝ) (hs : 0 < scale) :
    ∃ L, (Con.Ordering.mk "a" "c").link ["a", "c"] scale = .ok L ∧
      (0 ≤ L.fn (Con.vec ["a", "b", "c"] v) ↔ v "a" ≤ v "b") := by
  refine ⟨⟨0, 1, scale⟩, rfl, ?_⟩
  simp only [Con.OrderingL.fn, Con.vec, List.getD_cons_zero, List.getD_cons_succ]
  rw [mul_nonneg_iff_of_pos_right hs, sub_nonneg]

/-- C61 fails: `insert(-1, c)` links the last constraint instead of the new one. -/
theorem C61_fails_insert_negative :
    let s := demoSt.run [.append 0 0, .insert 0 (-1) 2]
    (s.mdls 0).cs = [2, 0] ∧ (s.objs 2).link = none := by decide +kernel

/-- C61 fails: a constraint about a parameter that does not exist yet raises `KeyError` but stays in the list, and stays unlinked when
the parameter appears. -/
theorem C61_fails_early_constraint :
    let s := ({ demoSt with mdls := fun _ => ⟨["a", "b"], []⟩ } : St)
    (s.append 0 0).2 = true ∧ ((s.append 0 0).1.mdls 0).cs = [0] ∧
      ((s.run [.append 0 0, .frame 0 ["a", "b", "c"]]).objs 0).link = none := by decide +kernel

/-- C61 fails: giving the constraints of one model to another one links them to the other model's parameters. -/
theorem C61_fails_shared :
    let s := ({ demoSt with mdls := fun m => if m = 0 then ⟨["a", "b", "c"], []⟩ else ⟨["a", "c", "d"], []⟩ } : St).run
      [.append 0 0, .assignFrom 1 0]
    (s.mdls 0).cs = [0] ∧ (s.objs 0).link = some [0, 1] ∧ (s.mdls 0).names[1]? = some "b" := by decide +kernel

end Larch.Props
