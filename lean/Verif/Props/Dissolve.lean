import Verif.Model.Dissolve
import Verif.Spec.Dissolve
import Mathlib.Data.List.Induction
import Mathlib.Algebra.BigOperators.Group.List.Lemmas

/-!
# C196: dissolving coordinates, and counting values
-/

namespace Larch.Props
open Larch.Dissolve Larch.DissolveSpec

theorem dv_find {labels : List Int} {v : Int} {i : Nat} (h : getPos labels v = some i) :
    labels[i]? = some v := by
  unfold getPos at h
  obtain ⟨p, hp, rfl⟩ := Option.map_eq_some_iff.1 h
  have h1 := List.find?_some hp
  have h2 := List.mem_of_find?_eq_some hp
  rw [List.mem_reverse] at h2
  have h3 := List.mem_zipIdx_iff_getElem?.1 h2
  rw [h3]
  exact congrArg some (by simpa using h1)

theorem dv_none {labels : List Int} {v : Int} : getPos labels v = none ↔ v ∉ labels := by
  unfold getPos
  rw [Option.map_eq_none_iff, List.find?_eq_none]
  constructor
  · intro h hv
    obtain ⟨i, hi⟩ := List.mem_iff_getElem?.1 hv
    have := h (v, i) (List.mem_reverse.2 (List.mem_zipIdx_iff_getElem?.2 hi))
    simp at this
  · intro h p hp hv
    rw [List.mem_reverse] at hp
    have := List.mem_zipIdx_iff_getElem?.1 hp
    exact h (List.mem_iff_getElem?.2 ⟨p.2, by rw [this]; exact congrArg some (by simpa using hv)⟩)

/-- The last position of a label. -/
theorem dv_last {labels : List Int} {v : Int} {i k : Nat} (h : getPos labels v = some i)
    (hk : labels[k]? = some v) : k ≤ i := by
  induction labels using List.reverseRecOn with
  | nil => simp at hk
  | append_singleton l x ih =>
    unfold getPos at h
    rw [List.zipIdx_append, List.reverse_append] at h
    simp only [List.zipIdx_singleton, List.reverse_singleton, List.singleton_append, Nat.zero_add] at h
    by_cases hx : x = v
    · rw [List.find?_cons_of_pos (by simpa using hx)] at h
      simp only [Option.map_some, Option.some.injEq] at h
      have : k < (l ++ [x]).length := (List.getElem?_eq_some_iff.1 hk).1
      simp at this
      omega
    · rw [List.find?_cons_of_neg (by simpa using hx)] at h
      apply ih h
      have hlt : k < (l ++ [x]).length := (List.getElem?_eq_some_iff.1 hk).1
      rcases Nat.lt_or_ge k l.length with hl | hl
      · rwa [List.getElem?_append_left hl] at hk
      · have : k = l.length := by simp at hlt; omega
        subst this
        simp at hk
        exact absurd hk hx

/-- **C196 (the last position wins).** The position of a value is a place with that label, and no later place
has it. -/
theorem C196_last_position (labels : List Int) (v : Int) (i : Nat) :
    getPos labels v = some i ↔ (labels[i]? = some v ∧ ∀ (k : Nat), labels[k]? = some v → k ≤ i) := by
  constructor
  · intro h
    exact ⟨dv_find h, fun k hk => dv_last h hk⟩
  · rintro ⟨h1, h2⟩
    cases hg : getPos labels v with
    | none => exact absurd (List.mem_iff_getElem?.2 ⟨i, h1⟩) (dv_none.1 hg)
    | some j =>
      have a := h2 j (dv_find hg)
      have b := dv_last hg h1
      rw [Nat.le_antisymm a b]

theorem dv_all {labels : List Int} {l : List Int} (hin : ∀ v ∈ l, v ∈ labels) (hne : l ≠ []) :
    mapArray labels (l.map some) = .ok (l.map (fun v => (getPos labels v).map Int.ofNat)) := by
  cases l with
  | nil => exact absurd rfl hne
  | cons x l =>
    have hno : ((x :: l).map some).any (fun y => (mapped labels y).isNone) = false := by
      rw [List.any_eq_false]
      intro y hy
      obtain ⟨v, hv, rfl⟩ := List.mem_map.1 hy
      unfold mapped
      cases hg : getPos labels v with
      | none => exact absurd (hin v hv) (dv_none.1 hg)
      | some j => simp [hg]
    simp only [List.map_cons] at hno ⊢
    simp only [mapArray]
    rw [hno, Bool.and_false]
    simp [mapped, Function.comp_def]

/-- **C196 (dissolving keeps what is selected).** When the labels of the dimension are unique and every value
of the variable is one of them, each value is replaced by the position of its label: the data found with the
new value by position are the data found with the old value by label, in every array along the dimension. -/
theorem C196_same_data {β : Type} (labels : List Int) (hn : labels.Nodup) (l : List Int) (hne : l ≠ [])
    (hin : ∀ v ∈ l, v ∈ labels) (data : List β) (hlen : data.length = labels.length) :
    ∃ positions : List Nat,
      mapArray labels (l.map some) = .ok (positions.map (fun (p : Nat) => some (p : Int))) ∧
      positions.length = l.length ∧
      ∀ (k : Nat) (v : Int), l[k]? = some v → ∃ (p : Nat) (d : β), positions[k]? = some p ∧ LabelAt labels p v ∧
        data[p]? = some d := by
  refine ⟨l.map (fun v => (getPos labels v).getD 0), ?_, by simp, ?_⟩
  · rw [dv_all hin hne, List.map_map]
    congr 1
    apply List.map_congr_left
    intro v hv
    cases hg : getPos labels v with
    | none => exact absurd (hin v hv) (dv_none.1 hg)
    | some j => simp [hg]
  · intro k v hk
    have hv : v ∈ l := List.mem_iff_getElem?.2 ⟨k, hk⟩
    cases hg : getPos labels v with
    | none => exact absurd (hin v hv) (dv_none.1 hg)
    | some j =>
      have hj := dv_find hg
      have hlt : j < labels.length := (List.getElem?_eq_some_iff.1 hj).1
      refine ⟨j, data[j]'(by omega), by simp [hk, hg], ⟨hj, ?_⟩, by simp [hlen, hlt]⟩
      intro m hm
      obtain ⟨h1, h2⟩ := List.getElem?_eq_some_iff.1 hm
      obtain ⟨h3, h4⟩ := List.getElem?_eq_some_iff.1 hj
      exact (List.Nodup.getElem_inj_iff hn).1 (h2.trans h4.symm)

example : ([30, 10, 20] : List Int).Nodup ∧ ([10, 30, 10] : List Int) ≠ [] ∧
    (∀ v ∈ ([10, 30, 10] : List Int), v ∈ ([30, 10, 20] : List Int)) ∧
    mapArray [30, 10, 20] [some 10, some 30, some 10] = .ok [some 1, some 0, some 1] := by
  refine ⟨by decide, by decide, by decide, by rfl⟩

theorem dv_lookup_assign (vars : Vars) (o n : String) (l : List (Option Int)) :
    (assign vars o l).lookup n = if n = o ∧ (vars.lookup o).isSome then some l else vars.lookup n := by
  induction vars with
  | nil => simp [assign]
  | cons e vars ih =>
    obtain ⟨a, b⟩ := e
    unfold assign at ih ⊢
    rw [List.map_cons]
    by_cases ha : a = o
    · subst ha
      by_cases hn : n = a
      · subst hn
        simp
      · have : (n == a) = false := by simpa using hn
        simp [List.lookup_cons, this, ih, hn]
    · by_cases hn : n = a
      · subst hn
        simp [List.lookup_cons, ha]
      · have h1 : (n == a) = false := by simpa using hn
        have h2 : (o == a) = false := beq_eq_false_iff_ne.2 (fun h => ha h.symm)
        simp only [List.lookup_cons, ha, if_false, h1, h2]
        exact ih

/-- **C196 (only the named variables change).** For names without repeats, the result has every named variable
mapped and every other one as it was; it fails as soon as a name is missing or a variable cannot be mapped. -/
theorem C196_others (labels : List Int) (others : List String) (hnd : others.Nodup) (vars r : Vars)
    (h : dissolveCoords labels (some (.inr others)) vars = .ok r) :
    (∀ n ∈ others, ∃ l m, vars.lookup n = some l ∧ mapArray labels l = .ok m ∧ r.lookup n = some m) ∧
      (∀ n, n ∉ others → r.lookup n = vars.lookup n) ∧ r.map Prod.fst = vars.map Prod.fst := by
  unfold dissolveCoords at h
  simp only at h
  induction others generalizing vars with
  | nil =>
    unfold dissolveAll at h
    cases h
    exact ⟨by simp, fun n _ => rfl, rfl⟩
  | cons o rest ih =>
    unfold dissolveAll at h
    cases hl : vars.lookup o with
    | none => rw [hl] at h; cases h
    | some l =>
      rw [hl] at h
      simp only at h
      cases hm : mapArray labels l with
      | error e => rw [hm] at h; cases h
      | ok m =>
        rw [hm] at h
        obtain ⟨ho, hr⟩ := List.nodup_cons.1 hnd
        obtain ⟨i1, i2, i3⟩ := ih hr (assign vars o m) h
        refine ⟨?_, ?_, ?_⟩
        · intro n hn
          rcases List.mem_cons.1 hn with rfl | hn
          · refine ⟨l, m, hl, hm, ?_⟩
            rw [i2 n ho, dv_lookup_assign]
            simp [hl]
          · obtain ⟨l', m', h1, h2, h3⟩ := i1 n hn
            have hno : n ≠ o := fun e => ho (e ▸ hn)
            rw [dv_lookup_assign] at h1
            exact ⟨l', m', by simpa [hno] using h1, h2, h3⟩
        · intro n hn
          have hno : n ≠ o := fun e => hn (by simp [e])
          rw [i2 n (fun hc => hn (List.mem_cons_of_mem _ hc)), dv_lookup_assign]
          simp [hno]
        · rw [i3]
          unfold assign
          rw [List.map_map]
          apply List.map_congr_left
          intro e _
          by_cases he : e.1 = o
          · simp [he]
          · simp [he]

/-- One name is a list of one name, and no name changes nothing. -/
theorem C196_one_or_none (labels : List Int) (o : String) (vars : Vars) :
    dissolveCoords labels (some (.inl o)) vars = dissolveCoords labels (some (.inr [o])) vars ∧
      dissolveCoords labels none vars = .ok vars := ⟨rfl, rfl⟩

example : dissolveCoords [30, 10, 20] (some (.inr ["o", "d"]))
    [("o", [some 10]), ("x", [some 10]), ("d", [some 20, some 30])] =
      .ok [("o", [some 1]), ("x", [some 10]), ("d", [some 2, some 0])] := by rfl

/-- **C196 (unknown values).** If some value of a variable is no label, the result depends on where it stands:
when the first value is a label, an error; when the first is not, no error, and the unknown ones become `None`. -/
theorem C196_unknown (labels : List Int) (x : Int) (l : List Int) :
    (x ∈ labels → (∃ v ∈ l, v ∉ labels) → mapArray labels ((x :: l).map some) = .error .type) ∧
      (x ∉ labels → mapArray labels ((x :: l).map some) =
        .ok ((x :: l).map (fun v => (getPos labels v).map Int.ofNat))) := by
  constructor
  · rintro hx ⟨v, hv, hvn⟩
    have h1 : (mapped labels (some x)).isSome = true := by
      unfold mapped
      cases hg : getPos labels x with
      | none => exact absurd hx (dv_none.1 hg)
      | some j => simp [hg]
    have h2 : ((x :: l).map some).any (fun y => (mapped labels y).isNone) = true := by
      rw [List.any_eq_true]
      refine ⟨some v, List.mem_map.2 ⟨v, List.mem_cons_of_mem _ hv, rfl⟩, ?_⟩
      unfold mapped
      simp [dv_none.2 hvn]
    simp only [List.map_cons] at h2 ⊢
    simp only [mapArray]
    rw [h1, h2]
    rfl
  · intro hx
    have h1 : (mapped labels (some x)).isSome = false := by
      unfold mapped
      simp [dv_none.2 hx]
    simp only [List.map_cons]
    simp only [mapArray]
    rw [h1]
    simp [mapped, Function.comp_def]

/-- **C196 (violations).** A value that is no label passes as `None` if it comes first; a dimension with a
repeated label selects its last place; an empty variable is an error; a name given twice is mapped twice. -/
theorem C196_fails :
    mapArray [10, 20] [some 99, some 20] = .ok [none, some 1] ∧
      mapArray [10, 20] [some 20, some 99] = .error .type ∧
      mapArray [10, 20, 10] [some 10] = .ok [some 2] ∧
      mapArray [10, 20] [] = .error .value ∧
      dissolveCoords [1, 0] (some (.inr ["o", "o"])) [("o", [some 1])] = .ok [("o", [some 1])] ∧
      dissolveCoords [1, 0] (some (.inr ["o"])) [("o", [some 1])] = .ok [("o", [some 0])] := by
  refine ⟨by rfl, by rfl, by rfl, by rfl, by rfl, by rfl⟩

/-! ### counting -/

/-- **C196 (counts).** The values are listed in increasing order, exactly the values that occur, each with the
number of places that have it; the counts add up to the number of places. -/
theorem C196_value_counts (l : List Int) :
    ((valueCounts l).map Prod.fst).Pairwise (· < ·) ∧
      (∀ v n, (v, n) ∈ valueCounts l ↔ (v ∈ l ∧ n = (l.filter (fun x => x = v)).length)) ∧
      ((valueCounts l).map Prod.snd).sum = l.length := by
  have hp := List.perm_insertionSort (· ≤ ·) l.dedup
  have hnd : (l.dedup.insertionSort (· ≤ ·)).Nodup := hp.nodup_iff.2 (List.nodup_dedup l)
  have hcount : ∀ v, l.count v = (l.filter (fun x => x = v)).length := by
    intro v
    rw [List.count_eq_length_filter]
    rfl
  refine ⟨?_, ?_, ?_⟩
  · unfold valueCounts
    rw [List.map_map]
    have e : (Prod.fst ∘ fun v => (v, l.count v)) = (id : Int → Int) := rfl
    rw [e, List.map_id]
    have hs := List.pairwise_insertionSort (· ≤ ·) l.dedup
    exact (hs.and hnd).imp (fun h => by omega)
  · intro v n
    unfold valueCounts
    rw [List.mem_map]
    constructor
    · rintro ⟨a, ha, he⟩
      cases he
      exact ⟨List.mem_dedup.1 (hp.mem_iff.1 ha), hcount _⟩
    · rintro ⟨hv, rfl⟩
      exact ⟨v, hp.mem_iff.2 (List.mem_dedup.2 hv), by rw [hcount]⟩
  · unfold valueCounts
    rw [List.map_map]
    have e : (Prod.snd ∘ fun v => (v, l.count v)) = (fun v => l.count v) := rfl
    rw [e, List.Perm.sum_eq (hp.map _)]
    exact List.sum_map_count_dedup_eq_length l

example : valueCounts [3, 1, 3, 2, 3] = [(1, 1), (2, 1), (3, 3)] := by decide

end Larch.Props
