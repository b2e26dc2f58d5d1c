import Verif.Spec.QueryCases
import Mathlib.Data.List.Nodup
import Mathlib.Data.List.Infix

/-!
# C170: selecting the cases of a Dataset; C171: saving arrays
-/

namespace Larch.Props

open Larch.QueryCases Larch.QueryCasesSpec

variable {L K V : Type}

theorem qc_length {α β : Type} : ∀ (m : List Bool) (l : List α) (k : List β), l.length = k.length → (keep m l).length = (keep m k).length
  | [], l, k, _ => by cases l <;> cases k <;> simp [keep]
  | b :: m, [], [], _ => by cases b <;> simp [keep]
  | b :: m, x :: l, y :: k, h => by
    have := qc_length m l k (by simpa using h)
    cases b <;> simp [keep, this]
  | b :: m, [], y :: k, h => by simp at h
  | b :: m, x :: l, [], h => by simp at h

theorem qc_sublist {α : Type} : ∀ (m : List Bool) (l : List α), (keep m l).Sublist l
  | [], l => by cases l <;> simp [keep]
  | b :: m, [] => by cases b <;> simp [keep]
  | true :: m, x :: l => by simp only [keep]; exact (qc_sublist m l).cons_cons x
  | false :: m, x :: l => by simp only [keep]; exact (qc_sublist m l).cons x

variable [DecidableEq L]

/-- Where a kept case was. -/
theorem qc_place {α : Type} : ∀ (m : List Bool) (cs : List L) (l : List α), cs.Nodup → l.length = cs.length → ∀ c ∈ keep m cs,
    (keep m l)[(keep m cs).idxOf c]? = l[cs.idxOf c]?
  | [], cs, l, _, _, c, hc => by cases cs <;> simp [keep] at hc
  | b :: m, [], l, _, _, c, hc => by cases b <;> simp [keep] at hc
  | b :: m, x :: cs, [], _, hl, c, _ => by simp at hl
  | true :: m, x :: cs, y :: l, hnd, hl, c, hc => by
    rw [List.nodup_cons] at hnd
    simp only [keep] at hc ⊢
    by_cases hx : c = x
    · subst hx; simp
    · have hc' : c ∈ keep m cs := by simpa [hx] using hc
      rw [List.idxOf_cons_ne _ (fun h => hx h.symm), List.idxOf_cons_ne _ (fun h => hx h.symm)]
      simp only [List.getElem?_cons_succ]
      exact qc_place m cs l hnd.2 (by simpa using hl) c hc'
  | false :: m, x :: cs, y :: l, hnd, hl, c, hc => by
    rw [List.nodup_cons] at hnd
    simp only [keep] at hc ⊢
    have hx : c ≠ x := fun h => hnd.1 (h ▸ (qc_sublist m cs).subset hc)
    rw [List.idxOf_cons_ne _ (fun h => hx h.symm)]
    simp only [List.getElem?_cons_succ]
    exact qc_place m cs l hnd.2 (by simpa using hl) c hc

theorem qc_mem : ∀ (m : List Bool) (cs : List L), cs.Nodup → m.length = cs.length → ∀ c, c ∈ keep m cs ↔ c ∈ cs ∧ m[cs.idxOf c]? = some true
  | [], [], _, _, c => by simp [keep]
  | [], x :: cs, _, hl, c => by simp at hl
  | b :: m, [], _, hl, c => by simp at hl
  | b :: m, x :: cs, hnd, hl, c => by
    rw [List.nodup_cons] at hnd
    have ih := qc_mem m cs hnd.2 (by simpa using hl) c
    by_cases hx : c = x
    · subst hx
      cases b with
      | true => simp [keep]
      | false =>
        simp only [keep, List.idxOf_cons_self, List.getElem?_cons_zero, List.mem_cons, true_or, true_and]
        constructor
        · intro h; exact absurd ((qc_sublist m cs).subset h) hnd.1
        · intro h; simp at h
    · rw [List.idxOf_cons_ne _ (fun h => hx h.symm)]
      simp only [List.getElem?_cons_succ, List.mem_cons, hx, false_or]
      rw [← ih]
      cases b <;> simp [keep, hx]

theorem qc_lookup_map {α β : Type} (l : List (String × α)) (g : α → β) (v : String) : (l.map (fun e => (e.1, g e.2))).lookup v = (l.lookup v).map g := by
  induction l with
  | nil => rfl
  | cons e l ih =>
    obtain ⟨k, x⟩ := e
    simp only [List.map_cons, List.lookup_cons, ih]
    cases v == k <;> rfl

theorem qc_lookup_mem {α : Type} (l : List (String × α)) (v : String) (x : α) (h : l.lookup v = some x) : (v, x) ∈ l := by
  induction l with
  | nil => simp at h
  | cons e l ih =>
    rw [List.lookup_cons] at h
    cases hv : v == e.1 with
    | true =>
      rw [hv] at h
      simp only [Option.some.injEq] at h
      have : v = e.1 := by simpa using hv
      subst this
      subst h
      simp
    | false => rw [hv] at h; exact List.mem_cons_of_mem _ (ih h)

/-- C170: exactly the cases for which the query is true remain, in their order. -/
theorem C170_cases (p : (String → Option K) → Bool) (D : DS L K) (hD : Sized D) :
    (query p D).caseids.Sublist D.caseids ∧ ∀ c, c ∈ (query p D).caseids ↔ c ∈ D.caseids ∧ p (coValue D c) = true := by
  refine ⟨qc_sublist _ _, fun c => ?_⟩
  show c ∈ keep (mask p D) D.caseids ↔ _
  rw [qc_mem _ _ hD.distinct (by simp [mask])]
  constructor
  · rintro ⟨h1, h2⟩
    refine ⟨h1, ?_⟩
    have hi := List.idxOf_lt_length_of_mem h1
    simp only [mask, List.getElem?_map, List.getElem?_range hi, Option.map_some, Option.some.injEq] at h2
    have : coValue D c = coRow D (D.caseids.idxOf c) := by funext v; simp [coValue, place, h1]
    rw [this]
    exact h2
  · rintro ⟨h1, h2⟩
    refine ⟨h1, ?_⟩
    have hi := List.idxOf_lt_length_of_mem h1
    simp only [mask, List.getElem?_map, List.getElem?_range hi, Option.map_some, Option.some.injEq]
    have : coValue D c = coRow D (D.caseids.idxOf c) := by funext v; simp [coValue, place, h1]
    rw [← this]
    exact h2

/-- C170: the values by case, and by case and alternative, of the cases that remain are unchanged. -/
theorem C170_values (p : (String → Option K) → Bool) (D : DS L K) (hD : Sized D) (c : L) (hc : c ∈ (query p D).caseids) (v : String) :
    coValue (query p D) c v = coValue D c v ∧ ∀ a, caValue (query p D) c v a = caValue D c v a := by
  have hc' : c ∈ keep (mask p D) D.caseids := hc
  have hm : c ∈ D.caseids := (qc_sublist _ _).subset hc'
  have hp : place (query p D) c = some ((keep (mask p D) D.caseids).idxOf c) := by simp [place, hc]; rfl
  have hp0 : place D c = some (D.caseids.idxOf c) := by simp [place, hm]
  constructor
  · simp only [coValue, hp, hp0, Option.bind_some]
    simp only [coRow, query, qc_lookup_map]
    rcases hl : D.co.lookup v with _ | l
    · rfl
    · simp only [Option.map_some, Option.bind_some]
      exact qc_place _ _ l hD.distinct (hD.co _ (qc_lookup_mem _ _ _ hl)) c hc'
  · intro a
    simp only [caValue, hp, hp0, Option.bind_some]
    simp only [query, qc_lookup_map]
    rcases hl : D.ca.lookup v with _ | l
    · rfl
    · simp only [Option.map_some, Option.bind_some]
      rw [qc_place _ _ l hD.distinct (hD.ca _ (qc_lookup_mem _ _ _ hl)) c hc']

theorem qc_ce (p : (String → Option K) → Bool) (D : DS L K) (i : Nat) (v : String) (a : Nat) : ceRow (query p D) i v a = ceRow D i v a := rfl

/-- C170: the rows of idce data too, as long as the cases that remain are the first ones. -/
theorem C170_ce_first_partial (p : (String → Option K) → Bool) (D : DS L K) (h : (query p D).caseids <+: D.caseids) (c : L) (hc : c ∈ (query p D).caseids) (v : String) (a : Nat) :
    ceValue (query p D) c v a = ceValue D c v a := by
  obtain ⟨t, ht⟩ := h
  have hm : c ∈ D.caseids := by rw [← ht]; exact List.mem_append_left _ hc
  have hi : D.caseids.idxOf c = (query p D).caseids.idxOf c := by rw [← ht]; exact List.idxOf_append_of_mem hc
  simp only [ceValue, place, hc, hm, if_true, Option.bind_some, hi]
  exact qc_ce p D _ v a

/-- C170 fails: otherwise not: a case is given the idce rows of the case that had its new place before. -/
theorem C170_fails_idce (p : (String → Option K) → Bool) (D : DS L K) (hD : Sized D) (c c' : L) (hc : c ∈ (query p D).caseids)
    (hc' : D.caseids[(query p D).caseids.idxOf c]? = some c') (v : String) (a : Nat) : ceValue (query p D) c v a = ceValue D c' v a := by
  have hm : c' ∈ D.caseids := List.mem_of_getElem? hc'
  have hi : D.caseids.idxOf c' = (query p D).caseids.idxOf c := by
    obtain ⟨h1, h2⟩ := List.getElem?_eq_some_iff.1 hc'
    rw [← h2]
    exact hD.distinct.idxOf_getElem _ h1
  simp only [ceValue, place, hc, hm, if_true, Option.bind_some, hi]
  exact qc_ce p D _ v a

/-- Three cases with one or two alternatives each; costs 10, 11 for the first, 20 for the second, 30 for the third. -/
def threeCases : DS Nat Nat := ⟨[101, 102, 103], [("size", [1, 2, 2])], [], [0, 1, 0, 1], [0, 2, 3, 4], [("cost", [10, 11, 20, 30])]⟩

/-- C170 fails: with the first case left out, the second is given the costs of the first. -/
theorem C170_fails_example : (query (fun g => g "size" == some 2) threeCases).caseids = [102, 103] ∧
    ceValue threeCases 102 "cost" 0 = some 20 ∧ ceValue (query (fun g => g "size" == some 2) threeCases) 102 "cost" 0 = some 10 := by decide

example : Sized threeCases := ⟨by decide, by decide, by decide, by decide⟩

example : coValue (query (fun g => g "size" == some 2) threeCases) 103 "size" = some 2 := by decide

/-! ## C171 -/

/-- C171: a named array saved in a zip file is loaded back, and no other file is touched. -/
theorem C171_zip (fs : Files V) (a : Arr V) (n path : String) (hn : a.name = some n) (hc : n ∉ a.coords) (hz : isZip path = true) :
    ∃ fs', toZarr fs a path = .ok fs' ∧ fromZarr fs' path = .ok a ∧ ∀ q, q ≠ path → fs' q = fs q := by
  refine ⟨fun q => if q = path then some ⟨[(n, a.body)], a.coords⟩ else fs q, ?_, ?_, ?_⟩
  · simp [toZarr, toDataset, hn, hc, hz]
  · obtain ⟨name, coords, body⟩ := a
    simp only at hn hc
    subst hn
    simp [fromZarr, hc]
  · intro q hq; simp [hq]

/-- C171 fails: with any other path nothing is saved, and nothing is raised. -/
theorem C171_fails_directory (fs : Files V) (a : Arr V) (path : String) (hc : ∀ n, a.name = some n → n ∉ a.coords) (hz : isZip path = false) : toZarr fs a path = .ok fs := by
  unfold toZarr toDataset
  rcases hn : a.name with _ | n
  · simp [hz]
  · simp [hc n hn, hz]

/-- C171 fails: an array without name comes back with one. -/
theorem C171_fails_unnamed (fs : Files V) (a : Arr V) (path : String) (hn : a.name = none) (hg : generic ∉ a.coords) (hz : isZip path = true) :
    ∃ fs', toZarr fs a path = .ok fs' ∧ fromZarr fs' path = .ok ⟨some generic, a.coords, a.body⟩ := by
  refine ⟨fun q => if q = path then some ⟨[(generic, a.body)], a.coords⟩ else fs q, ?_, ?_⟩
  · simp [toZarr, toDataset, hn, hz]
  · simp [fromZarr, hg]

/-- C171 fails: an array named like one of its coordinates is not saved under the generic name, as documented, but raises. -/
theorem C171_fails_coordinate (fs : Files V) (a : Arr V) (n path : String) (hn : a.name = some n) (hc : n ∈ a.coords) : toZarr fs a path = .error "ValueError" := by
  simp [toZarr, toDataset, hn, hc]

example : isZip "skims.zarr.zip" = true ∧ isZip "skims.zarr" = false := by decide

end Larch.Props
