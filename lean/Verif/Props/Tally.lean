import Verif.Model.Tally
import Mathlib.Data.List.Sort
import Mathlib.Data.List.Dedup
import Mathlib.Algebra.BigOperators.Group.List.Lemmas
import Mathlib.Algebra.Order.Field.Rat
import Mathlib.Tactic.NormNum
import Mathlib.Tactic.Ring
import Mathlib.Tactic.Linarith
/-!
# C157, C158: tallies and fast mappings
-/

namespace Larch.Props

open Larch.Tally

/-! ## Specification -/

/-- What is asked of the sorting: the same rows, larger counts first. -/
def SortsDown {α β : Type} [LE β] (sort : List (α × β) → List (α × β)) : Prop :=
  ∀ l, (sort l).Perm l ∧ (sort l).Pairwise fun a b => b.2 ≤ a.2

/-! ## Lemmas -/

section Tally

variable {α : Type} [LinearOrder α]

theorem ty_count (arr : List (Option α)) (v : α) : (present arr).count v = arr.count (some v) := by
  induction arr with
  | nil => rfl
  | cons o arr ih =>
    cases o with
    | none =>
      have : present (none :: arr) = present arr := rfl
      rw [this, ih, List.count_cons_of_ne (by simp)]
    | some w =>
      have : present (some w :: arr) = w :: present arr := rfl
      rw [this, List.count_cons, List.count_cons, ih]
      simp

theorem ty_missing (arr : List (Option α)) : missing arr = arr.count none := by
  unfold missing
  rw [List.count_eq_length_filter]
  congr 1
  apply List.filter_congr
  intro o _
  cases o <;> simp

theorem ty_mem (arr : List (Option α)) (v : α) : v ∈ present arr ↔ some v ∈ arr := by
  unfold present
  simp [List.mem_filterMap]

theorem ty_length (arr : List (Option α)) : (present arr).length + missing arr = arr.length := by
  induction arr with
  | nil => rfl
  | cons o arr ih =>
    cases o with
    | none =>
      have h1 : present (none :: arr) = present arr := rfl
      have h2 : missing (none :: arr) = missing arr + 1 := rfl
      rw [h1, h2, List.length_cons]; omega
    | some w =>
      have h1 : present (some w :: arr) = w :: present arr := rfl
      have h2 : missing (some w :: arr) = missing arr := rfl
      rw [h1, h2, List.length_cons, List.length_cons]; omega

theorem ty_total (xs : List α) : ((xs.dedup.insertionSort (· ≤ ·)).map fun v => xs.count v).sum = xs.length := by
  rw [((List.perm_insertionSort (· ≤ ·) xs.dedup).map _).sum_eq]
  exact List.sum_map_count_dedup_eq_length xs

/-- C157: a tally has one row for every value in the column, with the number of its occurrences,
and one for missing values if there are any; the rows of values come first, larger counts
before smaller ones; and the counts add up to the length of the column. -/
theorem C157_tally (sort : List (Option α × Nat) → List (Option α × Nat)) (hs : SortsDown sort) (arr : List (Option α)) :
    (∀ o n, (o, n) ∈ tally sort arr ↔ o ∈ arr ∧ n = arr.count o) ∧ ((tally sort arr).map Prod.fst).Nodup ∧
      (((tally sort arr).map Prod.snd).sum = arr.length) ∧
      ∃ rows last, tally sort arr = rows ++ last ∧ rows.Pairwise (fun a b => b.2 ≤ a.2) ∧
        (∀ r ∈ rows, r.1 ≠ none) ∧ (∀ r ∈ last, r.1 = none) := by
  set rows0 : List (Option α × Nat) := ((present arr).dedup.insertionSort (· ≤ ·)).map fun v => (some v, (present arr).count v) with hrows
  have hp := (hs rows0).1
  have hmem : ∀ o n, (o, n) ∈ sort rows0 ↔ o ≠ none ∧ o ∈ arr ∧ n = arr.count o := by
    intro o n
    rw [hp.mem_iff, hrows, List.mem_map]
    constructor
    · rintro ⟨v, hv, he⟩
      injection he with h1 h2
      subst h1
      rw [List.mem_insertionSort, List.mem_dedup, ty_mem] at hv
      exact ⟨by simp, hv, by rw [← h2, ty_count]⟩
    · rintro ⟨h0, h1, h2⟩
      cases o with
      | none => exact absurd rfl h0
      | some v => exact ⟨v, by rw [List.mem_insertionSort, List.mem_dedup, ty_mem]; exact h1, by rw [h2, ty_count]⟩
  have hlast : ∀ o n, (o, n) ∈ (if missing arr = 0 then [] else [(none, missing arr)] : List (Option α × Nat)) ↔ o = none ∧ none ∈ arr ∧ n = arr.count none := by
    intro o n
    rw [← ty_missing]
    by_cases hm : missing arr = 0
    · have : none ∉ arr := by rw [ty_missing, List.count_eq_zero] at hm; exact hm
      simp [hm, this]
    · have : none ∈ arr := by
        rw [ty_missing] at hm; exact List.count_pos_iff.1 (by omega)
      simp [hm, this]
  refine ⟨?_, ?_, ?_, sort rows0, _, rfl, (hs rows0).2, ?_, ?_⟩
  · intro o n
    unfold tally
    rw [List.mem_append, ← hrows, hmem, hlast]
    by_cases ho : o = none
    · subst ho; simp
    · simp [ho]
  · unfold tally
    rw [List.map_append, ← hrows]
    refine List.Nodup.append ?_ ?_ ?_
    · rw [(hp.map Prod.fst).nodup_iff, hrows, List.map_map]
      refine List.Nodup.map (fun a b h => by simpa using h) ?_
      rw [(List.perm_insertionSort (· ≤ ·) (present arr).dedup).nodup_iff]
      exact List.nodup_dedup _
    · split <;> simp
    · intro o h1 h2
      obtain ⟨⟨o1, n1⟩, hr1, rfl⟩ := List.mem_map.1 h1
      obtain ⟨⟨o2, n2⟩, hr2, he⟩ := List.mem_map.1 h2
      exact ((hmem _ _).1 hr1).1 ((show o2 = o1 from he) ▸ ((hlast _ _).1 hr2).1)
  · unfold tally
    rw [List.map_append, List.sum_append, ← hrows, (hp.map Prod.snd).sum_eq, hrows, List.map_map]
    have : (Prod.snd ∘ fun v : α => ((some v : Option α), (present arr).count v)) = fun v => (present arr).count v := rfl
    rw [this, ty_total, ← ty_length arr]
    congr 1
    split
    · rename_i h; rw [h]; rfl
    · simp
  · rintro ⟨o, n⟩ hr
    exact ((hmem o n).1 hr).1
  · rintro ⟨o, n⟩ hr
    exact ((hlast o n).1 hr).1

/-- C157: for a column without missing values the weighted tally has one row for every value, with
the sum of the weights at its places, larger ones first. -/
theorem C157_weighted (sort : List (Option α × ℚ) → List (Option α × ℚ)) (hs : SortsDown sort) (xs : List α) (wgt : List ℚ)
    (hl : xs.length = wgt.length) :
    ∃ rows, tallyWeighted sort (xs.map some) wgt = .ok rows ∧ (rows.map Prod.fst).Nodup ∧ rows.Pairwise (fun a b => b.2 ≤ a.2) ∧
      (∀ o w, (o, w) ∈ rows ↔ ∃ v ∈ xs, o = some v ∧ w = (((xs.zip wgt).filter fun p => decide (p.1 = v)).map Prod.snd).sum) := by
  have hpres : present (xs.map some) = xs := by
    unfold present; rw [List.filterMap_map]; simp
  have hw : ((((xs.map some).zip wgt).filter fun p => p.1.isNone).map Prod.snd).sum = 0 := by
    have : ((xs.map some).zip wgt).filter (fun p => p.1.isNone) = [] := by
      rw [List.filter_eq_nil_iff]
      rintro ⟨o, w⟩ hp
      obtain ⟨v, _, hv⟩ := List.mem_map.1 (List.of_mem_zip hp).1
      simp [← hv]
    rw [this]; rfl
  set rows0 : List (Option α × ℚ) := (xs.dedup.insertionSort (· ≤ ·)).map fun v => (some v, weightAt xs wgt v) with hrows
  have hp := (hs rows0).1
  refine ⟨sort rows0, ?_, ?_, (hs rows0).2, ?_⟩
  · unfold tallyWeighted
    rw [hpres, if_pos hl]
    simp only [hw, if_true, List.append_nil, hrows]
  · rw [(hp.map Prod.fst).nodup_iff, hrows, List.map_map]
    refine List.Nodup.map (fun a b h => by simpa using h) ?_
    rw [(List.perm_insertionSort (· ≤ ·) xs.dedup).nodup_iff]
    exact List.nodup_dedup _
  · intro o w
    rw [hp.mem_iff, hrows, List.mem_map]
    constructor
    · rintro ⟨v, hv, he⟩
      injection he with h1 h2
      rw [List.mem_insertionSort, List.mem_dedup] at hv
      exact ⟨v, hv, h1.symm, h2.symm⟩
    · rintro ⟨v, hv, h1, h2⟩
      exact ⟨v, by rw [List.mem_insertionSort, List.mem_dedup]; exact hv, by rw [h1, h2]; rfl⟩

/-- C157 fails: a weighted tally of a column with a missing value raises, although its code goes on
to count the weights of the missing values. -/
theorem C157_fails_weighted_missing (sort : List (Option α × ℚ) → List (Option α × ℚ)) (arr : List (Option α)) (wgt : List ℚ)
    (hl : arr.length = wgt.length) (hm : none ∈ arr) : tallyWeighted sort arr wgt = .error .differentLengths := by
  unfold tallyWeighted
  rw [if_neg]
  have h1 := ty_length arr
  have h2 : 0 < missing arr := by rw [ty_missing]; exact List.count_pos_iff.2 hm
  omega

/-- C157 fails: two codes with one name in the dictionary make two rows of that name. -/
theorem C157_fails_shared_name : ¬ ∀ (sort : List (Option Int × Nat) → List (Option Int × Nat)), SortsDown sort →
    ∀ d arr, ((tallyNamed sort d arr).map Prod.fst).Nodup := by
  intro h
  have hs : SortsDown (fun l : List (Option Int × Nat) => l.insertionSort fun a b => b.2 ≤ a.2) := by
    intro l
    refine ⟨List.perm_insertionSort _ l, ?_⟩
    have : Std.Total (fun a b : Option Int × Nat => b.2 ≤ a.2) := ⟨fun a b => Nat.le_total _ _⟩
    have : IsTrans (Option Int × Nat) (fun a b => b.2 ≤ a.2) := ⟨fun a b c h1 h2 => Nat.le_trans h2 h1⟩
    exact List.pairwise_insertionSort _ l
  have := h _ hs (fun _ => some 9) [some 1, some 2]
  revert this
  decide

end Tally

/-! ## Fast mappings -/

section Mapping

variable {T K V : Type} [DecidableEq K]

theorem ty_insert (m : List (K × V)) (k j : K) (v : V) : (setItem m k v).lookup j = if j = k then some v else m.lookup j := by
  induction m with
  | nil =>
    simp only [setItem]
    by_cases h : j = k
    · subst h; simp
    · have : (j == k) = false := by simpa using h
      rw [if_neg h, List.lookup_cons, this]
  | cons p rest ih =>
    obtain ⟨a, b⟩ := p
    by_cases hp : a = k
    · subst hp
      by_cases h : j = a
      · subst h; simp [setItem]
      · have : (j == a) = false := by simpa using h
        simp [setItem, List.lookup_cons, this, h]
    · by_cases h : j = k
      · subst h
        have : (j == a) = false := by simpa using fun h => hp h.symm
        simp [setItem, hp, List.lookup_cons, this, ih]
      · simp [setItem, hp, List.lookup_cons, h, ih]

theorem ty_fold (source : List (K × V)) (m : List (K × V)) (j : K) :
    (source.foldl (fun m q => setItem m q.1 q.2) m).lookup j =
      ((source.reverse.find? fun q => decide (q.1 = j)).map Prod.snd).or (m.lookup j) := by
  induction source generalizing m with
  | nil => rfl
  | cons q rest ih =>
    rw [List.foldl_cons, ih, ty_insert, List.reverse_cons, List.find?_append]
    cases hf : rest.reverse.find? fun q => decide (q.1 = j) with
    | some r => rfl
    | none =>
      by_cases hq : j = q.1
      · simp [hq]
      · have : ¬ q.1 = j := fun h => hq h.symm
        simp [hq, this]

/-- C158: a mapping made from a series with distinct labels gives for every target, in order, the
value with that label, and raises if a target is not a label. -/
theorem C158_series (source : List (K × V)) (hd : (source.map Prod.fst).Nodup) (target : List K) :
    (∀ out, applyTo id (fromSeries source) target = some out ↔ List.Forall₂ (fun t v => (t, v) ∈ source) target out) ∧
      (applyTo id (fromSeries source) target = none ↔ ∃ t ∈ target, t ∉ source.map Prod.fst) := by
  have hlook : ∀ t v, (fromSeries source).lookup t = some v ↔ (t, v) ∈ source := by
    intro t v
    unfold fromSeries
    rw [ty_fold]
    simp only [List.lookup_nil, Option.or_none, Option.map_eq_some_iff]
    constructor
    · rintro ⟨⟨a, b⟩, hf, rfl⟩
      have h1 := List.mem_of_find?_eq_some hf
      have h2 := List.find?_some hf
      simp only [decide_eq_true_eq] at h2
      subst h2
      exact List.mem_reverse.1 h1
    · intro hm
      cases hf : source.reverse.find? fun q => decide (q.1 = t) with
      | none =>
        rw [List.find?_eq_none] at hf
        exact absurd (by simp) (hf (t, v) (List.mem_reverse.2 hm))
      | some q =>
        have h1 := List.mem_reverse.1 (List.mem_of_find?_eq_some hf)
        have h2 := List.find?_some hf
        simp only [decide_eq_true_eq] at h2
        exact ⟨q, rfl, by
          have := List.inj_on_of_nodup_map hd h1 hm h2
          rw [this]⟩
  have hnone : ∀ t, (fromSeries source).lookup t = none ↔ t ∉ source.map Prod.fst := by
    intro t
    cases hl : (fromSeries source).lookup t with
    | some v => 
      have := (hlook t v).1 hl
      simp only [reduceCtorEq, false_iff, not_not]
      exact List.mem_map.2 ⟨_, this, rfl⟩
    | none =>
      simp only [true_iff]
      intro hm
      obtain ⟨⟨a, b⟩, hab, rfl⟩ := List.mem_map.1 hm
      rw [(hlook a b).2 hab] at hl
      cases hl
  constructor
  · induction target with
    | nil =>
      intro out
      simp only [applyTo, List.mapM_nil]
      cases out <;> simp
    | cons t rest ih =>
      intro out
      simp only [applyTo, List.mapM_cons, id] at ih ⊢
      cases hl : (fromSeries source).lookup t with
      | none =>
        simp only [Option.bind_eq_bind, Option.bind_none, reduceCtorEq, false_iff]
        intro hf
        cases hf with
        | cons h1 h2 => rw [(hlook t _).2 h1] at hl; cases hl
      | some v =>
        cases hr : rest.mapM fun t => (fromSeries source).lookup t with
        | none =>
          simp only [Option.bind_eq_bind, Option.bind_some, Option.bind_none, reduceCtorEq, false_iff]
          intro hf
          cases hf with
          | cons h1 h2 => rw [(ih _).2 h2] at hr; cases hr
        | some vs =>
          simp only [Option.bind_eq_bind, Option.bind_some, Option.pure_def, Option.some.injEq]
          constructor
          · rintro rfl
            exact List.Forall₂.cons ((hlook t v).1 hl) ((ih vs).1 hr)
          · intro hf
            cases hf with
            | cons h1 h2 =>
              rw [(hlook t _).2 h1] at hl
              rw [(ih _).2 h2] at hr
              injection hl with hl
              injection hr with hr
              rw [hl, hr]
  · induction target with
    | nil => simp [applyTo]
    | cons t rest ih =>
      simp only [applyTo, List.mapM_cons, id] at ih ⊢
      cases hl : (fromSeries source).lookup t with
      | none => simpa using Or.inl ((hnone t).1 hl)
      | some v =>
        have hin : ¬ t ∉ source.map Prod.fst := fun h => by rw [(hnone t).2 h] at hl; cases hl
        simp only [Option.bind_eq_bind, Option.bind_some]
        rw [show (∃ t_1 ∈ t :: rest, t_1 ∉ source.map Prod.fst) ↔ ∃ t ∈ rest, t ∉ source.map Prod.fst by
          constructor
          · rintro ⟨x, hx, hn⟩
            rcases List.mem_cons.1 hx with rfl | hx
            · exact absurd hn hin
            · exact ⟨x, hx, hn⟩
          · rintro ⟨x, hx, hn⟩
            exact ⟨x, List.mem_cons_of_mem _ hx, hn⟩, ← ih]
        cases rest.mapM fun t => (fromSeries source).lookup t <;> simp

/-- C158: a mapping made from an array with distinct entries gives the places of the targets in
it. -/
theorem C158_array (source : List K) (hd : source.Nodup) (target : List K) (ht : ∀ t ∈ target, t ∈ source) :
    applyTo id (fromArray source) target = some (target.map source.idxOf) := by
  have hd' : (source.zipIdx.map Prod.fst).Nodup := by rw [List.zipIdx_map_fst]; exact hd
  rw [fromArray, (C158_series source.zipIdx hd' target).1]
  induction target with
  | nil => exact .nil
  | cons t rest ih =>
    refine .cons ?_ (ih fun x hx => ht x (List.mem_cons_of_mem _ hx))
    have hm := ht t (by simp)
    rw [List.mem_zipIdx_iff_getElem?, List.getElem?_eq_getElem (List.idxOf_lt_length_of_mem hm)]
    simp

/-- C158: of repeated labels the last one counts. -/
theorem C158_last (source : List (K × V)) (k : K) (v : V) (rest : List (K × V)) (hr : k ∉ rest.map Prod.fst) :
    applyTo id (fromSeries (source ++ (k, v) :: rest)) [k] = some [v] := by
  have : (fromSeries (source ++ (k, v) :: rest)).lookup k = some v := by
    unfold fromSeries
    rw [ty_fold, List.reverse_append, List.reverse_cons, List.append_assoc, List.find?_append]
    have hn : rest.reverse.find? (fun q => decide (q.1 = k)) = none := by
      rw [List.find?_eq_none]
      intro q hq hc
      simp only [decide_eq_true_eq] at hc
      exact hr (List.mem_map.2 ⟨q, List.mem_reverse.1 hq, hc⟩)
    rw [hn]
    simp
  simp [applyTo, this]

/-- C158 fails: fractional targets of a mapping from whole numbers are cut down, and get the value
of a label they are not equal to. -/
theorem C158_fails_fraction (v : V) : applyTo toInt (fromSeries [((1 : Int), v)]) [3 / 2] = some [v] := by
  have : toInt (3 / 2) = 1 := by unfold toInt; norm_num; decide +kernel
  simp [applyTo, this, fromSeries, setItem]

end Mapping

/-! ## Non-vacuity -/

example : tally (fun l : List (Option Int × Nat) => l.insertionSort fun a b => b.2 ≤ a.2) [some 3, none, some 5, some 5, none] =
    [(some 5, 2), (some 3, 1), (none, 2)] := by decide

example : applyTo id (fromSeries [((7 : Int), "a"), (4, "b")]) [4, 7, 4] = some ["b", "a", "b"] := by decide

example : applyTo id (fromArray [(7 : Int), 4]) [4, 7, 5] = none := by decide

end Larch.Props
