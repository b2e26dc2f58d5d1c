import Verif.Model.Request
import Mathlib.Data.Rat.Defs
import Mathlib.Algebra.Order.Ring.Rat
import Mathlib.Data.Int.Cast.Defs

/-!
# C85: a model is given the data it specifies

The full property: loading data for a model gives, for every case and every alternative, the values of the expressions the
model specifies: columns for its utility functions, choices, availability and weights; and an expression that cannot be
evaluated is an error.  Both engines should load the same.
-/

namespace Larch.Props

open Larch.Request

section request

theorem mem_keysOf {α : Type} [DecidableEq α] (l : List α) (x : α) : x ∈ keysOf l ↔ x ∈ l := by
  induction l with
  | nil => simp [keysOf]
  | cons a t ih =>
    simp only [keysOf, List.mem_cons, List.mem_filter, decide_eq_true_eq, ih]
    by_cases h : x = a <;> simp [h]

theorem keysOf_nodup {α : Type} [DecidableEq α] (l : List α) : (keysOf l).Nodup := by
  induction l with
  | nil => simp [keysOf]
  | cons a t ih =>
    simp only [keysOf, List.nodup_cons, List.mem_filter, decide_eq_true_eq]
    exact ⟨fun h => h.2 rfl, ih.filter _⟩

theorem keysOf_eq_self {α : Type} [DecidableEq α] {l : List α} (h : l.Nodup) : keysOf l = l := by
  induction l with
  | nil => rfl
  | cons a t ih =>
    rw [List.nodup_cons] at h
    simp only [keysOf, ih h.2]
    congr 1
    rw [List.filter_eq_self]
    intro x hx
    simp only [decide_eq_true_eq]
    rintro rfl
    exact h.1 hx

theorem keysOf_length_le {α : Type} [DecidableEq α] (l : List α) : (keysOf l).length ≤ l.length := by
  induction l with
  | nil => simp [keysOf]
  | cons a t ih =>
    simp only [keysOf, List.length_cons]
    have := List.length_filter_le (fun x => decide (x ≠ a)) (keysOf t)
    omega

/-- A repeated element makes the list of keys shorter. -/
theorem keysOf_length_lt {α : Type} [DecidableEq α] {l : List α} (h : ¬ l.Nodup) : (keysOf l).length < l.length := by
  induction l with
  | nil => exact absurd List.nodup_nil h
  | cons a t ih =>
    simp only [keysOf, List.length_cons]
    have h0 := List.length_filter_le (fun x => decide (x ≠ a)) (keysOf t)
    have h1 := keysOf_length_le t
    by_cases ht : t.Nodup
    · have ha : a ∈ t := by
        by_contra hc
        exact h (List.nodup_cons.2 ⟨hc, ht⟩)
      rw [keysOf_eq_self ht]
      have hlt : (t.filter (fun x => decide (x ≠ a))).length < t.length := by
        rw [List.length_filter_lt_length_iff_exists]
        exact ⟨a, ha, by simp⟩
      omega
    · have := ih ht
      omega

theorem sortedSet_spec (l : List String) :
    (∀ x, x ∈ sortedSet l ↔ x ∈ l) ∧ (sortedSet l).Nodup ∧ (sortedSet l).Pairwise (· ≤ ·) := by
  unfold sortedSet
  refine ⟨fun x => ?_, ?_, List.pairwise_insertionSort _ _⟩
  · rw [List.mem_insertionSort, mem_keysOf]
  · exact (List.perm_insertionSort _ _).nodup_iff.2 (keysOf_nodup l)

/-- C85, the request: the `idca` data requested are exactly the data of the utility and quantity functions of
alternatives, each once. -/
theorem C85_required_ca (m : Spec) :
    ((required m).ca = none ↔ m.utilityCa = [] ∧ m.quantityCa = []) ∧
    ∀ l, (required m).ca = some l → l.Nodup ∧ ∀ d, d ∈ l ↔ d ∈ m.utilityCa ∨ d ∈ m.quantityCa := by
  unfold required
  by_cases h : m.utilityCa = [] ∧ m.quantityCa = []
  · simp [h]
  · simp only [h, if_false, reduceCtorEq, Option.some.injEq, true_and]
    rintro l rfl
    obtain ⟨h1, h2, -⟩ := sortedSet_spec (m.utilityCa ++ m.quantityCa)
    exact ⟨h2, fun d => by rw [h1, List.mem_append]⟩

/-- C85, the request: the `idco` data requested are exactly the data of the utility functions of cases, each once, but for
the constant `1`. -/
theorem C85_required_co (m : Spec) :
    ((required m).co = none ↔ m.utilityCo = []) ∧
    ∀ l, (required m).co = some l → l.Nodup ∧ ∀ d, d ∈ l ↔ d ≠ "1" ∧ ∃ a f, (a, f) ∈ m.utilityCo ∧ d ∈ f := by
  unfold required
  by_cases h : m.utilityCo = []
  · simp [h]
  · simp only [h, if_false, reduceCtorEq, Option.some.injEq, true_and]
    rintro l rfl
    obtain ⟨h1, h2, -⟩ := sortedSet_spec ((m.utilityCo.flatMap Prod.snd).filter (fun d => decide (d ≠ "1")))
    refine ⟨h2, fun d => ?_⟩
    rw [h1, List.mem_filter, List.mem_flatMap]
    constructor
    · rintro ⟨⟨⟨a, f⟩, hm, hd⟩, hne⟩
      exact ⟨by simpa using hne, a, f, hm, hd⟩
    · rintro ⟨hne, a, f, hm, hd⟩
      exact ⟨⟨(a, f), hm, hd⟩, by simpa using hne⟩

/-- C85, the request: choices and availability are requested as specified when one way is specified (the setters allow only
one, C43); weights are requested exactly if specified. -/
theorem C85_required_aux (m : Spec) :
    (∀ e, e ≠ "" → m.choiceCaVar = e → (required m).choice = some (.ca e)) ∧
    (∀ v, v ≠ [] → m.choiceCaVar = "" → m.choiceCoVars = v → (required m).choice = some (.co v)) ∧
    (∀ e, e ≠ "" → m.choiceCaVar = "" → m.choiceCoVars = [] → m.choiceCoCode = e →
      (required m).choice = some (.code e)) ∧
    (m.choiceCaVar = "" → m.choiceCoVars = [] → m.choiceCoCode = "" →
      (required m).choice = if m.choiceAny then some .any else none) ∧
    (∀ e, e ≠ "" → m.availabilityVar = e → (required m).avail = some (.ca e)) ∧
    (∀ v, v ≠ [] → m.availabilityVar = "" → m.availabilityCoVars = v → (required m).avail = some (.co v)) ∧
    (m.availabilityVar = "" → m.availabilityCoVars = [] →
      (required m).avail = if m.availabilityAny then some .any else none) ∧
    (∀ e, (required m).weight = some e ↔ e ≠ "" ∧ m.weightCoVar = e) := by
  refine ⟨?_, ?_, ?_, ?_, ?_, ?_, ?_, ?_⟩
  · rintro e he h; simp [required, h, he]
  · rintro v hv h1 h2; simp [required, h1, h2, hv]
  · rintro e he h1 h2 h3; simp [required, h1, h2, h3, he]
  · rintro h1 h2 h3; simp [required, h1, h2, h3]
  · rintro e he h; simp [required, h, he]
  · rintro v hv h1 h2; simp [required, h1, h2, hv]
  · rintro h1 h2; simp [required, h1, h2]
  · intro e
    by_cases h : m.weightCoVar = ""
    · simp [required, h]
    · constructor
      · intro h'
        simp [required, h] at h'
        exact ⟨h' ▸ h, h'⟩
      · rintro ⟨-, rfl⟩
        simp [required, h]

end request

section evaluate
variable {α β : Type}

theorem evalAll_ok {ev : String → Option β} : ∀ {l : List (α × String)} {r : List (α × β)}, evalAll ev l = .ok r →
    r.length = l.length ∧ ∀ (j : Nat) (a : α) (e : String), l[j]? = some (a, e) →
      ∃ v, ev e = some v ∧ r[j]? = some (a, v) := by
  intro l r h
  unfold evalAll at h
  split at h
  · cases h
  · rename_i r' hm
    injection h with h
    subst h
    clear * - hm
    induction l generalizing r' with
    | nil =>
      simp only [List.mapM_nil, Option.pure_def, Option.some.injEq] at hm
      subst hm
      simp
    | cons p t ih =>
      rw [List.mapM_cons] at hm
      simp only [Option.bind_eq_bind, Option.pure_def, Option.bind_eq_some_iff, Option.map_eq_some_iff] at hm
      obtain ⟨q, ⟨v, hv, rfl⟩, t', ht, h⟩ := hm
      injection h with h
      subst h
      obtain ⟨hl, hg⟩ := ih _ ht
      refine ⟨by simp [hl], fun j a e hj => ?_⟩
      cases j with
      | zero =>
        simp only [List.getElem?_cons_zero, Option.some.injEq] at hj
        subst hj
        exact ⟨v, hv, rfl⟩
      | succ j =>
        simp only [List.getElem?_cons_succ] at hj ⊢
        exact hg j a e hj

theorem evalAll_total {ev : String → Option β} : ∀ {l : List (α × String)}, (∀ p ∈ l, (ev p.2).isSome) →
    ∃ r, evalAll ev l = .ok r := by
  intro l h
  unfold evalAll
  have : ∃ r, l.mapM (fun p => (ev p.2).map (fun v => (p.1, v))) = some r := by
    induction l with
    | nil => exact ⟨[], rfl⟩
    | cons p t ih =>
      obtain ⟨r, hr⟩ := ih (fun q hq => h q (List.mem_cons_of_mem _ hq))
      obtain ⟨v, hv⟩ := Option.isSome_iff_exists.1 (h p List.mem_cons_self)
      refine ⟨(p.1, v) :: r, ?_⟩
      rw [List.mapM_cons, hr, hv]
      rfl
  obtain ⟨r, hr⟩ := this
  rw [hr]
  exact ⟨r, rfl⟩

theorem evalAll_name {ev : String → Option β} : ∀ {l : List (α × String)} {p : α × String}, p ∈ l → ev p.2 = none →
    evalAll ev l = .error .name := by
  intro l p hp hn
  cases h : evalAll ev l with
  | ok r =>
    obtain ⟨j, hj⟩ := List.getElem?_of_mem hp
    obtain ⟨v, hv, -⟩ := (evalAll_ok h).2 j p.1 p.2 hj
    rw [hn] at hv
    cases hv
  | error e =>
    unfold evalAll at h
    split at h
    · injection h with h; rw [h]
    · cases h

end evaluate

section columns
variable {β : Type}

/-- C85, columns of data: with every name evaluable, there is exactly one column for each requested name, with its
values. -/
theorem C85_columns (arrow : Bool) (ev : String → Option β) (l : List String) (hev : ∀ e ∈ l, (ev e).isSome) :
    ∃ cols, columnizeList arrow ev l = .ok cols ∧ (cols.map Prod.fst).Nodup ∧
      (∀ k, k ∈ cols.map Prod.fst ↔ k ∈ l) ∧ ∀ k v, (k, v) ∈ cols → ev k = some v := by
  have key : ∀ keys : List String, keys.Nodup → (∀ k, k ∈ keys ↔ k ∈ l) →
      ∃ cols, evalAll ev (keys.map (fun k => (k, k))) = .ok cols ∧ (cols.map Prod.fst).Nodup ∧
        (∀ k, k ∈ cols.map Prod.fst ↔ k ∈ l) ∧ ∀ k v, (k, v) ∈ cols → ev k = some v := by
    intro keys hnd hmem
    obtain ⟨cols, hc⟩ := evalAll_total (ev := ev) (l := keys.map (fun k => (k, k))) (by
      intro p hp
      obtain ⟨k, hk, rfl⟩ := List.mem_map.1 hp
      exact hev k ((hmem k).1 hk))
    obtain ⟨hl, hg⟩ := evalAll_ok hc
    have hfst : cols.map Prod.fst = keys := by
      apply List.ext_getElem?
      intro j
      rw [List.getElem?_map]
      cases hk : keys[j]? with
      | none =>
        have : cols[j]? = none := by
          rw [List.getElem?_eq_none_iff] at hk ⊢
          simp only [List.length_map] at hl
          omega
        rw [this]; rfl
      | some k =>
        obtain ⟨v, -, hv⟩ := hg j k k (by simp [hk])
        rw [hv]; rfl
    refine ⟨cols, hc, by rw [hfst]; exact hnd, by rw [hfst]; exact hmem, ?_⟩
    intro k v hkv
    obtain ⟨j, hj⟩ := List.getElem?_of_mem hkv
    have hlt := (List.getElem?_eq_some_iff.1 hj).1
    simp only [List.length_map] at hl
    obtain ⟨v', hv', hv''⟩ := hg j (keys[j]'(by omega)) (keys[j]'(by omega)) (by simp [List.getElem?_eq_getElem (show j < keys.length by omega)])
    rw [hj] at hv''
    injection hv'' with hv''
    injection hv'' with h1 h2
    rw [h1, h2, hv']
  unfold columnizeList
  cases arrow with
  | true =>
    obtain ⟨h1, h2, -⟩ := sortedSet_spec l
    exact key _ h2 h1
  | false => exact key _ (keysOf_nodup l) (mem_keysOf l)

/-- C85, columns of data: an unknown name is an error. -/
theorem C85_columns_unknown (arrow : Bool) (ev : String → Option β) (l : List String) {e : String} (he : e ∈ l)
    (hn : ev e = none) : columnizeList arrow ev l = .error .name := by
  unfold columnizeList
  refine evalAll_name (p := (e, e)) ?_ hn
  refine List.mem_map.2 ⟨e, ?_, rfl⟩
  cases arrow with
  | true => exact ((sortedSet_spec l).1 e).2 he
  | false => exact (mem_keysOf l e).2 he

end columns

section compiled
variable {K : Type} [Ring K] [DecidableEq K]

/-- C85, the compiled engine, choices by code: for every case and alternative, 1 if the code of the case is the code of the
alternative and 0 otherwise; an unknown name is an error. -/
theorem C85_choice_code (arrow explicit : Bool) (src : Source K) (e : String) :
    (src.co e = none → loadChoice arrow explicit src (some (.code e)) = .error .name) ∧
    (∀ code, src.co e = some code → ∃ t, loadChoice arrow explicit src (some (.code e)) = .ok (some t) ∧
      ∀ (i j : Nat) (a : Int), src.alts[j]? = some a → t i j = if code i = (a : K) then 1 else 0) := by
  constructor
  · intro h; simp [loadChoice, chooseCode, h]
  · intro code h
    refine ⟨_, by simp only [loadChoice, chooseCode, h]; rfl, ?_⟩
    intro i j a ha
    simp [ha]

/-- The columns that `columnize` makes for the expressions `es`, by position. -/
theorem columnizeList_get {β : Type} {arrow : Bool} {ev : String → Option β} {es : List String} {cols : List (String × β)}
    (h : columnizeList arrow ev es = .ok cols) {j : Nat} {e : String}
    (he : (if arrow then (keysOf es).insertionSort (· ≤ ·) else keysOf es)[j]? = some e) :
    ∃ v, ev e = some v ∧ cols[j]? = some (e, v) := by
  unfold columnizeList at h
  exact (evalAll_ok h).2 j e e (by simp [he])

/-- C85, the compiled engine, choices by expressions for alternatives, the part that holds: if the expressions, in the
order of the alternatives, are in strictly increasing alphabetical order (or, without `pyarrow`, just different), every
alternative gets the values of its own expression.  Missing: any other order (`C85_fails_choice_co_order`) and shared
expressions (`C85_fails_choice_co_shared`). -/
theorem C85_choice_co_partial (arrow explicit : Bool) (src : Source K) (m : List (Int × String))
    (hsorted : (src.alts.map (fun a => (m.lookup a).getD "0")).Pairwise (fun e e' => if arrow then e < e' else e ≠ e'))
    (hev : ∀ a ∈ src.alts, (src.co ((m.lookup a).getD "0")).isSome) :
    ∃ t, loadChoice arrow explicit src (some (.co m)) = .ok (some t) ∧
      ∀ (j : Nat) a, src.alts[j]? = some a → ∃ v, src.co ((m.lookup a).getD "0") = some v ∧ ∀ i, t i j = v i := by
  have hE : src.alts.map (exprOf m) = src.alts.map (fun a => (m.lookup a).getD "0") := rfl
  have hnd : (src.alts.map (exprOf m)).Nodup := by
    rw [hE]
    refine hsorted.imp ?_
    intro e e' h
    cases arrow with
    | true => simp only [if_true] at h; exact ne_of_lt h
    | false => simpa using h
  have hkeys : (if arrow then (keysOf (src.alts.map (exprOf m))).insertionSort (· ≤ ·) else
      keysOf (src.alts.map (exprOf m))) = src.alts.map (exprOf m) := by
    rw [keysOf_eq_self hnd]
    cases arrow with
    | false => rfl
    | true =>
      simp only [if_true]
      refine List.Pairwise.insertionSort_eq ?_
      rw [hE]
      exact hsorted.imp (fun h => by simp only [if_true] at h; exact le_of_lt h)
  obtain ⟨cols, hc, -, -, -⟩ := C85_columns arrow src.co (src.alts.map (exprOf m)) (by
    intro e he
    obtain ⟨a, ha, rfl⟩ := List.mem_map.1 he
    exact hev a ha)
  have hlen : cols.length = src.alts.length := by
    have h1 := hc
    unfold columnizeList at h1
    rw [hkeys] at h1
    have := (evalAll_ok h1).1
    simpa using this
  refine ⟨table (cols.map Prod.snd), ?_, ?_⟩
  · simp only [loadChoice, chooseCo, hc, hlen, if_true]
  · intro j a ha
    obtain ⟨v, hv, hcv⟩ := columnizeList_get hc (j := j) (e := exprOf m a) (by rw [hkeys]; simp [ha])
    exact ⟨v, hv, fun i => by simp [table, hcv]⟩

/-- C85 fails in the compiled engine (with `pyarrow`): whenever the expressions of the alternatives are different but not in
alphabetical order, some alternative gets the choices of another one's expression. -/
theorem C85_fails_choice_co_order (explicit : Bool) (src : Source K) (m : List (Int × String))
    (hnd : (src.alts.map (fun a => (m.lookup a).getD "0")).Nodup)
    (hns : ¬ (src.alts.map (fun a => (m.lookup a).getD "0")).Pairwise (· ≤ ·))
    (hev : ∀ a ∈ src.alts, (src.co ((m.lookup a).getD "0")).isSome) :
    ∃ t, loadChoice true explicit src (some (.co m)) = .ok (some t) ∧
      ∃ (j : Nat) (a a' : Int), src.alts[j]? = some a ∧ a' ∈ src.alts ∧ a' ≠ a ∧
        ∃ v, src.co ((m.lookup a').getD "0") = some v ∧ ∀ i, t i j = v i := by
  have hE : src.alts.map (exprOf m) = src.alts.map (fun a => (m.lookup a).getD "0") := rfl
  set es := src.alts.map (exprOf m) with hes
  set ss := es.insertionSort (· ≤ ·) with hss
  have hkeys : (if true then (keysOf es).insertionSort (· ≤ ·) else keysOf es) = ss := by
    simp only [if_true]
    rw [keysOf_eq_self (hE ▸ hnd)]
  obtain ⟨cols, hc, -, -, -⟩ := C85_columns true src.co es (by
    intro e he
    obtain ⟨a, ha, rfl⟩ := List.mem_map.1 he
    exact hev a ha)
  have hslen : ss.length = src.alts.length := by simp [hss, hes]
  have hlen : cols.length = src.alts.length := by
    have h1 := hc
    unfold columnizeList at h1
    rw [hkeys] at h1
    have := (evalAll_ok h1).1
    simpa [hslen] using this
  have hne : ss ≠ es := by
    intro h
    apply hns
    rw [← hE, ← h]
    exact List.pairwise_insertionSort _ _
  obtain ⟨j, hj⟩ : ∃ j : Nat, ss[j]? ≠ es[j]? := by
    by_contra hcon
    push Not at hcon
    exact hne (List.ext_getElem? hcon)
  have hjlt : j < src.alts.length := by
    by_contra hcon
    apply hj
    rw [List.getElem?_eq_none (by rw [hslen]; omega), List.getElem?_eq_none (by simp [hes]; omega)]
  have hjs : j < ss.length := by omega
  have hsj : ss[j]? = some (ss[j]'hjs) := List.getElem?_eq_getElem _
  have hmem : ss[j]'hjs ∈ es := (List.mem_insertionSort _).1 (List.getElem_mem hjs)
  obtain ⟨a', ha', hea'⟩ := List.mem_map.1 hmem
  refine ⟨table (cols.map Prod.snd), ?_, j, src.alts[j], a', List.getElem?_eq_getElem hjlt, ha', ?_, ?_⟩
  · simp only [loadChoice, chooseCo]
    rw [← hes, hc]
    simp only [hlen, if_true]
  · rintro rfl
    apply hj
    rw [hsj, ← hea', hes]
    simp [List.getElem?_eq_getElem hjlt]
  · obtain ⟨v, hv, hcv⟩ := columnizeList_get hc (j := j) (e := exprOf m a') (by rw [hkeys, hsj, hea'])
    exact ⟨v, hv, fun i => by simp [table, hcv]⟩

/-- C85 fails in the compiled engine: if two alternatives have the same expression (for instance none, which means `0`), the
choices cannot be loaded, with or without `pyarrow`. -/
theorem C85_fails_choice_co_shared (arrow explicit : Bool) (src : Source K) (m : List (Int × String))
    (hshared : ¬ (src.alts.map (fun a => (m.lookup a).getD "0")).Nodup)
    (hev : ∀ a ∈ src.alts, (src.co ((m.lookup a).getD "0")).isSome) :
    loadChoice arrow explicit src (some (.co m)) = .error .size := by
  have hE : src.alts.map (exprOf m) = src.alts.map (fun a => (m.lookup a).getD "0") := rfl
  obtain ⟨cols, hc, -, -, -⟩ := C85_columns arrow src.co (src.alts.map (exprOf m)) (by
    intro e he
    obtain ⟨a, ha, rfl⟩ := List.mem_map.1 he
    exact hev a ha)
  have hlen : cols.length < src.alts.length := by
    have h1 := hc
    unfold columnizeList at h1
    have h2 := (evalAll_ok h1).1
    have h3 := keysOf_length_lt (hE ▸ hshared)
    simp only [List.length_map] at h2 h3
    rw [h2]
    cases arrow with
    | true => exact lt_of_eq_of_lt (List.length_insertionSort _ _) h3
    | false => exact h3
  have hne : ¬ cols.length = src.alts.length := by omega
  simp only [loadChoice, chooseCo, hc, hne, if_false]

/-- C85 fails in the compiled engine: an unknown name in a specification of choices is not an error: the choices that happen
to be set already (or none at all) are used. -/
theorem C85_fails_choice_unknown (arrow explicit : Bool) (src : Source K) :
    (∀ m : List (Int × String), (∃ a ∈ src.alts, src.co ((m.lookup a).getD "0") = none) →
      loadChoice arrow explicit src (some (.co m)) = .ok src.ch) ∧
    (∀ e, src.ca e = none → loadChoice arrow explicit src (some (.ca e)) = .ok src.ch) := by
  constructor
  · rintro m ⟨a, ha, hn⟩
    have := C85_columns_unknown arrow src.co (src.alts.map (exprOf m)) (List.mem_map.2 ⟨a, ha, rfl⟩) hn
    simp only [loadChoice, chooseCo, this]
  · intro e he
    simp only [loadChoice, chooseCa, he]
    split <;> rfl

/-- C85, the compiled engine, choices by an `idca` expression: its values, unless the name is the recorded name of the
choices already set. -/
theorem C85_choice_ca (arrow explicit : Bool) (src : Source K) {e : String} {v : Nat → Nat → K} (hv : src.ca e = some v)
    (hname : src.chName ≠ some e) : loadChoice arrow explicit src (some (.ca e)) = .ok (some v) := by
  simp [loadChoice, chooseCa, hv, hname]

/-- C85, the compiled engine, weights: the values of the expression, not normalized. -/
theorem C85_weight (explicit : Bool) (src : Source K) {e : String} {v : Nat → K} (hv : src.co e = some v) :
    loadWeight explicit src (some e) = (some v, 1) := by
  simp [loadWeight, hv]

/-- C85 fails in the compiled engine: an unknown name in the specification of weights is not an error: the weights that
happen to be set already (or none) are used. -/
theorem C85_fails_weight_unknown (explicit : Bool) (src : Source K) {e : String} (hv : src.co e = none) :
    loadWeight explicit src (some e) = (src.wt, src.wtNorm) := by
  simp [loadWeight, hv]

/-- C85, the compiled engine, availability by expressions for alternatives, the part that holds: if the codes are in
increasing order (or without `pyarrow`), every alternative gets the values of its own expression, 0 without one; an unknown
name is an error.  Missing: codes in another order (`C85_fails_avail_co_order`). -/
theorem C85_avail_co_partial (arrow explicit : Bool) (src : Source K) (m : List (Int × String)) (hne : src.alts ≠ [])
    (hsorted : arrow = true → src.alts.Pairwise (· ≤ ·)) :
    ((∃ a ∈ src.alts, src.co ((m.lookup a).getD "0") = none) →
      loadAvail arrow explicit src (some (.co m)) = .error .name) ∧
    ((∀ a ∈ src.alts, (src.co ((m.lookup a).getD "0")).isSome) →
      ∃ t, loadAvail arrow explicit src (some (.co m)) = .ok (some t) ∧
        ∀ (j : Nat) a, src.alts[j]? = some a → ∃ v, src.co ((m.lookup a).getD "0") = some v ∧ ∀ i, t i j = v i) := by
  set l := src.alts.map (fun a => (a, exprOf m a)) with hl
  have hkeys : (if arrow then l.insertionSort (fun p q => p.1 ≤ q.1) else l) = l := by
    cases arrow with
    | false => rfl
    | true =>
      simp only [if_true]
      refine List.Pairwise.insertionSort_eq ?_
      rw [hl, List.pairwise_map]
      exact hsorted rfl
  constructor
  · rintro ⟨a, ha, hn⟩
    simp only [loadAvail, availCo, hne, if_false, columnizeMap]
    rw [← hl, hkeys, evalAll_name (p := (a, exprOf m a)) (List.mem_map.2 ⟨a, ha, rfl⟩) hn]
  · intro hev
    obtain ⟨cols, hc⟩ := evalAll_total (ev := src.co) (l := l) (by
      intro p hp
      obtain ⟨a, ha, rfl⟩ := List.mem_map.1 hp
      exact hev a ha)
    refine ⟨table (cols.map Prod.snd), ?_, ?_⟩
    · simp only [loadAvail, availCo, hne, if_false, columnizeMap]
      rw [← hl, hkeys, hc]
    · intro j a ha
      obtain ⟨v, hv, hcv⟩ := (evalAll_ok hc).2 j a (exprOf m a) (by simp [hl, ha])
      exact ⟨v, hv, fun i => by simp [table, hcv]⟩

/-- C85 fails in the compiled engine (with `pyarrow`): whenever the alternative codes are not in increasing order, some
alternative gets the availability of another one. -/
theorem C85_fails_avail_co_order (explicit : Bool) (src : Source K) (m : List (Int × String)) 
    (hns : ¬ src.alts.Pairwise (· ≤ ·)) (hev : ∀ a ∈ src.alts, (src.co ((m.lookup a).getD "0")).isSome) :
    ∃ t, loadAvail true explicit src (some (.co m)) = .ok (some t) ∧
      ∃ (j : Nat) (a a' : Int), src.alts[j]? = some a ∧ a' ∈ src.alts ∧ a' ≠ a ∧
        ∃ v, src.co ((m.lookup a').getD "0") = some v ∧ ∀ i, t i j = v i := by
  set l := src.alts.map (fun a => (a, exprOf m a)) with hl
  set s := l.insertionSort (fun p q => p.1 ≤ q.1) with hs
  have hperm : s.Perm l := List.perm_insertionSort _ _
  obtain ⟨cols, hc⟩ := evalAll_total (ev := src.co) (l := s) (by
    intro p hp
    obtain ⟨a, ha, rfl⟩ := List.mem_map.1 (hperm.mem_iff.1 hp)
    exact hev a ha)
  have hne0 : src.alts ≠ [] := by
    intro h
    apply hns
    rw [h]
    exact List.Pairwise.nil
  have hfst : s.map Prod.fst ≠ src.alts := by
    intro h
    apply hns
    rw [← h, List.pairwise_map]
    haveI : Std.Total (fun p q : Int × String => p.1 ≤ q.1) := ⟨fun p q => le_total p.1 q.1⟩
    haveI : IsTrans (Int × String) (fun p q => p.1 ≤ q.1) := ⟨fun p q r h1 h2 => le_trans h1 h2⟩
    exact List.pairwise_insertionSort _ _
  obtain ⟨j, hj⟩ : ∃ j : Nat, (s.map Prod.fst)[j]? ≠ src.alts[j]? := by
    by_contra hcon
    push Not at hcon
    exact hfst (List.ext_getElem? hcon)
  have hslen : s.length = src.alts.length := by simp [hs, hl]
  have hjlt : j < src.alts.length := by
    by_contra hcon
    apply hj
    rw [List.getElem?_eq_none (by simp; omega), List.getElem?_eq_none (by omega)]
  have hsj : s[j]? = some (s[j]'(by omega)) := List.getElem?_eq_getElem _
  have hmem : s[j]'(by omega) ∈ l := hperm.mem_iff.1 (List.getElem_mem (by omega))
  obtain ⟨a', ha', hea'⟩ := List.mem_map.1 hmem
  refine ⟨table (cols.map Prod.snd), ?_, j, src.alts[j], a', List.getElem?_eq_getElem hjlt, ha', ?_, ?_⟩
  · simp only [loadAvail, availCo, hne0, if_false, columnizeMap, if_true]
    rw [← hl, ← hs, hc]
  · rintro rfl
    apply hj
    rw [List.getElem?_map, hsj, ← hea']
    simp [List.getElem?_eq_getElem hjlt]
  · obtain ⟨v, hv, hcv⟩ := (evalAll_ok hc).2 j a' (exprOf m a') (by rw [hsj, hea'])
    exact ⟨v, hv, fun i => by simp [table, hcv]⟩

end compiled

section numba
variable {K : Type} [Ring K] [DecidableEq K]

theorem mapM_get {α β : Type} {g : α → Option β} : ∀ {l : List α} {r : List β}, l.mapM g = some r →
    ∀ (j : Nat) (x : α), l[j]? = some x → ∃ y, g x = some y ∧ r[j]? = some y := by
  intro l
  induction l with
  | nil => intro r _ j x hx; simp at hx
  | cons a t ih =>
    intro r h j x hx
    rw [List.mapM_cons] at h
    simp only [Option.bind_eq_bind, Option.pure_def, Option.bind_eq_some_iff] at h
    obtain ⟨b, hb, t', ht, h⟩ := h
    injection h with h
    subst h
    cases j with
    | zero => simp only [List.getElem?_cons_zero, Option.some.injEq] at hx; subst hx; exact ⟨b, hb, rfl⟩
    | succ j => simp only [List.getElem?_cons_succ] at hx ⊢; exact ih ht j x hx

theorem mapM_total {α β : Type} {g : α → Option β} : ∀ {l : List α}, (∀ x ∈ l, (g x).isSome) → ∃ r, l.mapM g = some r := by
  intro l
  induction l with
  | nil => intro _; exact ⟨[], rfl⟩
  | cons a t ih =>
    intro h
    obtain ⟨r, hr⟩ := ih (fun q hq => h q (List.mem_cons_of_mem _ hq))
    obtain ⟨v, hv⟩ := Option.isSome_iff_exists.1 (h a List.mem_cons_self)
    refine ⟨v :: r, ?_⟩
    rw [List.mapM_cons, hr, hv]
    rfl

theorem mapM_none {α β : Type} {g : α → Option β} {l : List α} {x : α} (hx : x ∈ l) (hn : g x = none) :
    l.mapM g = none := by
  cases h : l.mapM g with
  | none => rfl
  | some r =>
    obtain ⟨j, hj⟩ := List.getElem?_of_mem hx
    obtain ⟨y, hy, -⟩ := mapM_get h j x hj
    rw [hn] at hy
    cases hy

/-- C85, the numba engine, choices by expressions for alternatives: whatever the order of the codes and of the
expressions, every alternative gets the values of its own expression; an unknown name is an error, and so is an alternative
without an expression. -/
theorem C85_numba_choice_co (alts : List Int) (co : String → Option (Nat → K)) (m : List (Int × String)) :
    ((∃ a ∈ alts, m.lookup a = none) → nbChooseCo alts co m = .error .key) ∧
    ((∀ a ∈ alts, (m.lookup a).isSome) → (∃ a ∈ alts, ∃ e, m.lookup a = some e ∧ co e = none) →
      nbChooseCo alts co m = .error .name) ∧
    ((∀ a ∈ alts, ∃ e, m.lookup a = some e ∧ (co e).isSome) →
      ∃ t, nbChooseCo alts co m = .ok t ∧
        ∀ (j : Nat) a, alts[j]? = some a → ∃ e v, m.lookup a = some e ∧ co e = some v ∧ ∀ i, t i j = v i) := by
  refine ⟨?_, ?_, ?_⟩
  · rintro ⟨a, ha, hn⟩
    simp only [nbChooseCo]
    rw [mapM_none ha hn]
  · rintro hall ⟨a, ha, e, he, hn⟩
    obtain ⟨es, hes⟩ := mapM_total (g := fun a => m.lookup a) hall
    obtain ⟨j, hj⟩ := List.getElem?_of_mem ha
    obtain ⟨e', he', hj'⟩ := mapM_get hes j a hj
    rw [he] at he'
    injection he' with he'
    subst he'
    simp only [nbChooseCo, hes]
    rw [mapM_none (List.mem_of_getElem? hj') hn]
  · intro hall
    obtain ⟨es, hes⟩ := mapM_total (g := fun a => m.lookup a) (l := alts) (fun a ha => by
      obtain ⟨e, he, -⟩ := hall a ha
      simp [he])
    obtain ⟨cols, hcols⟩ : ∃ r, es.mapM co = some r := by
      refine mapM_total ?_
      intro e he
      obtain ⟨j, hj⟩ := List.getElem?_of_mem he
      have hlen : es.length = alts.length := by
        have := congrArg (Option.map List.length) hes
        clear * - hes
        induction alts generalizing es with
        | nil => simp only [List.mapM_nil, Option.pure_def, Option.some.injEq] at hes; subst hes; rfl
        | cons a t ih =>
          rw [List.mapM_cons] at hes
          simp only [Option.bind_eq_bind, Option.pure_def, Option.bind_eq_some_iff] at hes
          obtain ⟨b, hb, t', ht, h⟩ := hes
          injection h with h
          subst h
          simp [ih _ ht]
      have hjlt : j < alts.length := by
        have := (List.getElem?_eq_some_iff.1 hj).1
        omega
      obtain ⟨e', he', hj'⟩ := mapM_get hes j alts[j] (List.getElem?_eq_getElem hjlt)
      rw [hj] at hj'
      injection hj' with hj'
      subst hj'
      obtain ⟨e2, h2, h3⟩ := hall alts[j] (List.getElem_mem hjlt)
      rw [he'] at h2
      injection h2 with h2
      subst h2
      exact h3
    refine ⟨table cols, by simp only [nbChooseCo, hes, hcols], ?_⟩
    intro j a ha
    obtain ⟨e, he, hj⟩ := mapM_get hes j a ha
    obtain ⟨v, hv, hjv⟩ := mapM_get hcols j e hj
    exact ⟨e, v, he, hv, fun i => by simp [table, hjv]⟩

/-- C85, the numba engine, availability: whatever the order of the codes, every alternative gets the values of its own
expression, or of `0`; an unknown name is an error. -/
theorem C85_numba_avail_co (alts : List Int) (co : String → Option (Nat → K)) (m : List (Int × String)) :
    ((∃ a ∈ alts, co ((m.lookup a).getD "0") = none) → nbAvailCo alts co m = .error .name) ∧
    ((∀ a ∈ alts, (co ((m.lookup a).getD "0")).isSome) →
      ∃ t, nbAvailCo alts co m = .ok t ∧
        ∀ (j : Nat) a, alts[j]? = some a → ∃ v, co ((m.lookup a).getD "0") = some v ∧ ∀ i, t i j = v i) := by
  constructor
  · rintro ⟨a, ha, hn⟩
    simp only [nbAvailCo]
    rw [mapM_none (g := fun a => co (exprOf m a)) ha hn]
  · intro hall
    obtain ⟨cols, hcols⟩ := mapM_total (g := fun a => co (exprOf m a)) hall
    refine ⟨table cols, by simp only [nbAvailCo, hcols], ?_⟩
    intro j a ha
    obtain ⟨v, hv, hj⟩ := mapM_get hcols j a ha
    exact ⟨v, hv, fun i => by simp [table, hj]⟩

/-- C85: choices by code are loaded alike by both engines. -/
theorem C85_engines_code (arrow explicit : Bool) (src : Source K) {e : String} (h : (src.co e).isSome) :
    ∃ t t', loadChoice arrow explicit src (some (.code e)) = .ok (some t) ∧ nbChooseCode src.alts src.co e = .ok t' ∧
      ∀ i j, t i j = t' i j := by
  obtain ⟨code, hc⟩ := Option.isSome_iff_exists.1 h
  refine ⟨_, _, by simp only [loadChoice, chooseCode, hc]; rfl, by simp only [nbChooseCode, hc], fun i j => rfl⟩

/-- C85: choices by expressions are loaded alike by both engines if the expressions are in alphabetical order. -/
theorem C85_engines_choice_co_partial (explicit : Bool) (src : Source K) (m : List (Int × String))
    (hall : ∀ a ∈ src.alts, ∃ e, m.lookup a = some e ∧ (src.co e).isSome)
    (hsorted : (src.alts.map (fun a => (m.lookup a).getD "0")).Pairwise (· < ·)) :
    ∃ t t', loadChoice true explicit src (some (.co m)) = .ok (some t) ∧ nbChooseCo src.alts src.co m = .ok t' ∧
      ∀ i j, j < src.alts.length → t i j = t' i j := by
  obtain ⟨t, ht, hv⟩ := C85_choice_co_partial true explicit src m (by simpa using hsorted) (by
    intro a ha
    obtain ⟨e, he, h⟩ := hall a ha
    simpa [he] using h)
  obtain ⟨t', ht', hv'⟩ := (C85_numba_choice_co src.alts src.co m).2.2 hall
  refine ⟨t, t', ht, ht', fun i j hj => ?_⟩
  obtain ⟨v, h1, h2⟩ := hv j _ (List.getElem?_eq_getElem hj)
  obtain ⟨e, v', h3, h4, h5⟩ := hv' j _ (List.getElem?_eq_getElem hj)
  rw [h3] at h1
  simp only [Option.getD_some] at h1
  rw [h1] at h4
  injection h4 with h4
  rw [h2, h5, h4]

/-- C85, the numba engine, choices or availability by the name of a variable, the part that holds: the values of the
variable if it is stored with cases first.  Missing: `C85_fails_numba_transposed`. -/
theorem C85_numba_named_partial (x : Stored K) (h : x.caseFirst = true) (i j : Nat) :
    nbNamedCa x i j = if x.caseFirst then x.v i j else x.v j i := by
  simp [nbNamedCa, h]

end numba

section examples

/-- Three cases; `x`, `y` mark two alternatives, `mode` is the code of the choice. -/
def exCo : String → Option (Nat → Rat)
  | "x" => some (fun i => if i = 0 then 1 else 0)
  | "y" => some (fun i => if i = 1 then 1 else 0)
  | "0" => some (fun _ => 0)
  | "mode" => some (fun i => if i = 0 then 1 else 2)
  | _ => none

/-- A container with alternatives 1 and 2. -/
def exSrc : Source Rat := ⟨[1, 2], exCo, fun _ => none, none, none, none, 1, none⟩

/-- A container with alternatives 2 and 1, in this order. -/
def exSrc' : Source Rat := { exSrc with alts := [2, 1] }

/-- The value a run gives. -/
def runCell (r : Except Err (Option (Nat → Nat → Rat))) (i j : Nat) : Except Err (Option Rat) :=
  match r with
  | .error e => .error e
  | .ok none => .ok none
  | .ok (some t) => .ok (some (t i j))

instance instDecEqRequestCell : DecidableEq (Except Err (Option Rat)) := fun a b =>
  match a, b with
  | .error x, .error y => decidable_of_iff (x = y) (by simp)
  | .ok x, .ok y => decidable_of_iff (x = y) (by simp)
  | .error _, .ok _ => isFalse (by simp)
  | .ok _, .error _ => isFalse (by simp)

/-- Alphabetical expressions: case 0 chose alternative 1 (position 0). -/
example : runCell (loadChoice true false exSrc (some (.co [(1, "x"), (2, "y")]))) 0 0 = .ok (some 1) := by decide +kernel
/-- The other order: case 0 marks `x`, which is alternative 2 (position 1), but position 0 gets the choice. -/
example : runCell (loadChoice true false exSrc (some (.co [(1, "y"), (2, "x")]))) 0 0 = .ok (some 1) := by decide +kernel
example : runCell (loadChoice false false exSrc (some (.co [(1, "y"), (2, "x")]))) 0 0 = .ok (some 0) := by decide +kernel
/-- A shared expression. -/
example : runCell (loadChoice true false exSrc (some (.co [(1, "x"), (2, "x")]))) 0 0 = .error .size := by decide +kernel
/-- A misspelled name. -/
example : runCell (loadChoice true false exSrc (some (.co [(1, "x"), (2, "z")]))) 0 0 = .ok none := by decide +kernel
/-- Availability in the order of the codes. -/
example : runCell (loadAvail true false exSrc' (some (.co [(1, "x"), (2, "y")]))) 0 0 = .ok (some 1) := by decide +kernel
example : runCell (loadAvail false false exSrc' (some (.co [(1, "x"), (2, "y")]))) 0 0 = .ok (some 0) := by decide +kernel
example : runCell (loadChoice true false exSrc (some (.code "mode"))) 1 1 = .ok (some 1) := by decide +kernel
/-- The hypotheses of the theorems are met. -/
example : (exSrc.alts.map (fun a => ([(1, "x"), (2, "y")].lookup a).getD "0")).Pairwise (· < ·) ∧
    ¬ (exSrc.alts.map (fun a => ([(1, "y"), (2, "x")].lookup a).getD "0")).Pairwise (· ≤ ·) ∧
    ¬ exSrc'.alts.Pairwise (· ≤ ·) ∧ ∀ a ∈ exSrc.alts, (exSrc.co (([(1, "y"), (2, "x")].lookup a).getD "0")).isSome := by
  decide +kernel

/-- A model's specification and its request. -/
example : required ⟨["cost", "time"], ["jobs", "cost"], [(1, ["1", "inc"]), (2, ["1"])], "", [(1, "x"), (2, "y")], "", false,
    "w", "", [], true⟩ =
    ⟨some ["cost", "jobs", "time"], some ["inc"], some (.co [(1, "x"), (2, "y")]), some "w", some .any⟩ := by
  decide +kernel

/-- C85 fails in the numba engine: a variable stored with alternatives first is read as if cases were first (two cases, two
alternatives: transposed without any error). -/
theorem C85_fails_numba_transposed :
    ∃ x : Stored Rat, ∃ i < 2, ∃ j < 2, nbNamedCa x i j ≠ if x.caseFirst then x.v i j else x.v j i :=
  ⟨⟨false, fun p q => if p = 0 ∧ q = 1 then 1 else 0⟩, 0, by omega, 1, by omega, by decide +kernel⟩

end examples

end Larch.Props
