import Verif.Model.Terms
import Mathlib.Data.List.Basic
import Mathlib.Tactic.NormNum

/-!
# C160: equality and membership of linear functions; C161: assigning utility functions
-/

namespace Larch.Props

open Larch.Slots Larch.Terms

/-! ### C160 -/

theorem tm_compEq (c d : NTerm) : compEq c d = true ↔ c = d := by
  obtain ⟨p, x, s⟩ := c
  obtain ⟨q, y, t⟩ := d
  unfold compEq refEq
  by_cases h1 : p = q <;> by_cases h2 : x = y <;> simp [h1, h2]

theorem tm_allEq : ∀ (l m : List NTerm), l.length = m.length → (allEq l m = true ↔ l = m)
  | [], [], _ => by simp [allEq]
  | [], _ :: _, h => by simp at h
  | _ :: _, [], h => by simp at h
  | c :: l, d :: m, h => by
    have ih := tm_allEq l m (by simpa using h)
    unfold allEq
    by_cases hc : compEq c d = false
    · rw [if_pos hc]
      have : c ≠ d := fun e => by rw [(tm_compEq c d).2 e] at hc; cases hc
      simp [this]
    · rw [if_neg hc, ih]
      have : c = d := (tm_compEq c d).1 (by simpa using hc)
      simp [this]

/-- C160: two linear functions are equal exactly when they have the same terms, that is names of parameter and data and scale, in
the same order. -/
theorem C160_functions (l m : List NTerm) : objEq (.func l) (.func m) = true ↔ l = m := by
  rw [show objEq (.func l) (.func m) = if l.length = m.length then allEq l m else false from rfl]
  by_cases h : l.length = m.length
  · rw [if_pos h]; exact tm_allEq l m h
  · rw [if_neg h]
    constructor
    · intro h; cases h
    · rintro rfl; exact absurd rfl h

/-- C160: two components are equal exactly when names and scale are. -/
theorem C160_components (c d : NTerm) :
    objEq (.comp c) (.comp d) = true ↔ c.param = d.param ∧ c.data = d.data ∧ c.scale = d.scale := by
  rw [show objEq (.comp c) (.comp d) = compEq c d from rfl, tm_compEq]
  obtain ⟨p, x, s⟩ := c
  obtain ⟨q, y, t⟩ := d
  simp

/-- C160 fails: a component equals the function which has only it, but the function does not equal the component. -/
theorem C160_fails_symmetric (c : NTerm) : objEq (.comp c) (.func [c]) = true ∧ objEq (.func [c]) (.comp c) = false :=
  ⟨(tm_compEq c c).2 rfl, rfl⟩

/-- The text of a reference. -/
def nameOf : Ref → String
  | .text s => s
  | .par s => s
  | .dat s => s

/-- C160: references are equal exactly when their texts are and not one is of a parameter and the other of data. -/
theorem C160_references (a b : Ref) :
    refEq a b = true ↔ nameOf a = nameOf b ∧ ¬ (∃ s t, (a = .par s ∧ b = .dat t) ∨ (a = .dat s ∧ b = .par t)) := by
  cases a <;> cases b <;> simp [refEq, nameOf] <;> exact eq_comm

/-- C160 fails: equality of references is not transitive: both references equal the text, but not each other. -/
theorem C160_fails_transitive (s : String) :
    refEq (.par s) (.text s) = true ∧ refEq (.text s) (.dat s) = true ∧ refEq (.par s) (.dat s) = false := by
  simp [refEq]

/-- C160: a parameter is in a function exactly when some term has it, and data likewise; for a plain text it raises. -/
theorem C160_contains (l : List NTerm) (s : String) :
    (∃ b, contains l (.par s) = some b ∧ (b = true ↔ ∃ c ∈ l, c.param = s)) ∧
      (∃ b, contains l (.dat s) = some b ∧ (b = true ↔ ∃ c ∈ l, c.data = s)) ∧ contains l (.text s) = none := by
  refine ⟨⟨_, rfl, ?_⟩, ⟨_, rfl, ?_⟩, rfl⟩ <;> simp [refEq]

/-- C160: `_index_of` gives the first place where the parameter or the data are, and raises when there is none. -/
theorem C160_index (l : List NTerm) (r : Ref) (name : NTerm → String)
    (hr : (∃ s, r = .par s ∧ name = NTerm.param) ∨ (∃ s, r = .dat s ∧ name = NTerm.data)) :
    (∀ n, indexOf l r = some (some n) ↔
      ∃ h : n < l.length, name l[n] = nameOf r ∧ ∀ (j : Nat) (hj : j < n), name (l[j]'(by omega)) ≠ nameOf r) ∧
      (indexOf l r = some none ↔ ∀ c ∈ l, name c ≠ nameOf r) := by
  rcases hr with ⟨s, rfl, rfl⟩ | ⟨s, rfl, rfl⟩ <;>
  · constructor
    · intro n
      simp only [indexOf, refEq, nameOf, Option.some.injEq, List.findIdx?_eq_some_iff_getElem, beq_iff_eq, ne_eq]
    · simp [indexOf, refEq, nameOf, List.findIdx?_eq_none_iff]

example : contains [⟨"a", "x", 1⟩, ⟨"b", "y", 2⟩] (.dat "y") = some true ∧ contains [⟨"a", "x", 1⟩] (.dat "a") = some false ∧
    indexOf [⟨"a", "x", 1⟩, ⟨"b", "y", 2⟩, ⟨"b", "x", 2⟩] (.par "b") = some (some 1) := by
  refine ⟨rfl, rfl, rfl⟩

/-! ### C161 -/

/-- The terms a right-hand side stands for. -/
def meaning : Val → Option (List NTerm)
  | .zero => some []
  | .num => none
  | .par s => some [⟨s, "1", 1⟩]
  | .comp c => some [c]
  | .func l => some l
  | .list l => if l.all Option.isSome then some (l.filterMap id) else none

/-- The function for alternative `k`. -/
def functionOf (s : St) (k : Int) : List NTerm := (s.co.lookup k).getD []

/-- No name says "with error". -/
def Quiet (l : List NTerm) : Prop := ∀ c ∈ l, ¬ "with error".toList <:+: c.param.toList ∧ ¬ "with error".toList <:+: c.data.toList

theorem tm_quiet (l : List NTerm) : saysError l = false ↔ Quiet l := by
  unfold saysError Quiet
  rw [List.any_eq_false]
  constructor
  · intro h c hc
    have := h c hc
    rw [Bool.or_eq_true, decide_eq_true_eq, decide_eq_true_eq] at this
    exact not_or.1 this
  · intro h c hc
    rw [Bool.or_eq_true, decide_eq_true_eq, decide_eq_true_eq]
    exact not_or.2 (h c hc)

theorem tm_fill : ∀ (l : List (Option NTerm)) (f : List NTerm),
    (l.all Option.isSome = true → fill l f = (f ++ l.filterMap id, false))
  | [], f => by simp [fill]
  | none :: l, f => by simp [fill]
  | some c :: l, f => by
    have h1 := tm_fill l (f ++ [c])
    intro h
    rw [fill, h1 (by simpa using h)]
    simp

theorem tm_lookup_put {α : Type} (d : List (Int × α)) (k : Int) (v : α) (j : Int) :
    (put d k v).lookup j = if j = k then some v else d.lookup j := by
  unfold put
  split_ifs with hk hj hj
  · subst hj
    induction d with
    | nil => simp at hk
    | cons e d ih =>
      by_cases he : e.1 = j
      · simp [he]
      · have : j ≠ e.1 := fun h => he h.symm
        obtain ⟨a, b⟩ := e
        simp only [List.map_cons, if_neg he, List.lookup_cons]
        rw [show (j == a) = false from by simpa using this]
        exact ih (by simpa [this] using hk)
  · clear hk
    induction d with
    | nil => simp
    | cons e d ih =>
      obtain ⟨a, b⟩ := e
      by_cases he : a = k
      · subst he
        simp only [List.map_cons, if_true, List.lookup_cons]
        rw [show (j == a) = false from by simpa using hj]
        exact ih
      · simp only [List.map_cons, if_neg he, List.lookup_cons, ih]
  · subst hj
    rw [List.lookup_append]
    have : d.lookup j = none := by
      rw [List.lookup_eq_none_iff]
      intro e he
      rw [bne_iff_ne]
      rintro rfl
      exact hk (List.mem_map.2 ⟨e, he, rfl⟩)
    simp [this]
  · rw [List.lookup_append]
    rw [show List.lookup j [(k, v)] = none from by rw [List.lookup_cons, show (j == k) = false from by simpa using hj]; rfl]
    simp

theorem tm_lookup_none {α : Type} (d : List (Int × α)) (k : Int) (h : k ∉ d.map Prod.fst) : d.lookup k = none := by
  rw [List.lookup_eq_none_iff]
  intro e he
  rw [bne_iff_ne]
  rintro rfl
  exact h (List.mem_map.2 ⟨e, he, rfl⟩)

theorem tm_getItem (s : St) (k : Int) :
    (getItem s.co k).2 = functionOf s k ∧ ∀ j, ((getItem s.co k).1.lookup j).getD [] = functionOf s j := by
  unfold getItem functionOf
  split_ifs with h
  · exact ⟨rfl, fun _ => rfl⟩
  · refine ⟨by simp [tm_lookup_none _ _ h], fun j => ?_⟩
    rw [List.lookup_append]
    by_cases hj : j = k
    · subst hj; simp [tm_lookup_none _ _ h]
    · rw [List.lookup_cons, show (j == k) = false from by simpa using hj]; simp

/-- The statements that are accepted, in the forms the guide shows: `utility_ca` is assigned functions (also as a component, a list,
or 0), whole mappings have such values and distinct keys; no name says "with error". -/
def Plainly (co : Int → List NTerm) : Stmt → Prop
  | .setCa v => (∃ l, meaning v = some l) ∧ ∀ s, v ≠ .par s
  | .addCa v => (∃ l, meaning v = some l) ∧ ∀ l, v ≠ .list l
  | .setAll .nothing => True
  | .setAll (.dict d) => (d.map Prod.fst).Nodup ∧ ∀ e ∈ d, (∃ l, meaning e.2 = some l) ∧ ∀ s, e.2 ≠ .par s
  | .setAll .self => False
  | .setAll .other => False
  | .setCo _ v => ∃ l, meaning v = some l ∧ Quiet l
  | .addCo k v => ∃ l, meaning v = some l ∧ (∀ l, v ≠ .list l) ∧ Quiet (co k ++ l)
  | .delCo k => co k ≠ []
  | .readCo _ => True

/-- What the statements say. -/
def said (x : List NTerm × (Int → List NTerm)) : Stmt → List NTerm × (Int → List NTerm)
  | .setCa v => ((meaning v).getD [], x.2)
  | .addCa v => (x.1 ++ (meaning v).getD [], x.2)
  | .setAll (.dict d) => (x.1, fun k => ((d.lookup k).bind meaning).getD [])
  | .setAll _ => (x.1, fun _ => [])
  | .setCo k v => (x.1, fun j => if j = k then (meaning v).getD [] else x.2 j)
  | .addCo k v => (x.1, fun j => if j = k then x.2 k ++ (meaning v).getD [] else x.2 j)
  | .delCo k => (x.1, fun j => if j = k then [] else x.2 j)
  | .readCo _ => x

theorem tm_initFn (old : List NTerm) (v : Val) (l : List NTerm) (h : meaning v = some l) (hp : ∀ s, v ≠ .par s) :
    initFn old v = (l, false) := by
  cases v with
  | zero => simp [meaning] at h; subst h; rfl
  | num => simp [meaning] at h
  | par s => exact absurd rfl (hp s)
  | comp c => simp [meaning] at h; subst h; rfl
  | func m => simp [meaning] at h; subst h; rfl
  | list m =>
    simp only [meaning] at h
    split_ifs at h with hn
    simp only [Option.some.injEq] at h
    rw [initFn, tm_fill m [] hn, ← h]
    rfl

theorem tm_fillMap : ∀ (r : List (Int × Val)) (d : List (Int × List NTerm)),
    (∀ e ∈ r, (∃ l, meaning e.2 = some l) ∧ ∀ s, e.2 ≠ .par s) → (r.map Prod.fst).Nodup →
    (fillMap r d).2 = false ∧ ∀ j, (fillMap r d).1.lookup j = ((r.lookup j).bind meaning).or (d.lookup j)
  | [], d, _, _ => by simp [fillMap]
  | (k, v) :: r, d, h, hn => by
    obtain ⟨⟨l, hl⟩, hp⟩ := h (k, v) (by simp)
    have hi := tm_initFn [] v l hl hp
    rw [List.map_cons, List.nodup_cons] at hn
    obtain ⟨h1, h2⟩ := tm_fillMap r (put d k l) (fun e he => h e (by simp [he])) hn.2
    unfold fillMap
    rw [hi]
    simp only [Bool.false_eq_true, if_false]
    refine ⟨h1, fun j => ?_⟩
    rw [h2, tm_lookup_put, List.lookup_cons]
    by_cases hj : j = k
    · subst hj
      simp [tm_lookup_none _ _ hn.1, hl]
    · rw [show (j == k) = false from by simpa using hj]
      simp [hj]

theorem tm_asFn (v : Val) (l : List NTerm) (h : meaning v = some l) : asFn v = if saysError l then none else some l := by
  cases v with
  | zero => simp [meaning] at h; subst h; rfl
  | num => simp [meaning] at h
  | par s => simp [meaning] at h; subst h; rfl
  | comp c => simp [meaning] at h; subst h; rfl
  | func m => simp [meaning] at h; subst h; rfl
  | list m =>
    simp only [meaning] at h
    split_ifs at h with hn
    simp only [Option.some.injEq] at h
    rw [asFn, tm_fill m [] hn, ← h]
    rfl

theorem tm_iadd (f : List NTerm) (v : Val) (l : List NTerm) (h : meaning v = some l) (hp : ∀ l, v ≠ .list l) :
    iadd f v = some (f ++ l) := by
  cases v with
  | zero => simp [meaning] at h; subst h; simp [iadd]
  | num => simp [meaning] at h
  | par s => simp [meaning] at h; subst h; rfl
  | comp c => simp [meaning] at h; subst h; rfl
  | func m => simp [meaning] at h; subst h; rfl
  | list m => exact absurd rfl (hp m)

/-- C161: a statement of a plain form does not raise, and makes of the functions what it says. -/
theorem C161_statement (s : St) (st : Stmt) (h : Plainly (functionOf s) st) :
    (step s st).2 = false ∧ (step s st).1.ca = (said (s.ca, functionOf s) st).1 ∧
      ∀ k, functionOf (step s st).1 k = (said (s.ca, functionOf s) st).2 k := by
  cases st with
  | setCa v =>
    obtain ⟨⟨l, hl⟩, hp⟩ := h
    simp [step, tm_initFn s.ca v l hl hp, said, hl, functionOf]
  | addCa v =>
    obtain ⟨⟨l, hl⟩, hp⟩ := h
    simp [step, tm_iadd s.ca v l hl hp, said, hl, functionOf]
  | setAll m =>
    cases m with
    | nothing => simp [step, initMap, said, functionOf]
    | other => exact h.elim
    | self => exact h.elim
    | dict d =>
      obtain ⟨h1, h2⟩ := tm_fillMap d [] h.2 h.1
      refine ⟨h1, rfl, fun k => ?_⟩
      simp [step, initMap, functionOf, h2, said]
  | setCo k v =>
    obtain ⟨l, hl, hq⟩ := h
    have := tm_asFn v l hl
    rw [(tm_quiet l).2 hq] at this
    simp only [Bool.false_eq_true, if_false] at this
    simp only [step, this]
    refine ⟨trivial, rfl, fun j => ?_⟩
    simp only [functionOf, tm_lookup_put, said, hl]
    split_ifs <;> rfl
  | addCo k v =>
    obtain ⟨l, hl, hp, hq⟩ := h
    obtain ⟨h1, h2⟩ := tm_getItem s k
    simp only [step, tm_iadd _ v l hl hp, h1]
    refine ⟨(tm_quiet _).2 hq, rfl, fun j => ?_⟩
    simp only [functionOf, tm_lookup_put, said, hl]
    split_ifs with hj
    · rfl
    · exact h2 j
  | delCo k =>
    have hk : k ∈ s.co.map Prod.fst := by
      by_contra hn
      exact h (by simp [functionOf, tm_lookup_none _ _ hn])
    simp only [step, if_pos hk]
    refine ⟨trivial, rfl, fun j => ?_⟩
    simp only [functionOf, said]
    clear hk h
    obtain ⟨ca, co⟩ := s
    simp only
    induction co with
    | nil => simp
    | cons e r ih =>
      obtain ⟨a, b⟩ := e
      by_cases ha : a = k
      · subst ha
        simp only [ne_eq, List.filter_cons, decide_not, not_true_eq_false, decide_false, decide_true, Bool.not_true, Bool.false_eq_true, if_false]
        simp only [ne_eq, decide_not] at ih
        rw [ih, List.lookup_cons]
        by_cases hj : j = a
        · simp [hj]
        · rw [show (j == a) = false from by simpa using hj]
      · rw [List.filter_cons_of_pos (by simpa using ha), List.lookup_cons, List.lookup_cons]
        by_cases hja : j = a
        · subst hja; simp [ha]
        · rw [show (j == a) = false from by simpa using hja]
          exact ih
  | readCo k =>
    refine ⟨rfl, rfl, fun j => ?_⟩
    exact (tm_getItem s k).2 j

/-- What a history of statements says. -/
def saidAll (x : List NTerm × (Int → List NTerm)) : List Stmt → List NTerm × (Int → List NTerm)
  | [] => x
  | st :: r => saidAll (said x st) r

/-- All the statements are plain, where they stand. -/
def AllPlain (x : List NTerm × (Int → List NTerm)) : List Stmt → Prop
  | [] => True
  | st :: r => Plainly x.2 st ∧ AllPlain (said x st) r

/-- Run a history. -/
def after (s : St) (l : List Stmt) : St := l.foldl (fun s st => (step s st).1) s

/-- C161: after any history of plain statements the functions are those the statements say. -/
theorem C161_history : ∀ (l : List Stmt) (s : St), AllPlain (s.ca, functionOf s) l →
    (after s l).ca = (saidAll (s.ca, functionOf s) l).1 ∧ ∀ k, functionOf (after s l) k = (saidAll (s.ca, functionOf s) l).2 k
  | [], _, _ => ⟨rfl, fun _ => rfl⟩
  | st :: r, s, h => by
    obtain ⟨_, h1, h2⟩ := C161_statement s st h.1
    have he : said (s.ca, functionOf s) st = ((step s st).1.ca, functionOf (step s st).1) := by
      rw [h1, show functionOf (step s st).1 = (said (s.ca, functionOf s) st).2 from funext h2]
    have := C161_history r (step s st).1 (by have := h.2; rwa [he] at this)
    unfold after saidAll
    rw [he]
    exact this

/-- C161: `m.utility_co[k] = v`, `m.utility_ca += v` and `del m.utility_co[k]` leave the functions as they were when they raise. -/
theorem C161_atomic (s : St) (st : Stmt) (h : (∃ k v, st = .setCo k v) ∨ (∃ v, st = .addCa v) ∨ (∃ k, st = .delCo k))
    (hr : (step s st).2 = true) : (step s st).1 = s := by
  rcases h with ⟨k, v, rfl⟩ | ⟨v, rfl⟩ | ⟨k, rfl⟩
  · simp only [step] at hr ⊢
    cases hv : asFn v with
    | none => rfl
    | some f => simp [hv] at hr
  · simp only [step] at hr ⊢
    cases hv : iadd s.ca v with
    | none => rfl
    | some f => simp [hv] at hr
  · unfold step at hr ⊢
    by_cases hk : k ∈ s.co.map Prod.fst
    · simp [hk] at hr
    · simp [hk]

/-- C161 fails: `m.utility_ca = P.a` raises, although `m.utility_co[k] = P.a` is accepted, and the function is gone. -/
theorem C161_fails_parameter (s : St) (p : String) (hp : p ≠ "") : step s (.setCa (.par p)) = ({ s with ca := [] }, true) := by
  simp [step, initFn, hp]

/-- C161 fails: a list with a member which is not a component raises, and leaves the part of the list before it. -/
theorem C161_fails_list (s : St) (l : List NTerm) (r : List (Option NTerm)) :
    step s (.setCa (.list (l.map some ++ none :: r))) = ({ s with ca := l }, true) := by
  have : ∀ (l f : List NTerm), fill (l.map some ++ none :: r) f = (f ++ l, true) := by
    intro l
    induction l with
    | nil => intro f; simp [fill]
    | cons c l ih => intro f; simp [fill, ih]
  simp [step, initFn, this]

/-- C161 fails: a mapping with a value that is a parameter raises, and leaves only the entries before it. -/
theorem C161_fails_mapping (s : St) (k j : Int) (f : List NTerm) (p : String) (hp : p ≠ "") (r : List (Int × Val)) :
    step s (.setAll (.dict ((j, .func f) :: (k, .par p) :: r))) = ({ s with co := [(j, f)] }, true) := by
  simp [step, initMap, fillMap, initFn, hp, put]

/-- C161 fails: `m.utility_co = m.utility_co` drops all functions. -/
theorem C161_fails_self (s : St) : step s (.setAll .self) = ({ s with co := [] }, false) := rfl

/-- C161 fails: `m.utility_co[k] += ...` with a name that says "with error" raises, but the term is added. -/
theorem C161_fails_with_error (s : St) (k : Int) (c : NTerm) (hc : "with error".toList <:+: c.data.toList) :
    (step s (.addCo k (.comp c))).2 = true ∧ functionOf (step s (.addCo k (.comp c))).1 k = functionOf s k ++ [c] := by
  obtain ⟨h1, _⟩ := tm_getItem s k
  simp only [step, iadd, h1]
  constructor
  · unfold saysError
    rw [List.any_eq_true]
    exact ⟨c, by simp, by rw [Bool.or_eq_true]; exact Or.inr (decide_eq_true hc)⟩
  · simp [functionOf, tm_lookup_put]

theorem tm_allOf_none {α β : Type} (f : α → Option β) (l : List α) (a : α) (ha : a ∈ l) (hf : f a = none) : allOf f l = none := by
  induction l with
  | nil => cases ha
  | cons b l ih =>
    unfold allOf
    rcases List.mem_cons.1 ha with rfl | h
    · simp [hf]
    · cases f b with
      | none => rfl
      | some x => simp [ih h]

/-- C161 fails: only looking at `m.utility_co[k]`, where `k` is not an alternative of the data, makes the model unusable: no
function differs from before, but linking the model with the data raises. -/
theorem C161_fails_read (s : St) (k : Int) (T : Table) (hk : k ∉ T.alts) (ca q : List NTerm) (qs : Option String) :
    (∀ j, functionOf (step s (.readCo k)).1 j = functionOf s j) ∧ coSlots T ⟨(step s (.readCo k)).1.co, ca, q, qs⟩ = none := by
  refine ⟨(tm_getItem s k).2, ?_⟩
  have hmem : ∃ f, (k, f) ∈ (getItem s.co k).1 := by
    unfold getItem
    split_ifs with h
    · obtain ⟨e, he, rfl⟩ := List.mem_map.1 h
      exact ⟨e.2, he⟩
    · exact ⟨[], by simp⟩
  obtain ⟨f, hf⟩ := hmem
  unfold coSlots
  simp only [step]
  rw [tm_allOf_none _ _ (k, f) hf]
  · rfl
  · simp [getLoc, List.count_eq_zero_of_not_mem hk]

/-- C161 fails: `f += f` never ends, for a function with any terms: whatever the number of steps, it is not done. -/
theorem C161_fails_self_add (l : List NTerm) (hl : l ≠ []) (n : Nat) : extendSelf n l 0 = none := by
  have : ∀ (n : Nat) (l : List NTerm) (i : Nat), i < l.length → extendSelf n l i = none := by
    intro n
    induction n with
    | zero => intro l i _; rfl
    | succ n ih =>
      intro l i hi
      unfold extendSelf
      rw [dif_pos hi]
      exact ih _ _ (by simp; omega)
  exact this n l 0 (List.length_pos_iff.2 hl)

example : AllPlain ([], fun _ => []) [.setCa (.comp ⟨"a", "x", 1⟩), .addCa (.par "b"), .setCo 2 (.par "c"), .addCo 2 (.comp ⟨"d", "y", 1⟩),
    .setAll (.dict [(1, .zero), (3, .list [some ⟨"e", "z", 2⟩])])] := by
  refine ⟨⟨⟨_, rfl⟩, by simp⟩, ⟨⟨_, rfl⟩, by simp⟩, ⟨_, rfl, ?_⟩, ⟨_, rfl, by simp, ?_⟩, ⟨by decide, ?_⟩, trivial⟩
  · intro c hc
    simp at hc
    subst hc
    decide
  · intro c hc
    simp [said, meaning] at hc
    rcases hc with rfl | rfl <;> decide
  · intro e he
    simp at he
    rcases he with rfl | rfl
    · exact ⟨⟨_, rfl⟩, by simp⟩
    · exact ⟨⟨[⟨"e", "z", 2⟩], by simp [meaning]⟩, by simp⟩

end Larch.Props
