import Verif.Spec.PodLoad
import Mathlib.Data.List.Forall2

/-!
# C119: data items are read from the first pod that has them, and reloading only what may have changed gives the same data
-/

namespace Larch.Props

open Larch.Pods

variable {L O A : Type}

theorem pl_has (p : Store A) (n : String) : p.has n = true ↔ Holds p n := by
  simp only [Store.has, Holds, List.any_eq_true, List.mem_map, beq_iff_eq]

theorem pl_get_some {p : Store A} {n : String} (h : Holds p n) : ∃ a, p.items.lookup n = some a := by
  cases hl : p.items.lookup n with
  | some a => exact ⟨a, rfl⟩
  | none =>
    obtain ⟨e, he, rfl⟩ := List.mem_map.1 h
    rw [List.lookup_eq_none_iff] at hl
    exact absurd (hl e he) (by simp)

theorem pl_get_holds {p : Store A} {n : String} {a : A} (h : p.items.lookup n = some a) : Holds p n := by
  obtain ⟨l₁, l₂, h1, _⟩ := List.lookup_eq_some_iff.1 h
  simp [Holds, h1]

theorem pl_resolve_none {ps : List (Store A)} {n : String} : resolve ps n = none ↔ Unheld ps n := by
  simp only [resolve, List.find?_eq_none, Unheld, pl_has]

theorem pl_resolve_some {ps : List (Store A)} {n : String} {p : Store A} (h : resolve ps n = some p) :
    ∃ pre post, ps = pre ++ p :: post ∧ (∀ q ∈ pre, ¬ Holds q n) ∧ Holds p n := by
  obtain ⟨h1, as, bs, h2, h3⟩ := List.find?_eq_some_iff_append.1 h
  exact ⟨as, bs, h2, fun q hq hh => by have := h3 q hq; simp [(pl_has q n).2 hh] at this, (pl_has p n).1 h1⟩

/-- The item of a name, by the loop. -/
theorem pl_item {ps : List (Store A)} {n : String} {a : A} : Item ps n a ↔ (resolve ps n).bind (fun p => p.get n) = some a := by
  constructor
  · rintro ⟨pre, p, post, rfl, h1, h2⟩
    have hr : resolve (pre ++ p :: post) n = some p := by
      refine List.find?_eq_some_iff_append.2 ⟨(pl_has p n).2 (pl_get_holds h2), pre, post, rfl, fun q hq => ?_⟩
      have := h1 q hq
      rw [← pl_has] at this
      simpa using this
    rw [hr]
    exact h2
  · intro h
    obtain ⟨p, hp, h2⟩ := Option.bind_eq_some_iff.1 h
    obtain ⟨pre, post, h3, h4, _⟩ := pl_resolve_some hp
    exact ⟨pre, p, post, h3, h4, h2⟩

theorem pl_means (lg : Lang L O A) (ps : List (Store A)) (e : Expr L O) : ∀ a, evalIn lg ps e = some a ↔ Means lg ps e a := by
  induction e with
  | lit l =>
    intro a
    constructor
    · intro h; cases h; exact .lit l
    · intro h; cases h; rfl
  | name n =>
    intro a
    simp only [evalIn, evalName]
    cases hr : resolve ps n with
    | some p =>
      have : Item ps n a ↔ p.get n = some a := by rw [pl_item, hr]; simp
      constructor
      · intro h; exact .item (this.2 h)
      · intro h
        cases h with
        | item h => exact this.1 h
        | global h _ => rw [pl_resolve_none.2 h] at hr; cases hr
    | none =>
      constructor
      · intro h; exact .global (pl_resolve_none.1 hr) h
      · intro h
        cases h with
        | item h => rw [pl_item, hr] at h; cases h
        | global _ h => exact h
  | op o e f ih1 ih2 =>
    intro a
    simp only [evalIn, Option.bind_eq_some_iff]
    constructor
    · rintro ⟨x, hx, y, hy, h⟩
      exact .op ((ih1 x).1 hx) ((ih2 y).1 hy) h
    · intro h
      cases h with
      | op h1 h2 h3 => exact ⟨_, (ih1 _).2 h1, _, (ih2 _).2 h2, h3⟩
  | call f e ih =>
    intro a
    simp only [evalIn, Option.bind_eq_some_iff, evalFn]
    constructor
    · rintro ⟨g, hg, x, hx, h⟩
      cases hr : resolve ps f with
      | some p => rw [hr] at hg; cases hg
      | none =>
        rw [hr] at hg
        exact .call (pl_resolve_none.1 hr) hg ((ih x).1 hx) h
    · intro h
      cases h with
      | call h1 h2 h3 h4 =>
        rw [pl_resolve_none.2 h1]
        exact ⟨_, h2, _, (ih _).2 h3, h4⟩

theorem pl_denotes (sx : Syn L O) (lg : Lang L O A) (ps : List (Store A)) (s : String) (a : A) :
    loadItem sx lg ps s = some a ↔ Denotes sx lg ps s a := by
  unfold loadItem Denotes
  cases hr : resolve ps s with
  | some p =>
    have h1 : Item ps s a ↔ p.get s = some a := by rw [pl_item, hr]; simp
    have h2 : ¬ Unheld ps s := by rw [← pl_resolve_none, hr]; simp
    simp only [h1, h2, false_and, or_false]
  | none =>
    have h1 : ¬ Item ps s a := by rw [pl_item, hr]; simp
    have h2 : Unheld ps s := pl_resolve_none.1 hr
    simp only [h1, h2, true_and, false_or, Option.bind_eq_some_iff, pl_means]

theorem pl_cols_full (sx : Syn L O) (lg : Lang L O A) (ps : List (Store A)) (pattern : Nat) (names : List String) : ∀ (old cols : List A),
    old.length = names.length →
    (loadCols sx lg ps pattern (fun _ => none) names old = some cols ↔ List.Forall₂ (Denotes sx lg ps) names cols) := by
  induction names with
  | nil =>
    intro old cols h
    cases old with
    | nil =>
      simp only [loadCols, Option.some.injEq, List.forall₂_nil_left_iff]
      exact eq_comm
    | cons a t => simp at h
  | cons s r ih =>
    intro old cols h
    cases old with
    | nil => simp at h
    | cons a t =>
      simp only [loadCols, loadOne, Option.bind_eq_some_iff, Option.map_eq_some_iff]
      constructor
      · rintro ⟨x, hx, y, hy, rfl⟩
        exact .cons ((pl_denotes sx lg ps s x).1 hx) ((ih t y (by simpa using h)).1 hy)
      · intro hf
        cases hf with
        | cons h1 h2 => exact ⟨_, (pl_denotes sx lg ps s _).2 h1, _, (ih t _ (by simpa using h)).2 h2, rfl⟩

/-- **C119.**  The array read for a tuple of names has, in the order of the names, exactly what each name stands for: the item of the first pod
that has it, or the value of the expression with each name in it read from the first pod that has it. -/
theorem C119_items_denote (sx : Syn L O) (lg : Lang L O A) (zero : A) (ps : List (Store A)) (names : List String) (cols : List A) :
    getItems sx lg zero ps (.tuple names) [] = some cols ↔ List.Forall₂ (Denotes sx lg ps) names cols := by
  simp only [getItems, Names.all, List.append_nil, Option.bind_some]
  exact pl_cols_full sx lg ps 0 names _ cols (by simp)

/-- **C119.**  Loading into an array without a mask pattern gives the same, whatever the array held. -/
theorem C119_load_denotes (sx : Syn L O) (lg : Lang L O A) (strip : A → A) (ps : List (Store A)) (names : List String) (arr : List A)
    (ha : arr.length = names.length) (out : List A) :
    (loadInto sx lg strip ps 0 names arr).map Loaded.returned = some out ↔
      ∃ cols, List.Forall₂ (Denotes sx lg ps) names cols ∧ out = cols.map strip := by
  have hm : maskFor sx ps 0 = fun _ => none := by funext s; simp [maskFor]
  simp only [loadInto, hm, Option.map_map, Option.map_eq_some_iff, Function.comp]
  constructor
  · rintro ⟨c, hc, rfl⟩
    exact ⟨c, (pl_cols_full sx lg ps 0 names arr c ha).1 hc, rfl⟩
  · rintro ⟨c, hc, rfl⟩
    exact ⟨c, (pl_cols_full sx lg ps 0 names arr c ha).2 hc, rfl⟩

/-! ## Reloading -/

theorem pl_resolve_same {pattern : Nat} {ps qs : List (Store A)} (h : ChangedOutside pattern ps qs) {n : String} {q : Store A}
    (hq : resolve qs n = some q) (hm : q.mask &&& pattern ≠ 0) : resolve ps n = some q := by
  unfold ChangedOutside at h
  induction h with
  | nil => exact hq
  | @cons p q' ps qs hpq _ ih =>
    unfold resolve at hq ⊢ ih
    rw [List.find?_cons] at hq ⊢
    by_cases hh : q'.has n = true
    · simp only [hh] at hq
      have : q' = q := Option.some.inj hq
      subst this
      have hpe : p = q' := hpq.2.1 (by rw [hpq.1]; exact hm)
      subst hpe
      simp [hh]
    · have hp : p.has n = false := by
        by_contra hc
        rw [Bool.not_eq_false, pl_has] at hc
        exact hh ((pl_has q' n).2 (hpq.2.2 n hc))
      rw [Bool.not_eq_true] at hh
      rw [hh] at hq
      rw [hp]
      exact ih hq

theorem pl_resolve_gone {pattern : Nat} {ps qs : List (Store A)} (h : ChangedOutside pattern ps qs) {n : String}
    (hq : resolve qs n = none) : resolve ps n = none := by
  rw [pl_resolve_none] at hq ⊢
  unfold ChangedOutside at h
  induction h with
  | nil => exact hq
  | @cons p q ps qs hpq _ ih =>
    intro r hr
    rcases List.mem_cons.1 hr with rfl | hr
    · exact fun hc => hq q (by simp) (hpq.2.2 n hc)
    · exact ih (fun q' hq' => hq q' (by simp [hq'])) r hr

theorem pl_token_mask {pattern : Nat} {qs : List (Store A)} (ts : List String) : ∀ m, tokenMask qs ts m &&& pattern ≠ 0 →
    m &&& pattern ≠ 0 ∧ ∀ t ∈ ts, ∃ q, resolve qs t = some q ∧ q.mask &&& pattern ≠ 0 := by
  induction ts with
  | nil => intro m h; exact ⟨h, by simp⟩
  | cons t r ih =>
    intro m h
    unfold tokenMask at h
    cases hr : resolve qs t with
    | none => rw [hr] at h; simp at h
    | some q =>
      rw [hr] at h
      obtain ⟨h1, h2⟩ := ih _ h
      refine ⟨fun h0 => h1 ?_, fun t' ht' => ?_⟩
      · rw [Nat.and_right_comm, h0, Nat.zero_and]
      · rcases List.mem_cons.1 ht' with rfl | ht'
        · exact ⟨q, hr, fun h0 => h1 (by rw [Nat.and_assoc, h0, Nat.and_zero])⟩
        · exact h2 t' ht'

theorem pl_eval_same (lg : Lang L O A) {ps qs : List (Store A)} (e : Expr L O) (h : ∀ n ∈ e.names, resolve ps n = resolve qs n) :
    evalIn lg ps e = evalIn lg qs e := by
  induction e with
  | lit l => rfl
  | name n => simp only [evalIn, evalName, h n (by simp [Expr.names])]
  | op o a b ih1 ih2 =>
    simp only [evalIn, ih1 (fun n hn => h n (by simp [Expr.names, hn])), ih2 (fun n hn => h n (by simp [Expr.names, hn]))]
  | call f a ih =>
    simp only [evalIn, evalFn, h f (by simp [Expr.names]), ih (fun n hn => h n (by simp [Expr.names, hn]))]

/-- A masked item is as it was. -/
theorem pl_masked_same (sx : Syn L O) (lg : Lang L O A) {pattern : Nat} {ps qs : List (Store A)} (h : ChangedOutside pattern ps qs) (s : String)
    (hm : dataMask sx qs s &&& pattern ≠ 0) : loadItem sx lg ps s = loadItem sx lg qs s := by
  unfold dataMask at hm
  cases hr : resolve qs s with
  | some q =>
    rw [hr] at hm
    simp only [loadItem, hr, pl_resolve_same h hr hm]
  | none =>
    rw [hr] at hm
    obtain ⟨_, ht⟩ := pl_token_mask _ _ hm
    simp only [loadItem, hr, pl_resolve_gone h hr]
    cases hp : sx.parse s with
    | none => rfl
    | some e =>
      simp only [Option.bind_some]
      refine pl_eval_same lg e (fun n hn => ?_)
      obtain ⟨q, h1, h2⟩ := ht n (sx.sound s e hp n hn)
      rw [h1, pl_resolve_same h h1 h2]

theorem pl_reload_cols (sx : Syn L O) (lg : Lang L O A) (f : A → A) {pattern : Nat} {ps qs : List (Store A)} (h : ChangedOutside pattern ps qs)
    (names : List String) (g : A → A) (hfg : ∀ a, f (g a) = f a) : ∀ (prev : List A), List.Forall₂ (fun s a => loadItem sx lg ps s = some a) names prev →
    (loadCols sx lg qs pattern (maskFor sx qs pattern) names (prev.map g)).map (List.map f) =
      (loadCols sx lg qs 0 (fun _ => none) names (prev.map g)).map (List.map f) := by
  induction names with
  | nil =>
    intro prev hp
    cases hp
    rfl
  | cons s r ih =>
    intro prev hp
    cases hp with
    | @cons _ a _ t h1 h2 =>
      have ih' := ih t h2
      simp only [List.map_cons, loadCols]
      have key : ∀ (x y : Option A) (u v : Option (List A)), x.map f = y.map f → u.map (List.map f) = v.map (List.map f) →
          (x.bind (fun x => u.map (fun y => x :: y))).map (List.map f) = (y.bind (fun x => v.map (fun y => x :: y))).map (List.map f) := by
        intro x y u v hxy huv
        cases x <;> cases y <;> cases u <;> cases v <;> simp_all
      refine key _ _ _ _ ?_ ih'
      unfold maskFor
      by_cases hp0 : pattern = 0
      · simp [hp0, loadOne]
      · simp only [hp0, if_false, loadOne]
        by_cases hm : dataMask sx qs s &&& pattern = 0
        · simp [hm]
        · simp only [hm, if_false]
          rw [← pl_masked_same sx lg h s hm, h1]
          simp [hfg]

/-- **C119.**  Reloading only what is not masked is as good as reloading all: if the array given is the one returned by an earlier call, and since
then only pods outside the pattern have changed, the call returns what a call without a pattern returns. -/
theorem C119_reload_is_full (sx : Syn L O) (lg : Lang L O A) (strip : A → A) (hs : ∀ a, strip (strip a) = strip a) (pattern : Nat)
    (ps qs : List (Store A)) (hc : ChangedOutside pattern ps qs) (names : List String) (arr0 : List A) (before : Loaded A)
    (hb : loadInto sx lg strip ps 0 names arr0 = some before) (ha : arr0.length = names.length) :
    (loadInto sx lg strip qs pattern names before.returned).map Loaded.returned =
      (loadInto sx lg strip qs 0 names arr0).map Loaded.returned := by
  have hm : ∀ rs : List (Store A), maskFor sx rs 0 = fun _ => none := by intro rs; funext s; simp [maskFor]
  have hb' := hb
  simp only [loadInto, hm, Option.map_eq_some_iff] at hb'
  obtain ⟨c, hc1, rfl⟩ := hb'
  have hden := (pl_cols_full sx lg ps 0 names arr0 c ha).1 hc1
  have hprev : List.Forall₂ (fun s a => loadItem sx lg ps s = some a) names c :=
    hden.imp (fun s a h => (pl_denotes sx lg ps s a).2 h)
  have h1 := pl_reload_cols sx lg strip hc names strip hs c hprev
  simp only [loadInto, hm, Option.map_map]
  have h2 : loadCols sx lg qs 0 (fun _ => none) names (c.map strip) = loadCols sx lg qs 0 (fun _ => none) names arr0 := by
    have hlen : (c.map strip).length = names.length := by simp [hden.length_eq]
    cases hx : loadCols sx lg qs 0 (fun _ => none) names (c.map strip) with
    | some u => exact ((pl_cols_full sx lg qs 0 names arr0 u ha).2 ((pl_cols_full sx lg qs 0 names _ u hlen).1 hx)).symm
    | none =>
      cases hy : loadCols sx lg qs 0 (fun _ => none) names arr0 with
      | none => rfl
      | some u =>
        have := (pl_cols_full sx lg qs 0 names _ u hlen).2 ((pl_cols_full sx lg qs 0 names arr0 u ha).1 hy)
        rw [hx] at this; cases this
  rw [← h2]
  exact h1

/-! ## Examples, and where the code falls short

Values are numbers or NaN (`none`). -/

def plSyn : Syn Nat Unit where
  tokens s := if s = "x + y" then ["x", "y"] else [s]
  parse s := if s = "x + y" then some (.op () (.name "x") (.name "y")) else none
  sound s e h n hn := by
    split at h
    · rename_i hs
      cases h
      simpa [Expr.names, hs] using hn
    · cases h

def plLang : Lang Nat Unit (Option Nat) where
  lit n := some n
  op _ a b := some (a.bind (fun x => b.map (fun y => x + y)))
  fn _ := none
  const _ := none

def plStrip (a : Option Nat) : Option Nat := some (a.getD 0)

/-- The hypotheses of C119 are met: `x` is in two pods, the first counts; after a change of the second pod only `y` and `x + y` are read again. -/
example : let ps : List (Store (Option Nat)) := [⟨1, [("x", some 3)]⟩, ⟨2, [("x", some 50), ("y", none)]⟩]
    let qs : List (Store (Option Nat)) := [⟨1, [("x", some 3)]⟩, ⟨2, [("x", some 60), ("y", some 4)]⟩]
    ChangedOutside 1 ps qs ∧
    (loadInto plSyn plLang plStrip ps 0 ["x", "y", "x + y"] [none, none, none]).map Loaded.returned = some [some 3, some 0, some 0] ∧
    (loadInto plSyn plLang plStrip qs 1 ["x", "y", "x + y"] [some 3, some 0, some 0]).map Loaded.returned = some [some 3, some 4, some 7] ∧
    getItems plSyn plLang (some 0) ps (.tuple ["x", "y"]) [] = some [some 3, none] := by
  refine ⟨?_, by decide, by decide, by decide⟩
  refine .cons ⟨rfl, by simp, by simp⟩ (.cons ⟨rfl, by simp, by simp [Holds]⟩ .nil)

/-- **C119, violated.**  The array given is documented as "the array into which the data shall be loaded", with NaN converted to zero; it is loaded,
but keeps the NaN, which only the returned copy has not. -/
theorem C119_fails_given_array_keeps_nan :
    ∃ (ps : List (Store (Option Nat))) (r : Loaded (Option Nat)), loadInto plSyn plLang plStrip ps 0 ["y"] [some 9] = some r ∧
      r.returned = [some 0] ∧ r.given = [none] :=
  ⟨[⟨0, [("y", none)]⟩], ⟨[none], [some 0]⟩, rfl, rfl, rfl⟩

/-- **C119, violated.**  `get_data_items` and `load_data_items` are documented to take a list of names; every list raises. -/
theorem C119_fails_list_of_names (sx : Syn L O) (lg : Lang L O A) (zero : A) (ps : List (Store A)) (l arg : List String) :
    getItems sx lg zero ps (.list l) arg = none := rfl

/-- **C119, violated.**  If a pod outside the pattern has lost a name, so that now a masked pod provides it, the old data stay in the array. -/
theorem C119_fails_reload_after_a_name_is_gone :
    ∃ (ps qs : List (Store (Option Nat))) (before : Loaded (Option Nat)),
      List.Forall₂ (fun p q => p.mask = q.mask ∧ (p.mask &&& 1 ≠ 0 → p.items = q.items)) ps qs ∧
      loadInto plSyn plLang plStrip ps 0 ["x"] [none] = some before ∧
      (loadInto plSyn plLang plStrip qs 0 ["x"] [none]).map Loaded.returned = some [some 5] ∧
      (loadInto plSyn plLang plStrip qs 1 ["x"] before.returned).map Loaded.returned = some [some 3] := by
  refine ⟨[⟨2, [("x", some 3)]⟩, ⟨1, [("x", some 5)]⟩], [⟨2, []⟩, ⟨1, [("x", some 5)]⟩], ⟨[some 3], [some 3]⟩, ?_, rfl, by decide, by decide⟩
  exact .cons ⟨rfl, by simp⟩ (.cons ⟨rfl, by simp⟩ .nil)

end Larch.Props
