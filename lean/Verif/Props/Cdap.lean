import Verif.Spec.Cdap
import Verif.Lemmas.LinearVal
import Mathlib.Algebra.BigOperators.Ring.List
import Mathlib.Tactic.Ring

/-!
# C97, C98, C99: models of coordinated daily activity patterns
-/

namespace Larch.Props

open Larch.Py Larch.Linear Larch.Cdap

/-! ## The alternatives -/

theorem products_length (n : Nat) : (products n).length = 3 ^ n := by
  induction n with
  | zero => rfl
  | succ n ih => simp [products, ih, pow_succ]; omega

theorem base3_lt (a : List Act) : base3 a < 3 ^ a.length := by
  induction a with
  | nil => simp [base3]
  | cons x l ih =>
    simp only [base3, List.length_cons, pow_succ]
    cases x <;> simp only [Act.digit] <;> omega

theorem products_get (n : Nat) : ∀ (i : Nat) (a : List Act), (products n)[i]? = some a ↔ a.length = n ∧ i = base3 a := by
  induction n with
  | zero =>
    intro i a
    cases i with
    | zero =>
      simp only [products, List.getElem?_cons_zero, Option.some.injEq]
      constructor
      · rintro rfl; simp [base3]
      · rintro ⟨h, _⟩; exact (List.length_eq_zero_iff.1 h).symm
    | succ i =>
      simp only [products, List.getElem?_cons_succ, List.getElem?_nil, reduceCtorEq, false_iff, not_and]
      intro h
      rw [List.length_eq_zero_iff.1 h]
      simp [base3]
  | succ n ih =>
    intro i a
    have hl := products_length n
    have e : products (n + 1) = (products n).map (fun l => Act.M :: l) ++ ((products n).map (fun l => Act.N :: l) ++
        (products n).map (fun l => Act.H :: l)) := by simp [products]
    have g : ∀ (x : Act) (j : Nat), ((products n).map (fun l => x :: l))[j]? = some a ↔
        ∃ l, a = x :: l ∧ l.length = n ∧ j = base3 l := by
      intro x j
      rw [List.getElem?_map, Option.map_eq_some_iff]
      constructor
      · rintro ⟨l, h, rfl⟩; exact ⟨l, rfl, (ih j l).1 h⟩
      · rintro ⟨l, rfl, h⟩; exact ⟨l, (ih j l).2 h, rfl⟩
    rw [e, List.getElem?_append, List.getElem?_append]
    simp only [List.length_map, hl]
    constructor
    · intro h
      split at h
      · obtain ⟨l, rfl, h1, h2⟩ := (g _ _).1 h
        exact ⟨by simp [h1], by simp [base3, Act.digit, h2]⟩
      · split at h
        · obtain ⟨l, rfl, h1, h2⟩ := (g _ _).1 h
          refine ⟨by simp [h1], ?_⟩
          simp only [base3, Act.digit, h1]; omega
        · obtain ⟨l, rfl, h1, h2⟩ := (g _ _).1 h
          refine ⟨by simp [h1], ?_⟩
          simp only [base3, Act.digit, h1]; omega
    · rintro ⟨h1, h2⟩
      cases a with
      | nil => simp at h1
      | cons x l =>
        have h1' : l.length = n := by simpa using h1
        have hb := base3_lt l
        simp only [base3, h1'] at h2 hb
        cases x <;> simp only [Act.digit] at h2
        · rw [if_pos (by omega)]; exact (g _ _).2 ⟨l, rfl, h1', by omega⟩
        · rw [if_neg (by omega), if_pos (by omega)]; exact (g _ _).2 ⟨l, rfl, h1', by omega⟩
        · rw [if_neg (by omega), if_neg (by omega)]; exact (g _ _).2 ⟨l, rfl, h1', by omega⟩

theorem mem_alternatives (n : Nat) (a : List Act) (c : Nat) :
    (a, c) ∈ alternatives n ↔ a.length = n ∧ c = patternCode a := by
  unfold alternatives
  rw [List.mem_iff_getElem?]
  simp only [List.getElem?_zip_eq_some, products_get]
  constructor
  · rintro ⟨i, ⟨h1, h2⟩, h3⟩
    refine ⟨h1, ?_⟩
    have hi : i < (List.range' 1 (products n).length).length := (List.getElem?_eq_some_iff.1 h3).1
    rw [List.getElem?_eq_getElem hi, List.getElem_range'] at h3
    have := Option.some.inj h3
    unfold patternCode
    omega
  · rintro ⟨h1, rfl⟩
    refine ⟨base3 a, ⟨h1, rfl⟩, ?_⟩
    rw [products_length]
    have := base3_lt a
    rw [h1] at this
    rw [List.getElem?_eq_getElem (by simpa using this), List.getElem_range']
    simp [patternCode]

/-- **C97 (alternatives).** For a household of any size the alternatives are exactly the patterns with one letter per person, each
with its number in base three plus one as code. -/
theorem C97_alternatives (n : Nat) (a : List Act) (c : Nat) :
    (a, c) ∈ alternatives n ↔ a.length = n ∧ c = patternCode a := mem_alternatives n a c

/-- **C97 (codes).** The codes are 1, 2, ..., 3^n in this order; there are as many alternatives; no name and no code appears twice. -/
theorem C97_codes (n : Nat) : (alternatives n).map Prod.snd = List.range' 1 (3 ^ n) ∧ (alternatives n).length = 3 ^ n ∧
    ((alternatives n).map Prod.fst).Nodup ∧ ((alternatives n).map Prod.snd).Nodup := by
  have h2 : (alternatives n).map Prod.snd = List.range' 1 (3 ^ n) := by
    unfold alternatives
    rw [List.map_snd_zip (by simp), products_length]
  have h1 : (alternatives n).map Prod.fst = products n := by
    unfold alternatives
    rw [List.map_fst_zip (by simp)]
  refine ⟨h2, ?_, ?_, ?_⟩
  · rw [← products_length n, ← h1, List.length_map]
  · rw [h1, List.nodup_iff_injective_getElem]
    intro i j h
    have e1 := (products_get n i.1 _).1 (List.getElem?_eq_getElem i.2)
    have e2 := (products_get n j.1 _).1 (List.getElem?_eq_getElem j.2)
    have h' : (products n)[i.1] = (products n)[j.1] := h
    rw [h'] at e1
    exact Fin.ext (e1.2.trans e2.2.symm)
  · rw [h2]; exact List.nodup_range'

/-- **C97 (one code, one pattern).** Two patterns of the same household size have the same code only if they are equal. -/
theorem C97_injective (a b : List Act) (h : a.length = b.length) (hc : patternCode a = patternCode b) : a = b := by
  have h1 := (products_get b.length (base3 b) a).2 ⟨h, by unfold patternCode at hc; omega⟩
  have h2 := (products_get b.length (base3 b) b).2 ⟨rfl, rfl⟩
  rw [h1] at h2
  exact Option.some.inj h2

example : (alternatives 2).length = 9 ∧ ([Act.H, .N], 8) ∈ alternatives 2 := by
  refine ⟨by decide +kernel, ?_⟩
  rw [mem_alternatives]
  decide

/-! ## Running the additions -/

theorem run_get (u : Nat → List Comp) (ev : List (Nat × Comp)) (c : Nat) :
    run u ev c = u c ++ (ev.filter (fun e => e.1 = c)).map Prod.snd := by
  induction ev generalizing u with
  | nil => simp [run]
  | cons e ev ih =>
    unfold run at ih ⊢
    rw [List.foldl_cons, ih]
    by_cases h : e.1 = c
    · subst h; simp
    · have h' : c ≠ e.1 := fun hh => h hh.symm
      simp [h, Function.update_of_ne h']

theorem filter_flatMap {α β : Type} (l : List α) (f : α → List β) (q : β → Bool) :
    (l.flatMap f).filter q = l.flatMap (fun x => (f x).filter q) := by
  induction l with
  | nil => rfl
  | cons x l ih => simp [ih]

theorem flatMap_congr_mem {α β : Type} {l : List α} {f g : α → List β} (h : ∀ x ∈ l, f x = g x) : l.flatMap f = l.flatMap g := by
  induction l with
  | nil => rfl
  | cons x l ih => rw [List.flatMap_cons, List.flatMap_cons, h x (by simp), ih (fun y hy => h y (by simp [hy]))]

/-- Among additions made per alternative, those for one alternative. -/
theorem filter_alts {n : Nat} {a : List Act} (ha : a.length = n) (g : List Act × Nat → List (Nat × Comp))
    (hg : ∀ b ∈ alternatives n, ∀ e ∈ g b, e.1 = b.2) :
    (((alternatives n).flatMap g).filter (fun e => e.1 = patternCode a)) = g (a, patternCode a) := by
  have hm : (a, patternCode a) ∈ alternatives n := (mem_alternatives n _ _).2 ⟨ha, rfl⟩
  have hnd := (C97_codes n).2.2.2
  generalize alternatives n = l at *
  rw [filter_flatMap]
  induction l with
  | nil => cases hm
  | cons b l ih =>
    rw [List.map_cons, List.nodup_cons] at hnd
    rw [List.flatMap_cons]
    rcases List.mem_cons.1 hm with h | h
    · rw [← h] at hnd hg
      have e1 : (g (a, patternCode a)).filter (fun e => e.1 = patternCode a) = g (a, patternCode a) := by
        rw [List.filter_eq_self]
        intro e he
        simpa using hg _ (by simp) e he
      have e2 : l.flatMap (fun x => (g x).filter (fun e => e.1 = patternCode a)) = [] := by
        rw [List.flatMap_eq_nil_iff]
        intro b' hb'
        rw [List.filter_eq_nil_iff]
        intro e he
        simp only [decide_eq_true_eq]
        intro hh
        exact hnd.1 (List.mem_map.2 ⟨b', hb', by rw [← hg b' (by simp [hb']) e he, hh]⟩)
      rw [← h, e1, e2, List.append_nil]
    · have e1 : (g b).filter (fun e => e.1 = patternCode a) = [] := by
        rw [List.filter_eq_nil_iff]
        intro e he
        simp only [decide_eq_true_eq]
        intro hh
        exact hnd.1 (List.mem_map.2 ⟨_, h, by rw [← hg b (by simp) e he, hh]⟩)
      rw [e1, List.nil_append]
      exact ih (fun b' hb' => hg b' (by simp [hb'])) h hnd.2

variable {env : Env} {p : String → ℝ}

theorem func_flatMap {α : Type} (l : List α) (f : α → List Comp) (g : α → ℝ) (h : ∀ x ∈ l, FuncHas env p (f x) (g x)) :
    FuncHas env p (l.flatMap f) ((l.map g).sum) := by
  induction l with
  | nil => exact .nil
  | cons x l ih =>
    rw [List.flatMap_cons, List.map_cons, List.sum_cons]
    exact func_append (h x (by simp)) (ih (fun y hy => h y (by simp [hy])))

/-! ## Renaming for a person -/

def renTok (ρ : String → String) : Tok → Tok
  | .name s => .name (ρ s)
  | t => t

def renE (ρ : String → String) : E → E
  | .var s => .var (ρ s)
  | .lit v => .lit v
  | .call f e => .call (ρ f) (renE ρ e)
  | .neg e => .neg (renE ρ e)
  | .pos e => .pos (renE ρ e)
  | .inv e => .inv (renE ρ e)
  | .bin o a b => .bin o (renE ρ a) (renE ρ b)
  | .eq a b => .eq (renE ρ a) (renE ρ b)

def renGoal (ρ : String → String) : Goal → Goal
  | .loop l acc => .loop l (renE ρ acc)
  | g => g

theorem hd_ren {q : Tok → Bool} (ρ : String → String) (hq : ∀ t, q (renTok ρ t) = q t) {ts : List Tok} (h : hd q ts) :
    hd q (ts.map (renTok ρ)) := by
  cases ts with
  | nil => exact hd_nil
  | cons t ts => rw [List.map_cons, hd_cons, hq]; exact hd_cons.1 h

theorem renGoal_next (ρ : String → String) (l : Nat) : renGoal ρ (next l) = next l := by
  unfold next; split <;> rfl

theorem rd_ren (ρ : String → String) {g ts e r} (h : Rd g ts e r) :
    Rd (renGoal ρ g) (ts.map (renTok ρ)) (renE ρ e) (r.map (renTok ρ)) := by
  induction h with
  | cmp0 _ h ih => exact .cmp0 ih (hd_ren ρ (by intro t; cases t <;> rfl) h)
  | cmp1 _ _ h ih1 ih2 => exact .cmp1 ih1 ih2 (hd_ren ρ (by intro t; cases t <;> rfl) h)
  | bin _ _ ih1 ih2 => exact .bin (by rw [← renGoal_next ρ]; exact ih1) ih2
  | stop h => exact .stop (hd_ren ρ (by intro t; cases t <;> rfl) h)
  | step ho _ _ ih1 ih2 => exact .step ho (by rw [← renGoal_next ρ]; exact ih1) ih2
  | neg _ ih => exact .neg ih
  | pos _ ih => exact .pos ih
  | inv _ ih => exact .inv ih
  | un h _ ih => exact .un (hd_ren ρ (by intro t; cases t <;> rfl) h) ih
  | pw0 _ h ih => exact .pw0 ih (hd_ren ρ (by intro t; cases t <;> rfl) h)
  | pw1 _ _ ih1 ih2 => exact .pw1 ih1 ih2
  | var h => exact .var (hd_ren ρ (by intro t; cases t <;> rfl) h)
  | call _ ih => exact .call ih
  | num => exact .num
  | par _ ih => exact .par ih

theorem has_ren (ρ : String → String) (env : Env) {e : E} {x : ℝ}
    (h : e.Has { env with var := fun s => env.var (ρ s), call := fun s => env.call (ρ s) } x) : (renE ρ e).Has env x := by
  induction h with
  | var => exact .var
  | lit => exact .lit
  | call _ ih => exact .call ih
  | neg _ ih => exact .neg ih
  | pos _ ih => exact .pos ih
  | inv _ ih => exact .inv ih
  | @bin o a b x y _ _ h ih1 ih2 =>
    have := E.Has.bin ih1 ih2 h
    cases o <;> exact this
  | eq _ _ ih1 ih2 => exact .eq ih1 ih2

theorem foldl_map_tok (pr : String) (tokens : List String) (e : List Tok) :
    tokens.foldl (fun e i => e.map (renameTok pr i)) e = e.map (fun t => tokens.foldl (fun t i => renameTok pr i t) t) := by
  induction tokens generalizing e with
  | nil => simp
  | cons i l ih => rw [List.foldl_cons, ih, List.map_map]; rfl

theorem foldl_rename (pr : String) (tokens : List String) (s : String) (hc : ∀ i ∈ tokens, pr ++ "_" ++ i ∉ tokens) :
    tokens.foldl (fun t i => renameTok pr i t) (.name s) = .name (if s ∈ tokens then pr ++ "_" ++ s else s) := by
  have fix : ∀ (l : List String) (s : String), s ∉ l → l.foldl (fun t i => renameTok pr i t) (.name s) = .name s := by
    intro l
    induction l with
    | nil => intro s _; rfl
    | cons i l ih =>
      intro s hs
      simp only [List.mem_cons, not_or] at hs
      rw [List.foldl_cons, renameTok, if_neg hs.1]
      exact ih s hs.2
  induction tokens with
  | nil => simp
  | cons i l ih =>
    rw [List.foldl_cons, renameTok]
    by_cases h : s = i
    · subst h
      rw [if_pos rfl, fix l _ (fun hh => hc s (by simp) (by simp [hh]))]
      simp
    · rw [if_neg h, ih (fun j hj hh => hc j (by simp [hj]) (by simp [hh]))]
      simp [h]

/-- The expression with the person's prefix on the given names. -/
theorem replacements_eq (e : List Tok) (k : Nat) (tokens : List String) (hc : ∀ i ∈ tokens, "p" ++ toString k ++ "_" ++ i ∉ tokens) :
    applyReplacements e (pre k) tokens = e.map (renTok (personName k tokens)) := by
  unfold applyReplacements
  rw [foldl_map_tok]
  apply List.map_congr_left
  intro t _
  have other : ∀ t : Tok, (∀ s, t ≠ .name s) → tokens.foldl (fun t i => renameTok (pre k) i t) t = t := by
    intro t ht
    induction tokens with
    | nil => rfl
    | cons i l ih =>
      have : renameTok (pre k) i t = t := by cases t <;> first | rfl | exact absurd rfl (ht _)
      rw [List.foldl_cons, this]
      exact ih (fun j hj hh => hc j (by simp [hj]) (List.mem_cons_of_mem _ hh))
  cases t with
  | name s => exact foldl_rename (pre k) tokens s hc
  | _ => exact other _ (by intro s; simp)

theorem replaced_has (e : List Tok) (k : Nat) (tokens : List String) (hc : ∀ i ∈ tokens, "p" ++ toString k ++ "_" ++ i ∉ tokens)
    {x : ℝ} (h : Py.Has (personEnv env k tokens) e x) : Py.Has env (applyReplacements e (pre k) tokens) x := by
  obtain ⟨t, h1, h2⟩ := h
  rw [replacements_eq e k tokens hc]
  exact ⟨_, rd_ren _ h1, has_ren _ env h2⟩

/-! ## Base utility -/

theorem spec_sum (spec : List PRow) (xs : List ℝ) (act : Act) (d : PRow → List Tok)
    (h : List.Forall₂ (fun r x => Py.Has env (d r) x) spec xs) :
    FuncHas env p (spec.flatMap (fun r => (r.coef act).toList.map (fun c => (⟨c, d r, 1⟩ : Comp)))) (List.zipWith (PRow.value p act) spec xs).sum := by
  induction h with
  | nil => exact .nil
  | @cons r x spec xs h1 _ ih =>
    rw [List.flatMap_cons, List.zipWith_cons_cons, List.sum_cons]
    refine func_append ?_ ih
    unfold PRow.value
    cases r.coef act with
    | none => exact .nil
    | some c => exact func_single ⟨x, h1, by simp⟩

/-- **C98 (base utility).** For a household of two or more persons: the utility of every pattern grows by the sum, over the persons
and over the rows of the spec with a coefficient for the activity of that person in the pattern, of the parameter times the value of
the expression for that person, i.e. with the person's own columns. -/
theorem C98_base (env : Env) (p : String → ℝ) (n : Nat) (hn : 2 ≤ n) (spec : List PRow) (tokens : List String)
    (hc : ∀ k, 1 ≤ k → k ≤ n → ∀ i ∈ tokens, "p" ++ toString k ++ "_" ++ i ∉ tokens) (xs : Nat → List ℝ)
    (hx : ∀ k, 1 ≤ k → k ≤ n → List.Forall₂ (fun r x => Py.Has (personEnv env k tokens) r.expr x) spec (xs k))
    (u : Nat → List Comp) (a : List Act) (ha : a.length = n) (z : ℝ) (hu : FuncHas env p (u (patternCode a)) z) :
    FuncHas env p (run u (baseEvents n spec tokens) (patternCode a))
      (z + ((a.zip (List.range' 1 n)).map (fun k => (List.zipWith (PRow.value p k.1) spec (xs k.2)).sum)).sum) := by
  rw [run_get]
  refine func_append hu ?_
  unfold baseEvents
  rw [if_neg (by omega), filter_flatMap]
  have e : ∀ pnum ∈ List.range' 1 n, ((spec.flatMap (fun r => (alternatives n).flatMap (fun a =>
      (a.1[pnum - 1]?.bind r.coef).toList.map (fun c =>
        (a.2, (⟨c, applyReplacements r.expr (pre pnum) tokens, 1⟩ : Comp)))))).filter
        (fun e => e.1 = patternCode a)).map Prod.snd = spec.flatMap (fun r => (a[pnum - 1]?.bind r.coef).toList.map (fun c =>
          (⟨c, applyReplacements r.expr (pre pnum) tokens, 1⟩ : Comp))) := by
    intro pnum _
    rw [filter_flatMap, List.map_flatMap]
    apply flatMap_congr_mem
    intro r _
    rw [filter_alts ha]
    · rw [List.map_map]; rfl
    · intro b _ e he
      obtain ⟨c, _, rfl⟩ := List.mem_map.1 he
      rfl
  rw [List.map_flatMap, flatMap_congr_mem e]
  have e2 : (a.zip (List.range' 1 n)).map (fun k => (List.zipWith (PRow.value p k.1) spec (xs k.2)).sum) =
      (List.range' 1 n).map (fun k => match a[k - 1]? with
        | none => 0
        | some act => (List.zipWith (PRow.value p act) spec (xs k)).sum) := by
    apply List.ext_getElem?
    intro i
    rw [List.getElem?_map, List.getElem?_map]
    by_cases hi : i < n
    · have h1 : a[i]? = some (a[i]'(by omega)) := List.getElem?_eq_getElem _
      have h3 : (List.range' 1 n)[i]? = some (1 + i) := by
        rw [List.getElem?_eq_getElem (by simpa using hi), List.getElem_range', one_mul]
      have h2 : (a.zip (List.range' 1 n))[i]? = some (a[i]'(by omega), 1 + i) := by
        rw [List.getElem?_zip_eq_some]
        exact ⟨h1, h3⟩
      rw [h2, h3]
      simp only [Option.map_some, Nat.add_sub_cancel_left, h1]
    · have h2 : (a.zip (List.range' 1 n))[i]? = none := by
        rw [List.getElem?_eq_none_iff]; simp; omega
      have h3 : (List.range' 1 n)[i]? = none := by
        rw [List.getElem?_eq_none_iff]; simp; omega
      rw [h2, h3]
      rfl
  rw [e2]
  apply func_flatMap
  intro k hk
  rw [List.mem_range'_1] at hk
  have h1 : a[k - 1]? = some (a[k - 1]'(by omega)) := List.getElem?_eq_getElem _
  rw [h1]
  refine spec_sum spec (xs k) _ (fun r => applyReplacements r.expr (pre k) tokens) ?_
  exact forall2_imp_mem (hx k (by omega) (by omega)) (fun r _ x h => replaced_has r.expr k tokens (hc k (by omega) (by omega)) h)

/-- **C98 (one person).** For households of one person the columns are used as they are named. -/
theorem C98_single (env : Env) (p : String → ℝ) (spec : List PRow) (tokens : List String) (xs : List ℝ)
    (hx : List.Forall₂ (fun r x => Py.Has env r.expr x) spec xs) (u : Nat → List Comp) (a : Act) (z : ℝ)
    (hu : FuncHas env p (u (patternCode [a])) z) :
    FuncHas env p (run u (baseEvents 1 spec tokens) (patternCode [a])) (z + (List.zipWith (PRow.value p a) spec xs).sum) := by
  rw [run_get]
  refine func_append hu ?_
  unfold baseEvents
  rw [if_pos rfl, filter_flatMap, List.map_flatMap]
  have e : ∀ r ∈ spec, (([(Act.M, 1), (Act.N, 2), (Act.H, 3)].flatMap (fun a =>
      (r.coef a.1).toList.map (fun c => (a.2, (⟨c, r.expr, 1⟩ : Comp))))).filter (fun e => e.1 = patternCode [a])).map Prod.snd =
      (r.coef a).toList.map (fun c => (⟨c, r.expr, 1⟩ : Comp)) := by
    intro r _
    cases a <;> cases h1 : r.coef .M <;> cases h2 : r.coef .N <;> cases h3 : r.coef .H <;>
      simp [h1, h2, h3, patternCode, base3, Act.digit]
  rw [flatMap_congr_mem e]
  exact spec_sum spec xs a (fun r => r.expr) hx

/-- **C98 (nothing else).** Utilities with a code that is not the code of a pattern are not changed. -/
theorem C98_only (n : Nat) (hn : 1 ≤ n) (spec : List PRow) (tokens : List String) (u : Nat → List Comp) (c : Nat)
    (h : c = 0 ∨ 3 ^ n < c) : run u (baseEvents n spec tokens) c = u c := by
  rw [run_get]
  have key : ∀ e ∈ baseEvents n spec tokens, 1 ≤ e.1 ∧ e.1 ≤ 3 ^ n := by
    intro e he
    unfold baseEvents at he
    split at he
    · rename_i h1
      subst h1
      obtain ⟨r, _, he⟩ := List.mem_flatMap.1 he
      obtain ⟨q, hq, he⟩ := List.mem_flatMap.1 he
      cases hr : r.coef q.1 with
      | none => simp [hr] at he
      | some c =>
        simp only [hr, Option.toList, List.map_cons, List.map_nil, List.mem_singleton] at he
        simp only [List.mem_cons, List.not_mem_nil, or_false] at hq
        rcases hq with rfl | rfl | rfl <;> subst he <;> simp
    · obtain ⟨k, _, he⟩ := List.mem_flatMap.1 he
      obtain ⟨r, _, he⟩ := List.mem_flatMap.1 he
      obtain ⟨b, hb, he⟩ := List.mem_flatMap.1 he
      have hb2 := (mem_alternatives n b.1 b.2).1 hb
      have hlt := base3_lt b.1
      rw [hb2.1] at hlt
      have : e.1 = b.2 := by
        obtain ⟨c, _, rfl⟩ := List.mem_map.1 he
        rfl
      rw [this, hb2.2]
      unfold patternCode
      omega
  have : (baseEvents n spec tokens).filter (fun e => e.1 = c) = [] := by
    rw [List.filter_eq_nil_iff]
    intro e he
    have := key e he
    simp only [decide_eq_true_eq]
    omega
  rw [this]
  simp

/-- **C98 violated (columns already prefixed).** If the data has a column whose name is another column's name with a person's prefix,
the prefix is put on twice: the utility refers to a column of neither. -/
theorem C98_fails_prefixed : ∃ c, (patternCode [.M, .M], c) ∈ baseEvents 2 [⟨[.name "age"], fun _ => some "b"⟩] ["age", "p1_age"] ∧
    c.data = [.name "p1_p1_age"] := by
  refine ⟨⟨"b", [.name "p1_p1_age"], 1⟩, ?_, rfl⟩
  unfold baseEvents
  rw [if_neg (by decide)]
  refine List.mem_flatMap.2 ⟨1, by simp, List.mem_flatMap.2 ⟨_, List.mem_singleton.2 rfl, List.mem_flatMap.2
    ⟨([.M, .M], patternCode [.M, .M]), (mem_alternatives 2 _ _).2 ⟨rfl, rfl⟩, ?_⟩⟩⟩
  have e1 : pre 1 = "p1" := by decide +kernel
  have e2 : ("p1" ++ "_" ++ "age" : String) = "p1_age" := by decide +kernel
  have e3 : ("p1" ++ "_" ++ "p1_age" : String) = "p1_p1_age" := by decide +kernel
  simp [applyReplacements, renameTok, e1, e2, e3]

/-- A two-person household; the expression of the only row is the person's age. -/
example : ∃ (env : Env) (xs : Nat → List ℝ), (∀ k, 1 ≤ k → k ≤ 2 → ∀ i ∈ ["age"], "p" ++ toString k ++ "_" ++ i ∉ ["age"]) ∧
    (∀ k, 1 ≤ k → k ≤ 2 → List.Forall₂ (fun r x => Py.Has (personEnv env k ["age"]) r.expr x) [(⟨[.name "age"], fun _ => some "b"⟩ : PRow)] (xs k)) ∧
    xs 1 = [40] ∧ xs 2 = [7] := by
  refine ⟨⟨fun s => if s = "p1_age" then 40 else 7, fun _ x => x, fun x _ => x, fun x _ => x, fun x _ => x, fun x _ => x, fun x _ => x,
    fun x => x⟩, fun k => if k = 1 then [40] else [7], ?_, ?_, rfl, rfl⟩
  · intro k h1 h2 i hi
    obtain rfl := List.mem_singleton.1 hi
    have : k = 1 ∨ k = 2 := by omega
    rcases this with rfl | rfl <;> decide +kernel
  · intro k h1 h2
    have hk : k = 1 ∨ k = 2 := by omega
    have hr : Reads [Tok.name "age"] (.var "age") :=
      .cmp0 (Rd.toBin (Rd.toUn (.var hd_nil) hd_nil) _ 1 rfl (by omega) (fun _ _ _ => hd_nil)) hd_nil
    have n1 : personName 1 ["age"] "age" = "p1_age" := by decide +kernel
    have n2 : personName 2 ["age"] "age" = "p2_age" := by decide +kernel
    rcases hk with rfl | rfl
    · refine .cons ⟨_, hr, ?_⟩ .nil
      have := @E.Has.var (personEnv ⟨fun s => if s = "p1_age" then 40 else 7, fun _ x => x, fun x _ => x, fun x _ => x,
        fun x _ => x, fun x _ => x, fun x _ => x, fun x => x⟩ 1 ["age"]) "age"
      simpa [personEnv, n1] using this
    · refine .cons ⟨_, hr, ?_⟩ .nil
      have := @E.Has.var (personEnv ⟨fun s => if s = "p1_age" then 40 else 7, fun _ x => x, fun x _ => x, fun x _ => x,
        fun x _ => x, fun x _ => x, fun x _ => x, fun x => x⟩ 2 ["age"]) "age"
      simpa [personEnv, n2] using this

end Larch.Props
