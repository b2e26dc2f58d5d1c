import Verif.Spec.PodExpr
import Mathlib.Algebra.Order.Ring.Rat
import Mathlib.Tactic.NormNum

/-!
# C189: the data a pod gives for an expression are the values of the expression at the cases
-/

namespace Larch.Props

open Larch.PodExpr Larch.PodExprSpec

set_option linter.unusedSectionVars false

variable {K : Type} [DecidableEq K] [Zero K] [One K]

theorem px_congr (x y : String → K) (e : Expr K) (h : ∀ n ∈ namesIn e, x n = y n) : valueAt x e = valueAt y e := by
  induction e with
  | var n => exact h n (by simp [namesIn])
  | lit k => rfl
  | un f e ih => simp only [valueAt]; rw [ih h]
  | bin f a b iha ihb =>
    simp only [valueAt]
    rw [iha (fun n hn => h n (by simp [namesIn, hn])), ihb (fun n hn => h n (by simp [namesIn, hn]))]
  | cmp f a b iha ihb =>
    simp only [valueAt]
    rw [iha (fun n hn => h n (by simp [namesIn, hn])), ihb (fun n hn => h n (by simp [namesIn, hn]))]
  | isIn neg a s ih => simp only [valueAt]; rw [ih h]
  | whole f e _ => rfl

/-- What is found for an expression: a number, or an array. -/
def pxValue (ps : List Nat) (x : Nat → String → K) (e : Expr K) : Val K :=
  if namesIn e = [] then .scalar (valueAt (fun _ => 0) e) else .array (ps.map (fun i => valueAt (x i) e))

theorem px_const (x : String → K) (e : Expr K) (h : namesIn e = []) : valueAt x e = valueAt (fun _ => 0) e :=
  px_congr _ _ e (by simp [h])

theorem px_spread (ps : List Nat) (x : Nat → String → K) (f : K → K → K) (a b : Expr K) (v : Expr K) (hv : namesIn v = namesIn a ++ namesIn b)
    (hx : ∀ y, valueAt y v = f (valueAt y a) (valueAt y b)) : spread f (pxValue ps x a) (pxValue ps x b) = .ok (pxValue ps x v) := by
  unfold pxValue
  rw [hv]
  by_cases ha : namesIn a = [] <;> by_cases hb : namesIn b = []
  · simp [ha, hb, spread, hx]
  · simp [ha, hb, spread, hx, List.map_map, Function.comp_def, px_const _ a ha]
  · simp [ha, hb, spread, hx, List.map_map, Function.comp_def, px_const _ b hb]
  · simp [ha, hb, spread, hx, List.zipWith_map, List.zipWith_self]

theorem px_each (ps : List Nat) (x : Nat → String → K) (f : K → K) (e : Expr K) : each f (pxValue ps x e) = pxValue ps x (.un f e) := by
  unfold pxValue
  by_cases h : namesIn e = []
  · simp [h, namesIn, each, valueAt]
  · simp [h, namesIn, each, valueAt, List.map_map, Function.comp_def]

theorem px_raw (env : String → Except Fault (List K)) (ps : List Nat) (x : Nat → String → K) (e : Expr K) (hs : Simple e)
    (h : ∀ n ∈ namesIn e, env n = .ok (ps.map (fun i => x i n))) : ev env (raw e) = .ok (pxValue ps x e) := by
  induction e with
  | var n =>
    simp only [raw, ev]
    rw [h n (by simp [namesIn])]
    simp [pxValue, namesIn, valueAt, Except.map]
  | lit k => simp [raw, ev, pxValue, namesIn, valueAt]
  | un f e ih =>
    simp only [raw, ev]
    rw [ih hs h]
    simp only [Except.map, px_each]
  | bin f a b iha ihb =>
    simp only [raw, ev]
    rw [iha hs.1 (fun n hn => h n (by simp [namesIn, hn])), ihb hs.2 (fun n hn => h n (by simp [namesIn, hn]))]
    exact px_spread ps x f a b _ rfl (fun _ => rfl)
  | cmp f a b iha ihb =>
    simp only [raw, ev]
    rw [iha hs.1 (fun n hn => h n (by simp [namesIn, hn])), ihb hs.2 (fun n hn => h n (by simp [namesIn, hn]))]
    exact px_spread ps x f a b _ rfl (fun _ => rfl)
  | isIn neg a s _ => exact absurd hs id
  | whole f e _ => exact absurd hs id

theorem px_among (neg : Bool) (s : List K) (x : String → K) (a : Expr K) : among neg s (valueAt x a) = valueAt x (.isIn neg a s) := by
  unfold among truth
  simp only [valueAt]
  by_cases h : valueAt x a ∈ s <;> cases neg <;> simp [h]

theorem px_ev (env : String → Except Fault (List K)) (ps : List Nat) (x : Nat → String → K) (e : Expr K) (hs : Plain e)
    (h : ∀ n ∈ namesIn e, env n = .ok (ps.map (fun i => x i n))) : ev env (asterize e) = .ok (pxValue ps x e) := by
  induction e with
  | var n =>
    simp only [asterize, ev]
    rw [h n (by simp [namesIn])]
    simp [pxValue, namesIn, valueAt, Except.map]
  | lit k => simp [asterize, ev, pxValue, namesIn, valueAt]
  | un f e ih =>
    simp only [asterize, ev]
    rw [ih hs h]
    simp only [Except.map, px_each]
  | bin f a b iha ihb =>
    simp only [asterize, ev]
    rw [iha hs.1 (fun n hn => h n (by simp [namesIn, hn])), ihb hs.2 (fun n hn => h n (by simp [namesIn, hn]))]
    exact px_spread ps x f a b _ rfl (fun _ => rfl)
  | cmp f a b _ _ =>
    simp only [asterize, ev]
    rw [px_raw env ps x a hs.1 (fun n hn => h n (by simp [namesIn, hn])), px_raw env ps x b hs.2 (fun n hn => h n (by simp [namesIn, hn]))]
    exact px_spread ps x f a b _ rfl (fun _ => rfl)
  | isIn neg a s _ =>
    simp only [asterize, ev]
    rw [px_raw env ps x a hs.1 h]
    have ha : namesIn a ≠ [] := hs.2
    simp [pxValue, ha, namesIn, Except.bind, numpyIn, px_among, List.map_map, Function.comp_def]
  | whole f e _ => exact absurd hs id

theorem px_fill (m : Nat) (l : List K) (h : l.length = m) : fill m (.array l) = .ok l := by
  match l, h with
  | [], h => simpa [fill] using h
  | [x], h => subst h; rfl
  | x :: y :: r, h => simp [fill, h]

theorem px_pick (sel : Option (List Nat)) (l : List K) (n : Nat) (hl : l.length = n) (hw : ∀ i ∈ sel.getD (List.range n), i < n) :
    pick sel l = (sel.getD (List.range n)).map (fun i => (l[i]?).getD 0) := by
  cases sel with
  | none =>
    simp only [pick, Option.getD_none]
    apply List.ext_getElem
    · simp [hl]
    · intro i h1 h2
      simp [List.getElem?_eq_getElem h1]
  | some p =>
    simp only [pick, Option.getD_some] at hw ⊢
    induction p with
    | nil => rfl
    | cons i r ih =>
      have hi : i < l.length := by rw [hl]; exact hw i (by simp)
      simp [List.getElem?_eq_getElem hi, ih (fun j hj => hw j (by simp [hj]))]

theorem px_lookup (v : List (String × List K)) (n : String) (h : n ∈ v.map Prod.fst) : ∃ l, v.lookup n = some l ∧ (n, l) ∈ v := by
  induction v with
  | nil => simp at h
  | cons a r ih =>
    obtain ⟨m, k⟩ := a
    by_cases hm : n = m
    · subst hm
      exact ⟨k, by simp, by simp⟩
    · obtain ⟨l, h1, h2⟩ := ih (by simpa [hm] using h)
      refine ⟨l, ?_, List.mem_cons_of_mem _ h2⟩
      rw [List.lookup_cons, show (n == m) = false by simpa using hm]
      exact h1

theorem px_fetch (p : Pod K) (hp : Whole p) (sel : Option (List Nat)) (hw : Within p sel) (n : String) (hn : n ∈ p.vars.map Prod.fst) :
    fetch p sel n = .ok ((positions p sel).map (fun i => stored p i n)) := by
  obtain ⟨l, hl, hm⟩ := px_lookup p.vars n hn
  unfold fetch
  simp only [hl]
  have := px_pick sel l p.cases (hp _ hm) hw
  rw [this]
  unfold positions stored
  simp [hl]

theorem px_hasVar (e : Expr K) : hasVar e = true ↔ namesIn e ≠ [] := by
  induction e with
  | var n => simp [hasVar, namesIn]
  | lit k => simp [hasVar, namesIn]
  | un f e ih => simpa [hasVar, namesIn] using ih
  | bin f a b iha ihb => simp only [hasVar, Bool.or_eq_true, iha, ihb, namesIn]; simp; tauto
  | cmp f a b iha ihb => simp only [hasVar, Bool.or_eq_true, iha, ihb, namesIn]; simp; tauto
  | isIn neg a s ih => simpa [hasVar, namesIn] using ih
  | whole f e ih => simpa [hasVar, namesIn] using ih

theorem px_evaluate (p : Pod K) (hp : Whole p) (sel : Option (List Nat)) (hw : Within p sel) (e : Expr K) (he : Plain e) (hn : ∀ n ∈ namesIn e, n ∈ p.vars.map Prod.fst) :
    evaluate p sel e = .ok (pxValue (positions p sel) (stored p) e) :=
  px_ev _ _ _ e he (fun n h => px_fetch p hp sel hw n (hn n h))

theorem px_selected (p : Pod K) (sel : Option (List Nat)) : (positions p sel).length = selected p sel := by
  cases sel <;> simp [positions, selected]

theorem px_filled (p : Pod K) (sel : Option (List Nat)) (e : Expr K) :
    fill (selected p sel) (pxValue (positions p sel) (stored p) e) = .ok ((positions p sel).map (fun i => valueAt (stored p i) e)) := by
  unfold pxValue
  split_ifs with h
  · simp only [fill]
    congr 1
    apply List.ext_getElem
    · simp [px_selected]
    · intro i h1 h2
      simp [px_const _ e h]
  · exact px_fill _ _ (by simp [px_selected])

/-- C189: the data loaded for an expression are its values at the selected cases, in the order of the selection, whether or not the file library takes the
selector itself; `in` and `not in` mean membership case by case. -/
theorem C189_value (p : Pod K) (hp : Whole p) (native : Bool) (sel : Option (List Nat)) (hw : Within p sel) (e : Expr K) (he : Plain e)
    (hn : ∀ n ∈ namesIn e, n ∈ p.vars.map Prod.fst) :
    loadItem p native sel e = .ok ((positions p sel).map (fun i => valueAt (stored p i) e)) := by
  unfold loadItem
  split_ifs with h
  · simp only [Bool.and_eq_true] at h
    have hv := (px_hasVar e).1 h.2
    rw [px_evaluate p hp none (by intro i hi; simpa [positions] using hi) e he hn]
    simp only [Except.bind, pxValue, if_neg hv, reselect, positions, Option.getD_none]
    cases sel with
    | none => simp at h
    | some s =>
      have hw' : ∀ i ∈ s, i < p.cases := hw
      have : pick (some s) ((List.range p.cases).map (fun i => valueAt (stored p i) e)) = s.map (fun i => valueAt (stored p i) e) := by
        rw [px_pick (some s) _ p.cases (by simp) hw']
        simp only [Option.getD_some]
        apply List.map_congr_left
        intro i hi
        simp [hw' i hi]
      rw [this]
      exact px_fill _ _ (by simp [selected])
  · rw [px_evaluate p hp sel hw e he hn]
    exact px_filled p sel e

theorem px_raw_unknown (env : String → Except Fault (List K)) (e : Expr K) (n : String) (hn : n ∈ namesIn e) (h : ∃ x, env n = .error x) :
    ∃ x, ev env (raw e) = .error x := by
  obtain ⟨x, hx⟩ := h
  induction e with
  | var m =>
    simp only [namesIn, List.mem_singleton] at hn
    subst hn
    exact ⟨x, by simp [raw, ev, hx, Except.map]⟩
  | lit k => simp [namesIn] at hn
  | un f e ih => obtain ⟨y, hy⟩ := ih hn; exact ⟨y, by simp [raw, ev, hy, Except.map]⟩
  | bin f a b iha ihb =>
    simp only [namesIn, List.mem_append] at hn
    rcases ha : ev env (raw a) with y | v
    · exact ⟨y, by simp [raw, ev, ha, Except.bind]⟩
    · rcases hn with hn | hn
      · obtain ⟨y, hy⟩ := iha hn; rw [ha] at hy; cases hy
      · obtain ⟨y, hy⟩ := ihb hn; exact ⟨y, by simp [raw, ev, ha, hy, Except.bind]⟩
  | cmp f a b iha ihb =>
    simp only [namesIn, List.mem_append] at hn
    rcases ha : ev env (raw a) with y | v
    · exact ⟨y, by simp [raw, ev, ha, Except.bind]⟩
    · rcases hn with hn | hn
      · obtain ⟨y, hy⟩ := iha hn; rw [ha] at hy; cases hy
      · obtain ⟨y, hy⟩ := ihb hn; exact ⟨y, by simp [raw, ev, ha, hy, Except.bind]⟩
  | isIn neg a s ih => obtain ⟨y, hy⟩ := ih hn; exact ⟨y, by simp [raw, ev, hy, Except.bind]⟩
  | whole f e ih => obtain ⟨y, hy⟩ := ih hn; exact ⟨y, by simp [raw, ev, hy, Except.map]⟩

theorem px_ev_unknown (env : String → Except Fault (List K)) (e : Expr K) (n : String) (hn : n ∈ namesIn e) (h : ∃ x, env n = .error x) :
    ∃ x, ev env (asterize e) = .error x := by
  have h' := h
  obtain ⟨x, hx⟩ := h
  induction e with
  | var m =>
    simp only [namesIn, List.mem_singleton] at hn
    subst hn
    exact ⟨x, by simp [asterize, ev, hx, Except.map]⟩
  | lit k => simp [namesIn] at hn
  | un f e ih => obtain ⟨y, hy⟩ := ih hn; exact ⟨y, by simp [asterize, ev, hy, Except.map]⟩
  | bin f a b iha ihb =>
    simp only [namesIn, List.mem_append] at hn
    rcases ha : ev env (asterize a) with y | v
    · exact ⟨y, by simp [asterize, ev, ha, Except.bind]⟩
    · rcases hn with hn | hn
      · obtain ⟨y, hy⟩ := iha hn; rw [ha] at hy; cases hy
      · obtain ⟨y, hy⟩ := ihb hn; exact ⟨y, by simp [asterize, ev, ha, hy, Except.bind]⟩
  | cmp f a b _ _ => exact px_raw_unknown env (.bin f a b) n hn h'
  | isIn neg a s _ => obtain ⟨y, hy⟩ := px_raw_unknown env a n hn h'; exact ⟨y, by simp [asterize, ev, hy, Except.bind]⟩
  | whole f e ih => obtain ⟨y, hy⟩ := ih hn; exact ⟨y, by simp [asterize, ev, hy, Except.map]⟩

/-- C189: an expression with a name that is not stored gives no data. -/
theorem C189_unknown (p : Pod K) (native : Bool) (sel : Option (List Nat)) (e : Expr K) (n : String) (hn : n ∈ namesIn e) (h : n ∉ p.vars.map Prod.fst) :
    ∃ x, loadItem p native sel e = .error x := by
  have hl : p.vars.lookup n = none := by
    rw [List.lookup_eq_none_iff]
    intro q hq
    simp only [bne_iff_ne, ne_eq]
    intro hc
    exact h (List.mem_map.2 ⟨q, hq, hc.symm⟩)
  have he : ∀ s, ∃ x, evaluate p s e = .error x := fun s => px_ev_unknown (fetch p s) e n hn ⟨.name, by simp [fetch, hl]⟩
  unfold loadItem
  split_ifs
  · obtain ⟨x, hx⟩ := he none; exact ⟨x, by rw [hx]; rfl⟩
  · obtain ⟨x, hx⟩ := he sel; exact ⟨x, by rw [hx]; rfl⟩

/-- C189: `pod[text, ..., text]` has a column for each text, `pod[text, ..., text, start:stop:step]` the same for the cases of the slice. -/
theorem C189_getitem (p : Pod K) (hp : Whole p) (es : List (Expr K)) (hes : es ≠ []) (he : ∀ e ∈ es, Plain e)
    (hn : ∀ e ∈ es, ∀ n ∈ namesIn e, n ∈ p.vars.map Prod.fst) :
    getItem p (es.map Part.text) = .ok (es.map (fun e => (List.range p.cases).map (fun i => valueAt (stored p i) e))) ∧
    ∀ s : List Nat, (∀ i ∈ s, i < p.cases) →
      getItem p (es.map Part.text ++ [.slice s]) = .ok (es.map (fun e => s.map (fun i => valueAt (stored p i) e))) := by
  have key : ∀ (sel : Option (List Nat)) (hw : Within p sel) (l : List (Expr K)), (∀ e ∈ l, e ∈ es) →
      (l.map Part.text).mapM (column p sel) = .ok (l.map (fun e => (positions p sel).map (fun i => valueAt (stored p i) e))) := by
    intro sel hw l
    induction l with
    | nil => intro _; rfl
    | cons a r ih =>
      intro hl
      have h1 : column p sel (.text a) = .ok ((positions p sel).map (fun i => valueAt (stored p i) a)) := by
        simp only [column]
        rw [px_evaluate p hp sel hw a (he a (hl a (by simp))) (hn a (hl a (by simp)))]
        exact px_filled p sel a
      simp only [List.map_cons, List.mapM_cons, h1, ih (fun e h => hl e (by simp [h]))]
      rfl
  constructor
  · have hlast : ∃ e, (es.map (Part.text (K := K))).getLast? = some (Part.text e) := by
      rw [List.getLast?_map]
      cases h : es.getLast? with
      | none => exact absurd (List.getLast?_eq_none_iff.1 h) hes
      | some a => exact ⟨a, rfl⟩
    obtain ⟨a, ha⟩ := hlast
    unfold getItem
    simp only [ha]
    have := key none (by intro i hi; simpa [positions] using hi) es (fun _ h => h)
    simpa [positions] using this
  · intro s hs
    unfold getItem
    have h2 : 2 ≤ (es.map Part.text ++ [Part.slice s]).length := by
      have : 0 < es.length := List.length_pos_iff.2 hes
      simp; omega
    simp only [List.getLast?_concat, if_pos h2, List.dropLast_concat]
    exact key (some s) hs es (fun _ h => h)

/-- C189: in a group of pods a name stands for the variable of the first pod that has it. -/
theorem C189_group (pods : List (Pod K)) (hne : pods ≠ []) (m : Nat) (hp : ∀ p ∈ pods, Whole p ∧ p.cases = m) (isSlice : Bool) (sel : Option (List Nat))
    (hs : isSlice = true ∨ sel = none) (hw : ∀ i ∈ sel.getD (List.range m), i < m) (e : Expr K) (he : Plain e)
    (first : String → Pod K) (hn : ∀ n ∈ namesIn e, ∃ before after, pods = before ++ first n :: after ∧ n ∈ (first n).vars.map Prod.fst ∧
      ∀ q ∈ before, n ∉ q.vars.map Prod.fst) :
    groupLoad pods isSlice sel e = .ok ((sel.getD (List.range m)).map (fun i => valueAt (fun n => stored (first n) i n) e)) := by
  have hok : (isSlice || sel.isNone) = true := by rcases hs with h | h <;> simp [h]
  have henv : ∀ n ∈ namesIn e, groupFetch pods isSlice sel n = .ok ((sel.getD (List.range m)).map (fun i => stored (first n) i n)) := by
    intro n h
    obtain ⟨b, a, hpods, hin, hb⟩ := hn n h
    have hmem : first n ∈ pods := by rw [hpods]; simp
    have hfind : pods.find? (fun p => decide (n ∈ p.vars.map Prod.fst)) = some (first n) := by
      rw [hpods, List.find?_append, List.find?_eq_none.2 (fun q hq => by simpa using hb q hq)]
      rw [List.find?_cons_of_pos (by simpa using hin)]
      rfl
    unfold groupFetch
    simp only [hfind, hok, if_true]
    have hc := (hp _ hmem).2
    have := px_fetch (first n) (hp _ hmem).1 sel (by unfold Within positions; rw [hc]; exact hw) n hin
    rw [this]
    unfold positions
    rw [hc]
  cases pods with
  | nil => exact absurd rfl hne
  | cons p r =>
    have hc := (hp p (by simp)).2
    simp only [groupLoad]
    rw [px_ev _ _ (fun i n => stored (first n) i n) e he henv]
    simp only [Except.bind]
    have hm : selected p sel = (sel.getD (List.range m)).length := by cases sel <;> simp [selected, hc]
    unfold pxValue
    split_ifs with h
    · simp only [fill, hm]
      congr 1
      apply List.ext_getElem
      · simp
      · intro i h1 h2
        simp [px_const _ e h]
    · exact px_fill _ _ (by simp [hm])

/-- C189 fails: an `in` inside of a comparison is not replaced: `(x in [...]) == b` raises for two cases or more. -/
theorem C189_fails_nested (p : Pod K) (hp : Whole p) (native : Bool) (sel : Option (List Nat)) (hw : Within p sel) (h2 : 2 ≤ (positions p sel).length) (hc : 2 ≤ p.cases)
    (f : K → K → K) (neg : Bool) (n : String) (hn : n ∈ p.vars.map Prod.fst) (s : List K) (hs : s ≠ []) (b : Expr K) :
    loadItem p native sel (.cmp f (.isIn neg (.var n) s) b) = .error .value := by
  have key : ∀ (t : Option (List Nat)), Within p t → 2 ≤ (positions p t).length →
      evaluate p t (.cmp f (.isIn neg (.var n) s) b) = .error .value := by
    intro t ht h
    unfold evaluate
    simp only [asterize, raw, ev]
    rw [px_fetch p hp t ht n hn]
    obtain ⟨i, j, r, hl⟩ : ∃ i j r, positions p t = i :: j :: r := by
      match hq : positions p t with
      | [] => rw [hq] at h; simp at h
      | [_] => rw [hq] at h; simp at h
      | i :: j :: r => exact ⟨i, j, r, rfl⟩
    simp [hl, Except.map, Except.bind, pythonIn, hs]
  unfold loadItem
  split_ifs
  · rw [key none (by intro i hi; simpa [positions] using hi) (by simpa [positions] using hc)]; rfl
  · rw [key sel hw h2]; rfl

/-- C189 fails: `in` with a number before it raises. -/
theorem C189_fails_constant (p : Pod K) (native : Bool) (sel : Option (List Nat)) (neg : Bool) (k : K) (s : List K) :
    loadItem p native sel (.isIn neg (.lit k) s) = .error .attribute := by
  simp [loadItem, hasVar, evaluate, asterize, raw, ev, Except.bind, numpyIn]

/-- C189: a function of the whole array is applied to the selected cases when the file library takes the selector, to all cases if not. -/
theorem C189_whole (p : Pod K) (hp : Whole p) (sel : List Nat) (hw : ∀ i ∈ sel, i < p.cases) (f : List K → List K) (hf : ∀ l, (f l).length = l.length)
    (n : String) (hn : n ∈ p.vars.map Prod.fst) :
    loadItem p true (some sel) (.whole f (.var n)) = .ok (f (sel.map (fun i => stored p i n))) ∧
    loadItem p false (some sel) (.whole f (.var n)) = .ok (sel.map (fun i => ((f ((List.range p.cases).map (fun i => stored p i n)))[i]?).getD 0)) := by
  constructor
  · simp only [loadItem, hasVar, Bool.not_true, Bool.and_false, Bool.false_and, Bool.false_eq_true, if_false, evaluate, asterize, ev]
    rw [px_fetch p hp (some sel) hw n hn]
    simp only [Except.map, Except.bind, onAll]
    exact px_fill _ _ (by simp [hf, positions, selected])
  · simp only [loadItem, hasVar, Bool.not_false, Bool.and_true, Option.isSome_some, if_true, evaluate, asterize, ev]
    rw [px_fetch p hp none (by intro i hi; simpa [positions] using hi) n hn]
    simp only [Except.map, Except.bind, onAll, reselect, positions, Option.getD_none]
    rw [px_pick (some sel) _ p.cases (by simp [hf]) hw]
    exact px_fill _ _ (by simp [selected])

/-- C189 fails: the same cases of the same expression (here, values less the first of those read, as `normalize` subtracts a mean) give different data for different
kinds of selector, and with a selector not the data of the selected cases. -/
theorem C189_fails_whole : ∃ (p : Pod ℚ) (s : List Nat) (f : List ℚ → List ℚ), Whole p ∧ (∀ i ∈ s, i < p.cases) ∧ (∀ l, (f l).length = l.length) ∧
    loadItem p true (some s) (.whole f (.var "x")) ≠ loadItem p false (some s) (.whole f (.var "x")) := by
  have hp : Whole (⟨2, [("x", [1, 3])]⟩ : Pod ℚ) := by intro e he; simp at he; subst he; rfl
  have hf : ∀ l : List ℚ, (l.map (fun v => v - l.headD 0)).length = l.length := by simp
  refine ⟨⟨2, [("x", [1, 3])]⟩, [1], fun l => l.map (fun v => v - l.headD 0), hp, by simp, hf, ?_⟩
  rw [(C189_whole _ hp [1] (by simp) _ hf "x" (by simp)).1, (C189_whole _ hp [1] (by simp) _ hf "x" (by simp)).2]
  simp only [stored, List.range, List.range.loop]
  norm_num

/-- C189 fails: `pod[text, selector]` with a selector that is not a slice (a mask, a list of positions) gives nothing, nor does a group with such a selector. -/
theorem C189_fails_mask (p : Pod K) (key : List (Part K)) : ∃ x, getItem p (key ++ [.other]) = .error x := by
  unfold getItem
  simp only [List.getLast?_concat]
  induction key with
  | nil => exact ⟨.syntax, rfl⟩
  | cons a r ih =>
    obtain ⟨x, hx⟩ := ih
    simp only [List.cons_append, List.mapM_cons]
    cases h : column p none a with
    | error y => exact ⟨y, rfl⟩
    | ok v => exact ⟨x, by rw [hx]; rfl⟩

/-- C189 fails: a group of pods with a selector that is not a slice gives nothing. -/
theorem C189_fails_group_mask (pods : List (Pod K)) (sel : List Nat) (e : Expr K) (he : namesIn e ≠ []) :
    ∃ x, groupLoad pods false (some sel) e = .error x := by
  obtain ⟨n, hn⟩ := List.exists_mem_of_ne_nil _ he
  cases pods with
  | nil => exact ⟨.value, rfl⟩
  | cons p r =>
    simp only [groupLoad]
    obtain ⟨x, hx⟩ := px_ev_unknown (groupFetch (p :: r) false (some sel)) e n hn (by
      unfold groupFetch
      split
      · exact ⟨.name, rfl⟩
      · exact ⟨.syntax, rfl⟩)
    exact ⟨x, by rw [hx]; rfl⟩

/-! ## An example -/

/-- Three cases, with two variables. -/
def pxPod : Pod ℚ := ⟨3, [("cost", [4, 6, 8]), ("mode", [1, 2, 3])]⟩

theorem px_pod : Whole pxPod := by
  intro e he
  simp only [pxPod, List.mem_cons, List.not_mem_nil, or_false] at he
  rcases he with rfl | rfl <;> rfl

/-- `cost * (mode not in [2])` for the third and the first case. -/
example : loadItem pxPod false (some [2, 0, 1]) (.bin (· * ·) (.var "cost") (.isIn true (.var "mode") [2])) = .ok [8, 4, 0] := by
  have hpl : Plain (.bin (· * ·) (.var "cost") (.isIn true (.var "mode") [2]) : Expr ℚ) := ⟨trivial, trivial, by simp [namesIn]⟩
  rw [C189_value pxPod px_pod false (some [2, 0, 1]) (by unfold Within positions; simp [pxPod]) _ hpl (by simp [namesIn, pxPod])]
  have h1 : (List.lookup "mode" [("cost", [(4 : ℚ), 6, 8]), ("mode", [1, 2, 3])]) = some [1, 2, 3] := by decide
  have h2 : (List.lookup "cost" [("cost", [(4 : ℚ), 6, 8]), ("mode", [1, 2, 3])]) = some [4, 6, 8] := by decide
  simp only [positions, valueAt, stored, pxPod, h1, h2]
  norm_num

example : ∃ x, loadItem pxPod true none (.var "time") = .error x := C189_unknown pxPod true none (.var "time") "time" (by simp [namesIn]) (by simp [pxPod])

example : getItem pxPod ([.var "cost"].map Part.text ++ [.slice [0, 2]]) = .ok [[4, 8]] := by
  rw [(C189_getitem pxPod px_pod [.var "cost"] (by simp) (by intro e he; simp at he; subst he; trivial) (by simp [namesIn, pxPod])).2 [0, 2] (by simp [pxPod])]
  simp [valueAt, stored, pxPod]

example : loadItem pxPod true none (.cmp (fun a b => if a = b then 1 else 0) (.isIn false (.var "mode") [2]) (.lit 1)) = .error .value :=
  C189_fails_nested pxPod px_pod true none (by intro i hi; simpa [positions] using hi) (by simp [positions, pxPod]) (by simp [pxPod]) _ false "mode" (by simp [pxPod]) [2] (by simp) _

example : groupLoad [⟨2, [("a", [1, 2])]⟩, ⟨2, [("a", [5, 6]), ("b", [3, 4])]⟩] true (some [1]) (.bin (· + ·) (.var "a") (.var "b")) = .ok [(6 : ℚ)] := by
  have h := C189_group (K := ℚ) [⟨2, [("a", [1, 2])]⟩, ⟨2, [("a", [5, 6]), ("b", [3, 4])]⟩] (by simp) 2 (by
    intro p hp
    simp only [List.mem_cons, List.not_mem_nil, or_false] at hp
    rcases hp with rfl | rfl
    · exact ⟨by intro e he; simp at he; subst he; rfl, rfl⟩
    · exact ⟨by intro e he; simp at he; rcases he with rfl | rfl <;> rfl, rfl⟩) true (some [1]) (Or.inl rfl) (by simp) (.bin (· + ·) (.var "a") (.var "b")) ⟨trivial, trivial⟩
    (fun n => if n = "a" then ⟨2, [("a", [1, 2])]⟩ else ⟨2, [("a", [5, 6]), ("b", [3, 4])]⟩) (by
      intro n hn
      simp only [namesIn, List.mem_append, List.mem_singleton] at hn
      rcases hn with rfl | rfl
      · exact ⟨[], [⟨2, [("a", [5, 6]), ("b", [3, 4])]⟩], rfl, by simp, by simp⟩
      · exact ⟨[⟨2, [("a", [1, 2])]⟩], [], rfl, by simp, by simp⟩)
  rw [h]
  have hb : ("b" = "a") = False := by simp
  simp only [hb, Option.getD_some, List.map_cons, List.map_nil, valueAt, stored, if_true, if_false]
  have h1 : (List.lookup "b" [("a", [(5 : ℚ), 6]), ("b", [3, 4])]) = some [3, 4] := by decide
  have h2 : (List.lookup "a" [("a", [(1 : ℚ), 2])]) = some [1, 2] := by decide
  simp only [h1, h2]
  norm_num

end Larch.Props
