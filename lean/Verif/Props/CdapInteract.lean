import Verif.Props.Cdap

/-!
# C99: interaction terms of coordinated daily activity patterns
-/

namespace Larch.Props

open Larch.Py Larch.Linear Larch.Cdap

variable {env : Env} {p : String → ℝ}

/-- `v` if the condition holds, else 0. -/
noncomputable def ind (q : Prop) (v : ℝ) : ℝ := @ite ℝ q (Classical.propDecidable q) v 0

theorem ind_pos {q : Prop} (h : q) (v : ℝ) : ind q v = v := if_pos h

theorem ind_neg {q : Prop} (h : ¬ q) (v : ℝ) : ind q v = 0 := if_neg h

theorem ind_congr {q q' : Prop} (h : q ↔ q') (v : ℝ) : ind q v = ind q' v := by rw [propext h]

theorem ite_ind (q : Prop) [inst : Decidable q] (v : ℝ) : (if q then v else 0) = ind q v := by
  unfold ind
  congr

theorem ind_01 (q : Prop) : ind q 1 = 0 ∨ ind q 1 = 1 := by
  by_cases h : q
  · exact Or.inr (ind_pos h 1)
  · exact Or.inl (ind_neg h 1)

theorem ind_mul (q r : Prop) : ind q 1 * ind r 1 = ind (q ∧ r) 1 := by
  by_cases h1 : q <;> by_cases h2 : r <;> simp [ind, h1, h2]

/-! ## The tests of person types -/

/-- `&` of truth values is conjunction. -/
def AndIsBoth (env : Env) : Prop :=
  ∀ x y : ℝ, (x = 0 ∨ x = 1) → (y = 0 ∨ y = 1) → env.band x y = x * y

/-- The person has the type. -/
def holds (env : Env) (x : Nat × Char) : Prop := env.var (ptypeVar x.1) = typeValue env x.2

def testE (x : Nat × Char) : E :=
  .eq (.var (ptypeVar x.1)) (if x.2.isDigit then .lit ((x.2.toNat - 48 : Nat) : ℝ) else .var (String.singleton x.2))

theorem testE_has (x : Nat × Char) : (testE x).Has env (ind (holds env x) 1) := by
  unfold testE holds typeValue
  by_cases h : x.2.isDigit = true
  · rw [if_pos h, if_pos h]; exact .eq .var .lit
  · rw [if_neg h, if_neg h]; exact .eq .var .var

theorem typeTok_rd (t : Char) {r : List Tok} (h1 : hd Tok.isLp r) :
    Rd .at (typeTok t :: r) (if t.isDigit then .lit ((t.toNat - 48 : Nat) : ℝ) else .var (String.singleton t)) r := by
  unfold typeTok
  by_cases h : t.isDigit = true
  · rw [if_pos h, if_pos h]; exact .num
  · rw [if_neg h, if_neg h]; exact .var h1

theorem typeTest_rd (x : Nat × Char) (r : List Tok) : Rd .at (typeTest x ++ r) (testE x) r := by
  have e : typeTest x ++ r = .lp :: .name (ptypeVar x.1) :: .eqeq :: typeTok x.2 :: .rp :: r := rfl
  rw [e]
  refine .par (.cmp1 (r := typeTok x.2 :: .rp :: r) ?_ ?_ ?_)
  · refine Rd.toBin (Rd.toUn (.var ?_) ?_) _ 1 rfl (by omega) ?_ <;> simp [hd_cons, Tok.isLp, Tok.isPow, Tok.isOpAt]
  · refine Rd.toBin (Rd.toUn (typeTok_rd x.2 ?_) ?_) _ 1 rfl (by omega) ?_ <;> simp [hd_cons, Tok.isLp, Tok.isPow, Tok.isOpAt]
  · simp [hd_cons, Tok.isEqeq]

/-- The rest of the chain of `&`. -/
theorem chain_rd (acc : E) (xs : List (Nat × Char)) :
    Rd (.loop 3 acc) (xs.flatMap (fun y => .op .and :: typeTest y)) (xs.foldl (fun e y => .bin .and e (testE y)) acc) [] := by
  induction xs generalizing acc with
  | nil => exact .stop hd_nil
  | cons y ys ih =>
    rw [List.flatMap_cons, List.foldl_cons]
    have e : (Tok.op BOp.and :: typeTest y) ++ ys.flatMap (fun y => .op .and :: typeTest y) =
        .op .and :: (typeTest y ++ ys.flatMap (fun y => .op .and :: typeTest y)) := rfl
    rw [e]
    refine .step rfl (Rd.toNext (Rd.toUn (typeTest_rd y _) ?_) 3 ?_) (ih _)
    · cases ys <;> simp [hd_cons, hd_nil, Tok.isPow]
    · intro m h1 h2
      cases ys with
      | nil => exact hd_nil
      | cons z zs =>
        rw [List.flatMap_cons]
        simp only [List.cons_append, hd_cons, Tok.isOpAt, BOp.level]
        simp; omega

theorem joinAnd_rd (x : Nat × Char) (xs : List (Nat × Char)) :
    Reads (joinAnd (x :: xs)) (xs.foldl (fun e y => .bin .and e (testE y)) (testE x)) := by
  refine .cmp0 (Rd.down 3 (.bin ?_ (chain_rd _ xs)) (by omega) (by omega)) hd_nil
  refine Rd.toNext (Rd.toUn (typeTest_rd x _) ?_) 3 ?_
  · cases xs <;> simp [hd_cons, hd_nil, Tok.isPow]
  · intro m h1 h2
    cases xs with
    | nil => exact hd_nil
    | cons z zs =>
      rw [List.flatMap_cons]
      simp only [List.cons_append, hd_cons, Tok.isOpAt, BOp.level]
      simp; omega

theorem chain_has (hb : AndIsBoth env) (xs : List (Nat × Char)) (acc : E) (q : Prop) (h : acc.Has env (ind q 1)) :
    (xs.foldl (fun e y => .bin .and e (testE y)) acc).Has env (ind (q ∧ ∀ y ∈ xs, holds env y) 1) := by
  induction xs generalizing acc q with
  | nil => simpa using h
  | cons y ys ih =>
    rw [List.foldl_cons]
    have h1 : (E.bin .and acc (testE y)).Has env (ind (q ∧ holds env y) 1) := by
      have := E.Has.bin (o := .and) h (testE_has (env := env) y) (by simp)
      simp only [BOp.val] at this
      rwa [hb _ _ (ind_01 _) (ind_01 _), ind_mul] at this
    have h2 := ih _ _ h1
    have e : (q ∧ holds env y) ∧ (∀ z ∈ ys, holds env z) ↔ q ∧ ∀ z ∈ y :: ys, holds env z := by
      simp only [List.mem_cons, forall_eq_or_imp, and_assoc]
    rwa [ind_congr e] at h2

/-- The joined expression is 1 when all tests hold, else 0. -/
theorem joinAnd_has (hb : AndIsBoth env) (l : List (Nat × Char)) (hl : l ≠ []) :
    Py.Has env (joinAnd l) (ind (∀ y ∈ l, holds env y) 1) := by
  cases l with
  | nil => exact absurd rfl hl
  | cons x xs =>
    refine ⟨_, joinAnd_rd x xs, ?_⟩
    have := chain_has hb xs (testE x) _ (testE_has x)
    rwa [ind_congr (show (holds env x ∧ ∀ y ∈ xs, holds env y) ↔ ∀ y ∈ x :: xs, holds env y by
      simp only [List.mem_cons, forall_eq_or_imp])] at this

theorem rowTerm_has (hb : AndIsBoth env) (m : List ((String × String) × String)) (r : IRow) (combo : List Nat) :
    (Cdap.rowTerm m r combo).Has env p (ind (∀ y ∈ tests combo r.ptypes, holds env y) (p (rowCoef m r))) := by
  unfold Cdap.rowTerm
  by_cases h : tests combo r.ptypes = []
  · rw [if_pos h, h, ind_pos (by simp)]
    exact ofPar_has (rowCoef m r)
  · rw [if_neg h]
    refine ⟨_, joinAnd_has hb _ h, ?_⟩
    by_cases hq : ∀ y ∈ tests combo r.ptypes, holds env y
    · rw [ind_pos hq, ind_pos hq]; simp
    · rw [ind_neg hq, ind_neg hq]; simp

/-! ## Combinations and patterns -/

theorem mem_combos (k : Nat) (l S : List Nat) : S ∈ combos k l ↔ S.Sublist l ∧ S.length = k := by
  induction l generalizing k S with
  | nil =>
    cases k with
    | zero => simp [combos]
    | succ k =>
      simp only [combos, List.not_mem_nil, false_iff, not_and]
      intro h
      rw [List.sublist_nil.1 h]
      simp
  | cons x xs ih =>
    cases k with
    | zero =>
      simp only [combos, List.mem_singleton]
      constructor
      · rintro rfl; simp
      · rintro ⟨_, h⟩; exact List.length_eq_zero_iff.1 h
    | succ k =>
      simp only [combos, List.mem_append, List.mem_map, ih]
      constructor
      · rintro (⟨c, ⟨h1, h2⟩, rfl⟩ | ⟨h1, h2⟩)
        · exact ⟨h1.cons_cons x, by simp [h2]⟩
        · exact ⟨h1.cons x, h2⟩
      · rintro ⟨h1, h2⟩
        cases h1 with
        | cons _ h => exact Or.inr ⟨h, h2⟩
        | @cons_cons c _ _ h => exact Or.inl ⟨c, ⟨h, by simpa using h2⟩, rfl⟩

theorem combos_nodup (k : Nat) (l : List Nat) (hl : l.Nodup) : (combos k l).Nodup := by
  induction l generalizing k with
  | nil => cases k <;> simp [combos]
  | cons x xs ih =>
    rw [List.nodup_cons] at hl
    cases k with
    | zero => simp [combos]
    | succ k =>
      simp only [combos]
      rw [List.nodup_append']
      refine ⟨(ih k hl.2).map (fun a b h => (List.cons.inj h).2), ih (k + 1) hl.2, ?_⟩
      intro S h1 h2
      obtain ⟨c, _, rfl⟩ := List.mem_map.1 h1
      have := (mem_combos _ _ _).1 h2
      exact hl.1 (this.1.subset (by simp))

theorem range_pairwise (n : Nat) : (List.range' 1 n).Pairwise (· < ·) := List.pairwise_lt_range'

theorem combo_sorted {k n : Nat} {S : List Nat} (h : S ∈ combos k (List.range' 1 n)) : S.Pairwise (· < ·) :=
  (range_pairwise n).sublist ((mem_combos _ _ _).1 h).1

theorem combo_sort {k n : Nat} {S : List Nat} (h : S ∈ combos k (List.range' 1 n)) : S.toFinset.sort (· ≤ ·) = S := by
  have h1 := combo_sorted h
  have hnd : S.Nodup := h1.imp (fun h => Nat.ne_of_lt h)
  exact (List.toFinset_sort (· ≤ ·) hnd).2 (h1.imp (fun h => Nat.le_of_lt h))

/-- Sums over combinations are sums over the sets of that size. -/
theorem sum_combos (k n : Nat) (h : List Nat → ℝ) :
    ((combos k (List.range' 1 n)).map h).sum = ∑ S ∈ (Finset.Icc 1 n).powersetCard k, h (S.sort (· ≤ ·)) := by
  rw [← List.sum_toFinset h (combos_nodup k _ List.nodup_range')]
  refine Finset.sum_bij' (fun S _ => S.toFinset) (fun S _ => S.sort (· ≤ ·)) ?_ ?_ ?_ ?_ ?_
  · intro S hS
    rw [List.mem_toFinset] at hS
    have h1 := (mem_combos _ _ _).1 hS
    rw [Finset.mem_powersetCard]
    constructor
    · intro x hx
      have := h1.1.subset (List.mem_toFinset.1 hx)
      rw [List.mem_range'_1] at this
      rw [Finset.mem_Icc]; omega
    · rw [List.toFinset_card_of_nodup ((combo_sorted hS).imp (fun h => Nat.ne_of_lt h))]
      exact h1.2
  · intro S hS
    rw [Finset.mem_powersetCard] at hS
    rw [List.mem_toFinset, mem_combos]
    refine ⟨?_, by rw [Finset.length_sort]; exact hS.2⟩
    refine List.sublist_of_subperm_of_pairwise (r := (· < ·)) ?_ (Finset.sortedLT_sort S).pairwise (range_pairwise n)
    apply List.Nodup.subperm (Finset.sort_nodup S _)
    intro x hx
    have := hS.1 ((Finset.mem_sort _).1 hx)
    rw [Finset.mem_Icc] at this
    rw [List.mem_range'_1]; omega
  · intro S hS
    exact combo_sort (List.mem_toFinset.1 hS)
  · intro S _
    exact Finset.sort_toFinset S _
  · intro S hS
    rw [combo_sort (List.mem_toFinset.1 hS)]

theorem matches_iff (sel : List Nat) (tag : Act) (a : List Act) (s : Nat) :
    matches_ ((List.range' s a.length).map (fun p => if p ∈ sel then some tag else none)) a = true ↔
      ∀ q ∈ sel, s ≤ q → q < s + a.length → a[q - s]? = some tag := by
  induction a generalizing s with
  | nil => simp [matches_]
  | cons x l ih =>
    rw [List.length_cons, List.range'_succ, List.map_cons]
    have split : (∀ q ∈ sel, s ≤ q → q < s + (l.length + 1) → (x :: l)[q - s]? = some tag) ↔
        (s ∈ sel → x = tag) ∧ ∀ q ∈ sel, s + 1 ≤ q → q < s + 1 + l.length → l[q - (s + 1)]? = some tag := by
      constructor
      · intro h
        refine ⟨fun hs => by simpa using h s hs (by omega) (by omega), fun q hq h1 h2 => ?_⟩
        have := h q hq (by omega) (by omega)
        have e : q - s = (q - (s + 1)) + 1 := by omega
        rw [e, List.getElem?_cons_succ] at this
        exact this
      · rintro ⟨h1, h2⟩ q hq h3 h4
        by_cases hqs : q = s
        · subst hqs; simp [h1 hq]
        · have e : q - s = (q - (s + 1)) + 1 := by omega
          rw [e, List.getElem?_cons_succ]
          exact h2 q hq (by omega) (by omega)
    rw [split, ← ih (s + 1)]
    by_cases hs : s ∈ sel
    · simp only [hs, if_true, matches_, Bool.and_eq_true, decide_eq_true_eq, forall_true_left]
      constructor
      · rintro ⟨h1, h2⟩; exact ⟨h1.symm, h2⟩
      · rintro ⟨h1, h2⟩; exact ⟨h1.symm, h2⟩
    · simp [hs, matches_]

/-- The regular expression for some persons matches exactly the patterns in which they all do the activity. -/
theorem pattern_iff {n : Nat} {a : List Act} (ha : a.length = n) {sel : List Nat} (hsel : ∀ q ∈ sel, 1 ≤ q ∧ q ≤ n) (tag : Act) :
    matches_ (interactPattern n sel tag) a = true ↔ ∀ q ∈ sel, a[q - 1]? = some tag := by
  subst ha
  unfold interactPattern
  rw [matches_iff]
  constructor
  · intro h q hq; exact h q hq (hsel q hq).1 (by have := (hsel q hq).2; omega)
  · intro h q hq _ _; exact h q hq

/-! ## The sum -/

theorem sum_zero_list {α : Type} (l : List α) : (l.map (fun _ => (0 : ℝ))).sum = 0 := by
  induction l with
  | nil => rfl
  | cons _ _ ih => simp

theorem sum_add_list {α : Type} (l : List α) (f g : α → ℝ) : (l.map (fun x => f x + g x)).sum = (l.map f).sum + (l.map g).sum := by
  induction l with
  | nil => simp
  | cons x l ih => simp only [List.map_cons, List.sum_cons, ih]; ring

theorem cdap_sum_swap {α β : Type} (l : List α) (m : List β) (f : α → β → ℝ) :
    (l.map (fun x => (m.map (fun y => f x y)).sum)).sum = (m.map (fun y => (l.map (fun x => f x y)).sum)).sum := by
  induction l with
  | nil => simp
  | cons x l ih =>
    simp only [List.map_cons, List.sum_cons, ih]
    rw [sum_add_list]

/-- Grouping does not change a sum. -/
theorem sum_groups {α κ : Type} [DecidableEq κ] (rows : List α) (key : α → κ) (keys : List κ) (hnd : keys.Nodup)
    (hk : ∀ r ∈ rows, key r ∈ keys) (f : α → ℝ) :
    (keys.map (fun k => ((rows.filter (fun r => key r = k)).map f).sum)).sum = (rows.map f).sum := by
  induction rows with
  | nil => simp
  | cons r rows ih =>
    have e : ∀ k, (((r :: rows).filter (fun r => key r = k)).map f).sum =
        (if key r = k then f r else 0) + ((rows.filter (fun r => key r = k)).map f).sum := by
      intro k
      by_cases h : key r = k
      · rw [List.filter_cons_of_pos (by simpa using h)]; simp [h]
      · rw [List.filter_cons_of_neg (by simpa using h)]; simp [h]
    simp only [e]
    rw [sum_add_list, ih (fun x hx => hk x (by simp [hx])), List.map_cons, List.sum_cons]
    congr 1
    have hr := hk r (by simp)
    clear e ih hk
    induction keys with
    | nil => cases hr
    | cons k ks ih2 =>
      rw [List.nodup_cons] at hnd
      rw [List.map_cons, List.sum_cons]
      by_cases h : key r = k
      · have : (ks.map (fun k' => if key r = k' then f r else 0)).sum = 0 := by
          rw [← sum_zero_list ks]
          congr 1
          apply List.map_congr_left
          intro k' hk'
          have : key r ≠ k' := fun hh => hnd.1 (by rw [← h, hh]; exact hk')
          simp [this]
        rw [if_pos h, this, add_zero]
      · rw [if_neg h, zero_add]
        refine ih2 hnd.2 ?_
        rcases List.mem_cons.1 hr with h' | h'
        · exact absurd h' h
        · exact h'

theorem groupKeys_spec (rows : List IRow) : (groupKeys rows).Nodup ∧ ∀ r ∈ rows, (r.card, r.activity) ∈ groupKeys rows := by
  unfold groupKeys
  constructor
  · exact ((List.mergeSort_perm _ _).nodup_iff).2 (List.nodup_dedup _)
  · intro r hr
    rw [(List.mergeSort_perm _ _).mem_iff, List.mem_dedup]
    exact List.mem_map.2 ⟨r, hr, rfl⟩

theorem tests_nil (combo : List Nat) (r : IRow) (h : combo.length = r.card) : tests combo r.ptypes = [] ↔ r.wildcard := by
  unfold tests IRow.wildcard
  rw [List.filter_eq_nil_iff, ← h]
  generalize r.ptypes = l
  clear h
  induction combo generalizing l with
  | nil => simp
  | cons x xs ih =>
    cases l with
    | nil => simp
    | cons t l =>
      have := ih (l := l)
      simp only [List.zip_cons_cons, List.mem_cons, forall_eq_or_imp, List.length_cons, List.take_succ_cons]
      rw [this]
      simp

theorem tests_hold (combo : List Nat) (r : IRow) : (∀ y ∈ tests combo r.ptypes, holds env y) ↔
    ∀ x ∈ combo.zip r.ptypes, x.2 ≠ '*' → env.var ("p" ++ toString x.1 ++ "_ptype") = typeValue env x.2 := by
  unfold tests holds ptypeVar pre
  constructor
  · intro h x hx ht; exact h x (by simp [List.mem_filter, hx, ht])
  · intro h y hy
    rw [List.mem_filter] at hy
    exact h y hy.1 (by simpa using hy.2)

/-- What a row contributes, as a sum over combinations. -/
theorem value_combos (env : Env) (par : ℝ) (n : Nat) (a : List Act) (r : IRow) :
    r.value env par n a = ((combos r.card (List.range' 1 n)).map (fun S =>
      ind ((∀ q ∈ S, a[q - 1]? = some r.activity) ∧ (∀ y ∈ tests S r.ptypes, holds env y) ∧ (r.wildcard → r.card = n)) par)).sum := by
  rw [sum_combos]
  unfold IRow.value IRow.typesMatch
  apply Finset.sum_congr rfl
  intro S _
  rw [ite_ind]
  apply ind_congr
  rw [tests_hold]
  simp only [Finset.mem_sort]

theorem combos_all (n : Nat) (l : List Nat) (h : l.length = n) : combos n l = [l] := by
  induction l generalizing n with
  | nil => subst h; rfl
  | cons x xs ih =>
    subst h
    simp only [List.length_cons, combos, ih xs.length rfl, List.map_cons, List.map_nil]
    have : combos (xs.length + 1) xs = [] := by
      rw [List.eq_nil_iff_forall_not_mem]
      intro S hS
      have := (mem_combos _ _ _).1 hS
      have := this.1.length_le
      omega
    rw [this]; rfl

theorem combos_more (k n : Nat) (h : n < k) : combos k (List.range' 1 n) = [] := by
  rw [List.eq_nil_iff_forall_not_mem]
  intro S hS
  have := (mem_combos _ _ _).1 hS
  have := this.1.length_le
  simp at this
  omega

theorem all_same {n : Nat} {a : List Act} (ha : a.length = n) (t : Act) :
    a = List.replicate n t ↔ ∀ q ∈ List.range' 1 n, a[q - 1]? = some t := by
  rw [List.eq_replicate_iff]
  constructor
  · rintro ⟨_, h⟩ q hq
    rw [List.mem_range'_1] at hq
    rw [List.getElem?_eq_getElem (by omega)]
    rw [h _ (List.getElem_mem _)]
  · intro h
    refine ⟨ha, fun b hb => ?_⟩
    obtain ⟨i, hi, rfl⟩ := List.mem_iff_getElem.1 hb
    have := h (i + 1) (by rw [List.mem_range'_1]; omega)
    rw [Nat.add_sub_cancel, List.getElem?_eq_getElem hi] at this
    exact Option.some.inj this

/-- **C99 (interaction terms).** For every household size, interaction table and coefficient table, the utility of every pattern grows
by the sum over the rows of the table of the row's parameter, once for every set of persons of the row's cardinality who all do the
activity in the pattern and have the types of the row (rows without types: only for the whole household). -/
theorem C99_value (env : Env) (p : String → ℝ) (hb : AndIsBoth env) (n : Nat) (rows : List IRow) (coefs : List (List String))
    (u : Nat → List Comp) (a : List Act) (ha : a.length = n) (z : ℝ) (hu : FuncHas env p (u (patternCode a)) z) :
    FuncHas env p (run u (interactEvents n rows coefs) (patternCode a))
      (z + (rows.map (fun r => r.value env (p (rowCoef (coefMap coefs) r)) n a)).sum) := by
  rw [run_get]
  refine func_append hu ?_
  have hk := groupKeys_spec rows
  rw [← sum_groups rows (fun r => (r.card, r.activity)) (groupKeys rows) hk.1 hk.2]
  unfold interactEvents
  rw [filter_flatMap, List.map_flatMap]
  apply func_flatMap
  intro k _
  have hg : rows.filter (fun r => decide ((r.card, r.activity) = k)) = rows.filter (fun r => decide (r.card = k.1 ∧ r.activity = k.2)) := by
    apply List.filter_congr
    intro r _
    obtain ⟨k1, k2⟩ := k
    simp
  rw [hg]
  have hgm : ∀ r ∈ rows.filter (fun r => decide (r.card = k.1 ∧ r.activity = k.2)), r.card = k.1 ∧ r.activity = k.2 := by
    intro r hr
    simpa using (List.mem_filter.1 hr).2
  generalize rows.filter (fun r => decide (r.card = k.1 ∧ r.activity = k.2)) = group at hgm ⊢
  generalize coefMap coefs = m
  by_cases h1 : k.1 > n
  · rw [if_pos h1]
    have : (group.map (fun r => r.value env (p (rowCoef m r)) n a)).sum = 0 := by
      rw [← sum_zero_list group]
      congr 1
      apply List.map_congr_left
      intro r hr
      rw [value_combos, (hgm r hr).1, combos_more _ _ h1]
      rfl
    rw [this]
    exact .nil
  · rw [if_neg h1]
    by_cases h2 : k.1 = n
    · rw [if_pos h2]
      have hfind : (alternatives n).find? (fun b => decide (b.1 = List.replicate n k.2)) =
          some (List.replicate n k.2, patternCode (List.replicate n k.2)) := by
        have hm : (List.replicate n k.2, patternCode (List.replicate n k.2)) ∈ alternatives n :=
          (mem_alternatives n _ _).2 ⟨by simp, rfl⟩
        cases hf : (alternatives n).find? (fun b => decide (b.1 = List.replicate n k.2)) with
        | none =>
          have := List.find?_eq_none.1 hf _ hm
          simp at this
        | some b =>
          have h3 := List.find?_some hf
          have h4 := (mem_alternatives n b.1 b.2).1 (List.mem_of_find?_eq_some hf)
          simp only [decide_eq_true_eq] at h3
          congr 1
          exact Prod.ext h3 (by rw [h4.2, h3])
      rw [hfind]
      simp only []
      have hsum : (group.map (fun r => r.value env (p (rowCoef m r)) n a)).sum = (group.map (fun r =>
          ind ((∀ q ∈ List.range' 1 n, a[q - 1]? = some k.2) ∧ (∀ y ∈ tests (List.range' 1 n) r.ptypes, holds env y))
            (p (rowCoef m r)))).sum := by
        congr 1
        apply List.map_congr_left
        intro r hr
        rw [value_combos, (hgm r hr).1, h2, combos_all n _ (by simp), (hgm r hr).2, List.map_cons, List.map_nil, List.sum_cons,
          List.sum_nil, add_zero]
        apply ind_congr
        simp only [implies_true, and_true]
      rw [hsum]
      by_cases hall : a = List.replicate n k.2
      · have e : (group.map (fun r => (patternCode (List.replicate n k.2), Cdap.rowTerm m r (List.range' 1 n)))).filter
            (fun e => e.1 = patternCode a) = group.map (fun r => (patternCode (List.replicate n k.2), Cdap.rowTerm m r (List.range' 1 n))) := by
          rw [List.filter_eq_self]
          intro e he
          obtain ⟨r, _, rfl⟩ := List.mem_map.1 he
          simp [← hall]
        rw [e, List.map_map]
        have hq := (all_same ha k.2).1 hall
        have e2 : group.map (Prod.snd ∘ fun r => (patternCode (List.replicate n k.2), Cdap.rowTerm m r (List.range' 1 n))) =
            group.flatMap (fun r => [Cdap.rowTerm m r (List.range' 1 n)]) := by
          rw [← List.map_eq_flatMap]; rfl
        rw [e2]
        apply func_flatMap
        intro r _
        apply func_single
        have := rowTerm_has (p := p) hb m r (List.range' 1 n)
        rwa [ind_congr (show (∀ y ∈ tests (List.range' 1 n) r.ptypes, holds env y) ↔
          (∀ q ∈ List.range' 1 n, a[q - 1]? = some k.2) ∧ (∀ y ∈ tests (List.range' 1 n) r.ptypes, holds env y) from
          ⟨fun h => ⟨hq, h⟩, fun h => h.2⟩)] at this
      · have e : (group.map (fun r => (patternCode (List.replicate n k.2), Cdap.rowTerm m r (List.range' 1 n)))).filter
            (fun e => e.1 = patternCode a) = [] := by
          rw [List.filter_eq_nil_iff]
          intro e he
          obtain ⟨r, _, rfl⟩ := List.mem_map.1 he
          simp only [decide_eq_true_eq]
          intro hh
          exact hall (C97_injective a _ (by simp [ha]) hh.symm)
        have hq : ¬ ∀ q ∈ List.range' 1 n, a[q - 1]? = some k.2 := fun h => hall ((all_same ha k.2).2 h)
        have : (group.map (fun r => ind ((∀ q ∈ List.range' 1 n, a[q - 1]? = some k.2) ∧
            (∀ y ∈ tests (List.range' 1 n) r.ptypes, holds env y)) (p (rowCoef m r)))).sum = 0 := by
          rw [← sum_zero_list group]
          congr 1
          apply List.map_congr_left
          intro r _
          rw [ind_neg (fun h => hq h.1)]
        rw [e, this]
        exact .nil
    · rw [if_neg h2, filter_flatMap, List.map_flatMap]
      have hsum : (group.map (fun r => r.value env (p (rowCoef m r)) n a)).sum =
          ((combos k.1 (List.range' 1 n)).map (fun S => (group.map (fun r =>
            ind ((∀ q ∈ S, a[q - 1]? = some k.2) ∧ (∀ y ∈ tests S r.ptypes, holds env y) ∧ (r.wildcard → r.card = n))
              (p (rowCoef m r)))).sum)).sum := by
        rw [cdap_sum_swap]
        congr 1
        apply List.map_congr_left
        intro r hr
        rw [value_combos, (hgm r hr).1, (hgm r hr).2]
      rw [hsum]
      apply func_flatMap
      intro S hS
      have hS2 := (mem_combos _ _ _).1 hS
      have hsel : ∀ q ∈ S, 1 ≤ q ∧ q ≤ n := by
        intro q hq
        have := hS2.1.subset hq
        rw [List.mem_range'_1] at this
        omega
      rw [filter_alts ha]
      · simp only []
        by_cases hp : ∀ q ∈ S, a[q - 1]? = some k.2
        · rw [if_pos ((pattern_iff ha hsel k.2).2 hp), List.map_flatMap]
          apply func_flatMap
          intro r hr
          have hw := tests_nil S r (by rw [hS2.2, (hgm r hr).1])
          by_cases hwc : r.wildcard
          · have hcn : ¬ r.card = n := by rw [(hgm r hr).1]; exact h2
            rw [if_pos (hw.2 hwc), ind_neg (fun h => hcn (h.2.2 hwc))]
            exact .nil
          · rw [if_neg (fun h => hwc (hw.1 h))]
            apply func_single
            have := rowTerm_has (p := p) hb m r S
            have e : ((∀ q ∈ S, a[q - 1]? = some k.2) ∧ (∀ y ∈ tests S r.ptypes, holds env y) ∧ (r.wildcard → r.card = n)) ↔
                ∀ y ∈ tests S r.ptypes, holds env y :=
              ⟨fun h => h.2.1, fun h => ⟨hp, h, fun hh => absurd hh hwc⟩⟩
            rw [ind_congr e]
            exact this
        · rw [if_neg (fun h => hp ((pattern_iff ha hsel k.2).1 h))]
          have : (group.map (fun r => ind ((∀ q ∈ S, a[q - 1]? = some k.2) ∧ (∀ y ∈ tests S r.ptypes, holds env y) ∧
              (r.wildcard → r.card = n)) (p (rowCoef m r)))).sum = 0 := by
            rw [← sum_zero_list group]
            congr 1
            apply List.map_congr_left
            intro r _
            rw [ind_neg (fun h => hp h.1)]
          rw [this]
          exact .nil
      · intro b _ e he
        split at he
        · obtain ⟨r, _, he⟩ := List.mem_flatMap.1 he
          split at he
          · cases he
          · rw [List.mem_singleton.1 he]
        · cases he

/-! ## Which parameter -/

/-- A coefficient's name is `..._<activity>_<...>_<types>_<...>`: the types are one of its parts after the activity; no types are named
by a part consisting of `x` only. -/
def Names (parts : List String) (act types : String) : Prop :=
  ∃ first js, parts = first :: act :: js ∧ (types ∈ js ∨ types = "" ∧ ∃ j ∈ js, ∀ ch ∈ j.toList, ch = 'x')

theorem mapEntries_spec (parts : List String) (act types v : String) :
    ((act, types), v) ∈ mapEntries parts ↔ searchable parts = true ∧ Names parts act types ∧ v = "_".intercalate parts := by
  unfold mapEntries
  by_cases h : searchable parts = true
  · rw [if_pos h]
    cases parts with
    | nil => simp [searchable] at h
    | cons f rest =>
      cases rest with
      | nil => simp [searchable] at h
      | cons b js =>
        simp only [List.mem_flatMap, List.mem_cons, Prod.mk.injEq]
        constructor
        · rintro ⟨j, hj, h1 | h1⟩
          · obtain ⟨⟨rfl, rfl⟩, rfl⟩ := h1
            exact ⟨h, ⟨f, js, rfl, Or.inl hj⟩, rfl⟩
          · split at h1
            · rename_i hx
              simp only [List.mem_singleton, Prod.mk.injEq] at h1
              obtain ⟨⟨rfl, rfl⟩, rfl⟩ := h1
              refine ⟨h, ⟨f, js, rfl, Or.inr ⟨rfl, j, hj, ?_⟩⟩, rfl⟩
              intro ch hch
              simpa using List.all_eq_true.1 hx ch hch
            · cases h1
        · rintro ⟨_, ⟨f', js', hp, hn⟩, rfl⟩
          simp only [List.cons.injEq] at hp
          obtain ⟨rfl, rfl, rfl⟩ := hp
          rcases hn with hn | ⟨rfl, j, hj, hx⟩
          · exact ⟨types, hn, Or.inl ⟨⟨rfl, rfl⟩, rfl⟩⟩
          · refine ⟨j, hj, Or.inr ?_⟩
            rw [if_pos (by rw [List.all_eq_true]; intro ch hch; simpa using hx ch hch)]
            simp
  · rw [if_neg h]
    simp [h]

/-- The assignments for several coefficients: the last coefficient that assigns the key decides. -/
theorem mapGet_spec (coefs : List (List String)) (act types : String) :
    (∀ parts ∈ coefs, ¬ (searchable parts = true ∧ Names parts act types)) ∧ mapGet (coefMap coefs) (act, types) = none ∨
    ∃ before parts after, coefs = before ++ parts :: after ∧ searchable parts = true ∧ Names parts act types ∧
      (∀ q ∈ after, ¬ (searchable q = true ∧ Names q act types)) ∧
      mapGet (coefMap coefs) (act, types) = some ("_".intercalate parts) := by
  induction coefs with
  | nil => left; simp [mapGet, coefMap]
  | cons c cs ih =>
    have e : mapGet (coefMap (c :: cs)) (act, types) = (mapGet (coefMap cs) (act, types)).or (mapGet (mapEntries c) (act, types)) := by
      unfold mapGet coefMap
      rw [List.flatMap_cons, List.reverse_append, List.find?_append]
      cases (cs.flatMap mapEntries).reverse.find? (fun e => decide (e.1 = (act, types))) <;> simp
    rcases ih with ⟨h1, h2⟩ | ⟨b, q, a, h1, h2, h3, h4, h5⟩
    · rw [h2, Option.none_or] at e
      by_cases hc : searchable c = true ∧ Names c act types
      · right
        refine ⟨[], c, cs, rfl, hc.1, hc.2, h1, ?_⟩
        rw [e]
        unfold mapGet
        have hm := (mapEntries_spec c act types _).2 ⟨hc.1, hc.2, rfl⟩
        cases hf : (mapEntries c).reverse.find? (fun e => decide (e.1 = (act, types))) with
        | none =>
          have := List.find?_eq_none.1 hf _ (List.mem_reverse.2 hm)
          simp at this
        | some x =>
          have h6 : x.1 = (act, types) := by simpa using List.find?_some hf
          have h7 := List.mem_reverse.1 (List.mem_of_find?_eq_some hf)
          obtain ⟨x1, x2⟩ := x
          simp only at h6
          subst h6
          rw [Option.map_some, ((mapEntries_spec c act types x2).1 h7).2.2]
      · left
        refine ⟨?_, ?_⟩
        · intro q hq
          rcases List.mem_cons.1 hq with rfl | hq
          · exact hc
          · exact h1 q hq
        · rw [e]
          unfold mapGet
          have : (mapEntries c).reverse.find? (fun e => decide (e.1 = (act, types))) = none := by
            rw [List.find?_eq_none]
            intro x hx
            obtain ⟨x1, x2⟩ := x
            simp only [decide_eq_true_eq]
            rintro rfl
            have := (mapEntries_spec c act types x2).1 (List.mem_reverse.1 hx)
            exact hc ⟨this.1, this.2.1⟩
          rw [this]; rfl
    · right
      refine ⟨c :: b, q, a, by rw [h1]; rfl, h2, h3, h4, ?_⟩
      rw [e, h5]; rfl

/-- **C99 (own parameter).** A row whose activity and types are not named by any coefficient of the form `coef_<activity>_<types>`
uses the parameter written in the row. -/
theorem C99_own (coefs : List (List String)) (r : IRow)
    (h : ∀ parts ∈ coefs, ¬ (searchable parts = true ∧ Names parts r.activity.letter (String.ofList r.ptypes))) :
    rowCoef (coefMap coefs) r = r.coefficient := by
  unfold rowCoef
  rcases mapGet_spec coefs r.activity.letter (String.ofList r.ptypes) with ⟨_, h2⟩ | ⟨b, q, a, h1, h2, h3, _⟩
  · rw [h2]; rfl
  · exact absurd ⟨h2, h3⟩ (h q (by rw [h1]; simp))

/-- **C99 (named parameter).** If exactly one coefficient of the table names the activity and types of the row, that coefficient is
used. -/
theorem C99_named (before after : List (List String)) (parts : List String) (r : IRow)
    (hp : searchable parts = true ∧ Names parts r.activity.letter (String.ofList r.ptypes))
    (ho : ∀ q ∈ after, ¬ (searchable q = true ∧ Names q r.activity.letter (String.ofList r.ptypes))) :
    rowCoef (coefMap (before ++ parts :: after)) r = "_".intercalate parts := by
  unfold rowCoef
  rcases mapGet_spec (before ++ parts :: after) r.activity.letter (String.ofList r.ptypes) with ⟨h1, _⟩ | ⟨b, q, a, h1, h2, h3, h4, h5⟩
  · exact absurd hp (h1 parts (by simp))
  · rw [h5, Option.getD_some]
    congr 1
    rcases List.append_eq_append_iff.1 h1 with ⟨c, h6, h7⟩ | ⟨c, h6, h7⟩
    · cases c with
      | nil => simp only [List.nil_append, List.cons.injEq] at h7; exact h7.1.symm
      | cons x c =>
        simp only [List.cons_append, List.cons.injEq] at h7
        refine absurd ⟨h2, h3⟩ (ho q ?_)
        rw [h7.2]; simp
    · cases c with
      | nil => simp only [List.nil_append, List.cons.injEq] at h7; exact h7.1
      | cons x c =>
        simp only [List.cons_append, List.cons.injEq] at h7
        refine absurd hp (h4 parts ?_)
        rw [h7.2]; simp

/-- **C99 violated (household sizes mixed up).** Rows without types for households of three and of four persons, each with its own
parameter, and both parameters in the coefficient table: the three-person household gets the four-person parameter. -/
theorem C99_fails_sizes :
    rowCoef (coefMap [["coef", "M", "xxx"], ["coef", "M", "xxxx"]]) ⟨.M, 3, [], "coef_M_xxx"⟩ = "coef_M_xxxx" := by
  decide +kernel

example : AndIsBoth ⟨fun _ => 0, fun _ x => x, fun x _ => x, fun x y => x * y, fun x _ => x, fun x _ => x, fun x _ => x, fun x => x⟩ :=
  fun _ _ _ _ => rfl

/-- A working adult (type 1) and a child (type 7) staying home together: the pair counts once, for the pair of persons 1 and 2 only. -/
example : (⟨.H, 2, ['1', '7'], "b"⟩ : IRow).value
    ⟨fun s => if s = "p1_ptype" then 1 else 7, fun _ x => x, fun x _ => x, fun x y => x * y, fun x _ => x, fun x _ => x, fun x _ => x, fun x => x⟩
    5 2 [.H, .H] = 5 := by
  rw [value_combos]
  have e : combos 2 (List.range' 1 2) = [[1, 2]] := by decide +kernel
  simp only [e, List.map_cons, List.map_nil, List.sum_cons, List.sum_nil, add_zero]
  apply ind_pos
  have n1 : ptypeVar 1 = "p1_ptype" := by decide +kernel
  have n2 : ptypeVar 2 = "p2_ptype" := by decide +kernel
  have d1 : ('1' : Char).isDigit = true ∧ ('1' : Char).toNat - 48 = 1 := by decide +kernel
  have d7 : ('7' : Char).isDigit = true ∧ ('7' : Char).toNat - 48 = 7 := by decide +kernel
  refine ⟨by decide, ?_, fun _ => trivial⟩
  intro y hy
  have ht : tests [1, 2] ['1', '7'] = [(1, '1'), (2, '7')] := by decide +kernel
  rw [ht] at hy
  simp only [List.mem_cons, List.not_mem_nil, or_false] at hy
  rcases hy with rfl | rfl
  · simp [holds, typeValue, n1, d1.1]
  · simp [holds, typeValue, n2, d7.1]

end Larch.Props
