import Verif.Spec.Shares
import Mathlib.Tactic.Linarith
import Mathlib.Tactic.Ring
import Mathlib.Tactic.FieldSimp
import Mathlib.Algebra.Order.Field.Rat
import Mathlib.Algebra.Order.BigOperators.Group.List
import Mathlib.Tactic.NormNum
import Mathlib.Data.List.GetD

/-! # C172: shares by bins of a variable -/

namespace Larch.Props

open Larch.Shares

variable {K : Type} [Field K] [LinearOrder K]

theorem sh_below (d : List (K × K)) (a b : K) (h : a ≤ b) :
    below d b - below d a = ((d.filter (fun p => decide (a ≤ p.1) && decide (p.1 < b))).map Prod.snd).sum := by
  induction d with
  | nil => simp [below]
  | cons p d ih =>
    simp only [below, List.filter_cons] at ih ⊢
    by_cases h1 : p.1 < a
    · have h2 : p.1 < b := lt_of_lt_of_le h1 h
      have h3 : ¬ a ≤ p.1 := not_le.mpr h1
      simp only [h1, h2, h3, decide_true, decide_false, if_true, Bool.false_and, Bool.false_eq_true, if_false, List.map_cons, List.sum_cons]
      rw [← ih]; ring
    · have h3 : a ≤ p.1 := not_lt.mp h1
      by_cases h2 : p.1 < b
      · simp only [h1, h2, h3, decide_true, decide_false, if_true, Bool.and_self, Bool.false_eq_true, if_false, List.map_cons, List.sum_cons]
        rw [← ih]; ring
      · simp only [h1, h2, h3, decide_true, decide_false, Bool.true_and, Bool.false_eq_true, if_false]
        rw [← ih]

theorem sh_upTo (d : List (K × K)) (a b : K) (h : a ≤ b) :
    upTo d b - below d a = ((d.filter (fun p => decide (a ≤ p.1) && decide (p.1 ≤ b))).map Prod.snd).sum := by
  induction d with
  | nil => simp [below, upTo]
  | cons p d ih =>
    simp only [below, upTo, List.filter_cons] at ih ⊢
    by_cases h1 : p.1 < a
    · have h2 : p.1 ≤ b := (lt_of_lt_of_le h1 h).le
      have h3 : ¬ a ≤ p.1 := not_le.mpr h1
      simp only [h1, h2, h3, decide_true, decide_false, if_true, Bool.false_and, Bool.false_eq_true, if_false, List.map_cons, List.sum_cons]
      rw [← ih]; ring
    · have h3 : a ≤ p.1 := not_lt.mp h1
      by_cases h2 : p.1 ≤ b
      · simp only [h1, h2, h3, decide_true, decide_false, if_true, Bool.and_self, Bool.false_eq_true, if_false, List.map_cons, List.sum_cons]
        rw [← ih]; ring
      · simp only [h1, h2, h3, decide_true, decide_false, Bool.true_and, Bool.false_eq_true, if_false]
        rw [← ih]

theorem sh_length (d : List (K × K)) (edges : List K) : (hist d edges).length = edges.length - 1 := by
  induction edges using hist.induct <;> simp_all [hist]

theorem sh_inBin_succ (a : K) (l : List K) (k : Nat) (v : K) : inBin (a :: l) (k + 1) v = inBin l k v := by
  simp only [inBin, List.getElem?_cons_succ, List.length_cons]
  cases l[k]? <;> cases l[k + 1]? <;> simp

theorem sh_hist (d : List (K × K)) (edges : List K) (h : Increasing edges) (k : Nat) (hk : k + 1 < edges.length) :
    (hist d edges)[k]? = some ((d.filter (fun p => inBin edges k p.1)).map Prod.snd).sum := by
  induction edges using hist.induct generalizing k with
  | case1 => simp at hk
  | case2 a => simp at hk
  | case3 a b =>
    have h0 : k = 0 := by simp at hk; omega
    subst h0
    have hab : a ≤ b := by simpa [Increasing] using h
    simp only [hist, List.getElem?_cons_zero, sh_upTo d a b hab]
    congr 4
    funext p
    simp only [inBin, List.getElem?_cons_zero, List.getElem?_cons_succ, List.length_cons, List.length_nil]
    by_cases h1 : a ≤ p.1 <;> simp [h1, le_iff_lt_or_eq]
  | case4 a b c r ih =>
    have hab : a ≤ b := by
      have := List.rel_of_pairwise_cons h (a' := b) (by simp)
      exact this
    have ht : Increasing (b :: c :: r) := List.Pairwise.of_cons h
    cases k with
    | zero =>
      simp only [hist, List.getElem?_cons_zero, sh_below d a b hab]
      congr 4
      funext p
      simp [inBin]
    | succ k =>
      simp only [hist, List.getElem?_cons_succ]
      rw [ih ht k (by simpa using hk)]
      congr 4
      funext p
      rw [sh_inBin_succ]

theorem sh_entries (edges : List K) (cases : List (Case K)) (q : Case K → K) (k : Nat) :
    (((entries cases q).filter (fun p => inBin edges k p.1)).map Prod.snd).sum = massIn edges k cases q := by
  induction cases with
  | nil => simp [entries, massIn]
  | cons c r ih =>
    simp only [entries, massIn, List.map_cons, List.filter_cons] at ih ⊢
    by_cases hc : inBin edges k c.x = true
    · simp only [hc, if_true, List.map_cons, List.sum_cons, ih]
    · simp only [hc, Bool.false_eq_true, if_false, ih]

/-- A histogram has, for every bin, the weight of the cases of that bin. -/
theorem C172_histogram (edges : List K) (cases : List (Case K)) (q : Case K → K) :
    (Increasing edges → ∃ l, histogram edges (entries cases q) = .ok l ∧ l.length = edges.length - 1 ∧
      ∀ k, k + 1 < edges.length → l[k]? = some (massIn edges k cases q)) ∧
    (¬ Increasing edges → histogram edges (entries cases q) = .error "ValueError") := by
  refine ⟨fun h => ⟨hist (entries cases q) edges, if_pos h, sh_length _ _, fun k hk => ?_⟩, fun h => if_neg h⟩
  rw [sh_hist _ _ h k hk, sh_entries]

/-- Every value from the first edge to the last is in one bin, and no other value is in any. -/
theorem C172_one_bin (a b : K) (edges : List K) (h : Increasing (a :: b :: edges)) (v : K) :
    (a ≤ v ∧ v ≤ (b :: edges).getLast (by simp) → ∃ k, inBin (a :: b :: edges) k v = true ∧ ∀ j, inBin (a :: b :: edges) j v = true → j = k) ∧
    (∀ k, inBin (a :: b :: edges) k v = true → a ≤ v ∧ v ≤ (b :: edges).getLast (by simp)) := by
  induction edges generalizing a b with
  | nil =>
    have hab : a ≤ b := by simpa [Increasing] using h
    constructor
    · rintro ⟨h1, h2⟩
      refine ⟨0, ?_, ?_⟩
      · simp only [List.getLast_singleton] at h2
        simpa [inBin, h1, le_iff_lt_or_eq] using h2
      · intro j hj
        rcases j with _ | _ | j <;> simp [inBin] at hj ⊢
    · intro k hk
      rcases k with _ | _ | k <;> simp [inBin] at hk
      exact ⟨hk.1, by simpa [le_iff_lt_or_eq] using hk.2⟩
  | cons c r ih =>
    have hab : a ≤ b := List.rel_of_pairwise_cons h (by simp)
    have ht : Increasing (b :: c :: r) := List.Pairwise.of_cons h
    have hb : b ≤ (c :: r).getLast (by simp) := List.rel_of_pairwise_cons ht (List.getLast_mem _)
    have hz : inBin (a :: b :: c :: r) 0 v = (decide (a ≤ v) && decide (v < b)) := by simp [inBin]
    have := ih b c ht
    have hl : (b :: c :: r).getLast (by simp) = (c :: r).getLast (by simp) := List.getLast_cons _
    rw [hl]
    constructor
    · rintro ⟨h1, h2⟩
      by_cases hv : v < b
      · refine ⟨0, by simp [hz, h1, hv], ?_⟩
        intro j hj
        cases j with
        | zero => rfl
        | succ j =>
          rw [sh_inBin_succ] at hj
          exact absurd (this.2 j hj).1 (not_le.mpr hv)
      · obtain ⟨k, hk, hu⟩ := this.1 ⟨not_lt.mp hv, h2⟩
        refine ⟨k + 1, by rw [sh_inBin_succ]; exact hk, ?_⟩
        intro j hj
        cases j with
        | zero => simp [hz, hv] at hj
        | succ j => rw [sh_inBin_succ] at hj; rw [hu j hj]
    · intro k hk
      cases k with
      | zero =>
        simp only [hz, Bool.and_eq_true, decide_eq_true_eq] at hk
        exact ⟨hk.1, hk.2.le.trans hb⟩
      | succ k =>
        rw [sh_inBin_succ] at hk
        have := this.2 k hk
        exact ⟨hab.trans this.1, this.2⟩

theorem sh_lookup {α : Type} (n : Nat → α) (l : List Nat) (i : Nat) (h : i ∈ l) : (l.map (fun j => (j, n j))).lookup i = some (n i) := by
  induction l with
  | nil => simp at h
  | cons j l ih =>
    by_cases hj : i = j
    · subst hj; simp
    · have : i ∈ l := by simpa [hj] using h
      rw [List.map_cons, List.lookup_cons, show (i == j) = false from by simpa using hj]
      exact ih this

theorem sh_cell (edges : List K) (h : Increasing edges) (cases : List (Case K)) (cols : List Nat) (num : Nat → Case K → K) (den : Case K → K)
    (i : Nat) (hi : i ∈ cols) (k : Nat) (hk : k + 1 < edges.length) :
    cellOf (cols.map (fun i => (i, List.zipWith divide (hist (entries cases (num i)) edges) (hist (entries cases den) edges)))) i k =
      some (divide (massIn edges k cases (num i)) (massIn edges k cases den)) := by
  unfold cellOf
  rw [sh_lookup _ cols i hi]
  simp only [Option.bind_some, List.getElem?_zipWith, sh_hist _ _ h k hk, sh_entries]

theorem sh_massIn_zero (edges : List K) (k : Nat) (cases : List (Case K)) : massIn edges k cases (fun _ => 0) = 0 := by
  unfold massIn
  induction cases.filter (fun c => inBin edges k c.x) with
  | nil => rfl
  | cons c l ih => simp only [List.map_cons, List.sum_cons, ih]; ring

theorem sh_massIn_add (edges : List K) (k : Nat) (cases : List (Case K)) (p q : Case K → K) :
    massIn edges k cases (fun c => p c + q c) = massIn edges k cases p + massIn edges k cases q := by
  unfold massIn
  induction cases.filter (fun c => inBin edges k c.x) with
  | nil => simp
  | cons c l ih => simp only [List.map_cons, List.sum_cons, ih]; ring

theorem sh_across (edges : List K) (k : Nat) (cases : List (Case K)) (cols : List Nat) (f : Case K → Nat → K) :
    massIn edges k cases (fun c => across cols (f c)) = across cols (fun i => massIn edges k cases (fun c => f c i)) := by
  induction cols with
  | nil => simpa [across] using sh_massIn_zero edges k cases
  | cons i l ih =>
    simp only [across, List.map_cons, List.sum_cons] at ih ⊢
    rw [sh_massIn_add, ih]

theorem sh_count (edges : List K) (h : Increasing edges) (cases : List (Case K)) (cols : List Nat) (denPr denCh : Case K → K) (k : Nat)
    (hk : k + 1 < edges.length) :
    (table edges cases cols denPr denCh).count[k]? = some (massIn edges k cases (fun c => across cols c.pr)) := by
  have hk' : k < edges.length - 1 := by omega
  simp only [table, List.getElem?_map, List.getElem?_range hk', Option.map_some]
  rw [sh_across edges k cases cols (fun c => c.pr)]
  congr 2
  funext i
  rw [List.getD_eq_getElem?_getD, sh_hist _ _ h k hk, sh_entries]
  rfl

/-- The edges that `share_figure` uses. -/
def EdgesUsed (bins : Option (Bins K)) (pct : Nat) (cases : List (Case K)) (edges : List K) : Prop :=
  Increasing edges ∧ (bins = some (.edges edges) ∨ (bins = none ∧ equalMass (cases.map Case.x) pct = .ok edges))

theorem sh_used (bins : Option (Bins K)) (pct : Nat) (cases : List (Case K)) (edges : List K) (h : EdgesUsed bins pct cases edges) :
    (binsOf bins pct (cases.map Case.x)).bind usable = .ok edges := by
  obtain ⟨hi, h | ⟨h, h'⟩⟩ := h
  · subst h
    simp only [binsOf, Except.bind, usable]
    exact if_pos hi
  · subst h
    simp only [binsOf, h', Except.map, Except.bind, usable]
    exact if_pos hi

/-- `share_figure`: the share of an alternative in a bin is its part of the weighted probabilities (choices) of the cases of the bin, and `Count` is
their weight when probabilities sum to one. -/
theorem C172_shares (bins : Option (Bins K)) (pct n : Nat) (exclude : List Nat) (cases : List (Case K)) (edges : List K)
    (h : EdgesUsed bins pct cases edges) :
    ∃ t, shareFigure bins pct n exclude cases = .ok t ∧
      (∀ i k, i < n → k + 1 < edges.length →
        cellOf t.modeled i k = some (divide (massIn edges k cases (fun c => c.pr i)) (massIn edges k cases (fun c => across (List.range n) c.pr))) ∧
        cellOf t.observed i k = some (divide (massIn edges k cases (fun c => c.ch i)) (massIn edges k cases (fun c => across (List.range n) c.ch)))) ∧
      (∀ k, k + 1 < edges.length → t.count[k]? = some (massIn edges k cases (fun c => across (List.range n) c.pr))) ∧
      ((∀ c ∈ cases, across (List.range n) c.pr = 1) → ∀ k, k + 1 < edges.length → t.count[k]? = some (massIn edges k cases (fun _ => 1))) := by
  refine ⟨table edges cases (List.range n) (fun c => across (List.range n) c.pr) (fun c => across (List.range n) c.ch), ?_, ?_, ?_, ?_⟩
  · unfold shareFigure
    rw [sh_used bins pct cases edges h]; rfl
  · intro i k hi hk
    exact ⟨sh_cell edges h.1 cases _ (fun i c => c.pr i) _ i (by simpa using hi) k hk,
      sh_cell edges h.1 cases _ (fun i c => c.ch i) _ i (by simpa using hi) k hk⟩
  · intro k hk
    exact sh_count edges h.1 cases _ _ _ k hk
  · intro h1 k hk
    rw [sh_count edges h.1 cases _ _ _ k hk]
    congr 1
    unfold massIn
    congr 1
    apply List.map_congr_left
    intro c hc
    simp only [h1 c (List.mem_of_mem_filter hc)]

/-- `distribution_on_idco_variable`: shares are relative to the weight of the cases of the bin, for the columns shown. -/
theorem C172_on_idco (bins : Option (Bins K)) (pct nAlts nCols : Nat) (nests : Bool) (exclude : List Nat) (cases : List (Case K)) (edges : List K)
    (h : EdgesUsed bins pct cases edges) :
    ∃ t, onIdco bins pct nAlts nCols nests exclude cases = .ok t ∧
      (∀ i k, i < nAlts → i < nCols → ¬ (nAlts < nCols ∧ i + 1 = nCols) → i ∉ exclude → k + 1 < edges.length →
        cellOf t.modeled i k = some (divide (massIn edges k cases (fun c => c.pr i)) (massIn edges k cases (fun _ => 1))) ∧
        cellOf t.observed i k = some (divide (massIn edges k cases (fun c => c.ch i)) (massIn edges k cases (fun _ => 1)))) ∧
      (nCols = nAlts → exclude = [] → (∀ c ∈ cases, across (List.range nAlts) c.pr = 1) →
        ∀ k, k + 1 < edges.length → t.count[k]? = some (massIn edges k cases (fun _ => 1))) := by
  refine ⟨table edges cases (shown nAlts nCols nests exclude) (fun _ => 1) (fun _ => 1), ?_, ?_, ?_⟩
  · unfold onIdco
    rw [sh_used bins pct cases edges h]; rfl
  · intro i k hi hc hr he hk
    have hm : i ∈ shown nAlts nCols nests exclude := by
      unfold shown
      rw [List.mem_filter]
      refine ⟨by simpa using hc, ?_⟩
      have hr' : nAlts < nCols → i + 1 ≠ nCols := fun a b => hr ⟨a, b⟩
      simp only [hi, he, decide_true, Bool.true_or, Bool.true_and, not_false_eq_true, Bool.and_true, Bool.not_eq_true', Bool.and_eq_false_iff, decide_eq_false_iff_not]
      by_cases hn : nAlts < nCols
      · exact Or.inr (hr' hn)
      · exact Or.inl hn
    exact ⟨sh_cell edges h.1 cases _ (fun i c => c.pr i) _ i hm k hk, sh_cell edges h.1 cases _ (fun i c => c.ch i) _ i hm k hk⟩
  · intro hn he h1 k hk
    subst hn he
    have hs : shown nCols nCols nests [] = List.range nCols := by
      unfold shown
      rw [List.filter_eq_self]
      intro i hi
      simp [List.mem_range.mp hi]
    rw [sh_count edges h.1 cases _ _ _ k hk, hs]
    congr 1
    unfold massIn
    congr 1
    apply List.map_congr_left
    intro c hc
    simp only [h1 c (List.mem_of_mem_filter hc)]

/-- The shares of a bin with cases sum to one, modelled and observed. -/
theorem C172_sum (edges : List K) (cases : List (Case K)) (n k : Nat) (f : Case K → Nat → K)
    (hd : massIn edges k cases (fun c => across (List.range n) (f c)) ≠ 0) :
    (((List.range n).map (fun i => divide (massIn edges k cases (fun c => f c i)) (massIn edges k cases (fun c => across (List.range n) (f c))))).map
      (fun o => o.getD 0)).sum = 1 := by
  rw [sh_across] at hd ⊢
  simp only [divide, if_neg hd, List.map_map, Function.comp_def, Option.getD_some]
  have : ∀ (l : List Nat) (g : Nat → K) (D : K), (l.map (fun i => g i / D)).sum = (l.map g).sum / D := by
    intro l g D
    induction l with
    | nil => simp
    | cons i l ih => simp only [List.map_cons, List.sum_cons, ih]; ring
  rw [this]
  exact div_self hd

section Ordered

variable [IsStrictOrderedRing K]

theorem sh_massIn_nonneg (edges : List K) (k : Nat) (cases : List (Case K)) (q : Case K → K) (h : ∀ c ∈ cases, 0 ≤ q c ∧ 0 ≤ c.wt) :
    0 ≤ massIn edges k cases q := by
  unfold massIn
  apply List.sum_nonneg
  intro y hy
  obtain ⟨c, hc, rfl⟩ := List.mem_map.mp hy
  have := h c (List.mem_of_mem_filter hc)
  exact mul_nonneg this.1 this.2

theorem sh_massIn_mono (edges : List K) (k : Nat) (cases : List (Case K)) (p q : Case K → K) (h : ∀ c ∈ cases, p c ≤ q c ∧ 0 ≤ c.wt) :
    massIn edges k cases p ≤ massIn edges k cases q := by
  unfold massIn
  apply List.sum_le_sum
  intro c hc
  have := h c (List.mem_of_mem_filter hc)
  exact mul_le_mul_of_nonneg_right this.1 this.2

/-- Shares are between zero and one when probabilities and weights are not negative. -/
theorem C172_unit (edges : List K) (cases : List (Case K)) (n i k : Nat) (hi : i < n) (f : Case K → Nat → K)
    (hf : ∀ c ∈ cases, (∀ j < n, 0 ≤ f c j) ∧ 0 ≤ c.wt) (s : K)
    (hs : divide (massIn edges k cases (fun c => f c i)) (massIn edges k cases (fun c => across (List.range n) (f c))) = some s) : 0 ≤ s ∧ s ≤ 1 := by
  have hle : ∀ c ∈ cases, f c i ≤ across (List.range n) (f c) := by
    intro c hc
    unfold across
    have hm : f c i ∈ (List.range n).map (f c) := List.mem_map.mpr ⟨i, by simpa using hi, rfl⟩
    apply List.single_le_sum _ _ hm
    intro y hy
    obtain ⟨j, hj, rfl⟩ := List.mem_map.mp hy
    exact (hf c hc).1 j (by simpa using hj)
  have h1 : 0 ≤ massIn edges k cases (fun c => f c i) := sh_massIn_nonneg _ _ _ _ (fun c hc => ⟨(hf c hc).1 i hi, (hf c hc).2⟩)
  have h2 : massIn edges k cases (fun c => f c i) ≤ massIn edges k cases (fun c => across (List.range n) (f c)) :=
    sh_massIn_mono _ _ _ _ _ (fun c hc => ⟨hle c hc, (hf c hc).2⟩)
  unfold divide at hs
  split at hs
  · cases hs
  · rename_i hd
    cases hs
    have hpos : 0 < massIn edges k cases (fun c => across (List.range n) (f c)) := lt_of_le_of_ne (h1.trans h2) (Ne.symm hd)
    exact ⟨div_nonneg h1 hpos.le, (div_le_one hpos).mpr h2⟩

/-- Interpolation between the entries of a sequence. -/
def interp (g : Nat → K) (pct t : Nat) : K := g (t / pct) + (g (t / pct + 1) - g (t / pct)) * (((t % pct : Nat) : K) / (pct : K))

theorem sh_interp_mono (g : Nat → K) (hg : Monotone g) (pct : Nat) (hp : 0 < pct) : Monotone (interp g pct) := by
  apply monotone_nat_of_le_succ
  intro t
  have hpK : (0 : K) < (pct : K) := by exact_mod_cast hp
  have hd : 0 ≤ g (t / pct + 1) - g (t / pct) := sub_nonneg.mpr (hg (Nat.le_succ _))
  have hlt : t % pct < pct := Nat.mod_lt _ hp
  unfold interp
  by_cases hs : t % pct + 1 = pct
  · have hdiv : (t + 1) / pct = t / pct + 1 := by
      have : t + 1 = pct * (t / pct + 1) := by
        have := Nat.div_add_mod t pct
        rw [Nat.mul_add]; omega
      rw [this, Nat.mul_div_cancel_left _ hp]
    have hmod : (t + 1) % pct = 0 := by
      have : t + 1 = pct * (t / pct + 1) := by
        have := Nat.div_add_mod t pct
        rw [Nat.mul_add]; omega
      rw [this, Nat.mul_mod_right]
    rw [hdiv, hmod]
    have hfr : (((t % pct : Nat) : K) / (pct : K)) ≤ 1 := by
      rw [div_le_one hpK]; exact_mod_cast hlt.le
    have := mul_le_mul_of_nonneg_left hfr hd
    simp only [Nat.cast_zero, zero_div, mul_zero, add_zero]
    linarith
  · have hdiv : (t + 1) / pct = t / pct := by
      rw [Nat.succ_div, if_neg]
      · rfl
      · intro hdvd
        obtain ⟨q, hq⟩ := hdvd
        have h0 : (t + 1) % pct = 0 := by rw [hq, Nat.mul_mod_right]
        rw [Nat.add_mod] at h0
        have h1 : t % pct + 1 < pct := by omega
        by_cases hp1 : pct = 1
        · subst hp1; omega
        · rw [Nat.mod_eq_of_lt (by omega : 1 < pct), Nat.mod_eq_of_lt h1] at h0
          omega
    have hmod : (t + 1) % pct = t % pct + 1 := by
      have h1 := Nat.div_add_mod (t + 1) pct
      have h2 := Nat.div_add_mod t pct
      rw [hdiv] at h1
      omega
    rw [hdiv, hmod]
    have hfr : (((t % pct : Nat) : K) / (pct : K)) ≤ (((t % pct + 1 : Nat) : K) / (pct : K)) := by
      apply div_le_div_of_nonneg_right _ hpK.le
      exact_mod_cast Nat.le_succ _
    have := mul_le_mul_of_nonneg_left hfr hd
    linarith

/-- The ordered values, the last repeated. -/
def ordered (x : List K) (i : Nat) : K := (x.insertionSort (fun a b => a ≤ b)).getD (min i (x.length - 1)) 0

theorem sh_ordered_mono (x : List K) (hx : x ≠ []) : Monotone (ordered x) := by
  intro i j hij
  have hs : (x.insertionSort (fun a b => a ≤ b)).Pairwise (fun a b => a ≤ b) := by
    exact List.pairwise_insertionSort (fun a b : K => a ≤ b) x
  have hl : (x.insertionSort (fun a b => a ≤ b)).length = x.length := List.length_insertionSort _ x
  have hpos : 0 < x.length := List.length_pos_iff.mpr hx
  unfold ordered
  have hi : min i (x.length - 1) < (x.insertionSort (fun a b => a ≤ b)).length := by omega
  have hj : min j (x.length - 1) < (x.insertionSort (fun a b => a ≤ b)).length := by omega
  rw [List.getD_eq_getElem _ _ hi, List.getD_eq_getElem _ _ hj]
  rcases Nat.lt_or_ge (min i (x.length - 1)) (min j (x.length - 1)) with h | h
  · exact List.pairwise_iff_getElem.mp hs _ _ hi hj h
  · have : min i (x.length - 1) = min j (x.length - 1) := by omega
    simp only [this]; exact le_refl _

theorem sh_percentile (x : List K) (hx : x ≠ []) (pct j : Nat) (hp : 0 < pct) (hj : j ≤ pct) :
    percentile x pct j = interp (ordered x) pct (j * (x.length - 1)) := by
  have hl : (x.insertionSort (fun a b => a ≤ b)).length = x.length := List.length_insertionSort _ x
  have hpos : 0 < x.length := List.length_pos_iff.mpr hx
  have hi : j * (x.length - 1) / pct ≤ x.length - 1 := by
    apply Nat.div_le_of_le_mul
    exact Nat.mul_le_mul_right _ hj
  unfold percentile interp ordered
  simp only [hl, Nat.min_eq_left hi]
  by_cases he : j * (x.length - 1) / pct + 1 ≤ x.length - 1
  · simp only [Nat.min_eq_left he]
    have h1 : j * (x.length - 1) / pct + 1 < (x.insertionSort (fun a b => a ≤ b)).length := by omega
    rw [List.getD_eq_getElem _ _ h1, List.getD_eq_getElem _ _ h1]
  · have h1 : min (j * (x.length - 1) / pct + 1) (x.length - 1) = j * (x.length - 1) / pct := by omega
    rw [h1]
    rw [List.getD_eq_default (n := j * (x.length - 1) / pct + 1) (hn := by omega)]

/-- The equal-mass bins reach from the least value to the greatest, in order, so that every case is counted in one of them. -/
theorem C172_equal_mass (x : List K) (hx : x ≠ []) (pct : Nat) (hp : 0 < pct) :
    ∃ edges, equalMass x pct = .ok edges ∧ edges.length = pct + 1 ∧ Increasing edges ∧
      (∃ lo ∈ x, edges.head? = some lo ∧ ∀ v ∈ x, lo ≤ v) ∧ (∃ hi ∈ x, edges.getLast? = some hi ∧ ∀ v ∈ x, v ≤ hi) ∧
      ∀ v ∈ x, ∃ k, inBin edges k v = true ∧ ∀ j, inBin edges j v = true → j = k := by
  have hl : (x.insertionSort (fun a b => a ≤ b)).length = x.length := List.length_insertionSort _ x
  have hpos : 0 < x.length := List.length_pos_iff.mpr hx
  have hmono := sh_ordered_mono x hx
  have hmem : ∀ i, ordered x i ∈ x := by
    intro i
    unfold ordered
    have hi : min i (x.length - 1) < (x.insertionSort (fun a b => a ≤ b)).length := by omega
    rw [List.getD_eq_getElem _ _ hi]
    exact (List.perm_insertionSort (fun a b : K => a ≤ b) x).mem_iff.mp (List.getElem_mem hi)
  have hval : ∀ v ∈ x, ∃ i, i ≤ x.length - 1 ∧ ordered x i = v := by
    intro v hv
    have : v ∈ x.insertionSort (fun a b => a ≤ b) := (List.perm_insertionSort (fun a b : K => a ≤ b) x).mem_iff.mpr hv
    obtain ⟨i, hi, he⟩ := List.getElem_of_mem this
    refine ⟨i, by omega, ?_⟩
    unfold ordered
    rw [Nat.min_eq_left (by omega), List.getD_eq_getElem _ _ hi, he]
  have hlo : ∀ v ∈ x, ordered x 0 ≤ v := by
    intro v hv
    obtain ⟨i, _, rfl⟩ := hval v hv
    exact hmono (Nat.zero_le i)
  have hhi : ∀ v ∈ x, v ≤ ordered x (x.length - 1) := by
    intro v hv
    obtain ⟨i, hi, rfl⟩ := hval v hv
    exact hmono hi
  have hP : ∀ j ≤ pct, percentile x pct j = interp (ordered x) pct (j * (x.length - 1)) := fun j hj => sh_percentile x hx pct j hp hj
  have h0 : percentile x pct 0 = ordered x 0 := by
    rw [hP 0 (Nat.zero_le _)]
    simp [interp]
  have h1 : percentile x pct pct = ordered x (x.length - 1) := by
    rw [hP pct (le_refl _)]
    simp [interp, Nat.mul_div_cancel_left _ hp]
  have hinc : Increasing ((List.range (pct + 1)).map (percentile x pct)) := by
    unfold Increasing
    rw [List.pairwise_map]
    apply List.Pairwise.imp_of_mem _ (List.pairwise_lt_range (n := pct + 1))
    intro a b ha hb hab
    rw [hP a (by simp at ha; omega), hP b (by simp at hb; omega)]
    exact sh_interp_mono _ hmono pct hp (Nat.mul_le_mul_right _ hab.le)
  refine ⟨(List.range (pct + 1)).map (percentile x pct), if_neg hx, by simp, hinc, ⟨ordered x 0, hmem 0, ?_, hlo⟩,
    ⟨ordered x (x.length - 1), hmem _, ?_, hhi⟩, ?_⟩
  · rw [List.range_succ_eq_map]; simp [h0]
  · rw [List.range_succ]; simp [h1]
  · intro v hv
    obtain ⟨q, rfl⟩ : ∃ q, pct = q + 1 := ⟨pct - 1, by omega⟩
    have hform : (List.range (q + 1 + 1)).map (percentile x (q + 1)) =
        percentile x (q + 1) 0 :: percentile x (q + 1) 1 :: (List.range q).map (fun i => percentile x (q + 1) (i + 2)) := by
      rw [List.range_succ_eq_map, List.range_succ_eq_map]
      simp [Function.comp_def]
    have hlast : ((List.range (q + 1 + 1)).map (percentile x (q + 1))).getLast? = some (ordered x (x.length - 1)) := by
      rw [List.range_succ]; simp [h1]
    rw [hform] at hinc hlast ⊢
    apply (C172_one_bin _ _ _ hinc v).1
    refine ⟨by rw [h0]; exact hlo v hv, ?_⟩
    rw [List.getLast?_cons_cons, List.getLast?_eq_some_getLast (by simp)] at hlast
    rw [Option.some.inj hlast]
    exact hhi v hv

/-- VIOLATION: with the bins that are the default, the least value of the variable is in none of the intervals that label the rows. -/
theorem C172_fails_lowest_unlabelled (pct n : Nat) (hp : 0 < pct) (exclude : List Nat) (cases : List (Case K)) (hc : cases ≠ []) :
    ∃ t, shareFigure none pct n exclude cases = .ok t ∧ ∃ c ∈ cases, ∀ l ∈ t.labels, inLabel l c.x = false := by
  obtain ⟨edges, he, _, hinc, ⟨lo, hlo, hhead, hmin⟩, _, _⟩ := C172_equal_mass (cases.map Case.x) (by simpa using hc) pct hp
  obtain ⟨c, hcm, hcx⟩ := List.mem_map.mp hlo
  refine ⟨table edges cases (List.range n) (fun c => across (List.range n) c.pr) (fun c => across (List.range n) c.ch), ?_, c, hcm, ?_⟩
  · unfold shareFigure
    rw [sh_used none pct cases edges ⟨hinc, Or.inr ⟨rfl, he⟩⟩]; rfl
  · intro l hl
    have hl1 : l.1 ∈ edges := (List.of_mem_zip hl).1
    have : lo ≤ l.1 := by
      cases edges with
      | nil => simp at hl1
      | cons a r =>
        simp only [List.head?_cons, Option.some.injEq] at hhead
        subst hhead
        rcases List.mem_cons.mp hl1 with h | h
        · exact h.ge
        · exact List.rel_of_pairwise_cons hinc h
    simp [inLabel, hcx, not_lt.mpr this]

end Ordered

/-- A table's rows are labelled with the intervals between the edges. -/
theorem C172_labels_partial (edges : List K) (cases : List (Case K)) (cols : List Nat) (p q : Case K → K) (k : Nat) (a b v : K)
    (ha : edges[k]? = some a) (hb : edges[k + 1]? = some b) (hv : ∀ e ∈ edges, v ≠ e) :
    (table edges cases cols p q).labels[k]? = some (a, b) ∧ inLabel (a, b) v = inBin edges k v := by
  constructor
  · simp only [table, List.getElem?_zip_eq_some, List.getElem?_tail]
    exact ⟨ha, hb⟩
  · have h1 : v ≠ a := hv a (List.mem_of_getElem? ha)
    have h2 : v ≠ b := hv b (List.mem_of_getElem? hb)
    simp only [inLabel, inBin, ha, hb]
    have e1 : (a < v) ↔ (a ≤ v) := ⟨le_of_lt, fun h => lt_of_le_of_ne h h1.symm⟩
    have e2 : (v ≤ b) ↔ (v < b) := ⟨fun h => lt_of_le_of_ne h h2, le_of_lt⟩
    simp [e1, e2, h2]

/-- VIOLATION: a number of bins, the documented argument, raises. -/
theorem C172_fails_number_of_bins (m pct n : Nat) (exclude : List Nat) (cases : List (Case K)) :
    shareFigure (some (.number m)) pct n exclude cases = .error "TypeError" ∧
    ∀ nCols nests, onIdco (some (.number m)) pct n nCols nests exclude cases = .error "TypeError" := ⟨rfl, fun _ _ => rfl⟩

/-- VIOLATION: `exclude_alts` has no effect on `share_figure`. -/
theorem C172_fails_exclude (bins : Option (Bins K)) (pct n : Nat) (exclude : List Nat) (cases : List (Case K)) :
    shareFigure bins pct n exclude cases = shareFigure bins pct n [] cases := rfl

/-! ## A survey of three cases and two alternatives -/

/-- Three cases at 0, 1 and 2. -/
def surveyed : List (Case ℚ) :=
  [⟨0, 1, fun i => if i = 0 then 1 / 4 else if i = 1 then 3 / 4 else 1, fun i => if i = 0 then 0 else 1⟩,
   ⟨1, 2, fun i => if i = 0 then 1 / 2 else if i = 1 then 1 / 2 else 1, fun i => if i = 1 then 0 else 1⟩,
   ⟨2, 1, fun i => if i = 0 then 1 else if i = 1 then 0 else 1, fun i => if i = 1 then 0 else 1⟩]

example : EdgesUsed (some (.edges [0, 1, 2])) 20 surveyed [0, 1, 2] := ⟨by unfold Increasing; norm_num, Or.inl rfl⟩

example : massIn [0, 1, 2] 1 surveyed (fun c => across (List.range 2) c.pr) = 3 := by decide +kernel

example : ∀ c ∈ surveyed, across (List.range 2) c.pr = 1 := by decide +kernel

example : (shareFigure (some (.edges [0, 1, 2])) 20 2 [] surveyed).toOption.map (fun t => (t.modeled, t.count)) =
    some ([(0, [some (1 / 4), some (2 / 3)]), (1, [some (3 / 4), some (1 / 3)])], [1, 3]) := by decide +kernel

example : equalMass [2, 0, (1 : ℚ)] 2 = .ok [0, 1, 2] := by decide +kernel

/-- VIOLATION: the row labelled from 0 to 1 (included) counts the case at 0, which is not in it, and not the case at 1, which is. -/
theorem C172_fails_label :
    ∃ t, shareFigure (some (.edges [0, 1, 2])) 20 2 [] surveyed = .ok t ∧ t.labels[0]? = some (0, 1) ∧ t.count[0]? = some 1 ∧
      (surveyed.filter (fun c => inLabel (0, 1) c.x)).map Case.wt = [2] := by
  refine ⟨_, rfl, ?_, ?_, ?_⟩ <;> decide +kernel

/-- VIOLATION: with nests the count of `distribution_on_idco_variable` counts cases again for every nest (here one nest of both alternatives, and
the root), and with excluded alternatives it counts only a part. -/
theorem C172_fails_count_nests :
    (∃ t, onIdco (some (.edges [0, 1, 2])) 20 2 4 true [] surveyed = .ok t ∧ t.count = [2, 6] ∧
      (List.range 2).map (fun k => massIn [0, 1, 2] k surveyed (fun _ => 1)) = [1, 3]) ∧
    ∃ t, onIdco (some (.edges [0, 1, 2])) 20 2 2 false [1] surveyed = .ok t ∧ t.count = [1 / 4, 2] := by
  refine ⟨⟨_, rfl, ?_, ?_⟩, ⟨_, rfl, ?_⟩⟩ <;> decide +kernel

/-- The bins of a categorical variable. -/
theorem C172_categories_partial (n : Nat) (codes : List Nat) (hn : 0 < n) :
    (categoryEdges n codes false).length = n + 1 ∧
    ((∀ c < n, c ∈ codes) → categoryEdges n codes true = categoryEdges n codes false) ∧
    ∀ c < n, ∀ k, inBin ((categoryEdges n codes false).map (fun (e : Nat) => (e : ℚ))) k (c : ℚ) = true ↔ k = c := by
  refine ⟨by simp [categoryEdges], ?_, ?_⟩
  · intro h
    have : (List.range n).filter (fun c => c ∈ codes) = List.range n := by
      rw [List.filter_eq_self]
      intro c hc
      simpa using h c (by simpa using hc)
    simp [categoryEdges, this]
  · intro c hc k
    simp only [categoryEdges, Bool.false_eq_true, if_false, inBin, List.getElem?_map, List.length_map, List.length_range]
    by_cases h1 : k + 1 < n + 1
    · rw [List.getElem?_range h1, List.getElem?_range (by omega : k < n + 1)]
      simp only [Option.map_some, Bool.and_eq_true, Bool.or_eq_true, decide_eq_true_eq, Nat.cast_le, Nat.cast_lt, Nat.cast_inj]
      omega
    · have : (List.range (n + 1))[k + 1]? = none := by simp; omega
      rw [this]
      simp only [Option.map_none]
      cases hg : Option.map (fun (e : Nat) => (e : ℚ)) (List.range (n + 1))[k]? <;> simp <;> omega

/-- VIOLATION: with `discrete=True` there are bins only for as many categories as occur, so that the codes of others fall out of all bins. -/
theorem C172_fails_categories :
    categoryEdges 4 [0, 3] true = [0, 1, 2] ∧ ∀ k, inBin ((categoryEdges 4 [0, 3] true).map (fun (e : Nat) => (e : ℚ))) k 3 = false := by
  refine ⟨by decide, ?_⟩
  intro k
  have : categoryEdges 4 [0, 3] true = [0, 1, 2] := by decide
  rw [this]
  by_contra h
  have hk := (C172_one_bin (0 : ℚ) 1 [2] (by unfold Increasing; norm_num) 3).2 k (by simpa using h)
  norm_num at hk

end Larch.Props
