import Verif.Model.Feathers
import Verif.Lemmas.Align
import Mathlib.Tactic.Ring
import Mathlib.Data.List.Induction
import Mathlib.Tactic.IntervalCases
import Mathlib.Tactic.Linarith

/-!
# Flattened arrays, levels and case indexes
-/

namespace Larch.Feathers

open Larch.Frames

variable {K : Type}

theorem fe_length_flatMap_range {β : Type} (v m : Nat) (g : Nat → List β) (hg : ∀ j < v, (g j).length = m) :
    ((List.range v).flatMap g).length = v * m := by
  induction v with
  | zero => simp
  | succ v ih =>
    rw [List.range_succ, List.flatMap_append, List.length_append, ih (fun j hj => hg j (by omega))]
    simp [hg v (by omega), Nat.succ_mul]

theorem fe_getElem_flatMap_range {β : Type} (v m : Nat) (g : Nat → List β) (hg : ∀ j < v, (g j).length = m) (j i : Nat) (hj : j < v) (hi : i < m) :
    ((List.range v).flatMap g)[j * m + i]? = (g j)[i]? := by
  induction v with
  | zero => omega
  | succ v ih =>
    have hlen := fe_length_flatMap_range v m g (fun j hj => hg j (by omega))
    rw [List.range_succ, List.flatMap_append]
    by_cases hjv : j < v
    · rw [List.getElem?_append_left]
      · exact ih (fun j hj => hg j (by omega)) hjv
      · rw [hlen]
        calc j * m + i < j * m + m := by omega
          _ = (j + 1) * m := by ring
          _ ≤ v * m := Nat.mul_le_mul_right m hjv
    · have : j = v := by omega
      subst this
      rw [List.getElem?_append_right (by rw [hlen]; omega), hlen]
      simp

/-- The rows of a frame all have as many values as there are columns. -/
def Width (v : Nat) (rows : List (List K)) : Prop := ∀ r ∈ rows, r.length = v

theorem fe_filterMap_col (v : Nat) (rows : List (List K)) (h : Width v rows) (j : Nat) (hj : j < v) :
    (rows.filterMap (fun r => r[j]?)).length = rows.length ∧
    ∀ i : Nat, (rows.filterMap (fun r => r[j]?))[i]? = (rows[i]?).bind (fun r => r[j]?) := by
  induction rows with
  | nil => simp
  | cons r rows ih =>
    have hjr : j < r.length := by rw [h r (by simp)]; exact hj
    have hr : r[j]? = some r[j] := List.getElem?_eq_getElem hjr
    obtain ⟨h1, h2⟩ := ih (fun x hx => h x (List.mem_cons_of_mem _ hx))
    rw [List.filterMap_cons_some (f := fun r : List K => r[j]?) hr]
    refine ⟨by simp [h1], ?_⟩
    intro i
    cases i with
    | zero => simp [hr]
    | succ i => simp [h2]

theorem fe_flatT_length (v : Nat) (rows : List (List K)) (h : Width v rows) : (flatT v rows).length = v * rows.length :=
  fe_length_flatMap_range v rows.length _ (fun j hj => (fe_filterMap_col v rows h j hj).1)

theorem fe_flatT_get (v : Nat) (rows : List (List K)) (h : Width v rows) (i j : Nat) (hi : i < rows.length) (hj : j < v) :
    (flatT v rows)[j * rows.length + i]? = (rows[i]?).bind (fun r => r[j]?) := by
  unfold flatT
  rw [fe_getElem_flatMap_range v rows.length _ (fun j hj => (fe_filterMap_col v rows h j hj).1) j i hj hi]
  exact (fe_filterMap_col v rows h j hj).2 i

theorem fe_flatC_length (v : Nat) (rows : List (List K)) (h : Width v rows) : (flatC rows).length = rows.length * v := by
  unfold flatC
  induction rows with
  | nil => simp
  | cons r rows ih =>
    rw [List.flatten_cons, List.length_append, ih (fun x hx => h x (List.mem_cons_of_mem _ hx)), h r (by simp), List.length_cons]
    ring

theorem fe_flatC_slice (v : Nat) (rows : List (List K)) (h : Width v rows) (i : Nat) (r : List K) (hi : rows[i]? = some r) :
    ((flatC rows).drop (i * v)).take v = r := by
  unfold flatC
  induction rows generalizing i with
  | nil => simp at hi
  | cons x rows ih =>
    have hx : x.length = v := h x (by simp)
    cases i with
    | zero =>
      simp at hi; subst hi
      simp [← hx]
    | succ i =>
      rw [List.flatten_cons, show (i + 1) * v = x.length + i * v by rw [hx]; ring, List.drop_append]
      simp only [Nat.add_sub_cancel_left]
      rw [List.drop_eq_nil_of_le (by omega), List.nil_append]
      exact ih (fun y hy => h y (List.mem_cons_of_mem _ hy)) i (by simpa using hi)

theorem fe_flatC_get (v : Nat) (rows : List (List K)) (h : Width v rows) (i j : Nat) (hj : j < v) (hi : i < rows.length) :
    (flatC rows)[i * v + j]? = (rows[i]?).bind (fun r => r[j]?) := by
  have hr : rows[i]? = some rows[i] := List.getElem?_eq_getElem hi
  have := fe_flatC_slice v rows h i _ hr
  rw [hr]
  simp only [Option.bind_some]
  conv_rhs => rw [← this]
  rw [List.getElem?_take_of_lt hj, List.getElem?_drop]

theorem fe_row_of_cols (v : Nat) (r : List K) (h : r.length = v) : (List.range v).filterMap (fun j => r[j]?) = r := by
  subst h
  induction r using List.reverseRecOn with
  | nil => simp
  | append_singleton r x ih =>
    rw [List.length_append, List.length_singleton, List.range_succ, List.filterMap_append]
    have : (List.range r.length).filterMap (fun j => (r ++ [x])[j]?) = (List.range r.length).filterMap (fun j => r[j]?) := by
      apply List.filterMap_congr
      intro j hj
      rw [List.getElem?_append_left (List.mem_range.mp hj)]
    rw [this, ih]
    simp

theorem fe_rows_of_get (v : Nat) (rows : List (List K)) (h : Width v rows) (g : Nat → Nat → Option K)
    (hg : ∀ i j, i < rows.length → j < v → g i j = (rows[i]?).bind (fun r => r[j]?)) :
    (List.range rows.length).map (fun i => (List.range v).filterMap (fun j => g i j)) = rows := by
  apply List.ext_getElem?
  intro i
  by_cases hi : i < rows.length
  · rw [List.getElem?_map, List.getElem?_range hi, Option.map_some]
    have hr : rows[i]? = some rows[i] := List.getElem?_eq_getElem hi
    rw [hr]
    congr 1
    rw [← fe_row_of_cols v rows[i] (h _ (List.getElem_mem hi))]
    apply List.filterMap_congr
    intro j hj
    rw [hg i j hi (List.mem_range.mp hj), hr]
    rfl
  · rw [List.getElem?_eq_none (by simpa using Nat.le_of_not_lt hi), List.getElem?_eq_none (Nat.le_of_not_lt hi)]

theorem fe_readT (v : Nat) (hv : v ≠ 0) (rows : List (List K)) (h : Width v rows) : readT v (flatT v rows) = rows := by
  unfold readT
  rw [fe_flatT_length v rows h, Nat.mul_div_cancel_left _ (by omega)]
  exact fe_rows_of_get v rows h _ (fun i j hi hj => fe_flatT_get v rows h i j hi hj)

theorem fe_readC (v : Nat) (hv : v ≠ 0) (rows : List (List K)) (h : Width v rows) : readC v (flatC rows) = rows := by
  unfold readC
  rw [fe_flatC_length v rows h, Nat.mul_div_cancel _ (by omega)]
  apply List.ext_getElem?
  intro i
  by_cases hi : i < rows.length
  · rw [List.getElem?_map, List.getElem?_range hi, Option.map_some, List.getElem?_eq_getElem hi,
      fe_flatC_slice v rows h i _ (List.getElem?_eq_getElem hi)]
  · rw [List.getElem?_eq_none (by simpa using Nat.le_of_not_lt hi), List.getElem?_eq_none (Nat.le_of_not_lt hi)]

/-- Flattening the transposed three-dimensional view when it has one case or one alternative. -/
theorem fe_flatT3 (n a v : Nat) (rows : List (List K)) (hlen : rows.length = n * a) (hna : n ≤ 1 ∨ a ≤ 1) : flatT3 n a v rows = flatT v rows := by
  unfold flatT3 flatT
  have key : ∀ j : Nat, (List.range a).flatMap (fun q => (List.range n).filterMap (fun c => (rows[c * a + q]?).bind (fun r => r[j]?))) =
      rows.filterMap (fun r => r[j]?) := by
    intro j
    have hall : rows.filterMap (fun r => r[j]?) = (List.range rows.length).filterMap (fun c => (rows[c]?).bind (fun r => r[j]?)) := by
      clear hlen hna
      induction rows using List.reverseRecOn with
      | nil => simp
      | append_singleton r x ih =>
        rw [List.length_append, List.length_singleton, List.range_succ, List.filterMap_append, List.filterMap_append, ih]
        congr 1
        · apply List.filterMap_congr
          intro c hc
          rw [List.getElem?_append_left (List.mem_range.mp hc)]
        · simp [List.filterMap_cons]
    rw [hall, hlen]
    rcases hna with hn | ha
    · interval_cases n
      · simp
      · simp only [List.range_one, Nat.one_mul]
        rw [List.filterMap_eq_flatMap_toList]
        congr 1
        funext q
        simp only [Nat.zero_mul, Nat.zero_add, List.filterMap_cons, List.filterMap_nil]
        cases (rows[q]?).bind (fun r => r[j]?) <;> rfl
    · interval_cases a
      · simp
      · simp
  simp only [key]

theorem fe_contig3 {n a v : Nat} {s0 s1 : Int} (h : fContig [(n, a * s0), (a, s0), (v, s1)] = true) (hv : v ≠ 0) : n ≤ 1 ∨ a ≤ 1 := by
  by_contra hc
  push Not at hc
  unfold fContig at h
  simp only [List.any_cons, List.any_nil, Bool.or_false, Bool.or_eq_true, beq_iff_eq] at h
  rcases h with h | h
  · omega
  · unfold fSteps fSteps at h
    simp only [Bool.and_eq_true, Bool.or_eq_true, beq_iff_eq, one_mul] at h
    obtain ⟨h1, h2, _⟩ := h
    rcases h1 with h1 | h1
    · omega
    rcases h2 with h2 | h2
    · omega
    rw [h2] at h1
    have : (a : Int) * n = ((a * n : Nat) : Int) := by push_cast; ring
    rw [this] at h1
    have h3 : a * n = 1 := by exact_mod_cast h1
    have := Nat.eq_one_of_mul_eq_one_right h3
    omega

theorem fe_levels_pairwise (l : List Int) : (levels l).Pairwise (· < ·) := by
  unfold levels
  have h1 : (l.dedup.insertionSort (· ≤ ·)).Pairwise (· ≤ ·) := List.pairwise_insertionSort _ _
  have h2 : (l.dedup.insertionSort (· ≤ ·)).Nodup := (List.perm_insertionSort _ _).nodup_iff.mpr (List.nodup_dedup l)
  exact (h1.and h2).imp (fun h => lt_of_le_of_ne h.1 h.2)

theorem fe_mem_levels (l : List Int) (x : Int) : x ∈ levels l ↔ x ∈ l := by
  unfold levels
  rw [(List.perm_insertionSort _ _).mem_iff, List.mem_dedup]

/-- Levels of labels are the strictly increasing list of the same members. -/
theorem fe_levels_eq {l ids : List Int} (hs : ids.Pairwise (· < ·)) (hm : ∀ x, x ∈ ids ↔ x ∈ l) : levels l = ids := by
  have hp : (levels l).Perm ids := by
    rw [List.perm_ext_iff_of_nodup ((fe_levels_pairwise l).imp (fun h => ne_of_lt h)) (hs.imp (fun h => ne_of_lt h))]
    intro x; rw [fe_mem_levels, hm]
  exact hp.eq_of_pairwise (fun a b _ _ h1 h2 => absurd h1 (not_lt.mpr (le_of_lt h2))) (fe_levels_pairwise l) hs

theorem fe_range_filterMap (l : List Int) : (List.range l.length).filterMap (fun c => l[c]?) = l := fe_row_of_cols l.length l rfl

/-- The cases of a frame of the alternatives, as `caseindex` finds them. -/
theorem fe_caseindex_own (f : Tab String (Int × Int) K) :
    ((usedCodes (ownMF f)).insertionSort (· ≤ ·)).filterMap (fun c => (ownMF f).lev0[c]?) = (ownMF f).lev0 := by
  have hlev : (ownMF f).lev0 = levels (f.rows.map (fun r => r.1.1)) := rfl
  have hnd : (ownMF f).lev0.Nodup := by rw [hlev]; exact (fe_levels_pairwise _).imp (fun h => ne_of_lt h)
  have hrows : (ownMF f).rows = f.rows := rfl
  have hp : (usedCodes (ownMF f)).Perm (List.range (ownMF f).lev0.length) := by
    unfold usedCodes
    rw [List.perm_ext_iff_of_nodup (List.nodup_dedup _) List.nodup_range]
    intro c
    rw [List.mem_dedup, List.mem_range, List.mem_map]
    constructor
    · rintro ⟨r, hr, rfl⟩
      unfold code0
      apply List.idxOf_lt_length_of_mem
      rw [hlev, fe_mem_levels]
      exact List.mem_map_of_mem (f := fun r => r.1.1) hr
    · intro hc
      have hm : (ownMF f).lev0[c] ∈ f.rows.map (fun r => r.1.1) := by
        rw [← fe_mem_levels, ← hlev]; exact List.getElem_mem hc
      obtain ⟨r, hr, he⟩ := List.mem_map.mp hm
      refine ⟨r, hr, ?_⟩
      unfold code0
      show (ownMF f).lev0.idxOf r.1.1 = c
      rw [he]
      exact hnd.idxOf_getElem c hc
  have hs : (usedCodes (ownMF f)).insertionSort (· ≤ ·) = List.range (ownMF f).lev0.length := by
    have h1 : ((usedCodes (ownMF f)).insertionSort (· ≤ ·)).Perm (List.range (ownMF f).lev0.length) := (List.perm_insertionSort _ _).trans hp
    exact h1.eq_of_pairwise (fun a b _ _ h1 h2 => le_antisymm h1 h2) (List.pairwise_insertionSort _ _)
      (List.pairwise_lt_range.imp (fun h => le_of_lt h))
  rw [hs]
  exact fe_range_filterMap _

theorem fe_product (cases alts : List Int) : product cases alts = cases ×ˢ alts := rfl

theorem fe_zip_map {ι : Type} (rows : List (ι × List K)) : (rows.map Prod.fst).zip (rows.map Prod.snd) = rows := by
  rw [← List.unzip_fst, ← List.unzip_snd]; exact List.zip_unzip rows

theorem fe_filterMap_all {β : Type} (n : Nat) (g : Nat → Option β) (hg : ∀ c < n, (g c).isSome = true) :
    ((List.range n).filterMap g).length = n ∧ ∀ c < n, ((List.range n).filterMap g)[c]? = g c := by
  induction n with
  | zero => simp
  | succ n ih =>
    obtain ⟨h1, h2⟩ := ih (fun c hc => hg c (by omega))
    obtain ⟨x, hx⟩ := Option.isSome_iff_exists.mp (hg n (by omega))
    rw [List.range_succ, List.filterMap_append, List.filterMap_cons_some hx, List.filterMap_nil]
    refine ⟨by simp [h1], ?_⟩
    intro c hc
    by_cases hcn : c < n
    · rw [List.getElem?_append_left (by omega)]; exact h2 c hcn
    · have : c = n := by omega
      subst this
      rw [List.getElem?_append_right (by omega), h1, Nat.sub_self, hx]; rfl

theorem fe_cell_some (v : Nat) (rows : List (List K)) (h : Width v rows) (i j : Nat) (hi : i < rows.length) (hj : j < v) :
    ((rows[i]?).bind (fun r => r[j]?)).isSome = true := by
  rw [List.getElem?_eq_getElem hi]
  simp [h _ (List.getElem_mem hi), hj]

theorem fe_row_lt {n a c q : Nat} (hc : c < n) (hq : q < a) : c * a + q < n * a := by
  calc c * a + q < c * a + a := by omega
    _ = (c + 1) * a := by ring
    _ ≤ n * a := Nat.mul_le_mul_right a hc

theorem fe_flatT3_get (n a v : Nat) (rows : List (List K)) (hlen : rows.length = n * a) (h : Width v rows) (i j : Nat) (hi : i < rows.length)
    (hj : j < v) : (flatT3 n a v rows)[(j * a + i % a) * n + i / a]? = (rows[i]?).bind (fun r => r[j]?) ∧
    (flatT3 n a v rows).length = n * a * v := by
  have ha : 0 < a := by
    rcases Nat.eq_zero_or_pos a with h0 | h0
    · subst h0; omega
    · exact h0
  have inner : ∀ j < v, ∀ q < a, ((List.range n).filterMap (fun c => (rows[c * a + q]?).bind (fun r => r[j]?))).length = n ∧
      ∀ c < n, ((List.range n).filterMap (fun c => (rows[c * a + q]?).bind (fun r => r[j]?)))[c]? = (rows[c * a + q]?).bind (fun r => r[j]?) :=
    fun j hj q hq => fe_filterMap_all n _ (fun c hc => fe_cell_some v rows h _ j (by rw [hlen]; exact fe_row_lt hc hq) hj)
  have mid : ∀ j < v, ((List.range a).flatMap (fun q => (List.range n).filterMap (fun c => (rows[c * a + q]?).bind (fun r => r[j]?)))).length = a * n :=
    fun j hj => fe_length_flatMap_range a n _ (fun q hq => (inner j hj q hq).1)
  have hq : i % a < a := Nat.mod_lt i ha
  have hc : i / a < n := Nat.div_lt_of_lt_mul (by rw [Nat.mul_comm]; rw [hlen] at hi; exact hi)
  constructor
  · unfold flatT3
    rw [show (j * a + i % a) * n + i / a = j * (a * n) + (i % a * n + i / a) by ring,
      fe_getElem_flatMap_range v (a * n) _ mid j (i % a * n + i / a) hj (fe_row_lt hq hc),
      fe_getElem_flatMap_range a n _ (fun q hq => (inner j hj q hq).1) (i % a) (i / a) hq hc,
      (inner j hj _ hq).2 _ hc]
    rw [show i / a * a + i % a = i by rw [Nat.mul_comm]; exact Nat.div_add_mod i a]
  · unfold flatT3
    rw [fe_length_flatMap_range v (a * n) _ mid]; ring

end Larch.Feathers
