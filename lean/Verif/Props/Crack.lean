import Verif.Model.Crack
import Verif.Lemmas.Feathers
import Mathlib.Algebra.Order.BigOperators.Group.List
import Mathlib.Tactic.NormNum
import Mathlib.Tactic.FieldSimp

/-!
# C130: separating case data from alternatives' data loses nothing
-/

namespace Larch.Props

open Larch.Crack

/-- The rows have a cell per column. -/
def Rect (f : Alts) : Prop := ∀ r ∈ f.rows, r.2.length = f.cols.length

/-- No cell of a column of numbers is missing. -/
def NothingMissing (f : Alts) : Prop :=
  ∀ r ∈ f.rows, ∀ (j : Nat) (n : String), f.cols[j]? = some (n, true) → ∃ x : ℝ, r.2[j]? = some (some x)

/-- Within every case the values of the column at `j` that are there are the same. -/
def ConstantInCases (f : Alts) (j : Nat) : Prop :=
  ∀ r ∈ f.rows, ∀ s ∈ f.rows, r.1.1 = s.1.1 → ∀ x y : ℝ, r.2[j]? = some (some x) → s.2[j]? = some (some y) → x = y

theorem ck_caseIds (rows : List ((Int × Int) × List (Option ℝ))) : caseIds rows = Larch.Feathers.levels (rows.map (fun r => r.1.1)) := rfl

theorem ck_present {rows : List ((Int × Int) × List (Option ℝ))} {c : Int} {j : Nat} {x : ℝ} :
    x ∈ present rows c j ↔ ∃ r ∈ rows, r.1.1 = c ∧ r.2[j]? = some (some x) := by
  unfold present
  rw [List.mem_filterMap]
  constructor
  · rintro ⟨r, hr, h⟩
    rw [List.mem_filter] at hr
    refine ⟨r, hr.1, of_decide_eq_true hr.2, ?_⟩
    exact Option.join_eq_some_iff.mp h
  · rintro ⟨r, hr, h1, h2⟩
    exact ⟨r, List.mem_filter.mpr ⟨hr, decide_eq_true h1⟩, by rw [h2]; rfl⟩

/-- A sum of squares is zero exactly if each is. -/
theorem ck_sum_sq (l : List ℝ) (m : ℝ) : (l.map (fun x => (x - m) ^ 2)).sum = 0 ↔ ∀ x ∈ l, x = m := by
  have hnn : ∀ l : List ℝ, 0 ≤ (l.map (fun x => (x - m) ^ 2)).sum := by
    intro l; exact List.sum_nonneg (by intro y hy; obtain ⟨x, _, rfl⟩ := List.mem_map.mp hy; exact sq_nonneg _)
  induction l with
  | nil => simp
  | cons a l ih =>
    rw [List.map_cons, List.sum_cons]
    constructor
    · intro h
      have h1 : (a - m) ^ 2 = 0 := le_antisymm (by linarith [hnn l]) (sq_nonneg _)
      have h2 : (l.map (fun x => (x - m) ^ 2)).sum = 0 := by linarith
      intro x hx
      rcases List.mem_cons.mp hx with rfl | hx
      · exact sub_eq_zero.mp (pow_eq_zero_iff (by norm_num) |>.mp h1)
      · exact ih.mp h2 x hx
    · intro h
      rw [ih.mpr (fun x hx => h x (List.mem_cons_of_mem _ hx)), h a (by simp)]
      simp

/-- The standard deviation of two or more values is zero exactly if they are the same. -/
theorem ck_std (l : List ℝ) : (std l).any (fun s => !decide (s = 0)) = false ↔ ∀ x ∈ l, ∀ y ∈ l, x = y := by
  unfold std
  by_cases hl : l.length < 2
  · rw [if_pos hl]
    simp only [Option.any_none, true_iff]
    match l, hl with
    | [], _ => simp
    | [a], _ =>
      intro x hx y hy
      rw [List.mem_singleton.mp hx, List.mem_singleton.mp hy]
    | a :: b :: r, h => simp at h
  · rw [if_neg hl]
    have hpos : (0 : ℝ) < l.length - 1 := by
      have : (2 : ℝ) ≤ l.length := by exact_mod_cast Nat.le_of_not_lt hl
      linarith
    have hnn : (0 : ℝ) ≤ (l.map (fun x => (x - mean l) ^ 2)).sum / ((l.length : ℝ) - 1) := by
      refine div_nonneg (List.sum_nonneg ?_) hpos.le
      intro y hy; obtain ⟨x, _, rfl⟩ := List.mem_map.mp hy; exact sq_nonneg _
    simp only [Option.any_some, Bool.not_eq_false', decide_eq_true_eq]
    rw [Real.sqrt_eq_zero hnn, div_eq_zero_iff, ck_sum_sq]
    constructor
    · rintro (h | h)
      · intro x hx y hy; rw [h x hx, h y hy]
      · exact absurd h hpos.ne'
    · intro h
      left
      intro x hx
      have hs : ∀ l' : List ℝ, (∀ y ∈ l', y = x) → l'.sum = l'.length * x := by
        intro l'
        induction l' with
        | nil => simp
        | cons a l' ih =>
          intro ha
          rw [List.sum_cons, ih (fun y hy => ha y (List.mem_cons_of_mem _ hy)), ha a (by simp), List.length_cons]
          push_cast; ring
      unfold mean
      rw [hs l (fun y hy => h y hy x hx), mul_comm, mul_div_assoc, div_self (by linarith), mul_one]

theorem ck_varies (f : Alts) (j : Nat) : varies f.rows j = false ↔ ConstantInCases f j := by
  unfold varies ConstantInCases
  rw [List.any_eq_false]
  constructor
  · intro h r hr s hs hc x y hx hy
    have hm : r.1.1 ∈ caseIds f.rows := by rw [ck_caseIds, Larch.Feathers.fe_mem_levels]; exact List.mem_map_of_mem (f := fun r => r.1.1) hr
    have := (ck_std _).mp (by simpa using h _ hm)
    exact this x (ck_present.mpr ⟨r, hr, rfl, hx⟩) y (ck_present.mpr ⟨s, hs, hc.symm, hy⟩)
  · intro h c _
    rw [Bool.not_eq_true, ck_std]
    intro x hx y hy
    obtain ⟨r, hr, h1, h2⟩ := ck_present.mp hx
    obtain ⟨s, hs, h3, h4⟩ := ck_present.mp hy
    exact h r hr s hs (by rw [h1, h3]) x y h2 h4

theorem ck_moved (f : Alts) (j : Nat) : moved f j = true ↔ (∃ n, f.cols[j]? = some (n, true)) ∧ ConstantInCases f j := by
  unfold moved
  rw [Bool.and_eq_true, Bool.not_eq_true', ck_varies]
  refine and_congr_left (fun _ => ?_)
  cases h : f.cols[j]? with
  | none => simp
  | some c =>
    obtain ⟨n, b⟩ := c
    cases b <;> simp

theorem ck_pick_get {α : Type} (js : List Nat) (l : List α) (hjs : ∀ j ∈ js, j < l.length) (k j : Nat) (h : js[k]? = some j) :
    (pick js l)[k]? = l[j]? := by
  induction js generalizing k with
  | nil => simp at h
  | cons a js ih =>
    have ha := hjs a (by simp)
    unfold pick
    rw [List.filterMap_cons_some (List.getElem?_eq_getElem ha)]
    cases k with
    | zero =>
      simp only [List.getElem?_cons_zero, Option.some.injEq] at h
      subst h
      rw [List.getElem?_cons_zero, List.getElem?_eq_getElem ha]
    | succ k =>
      rw [List.getElem?_cons_succ]
      exact ih (fun j hj => hjs j (List.mem_cons_of_mem _ hj)) k (by simpa using h)

theorem ck_pick_mem {α : Type} (js : List Nat) (l : List α) (x : α) : x ∈ pick js l ↔ ∃ j ∈ js, l[j]? = some x := by
  unfold pick; rw [List.mem_filterMap]

theorem ck_pick_inv {α : Type} (js : List Nat) (l : List α) (hnd : l.Nodup) (hjs : ∀ j ∈ js, j < l.length) (k j : Nat) (hj : j < l.length)
    (h : (pick js l)[k]? = l[j]?) : js[k]? = some j := by
  have hlen : (pick js l).length = js.length := by
    clear h hj
    induction js with
    | nil => rfl
    | cons a js ih =>
      unfold pick
      rw [List.filterMap_cons_some (List.getElem?_eq_getElem (hjs a (by simp)))]
      have := ih (fun j hj => hjs j (List.mem_cons_of_mem _ hj))
      unfold pick at this
      simp [this]
  rw [List.getElem?_eq_getElem hj] at h
  have hk : k < js.length := by rw [← hlen]; exact (List.getElem?_eq_some_iff.mp h).1
  have h2 := ck_pick_get js l hjs k js[k] (List.getElem?_eq_getElem hk)
  rw [h, List.getElem?_eq_getElem (hjs _ (List.getElem_mem hk))] at h2
  rw [List.getElem?_eq_getElem hk]
  congr 1
  exact ((List.Nodup.getElem_inj_iff hnd).mp (Option.some.inj h2)).symm

theorem ck_columns (f : Alts) :
    (∀ j, j ∈ movedCols f ↔ (∃ n, f.cols[j]? = some (n, true)) ∧ ConstantInCases f j) ∧
    (∀ j, j ∈ keptCols f ↔ (∃ c, f.cols[j]? = some c) ∧ j ∉ movedCols f) ∧
    (crack f).1.cols = pick (keptCols f) f.cols ∧ (crack f).2.cols = pick (movedCols f) f.cols ∧
    (keptCols f).Pairwise (· < ·) ∧ (movedCols f).Pairwise (· < ·) := by
  have hm : ∀ j, j ∈ movedCols f ↔ (∃ n, f.cols[j]? = some (n, true)) ∧ ConstantInCases f j := by
    intro j
    unfold movedCols
    rw [List.mem_filter, List.mem_range, ck_moved]
    constructor
    · exact fun h => h.2
    · intro h
      obtain ⟨n, hn⟩ := h.1
      exact ⟨(List.getElem?_eq_some_iff.mp hn).1, h⟩
  refine ⟨hm, ?_, rfl, rfl, List.pairwise_lt_range.filter _, List.pairwise_lt_range.filter _⟩
  intro j
  unfold keptCols
  rw [List.mem_filter, List.mem_range, Bool.not_eq_true', hm, ← ck_moved, Bool.not_eq_true]
  refine and_congr_left (fun _ => ?_)
  constructor
  · intro h; exact ⟨_, List.getElem?_eq_getElem h⟩
  · rintro ⟨c, hc⟩; exact (List.getElem?_eq_some_iff.mp hc).1

/-- **C130.** Every column is in exactly one of the two frames, and each frame has its columns in the order they had: a column is moved to the frame of the
cases exactly if it holds numbers and they are the same within every case (where there are any). -/
theorem C130_columns (f : Alts) (hnd : f.cols.Nodup) (j : Nat) (c : String × Bool) (hj : f.cols[j]? = some c) :
    (c ∈ (crack f).2.cols ↔ c.2 = true ∧ ConstantInCases f j) ∧ (c ∈ (crack f).1.cols ↔ c ∉ (crack f).2.cols) ∧
    (crack f).1.cols.Sublist f.cols ∧ (crack f).2.cols.Sublist f.cols := by
  obtain ⟨h1, h2, h3, h4, h5, h6⟩ := ck_columns f
  have uniq : ∀ k, f.cols[k]? = some c → k = j := by
    intro k hk
    obtain ⟨hk', e⟩ := List.getElem?_eq_some_iff.mp hk
    obtain ⟨hj', e'⟩ := List.getElem?_eq_some_iff.mp hj
    exact (List.Nodup.getElem_inj_iff hnd).mp (e.trans e'.symm)
  have m2 : c ∈ (crack f).2.cols ↔ j ∈ movedCols f := by
    rw [h4, ck_pick_mem]
    exact ⟨fun ⟨k, hk, e⟩ => uniq k e ▸ hk, fun h => ⟨j, h, hj⟩⟩
  have m1 : c ∈ (crack f).1.cols ↔ j ∈ keptCols f := by
    rw [h3, ck_pick_mem]
    exact ⟨fun ⟨k, hk, e⟩ => uniq k e ▸ hk, fun h => ⟨j, h, hj⟩⟩
  have sub : ∀ js : List Nat, js.Sublist (List.range f.cols.length) → (pick js f.cols).Sublist f.cols := by
    intro js hjs
    have : (pick js f.cols).Sublist (pick (List.range f.cols.length) f.cols) := hjs.filterMap _
    have e : pick (List.range f.cols.length) f.cols = f.cols := by
      unfold pick
      exact Larch.Feathers.fe_row_of_cols f.cols.length f.cols rfl
    rwa [e] at this
  refine ⟨?_, ?_, ?_, ?_⟩
  · rw [m2, h1, hj]
    obtain ⟨n, b⟩ := c
    simp
  · rw [m1, m2, h2]
    exact ⟨fun h => h.2, fun h => ⟨⟨c, hj⟩, h⟩⟩
  · rw [h3]; exact sub _ List.filter_sublist
  · rw [h4]; exact sub _ List.filter_sublist

/-- The rows of the alternatives keep their labels and order; the frame of the cases has one row for each case that occurs, in increasing order. -/
theorem C130_rows (f : Alts) :
    (crack f).1.rows.map Prod.fst = f.rows.map Prod.fst ∧ ((crack f).2.rows.map Prod.fst).Pairwise (· < ·) ∧
    ∀ c, c ∈ (crack f).2.rows.map Prod.fst ↔ ∃ r ∈ f.rows, r.1.1 = c := by
  have hids : (crack f).2.rows.map Prod.fst = caseIds f.rows := by
    show ((caseIds f.rows).map _).map _ = _
    rw [List.map_map]; exact List.map_id _
  refine ⟨?_, ?_, ?_⟩
  · show (f.rows.map _).map _ = _
    rw [List.map_map]; rfl
  · rw [hids, ck_caseIds]; exact Larch.Feathers.fe_levels_pairwise _
  · intro c
    rw [hids, ck_caseIds, Larch.Feathers.fe_mem_levels, List.mem_map]

/-- What the two frames together say a row of the original frame contains in the column at position `j`: the cell of the row, or the cell of the row of its
case. -/
def Recover (f : Alts) (i j : Nat) (v : Option ℝ) : Prop :=
  (∃ (k : Nat) (r : (Int × Int) × List (Option ℝ)), (crack f).1.cols[k]? = f.cols[j]? ∧ (crack f).1.rows[i]? = some r ∧ r.2[k]? = some v) ∨
  (∃ (k : Nat) (r : (Int × Int) × List (Option ℝ)) (s : Int × List (Option ℝ)), (crack f).2.cols[k]? = f.cols[j]? ∧ (crack f).1.rows[i]? = some r ∧
    s ∈ (crack f).2.rows ∧ s.1 = r.1.1 ∧ s.2[k]? = some v)

/-- **C130.** If no number is missing, every cell of the original frame can be read off the two frames, and nothing else can. -/
theorem C130_lossless_partial (f : Alts) (hnd : f.cols.Nodup) (hf : Rect f) (hm : NothingMissing f) (i j : Nat) (r : (Int × Int) × List (Option ℝ)) (hi : f.rows[i]? = some r)
    (hj : j < f.cols.length) (v : Option ℝ) : Recover f i j v ↔ r.2[j]? = some v := by
  have hr : r ∈ f.rows := List.mem_of_getElem? hi
  have hri : (crack f).1.rows[i]? = some (r.1, pick (keptCols f) r.2) := by
    show (f.rows.map _)[i]? = _
    rw [List.getElem?_map, hi]; rfl
  have hk : ∀ j ∈ keptCols f, j < f.cols.length := fun j h => List.mem_range.mp (List.mem_filter.mp h).1
  have hk2 : ∀ j ∈ movedCols f, j < f.cols.length := fun j h => List.mem_range.mp (List.mem_filter.mp h).1
  have hcol1 : ∀ k j : Nat, (keptCols f)[k]? = some j → (crack f).1.cols[k]? = f.cols[j]? := fun k j h => ck_pick_get _ _ hk k j h
  have hcol2 : ∀ k j : Nat, (movedCols f)[k]? = some j → (crack f).2.cols[k]? = f.cols[j]? := fun k j h => ck_pick_get _ _ hk2 k j h
  have hcell : ∀ k j : Nat, (keptCols f)[k]? = some j → (pick (keptCols f) r.2)[k]? = r.2[j]? :=
    fun k j h => ck_pick_get _ _ (by rw [hf r hr]; exact hk) k j h
  have hco : ∀ (k j : Nat) (s : Int × List (Option ℝ)), (movedCols f)[k]? = some j → s ∈ (crack f).2.rows → s.1 = r.1.1 → s.2[k]? = r.2[j]? := by
    intro k j s hkj hs hc
    obtain ⟨c, hcm, rfl⟩ := List.mem_map.mp hs
    change c = r.1.1 at hc
    subst hc
    show ((movedCols f).map (first f.rows r.1.1))[k]? = _
    rw [List.getElem?_map, hkj]
    obtain ⟨⟨n, hn⟩, hcst⟩ := ((ck_columns f).1 j).mp (List.mem_of_getElem? hkj)
    obtain ⟨x, hx⟩ := hm r hr j n hn
    rw [hx]
    show some (present f.rows r.1.1 j).head? = _
    have hxm : x ∈ present f.rows r.1.1 j := ck_present.mpr ⟨r, hr, rfl, hx⟩
    cases hp : present f.rows r.1.1 j with
    | nil => rw [hp] at hxm; cases hxm
    | cons y l =>
      have hy : y ∈ present f.rows r.1.1 j := by rw [hp]; simp
      obtain ⟨s, hs, h1, h2⟩ := ck_present.mp hy
      rw [hcst s hs r hr h1 y x h2 hx]
      rfl
  constructor
  · rintro (⟨k, r', h1, h3, h4⟩ | ⟨k, r', s, h1, h3, h4, h5, h6⟩)
    · replace h1 := ck_pick_inv _ _ hnd hk k j hj h1
      rw [hri] at h3; cases h3
      rw [← hcell k j h1]; exact h4
    · replace h1 := ck_pick_inv _ _ hnd hk2 k j hj h1
      rw [hri] at h3; cases h3
      rw [← hco k j s h1 h4 h5]; exact h6
  · intro hv
    by_cases hmv : j ∈ movedCols f
    · obtain ⟨k, hkj⟩ := List.mem_iff_getElem?.mp hmv
      obtain ⟨s, hs, hse⟩ := List.mem_map.mp (((C130_rows f).2.2 r.1.1).mpr ⟨r, hr, rfl⟩)
      exact Or.inr ⟨k, _, s, hcol2 k j hkj, hri, hs, hse, by rw [hco k j s hkj hs hse]; exact hv⟩
    · have : j ∈ keptCols f := ((ck_columns f).2.1 j).mpr ⟨⟨_, List.getElem?_eq_getElem hj⟩, hmv⟩
      obtain ⟨k, hkj⟩ := List.mem_iff_getElem?.mp this
      exact Or.inl ⟨k, _, hcol1 k j hkj, hri, by rw [hcell k j hkj]; exact hv⟩

/-- Two cases; `inc` is the same within them, `time` is not, `name` is text. -/
def crackMe : Alts where
  cols := [("inc", true), ("time", true), ("name", false)]
  rows := [((1, 1), [some 5, some 10, none]), ((1, 2), [some 5, some 20, none]), ((2, 1), [some 7, some 30, none])]

example : Rect crackMe ∧ NothingMissing crackMe := by
  constructor
  · intro r hr
    simp only [crackMe, List.mem_cons, List.not_mem_nil, or_false] at hr
    rcases hr with rfl | rfl | rfl <;> rfl
  · intro r hr j n hn
    have hj : j = 0 ∨ j = 1 := by
      rcases j with _ | _ | _ | j
      · exact Or.inl rfl
      · exact Or.inr rfl
      · simp [crackMe] at hn
      · simp [crackMe] at hn
    simp only [crackMe, List.mem_cons, List.not_mem_nil, or_false] at hr
    rcases hr with rfl | rfl | rfl <;> rcases hj with rfl | rfl <;> simp

example : 0 ∈ movedCols crackMe ∧ 1 ∉ movedCols crackMe ∧ 2 ∉ movedCols crackMe := by
  refine ⟨((ck_columns _).1 0).mpr ⟨⟨"inc", rfl⟩, ?_⟩, ?_, ?_⟩
  · intro r hr s hs hc x y hx hy
    simp only [crackMe, List.mem_cons, List.not_mem_nil, or_false] at hr hs
    rcases hr with rfl | rfl | rfl <;> rcases hs with rfl | rfl | rfl <;> simp at hc hx hy <;> rw [← hx, ← hy]
  · intro h
    have := (((ck_columns _).1 1).mp h).2 ((1, 1), [some 5, some 10, none]) (by simp [crackMe]) ((1, 2), [some 5, some 20, none]) (by simp [crackMe])
      rfl 10 20 rfl rfl
    norm_num at this
  · intro h
    obtain ⟨⟨n, hn⟩, -⟩ := ((ck_columns _).1 2).mp h
    simp [crackMe] at hn

/-- One case of two alternatives, with a missing value. -/
def gapFrame : Alts := ⟨[("time", true)], [((1, 1), [some 5]), ((1, 2), [none])]⟩

/-- **C130 fails.** A missing value beside a single other value in a case is lost: the column is moved to the cases, and the row that lacked the value has
it now. -/
theorem C130_fails_missing : ∃ f : Alts, Rect f ∧ f.cols.Nodup ∧ ∃ (i : Nat) (r : (Int × Int) × List (Option ℝ)), f.rows[i]? = some r ∧ r.2[0]? = some none ∧
    Recover f i 0 (some 5) := by
  refine ⟨gapFrame, ?_, by decide, 1, ((1, 2), [none]), rfl, rfl, ?_⟩
  · intro r hr
    simp only [gapFrame, List.mem_cons, List.not_mem_nil, or_false] at hr
    rcases hr with rfl | rfl <;> rfl
  have hm : movedCols gapFrame = [0] := by
    have h0 : moved gapFrame 0 = true := by
      rw [ck_moved]
      refine ⟨⟨"time", rfl⟩, ?_⟩
      intro r hr s hs _ x y hx hy
      simp only [gapFrame, List.mem_cons, List.not_mem_nil, or_false] at hr hs
      rcases hr with rfl | rfl <;> rcases hs with rfl | rfl <;> simp at hx hy
      rw [← hx, ← hy]
    unfold movedCols
    show (List.range 1).filter _ = _
    simp [List.range_succ, h0]
  refine Or.inr ⟨0, ((1, 2), pick (keptCols gapFrame) [none]), (1, [some 5]), ?_, rfl, ?_, rfl, rfl⟩
  · show (pick (movedCols gapFrame) gapFrame.cols)[0]? = _
    rw [hm]; rfl
  · show _ ∈ (caseIds gapFrame.rows).map (fun c => (c, (movedCols gapFrame).map (first gapFrame.rows c)))
    rw [hm]
    have : caseIds gapFrame.rows = [1] := by rw [ck_caseIds]; rfl
    rw [this]
    simp [first, present, gapFrame]

/-! ## Weights -/

/-- **C130.** Weights given with the rows of the alternatives become one weight per case, the one the rows of that case share. -/
theorem C130_weights (w : List ((Int × Int) × Option ℝ)) (g : Int → ℝ) (hg : ∀ r ∈ w, r.2 = some (g r.1.1)) (ids : List Int)
    (hi : ids.Pairwise (· < ·)) (hids : ∀ c, c ∈ ids ↔ ∃ r ∈ w, r.1.1 = c) (hl : w.length ≠ ids.length) :
    setWeights ids.length w = .ok (ids.map (fun c => (c, some (g c)))) := by
  have hc : caseIds (w.map (fun r => (r.1, [r.2]))) = ids := by
    rw [ck_caseIds]
    refine Larch.Feathers.fe_levels_eq hi (fun x => ?_)
    rw [hids, List.map_map, List.mem_map]
    rfl
  have hfc : forceCrack w = ids.map (fun c => (c, some (g c))) := by
    unfold forceCrack
    rw [hc]
    apply List.map_congr_left
    intro c hcm
    obtain ⟨r, hr, rfl⟩ := (hids c).mp hcm
    congr 1
    show (present _ _ 0).head? = _
    have hall : ∀ x ∈ present (w.map (fun r => (r.1, [r.2]))) r.1.1 0, x = g r.1.1 := by
      intro x hx
      obtain ⟨s, hs, h1, h2⟩ := ck_present.mp hx
      obtain ⟨t, ht, rfl⟩ := List.mem_map.mp hs
      have h3 : t.2 = some x := by simpa using h2
      rw [hg t ht] at h3
      rw [← Option.some.inj h3]
      exact congrArg g h1
    have hmem : g r.1.1 ∈ present (w.map (fun r => (r.1, [r.2]))) r.1.1 0 :=
      ck_present.mpr ⟨(r.1, [r.2]), List.mem_map.mpr ⟨r, hr, rfl⟩, rfl, by simp [hg r hr]⟩
    cases hp : present (w.map (fun r => (r.1, [r.2]))) r.1.1 0 with
    | nil => rw [hp] at hmem; cases hmem
    | cons y l => rw [List.head?_cons, hall y (by rw [hp]; simp)]
  unfold setWeights
  rw [if_neg hl, hfc, if_pos (by rw [List.length_map])]

example : setWeights 2 [((1, 1), some 2), ((1, 2), some 2), ((7, 1), some 3)] = .ok [(1, some 2), (7, some 3)] := by
  have := C130_weights [((1, 1), some 2), ((1, 2), some 2), ((7, 1), some 3)] (fun c => if c = 1 then 2 else 3) (by
    intro r hr
    simp only [List.mem_cons, List.not_mem_nil, or_false] at hr
    rcases hr with rfl | rfl | rfl <;> simp) [1, 7] (by decide) (by intro c; simp; constructor <;> rintro (rfl | rfl) <;> simp) (by decide)
  simpa using this

/-- **C130 fails.** Weights that differ within a case are accepted: the first counts. -/
theorem C130_fails_varying_weights : ∃ w : List ((Int × Int) × Option ℝ), (∃ r ∈ w, ∃ s ∈ w, r.1.1 = s.1.1 ∧ r.2 ≠ s.2) ∧
    setWeights 1 w = .ok [(1, some 2)] := by
  refine ⟨[((1, 1), some 2), ((1, 2), some 9)], ⟨((1, 1), some 2), by simp, ((1, 2), some 9), by simp, rfl, by norm_num⟩, ?_⟩
  have hc : caseIds [((1, 1), [some (2 : ℝ)]), ((1, 2), [some 9])] = [1] := by
    rw [ck_caseIds]; rfl
  have : forceCrack [((1, 1), some 2), ((1, 2), some 9)] = [(1, some 2)] := by
    unfold forceCrack
    simp [hc, first, present]
  unfold setWeights
  rw [this]
  simp

/-- **C130 fails.** Weights named by a column of the alternatives' data cannot be used at all. -/
theorem C130_fails_named_weights (w : List ((Int × Int) × Option ℝ)) : ∃ e, namedWeights w = .error e := by
  unfold namedWeights
  cases unpack2 ((forceCrack w).map Prod.snd) with
  | ok x => exact ⟨.type, rfl⟩
  | error e => exact ⟨e, rfl⟩

end Larch.Props
