import Verif.Model.CrossTab
import Mathlib.Data.List.GetD
import Mathlib.Tactic.Ring
import Mathlib.Tactic.FieldSimp
import Mathlib.Tactic.Linarith
import Mathlib.Tactic.Positivity

/-!
# C181: a table of counts and shares
-/

namespace Larch.Props

open Larch.CrossTab

/-- The number of records with a property. -/
def tallyOf (d : List (String × String)) (P : String × String → Prop) [DecidablePred P] : ℚ := ((d.countP (fun e => decide (P e)) : Nat) : ℚ)

/-- The categories are those of the data: no label twice, and each record has one of the rows and one of the columns. -/
structure Classified (rowCats colCats : List String) (d : List (String × String)) : Prop where
  rows : rowCats.Nodup
  cols : colCats.Nodup
  each : ∀ e ∈ d, e.1 ∈ rowCats ∧ e.2 ∈ colCats

theorem xt_one (k : String) (L : List String) (hn : L.Nodup) (hk : k ∈ L) : (L.map (fun j => if k = j then (1 : ℚ) else 0)).sum = 1 := by
  induction L with
  | nil => cases hk
  | cons a r ih =>
    rw [List.nodup_cons] at hn
    rw [List.map_cons, List.sum_cons]
    rcases List.mem_cons.1 hk with rfl | hk'
    · have : r.map (fun j => if k = j then (1 : ℚ) else 0) = r.map (fun _ => 0) := by
        apply List.map_congr_left
        intro j hj
        rw [if_neg]
        rintro rfl
        exact hn.1 hj
      rw [this]; simp
    · rw [ih hn.2 hk', if_neg (by rintro rfl; exact hn.1 hk')]; simp

theorem xt_sum_add (L : List String) (f g : String → ℚ) : (L.map (fun j => f j + g j)).sum = (L.map f).sum + (L.map g).sum := by
  induction L with
  | nil => simp
  | cons a r ih => simp only [List.map_cons, List.sum_cons, ih]; ring

theorem xt_partition (f : String × String → String) (P : String × String → Prop) [DecidablePred P] (L : List String) (hn : L.Nodup) :
    ∀ d : List (String × String), (∀ e ∈ d, f e ∈ L) → (L.map (fun k => tallyOf d (fun e => f e = k ∧ P e))).sum = tallyOf d P := by
  intro d
  induction d with
  | nil => intro _; simp [tallyOf]
  | cons a r ih =>
    intro h
    have h1 := ih (fun e he => h e (List.mem_cons_of_mem _ he))
    have e1 : ∀ k, tallyOf (a :: r) (fun e => f e = k ∧ P e) = tallyOf r (fun e => f e = k ∧ P e) + (if P a then (if f a = k then 1 else 0) else 0) := by
      intro k
      simp only [tallyOf, List.countP_cons, Nat.cast_add, decide_eq_true_eq]
      split_ifs <;> first | rfl | (exfalso; tauto)
    have e2 : tallyOf (a :: r) P = tallyOf r P + (if P a then 1 else 0) := by
      simp only [tallyOf, List.countP_cons, Nat.cast_add, decide_eq_true_eq]
      split_ifs <;> simp
    simp only [e1, e2]
    rw [xt_sum_add, h1]
    by_cases hp : P a
    · simp only [hp, if_true, xt_one (f a) L hn (h a List.mem_cons_self)]
    · simp [hp]

theorem xt_count (d : List (String × String)) (r c : String) : count d r c = tallyOf d (fun e => e.1 = r ∧ e.2 = c) := by
  unfold count tallyOf
  rw [List.countP_eq_length_filter]

theorem xt_present_mem (cats used : List String) (x : String) : x ∈ present cats used ↔ x ∈ cats ∧ x ∈ used := by
  simp [present]

variable {rowCats colCats : List String} {d : List (String × String)}

/-- The labels of the rows and columns that have records. -/
def inUse (cats used : List String) : List String := cats.filter (fun c => decide (c ∈ used))

theorem xt_col_sum (h : Classified rowCats colCats d) (c : String) :
    ((present rowCats (d.map Prod.fst)).map (fun r => count d r c)).sum = tallyOf d (fun e => e.2 = c) := by
  simp only [xt_count]
  exact xt_partition Prod.fst (fun e => e.2 = c) _ (h.rows.filter _) d
    (fun e he => (xt_present_mem _ _ _).2 ⟨(h.each e he).1, List.mem_map_of_mem he⟩)

theorem xt_row_sum (h : Classified rowCats colCats d) (r : String) :
    ((present colCats (d.map Prod.snd)).map (fun c => count d r c)).sum = tallyOf d (fun e => e.1 = r) := by
  have e : ∀ c, count d r c = tallyOf d (fun e => e.2 = c ∧ e.1 = r) := by
    intro c
    rw [xt_count]
    simp only [tallyOf, and_comm]
  simp only [e]
  exact xt_partition Prod.snd (fun e => e.1 = r) _ (h.cols.filter _) d
    (fun e he => (xt_present_mem _ _ _).2 ⟨(h.each e he).2, List.mem_map_of_mem he⟩)

theorem xt_all_cols (h : Classified rowCats colCats d) :
    ((present colCats (d.map Prod.snd)).map (fun c => tallyOf d (fun e => e.2 = c))).sum = d.length := by
  have h1 := xt_partition Prod.snd (fun _ => True) (present colCats (d.map Prod.snd)) (h.cols.filter _) d
    (fun e he => (xt_present_mem _ _ _).2 ⟨(h.each e he).2, List.mem_map_of_mem he⟩)
  simp only [and_true] at h1
  rw [h1]
  simp [tallyOf]

theorem xt_all_rows (h : Classified rowCats colCats d) :
    ((present rowCats (d.map Prod.fst)).map (fun c => tallyOf d (fun e => e.1 = c))).sum = d.length := by
  have h1 := xt_partition Prod.fst (fun _ => True) (present rowCats (d.map Prod.fst)) (h.rows.filter _) d
    (fun e he => (xt_present_mem _ _ _).2 ⟨(h.each e he).1, List.mem_map_of_mem he⟩)
  simp only [and_true] at h1
  rw [h1]
  simp [tallyOf]

theorem xt_rowSums (h : Classified rowCats colCats d) :
    rowSums (present rowCats (d.map Prod.fst)).length (pivot (present rowCats (d.map Prod.fst)) (present colCats (d.map Prod.snd)) d) =
      (present rowCats (d.map Prod.fst)).map (fun r => tallyOf d (fun e => e.1 = r)) := by
  set rows := present rowCats (d.map Prod.fst) with hr
  apply List.ext_getElem
  · simp [rowSums]
  · intro i h1 h2
    have hi : i < rows.length := by simpa [rowSums] using h1
    simp only [rowSums, pivot, List.getElem_map, List.getElem_range, List.map_map, Function.comp_def]
    rw [← xt_row_sum h]
    congr 1
    apply List.map_congr_left
    intro c _
    rw [List.getD_eq_getElem _ _ (by simpa using hi), List.getElem_map]

theorem xt_pos {c : String} (hc : c ∈ d.map Prod.snd) : 0 < tallyOf d (fun e => e.2 = c) := by
  obtain ⟨e, he, rfl⟩ := List.mem_map.1 hc
  unfold tallyOf
  rw [Nat.cast_pos, List.countP_pos_iff]
  exact ⟨e, he, by simp⟩

/-- **C181.**  The table of counts: for each category with records, in the order of the categories, the number of records of each row and column,
of each column and of all, each row's in the column `TOTAL`; and for each column the part of all records that it has. -/
theorem C181_counts (h : Classified rowCats colCats d) (hd : d ≠ []) (hc : "TOTAL" ∉ colCats) (t : Table)
    (ht : countsAndShares rowCats colCats d true true = some t) :
    t.rows = inUse rowCats (d.map Prod.fst) ∧
    t.counts = (inUse colCats (d.map Prod.snd)).map (fun c => ⟨c, t.rows.map (fun r => .number (tallyOf d (fun e => e.1 = r ∧ e.2 = c))),
        .number (tallyOf d (fun e => e.2 = c)), .percent (tallyOf d (fun e => e.2 = c) / d.length)⟩) ++
      [⟨"TOTAL", t.rows.map (fun r => .number (tallyOf d (fun e => e.1 = r))), .number d.length, .percent 1⟩] := by
  unfold countsAndShares at ht
  split_ifs at ht with hx
  simp only [Option.some.injEq] at ht
  subst ht
  refine ⟨rfl, ?_⟩
  have hlen : (0 : ℚ) < d.length := by
    rw [Nat.cast_pos]; exact List.length_pos_iff.2 hd
  have hnt : "TOTAL" ∉ (pivot (present rowCats (d.map Prod.fst)) (present colCats (d.map Prod.snd)) d).map Prod.fst := by
    simp only [pivot, List.map_map, Function.comp_def, List.map_id']
    exact fun hh => hc ((xt_present_mem _ _ _).1 hh).1
  have hg : withTotals true (present rowCats (d.map Prod.fst)).length (pivot (present rowCats (d.map Prod.fst)) (present colCats (d.map Prod.snd)) d) =
      pivot (present rowCats (d.map Prod.fst)) (present colCats (d.map Prod.snd)) d ++
        [("TOTAL", (present rowCats (d.map Prod.fst)).map (fun r => tallyOf d (fun e => e.1 = r)))] := by
    unfold withTotals putCol
    rw [if_pos rfl, if_neg hnt, xt_rowSums h]
  have hsum : sumOfTotals (pivot (present rowCats (d.map Prod.fst)) (present colCats (d.map Prod.snd)) d ++
        [("TOTAL", (present rowCats (d.map Prod.fst)).map (fun r => tallyOf d (fun e => e.1 = r)))]) = 2 * d.length := by
    unfold sumOfTotals
    rw [List.map_append, List.sum_append]
    simp only [pivot, List.map_map, Function.comp_def, xt_col_sum h, xt_all_cols h, List.map_cons, List.map_nil, List.sum_cons, List.sum_nil,
      xt_all_rows h]
    ring
  dsimp only
  rw [hg, List.map_append]
  have hshow : ∀ x : ℚ, 0 ≤ x → showCount true x = .number x := by
    intro x hx
    simp [showCount, pctOrThousands, not_lt.2 hx]
  have hnn : ∀ (P : String × String → Prop) [DecidablePred P], 0 ≤ tallyOf d P := fun P _ => by unfold tallyOf; positivity
  congr 1
  · simp only [pivot, List.map_map, Function.comp_def]
    apply List.map_congr_left
    intro c hcm
    have hpos := xt_pos ((xt_present_mem _ _ _).1 hcm).2
    rw [Column.mk.injEq]
    refine ⟨rfl, ?_, ?_, ?_⟩
    · apply List.map_congr_left
      intro r _
      rw [xt_count, hshow _ (hnn _)]
    · rw [xt_col_sum h, hshow _ (hnn _)]
    · have hsum' := hsum
      simp only [pivot] at hsum'
      have e : pctRow true (List.map (fun c => (c, List.map (fun r => count d r c) (present rowCats (List.map Prod.fst d))))
            (present colCats (List.map Prod.snd d)) ++
          [("TOTAL", List.map (fun r => tallyOf d fun e => e.1 = r) (present rowCats (List.map Prod.fst d)))])
          (List.map (fun r => count d r c) (present rowCats (List.map Prod.fst d))) = -(tallyOf d (fun e => e.2 = c) / d.length) := by
        unfold pctRow
        rw [if_pos rfl, hsum', xt_col_sum h]
        field_simp
      rw [e]
      have : -(tallyOf d (fun e => e.2 = c) / d.length) < 0 := by
        have := div_pos hpos hlen
        linarith
      simp [showCount, pctOrThousands, this]
  · have e : pctRow true (pivot (present rowCats (d.map Prod.fst)) (present colCats (d.map Prod.snd)) d ++
        [("TOTAL", (present rowCats (d.map Prod.fst)).map (fun r => tallyOf d (fun e => e.1 = r)))])
        ((present rowCats (d.map Prod.fst)).map (fun r => tallyOf d (fun e => e.1 = r))) = -1 := by
      unfold pctRow
      rw [if_pos rfl, hsum, xt_all_rows h]
      field_simp
    simp only [List.map_cons, List.map_nil, List.cons.injEq, and_true, Column.mk.injEq, true_and, List.map_map, Function.comp_def]
    refine ⟨?_, ?_, ?_⟩
    · apply List.map_congr_left
      intro r _
      rw [hshow _ (hnn _)]
    · rw [xt_all_rows h, hshow _ hlen.le]
    · rw [e]
      norm_num [showCount, pctOrThousands]

theorem xt_share (col : List ℚ) (h : col.sum ≠ 0) : (shareOf col).map hideNan = col.map (fun x => .percent (x / col.sum)) := by
  unfold shareOf
  rw [if_neg h, List.map_map]
  rfl

/-- **C181.**  The table of shares: for each row the part that it has of the records of the column. -/
theorem C181_shares (h : Classified rowCats colCats d) (hd : d ≠ []) (hc : "TOTAL" ∉ colCats) (t : Table)
    (ht : countsAndShares rowCats colCats d true true = some t) :
    t.shares = (inUse colCats (d.map Prod.snd)).map (fun c =>
        ⟨c, t.rows.map (fun r => .percent (tallyOf d (fun e => e.1 = r ∧ e.2 = c) / tallyOf d (fun e => e.2 = c))), .blank, .blank⟩) ++
      [⟨"TOTAL", t.rows.map (fun r => .percent (tallyOf d (fun e => e.1 = r) / d.length)), .blank, .blank⟩] := by
  unfold countsAndShares at ht
  split_ifs at ht with hx
  simp only [Option.some.injEq] at ht
  subst ht
  have hlen : (0 : ℚ) < d.length := by
    rw [Nat.cast_pos]; exact List.length_pos_iff.2 hd
  have hnt : "TOTAL" ∉ (pivot (present rowCats (d.map Prod.fst)) (present colCats (d.map Prod.snd)) d).map Prod.fst := by
    simp only [pivot, List.map_map, Function.comp_def, List.map_id']
    exact fun hh => hc ((xt_present_mem _ _ _).1 hh).1
  dsimp only
  unfold withTotals putCol
  rw [if_pos rfl, if_neg hnt, xt_rowSums h, List.map_append]
  congr 1
  · simp only [pivot, List.map_map, Function.comp_def]
    apply List.map_congr_left
    intro c hcm
    have hpos := xt_pos ((xt_present_mem _ _ _).1 hcm).2
    have hs := xt_col_sum h c
    rw [xt_share _ (by rw [hs]; exact hpos.ne'), hs, List.map_map]
    simp only [Function.comp_def, xt_count]
  · simp only [List.map_cons, List.map_nil]
    rw [xt_share _ (by rw [xt_all_rows h]; exact hlen.ne'), xt_all_rows h, List.map_map]
    rfl

/-- **C181.**  The shares of a column make one. -/
theorem C181_shares_sum (h : Classified rowCats colCats d) (c : String) (hc : c ∈ d.map Prod.snd) :
    ((inUse rowCats (d.map Prod.fst)).map (fun r => tallyOf d (fun e => e.1 = r ∧ e.2 = c) / tallyOf d (fun e => e.2 = c))).sum = 1 := by
  have hp := xt_pos hc
  have hs := xt_col_sum h c
  simp only [xt_count] at hs
  have e : ∀ (L : List String) (f : String → ℚ) (x : ℚ), (L.map (fun r => f r / x)).sum = (L.map f).sum / x := by
    intro L f x
    induction L with
    | nil => simp
    | cons a r ih => simp only [List.map_cons, List.sum_cons, ih]; ring
  rw [e]
  show ((present rowCats (d.map Prod.fst)).map _).sum / _ = 1
  rw [hs]
  exact div_self hp.ne'

/-- **C181.**  Without row totals: no column `TOTAL`, and the same parts of all. -/
theorem C181_without_row_totals (h : Classified rowCats colCats d) (hd : d ≠ []) (t : Table)
    (ht : countsAndShares rowCats colCats d false true = some t) :
    t.rows = inUse rowCats (d.map Prod.fst) ∧
    t.counts = (inUse colCats (d.map Prod.snd)).map (fun c => ⟨c, t.rows.map (fun r => .number (tallyOf d (fun e => e.1 = r ∧ e.2 = c))),
        .number (tallyOf d (fun e => e.2 = c)), .percent (tallyOf d (fun e => e.2 = c) / d.length)⟩) ∧
    t.shares = (inUse colCats (d.map Prod.snd)).map (fun c =>
        ⟨c, t.rows.map (fun r => .percent (tallyOf d (fun e => e.1 = r ∧ e.2 = c) / tallyOf d (fun e => e.2 = c))), .blank, .blank⟩) := by
  unfold countsAndShares at ht
  split_ifs at ht with hx
  simp only [Option.some.injEq] at ht
  subst ht
  refine ⟨rfl, ?_, ?_⟩
  · have hlen : (0 : ℚ) < d.length := by
      rw [Nat.cast_pos]; exact List.length_pos_iff.2 hd
    have hsum : sumOfTotals (pivot (present rowCats (d.map Prod.fst)) (present colCats (d.map Prod.snd)) d) = d.length := by
      unfold sumOfTotals
      simp only [pivot, List.map_map, Function.comp_def, xt_col_sum h, xt_all_cols h]
    have hnn : ∀ (P : String × String → Prop) [DecidablePred P], 0 ≤ tallyOf d P := fun P _ => by unfold tallyOf; positivity
    have hshow : ∀ x : ℚ, 0 ≤ x → showCount true x = .number x := by
      intro x hx
      simp [showCount, pctOrThousands, not_lt.2 hx]
    have hw : withTotals false (present rowCats (d.map Prod.fst)).length
        (pivot (present rowCats (d.map Prod.fst)) (present colCats (d.map Prod.snd)) d) =
        pivot (present rowCats (d.map Prod.fst)) (present colCats (d.map Prod.snd)) d := rfl
    dsimp only
    rw [hw]
    have hp : ∀ col : List ℚ, pctRow false (pivot (present rowCats (d.map Prod.fst)) (present colCats (d.map Prod.snd)) d) col = -(col.sum / d.length) := by
      intro col
      simp only [pctRow, Bool.false_eq_true, if_false, hsum]
      ring
    simp only [hp]
    simp only [pivot, List.map_map, Function.comp_def]
    apply List.map_congr_left
    intro c hcm
    have hpos := xt_pos ((xt_present_mem _ _ _).1 hcm).2
    rw [xt_col_sum h]
    have : -(tallyOf d (fun e => e.2 = c) / d.length) < 0 := by
      have := div_pos hpos hlen
      linarith
    rw [Column.mk.injEq]
    refine ⟨rfl, ?_, hshow _ (hnn _), ?_⟩
    · apply List.map_congr_left
      intro r _
      rw [xt_count, hshow _ (hnn _)]
    · simp [showCount, pctOrThousands, this]
  · simp only [withTotals, Bool.false_eq_true, if_false, pivot, List.map_map, Function.comp_def]
    apply List.map_congr_left
    intro c hcm
    have hpos := xt_pos ((xt_present_mem _ _ _).1 hcm).2
    have hs := xt_col_sum h c
    rw [xt_share _ (by rw [hs]; exact hpos.ne'), hs, List.map_map]
    simp only [Function.comp_def, xt_count]

/-- **C181.**  There is a table unless a category of the rows has the name of one of the added rows. -/
theorem C181_table (rowCats colCats : List String) (d : List (String × String)) (rowtotals stack : Bool) :
    (countsAndShares rowCats colCats d rowtotals stack).isSome = true ↔ "TOTAL" ∉ rowCats ∧ "% of TOT" ∉ rowCats := by
  unfold countsAndShares
  split_ifs with h
  · simp; tauto
  · simp; tauto

/-! ## Examples, and where the code falls short -/

/-- Four trips: by car or bus, near or far. -/
def fourTrips : List (String × String) := [("car", "near"), ("car", "far"), ("bus", "near"), ("car", "near")]

example : Classified ["walk", "bus", "car"] ["near", "far"] fourTrips ∧ fourTrips ≠ [] ∧ "TOTAL" ∉ ["near", "far"] ∧
    countsAndShares ["walk", "bus", "car"] ["near", "far"] fourTrips true true = some {
      rows := ["bus", "car"],
      counts := [⟨"near", [.number 1, .number 2], .number 3, .percent (3/4)⟩, ⟨"far", [.number 0, .number 1], .number 1, .percent (1/4)⟩,
        ⟨"TOTAL", [.number 1, .number 3], .number 4, .percent 1⟩],
      shares := [⟨"near", [.percent (1/3), .percent (2/3)], .blank, .blank⟩, ⟨"far", [.percent 0, .percent 1], .blank, .blank⟩,
        ⟨"TOTAL", [.percent (1/4), .percent (3/4)], .blank, .blank⟩] } :=
  ⟨⟨by decide, by decide, by decide⟩, by decide, by decide, by decide +kernel⟩

/-- **C181, violated.**  If a column category is named `TOTAL`, its counts are overwritten and the parts of all are wrong: of three records, one in
`near` and two in `TOTAL`, `near` is said to have half, and `TOTAL` three halves. -/
theorem C181_fails_column_named_total :
    (countsAndShares ["car"] ["near", "TOTAL"] [("car", "near"), ("car", "TOTAL"), ("car", "TOTAL")] true true).map Table.counts =
      some [⟨"near", [.number 1], .number 1, .percent (1/2)⟩, ⟨"TOTAL", [.number 3], .number 3, .percent (3/2)⟩] := by decide +kernel

/-- **C181, violated.**  Not stacked, the row `% of TOT` is shown as a negative number instead of a percentage. -/
theorem C181_fails_not_stacked :
    (countsAndShares ["bus", "car"] ["near", "far"] fourTrips true false).map Table.counts =
      some [⟨"near", [.number 1, .number 2], .number 3, .number (-3/4)⟩, ⟨"far", [.number 0, .number 1], .number 1, .number (-1/4)⟩,
        ⟨"TOTAL", [.number 1, .number 3], .number 4, .number (-1)⟩] := by decide +kernel

end Larch.Props
