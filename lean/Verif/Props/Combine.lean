import Verif.Model.Combine
import Verif.Props.Convert
import Mathlib.Data.List.Perm.Basic

/-!
# C139: frames made of several frames hold the data of each
-/

namespace Larch.Props

open Larch.Frames Larch.Combine

variable {K : Type} [Zero K]

/-! ## Specification -/

/-- In the table, alternative `b` is available to case `c`: some row of `c` has something else than zero in a column of `b`. -/
def Offered (a : Combine.Avail) (c b : Int) : Prop := ∃ l, (c, l) ∈ a.rows ∧ ∃ (p : Nat) (v : Int), a.cols[p]? = some b ∧ l[p]? = some v ∧ v ≠ 0

/-- The table has one row for each of the cases `ids`, and one cell for each of its columns. -/
structure TableOf (a : Combine.Avail) (ids : List Int) : Prop where
  cases : a.rows.map Prod.fst = ids
  cells : ∀ r ∈ a.rows, r.2.length = a.cols.length

/-- The strict order of labels: by case, then by alternative. -/
def LabelLt (a b : Int × Int) : Prop := a.1 < b.1 ∨ (a.1 = b.1 ∧ a.2 < b.2)

/-! ## Lemmas -/

theorem cb_zip_filter {α : Type} (h : α → Bool) (l : List α) : ((l.zip (l.map h)).filter Prod.snd).map Prod.fst = l.filter h := by
  induction l with
  | nil => rfl
  | cons x t ih =>
    rw [List.map_cons, List.zip_cons_cons, List.filter_cons, List.filter_cons]
    split <;> simp_all

open Classical in
theorem cb_mask (a : Combine.Avail) (ids : List Int) (ht : TableOf a ids) (hi : ids.Nodup) (hc : a.cols.Nodup) :
    Combine.mask a = (ids.flatMap (fun c => a.cols.map (fun b => (c, b)))).map (fun q => decide (Offered a q.1 q.2)) := by
  rw [← ht.cases, List.map_flatMap, List.flatMap_map]
  unfold Combine.mask
  have key : ∀ r ∈ a.rows, r.2.map (fun v => v != 0) = List.map (fun q => decide (Offered a q.1 q.2)) (a.cols.map (fun b => (r.1, b))) := by
    intro r hr
    apply List.ext_getElem?
    intro p
    rw [List.map_map, List.getElem?_map, List.getElem?_map]
    have hl := ht.cells r hr
    by_cases hp : p < r.2.length
    · rw [List.getElem?_eq_getElem hp, List.getElem?_eq_getElem (l := a.cols) (by omega), Option.map_some, Option.map_some]
      congr 1
      simp only [Function.comp]
      rw [Bool.eq_iff_iff, bne_iff_ne, decide_eq_true_iff]
      constructor
      · intro hv
        exact ⟨r.2, hr, p, r.2[p], List.getElem?_eq_getElem (by omega), List.getElem?_eq_getElem hp, hv⟩
      · rintro ⟨l, hl', p', v, h1, h2, hv⟩
        have hrl : l = r.2 := by
          have hn : (a.rows.map Prod.fst).Nodup := by rw [ht.cases]; exact hi
          have := List.inj_on_of_nodup_map hn hl' hr rfl
          rw [← this]
        have hpp : p' = p := by
          have h1' := (List.getElem?_eq_some_iff.mp h1)
          obtain ⟨hlt, he⟩ := h1'
          exact (hc.getElem_inj_iff (hi := hlt) (hj := by omega)).mp he
        subst hpp
        rw [hrl, List.getElem?_eq_getElem hp, Option.some.injEq] at h2
        rw [h2]; exact hv
    · rw [List.getElem?_eq_none (by omega), List.getElem?_eq_none (by omega)]
      rfl
  have : ∀ l : List (Int × List Int), (∀ r ∈ l, r ∈ a.rows) → l.flatMap (fun r => r.2.map (fun v => v != 0)) =
      l.flatMap (fun r => List.map (fun q => decide (Offered a q.1 q.2)) (a.cols.map (fun b => (r.1, b)))) := by
    intro l
    induction l with
    | nil => intro _; rfl
    | cons x t ih =>
      intro hm
      rw [List.flatMap_cons, List.flatMap_cons, key x (hm x (by simp)), ih (fun r hr => hm r (by simp [hr]))]
  exact this _ (fun _ h => h)

open Classical in
theorem cb_condense (f : FrameCa K) (a : Combine.Avail) (ids : List Int) (ht : TableOf a ids) (hi : ids.Nodup) (hc : a.cols.Nodup)
    (hf : f.rows.map Prod.fst = ids.flatMap (fun c => a.cols.map (fun b => (c, b)))) :
    condense none (some f) (some a) = some (some { f with rows := f.rows.filter (fun r => decide (Offered a r.1.1 r.1.2)) }) := by
  have hm : Combine.mask a = f.rows.map (fun r => decide (Offered a r.1.1 r.1.2)) := by
    rw [cb_mask a ids ht hi hc, ← hf, List.map_map]; rfl
  unfold condense
  simp only [hm, List.length_map, if_true, cb_zip_filter]

/-! ## idca to idce -/

/-- **C139 (condensing).** If the idca frame has all cases and alternatives in the order of the availability table, `data_ca_as_ce` returns exactly
the rows of available alternatives, in order and unchanged. -/
theorem C139_condense (f : FrameCa K) (a : Combine.Avail) (ids : List Int) (ht : TableOf a ids) (hi : ids.Nodup) (hc : a.cols.Nodup)
    (hf : f.rows.map Prod.fst = ids.flatMap (fun c => a.cols.map (fun b => (c, b)))) :
    ∃ g, condense none (some f) (some a) = some (some g) ∧ g.names = f.names ∧ g.rows.Sublist f.rows ∧
      ∀ r, r ∈ g.rows ↔ r ∈ f.rows ∧ Offered a r.1.1 r.1.2 := by
  classical
  refine ⟨_, cb_condense f a ids ht hi hc hf, rfl, List.filter_sublist, fun r => ?_⟩
  simp only [List.mem_filter, decide_eq_true_iff]

/-- **C139 (condensing).** idce data are returned as they are; without availability idca data are refused. -/
theorem C139_condense_other (f g : FrameCa K) (a : Option Combine.Avail) :
    condense (some f) (some g) a = some (some f) ∧ condense (some f) none a = some (some f) ∧ condense none (some g) none = none :=
  ⟨rfl, rfl, rfl⟩

/-- **C139 (condensing, refused).** idca data which do not have one row for each case and each column of the availability table are refused. -/
theorem C139_condense_refused (f : FrameCa K) (a : Combine.Avail) (ids : List Int) (ht : TableOf a ids)
    (hf : f.rows.length ≠ ids.length * a.cols.length) : condense none (some f) (some a) = none := by
  have hl : (Combine.mask a).length = ids.length * a.cols.length := by
    rw [← ht.1, List.length_map]
    have h2 := ht.2
    unfold Combine.mask
    generalize a.rows = rows at h2
    induction rows with
    | nil => simp
    | cons r rs ih =>
      rw [List.flatMap_cons, List.length_append, ih (fun q hq => h2 q (List.mem_cons_of_mem _ hq)), List.length_map,
        h2 r List.mem_cons_self, List.length_cons, Nat.succ_mul, Nat.add_comm]
  have hne : ¬ (Combine.mask a).length = f.rows.length := by
    rw [hl]
    exact fun h => hf h.symm
  simp only [condense, hne, if_false]

/-- **C139 fails (order of columns).** The rows are selected by position: with an availability table whose columns are in another order (which
the container accepts, C136) `data_ca_as_ce` returns the row of an alternative that is not available and drops that of the one that is. -/
theorem C139_fails_columns : ∃ (f g : FrameCa ℤ) (a : Combine.Avail), condense none (some f) (some a) = some (some g) ∧
    f.rows.map Prod.fst = [(7, 1), (7, 2)] ∧ Offered a 7 2 ∧ ¬ Offered a 7 1 ∧ g.rows.map Prod.fst = [(7, 1)] := by
  refine ⟨⟨["x"], [((7, 1), fun _ => some 5), ((7, 2), fun _ => some 6)]⟩, ⟨["x"], [((7, 1), fun _ => some 5)]⟩, ⟨[2, 1], [(7, [1, 0])]⟩,
    rfl, rfl, ⟨[1, 0], by simp, 0, 1, rfl, rfl, by decide⟩, ?_, rfl⟩
  rintro ⟨l, hl, p, v, h1, h2, h3⟩
  simp only [List.mem_singleton, Prod.mk.injEq, true_and] at hl
  subst hl
  rcases p with _ | _ | p
  · simp at h1
  · simp at h2; exact h3 h2.symm
  · simp at h1

/-! ## idce to idca -/

theorem cb_sorted (l : List Int) : (l.dedup.insertionSort (· ≤ ·)).Pairwise (· < ·) := by
  have h1 : (l.dedup.insertionSort (· ≤ ·)).Pairwise (· ≤ ·) := List.pairwise_insertionSort (· ≤ ·) _
  have h2 : (l.dedup.insertionSort (· ≤ ·)).Nodup := (List.perm_insertionSort (· ≤ ·) _).nodup_iff.mpr l.nodup_dedup
  exact (h1.and h2).imp (fun h => lt_of_le_of_ne h.1 h.2)

theorem cb_mem (l : List Int) (x : Int) : x ∈ l.dedup.insertionSort (· ≤ ·) ↔ x ∈ l := by
  rw [(List.perm_insertionSort (· ≤ ·) _).mem_iff, List.mem_dedup]

theorem cb_lookup {V : Type} {rows : List ((Int × Int) × V)} (hn : (rows.map Prod.fst).Nodup) {r : (Int × Int) × V} (hr : r ∈ rows) :
    rows.lookup r.1 = some r.2 := by
  induction rows with
  | nil => cases hr
  | cons x t ih =>
    obtain ⟨xl, xv⟩ := x
    rw [List.map_cons, List.nodup_cons] at hn
    rw [List.lookup_cons]
    rcases List.mem_cons.mp hr with h | h
    · subst h
      simp
    · have hne : r.1 ≠ xl := by
        rintro e
        exact hn.1 (e ▸ List.mem_map.mpr ⟨r, h, rfl⟩)
      rw [beq_eq_false_iff_ne.mpr hne]
      exact ih hn.2 h

theorem cb_lookup_none {V : Type} {rows : List ((Int × Int) × V)} {q : Int × Int} (hq : q ∉ rows.map Prod.fst) : rows.lookup q = none := by
  rw [List.lookup_eq_none_iff]
  intro p hp
  rw [bne_iff_ne]
  rintro rfl
  exact hq (List.mem_map.mpr ⟨p, hp, rfl⟩)

theorem cb_product_sorted {A B : List Int} (hA : A.Pairwise (· < ·)) (hB : B.Pairwise (· < ·)) :
    (A.flatMap (fun c => B.map (fun b => (c, b)))).Pairwise LabelLt := by
  induction A with
  | nil => exact List.Pairwise.nil
  | cons x t ih =>
    rw [List.flatMap_cons, List.pairwise_append]
    rw [List.pairwise_cons] at hA
    refine ⟨?_, ih hA.2, ?_⟩
    · rw [List.pairwise_map]
      exact hB.imp (fun h => Or.inr ⟨rfl, h⟩)
    · intro p hp q hq
      obtain ⟨b, _, rfl⟩ := List.mem_map.mp hp
      obtain ⟨c, hc, hq⟩ := List.mem_flatMap.mp hq
      obtain ⟨b', _, rfl⟩ := List.mem_map.mp hq
      exact Or.inl (hA.1 c hc)

/-- The rows of `data_ce_as_ca`. -/
theorem cb_expand (f : FrameCa K) (hn : (f.rows.map Prod.fst).Nodup) : ∃ g, expand (some f) = some g ∧ g.names = f.names ∧
    g.rows.map Prod.fst = ((f.rows.map (fun r => r.1.1)).dedup.insertionSort (· ≤ ·)).flatMap (fun c =>
      ((f.rows.map (fun r => r.1.2)).dedup.insertionSort (· ≤ ·)).map (fun b => (c, b))) ∧
    ∀ q ∈ g.rows, ∀ s, q.2 s = some (((f.rows.lookup q.1).bind (fun v => v s)).getD 0) := by
  unfold expand
  simp only [hn, if_true]
  refine ⟨_, rfl, rfl, ?_, ?_⟩
  · rw [List.map_flatMap]
    congr 1
    funext c
    rw [List.map_map]
    rfl
  · intro q hq s
    obtain ⟨c, _, hq⟩ := List.mem_flatMap.mp hq
    obtain ⟨b, _, rfl⟩ := List.mem_map.mp hq
    rfl

/-- **C139 (expanding).** `data_ce_as_ca` has one row for every case and every alternative that occur, in increasing order; the values of the rows of
`data_ce` are found there, and the rows added are zero. -/
theorem C139_expand (f : FrameCa K) (hn : (f.rows.map Prod.fst).Nodup) : ∃ g, expand (some f) = some g ∧ g.names = f.names ∧
    (g.rows.map Prod.fst).Pairwise LabelLt ∧
    (∀ c b, (c, b) ∈ g.rows.map Prod.fst ↔ (∃ r ∈ f.rows, r.1.1 = c) ∧ (∃ r ∈ f.rows, r.1.2 = b)) ∧
    (∀ r ∈ f.rows, ∀ q ∈ g.rows, q.1 = r.1 → ∀ s v, r.2 s = some v → q.2 s = some v) ∧
    (∀ q ∈ g.rows, q.1 ∉ f.rows.map Prod.fst → ∀ s, q.2 s = some 0) := by
  obtain ⟨g, h1, h2, h3, h4⟩ := cb_expand f hn
  refine ⟨g, h1, h2, by rw [h3]; exact cb_product_sorted (cb_sorted _) (cb_sorted _), fun c b => ?_, ?_, ?_⟩
  · rw [h3]
    simp only [List.mem_flatMap, List.mem_map, cb_mem, Prod.mk.injEq]
    constructor
    · rintro ⟨c', hc, b', hb, rfl, rfl⟩
      exact ⟨hc, hb⟩
    · rintro ⟨hc, hb⟩
      exact ⟨c, hc, b, hb, rfl, rfl⟩
  · intro r hr q hq he s v hv
    rw [h4 q hq s, he, cb_lookup hn hr, Option.bind_some, hv]
    rfl
  · intro q hq hno s
    rw [h4 q hq s, cb_lookup_none hno]
    rfl

/-- **C139 fails (missing values).** A missing value of a row of `data_ce` is zero in `data_ce_as_ca`. -/
theorem C139_fails_missing (f : FrameCa K) (hn : (f.rows.map Prod.fst).Nodup) (r : (Int × Int) × Vals K) (hr : r ∈ f.rows) (s : String)
    (hs : r.2 s = none) : ∃ g q, expand (some f) = some g ∧ q ∈ g.rows ∧ q.1 = r.1 ∧ q.2 s = some 0 := by
  obtain ⟨g, h1, _, h3, h4⟩ := cb_expand f hn
  have hm : r.1 ∈ g.rows.map Prod.fst := by
    rw [h3]
    simp only [List.mem_flatMap, List.mem_map, cb_mem]
    exact ⟨r.1.1, ⟨r, hr, rfl⟩, r.1.2, ⟨r, hr, rfl⟩, rfl⟩
  obtain ⟨q, hq, he⟩ := List.mem_map.mp hm
  refine ⟨g, q, h1, hq, he, ?_⟩
  rw [h4 q hq s, he, cb_lookup hn hr, Option.bind_some, hs]
  rfl

/-- **C139 fails (alternatives without rows).** An alternative that no case has is not in `data_ce_as_ca`, so that the frame is not a complete idca frame of
the container's alternatives (here 1, 2 and 4). -/
theorem C139_fails_unused : ∃ (f g : FrameCa ℤ) (codes : List Int), codes = [1, 2, 4] ∧ (∀ r ∈ f.rows, r.1.2 ∈ codes) ∧ expand (some f) = some g ∧
    g.rows.map Prod.fst ≠ [3, 7].flatMap (fun c => codes.map (fun b => (c, b))) ∧ g.rows.map Prod.fst = [(3, 1), (3, 4), (7, 1), (7, 4)] :=
  ⟨⟨["x"], [((3, 1), fun _ => some 5), ((7, 4), fun _ => some 6)]⟩, _, [1, 2, 4], rfl, by simp, rfl, by decide +kernel, by decide +kernel⟩

theorem cb_lexLe {a b : Int × Int} (h : LabelLt a b) : a ≠ b := by
  rintro rfl
  rcases h with h | h <;> omega

/-- **C139 (round trip).** If no values are missing, expanding idce data in increasing order to idca form and dropping the rows of alternatives that had none gives the
idce data back. -/
theorem C139_round_trip (f : FrameCa K) (hs : (f.rows.map Prod.fst).Pairwise LabelLt) (hv : ∀ r ∈ f.rows, ∀ s, r.2 s ≠ none)
    (a : Combine.Avail) (ids : List Int) (ht : TableOf a ids) (hi : ids.Pairwise (· < ·)) (hc : a.cols.Pairwise (· < ·))
    (hids : ∀ c, c ∈ ids ↔ ∃ r ∈ f.rows, r.1.1 = c) (hcols : ∀ b, b ∈ a.cols ↔ ∃ r ∈ f.rows, r.1.2 = b)
    (hav : ∀ c b, Offered a c b ↔ (c, b) ∈ f.rows.map Prod.fst) :
    ∃ g, expand (some f) = some g ∧ condense none (some g) (some a) = some (some f) := by
  classical
  have hn : (f.rows.map Prod.fst).Nodup := hs.imp (fun h => cb_lexLe h)
  obtain ⟨g, h1, h2, h3, h4⟩ := cb_expand f hn
  have e1 : (f.rows.map (fun r => r.1.1)).dedup.insertionSort (· ≤ ·) = ids := sorted_dedup_eq hi (fun c => by rw [hids, List.mem_map])
  have e2 : (f.rows.map (fun r => r.1.2)).dedup.insertionSort (· ≤ ·) = a.cols := sorted_dedup_eq hc (fun c => by rw [hcols, List.mem_map])
  rw [e1, e2] at h3
  refine ⟨g, h1, ?_⟩
  rw [cb_condense g a ids ht (hi.imp (fun h => ne_of_lt h)) (hc.imp (fun h => ne_of_lt h)) h3]
  have hgs : (g.rows.map Prod.fst).Pairwise LabelLt := by rw [h3]; exact cb_product_sorted hi hc
  have hrows : g.rows.filter (fun r => decide (Offered a r.1.1 r.1.2)) = f.rows := by
    have p1 : (g.rows.filter (fun r => decide (Offered a r.1.1 r.1.2))).Pairwise (fun x y => LabelLt x.1 y.1) :=
      (List.pairwise_map.mp hgs).sublist List.filter_sublist
    have p2 : f.rows.Pairwise (fun x y => LabelLt x.1 y.1) := List.pairwise_map.mp hs
    refine List.Perm.eq_of_pairwise (le := fun x y => LabelLt x.1 y.1) ?_ p1 p2 ?_
    · intro x y _ _ h h'
      exfalso
      rcases h with h | h <;> rcases h' with h' | h' <;> omega
    · have n1 : (g.rows.filter (fun r => decide (Offered a r.1.1 r.1.2))).Nodup := by
        refine p1.imp ?_
        intro x y h e
        exact cb_lexLe h (congrArg Prod.fst e)
      have n2 : f.rows.Nodup := by
        refine p2.imp ?_
        intro x y h e
        exact cb_lexLe h (congrArg Prod.fst e)
      rw [List.perm_ext_iff_of_nodup n1 n2]
      intro x
      rw [List.mem_filter, decide_eq_true_iff, hav]
      have key : ∀ q ∈ g.rows, ∀ r ∈ f.rows, q.1 = r.1 → q = r := by
        intro q hq r hr he
        refine Prod.ext he (funext fun s => ?_)
        rw [h4 q hq s, he, cb_lookup hn hr, Option.bind_some]
        obtain ⟨v, e⟩ := Option.ne_none_iff_exists'.mp (hv r hr s)
        rw [e]; rfl
      constructor
      · rintro ⟨hx, hm⟩
        obtain ⟨r, hr, he⟩ := List.mem_map.mp hm
        rw [key x hx r hr he.symm]; exact hr
      · intro hx
        have hm : x.1 ∈ f.rows.map Prod.fst := List.mem_map.mpr ⟨x, hx, rfl⟩
        have : x.1 ∈ g.rows.map Prod.fst := by
          rw [h3, List.mem_flatMap]
          exact ⟨x.1.1, (hids _).mpr ⟨x, hx, rfl⟩, List.mem_map.mpr ⟨x.1.2, (hcols _).mpr ⟨x, hx, rfl⟩, rfl⟩⟩
        obtain ⟨q, hq, he⟩ := List.mem_map.mp this
        rw [← key q hq x hx he]
        rw [← key q hq x hx he] at hm
        exact ⟨hq, hm⟩
  rw [hrows]
  cases f; cases g
  simp only at h2
  subst h2
  rfl

/-! ## Combined frames -/

theorem cb_filter_one {β : Type} {l : List (Int × β)} (hn : (l.map Prod.fst).Nodup) {q : Int × β} (hq : q ∈ l) :
    l.filter (fun p => p.1 == q.1) = [q] := by
  induction l with
  | nil => cases hq
  | cons x t ih =>
    rw [List.map_cons, List.nodup_cons] at hn
    rcases List.mem_cons.mp hq with h | h
    · subst h
      rw [List.filter_cons_of_pos (by simp)]
      congr 1
      rw [List.filter_eq_nil_iff]
      intro p hp he
      exact hn.1 (beq_iff_eq.mp he ▸ List.mem_map.mpr ⟨p, hp, rfl⟩)
    · rw [List.filter_cons_of_neg, ih hn.2 h]
      intro he
      exact hn.1 (beq_iff_eq.mp he ▸ List.mem_map.mpr ⟨q, h, rfl⟩)

theorem cb_filter_none {β : Type} {l : List (Int × β)} {c : Int} (hq : c ∉ l.map Prod.fst) : l.filter (fun p => p.1 == c) = [] := by
  rw [List.filter_eq_nil_iff]
  intro p hp he
  exact hq (beq_iff_eq.mp he ▸ List.mem_map.mpr ⟨p, hp, rfl⟩)

/-- **C139 (one row per case).** With case data and alternatives' data, `data_co_combined` has the cases that are in both, in the order of the case data; a
column `(n, '*')` holds the case data, and a column `(n, b)` the value of the row of alternative `b`, missing if the case has no such row. -/
theorem C139_wide (co : FrameCo K) (f : FrameCa K) (hn : (f.rows.map Prod.fst).Nodup) :
    ∃ cols rows, coCombined (some co) (some f) = some (cols, rows) ∧
      (∀ n, (n, none) ∈ cols ↔ n ∈ co.names) ∧ (∀ n b, (n, some b) ∈ cols ↔ n ∈ f.names ∧ ∃ r ∈ f.rows, r.1.2 = b) ∧
      rows.map Prod.fst = (co.rows.map Prod.fst).filter (fun c => f.rows.any (fun r => r.1.1 == c)) ∧
      (∀ q ∈ rows, ∃ p ∈ co.rows, p.1 = q.1 ∧ ∀ n, q.2 (n, none) = p.2 n) ∧
      (∀ q ∈ rows, ∀ b n, (∀ r ∈ f.rows, r.1 = (q.1, b) → q.2 (n, some b) = r.2 n) ∧
        ((q.1, b) ∉ f.rows.map Prod.fst → q.2 (n, some b) = none)) := by
  refine ⟨_, _, by unfold coCombined unstackAll; simp only [hn, if_true, Option.map_some]; rfl, ?_, ?_, ?_, ?_, ?_⟩
  · intro n
    simp [List.mem_flatMap]
  · intro n b
    simp only [List.mem_append, List.mem_map, Prod.mk.injEq, reduceCtorEq, and_false, exists_false, false_or, List.mem_flatMap, cb_mem, Option.some.injEq]
    constructor
    · rintro ⟨m, hm, b', ⟨r, hr, e⟩, rfl, rfl⟩
      exact ⟨hm, r, hr, e⟩
    · rintro ⟨hm, r, hr, e⟩
      exact ⟨n, hm, b, ⟨r, hr, e⟩, rfl, rfl⟩
  · have hw : ∀ c, (List.filter (fun q : Int × (WideCol → Option K) => q.1 == c) (List.map (fun c => (c, fun col : WideCol => match col.2 with
        | some b => (f.rows.lookup (c, b)).bind (fun v => v col.1)
        | none => none)) ((f.rows.map (fun r => r.1.1)).dedup.insertionSort (· ≤ ·)))).length = if f.rows.any (fun r => r.1.1 == c) then 1 else 0 := by
      intro c
      by_cases h : f.rows.any (fun r => r.1.1 == c) = true
      · rw [if_pos h]
        obtain ⟨r, hr, e⟩ := List.any_eq_true.mp h
        have hm : c ∈ (f.rows.map (fun r => r.1.1)).dedup.insertionSort (· ≤ ·) := (cb_mem _ _).mpr (List.mem_map.mpr ⟨r, hr, beq_iff_eq.mp e⟩)
        have hmem := List.mem_map_of_mem (f := fun c => (c, fun col : WideCol => match col.2 with
          | some b => (f.rows.lookup (c, b)).bind (fun v => v col.1)
          | none => none)) hm
        have hnd : ((f.rows.map (fun r => r.1.1)).dedup.insertionSort (· ≤ ·)).Nodup := (cb_sorted _).imp (fun h => ne_of_lt h)
        have := cb_filter_one (by rw [List.map_map]; simpa [Function.comp_def] using hnd) hmem
        simp only at this
        rw [this]; rfl
      · rw [if_neg h, cb_filter_none]
        · rfl
        · intro hm
          rw [List.map_map] at hm
          have : c ∈ (f.rows.map (fun r => r.1.1)).dedup.insertionSort (· ≤ ·) := by simpa [Function.comp_def] using hm
          obtain ⟨r, hr, e⟩ := List.mem_map.mp ((cb_mem _ _).mp this)
          exact h (List.any_eq_true.mpr ⟨r, hr, beq_iff_eq.mpr e⟩)
    rw [List.map_flatMap]
    induction co.rows with
    | nil => rfl
    | cons x t ih =>
      rw [List.flatMap_cons, ih, List.map_cons, List.filter_cons, List.map_map]
      have hl := hw x.1
      generalize List.filter (fun q : Int × (WideCol → Option K) => q.1 == x.1) _ = L at hl ⊢
      by_cases h : f.rows.any (fun r => r.1.1 == x.1) = true
      · rw [if_pos h] at hl ⊢
        match L, hl with
        | [y], _ => rfl
      · rw [if_neg h] at hl ⊢
        rw [List.length_eq_zero_iff.mp hl]; rfl
  · intro q hq
    obtain ⟨p, hp, hq⟩ := List.mem_flatMap.mp hq
    obtain ⟨w, _, rfl⟩ := List.mem_map.mp hq
    exact ⟨p, hp, rfl, fun n => rfl⟩
  · intro q hq b n
    obtain ⟨p, hp, hq⟩ := List.mem_flatMap.mp hq
    obtain ⟨w, hw, rfl⟩ := List.mem_map.mp hq
    obtain ⟨hw, he⟩ := List.mem_filter.mp hw
    obtain ⟨c, _, rfl⟩ := List.mem_map.mp hw
    have he' : c = p.1 := beq_iff_eq.mp he
    subst he'
    constructor
    · intro r hr e
      show ((f.rows.lookup (p.1, b)).bind fun v => v n) = _
      rw [← e, cb_lookup hn hr]; rfl
    · intro hno
      show ((f.rows.lookup (p.1, b)).bind fun v => v n) = _
      rw [cb_lookup_none hno]; rfl

/-- **C139 fails (cases without rows).** A case that has no row of alternatives is dropped from `data_co_combined`. -/
theorem C139_fails_dropped (co : FrameCo K) (f : FrameCa K) (hn : (f.rows.map Prod.fst).Nodup) (c : Int) (hc : c ∈ co.rows.map Prod.fst)
    (hno : ∀ r ∈ f.rows, r.1.1 ≠ c) : c ∈ co.rows.map Prod.fst ∧ ∃ cols rows, coCombined (some co) (some f) = some (cols, rows) ∧ c ∉ rows.map Prod.fst := by
  obtain ⟨cols, rows, h1, _, _, h4, _⟩ := C139_wide co f hn
  refine ⟨hc, cols, rows, h1, ?_⟩
  rw [h4, List.mem_filter]
  rintro ⟨_, h⟩
  obtain ⟨r, hr, e⟩ := List.any_eq_true.mp h
  exact hno r hr (beq_iff_eq.mp e)

theorem cb_lookup_map {β : Type} (v : String → β) (l : List String) {n : String} (hn : n ∈ l) : (l.map (fun n => (n, v n))).lookup n = some (v n) := by
  induction l with
  | nil => cases hn
  | cons x t ih =>
    rw [List.map_cons, List.lookup_cons]
    by_cases h : n = x
    · subst h; simp
    · rw [beq_eq_false_iff_ne.mpr h]
      exact ih (by simpa [h] using hn)

theorem cb_lookup_map_none {β : Type} (v : String → β) (l : List String) {n : String} (hn : n ∉ l) : (l.map (fun n => (n, v n))).lookup n = none := by
  rw [List.lookup_eq_none_iff]
  intro p hp
  obtain ⟨m, hm, rfl⟩ := List.mem_map.mp hp
  rw [bne_iff_ne]
  rintro rfl
  exact hn hm

/-- **C139 (one row per alternative).** If every row's case has one row of case data and the frames share no column name, `data_ca_combined` has the rows of the
alternatives' data in order, each with its own values and those of its case. -/
theorem C139_rows (co : FrameCo K) (f : FrameCa K) (hc : (co.rows.map Prod.fst).Nodup) (hin : ∀ r ∈ f.rows, r.1.1 ∈ co.rows.map Prod.fst)
    (hd : ∀ n, n ∈ f.names → n ∉ co.names) : ∃ rows, caCombined (some co) (some f) = some rows ∧ rows.map Prod.fst = f.rows.map Prod.fst ∧
      ∀ (k : Nat) r q p, f.rows[k]? = some r → rows[k]? = some q → p ∈ co.rows → p.1 = r.1.1 →
        (∀ n ∈ f.names, q.2.lookup n = some (r.2 n)) ∧ (∀ n ∈ co.names, q.2.lookup n = some (p.2 n)) := by
  have hx : ∀ r : (Int × Int) × Vals K, f.names.map (fun n => (merged "_x" co.names n, r.2 n)) = f.names.map (fun n => (n, r.2 n)) := by
    intro r
    refine List.map_congr_left (fun n hn => ?_)
    unfold merged
    rw [if_neg]
    simpa using hd n hn
  have hy : ∀ s : Int × Vals K, co.names.map (fun n => (merged "_y" f.names n, s.2 n)) = co.names.map (fun n => (n, s.2 n)) := by
    intro r
    refine List.map_congr_left (fun n hn => ?_)
    unfold merged
    rw [if_neg]
    simpa using fun h => hd n h hn
  obtain ⟨get, hget⟩ : ∃ get : ((Int × Int) × Vals K) → Int × Vals K, ∀ r ∈ f.rows, get r ∈ co.rows ∧ (get r).1 = r.1.1 := by
    classical
    refine ⟨fun r => if h : ∃ p, p ∈ co.rows ∧ p.1 = r.1.1 then h.choose else (0, fun _ => none), fun r hr => ?_⟩
    obtain ⟨p, hp, e⟩ := List.mem_map.mp (hin r hr)
    have h : ∃ p, p ∈ co.rows ∧ p.1 = r.1.1 := ⟨p, hp, e⟩
    simp only [dif_pos h]
    exact h.choose_spec
  have hrows : f.rows.flatMap (fun r => (co.rows.filter (fun s => s.1 == r.1.1)).map (fun s =>
      (r.1, f.names.map (fun n => (merged "_x" co.names n, r.2 n)) ++ co.names.map (fun n => (merged "_y" f.names n, s.2 n))))) =
      f.rows.map (fun r => (r.1, f.names.map (fun n => (n, r.2 n)) ++ co.names.map (fun n => (n, (get r).2 n)))) := by
    have : ∀ l : List ((Int × Int) × Vals K), (∀ r ∈ l, r ∈ f.rows) → l.flatMap (fun r => (co.rows.filter (fun s => s.1 == r.1.1)).map (fun s =>
        (r.1, f.names.map (fun n => (merged "_x" co.names n, r.2 n)) ++ co.names.map (fun n => (merged "_y" f.names n, s.2 n))))) =
        l.map (fun r => (r.1, f.names.map (fun n => (n, r.2 n)) ++ co.names.map (fun n => (n, (get r).2 n)))) := by
      intro l
      induction l with
      | nil => intro _; rfl
      | cons r t ih =>
        intro hm
        obtain ⟨g1, g2⟩ := hget r (hm r (by simp))
        have := cb_filter_one hc g1
        rw [g2] at this
        rw [List.flatMap_cons, ih (fun q hq => hm q (by simp [hq])), this, List.map_cons, hx, hy]
        rfl
    exact this _ (fun _ h => h)
  unfold caCombined
  simp only [hrows]
  refine ⟨_, rfl, by rw [List.map_map]; rfl, ?_⟩
  intro k r q p hr hq hp he
  rw [List.getElem?_map, hr, Option.map_some, Option.some.injEq] at hq
  subst hq
  obtain ⟨g1, g2⟩ := hget r (List.mem_of_getElem? hr)
  have hgp : get r = p := List.inj_on_of_nodup_map hc g1 hp (by rw [g2, he])
  constructor
  · intro n hn
    rw [List.lookup_append, cb_lookup_map _ _ hn]; rfl
  · intro n hn
    rw [List.lookup_append, cb_lookup_map_none _ _ (fun h => hd n h hn), cb_lookup_map _ _ hn, hgp]; rfl

/-- **C139 fails (shared name).** A column name that both frames have is not in the result of `data_ca_combined`. -/
theorem C139_fails_shared : ∃ (co : FrameCo ℤ) (f : FrameCa ℤ) (q : (Int × Int) × List (String × Option ℤ)), "x" ∈ co.names ∧ "x" ∈ f.names ∧
    caCombined (some co) (some f) = some [q] ∧ q.2.lookup "x" = none ∧ q.2.lookup "x_x" = some (some 5) ∧ q.2.lookup "x_y" = some (some 9) :=
  ⟨⟨["x"], [(7, fun _ => some 9)]⟩, ⟨["x"], [((7, 1), fun _ => some 5)]⟩, _, by simp, by simp, rfl, by decide +kernel, by decide +kernel, by decide +kernel⟩

/-! ## A concrete case -/

/-- Case 3 has alternatives 1 and 2, case 7 alternative 2. -/
def pairRows : FrameCa ℤ := ⟨["x"], [((3, 1), fun _ => some 5), ((3, 2), fun _ => some 6), ((7, 2), fun _ => some 8)]⟩

/-- Its availability. -/
def pairAv : Combine.Avail := ⟨[1, 2], [(3, [1, 1]), (7, [0, 1])]⟩

theorem cb_pairAv (c b : Int) : Offered pairAv c b ↔ (c, b) ∈ pairRows.rows.map Prod.fst := by
  unfold Offered pairAv pairRows
  simp only [List.mem_cons, List.not_mem_nil, or_false, Prod.mk.injEq, List.map_cons, List.map_nil]
  constructor
  · rintro ⟨l, hl, p, v, h1, h2, h3⟩
    rcases p with _ | _ | p
    · simp at h1 h2
      rcases hl with ⟨rfl, rfl⟩ | ⟨rfl, rfl⟩ <;> simp_all
    · simp at h1 h2
      rcases hl with ⟨rfl, rfl⟩ | ⟨rfl, rfl⟩ <;> simp_all
    · simp at h1
  · rintro (⟨rfl, rfl⟩ | ⟨rfl, rfl⟩ | ⟨rfl, rfl⟩)
    · exact ⟨[1, 1], Or.inl ⟨rfl, rfl⟩, 0, 1, rfl, rfl, by decide⟩
    · exact ⟨[1, 1], Or.inl ⟨rfl, rfl⟩, 1, 1, rfl, rfl, by decide⟩
    · exact ⟨[0, 1], Or.inr ⟨rfl, rfl⟩, 1, 1, rfl, rfl, by decide⟩

example : ∃ g, expand (some pairRows) = some g ∧ condense none (some g) (some pairAv) = some (some pairRows) :=
  C139_round_trip pairRows (by simp [pairRows, LabelLt]) (by simp [pairRows]) pairAv [3, 7] ⟨rfl, by simp [pairAv]⟩ (by decide) (by simp [pairAv])
    (by simp [pairRows]; omega) (by simp [pairRows, pairAv]; omega) cb_pairAv

example : ∃ cols rows, coCombined (some ⟨["income"], [(3, fun _ => some 20), (5, fun _ => some 30), (7, fun _ => some 40)]⟩) (some pairRows) = some (cols, rows) ∧
    cols = [("income", none), ("x", some 1), ("x", some 2)] ∧ rows.map (fun r => (r.1, cols.map r.2)) =
      [(3, [some 20, some 5, some 6]), (7, [some 40, none, some 8])] :=
  ⟨_, _, rfl, by decide +kernel, by decide +kernel⟩

example : caCombined (some ⟨["income"], [(3, fun _ => some 20), (7, fun _ => some 40)]⟩) (some pairRows) =
    some [((3, 1), [("x", some 5), ("income", some 20)]), ((3, 2), [("x", some 6), ("income", some 20)]), ((7, 2), [("x", some 8), ("income", some 40)])] := by
  decide +kernel

end Larch.Props
