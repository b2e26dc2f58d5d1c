import Verif.Model.SqlRead
import Mathlib.Data.List.Nodup
import Mathlib.Data.List.Count
import Mathlib.Tactic

/-!
# C175: reading tables out of SQLite
-/

namespace Larch.Props

open Larch.SqlRead

variable {K : Type} [Zero K]

/-- Row `i` of an array filled from a statement that starts again after its end: the rows of the query, a row of zeros, and so on. -/
def aroundRow (c : Conv K) (rows : List (List (Cell K))) (k : Option Nat) (w i : Nat) : List K :=
  match rows[i % (rows.length + 1)]? with
  | some r => rowValues c k r
  | none => List.replicate w 0

/-- Its label. -/
def aroundLabel (c : Conv K) (rows : List (List (Cell K))) (k : Option Nat) (i : Nat) : Int :=
  match rows[i % (rows.length + 1)]? with
  | some r => rowLabel c k r
  | none => 0

theorem sq_mod_step (L n : Nat) : (n + 1) % (L + 1) = if n % (L + 1) = L then 0 else n % (L + 1) + 1 := by
  have hlt : n % (L + 1) < L + 1 := Nat.mod_lt _ (by omega)
  rw [Nat.add_mod]
  by_cases h : n % (L + 1) = L
  · rw [if_pos h, h]
    by_cases hL : L = 0
    · subst hL; simp
    · rw [Nat.mod_eq_of_lt (a := 1) (by omega), Nat.mod_self]
  · rw [if_neg h]
    by_cases hL : L = 0
    · subst hL; omega
    · rw [Nat.mod_eq_of_lt (a := 1) (by omega), Nat.mod_eq_of_lt (by omega)]

theorem sq_readRows (c : Conv K) (q : Query K) (k : Option Nat) (w n : Nat) :
    (readRows c q k w n).rows = (List.range n).map (aroundRow c q.rows k w) ∧
      (readRows c q k w n).labels = (List.range n).map (aroundLabel c q.rows k) ∧
      (readRows c q k w n).pos = n % (q.rows.length + 1) ∧
      ((readRows c q k w n).done = true ↔ 0 < n ∧ n % (q.rows.length + 1) = 0) ∧
      (readRows c q k w n).warned = (List.range n).filter (fun i => i % (q.rows.length + 1) = q.rows.length) := by
  induction n with
  | zero => simp [readRows]
  | succ n ih =>
    obtain ⟨h1, h2, h3, h4, h5⟩ := ih
    have hs : readRows c q k w (n + 1) = readRow c q k w (readRows c q k w n) n := by
      simp [readRows, List.range_succ, List.foldl_append]
    have hlt : n % (q.rows.length + 1) < q.rows.length + 1 := Nat.mod_lt _ (by omega)
    have hst := sq_mod_step q.rows.length n
    rw [hs]
    unfold readRow stepStmt
    rw [h3]
    cases hr : q.rows[n % (q.rows.length + 1)]? with
    | some r =>
      have hlt' : n % (q.rows.length + 1) < q.rows.length := (List.getElem?_eq_some_iff.mp hr).1
      have hne : n % (q.rows.length + 1) ≠ q.rows.length := by omega
      rw [if_neg hne] at hst
      simp only [List.range_succ, List.map_append, List.map_cons, List.map_nil, List.filter_append]
      refine ⟨?_, ?_, ?_, ?_, ?_⟩
      · rw [h1]; simp [aroundRow, hr]
      · rw [h2]; simp [aroundLabel, hr]
      · rw [hst]
      · rw [hst]; simp
      · rw [h5]; simp [hne]
    | none =>
      have heq : n % (q.rows.length + 1) = q.rows.length := by
        rw [List.getElem?_eq_none_iff] at hr; omega
      rw [if_pos heq] at hst
      simp only [List.range_succ, List.map_append, List.map_cons, List.map_nil, List.filter_append]
      refine ⟨?_, ?_, ?_, ?_, ?_⟩
      · rw [h1]; simp [aroundRow, hr]
      · rw [h2]; simp [aroundLabel, hr]
      · rw [hst]
      · rw [hst]; simp
      · rw [h5]; simp [heq]

theorem sq_around_take (c : Conv K) (rows : List (List (Cell K))) (k : Option Nat) (w n : Nat) (h : n ≤ rows.length) :
    (List.range n).map (aroundRow c rows k w) = (rows.take n).map (rowValues c k) ∧
      (List.range n).map (aroundLabel c rows k) = (rows.take n).map (rowLabel c k) := by
  constructor <;>
  · apply List.ext_getElem
    · simp [h]
    · intro i h1 h2
      simp only [List.length_map, List.length_range] at h1
      have hi : i < rows.length := by omega
      have hm : i % (rows.length + 1) = i := Nat.mod_eq_of_lt (by omega)
      have hg : rows[i]? = some rows[i] := List.getElem?_eq_getElem hi
      simp [aroundRow, aroundLabel, hm, hg]

theorem sq_take (c : Conv K) (q : Query K) (k : Option Nat) (w n : Nat) (h : n ≤ q.rows.length) :
    (readRows c q k w n).rows = (q.rows.take n).map (rowValues c k) ∧ (readRows c q k w n).labels = (q.rows.take n).map (rowLabel c k) ∧
      (readRows c q k w n).warned = [] ∧ overflowed q (readRows c q k w n) = decide (n < q.rows.length) := by
  obtain ⟨h1, h2, h3, h4, h5⟩ := sq_readRows c q k w n
  have ha := sq_around_take c q.rows k w n h
  refine ⟨by rw [h1, ha.1], by rw [h2, ha.2], ?_, ?_⟩
  · rw [h5, List.filter_eq_nil_iff]
    intro i hi
    rw [List.mem_range] at hi
    have : i % (q.rows.length + 1) = i := Nat.mod_eq_of_lt (by omega)
    simp only [this, decide_eq_true_eq]
    omega
  · have hm : n % (q.rows.length + 1) = n := Nat.mod_eq_of_lt (by omega)
    have hd : (readRows c q k w n).done = false := by
      cases hdd : (readRows c q k w n).done with
      | false => rfl
      | true => have := h4.mp hdd; omega
    unfold overflowed stepStmt
    rw [hd, h3, hm]
    simp only [Bool.false_eq_true, if_false]
    by_cases hl : n < q.rows.length
    · rw [List.getElem?_eq_getElem hl]; simp [hl]
    · rw [List.getElem?_eq_none_iff.mpr (by omega)]; simp [hl]

/-! ## Columns and the index -/

theorem sq_indexNumber (names : List String) (x : String) (k : Nat) (hk : names[k]? = some x) (hd : names.Nodup) :
    indexNumber names (some x) = some k ∧ columnNames names (some x) = names.eraseIdx k := by
  have hlt : k < names.length := (List.getElem?_eq_some_iff.mp hk).1
  constructor
  · have : (List.range names.length).filter (fun i => names[i]? = some x) = [k] := by
      have hn : ((List.range names.length).filter (fun i => names[i]? = some x)).Nodup := List.nodup_range.filter _
      apply List.perm_singleton.mp
      rw [List.perm_ext_iff_of_nodup hn (by simp)]
      intro i
      simp only [List.mem_filter, List.mem_range, decide_eq_true_eq, List.mem_singleton]
      constructor
      · rintro ⟨hi, he⟩
        rw [← hk] at he
        exact (List.getElem?_inj hi hd).mp he
      · rintro rfl
        exact ⟨hlt, hk⟩
    simp [indexNumber, this]
  · simp only [columnNames]
    have hx : names[k] = x := by
      have := List.getElem?_eq_some_iff.mp hk
      exact this.2
    have := List.Nodup.erase_eq_filter hd x
    have h2 := List.Nodup.erase_getElem hd k hlt
    rw [hx] at h2
    rw [← h2, this]
    apply List.filter_congr
    intro y _
    by_cases hy : y = x <;> simp [hy]

/-- **C175**: without an index, a table is read whole: its names, its rows in their order with each value as a double, numbered from zero, and nothing is
warned of. -/
theorem C175_read (c : Conv K) (q : Query K) :
    readData c q none = .ok { names := q.names, labels := (List.range q.rows.length).map (fun i => (i : Int)),
                              rows := q.rows.map (fun r => r.map (asDouble c)), underfilled := [], overflow := false } := by
  obtain ⟨h1, h2, h3, h4⟩ := sq_take c q none q.names.length q.rows.length (Nat.le_refl _)
  have hi : indexNumber q.names none = none := rfl
  have hw : width q none = q.names.length := rfl
  simp only [readData, readArray, hi, hw, columnNames, Option.getD_none, frameLabels]
  rw [h1, h3, h4]
  simp only [List.take_length, Bool.false_eq_true, if_false, ne_eq, not_true_eq_false, List.length_map, Nat.lt_irrefl, decide_false]
  rfl

/-- **C175**: with an index, the labels are the values of that column and the other columns are as before, each with its own name. -/
theorem C175_indexed (c : Conv K) (q : Query K) (hd : q.names.Nodup) (k : Nat) (x : String) (hk : q.names[k]? = some x) :
    ∃ f, readData c q (some x) = .ok f ∧ f.names = q.names.eraseIdx k ∧ f.underfilled = [] ∧ f.overflow = false ∧
      f.rows = q.rows.map (fun r => (r.map (asDouble c)).eraseIdx k) ∧ f.labels.length = q.rows.length ∧
      ∀ (i : Nat) (r : List (Cell K)) (v : Cell K), q.rows[i]? = some r → r[k]? = some v → f.labels[i]? = some (asInt c v) := by
  obtain ⟨hi, hc⟩ := sq_indexNumber q.names x k hk hd
  have hlt : k < q.names.length := (List.getElem?_eq_some_iff.mp hk).1
  have hw : width q (some x) = q.names.length - 1 := by simp [width, hi]
  obtain ⟨h1, h2, h3, h4⟩ := sq_take c q (some k) (q.names.length - 1) q.rows.length (Nat.le_refl _)
  have hlen : (q.names.eraseIdx k).length = q.names.length - 1 := List.length_eraseIdx_of_lt hlt
  simp only [readData, readArray, hi, hw, hc, hlen, Option.getD_none, frameLabels, Bool.false_eq_true, if_false, ne_eq, not_true_eq_false]
  refine ⟨_, rfl, rfl, h3, by rw [h4]; simp, ?_, by rw [h2]; simp, ?_⟩
  · simp only
    rw [h1, List.take_length]
    apply List.map_congr_left
    intro r _
    simp only [rowValues, List.eraseIdx_map]
  · intro i r v hir hrv
    simp only
    rw [h2, List.take_length, List.getElem?_map, hir]
    simp [rowLabel, hrv]

/-- **C175**: fewer rows than there are may be asked for: they are the first ones, with a warning. -/
theorem C175_first_rows (c : Conv K) (q : Query K) (n : Nat) (h : n ≤ q.rows.length) :
    readArray c q (some n) false none = .ok { names := q.names, labels := (List.range n).map (fun i => (i : Int)), rows := (q.rows.take n).map (fun r => r.map (asDouble c)), underfilled := [], overflow := decide (n < q.rows.length) } := by
  obtain ⟨h1, h2, h3, h4⟩ := sq_take c q none q.names.length n h
  have hi : indexNumber q.names none = none := rfl
  have hw : width q none = q.names.length := rfl
  have hl : (readRows c q none q.names.length n).rows.length = n := by rw [h1]; simp [h]
  simp only [readArray, hi, hw, columnNames, Option.getD_some, frameLabels]
  rw [h3, h4, hl, h1]
  simp only [Bool.false_eq_true, if_false, ne_eq, not_true_eq_false]
  rfl

/-- **C175, where the code falls short**: asked for more rows than there are, the reader runs the query again after a row of zeros: row `i` is row
`i mod (L+1)` of the query, for a query of `L` rows. -/
theorem C175_fails_underfilled (c : Conv K) (q : Query K) (n : Nat) :
    ∃ f, readArray c q (some n) false none = .ok f ∧ f.rows.length = n ∧
      ∀ i, i < n →
        (∀ r, q.rows[i % (q.rows.length + 1)]? = some r → f.rows[i]? = some (r.map (asDouble c))) ∧
        (i % (q.rows.length + 1) = q.rows.length → f.rows[i]? = some (List.replicate q.names.length 0) ∧ i ∈ f.underfilled) := by
  obtain ⟨h1, h2, h3, h4, h5⟩ := sq_readRows c q none q.names.length n
  have hi : indexNumber q.names none = none := rfl
  have hw : width q none = q.names.length := rfl
  simp only [readArray, hi, hw, columnNames, Option.getD_some, Bool.false_eq_true, if_false, ne_eq, not_true_eq_false]
  refine ⟨_, rfl, by simp only; rw [h1]; simp, ?_⟩
  intro i hin
  simp only
  have hg : (readRows c q none q.names.length n).rows[i]? = some (aroundRow c q.rows none q.names.length i) := by
    rw [h1, List.getElem?_map, List.getElem?_range hin]; rfl
  refine ⟨?_, ?_⟩
  · intro r hr
    rw [hg]
    simp [aroundRow, hr, rowValues]
  · intro he
    refine ⟨?_, ?_⟩
    · rw [hg]
      simp [aroundRow, he]
    · rw [h5]
      simp [hin, he]

/-- **C175, where the code falls short**: a name that no column has is taken as no index at all. -/
theorem C175_fails_index_missing (c : Conv K) (q : Query K) (x : String) (h : x ∉ q.names) : readData c q (some x) = readData c q none := by
  have h1 : (List.range q.names.length).filter (fun i => q.names[i]? = some x) = [] := by
    rw [List.filter_eq_nil_iff]
    intro i _
    simp only [decide_eq_true_eq]
    intro hi
    exact h (List.mem_of_getElem? hi)
  have hi : indexNumber q.names (some x) = none := by simp [indexNumber, h1]
  have hc : columnNames q.names (some x) = q.names := by
    simp only [columnNames]
    rw [List.filter_eq_self]
    intro y hy
    have : y ≠ x := fun hxy => h (hxy ▸ hy)
    simpa using this
  have hw : width q (some x) = width q none := by unfold width; rw [hi]; rfl
  have hn : indexNumber q.names none = none := rfl
  have hc' : columnNames q.names none = q.names := rfl
  simp only [readData, readArray, hi, hw, hc, hn, hc']

/-- **C175, where the code falls short**: an index column of a name that occurs twice is an error. -/
theorem C175_fails_index_twice (c : Conv K) (q : Query K) (x : String) (h : 2 ≤ q.names.count x) : readData c q (some x) = .error .valueError := by
  have h1 : (columnNames q.names (some x)).length + q.names.count x = q.names.length := by
    simp only [columnNames]
    have h0 : ∀ l : List String, (l.filter (fun n => n ≠ x)).length + l.count x = l.length := by
      intro l
      induction l with
      | nil => rfl
      | cons a t ih =>
        by_cases ha : a = x
        · rw [List.filter_cons_of_neg (by simp [ha]), ha, List.count_cons_self, List.length_cons]; omega
        · rw [List.filter_cons_of_pos (by simpa using ha), List.count_cons_of_ne ha, List.length_cons, List.length_cons]; omega
    exact h0 _
  have h2 : width q (some x) = q.names.length - 1 ∨ width q (some x) = q.names.length := by
    unfold width; cases indexNumber q.names (some x) <;> simp
  have h3 : (columnNames q.names (some x)).length ≠ width q (some x) := by
    rcases h2 with h2 | h2 <;> omega
  simp [readData, readArray, h3]

/-- **C175, where the code falls short**: an array to read into is never accepted. -/
theorem C175_fails_out (c : Conv K) (q : Query K) (n : Option Nat) (x : Option String) : readArray c q n true x = .error .typeError := rfl

/-- **C175, where the code falls short**: missing values are read as zero, and so is the label of a row. -/
theorem C175_fails_null (c : Conv K) (a : String) (b : String) (v : Cell K) (hab : a ≠ b) :
    readData c { names := [a, b], rows := [[.null, v]] } none = .ok { names := [a, b], labels := [0], rows := [[0, asDouble c v]], underfilled := [], overflow := false } ∧
      ∃ f, readData c { names := [a, b], rows := [[.null, v]] } (some a) = .ok f ∧ f.labels = [0] := by
  refine ⟨?_, ?_⟩
  · rw [C175_read]; simp [asDouble]
  · obtain ⟨f, hf, _, _, _, _, hl, hlab⟩ := C175_indexed c { names := [a, b], rows := [[.null, v]] } (by simp [hab]) 0 a rfl
    refine ⟨f, hf, ?_⟩
    have := hlab 0 _ .null rfl rfl
    apply List.ext_getElem?
    intro i
    cases i with
    | zero => rw [this]; rfl
    | succ j =>
      rw [List.getElem?_eq_none_iff.mpr (by simp at hl; omega)]
      simp

/-! ## `SQLitePodCO` -/

/-- A cell of a pod, missing for `NULL`. -/
def podCell (c : Conv K) : Cell K → Option K
  | .null => none
  | .int i => some (c.ofInt i)
  | .real x => some x
  | .text _ => none

/-- There is no text in the table. -/
def NoText (rows : List (List (Cell K))) : Prop := ∀ r ∈ rows, ∀ v ∈ r, ∀ s, v ≠ .text s

omit [Zero K] in
theorem sq_mapM (c : Conv K) (rows : List (List (Cell K))) (h : NoText rows) :
    rows.mapM (fun r => r.mapM (asFloat c)) = Except.ok (rows.map (fun r => r.map (podCell c))) := by
  have h1 : ∀ r : List (Cell K), (∀ v ∈ r, ∀ s, v ≠ .text s) → r.mapM (asFloat c) = Except.ok (r.map (podCell c)) := by
    intro r
    induction r with
    | nil => intro _; rfl
    | cons v t ih =>
      intro hv
      have hvt := ih (fun w hw => hv w (by simp [hw]))
      have hv1 : asFloat c v = .ok (podCell c v) := by
        cases v with
        | text s => exact absurd rfl (hv (.text s) (by simp) s)
        | null => rfl
        | int i => rfl
        | real x => rfl
      rw [List.mapM_cons, hv1, hvt]; rfl
  induction rows with
  | nil => rfl
  | cons r t ih =>
    rw [List.mapM_cons, h1 r (h r (by simp)), ih (fun r' hr' => h r' (by simp [hr']))]; rfl

/-- **C175**: a pod that counts its rows gives all of them, with missing values missing. -/
theorem C175_pod_all (c : Conv K) (q : Query K) (h : NoText q.rows) :
    getArray c (makePod q 0) .all false = .ok (q.rows.map (fun r => r.map (podCell c))) := by
  simp [getArray, makePod, ripRows, sq_mapM c q.rows h]

/-- **C175**: an array of positions gives those rows, if there is an array to put them in. -/
theorem C175_pod_places (c : Conv K) (q : Query K) (h : NoText q.rows) (l : List Nat) (hl : ∀ i ∈ l, i < q.rows.length) :
    getArray c (makePod q 0) (.places l) true = .ok (l.filterMap (fun i => (q.rows[i]?).map (fun r => r.map (podCell c)))) := by
  have : l.all (fun i => decide (i < q.rows.length)) = true := by simpa using hl
  simp [getArray, makePod, ripRows, sq_mapM c q.rows h, this]

/-- **C175, the part that holds for slices**: the rows of the slice come first. -/
theorem C175_pod_slice_partial (c : Conv K) (q : Query K) (h : NoText q.rows) (a b : Nat) (hab : a ≤ b) (hb : b ≤ q.rows.length) :
    ∃ rs, getArray c (makePod q 0) (.slice (some a) (some b)) false = .ok rs ∧
      rs.take (b - a) = ((q.rows.drop a).take (b - a)).map (fun r => r.map (podCell c)) := by
  have hs : NoText ((q.rows.drop a).take (b - a)) := fun r hr => h r (List.mem_of_mem_drop (List.mem_of_mem_take hr))
  have hlen : ((q.rows.drop a).take (b - a)).length = b - a := by simp; omega
  have hn : ¬ b < a := by omega
  have h1 : ¬ q.rows.length < b - a := by omega
  simp only [getArray, makePod, if_true, Bool.false_eq_true, if_false, if_neg hn, ripRows, sq_mapM c _ hs, List.length_map, hlen, if_neg h1]
  refine ⟨_, rfl, ?_⟩
  rw [List.take_append_of_le_length (by simp; omega)]
  rw [List.take_of_length_le (by simp)]

/-- **C175, where the code falls short**: a slice has as many rows as the whole table, the rest of them zero; with an open end it is an error, and
an array to read into is refused, but required for an array of positions. -/
theorem C175_fails_pod_slice (c : Conv K) (p : PodCO K) (a b : Nat) (rs : List (List (Option K))) (l : List Nat) :
    (getArray c p (.slice (some a) (some b)) false = .ok rs → rs.length = p.nrows ∧
        ∀ i, b - a ≤ i → i < p.nrows → a ≤ b → rs[i]? = some (List.replicate p.table.names.length (some 0))) ∧
      getArray c p (.slice none (some b)) false = .error .typeError ∧ getArray c p (.slice (some a) none) false = .error .typeError ∧
      getArray c p .all true = .error .typeError ∧ getArray c p (.slice (some a) (some b)) true = .error .typeError ∧
      ∀ out, getArray c p (.places l) false ≠ .ok out := by
  refine ⟨?_, rfl, rfl, rfl, rfl, ?_⟩
  · intro h
    simp only [getArray, Bool.false_eq_true, if_false, ripRows] at h
    generalize hrows : (if b < a then p.table.rows.drop a else (p.table.rows.drop a).take (b - a)) = rows at h
    cases hm : rows.mapM (fun r => r.mapM (asFloat c)) with
    | error e => rw [hm] at h; simp at h
    | ok r =>
      rw [hm] at h
      simp only at h
      split at h
      · simp at h
      · rename_i hlt
        simp only [Except.ok.injEq] at h
        subst h
        refine ⟨by simp; omega, ?_⟩
        intro i hi hin hab
        have hrl : r.length = rows.length := by
          have : ∀ (l : List (List (Cell K))) (o : List (List (Option K))), l.mapM (fun r => r.mapM (asFloat c)) = Except.ok o → o.length = l.length := by
            intro l
            induction l with
            | nil => intro o ho; simp [List.mapM_nil, pure, Except.pure] at ho; subst ho; rfl
            | cons x t ih =>
              intro o ho
              rw [List.mapM_cons] at ho
              cases hx : x.mapM (asFloat c) with
              | error e => rw [hx] at ho; simp [bind, Except.bind] at ho
              | ok y =>
                cases ht : t.mapM (fun r => r.mapM (asFloat c)) with
                | error e => rw [hx, ht] at ho; simp [bind, Except.bind] at ho
                | ok z =>
                  rw [hx, ht] at ho
                  simp [bind, Except.bind, pure, Except.pure] at ho
                  subst ho
                  simp [ih z ht]
          exact this _ _ hm
        have hle : r.length ≤ b - a := by
          rw [hrl, ← hrows, if_neg (by omega)]
          simp
        rw [List.getElem?_append_right (by omega), List.getElem?_replicate]
        rw [if_pos (by omega)]
  · intro out h
    simp only [getArray] at h
    split at h
    · simp at h
    · simp at h

/-! ## Cases -/

/-- Conversions for the examples. -/
def plainConv : Conv Int := { ofInt := id, trunc := id, textReal := fun s => s.length, textInt := fun s => s.length }

/-- A table of three rows. -/
def tripTable : Query Int :=
  { names := ["id", "cost"], rows := [[.int 11, .real 5], [.int 12, .null], [.int 13, .real 7]] }

example : readData plainConv tripTable (some "id") =
    .ok { names := ["cost"], labels := [11, 12, 13], rows := [[5], [0], [7]], underfilled := [], overflow := false } := by decide +kernel

example : readArray plainConv { names := ["cost"], rows := [[.real 5], [.real 6]] } (some 5) false none =
    .ok { names := ["cost"], labels := [0, 1, 2, 3, 4], rows := [[5], [6], [0], [5], [6]], underfilled := [2], overflow := false } := by decide +kernel

example : NoText tripTable.rows := by
  intro r hr v hv s
  fin_cases hr <;> fin_cases hv <;> simp

example : getArray plainConv (makePod tripTable 0) (.slice (some 1) (some 2)) false =
    .ok [[some 12, none], [some 0, some 0], [some 0, some 0]] := by decide +kernel

end Larch.Props
