import Verif.Props.Cases
import Verif.Model.Labels

/-!
# C90: labels of the tables of results
-/

namespace Larch.Props

open Larch.Cases Larch.Labels Larch.Spec

set_option linter.unusedSectionVars false

/-! ## Specification -/

/-- The table has exactly one row per selected case, in order, each labelled with the identifier of its own case and holding
the numbers of that case, one per column label. -/
structure IsTable {κ V : Type} (t : Tbl κ V) (ids : List Int) (sel : List Int) (cols : List κ) (val : Int → List V) : Prop where
  cols_eq : t.cols = cols
  rows_len : t.rows.length = sel.length
  cells_len : t.cells.length = sel.length
  row : ∀ (i : Nat) (c : Int), sel[i]? = some c →
    ∃ id, ids[c.toNat]? = some id ∧ 0 ≤ c ∧ t.rows[i]? = some id ∧ t.cells[i]? = some (val c) ∧ (val c).length = cols.length

/-! ## Lemmas -/

variable {κ V : Type}

theorem filterMap_ids (ids : List Int) : ∀ sel : List Int, (∀ c ∈ sel, 0 ≤ c ∧ c < ids.length) →
    (sel.filterMap (fun i => ids[i.toNat]?)).length = sel.length ∧
    ∀ (i : Nat) (c : Int), sel[i]? = some c → (sel.filterMap (fun i => ids[i.toNat]?))[i]? = ids[c.toNat]? := by
  intro sel
  induction sel with
  | nil => intro _; exact ⟨rfl, by simp⟩
  | cons a l ih =>
    intro h
    obtain ⟨h1, h2⟩ := ih (fun c hc => h c (List.mem_cons_of_mem _ hc))
    have ha := h a (by simp)
    have hlt : a.toNat < ids.length := by omega
    have e : ids[a.toNat]? = some ids[a.toNat] := List.getElem?_eq_getElem hlt
    rw [List.filterMap_cons_some (f := fun i : Int => ids[i.toNat]?) e]
    refine ⟨by simp [h1], ?_⟩
    intro i c hc
    cases i with
    | zero =>
      simp only [List.getElem?_cons_zero, Option.some.injEq] at hc
      subst hc
      rw [List.getElem?_cons_zero, e]
    | succ i =>
      simp only [List.getElem?_cons_succ] at hc ⊢
      exact h2 i c hc

theorem frame_ok (ids sel : List Int) (cols : List κ) (val : Int → List V) (hsel : ∀ c ∈ sel, 0 ≤ c ∧ c < ids.length)
    (hw : ∀ c, (val c).length = cols.length) (w : Nat) (hcw : cols.length = w) :
    ∃ t, frame (sel.map val) w cols (some (sel.filterMap (fun i => ids[i.toNat]?))) = .ok t ∧
      IsTable t ids sel cols val := by
  obtain ⟨h1, h2⟩ := filterMap_ids ids sel hsel
  refine ⟨⟨sel.filterMap (fun i => ids[i.toNat]?), cols, sel.map val⟩, ?_, rfl, h1, by simp, ?_⟩
  · unfold frame
    simp only [Option.getD_some]
    rw [if_pos ⟨by rw [h1]; simp, hcw⟩]
  · intro i c hc
    have hm := hsel c (List.mem_of_getElem? hc)
    have hlt : c.toNat < ids.length := by omega
    refine ⟨ids[c.toNat], List.getElem?_eq_getElem hlt, hm.1, ?_, ?_, hw c⟩
    · simp only
      rw [h2 i c hc]
      exact List.getElem?_eq_getElem hlt
    · simp [List.getElem?_map, hc]

/-! ## C90: compiled models -/

/-- **C90 (probabilities, compiled).** When the model has idco data: for every slice with `0 ≤ start ≤ n`, `stop` either `-1`
or between 0 and `n`, and positive step, the table of probabilities (with or without nests) has one row per selected case,
labelled with its own identifier and, by column, its own numbers. -/
theorem C90_probability (d : Data κ) (hco : d.hasCo = true) (w : Nat) (val : Int → List V) (start stop step : Int)
    (hs : 0 < step) (h0 : 0 ≤ start) (h1 : start ≤ d.ids.length) (h2 : stop = -1 ∨ (0 ≤ stop ∧ stop ≤ d.ids.length))
    (hw : ∀ c, (val c).length = w) (hwc : d.codes.length ≤ w) :
    (∃ t, probTable d w val start stop step false = .ok t ∧
      IsTable t d.ids (pyRange start (if stop < 0 then d.ids.length else stop) step) d.codes
        (fun c => (val c).take d.codes.length)) ∧
    (d.nodes.length = w → ∃ t, probTable d w val start stop step true = .ok t ∧
      IsTable t d.ids (pyRange start (if stop < 0 then d.ids.length else stop) step) d.nodes val) := by
  set stop' : Int := if stop < 0 then (d.ids.length : Int) else stop with hst
  have heff : effStop d.ids.length ⟨start, stop, step, -1, -1, -1⟩ = stop' := rfl
  have hst1 : (if stop = -1 then (d.ids.length : Int) else stop) = stop' := by
    rw [hst]
    rcases h2 with h | h
    · rw [if_pos h, if_pos (by omega)]
    · rw [if_neg (by omega), if_neg (by omega)]
  have hr : 0 ≤ stop' ∧ stop' ≤ d.ids.length := by
    rw [← hst1]
    rcases h2 with h | h
    · rw [if_pos h]; omega
    · rw [if_neg (by omega)]; exact h
  have hidx : probIndex d start stop step = some ((pyRange start stop' step).filterMap (fun i => d.ids[i.toNat]?)) := by
    unfold probIndex Data.coIndex
    rw [if_pos hco]
    simp only [Option.map_some, Option.some.injEq]
    unfold slice
    rw [hst1, C31_numba_agrees d.ids.length start stop' step h0 h1 hr.1 hr.2]
    simp only [effStop]
    rw [if_neg (by omega)]
  have hsel : ∀ c ∈ pyRange start stop' step, 0 ≤ c ∧ c < d.ids.length := by
    intro c hc
    obtain ⟨q1, q2, _⟩ := (mem_range hs c).mp hc
    omega
  constructor
  · unfold probTable
    simp only [Bool.false_eq_true, if_false]
    rw [heff, hidx, List.map_map]
    exact frame_ok d.ids _ d.codes (fun c => (val c).take d.codes.length) hsel
      (by intro c; rw [List.length_take, hw c]; omega) _ (by omega)
  · intro hn
    unfold probTable
    simp only [if_true]
    rw [heff, hidx]
    exact frame_ok d.ids _ d.nodes val hsel (by intro c; rw [hw c, hn]) _ hn

/-- **C90 (utilities, compiled).** When the model has idco data the table of utilities has one row per case with its own
identifier; the columns are the alternatives of an MNL model and the nodes of any other. -/
theorem C90_utility (d : Data κ) (hco : d.hasCo = true) (mnl : Bool) (val : Int → List V)
    (hw : ∀ c, (val c).length = (if mnl then d.codes else d.nodes).length) :
    ∃ t, utilTable d mnl (if mnl then d.codes else d.nodes).length val = .ok t ∧
      IsTable t d.ids (pyRange 0 d.ids.length 1) (if mnl then d.codes else d.nodes) val := by
  have hsel : ∀ c ∈ pyRange 0 (d.ids.length : Int) 1, 0 ≤ c ∧ c < d.ids.length := by
    intro c hc
    obtain ⟨q1, q2, _⟩ := (mem_range (by decide) c).mp hc
    omega
  have hall : (pyRange 0 (d.ids.length : Int) 1).filterMap (fun i => d.ids[i.toNat]?) = d.ids := by
    obtain ⟨e1, e2⟩ := filterMap_ids d.ids _ hsel
    have hlen : (pyRange 0 (d.ids.length : Int) 1).length = d.ids.length := by
      have := pyRange_length (s := 1) (by decide) _ 0 (le_refl ((d.ids.length : Int) - 0).toNat) (by omega)
      simp only [sub_zero, Int.fdiv_one, Int.fmod_one] at this
      simpa using this
    apply List.ext_getElem?
    intro i
    by_cases hi : i < d.ids.length
    · have hi' : i < (pyRange 0 (d.ids.length : Int) 1).length := by omega
      have hc := cLocal_get (r := ⟨0, d.ids.length, 1, -1, -1, -1⟩) (b := (d.ids.length : Int)) one_pos
        (List.getElem?_eq_getElem hi')
      have := e2 i _ (List.getElem?_eq_getElem hi')
      rw [this]
      simp [cLocal] at hc
      rw [hc]; simp
    · rw [List.getElem?_eq_none (by omega), List.getElem?_eq_none (by omega)]
  obtain ⟨t, h1, h2⟩ := frame_ok d.ids (pyRange 0 (d.ids.length : Int) 1) (if mnl then d.codes else d.nodes) val hsel hw _ rfl
  refine ⟨t, ?_, h2⟩
  unfold utilTable Data.coIndex
  rw [if_pos hco]
  rw [hall] at h1
  exact h1

/-- **C90 (exponentiated utilities, compiled MNL).** Likewise for the exponentiated utilities. -/
theorem C90_exputility (d : Data κ) (hco : d.hasCo = true) (val : Int → List V) (hw : ∀ c, (val c).length = d.codes.length) :
    ∃ t, exputilTable d d.codes.length val = .ok t ∧ IsTable t d.ids (pyRange 0 d.ids.length 1) d.codes val :=
  C90_utility d hco true val hw

/-! ## C90: stacked formats -/

theorem stack_all (isNaN : V → Bool) (t : Tbl κ V) (hn : ∀ r ∈ t.cells, ∀ v ∈ r, isNaN v = false) :
    stack isNaN t = (t.rows.zip t.cells).flatMap (fun rc => (t.cols.zip rc.2).map (fun kv => ((rc.1, kv.1), kv.2))) := by
  unfold stack
  rw [List.filter_eq_self]
  intro e he
  obtain ⟨rc, hrc, hkv⟩ := List.mem_flatMap.mp he
  obtain ⟨kv, hkv2, rfl⟩ := List.mem_map.mp hkv
  have h1 := (List.of_mem_zip hrc).2
  have h2 := (List.of_mem_zip hkv2).2
  simp [hn _ h1 _ h2]

/-- Specification: the entries of a table row by row, as (case, column), number. -/
def entries (ids : List Int) (sel : List Int) (cols : List κ) (val : Int → List V) : List ((Int × κ) × V) :=
  sel.flatMap (fun c => (cols.zip (val c)).map (fun kv => (((ids[c.toNat]?).getD 0, kv.1), kv.2)))

theorem entries_of_table {t : Tbl κ V} {ids sel : List Int} {cols : List κ} {val : Int → List V}
    (h : IsTable t ids sel cols val) :
    (t.rows.zip t.cells).flatMap (fun rc => (t.cols.zip rc.2).map (fun kv => ((rc.1, kv.1), kv.2))) =
      entries ids sel cols val := by
  have e : t.rows.zip t.cells = sel.map (fun c => ((ids[c.toNat]?).getD 0, val c)) := by
    apply List.ext_getElem?
    intro i
    by_cases hi : i < sel.length
    · obtain ⟨id, h1, h2, h3, h4, _⟩ := h.row i _ (List.getElem?_eq_getElem hi)
      have hz : (t.rows.zip t.cells)[i]? = some (id, val sel[i]) :=
        (List.getElem?_zip_eq_some (z := (id, val sel[i]))).mpr ⟨h3, h4⟩
      rw [hz, List.getElem?_map, List.getElem?_eq_getElem hi]
      simp only [Option.map_some, h1, Option.getD_some]
    · rw [List.getElem?_eq_none (by rw [List.length_zip, h.rows_len, h.cells_len]; omega),
        List.getElem?_eq_none (by rw [List.length_map]; omega)]
  rw [e, h.cols_eq]
  unfold entries
  rw [List.flatMap_map]

/-- **C90 (stacked).** The `'idca'` format lists, case by case, the number of every alternative under the identifier of the
case and the code of the alternative, provided none is NaN. -/
theorem C90_idca (isNaN : V → Bool) (d : Data κ) (hco : d.hasCo = true) (w : Nat) (val : Int → List V)
    (start stop step : Int) (hs : 0 < step) (h0 : 0 ≤ start) (h1 : start ≤ d.ids.length)
    (h2 : stop = -1 ∨ (0 ≤ stop ∧ stop ≤ d.ids.length)) (hw : ∀ c, (val c).length = w) (hwc : d.codes.length ≤ w)
    (hn : ∀ c, ∀ v ∈ val c, isNaN v = false) :
    probIdca isNaN d w val start stop step false =
      .ok (entries d.ids (pyRange start (if stop < 0 then d.ids.length else stop) step) d.codes
        (fun c => (val c).take d.codes.length)) := by
  obtain ⟨t, e, ht⟩ := (C90_probability d hco w val start stop step hs h0 h1 h2 hw hwc).1
  unfold probIdca
  rw [e]
  simp only [Except.map]
  rw [stack_all isNaN t ?_, entries_of_table ht]
  intro r hr v hv
  obtain ⟨i, hi⟩ := List.getElem?_of_mem hr
  have hil : i < (pyRange start (if stop < 0 then (d.ids.length : Int) else stop) step).length := by
    have := (List.getElem?_eq_some_iff.mp hi).1
    rw [ht.cells_len] at this
    exact this
  obtain ⟨_, _, _, _, h4, _⟩ := ht.row i _ (List.getElem?_eq_getElem hil)
  rw [hi] at h4
  cases h4
  exact hn _ v (List.mem_of_mem_take hv)

theorem pick_flat (cols : List κ) (ids : List Int) (val : Int → List V) : ∀ (sel : List Int) (av : List (List Bool)),
    av.length = sel.length → (∀ a ∈ av, a.length = cols.length) → (∀ c, (val c).length = cols.length) →
    pick (entries ids sel cols val) av.flatten = .ok ((sel.zip av).flatMap (fun ca =>
      ((cols.zip (val ca.1)).zip ca.2).filterMap (fun q =>
        if q.2 then some (((ids[ca.1.toNat]?).getD 0, q.1.1), q.1.2) else none))) := by
  intro sel
  induction sel with
  | nil =>
    intro av h1 _ _
    have : av = [] := List.length_eq_zero_iff.mp h1
    subst this
    simp [pick, entries]
  | cons c sel ih =>
    intro av h1 h2 h3
    cases av with
    | nil => simp at h1
    | cons a av =>
      have ih' := ih av (by simpa using h1) (fun x hx => h2 x (List.mem_cons_of_mem _ hx)) h3
      have ha := h2 a (by simp)
      unfold pick at ih' ⊢
      have e : entries ids (c :: sel) cols val = (cols.zip (val c)).map (fun kv => (((ids[c.toNat]?).getD 0, kv.1), kv.2)) ++
          entries ids sel cols val := by simp [entries]
      have hlen : ((cols.zip (val c)).map (fun kv => (((ids[c.toNat]?).getD 0, kv.1), kv.2))).length = a.length := by
        simp [h3 c, ha]
      rw [e, List.flatten_cons, List.length_append, List.length_append, hlen]
      split at ih'
      · next hl =>
        rw [if_pos (by omega), List.zip_append hlen, List.filterMap_append, List.zip_cons_cons, List.flatMap_cons]
        simp only [Except.ok.injEq] at ih' ⊢
        rw [ih']
        congr 1
        rw [List.zip_map_left, List.filterMap_map]
        rfl
      · next hl => cases ih'

/-- **C90 (available only).** On all cases the `'idce'` format lists exactly the entries of the available alternatives,
provided no probability is NaN. -/
theorem C90_idce (isNaN : V → Bool) (d : Data κ) (hco : d.hasCo = true) (w : Nat) (val : Int → List V)
    (hw : ∀ c, (val c).length = w) (hwc : d.codes.length ≤ w) (hn : ∀ c, ∀ v ∈ val c, isNaN v = false)
    (hav : d.avail.length = d.ids.length) (hava : ∀ a ∈ d.avail, a.length = d.codes.length) :
    probIdce isNaN d w val 0 (-1) 1 false = .ok (((pyRange 0 d.ids.length 1).zip d.avail).flatMap (fun ca =>
      ((d.codes.zip ((val ca.1).take d.codes.length)).zip ca.2).filterMap (fun q =>
        if q.2 then some (((d.ids[ca.1.toNat]?).getD 0, q.1.1), q.1.2) else none))) := by
  have hi := C90_idca isNaN d hco w val 0 (-1) 1 (by decide) (by decide) (by omega) (Or.inl rfl) hw hwc hn
  unfold probIdca at hi
  cases hp : probTable d w val 0 (-1) 1 false with
  | error e => rw [hp] at hi; simp [Except.map] at hi
  | ok t =>
    rw [hp] at hi
    simp only [Except.map, Except.ok.injEq] at hi
    unfold probIdce
    rw [hp]
    simp only [Except.bind]
    rw [hi]
    have hlen : (pyRange 0 (d.ids.length : Int) 1).length = d.ids.length := by
      have := pyRange_length (s := 1) (by decide) _ 0 (le_refl ((d.ids.length : Int) - 0).toNat) (by omega)
      simp only [sub_zero, Int.fdiv_one, Int.fmod_one] at this
      simpa using this
    exact pick_flat d.codes d.ids (fun c => (val c).take d.codes.length) _ d.avail (by simp [hav, hlen]) hava
      (by intro c; rw [List.length_take, hw c]; omega)

/-! ## C90: violations, compiled -/

/-- Data of two cases with identifiers 101 and 102. -/
def labData (co : Bool) : Data Int := ⟨[101, 102], co, [1, 2], [1, 2, 0], [[true, true], [true, false]]⟩

/-- Rows of numbers for the alternatives. -/
def labVal (c : Int) : List Int := if c = 0 then [4, 6] else [10, 0]

example : (labData true).hasCo = true ∧ (∀ c, (labVal c).length = 2) ∧ (labData true).codes.length ≤ 2 ∧
    (labData true).avail.length = (labData true).ids.length := by
  refine ⟨rfl, ?_, by decide, rfl⟩
  intro c; unfold labVal; split <;> rfl

theorem range2 : pyRange 0 2 1 = [0, 1] := by
  rw [pyRange_step (by decide) (by decide), pyRange_step (by decide) (by decide), pyRange_nil (by decide)]
  norm_num

/-- **C90 violated (no idco data).** A model with only idca or idce data loses the case identifiers: the rows are labelled 0, 1,
2, … instead. -/
theorem C90_fails_no_co : ∃ t, probTable (labData false) 2 labVal 0 (-1) 1 false = .ok t ∧ t.rows = [0, 1] ∧
    t.rows ≠ (labData false).ids := by
  refine ⟨⟨[0, 1], [1, 2], [[4, 6], [10, 0]]⟩, ?_, rfl, by decide⟩
  have e : effStop (labData false).ids.length ⟨0, -1, 1, -1, -1, -1⟩ = 2 := rfl
  unfold probTable
  rw [e, range2]
  rfl

/-- **C90 violated (negative stop).** With `stop_case=-2` (documented to count from the end) the array has all cases and the
index all but two: an exception. -/
theorem C90_fails_negative_stop (start : Int) (hs : start = 0) :
    ∃ e, probTable (labData true) 2 labVal start (-2) 1 false = .error e := by
  subst hs
  have e : effStop (labData true).ids.length ⟨0, -2, 1, -1, -1, -1⟩ = 2 := rfl
  have e2 : probIndex (labData true) 0 (-2) 1 = some [] := by
    unfold probIndex Data.coIndex labData slice numbaCases
    simp only [if_true, Option.map_some, Option.getD_some, clampBound]
    norm_num
    rw [pyRange_nil (by decide)]
    simp
  refine ⟨"ValueError: Shape of passed values", ?_⟩
  unfold probTable
  rw [e, range2, e2]
  rfl

/-- **C90 violated (nests of an MNL model).** `include_nests` is documented to be ignored for MNL models; a labelled table
then raises, because the graph has a root and the array has not. -/
theorem C90_fails_mnl_nests (d : Data κ) (val : Int → List V) (start stop step : Int)
    (hroot : d.nodes.length = d.codes.length + 1) : ∃ e, probTable d d.codes.length val start stop step true = .error e := by
  refine ⟨"ValueError: Shape of passed values", ?_⟩
  unfold probTable frame
  simp only [if_true]
  rw [if_neg]
  rintro ⟨_, h⟩
  omega

/-- **C90 violated (available only, some cases).** The `'idce'` format fails for every proper slice: the mask has the
availability of all cases. -/
theorem C90_fails_idce_slice (isNaN : V → Bool) (d : Data κ) (hco : d.hasCo = true) (w : Nat) (val : Int → List V)
    (hw : ∀ c, (val c).length = w) (hwc : d.codes.length ≤ w) (hn : ∀ c, ∀ v ∈ val c, isNaN v = false)
    (hav : d.avail.length = d.ids.length) (hava : ∀ a ∈ d.avail, a.length = d.codes.length) (hc : 0 < d.codes.length)
    (stop : Int) (h0 : 0 ≤ stop) (h1 : stop < d.ids.length) :
    ∃ e, probIdce isNaN d w val 0 stop 1 false = .error e := by
  have hi := C90_idca isNaN d hco w val 0 stop 1 (by decide) (by decide) (by omega) (Or.inr ⟨h0, by omega⟩) hw hwc hn
  rw [if_neg (by omega : ¬ stop < 0)] at hi
  unfold probIdca at hi
  cases hp : probTable d w val 0 stop 1 false with
  | error e => rw [hp] at hi; simp [Except.map] at hi
  | ok t =>
    rw [hp] at hi
    simp only [Except.map, Except.ok.injEq] at hi
    refine ⟨"IndexError: Boolean index has wrong length", ?_⟩
    unfold probIdce
    rw [hp]
    simp only [Except.bind]
    rw [hi]
    have hlen : ((pyRange 0 stop 1).length : Int) = stop := by
      have := pyRange_length (s := 1) (by decide) _ 0 (le_refl (stop - 0).toNat) (by omega)
      simp only [sub_zero, Int.fdiv_one, Int.fmod_one] at this
      simpa using this
    have l1 : (entries d.ids (pyRange 0 stop 1) d.codes (fun c => (val c).take d.codes.length)).length =
        (pyRange 0 stop 1).length * d.codes.length := by
      unfold entries
      generalize pyRange 0 stop 1 = sel
      induction sel with
      | nil => simp
      | cons c sel ih =>
        rw [List.flatMap_cons, List.length_append, ih]
        simp only [List.length_map, List.length_zip, List.length_take, hw c, List.length_cons]
        rw [Nat.min_eq_left (by omega : d.codes.length ≤ w), Nat.min_self]
        ring
    have l2 : d.avail.flatten.length = d.avail.length * d.codes.length := by
      generalize d.avail = av at hava
      induction av with
      | nil => simp
      | cons a av ih =>
        rw [List.flatten_cons, List.length_append, ih (fun x hx => hava x (List.mem_cons_of_mem _ hx)), hava a (by simp)]
        simp only [List.length_cons]
        ring
    unfold pick
    rw [if_neg]
    rw [l1, l2, hav]
    intro h
    have h3 : (pyRange 0 stop 1).length = d.ids.length := Nat.eq_of_mul_eq_mul_right hc h
    omega

/-- **C90 violated (parameters of `utility`).** The argument `x` of the compiled `utility` and `exputility` is ignored: with the
parameter set to 7 in the call, the utility is that of the current value 0. -/
theorem C90_fails_x (m : Params.Mentions) :
    ∃ f : Params.Frame, compiledUtility m id f (.arr [.fin 7]) = [("a", .fin 0)] ∧
      utilityAt m id f (.arr [.fin 7]) = .ok [("a", .fin 7)] := by
  refine ⟨⟨[⟨"a", .fin 0, .fin 0, .fin 0, .ninf, .pinf, some 0, .nan⟩], false, false, .ninf, .fin 0⟩, ?_, ?_⟩
  · simp [compiledUtility, Params.unmangle, Params.Frame.values]
  · simp [utilityAt, Params.unmangle, Params.Frame.values, Params.setValues, Params.setArray, Params.setKwargs,
      Params.Row.free, X.isNaN]

/-! ## C90: numba models -/

/-- **C90 (numba).** For every slice with positive step, bounds of any sign, the tables of probabilities (with or without nests)
and of utilities have one row per selected case, labelled with its own identifier, and the columns of the graph's nodes. -/
theorem C90_numba (ids : List Int) (nodes : List κ) (nElem : Nat) (he : nElem ≤ nodes.length) (val : Int → List V)
    (hw : ∀ c, (val c).length = nodes.length) (start stop step : Option Int) (hs : 0 < step.getD 1) :
    (∃ t, numbaProb ids nodes nElem val start stop step true = .ok t ∧
      IsTable t ids (numbaCases ids.length start stop step) nodes val) ∧
    (∃ t, numbaProb ids nodes nElem val start stop step false = .ok t ∧
      IsTable t ids (numbaCases ids.length start stop step) (nodes.take nElem) (fun c => (val c).take nElem)) ∧
    (∃ t, numbaUtil ids nodes val start stop step = .ok t ∧
      IsTable t ids (numbaCases ids.length start stop step) nodes val) := by
  have hsel := fun c hc => C31_numba_in_range ids.length start stop step hs c hc
  have full := frame_ok ids (numbaCases ids.length start stop step) nodes val hsel hw nodes.length rfl
  have h1 : ∃ t, numbaUtil ids nodes val start stop step = .ok t ∧
      IsTable t ids (numbaCases ids.length start stop step) nodes val := by
    unfold numbaUtil wrap slice
    rw [List.take_length]
    exact full
  refine ⟨?_, ?_, h1⟩
  · unfold numbaProb
    simp only [if_true]
    exact h1
  · unfold numbaProb wrap slice
    simp only [Bool.false_eq_true, if_false]
    rw [Nat.min_eq_right he, List.map_map]
    exact frame_ok ids _ (nodes.take nElem) (fun c => (val c).take nElem) hsel
      (by intro c; rw [List.length_take, List.length_take, hw c]) nElem (by rw [List.length_take]; omega)

/-- **C90 violated (numba, `quantity` of some cases).** A labelled table of quantities of fewer than all cases raises. -/
theorem C90_numba_fails_quantity (ids : List Int) (nodes : List κ) (val : Int → List V) (start stop step : Option Int)
    (h : (numbaCases ids.length start stop step).length ≠ (numbaCases ids.length none none none).length) :
    ∃ e, numbaQuantity ids nodes val start stop step = .error e := by
  refine ⟨"ValueError: Shape of passed values", ?_⟩
  have hsel := fun c hc => C31_numba_in_range ids.length none none none (by decide) c hc
  have hl := (filterMap_ids ids _ hsel).1
  unfold numbaQuantity wrap slice frame
  simp only [Option.getD_some]
  rw [if_neg]
  rintro ⟨h1, _⟩
  rw [hl, List.length_map] at h1
  exact h h1.symm

example : (numbaCases 3 (some 1) none none).length ≠ (numbaCases 3 none none none).length := by
  have e1 : numbaCases 3 (some 1) none none = pyRange 1 3 1 := by
    unfold numbaCases; norm_num [clampBound]
  have e2 : numbaCases 3 none none none = pyRange 0 3 1 := by
    unfold numbaCases; norm_num
  rw [e1, e2, pyRange_step (by decide) (by decide), pyRange_step (by decide) (by decide), pyRange_nil (by decide),
    pyRange_step (by decide) (by decide), pyRange_step (by decide) (by decide), pyRange_step (by decide) (by decide),
    pyRange_nil (by decide)]
  norm_num

/-- **C90 violated (numba, data array of probabilities).** The `'dataarray'` format without nests raises: the array has only
the alternatives, the labels have all nodes (every tree has a root). -/
theorem C90_numba_fails_dataarray (ids : List Int) (nodes : List κ) (nElem : Nat) (arr : List (List V))
    (start stop step : Option Int) (h : nElem < nodes.length) :
    ∃ e, wrapArray ids nodes nElem arr start stop step = .error e := by
  refine ⟨"ValueError: Shape of passed values", ?_⟩
  unfold wrapArray frame
  rw [if_neg]
  rintro ⟨_, h1⟩
  omega

theorem numbaCases_nodup (n : Nat) (start stop step : Option Int) (hs : 0 < step.getD 1) :
    (numbaCases n start stop step).Nodup := by
  unfold numbaCases
  exact (range_sorted hs).imp (fun h => ne_of_lt h)

theorem foldl_set_spec (ls : Int → V) : ∀ (l : List Int) (out : List V), l.Nodup → (∀ c ∈ l, 0 ≤ c ∧ c < out.length) →
    ((l.zip (l.map ls)).foldl (fun o p => o.set p.1.toNat p.2) out).length = out.length ∧
    ∀ i : Nat, i < out.length → ((l.zip (l.map ls)).foldl (fun o p => o.set p.1.toNat p.2) out)[i]? =
      if (i : Int) ∈ l then some (ls i) else out[i]? := by
  intro l
  induction l with
  | nil => intro out _ _; simp
  | cons a l ih =>
    intro out hnd hr
    rw [List.nodup_cons] at hnd
    obtain ⟨h1, h2⟩ := ih (out.set a.toNat (ls a)) hnd.2 (by
      intro c hc; rw [List.length_set]; exact hr c (List.mem_cons_of_mem _ hc))
    have ha := hr a (by simp)
    simp only [List.map_cons, List.zip_cons_cons, List.foldl_cons]
    refine ⟨by rw [h1, List.length_set], ?_⟩
    intro i hi
    rw [h2 i (by rw [List.length_set]; exact hi)]
    by_cases hm : (i : Int) ∈ l
    · rw [if_pos hm, if_pos (List.mem_cons_of_mem _ hm)]
    · rw [if_neg hm]
      by_cases hia : (i : Int) = a
      · subst hia
        rw [if_pos (by simp)]
        simp [hi]
      · rw [if_neg (by simp [hm, hia]), List.getElem?_set_ne]
        omega

/-- **C90 (numba, logsums into an array).** With an output of one entry per case, exactly the entries of the selected cases
are overwritten, each with the logsum of its own case. -/
theorem C90_numba_logsums_into (out : List V) (ls : Int → V) (start stop step : Option Int) (hs : 0 < step.getD 1) :
    ∃ r, numbaLogsumsInto out out.length ls start stop step = .ok r ∧ r.length = out.length ∧
      ∀ i : Nat, i < out.length →
        r[i]? = if (i : Int) ∈ numbaCases out.length start stop step then some (ls i) else out[i]? := by
  obtain ⟨h1, h2⟩ := foldl_set_spec ls (numbaCases out.length start stop step) out
    (numbaCases_nodup _ _ _ _ hs) (fun c hc => C31_numba_in_range out.length start stop step hs c hc)
  refine ⟨_, ?_, h1, h2⟩
  unfold numbaLogsumsInto
  simp only
  rw [if_pos (by simp)]

/-- **C90 (a given array of another length).** Logsums of all cases are written only into an array with one place per case; any
other length raises (numpy's repetition of a single number apart) and nothing is written. -/
theorem C90_numba_logsums_length (out : List V) (n : Nat) (ls : Int → V) (h : out.length ≠ n) :
    ∃ e, numbaLogsumsInto out n ls none none none = .error e := by
  have key : ∀ k : Nat, (numbaCases k none none none).length = k := by
    intro k
    have := pyRange_length (b := (k : Int)) (s := 1) (by norm_num) k 0 (by simp) (by omega)
    simp at this
    simpa [numbaCases] using this
  unfold numbaLogsumsInto
  simp only
  rw [if_neg]
  · exact ⟨_, rfl⟩
  · rw [List.length_map, key, key]; exact h

end Larch.Props
