import Verif.Model.Params
import Mathlib.Data.List.Nodup
import Mathlib.Data.List.Lookmap

/-!
# C18-C22, C53: the parameter frame
-/

namespace Larch.Props

open Larch.Params

/-! ## Lookup lemmas -/

theorem get_map {rows : List Row} {n : String} (f : Row → Row) (hf : ∀ r, (f r).name = r.name) :
    rowOf (rows.map f) n = (rowOf rows n).map f := by
  induction rows with
  | nil => rfl
  | cons a l ih =>
    unfold rowOf at ih ⊢
    simp only [List.map_cons, List.find?_cons, hf]
    split
    · rfl
    · exact ih

theorem get_name {rows : List Row} {n : String} {r : Row} (h : rowOf rows n = some r) : r.name = n := by
  have := List.find?_some h
  simpa using this

theorem get_mem {rows : List Row} {n : String} {r : Row} (h : rowOf rows n = some r) : r ∈ rows :=
  List.mem_of_find?_eq_some h

theorem get_none {rows : List Row} {n : String} : rowOf rows n = none ↔ n ∉ rows.map Row.name := by
  unfold rowOf
  rw [List.find?_eq_none]
  simp

theorem get_isSome {rows : List Row} {n : String} (h : n ∈ rows.map Row.name) : ∃ r, rowOf rows n = some r := by
  cases hg : rowOf rows n with
  | none => exact absurd h (get_none.mp hg)
  | some r => exact ⟨r, rfl⟩

theorem get_iff {rows : List Row} (hnd : (rows.map Row.name).Nodup) {n : String} {r : Row} :
    rowOf rows n = some r ↔ r ∈ rows ∧ r.name = n := by
  constructor
  · intro h; exact ⟨get_mem h, get_name h⟩
  · rintro ⟨hm, rfl⟩
    induction rows with
    | nil => simp at hm
    | cons a l ih =>
      simp only [List.map_cons, List.nodup_cons] at hnd
      unfold rowOf at ih ⊢
      rw [List.find?_cons]
      rcases List.mem_cons.mp hm with rfl | hm
      · simp
      · have hne : (a.name == r.name) = false := by
          rw [beq_eq_false_iff_ne]
          intro he
          exact hnd.1 (by rw [he]; exact List.mem_map_of_mem hm)
        rw [hne]
        exact ih hnd.2 hm

theorem get_perm {l l' : List Row} (h : l.Perm l') (hnd : (l.map Row.name).Nodup) (n : String) : rowOf l n = rowOf l' n := by
  have hnd' : (l'.map Row.name).Nodup := (h.map Row.name).nodup_iff.mp hnd
  cases hg : rowOf l' n with
  | none => rw [get_none] at hg ⊢; rwa [(h.map Row.name).mem_iff]
  | some r =>
    rw [get_iff hnd'] at hg
    rw [get_iff hnd]
    exact ⟨h.mem_iff.mpr hg.1, hg.2⟩

theorem get_append (l l' : List Row) (n : String) : rowOf (l ++ l') n = (rowOf l n).or (rowOf l' n) := by
  unfold rowOf; rw [List.find?_append]

/-! ## C20: scanning -/

theorem ensure_names (mk : String → Row) (hmk : ∀ n, (mk n).name = n) (rows : List Row) (names : List String) :
    (ensureNames mk rows names).map Row.name =
      rows.map Row.name ++ names.filter (fun n => n ∉ rows.map Row.name) := by
  unfold ensureNames
  rw [List.map_append, List.map_map]
  congr 1
  conv_rhs => rw [← List.map_id (List.filter _ names)]
  apply List.map_congr_left
  intro n _
  simp [hmk]

theorem ensure_mem (mk : String → Row) (hmk : ∀ n, (mk n).name = n) (rows : List Row) (names : List String) (n : String) :
    n ∈ (ensureNames mk rows names).map Row.name ↔ n ∈ rows.map Row.name ∨ n ∈ names := by
  rw [ensure_names mk hmk, List.mem_append, List.mem_filter]
  constructor
  · rintro (h | h)
    · exact Or.inl h
    · exact Or.inr h.1
  · intro h
    by_cases hr : n ∈ rows.map Row.name
    · exact Or.inl hr
    · rcases h with h | h
      · exact Or.inl h
      · exact Or.inr ⟨h, by simpa using hr⟩

theorem ensure_nodup (mk : String → Row) (hmk : ∀ n, (mk n).name = n) (rows : List Row) (names : List String)
    (h1 : (rows.map Row.name).Nodup) (h2 : names.Nodup) : ((ensureNames mk rows names).map Row.name).Nodup := by
  rw [ensure_names mk hmk, List.nodup_append]
  refine ⟨h1, h2.filter _, ?_⟩
  intro a ha b hb hab
  subst hab
  have := (List.mem_filter.mp hb).2
  simp only [decide_eq_true_eq] at this
  exact this ha

theorem get_map_mk (mk : String → Row) (hmk : ∀ n, (mk n).name = n) (l : List String) (n : String) :
    rowOf (l.map mk) n = if n ∈ l then some (mk n) else none := by
  induction l with
  | nil => simp [rowOf]
  | cons a l ih =>
    unfold rowOf at ih ⊢
    simp only [List.map_cons, List.find?_cons, hmk]
    by_cases h : a = n
    · subst h; simp
    · have : (a == n) = false := by simpa using h
      rw [this, ih]
      simp [Ne.symm h]

theorem ensure_get (mk : String → Row) (hmk : ∀ n, (mk n).name = n) (rows : List Row) (names : List String) (n : String) :
    rowOf (ensureNames mk rows names) n = (rowOf rows n).or (if n ∈ names then some (mk n) else none) := by
  unfold ensureNames
  rw [get_append, get_map_mk mk hmk]
  cases hg : rowOf rows n with
  | some r => simp
  | none =>
    have := get_none.mp hg
    simp only [List.mem_filter, this, not_false_eq_true, decide_true, and_true, Option.none_or]

theorem scan_perm (m : Mentions) (rows : List Row) : (scanAll m rows).Perm
    (ensureNames (emptyRow (.fin 1) (.fin 1) (.fin (1 / 1000)) (.fin 1))
      (ensureNames (emptyRow (.fin 0) (.fin 0) .ninf .pinf)
        (ensureNames (emptyRow (.fin 0) (.fin 0) .ninf .pinf) rows m.utility.dedup) m.quantity.dedup) m.logsum.dedup) :=
  List.perm_insertionSort _ _

theorem scan_nodup (m : Mentions) (rows : List Row) (h : (rows.map Row.name).Nodup) :
    ((scanAll m rows).map Row.name).Nodup := by
  rw [((scan_perm m rows).map Row.name).nodup_iff]
  exact ensure_nodup _ (fun _ => rfl) _ _ (ensure_nodup _ (fun _ => rfl) _ _ (ensure_nodup _ (fun _ => rfl) _ _ h
    (List.nodup_dedup _)) (List.nodup_dedup _)) (List.nodup_dedup _)

theorem scan_mem (m : Mentions) (rows : List Row) (n : String) :
    n ∈ (scanAll m rows).map Row.name ↔ n ∈ rows.map Row.name ∨ n ∈ m.utility ∨ n ∈ m.quantity ∨ n ∈ m.logsum := by
  rw [((scan_perm m rows).map Row.name).mem_iff, ensure_mem _ (fun _ => rfl), ensure_mem _ (fun _ => rfl),
    ensure_mem _ (fun _ => rfl)]
  simp only [List.mem_dedup, or_assoc]

theorem scan_get (m : Mentions) (rows : List Row) (h : (rows.map Row.name).Nodup) (n : String) :
    rowOf (scanAll m rows) n = (rowOf rows n).or
      (if n ∈ m.utility ∨ n ∈ m.quantity then some (emptyRow (.fin 0) (.fin 0) .ninf .pinf n)
       else if n ∈ m.logsum then some (emptyRow (.fin 1) (.fin 1) (.fin (1 / 1000)) (.fin 1) n) else none) := by
  rw [get_perm (scan_perm m rows) (scan_nodup m rows h), ensure_get _ (fun _ => rfl), ensure_get _ (fun _ => rfl),
    ensure_get _ (fun _ => rfl)]
  simp only [List.mem_dedup]
  cases rowOf rows n with
  | some r => simp
  | none =>
    by_cases h1 : n ∈ m.utility
    · simp [h1]
    · by_cases h2 : n ∈ m.quantity
      · simp [h1, h2]
      · simp [h1, h2]

/-- **C20 (nothing lost).** Re-scanning keeps every row exactly as it was, under its name. -/
theorem C20_keeps (m : Mentions) (force : Bool) (f : Frame) (hnd : f.names.Nodup) (n : String) (r : Row)
    (h : rowOf f.rows n = some r) : rowOf (unmangle m force f).rows n = some r := by
  have hs : rowOf (scanAll m f.rows) n = some r := by rw [scan_get m f.rows hnd, h]; rfl
  unfold unmangle
  cases force <;> cases hm : f.mangled <;> simp [hm, mangle, clearBest, h, hs]

/-- **C20 (names).** After the scan the frame holds the old names and the mentioned ones, each once (so pandas'
`verify_integrity` never fails), in sorted order. -/
theorem C20_names_unique (m : Mentions) (f : Frame) (hnd : f.names.Nodup) (hm : f.mangled = true) :
    (unmangle m false f).names.Nodup ∧ (unmangle m false f).names.Pairwise (· ≤ ·) ∧
    ∀ n, n ∈ (unmangle m false f).names ↔ n ∈ f.names ∨ n ∈ m.utility ∨ n ∈ m.quantity ∨ n ∈ m.logsum := by
  have e : (unmangle m false f).rows = scanAll m f.rows := by simp [unmangle, hm]
  unfold Frame.names
  rw [e]
  refine ⟨scan_nodup m f.rows hnd, ?_, scan_mem m f.rows⟩
  have : (scanAll m f.rows).Pairwise (fun a b => a.name ≤ b.name) := by
    unfold scanAll
    haveI : Std.Total (fun a b : Row => a.name ≤ b.name) := ⟨fun a b => le_total _ _⟩
    haveI : IsTrans Row (fun a b => a.name ≤ b.name) := ⟨fun a b c h1 h2 => le_trans h1 h2⟩
    exact List.pairwise_insertionSort _ _
  exact List.pairwise_map.mpr this

/-- **C20 (defaults).** A new name gets value, initial and null value 0 without bounds and free; one mentioned only as a logsum
parameter gets 1 with bounds 0.001 and 1. -/
theorem C20_defaults (m : Mentions) (f : Frame) (hnd : f.names.Nodup) (hm : f.mangled = true) (n : String)
    (hn : n ∉ f.names) :
    rowOf (unmangle m false f).rows n =
      if n ∈ m.utility ∨ n ∈ m.quantity then some ⟨n, .fin 0, .fin 0, .fin 0, .ninf, .pinf, some 0, .nan⟩
      else if n ∈ m.logsum then some ⟨n, .fin 1, .fin 1, .fin 1, .fin (1 / 1000), .fin 1, some 0, .nan⟩
      else none := by
  have e : (unmangle m false f).rows = scanAll m f.rows := by simp [unmangle, hm]
  rw [e, scan_get m f.rows hnd, get_none.mpr hn]
  rfl

theorem ensure_noop (mk : String → Row) (rows : List Row) (names : List String) (h : ∀ n ∈ names, n ∈ rows.map Row.name) :
    ensureNames mk rows names = rows := by
  unfold ensureNames
  have : names.filter (fun n => n ∉ rows.map Row.name) = [] := by
    rw [List.filter_eq_nil_iff]
    intro n hn
    simpa using h n hn
  rw [this]; simp

theorem scan_idem (m : Mentions) (rows : List Row) : scanAll m (scanAll m rows) = scanAll m rows := by
  have hs : (scanAll m rows).Pairwise (fun a b => a.name ≤ b.name) := by
    unfold scanAll
    haveI : Std.Total (fun a b : Row => a.name ≤ b.name) := ⟨fun a b => le_total _ _⟩
    haveI : IsTrans Row (fun a b => a.name ≤ b.name) := ⟨fun a b c h1 h2 => le_trans h1 h2⟩
    exact List.pairwise_insertionSort _ _
  have hmem := scan_mem m rows
  have e : ∀ rows, scanAll m rows = (ensureNames (emptyRow (.fin 1) (.fin 1) (.fin (1 / 1000)) (.fin 1))
      (ensureNames (emptyRow (.fin 0) (.fin 0) .ninf .pinf)
        (ensureNames (emptyRow (.fin 0) (.fin 0) .ninf .pinf) rows m.utility.dedup) m.quantity.dedup)
          m.logsum.dedup).insertionSort (fun a b => a.name ≤ b.name) := fun _ => rfl
  rw [e (scanAll m rows), ensure_noop _ (scanAll m rows) m.utility.dedup (fun n hn => (hmem n).mpr (by simp at hn; tauto)),
    ensure_noop _ (scanAll m rows) m.quantity.dedup (fun n hn => (hmem n).mpr (by simp at hn; tauto)),
    ensure_noop _ (scanAll m rows) m.logsum.dedup (fun n hn => (hmem n).mpr (by simp at hn; tauto))]
  exact hs.insertionSort_eq

/-- **C20 (idempotent).** Scanning again changes nothing. -/
theorem C20_idempotent (m : Mentions) (f : Frame) :
    unmangle m false (unmangle m false f) = unmangle m false f ∧
    unmangle m true (unmangle m true f) = unmangle m true f ∧
    (unmangle m false (mangle (unmangle m false (mangle f)))).rows = (unmangle m false (mangle f)).rows := by
  refine ⟨?_, ?_, ?_⟩
  · unfold unmangle
    cases hm : f.mangled <;> simp [hm]
  · simp [unmangle, mangle, clearBest, scan_idem]
  · simp [unmangle, mangle, clearBest, scan_idem]

/-- A concrete scan: `b` keeps its settings, `a` is new, `mu` gets logsum defaults. -/
example : (unmangle ⟨["b", "a"], [], ["mu"]⟩ false
    ⟨[⟨"b", .fin 3, .fin 2, .fin 0, .ninf, .pinf, some 1, .nan⟩], false, true, .ninf, .fin 0⟩).names = ["a", "b", "mu"] := by
  simp [unmangle, scanAll, ensureNames, emptyRow, Frame.names, List.insertionSort, List.orderedInsert,
    show ("b" : String) ≤ "mu" by decide, show ¬ ("mu" : String) ≤ "a" by decide, show ("a" : String) ≤ "mu" by decide,
    show ¬ ("b" : String) ≤ "a" by decide, show ("a" : String) ≤ "b" by decide]

/-! ## C18: set_values -/

theorem setNamed_fold (kwargs : List (String × X)) : ∀ rows : List Row,
    kwargs.foldl setNamed rows = rows.map (fun r => kwargs.foldl
      (fun r kv => if r.name = kv.1 ∧ r.free then { r with value := kv.2 } else r) r) := by
  induction kwargs with
  | nil => intro rows; simp
  | cons kv l ih =>
    intro rows
    rw [List.foldl_cons, ih]
    simp only [setNamed, List.map_map, Function.comp_def, List.foldl_cons]

theorem named_row (kwargs : List (String × X)) : ∀ (r : Row), (kwargs.map Prod.fst).Nodup →
    kwargs.foldl (fun r kv => if r.name = kv.1 ∧ r.free then { r with value := kv.2 } else r) r =
      if r.free then { r with value := (kwargs.lookup r.name).getD r.value } else r := by
  induction kwargs with
  | nil => intro r _; simp
  | cons kv l ih =>
    intro r h
    obtain ⟨k, v⟩ := kv
    simp only [List.map_cons, List.nodup_cons] at h
    rw [List.foldl_cons]
    by_cases hf : r.free = true
    · by_cases hk : r.name = k
      · have hnone : l.lookup k = none := by
          rw [List.lookup_eq_none_iff]
          intro p hp
          rw [bne_iff_ne]
          intro he
          exact h.1 (by rw [he]; exact List.mem_map_of_mem hp)
        rw [if_pos ⟨hk, hf⟩, ih _ h.2]
        have hf' : ({ r with value := v } : Row).free = true := hf
        simp [hf, hf', hk, hnone]
      · rw [if_neg (by tauto), ih r h.2, if_pos hf, if_pos hf]
        have : (r.name == k) = false := by simpa using hk
        rw [List.lookup_cons, this]
    · rw [if_neg (by tauto), ih r h.2, if_neg hf, if_neg hf]

theorem named_held (kwargs : List (String × X)) : ∀ (r : Row), r.free = false →
    kwargs.foldl (fun r kv => if r.name = kv.1 ∧ r.free then { r with value := kv.2 } else r) r = r := by
  induction kwargs with
  | nil => intro r _; rfl
  | cons kv l ih =>
    intro r h
    rw [List.foldl_cons, if_neg (by simp [h])]
    exact ih r h

theorem named_name (kwargs : List (String × X)) : ∀ (r : Row),
    (kwargs.foldl (fun r kv => if r.name = kv.1 ∧ r.free then { r with value := kv.2 } else r) r).name = r.name := by
  induction kwargs with
  | nil => intro r; rfl
  | cons kv l ih =>
    intro r
    rw [List.foldl_cons, ih]
    split <;> rfl

theorem setKwargs_held (m : Mentions) (f : Frame) (kw : List (String × X)) (hnd : f.names.Nodup) (n : String) (r : Row)
    (h : rowOf f.rows n = some r) (hh : r.free = false) : rowOf (setKwargs m f kw).rows n = some r := by
  unfold setKwargs
  split
  · exact h
  · simp only
    rw [setNamed_fold, get_map _ (named_name kw)]
    have : rowOf (if f.mangled then scanAll m f.rows else f.rows) n = some r := by
      split
      · rw [scan_get m f.rows hnd, h]; rfl
      · exact h
    rw [this, Option.map_some, named_held kw r hh]

theorem zip_fst_names (rows : List Row) (vs : List X) (c : Row → Bool) (hl : vs.length = rows.length) :
    ((rows.zip vs).map (fun p => if c p.1 then ({ p.1 with value := p.2 } : Row) else p.1)).map Row.name =
      rows.map Row.name := by
  induction rows generalizing vs with
  | nil => simp
  | cons a l ih =>
    cases vs with
    | nil => simp at hl
    | cons v vs =>
      simp only [List.zip_cons_cons, List.map_cons]
      rw [ih vs (by simpa using hl)]
      congr 1
      split <;> rfl

theorem setArray_names (respect : Bool) (f : Frame) (vs : List X) : (setArray respect f vs).1.names = f.names := by
  unfold setArray
  split
  · rfl
  · split
    · rfl
    · next h _ => exact zip_fst_names f.rows vs (fun r => r.free || !respect) (by simpa using h)

theorem zip_held (rows : List Row) (vs : List X) (hl : vs.length = rows.length) (r : Row) (h : r ∈ rows)
    (hh : r.free = false) : r ∈ (rows.zip vs).map (fun p => if p.1.free || !true then ({ p.1 with value := p.2 } : Row) else p.1) := by
  induction rows generalizing vs with
  | nil => simp at h
  | cons a l ih =>
    cases vs with
    | nil => simp at hl
    | cons v vs =>
      simp only [List.zip_cons_cons, List.map_cons]
      rcases List.mem_cons.mp h with rfl | h
      · simp [hh]
      · exact List.mem_cons_of_mem _ (ih vs (by simpa using hl) h)

theorem setArray_held (f : Frame) (vs : List X) (hnd : f.names.Nodup) (n : String) (r : Row)
    (h : rowOf f.rows n = some r) (hh : r.free = false) : rowOf (setArray true f vs).1.rows n = some r := by
  have hn := setArray_names true f vs
  have hnd' : ((setArray true f vs).1.rows.map Row.name).Nodup := by
    have : (setArray true f vs).1.names.Nodup := by rw [hn]; exact hnd
    exact this
  rw [get_iff hnd']
  refine ⟨?_, get_name h⟩
  unfold setArray
  split
  · exact get_mem h
  · split
    · exact get_mem h
    · next h1 _ => exact zip_held f.rows vs (by simpa using h1) r (get_mem h) hh

theorem setArray_mangled (respect : Bool) (f : Frame) (vs : List X) : (setArray respect f vs).1.mangled = f.mangled := by
  unfold setArray
  split
  · rfl
  · split <;> rfl

/-- **C18 (held-fast parameters).** Whatever is passed to `set_values` (array, scalar, mapping, keyword `'null'`… and keyword
arguments), the row of a parameter whose holdfast is not 0 is left exactly as it was. -/
theorem C18_holdfast (m : Mentions) (f : Frame) (a : Arg) (kw : List (String × X)) (hnd : f.names.Nodup) (n : String)
    (r : Row) (h : rowOf f.rows n = some r) (hh : r.holdfast ≠ some 0) :
    rowOf (setValues m f a true kw).1.rows n = some r := by
  have hfree : r.free = false := by simpa [Row.free] using hh
  have harr : ∀ vs, rowOf (match setArray true f vs with
      | (f1, some e) => (f1, some e)
      | (f1, none) => (setKwargs m f1 kw, (none : Option String))).1.rows n = some r := by
    intro vs
    have h1 := setArray_held f vs hnd n r h hfree
    have h2 := setArray_names true f vs
    split
    · next f1 e he => rw [he] at h1; exact h1
    · next f1 he =>
      rw [he] at h1 h2
      exact setKwargs_held m f1 kw (by rw [h2]; exact hnd) n r h1 hfree
  unfold setValues
  cases a with
  | none => exact setKwargs_held m f kw hnd n r h hfree
  | dict d => exact setKwargs_held m f _ hnd n r h hfree
  | scalar x =>
    refine setKwargs_held m (setScalar true f x) kw ?_ n r ?_ hfree
    · have : (setScalar true f x).names = f.names := by
        simp only [setScalar, Frame.names, List.map_map, Function.comp_def]
        apply List.map_congr_left
        intro r _
        split <;> rfl
      rw [this]; exact hnd
    · simp only [setScalar]
      rw [get_map _ (fun r => by split <;> rfl), h]
      simp [hfree]
  | arr vs => exact harr vs
  | key s =>
    simp only
    split
    · exact h
    · next vs _ => exact harr vs

/-- **C18 (array).** An array of the right length without NaN for the parameters to be set gives every free parameter its own
entry (all parameters if holdfast is not respected) and changes nothing else. -/
theorem C18_array (m : Mentions) (f : Frame) (vs : List X) (respect : Bool) (hl : vs.length = f.rows.length)
    (hn : ∀ (i : Nat) (r : Row) (v : X), f.rows[i]? = some r → vs[i]? = some v → (r.holdfast = some 0 ∨ respect = false) →
      v ≠ .nan) :
    (setValues m f (.arr vs) respect []).2 = none ∧
    (setValues m f (.arr vs) respect []).1.rows.length = f.rows.length ∧
    ∀ (i : Nat) (r : Row) (v : X), f.rows[i]? = some r → vs[i]? = some v →
      (setValues m f (.arr vs) respect []).1.rows[i]? =
        some (if r.holdfast = some 0 ∨ respect = false then { r with value := v } else r) := by
  have hany : (f.rows.zip vs).any (fun p => (p.1.free || !respect) && p.2.isNaN) = false := by
    rw [List.any_eq_false]
    rintro ⟨r, v⟩ hp
    obtain ⟨i, hi⟩ := List.getElem?_of_mem hp
    rw [List.getElem?_zip_eq_some] at hi
    simp only [Bool.and_eq_true, Bool.or_eq_true, Bool.not_eq_true', not_and]
    intro hc hv
    have hvn : v = .nan := by cases v <;> simp [X.isNaN] at hv ⊢
    exact hn i r v hi.1 hi.2 (by simpa [Row.free] using hc) hvn
  have e : setValues m f (.arr vs) respect [] = ({ f with rows := ((f.rows.zip vs).map
        (fun p => if p.1.free || !respect then { p.1 with value := p.2 } else p.1)) }, none) := by
    simp [setValues, setArray, hl, hany, setKwargs]
  rw [e]
  refine ⟨rfl, by simp [hl], ?_⟩
  intro i r v hr hv
  simp only [List.getElem?_map]
  rw [(List.getElem?_zip_eq_some (z := (r, v))).mpr ⟨hr, hv⟩]
  simp [Row.free]

/-- **C18 (wrong length, NaN).** A wrong-length array, or NaN for a parameter to be set, raises and changes nothing. -/
theorem C18_rejects (m : Mentions) (f : Frame) (vs : List X) (respect : Bool) (kw : List (String × X)) :
    (vs.length ≠ f.rows.length → setValues m f (.arr vs) respect kw = (f, some "ValueError: wrong length")) ∧
    (∀ (i : Nat) (r : Row), vs.length = f.rows.length → f.rows[i]? = some r → vs[i]? = some .nan →
      (r.holdfast = some 0 ∨ respect = false) → setValues m f (.arr vs) respect kw = (f, some "ValueError: NaN")) := by
  constructor
  · intro h; simp [setValues, setArray, h]
  · intro i r hl hr hv hc
    have hany : (f.rows.zip vs).any (fun p => (p.1.free || !respect) && p.2.isNaN) = true := by
      rw [List.any_eq_true]
      refine ⟨(r, .nan), List.mem_of_getElem? (List.getElem?_zip_eq_some.mpr ⟨hr, hv⟩), ?_⟩
      simpa [X.isNaN, Row.free] using hc
    simp [setValues, setArray, hl, hany]

/-- **C18 (keywords).** With keyword arguments (a mapping has distinct keys) on an unmangled frame, exactly the free parameters
named rowOf their value; the parameter list stays, unknown names are ignored. -/
theorem C18_keywords (m : Mentions) (f : Frame) (kw : List (String × X)) (respect : Bool) (hm : f.mangled = false)
    (hk : (kw.map Prod.fst).Nodup) :
    setValues m f .none respect kw = ({ f with rows := f.rows.map (fun r =>
      if r.holdfast = some 0 then { r with value := (kw.lookup r.name).getD r.value } else r) }, none) := by
  unfold setValues setKwargs
  by_cases h : kw = []
  · subst h
    simp
  · simp only [h, if_false, hm, Bool.false_eq_true]
    rw [setNamed_fold]
    congr 2
    apply List.map_congr_left
    intro r _
    rw [named_row kw r hk]
    simp [Row.free]

theorem lookup_dictSet (d : List (String × X)) (k : String) (v : X) (n : String) :
    (dictSet d k v).lookup n = if n = k then some v else d.lookup n := by
  unfold dictSet
  split
  · next h =>
    induction d with
    | nil => simp at h
    | cons p d ih =>
      obtain ⟨a, b⟩ := p
      simp only [List.map_cons]
      by_cases hak : a = k
      · subst hak
        simp only [if_true, List.lookup_cons]
        by_cases hn : n = a
        · subst hn; simp
        · have : (n == a) = false := by simpa using hn
          simp only [this, hn, if_false]
          have e : ∀ d : List (String × X), (d.map (fun p => if p.1 = a then (a, v) else p)).lookup n = d.lookup n := by
            intro d
            induction d with
            | nil => rfl
            | cons q d ih =>
              obtain ⟨x, y⟩ := q
              simp only [List.map_cons]
              by_cases hx : x = a
              · subst hx; simp only [if_true, List.lookup_cons, this, ih]
              · simp only [hx, if_false, List.lookup_cons, ih]
          exact e d
      · simp only [hak, if_false, List.lookup_cons]
        have hmem : k ∈ d.map Prod.fst := by
          simp only [List.map_cons, List.mem_cons] at h
          rcases h with h | h
          · exact absurd h.symm hak
          · exact h
        by_cases hna : n = a
        · subst hna; simp [hak]
        · have : (n == a) = false := by simpa using hna
          simp only [this]
          exact ih hmem
  · next h =>
    rw [List.lookup_append]
    by_cases hn : n = k
    · subst hn
      have : d.lookup n = none := by
        rw [List.lookup_eq_none_iff]
        intro p hp
        rw [bne_iff_ne]
        intro he
        exact h (by rw [he]; exact List.mem_map_of_mem hp)
      simp [this]
    · have : (n == k) = false := by simpa using hn
      simp [List.lookup_cons, this, hn]

theorem dictSet_nodup (d : List (String × X)) (k : String) (v : X) (h : (d.map Prod.fst).Nodup) :
    ((dictSet d k v).map Prod.fst).Nodup := by
  unfold dictSet
  split
  · have : (d.map (fun p => if p.1 = k then (k, v) else p)).map Prod.fst = d.map Prod.fst := by
      rw [List.map_map]
      apply List.map_congr_left
      intro p _
      simp only [Function.comp]
      split
      · next he => exact he.symm
      · rfl
    rw [this]; exact h
  · next hk =>
    rw [List.map_append, List.nodup_append]
    refine ⟨h, by simp, ?_⟩
    intro a ha b hb hab
    simp at hb
    subst hab hb
    exact hk ha

theorem update_spec (d : List (String × X)) : ∀ kw : List (String × X), (kw.map Prod.fst).Nodup → (d.map Prod.fst).Nodup →
    ((d.foldl (fun acc p => dictSet acc p.1 p.2) kw).map Prod.fst).Nodup ∧
    ∀ n, (d.foldl (fun acc p => dictSet acc p.1 p.2) kw).lookup n = (d.lookup n).or (kw.lookup n) := by
  induction d with
  | nil => intro kw h _; exact ⟨h, fun n => by simp⟩
  | cons p d ih =>
    intro kw h hd
    obtain ⟨k, v⟩ := p
    simp only [List.map_cons, List.nodup_cons] at hd
    obtain ⟨i1, i2⟩ := ih (dictSet kw k v) (dictSet_nodup kw k v h) hd.2
    refine ⟨i1, fun n => ?_⟩
    rw [List.foldl_cons, i2, lookup_dictSet, List.lookup_cons]
    by_cases hn : n = k
    · subst hn
      have : d.lookup n = none := by
        rw [List.lookup_eq_none_iff]
        intro p hp
        rw [bne_iff_ne]
        intro he
        exact hd.1 (by rw [he]; exact List.mem_map_of_mem hp)
      simp [this]
    · have : (n == k) = false := by simpa using hn
      simp [this, hn]

/-- **C18 (mapping).** A mapping argument behaves like keyword arguments, and takes precedence over them. -/
theorem C18_mapping (m : Mentions) (f : Frame) (d kw : List (String × X)) (respect : Bool) (hm : f.mangled = false)
    (hd : (d.map Prod.fst).Nodup) (hk : (kw.map Prod.fst).Nodup) :
    setValues m f (.dict d) respect kw = ({ f with rows := f.rows.map (fun r =>
      if r.holdfast = some 0 then { r with value := ((d.lookup r.name).or (kw.lookup r.name)).getD r.value } else r) },
      none) := by
  obtain ⟨h1, h2⟩ := update_spec d kw hk hd
  have := C18_keywords m f (d.foldl (fun acc p => dictSet acc p.1 p.2) kw) respect hm h1
  unfold setValues at this ⊢
  simp only at this ⊢
  rw [this]
  simp only [h2]

/-- **C18 (scalar).** -/
theorem C18_scalar (m : Mentions) (f : Frame) (x : X) (respect : Bool) :
    setValues m f (.scalar x) respect [] = ({ f with rows := f.rows.map (fun r =>
      if r.holdfast = some 0 ∨ respect = false then { r with value := x } else r) }, none) := by
  simp [setValues, setKwargs, setScalar, Row.free]

/-- **C18 (`'null'`, `'init'`, `'best'`).** The named columns are loaded into the free parameters. -/
theorem C18_null (m : Mentions) (f : Frame) (hn : ∀ r ∈ f.rows, r.holdfast = some 0 → r.null ≠ .nan) :
    setValues m f (.key .null) true [] = ({ f with rows := f.rows.map (fun r =>
      if r.holdfast = some 0 then { r with value := r.null } else r) }, none) := by
  have hz : f.rows.zip (f.rows.map Row.null) = f.rows.map (fun r => (r, r.null)) := by
    generalize f.rows = l
    induction l with
    | nil => rfl
    | cons a l ih => simp [ih]
  have hany : (f.rows.zip (f.rows.map Row.null)).any (fun p => (p.1.free || !true) && p.2.isNaN) = false := by
    rw [hz, List.any_map, List.any_eq_false]
    intro r hr
    simp only [Function.comp, Bool.not_true, Bool.or_false, Bool.and_eq_true, not_and]
    intro hc hv
    exact hn r hr (by simpa [Row.free] using hc) (by cases h : r.null <;> simp [h, X.isNaN] at hv ⊢)
  have hk : resolveKey f .null = .ok (f.rows.map Row.null) := rfl
  simp only [setValues, hk, setArray, List.length_map, ne_eq, not_true_eq_false, if_false, hany, Bool.false_eq_true,
    setKwargs, if_true]
  rw [hz, List.map_map]
  simp [Function.comp_def, Row.free]

/-- Asking for `'best'` when none is stored raises and changes nothing. -/
theorem C18_best_missing (m : Mentions) (f : Frame) (kw : List (String × X)) (h : f.hasBest = false) :
    setValues m f (.key .best) true kw = (f, some "ValueError: best is not stored") := by
  simp [setValues, resolveKey, h]

/-- Two parameters, `a` free and `b` held at 5, used in the examples. -/
noncomputable def demoFrame : Frame :=
  ⟨[⟨"a", .fin 0, .fin 0, .fin 0, .ninf, .pinf, some 0, .nan⟩, ⟨"b", .fin 5, .fin 0, .fin 0, .ninf, .pinf, some 1, .nan⟩],
    false, false, .ninf, .fin 0⟩

/-- The array `[1, NaN]` is accepted, since `b` is held. -/
example : (setValues ⟨[], [], []⟩ demoFrame (.arr [.fin 1, .nan]) true []).2 = none :=
  (C18_array ⟨[], [], []⟩ demoFrame [.fin 1, .nan] true rfl (by
      intro i r v h1 h2 h3
      match i with
      | 0 => simp at h2; subst h2; simp
      | 1 => simp [demoFrame] at h1; subst h1; simp at h3
      | i + 2 => simp [demoFrame] at h1)).1

/-- **C18 violated (NaN scalar).** The NaN check only guards arrays: a NaN scalar (or keyword value) is stored. -/
theorem C18_fails_nan_scalar (m : Mentions) (f : Frame) (r : Row) (i : Nat) (h : f.rows[i]? = some r)
    (hf : r.holdfast = some 0) :
    (setValues m f (.scalar .nan) true []).2 = none ∧
    (setValues m f (.scalar .nan) true []).1.rows[i]? = some { r with value := .nan } := by
  rw [C18_scalar]
  simp [h, hf]

/-- **C18 violated (mapping with `respect_holdfast=False`).** The flag has no effect on mappings and keyword arguments. -/
theorem C18_fails_flag_ignored (m : Mentions) (f : Frame) (kw : List (String × X)) :
    setValues m f .none false kw = setValues m f .none true kw := rfl

end Larch.Props
