import Verif.Model.Persist
import Verif.Props.ParamsStats
import Verif.Props.GraphRoot

/-!
# C92: removing unused parameters; C93: saving, copying and cloning models
-/

namespace Larch.Props

open Larch.Params Larch.Graph Larch.Persist

/-! ## C92 -/

/-- Specification: the specification of the model mentions the name. -/
def Used (m : Mentions) (n : String) : Prop := n ∈ m.utility ∨ n ∈ m.quantity ∨ n ∈ m.logsum

/-- Specification: no setting of the parameter is missing. -/
def FullRow (r : Row) : Prop :=
  r.value ≠ .nan ∧ r.init ≠ .nan ∧ r.null ≠ .nan ∧ r.min ≠ .nan ∧ r.max ≠ .nan ∧ r.holdfast ≠ none

theorem force_rows (m : Mentions) (f : Frame) : (unmangle m true f).rows = scanAll m f.rows := by
  simp [unmangle, mangle, clearBest]

theorem over_num {a b : X} (h : a ≠ .nan) : over a b = a := by
  unfold over; rw [isNaN_false h]; rfl

theorem overlay_full {o r : Row} (h : FullRow o) : overlay o r = { o with name := r.name, best := r.best } := by
  obtain ⟨h1, h2, h3, h4, h5, h6⟩ := h
  unfold overlay
  rw [over_num h1, over_num h2, over_num h3, over_num h4, over_num h5]
  cases hh : o.holdfast with
  | none => exact absurd hh h6
  | some k => rfl

theorem empty_full {a b c d : X} (ha : a ≠ .nan) (hb : b ≠ .nan) (hc : c ≠ .nan) (hd : d ≠ .nan) (n : String) :
    FullRow (emptyRow a b c d n) := ⟨hb, hb, ha, hc, hd, by simp [emptyRow]⟩

theorem scan_empty_best (m : Mentions) (n : String) (r : Row) (h : rowOf (scanAll m []) n = some r) : r.best = .nan ∧ FullRow r := by
  rw [scan_get m [] (by simp)] at h
  simp only [rowOf, List.find?_nil, Option.none_or] at h
  split at h
  · cases h; exact ⟨rfl, empty_full (by simp) (by simp) (by simp) (by simp) n⟩
  · split at h
    · cases h; exact ⟨rfl, empty_full (by simp) (by simp) (by simp) (by simp) n⟩
    · cases h

theorem removeUnused_rows (m : Mentions) (f : Frame) :
    (removeUnused m f).rows = (scanAll m []).map (fun r => match rowOf (scanAll m f.rows) r.name with
      | none => r
      | some o => overlay o r) := by
  unfold removeUnused
  simp only [force_rows]
  rfl

theorem removeUnused_fn_name (m : Mentions) (f : Frame) (r : Row) : (match rowOf (scanAll m f.rows) r.name with
      | none => r
      | some o => overlay o r).name = r.name := by
  split <;> rfl

/-- **C92 (which parameters).** After `remove_unused_parameters` the frame holds exactly the names the specification mentions, each
once. -/
theorem C92_names (m : Mentions) (f : Frame) :
    (removeUnused m f).names.Nodup ∧ ∀ n, n ∈ (removeUnused m f).names ↔ Used m n := by
  have e : (removeUnused m f).names = (scanAll m []).map Row.name := by
    unfold Frame.names
    rw [removeUnused_rows, List.map_map]
    refine List.map_congr_left ?_
    intro r _
    exact removeUnused_fn_name m f r
  rw [e]
  refine ⟨scan_nodup m [] (by simp), fun n => ?_⟩
  rw [scan_mem]
  simp [Used]

theorem removeUnused_get (m : Mentions) (f : Frame) (n : String) :
    rowOf (removeUnused m f).rows n = (rowOf (scanAll m []) n).map (fun r => match rowOf (scanAll m f.rows) r.name with
      | none => r
      | some o => overlay o r) := by
  rw [removeUnused_rows, get_map _ (removeUnused_fn_name m f)]

theorem used_get (m : Mentions) (n : String) (hu : Used m n) : ∃ r, rowOf (scanAll m []) n = some r ∧ r.name = n := by
  have : n ∈ (scanAll m []).map Row.name := by
    rw [scan_mem]; exact Or.inr hu
  obtain ⟨r, hr⟩ := get_isSome this
  exact ⟨r, hr, get_name hr⟩

/-- **C92 (settings kept).** Every parameter that is used, whatever its settings, keeps all of them (value, initial and null value,
bounds, held fast or not). -/
theorem C92_kept (m : Mentions) (f : Frame) (hnd : f.names.Nodup) (n : String) (o : Row) (ho : rowOf f.rows n = some o)
    (hu : Used m n) (hf : FullRow o) : rowOf (removeUnused m f).rows n = some { o with best := .nan } := by
  obtain ⟨r, hr, hn⟩ := used_get m n hu
  have hs : rowOf (scanAll m f.rows) r.name = some o := by
    rw [hn, scan_get m f.rows hnd, ho]; rfl
  have hon : o.name = n := get_name ho
  rw [removeUnused_get, hr]
  simp only [Option.map_some, hs]
  rw [overlay_full hf, (scan_empty_best m n r hr).1, hn, ← hon]

/-- **C92 (new names).** A used name that had no row gets the default settings. -/
theorem C92_new (m : Mentions) (f : Frame) (hnd : f.names.Nodup) (n : String) (hn : n ∉ f.names) :
    rowOf (removeUnused m f).rows n =
      if n ∈ m.utility ∨ n ∈ m.quantity then some ⟨n, .fin 0, .fin 0, .fin 0, .ninf, .pinf, some 0, .nan⟩
      else if n ∈ m.logsum then some ⟨n, .fin 1, .fin 1, .fin 1, .fin (1 / 1000), .fin 1, some 0, .nan⟩
      else none := by
  have h1 : rowOf (scanAll m f.rows) n = rowOf (scanAll m []) n := by
    rw [scan_get m f.rows hnd, scan_get m [] (by simp), get_none.mpr hn]; rfl
  have h2 : rowOf (scanAll m []) n = if n ∈ m.utility ∨ n ∈ m.quantity then some (emptyRow (.fin 0) (.fin 0) .ninf .pinf n)
       else if n ∈ m.logsum then some (emptyRow (.fin 1) (.fin 1) (.fin (1 / 1000)) (.fin 1) n) else none := by
    rw [scan_get m [] (by simp)]; rfl
  rw [removeUnused_get]
  change _ = if n ∈ m.utility ∨ n ∈ m.quantity then some (emptyRow (.fin 0) (.fin 0) .ninf .pinf n)
       else if n ∈ m.logsum then some (emptyRow (.fin 1) (.fin 1) (.fin (1 / 1000)) (.fin 1) n) else none
  rw [← h2]
  cases hr : rowOf (scanAll m []) n with
  | none => rfl
  | some r =>
    have hrn := get_name hr
    simp only [Option.map_some, hrn, h1, hr]
    rw [overlay_full (scan_empty_best m n r hr).2]

/-- Specification: the log likelihood depends on the values of the used parameters only. -/
def OnlyUsed (m : Mentions) (L : List (String × X) → Except String X) : Prop :=
  ∀ v w : List (String × X), (∀ n, Used m n → v.lookup n = w.lookup n) → L v = L w

theorem values_lookup (f : Frame) (n : String) : f.values.lookup n = (rowOf f.rows n).map Row.value := by
  unfold Frame.values rowOf
  induction f.rows with
  | nil => rfl
  | cons r l ih =>
    rw [List.map_cons, List.lookup_cons, List.find?_cons]
    by_cases h : n = r.name
    · subst h; simp
    · have h1 : (n == r.name) = false := by simpa using h
      have h2 : (r.name == n) = false := by simpa using fun e => h e.symm
      rw [h1, h2, ih]

/-- **C92 (the model computes the same).** Removing unused parameters does not change the log likelihood. -/
theorem C92_loglike (m : Mentions) (f : Frame) (hnd : f.names.Nodup) (hf : ∀ r ∈ f.rows, FullRow r) (hm : f.mangled = true)
    (L : List (String × X) → Except String X) (hL : OnlyUsed m L) :
    (loglike m L (removeUnused m f)).2 = (loglike m L f).2 := by
  have hun : (removeUnused m f).mangled = false := by
    unfold removeUnused; simp [unmangle, mangle, clearBest]
  have key : L (removeUnused m f).values = L (unmangle m false f).values := by
    refine hL _ _ ?_
    intro n hu
    rw [values_lookup, values_lookup]
    have e : (unmangle m false f).rows = scanAll m f.rows := by simp [unmangle, hm]
    by_cases hn : n ∈ f.names
    · obtain ⟨o, ho⟩ := get_isSome hn
      rw [C92_kept m f hnd n o ho hu (hf o (get_mem ho)), e, scan_get m f.rows hnd, ho]
      rfl
    · rw [C92_new m f hnd n hn, C20_defaults m f hnd hm n hn]
  unfold loglike
  simp only
  rw [unmangle_noop m _ hun, key]
  cases L (unmangle m false f).values <;> rfl

/-- **C92 (again).** A second call changes nothing. -/
theorem C92_again (m : Mentions) (f : Frame) (hnd : f.names.Nodup) (hf : ∀ r ∈ f.rows, FullRow r) (n : String) :
    rowOf (removeUnused m (removeUnused m f)).rows n = rowOf (removeUnused m f).rows n := by
  obtain ⟨h1, h2⟩ := C92_names m f
  by_cases hu : Used m n
  · obtain ⟨r, hr⟩ := get_isSome ((h2 n).mpr hu)
    have hr2 := hr
    have hfull : FullRow r ∧ r.best = .nan := by
      by_cases hn : n ∈ f.names
      · obtain ⟨o, ho⟩ := get_isSome hn
        rw [C92_kept m f hnd n o ho hu (hf o (get_mem ho))] at hr2
        cases hr2
        exact ⟨hf o (get_mem ho), rfl⟩
      · rw [C92_new m f hnd n hn] at hr2
        split at hr2
        · cases hr2; exact ⟨⟨by simp, by simp, by simp, by simp, by simp, by simp⟩, rfl⟩
        · split at hr2
          · cases hr2; exact ⟨⟨by simp, by simp, by simp, by simp, by simp, by simp⟩, rfl⟩
          · cases hr2
    rw [C92_kept m _ h1 n r hr hu hfull.1, hr]
    obtain ⟨_, hb⟩ := hfull
    cases r
    simp_all
  · rw [get_none.mpr (fun h => hu (((C92_names m _).2 n).mp h)), get_none.mpr (fun h => hu ((h2 n).mp h))]

/-- A frame with a used, an unused and a held-fast parameter meets the hypotheses. -/
def unusedDemo : Frame :=
  ⟨[⟨"a", .fin 7, .fin 0, .fin 0, .ninf, .pinf, some 0, .nan⟩, ⟨"b", .fin 2, .fin 1, .fin 0, .fin (-5), .fin 5, some 1, .nan⟩,
    ⟨"c", .fin 3, .fin 0, .fin 0, .ninf, .pinf, some 0, .nan⟩], false, true, .ninf, .fin 0⟩

example : unusedDemo.names.Nodup ∧ (∀ r ∈ unusedDemo.rows, FullRow r) ∧ unusedDemo.mangled = true ∧
    Used ⟨["b", "c"], [], []⟩ "b" ∧ ¬ Used ⟨["b", "c"], [], []⟩ "a" := by
  refine ⟨by simp [unusedDemo, Frame.names], ?_, rfl, by simp [Used], by simp [Used]⟩
  intro r hr
  simp only [unusedDemo, List.mem_cons, List.not_mem_nil, or_false] at hr
  rcases hr with rfl | rfl | rfl <;> simp [FullRow]

open Classical in
example (m : Mentions) (n : String) : OnlyUsed m (fun v => if Used m n then .ok ((v.lookup n).getD .nan) else .ok (.fin 0)) := by
  intro v w h
  by_cases hu : Used m n
  · simp [hu, h n hu]
  · simp [hu]

/-- **C92 violated (constraints).** Constraints keep the positions they were linked with: after the removal of unused parameters a
constraint on `c` acts on a position that no longer exists, although `c` is still a parameter of the model. -/
theorem C92_fails_constraints : linkPos unusedDemo "c" = 2 ∧ (removeUnused ⟨["b", "c"], [], []⟩ unusedDemo).names.length = 2 ∧
    "c" ∈ (removeUnused ⟨["b", "c"], [], []⟩ unusedDemo).names := by
  obtain ⟨h1, h2⟩ := C92_names ⟨["b", "c"], [], []⟩ unusedDemo
  refine ⟨by decide +kernel, ?_, (h2 "c").mpr (by simp [Used])⟩
  have : (removeUnused ⟨["b", "c"], [], []⟩ unusedDemo).names.Perm ["b", "c"] := by
    rw [List.perm_ext_iff_of_nodup h1 (by simp)]
    intro n; rw [h2]; simp [Used]
  simpa using this.length_eq

/-- **C92 violated (missing settings).** A parameter whose value is missing (NaN) is silently given the default value. -/
theorem C92_fails_missing (n : String) (i z lo hi : X) (k : Int) :
    ∃ r, rowOf (removeUnused ⟨[n], [], []⟩ ⟨[⟨n, .nan, i, z, lo, hi, some k, .nan⟩], false, true, .ninf, .fin 0⟩).rows n = some r ∧
      r.value = .fin 0 := by
  have h1 : rowOf (scanAll ⟨[n], [], []⟩ []) n = some (emptyRow (.fin 0) (.fin 0) .ninf .pinf n) := by
    rw [scan_get _ [] (by simp)]; simp [rowOf]
  have h2 : rowOf (scanAll ⟨[n], [], []⟩ [⟨n, .nan, i, z, lo, hi, some k, .nan⟩]) n =
      some ⟨n, .nan, i, z, lo, hi, some k, .nan⟩ := by
    rw [scan_get _ _ (by simp)]; simp [rowOf]
  rw [removeUnused_get, h1]
  simp only [Option.map_some, emptyRow, h2]
  exact ⟨_, rfl, by simp [overlay, over, X.isNaN]⟩

/-! ## C93 -/

variable {S C D : Type}

/-- Specification: what a model computes is determined by its specification, nesting structure and parameter settings (and, for
numba, by the penalty settings and the constraints). -/
structure SameModel (nb : Bool) (o r : Obj S C D) : Prop where
  spec : r.spec = o.spec
  graph : r.graph nb = o.graph nb
  settings : settings r.frame = settings o.frame
  null : r.frame.cachedNull = o.frame.cachedNull
  penalty : nb = true → r.intensity = o.intensity ∧ r.sharpness = o.sharpness

/-- Specification: the parameters of the model are scanned: the frame is what a scan of the current specification and nesting
structure gives. -/
def Scanned (nb : Bool) (sp : S → Mentions) (o : Obj S C D) : Prop :=
  ∃ m f, mentions sp o.spec (o.graph nb) = some m ∧ o.frame.rows = (unmangle m true f).rows

theorem scanned_rows {nb : Bool} {sp : S → Mentions} {o : Obj S C D} (h : Scanned nb sp o) {m : Mentions}
    (hm : mentions sp o.spec (o.graph nb) = some m) : (unmangle m true o.frame).rows = o.frame.rows := by
  obtain ⟨m', f, h1, h2⟩ := h
  rw [h1] at hm
  cases hm
  rw [force_rows, h2, force_rows, scan_idem]

theorem setstate_ok {nb : Bool} {sp : S → Mentions} {st : State S} {o : Obj S C D} {m : Mentions}
    (hm : mentions sp st.spec (if nb then (if nb then st.pgraph else o.pgraph) else st.cgraph) = some m)
    (hg : nb = true → st.pgraph ≠ none) :
    setstate nb sp st o = .ok { o with
      spec := st.spec
      frame := unmangle m true st.frame
      cgraph := st.cgraph
      pgraph := if nb then st.pgraph else o.pgraph
      intensity := if nb then st.intensity else o.intensity
      sharpness := if nb then st.sharpness else o.sharpness
      dashboard := false } := by
  unfold setstate
  simp only [hm]
  cases nb with
  | false => rfl
  | true =>
    have := hg rfl
    cases hp : st.pgraph with
    | none => exact absurd hp this
    | some g => rfl

theorem setstate_inv {nb : Bool} {sp : S → Mentions} {st : State S} {o r : Obj S C D} (h : setstate nb sp st o = .ok r) :
    ∃ m, mentions sp st.spec (if nb then (if nb then st.pgraph else o.pgraph) else st.cgraph) = some m ∧
      (nb = true → st.pgraph ≠ none) ∧ r = { o with
      spec := st.spec
      frame := unmangle m true st.frame
      cgraph := st.cgraph
      pgraph := if nb then st.pgraph else o.pgraph
      intensity := if nb then st.intensity else o.intensity
      sharpness := if nb then st.sharpness else o.sharpness
      dashboard := false } := by
  cases hm : mentions sp st.spec (if nb then (if nb then st.pgraph else o.pgraph) else st.cgraph) with
  | none => unfold setstate at h; simp only [hm] at h; cases h
  | some m =>
    have hg : nb = true → st.pgraph ≠ none := by
      rintro rfl e
      have hm2 : mentions sp st.spec none = some m := by simpa [e] using hm
      unfold setstate at h
      simp [e, hm2] at h
    rw [setstate_ok hm hg] at h
    exact ⟨m, rfl, hg, (Except.ok.inj h).symm⟩

/-- **C93 (pickle).** A model with a nesting structure (for the compiled engine with or without) can be pickled and loaded
again, and the loaded model has the same specification, structure, parameters with all settings, cached null log likelihood and
penalty settings; it has no data. -/
theorem C93_pickle (nb : Bool) (sp : S → Mentions) (o : Obj S C D) (hg : nb = true → o.pgraph ≠ none) (hs : Scanned nb sp o) :
    ∃ r, roundTrip nb sp o = .ok r ∧ SameModel nb o r ∧ r.data = none ∧ r.service = none := by
  obtain ⟨m, f, hm, hf⟩ := hs
  have hrows := scanned_rows ⟨m, f, hm, hf⟩ hm
  have hm' : mentions sp o.spec (if nb then (if nb then o.pgraph else none) else o.cgraph) = some m := by
    cases nb <;> exact hm
  refine ⟨_, setstate_ok (st := (getstate o).1) (o := blank o.spec) (m := m) hm' hg, ⟨rfl, ?_, ?_, ?_, ?_⟩, rfl, rfl⟩
  · cases nb <;> rfl
  · unfold settings
    exact congrArg _ hrows
  · simp [getstate, unmangle, mangle, clearBest]
  · rintro rfl
    exact ⟨rfl, rfl⟩

/-- **C93 (a model not yet scanned).** Parameters of a model whose specification changed since the last scan all survive. -/
theorem C93_unscanned (nb : Bool) (sp : S → Mentions) (o r : Obj S C D) (h : roundTrip nb sp o = .ok r)
    (hnd : o.frame.names.Nodup) (n : String) (x : Row) (hx : rowOf o.frame.rows n = some x) :
    rowOf r.frame.rows n = some x := by
  obtain ⟨m, _, _, rfl⟩ := setstate_inv h
  exact C20_keeps m true o.frame hnd n x hx

/-- **C93 (twice).** Saving and loading the loaded model again gives the same model. -/
theorem C93_twice (nb : Bool) (sp : S → Mentions) (o r : Obj S C D) (h : roundTrip nb sp o = .ok r) :
    roundTrip nb sp r = .ok r := by
  obtain ⟨m, hm, hg, rfl⟩ := setstate_inv h
  cases nb with
  | false =>
    refine (setstate_ok (m := m) (by exact hm) (by simp)).trans ?_
    simp only [Bool.false_eq_true, if_false, getstate, blank, (C20_idempotent m o.frame).2.1]
  | true =>
    refine (setstate_ok (m := m) (by exact hm) (by exact hg)).trans ?_
    simp only [if_true, getstate, blank, (C20_idempotent m o.frame).2.1]

/-- **C93 (copy, compiled engine).** With a data service, `copy()` of a compiled model gives the same model with the same
service. -/
theorem C93_copy (sp : S → Mentions) (ofData : D → G) (o : Obj S C D) (d : D) (hs : Scanned false sp o)
    (hd : o.service = some d) (g : G) (hg : o.cgraph = some g) :
    ∃ r, copyModel false sp ofData o = .ok r ∧ SameModel false o r ∧ r.service = some d := by
  obtain ⟨r, h1, h2, _, _⟩ := C93_pickle false sp o (by simp) hs
  have hgr : r.cgraph = some g := by
    have := h2.graph; simpa [Obj.graph, hg] using this
  refine ⟨{ r with service := some d, pgraph := some (assign g), frame := mangle r.frame }, ?_, ⟨h2.spec, ?_, ?_, ?_, by simp⟩, rfl⟩
  · unfold copyModel
    rw [h1, hd]
    simp [setService, Obj.graph, hgr]
  · simp [Obj.graph, hgr, hg]
  · exact h2.settings
  · exact h2.null

/-- **C93 (copy, numba).** With a data service and a nesting structure whose root is 0, `copy()` of a numba model keeps
specification, parameters, penalty settings, and the nodes, edges and parameters of the structure. -/
theorem C93_copy_numba (sp : S → Mentions) (ofData : D → G) (o : Obj S C D) (d : D) (hs : Scanned true sp o)
    (hd : o.service = some d) (g : G) (hg : o.pgraph = some g) (hv : Valid g) (h0 : g.root = 0) (hin : g.root ∈ g.nodes) :
    ∃ r g', copyModel true sp ofData o = .ok r ∧ r.pgraph = some g' ∧ r.spec = o.spec ∧ settings r.frame = settings o.frame ∧
      r.intensity = o.intensity ∧ r.sharpness = o.sharpness ∧ r.service = some d ∧
      g'.nodes.Perm g.nodes ∧ g'.edges.Perm g.edges ∧ (∀ n ∈ g.nodes, g'.nparam n = g.nparam n) ∧ g'.root = g.root := by
  obtain ⟨r, h1, h2, _, _⟩ := C93_pickle true sp o (by simp [hg]) hs
  have hgr : r.pgraph = some g := by
    have := h2.graph; simpa [Obj.graph, hg] using this
  refine ⟨{ r with service := some d, pgraph := some (assign g), frame := mangle r.frame }, assign g, ?_, rfl, h2.spec,
    h2.settings, (h2.penalty rfl).1, (h2.penalty rfl).2, rfl, C57_assign_partial g hv h0 hin⟩
  unfold copyModel
  rw [h1, hd]
  simp [setService, Obj.graph, hgr]

/-- A nested numba model that meets the hypotheses. -/
noncomputable def persistDemo : Obj Unit Nat (List Int) :=
  ⟨(), none, some (new 0), [7], .fin 2, .fin 3, true,
    unmangle ⟨["x"], [], []⟩ true ⟨[], true, true, .fin (-5), .fin (-9)⟩, some [1, 2], some [1, 2], some "idce"⟩

theorem persistDemo_names : logsumNames (new 0) = some [] := by decide +kernel

theorem persistDemo_scanned : Scanned true (fun _ => ⟨["x"], [], []⟩) persistDemo := by
  refine ⟨⟨["x"], [], []⟩, ⟨[], true, true, .fin (-5), .fin (-9)⟩, ?_, rfl⟩
  simp [mentions, Obj.graph, persistDemo, persistDemo_names]

example : Scanned true (fun _ => ⟨["x"], [], []⟩) persistDemo ∧ persistDemo.pgraph ≠ none ∧ persistDemo.service = some [1, 2] ∧
    Valid (new 0) ∧ (new 0).root = 0 ∧ (new 0).root ∈ (new 0).nodes :=
  ⟨persistDemo_scanned, by simp [persistDemo], rfl, C12_valid 0 [] [], rfl, by decide⟩

/-- **C93 violated (constraints).** Whatever the model's constraints, the loaded model and every copy have none. -/
theorem C93_fails_constraints (nb : Bool) (sp : S → Mentions) (ofData : D → G) (o : Obj S C D) :
    (∀ r, roundTrip nb sp o = .ok r → r.constraints = []) ∧
    (∀ r, copyModel nb sp ofData o = .ok r → r.constraints = []) ∧
    (∀ r, constructFrom nb sp o = .ok r → r.constraints = []) := by
  have key : ∀ (b r : Obj S C D), b.constraints = [] → setstate nb sp (getstate o).1 b = .ok r → r.constraints = [] := by
    intro b r hb h
    obtain ⟨m, _, _, rfl⟩ := setstate_inv h
    exact hb
  have hsv : ∀ (r r1 : Obj S C D) (x : Option D), setService r x = .ok r1 → r1.constraints = r.constraints := by
    intro r r1 x h
    cases x <;> cases h
    rfl
  refine ⟨fun r h => key _ r rfl h, ?_, ?_⟩
  · intro r h
    unfold copyModel at h
    cases h1 : roundTrip nb sp o with
    | error e => rw [h1] at h; cases h
    | ok r0 =>
      rw [h1] at h
      simp only at h
      cases h2 : setService r0 o.service with
      | error e => rw [h2] at h; cases h
      | ok r1 =>
        rw [h2] at h
        simp only at h
        split at h
        · cases h
        · cases h
          exact (hsv r0 r1 _ h2).trans (key _ r0 rfl h1)
  · intro r h
    unfold constructFrom at h
    cases h1 : setstate nb sp (getstate o).1 { (blank o.spec : Obj S C D) with sklearn := some "idce" } with
    | error e => rw [h1] at h; cases h
    | ok r0 =>
      rw [h1] at h
      simp only at h
      cases h2 : setService r0 o.service with
      | error e => rw [h2] at h; cases h
      | ok r1 =>
        rw [h2] at h
        simp only at h
        split at h
        · cases h
        · cases h
          exact (hsv r0 r1 _ h2).trans (key _ r0 rfl h1)

/-- **C93 violated (best estimates).** The loaded model has forgotten the best log likelihood and the best parameters. -/
theorem C93_fails_best (nb : Bool) (sp : S → Mentions) (o r : Obj S C D) (h : roundTrip nb sp o = .ok r) :
    r.frame.bestLL = .ninf ∧ r.frame.hasBest = false := by
  obtain ⟨m, _, _, rfl⟩ := setstate_inv h
  simp [unmangle, mangle, clearBest]

/-- **C93 violated (the original).** Saving a model with a dashboard in its last result takes the dashboard away from it. -/
theorem C93_fails_dashboard (o : Obj S C D) : (getstate o).2.dashboard = false := rfl

/-- **C93 violated (numba without structure).** A numba model that has no nesting structure yet can be saved but not loaded. -/
theorem C93_fails_no_graph (sp : S → Mentions) (o : Obj S C D) (h : o.pgraph = none) :
    roundTrip true sp o = .error "RuntimeError: cannot initialize graph" := by
  simp [roundTrip, setstate, getstate, h, mentions]

/-- **C93 violated (copy without data service).** A model without a data service cannot be copied: every numba model whose data are
a dataset, for instance. -/
theorem C93_fails_copy (nb : Bool) (sp : S → Mentions) (ofData : D → G) (o : Obj S C D) (hd : o.service = none) :
    ∃ e, copyModel nb sp ofData o = .error e := by
  unfold copyModel
  cases roundTrip nb sp o with
  | error e => exact ⟨e, rfl⟩
  | ok r => exact ⟨_, by rw [hd]; rfl⟩

/-- **C93 violated (copy of other roots).** The structure of the copy of a numba model has root 0 and no suggested order, whatever
the model's structure had. -/
theorem C93_fails_root (sp : S → Mentions) (ofData : D → G) (o r : Obj S C D) (g : G) (hg : o.pgraph = some g) (hv : Valid g)
    (h : copyModel true sp ofData o = .ok r) : ∃ g', r.pgraph = some g' ∧ g'.root = 0 ∧ g'.suggested = [] := by
  have key : ∀ r0, roundTrip true sp o = .ok r0 → r0.pgraph = some g := by
    intro r0 h
    obtain ⟨m, _, _, rfl⟩ := setstate_inv h
    exact hg
  unfold copyModel at h
  cases h1 : roundTrip true sp o with
  | error e => rw [h1] at h; cases h
  | ok r0 =>
    rw [h1] at h
    simp only at h
    have hp := key r0 h1
    cases hd : o.service with
    | none => rw [hd] at h; cases h
    | some d =>
      rw [hd] at h
      simp only [setService, Obj.graph, if_true, hp, Option.or_some] at h
      cases h
      exact ⟨assign g, rfl, C57_fails_root_lost g hv⟩

/-- **C93 violated (predict).** A loaded or copied model cannot predict (nor is `fit` able to name the format it wants). -/
theorem C93_fails_predict (nb : Bool) (sp : S → Mentions) (o r : Obj S C D) (h : roundTrip nb sp o = .ok r) :
    predictFormat r = .error "AttributeError: _sklearn_data_format" := by
  obtain ⟨m, _, _, rfl⟩ := setstate_inv h
  rfl

/-- **C93 violated (`NumbaModel(m)`).** The penalty settings of the model given are not taken over. -/
theorem C93_fails_penalty (sp : S → Mentions) (o r : Obj S C D) (h : constructFrom true sp o = .ok r) :
    r.intensity = .fin 0 ∧ r.sharpness = .fin 0 := by
  unfold constructFrom at h
  cases h1 : setstate true sp (getstate o).1 { (blank o.spec : Obj S C D) with sklearn := some "idce" } with
  | error e => rw [h1] at h; cases h
  | ok r0 =>
    rw [h1] at h
    simp only at h
    cases h2 : setService r0 o.service with
    | error e => rw [h2] at h; cases h
    | ok r1 =>
      rw [h2] at h
      simp only at h
      split at h
      · cases h
      · cases h; exact ⟨rfl, rfl⟩

/-- Such a model exists, and the call succeeds. -/
example : ∃ r, constructFrom true (fun _ => ⟨["x"], [], []⟩) persistDemo = .ok r := by
  unfold constructFrom
  rw [setstate_ok (m := ⟨["x"], [], []⟩) (by simp [mentions, getstate, persistDemo, persistDemo_names])
    (by simp [getstate, persistDemo])]
  exact ⟨_, rfl⟩

/-- **C93 (clone).** `Model(**m.get_params())` of a compiled model without constraints gives specification, structure and the parameters
(`f`, the scanned frame) with all their settings. -/
theorem C93_clone (sp : S → Mentions) (ofData : D → G) (o : Obj S C D) (m : Mentions)
    (hc : o.constraints = []) (hm : mentions sp o.spec o.cgraph = some m) :
    ∃ r, clone false sp ofData o (unmangle m true o.frame) = .ok r ∧ r.spec = o.spec ∧ r.cgraph = o.cgraph ∧
      settings r.frame = settings (unmangle m true o.frame) := by
  refine ⟨⟨o.spec, o.cgraph, none, [], .fin 0, .fin 0, false,
    mangle { unmangle m true o.frame with rows := scanAll m (unmangle m true o.frame).rows }, none, none, some "idce"⟩,
    ?_, rfl, rfl, ?_⟩
  · simp [clone, construct, hc, Obj.graph, hm]
  · have : scanAll m (unmangle m true o.frame).rows = (unmangle m true o.frame).rows := by rw [force_rows, scan_idem]
    unfold settings
    simp only [mangle, clearBest, this]

example : (⟨(), some (new 0), none, [], .fin 0, .fin 0, false, unusedDemo, none, none, none⟩ : Obj Unit Nat (List Int)).constraints = [] ∧
    mentions (fun _ => ⟨["b", "c"], [], []⟩) () (some (new 0)) = some ⟨["b", "c"], [], []⟩ := by
  simp [mentions, persistDemo_names]

/-- **C93 violated (cloning with constraints).** No model with constraints can be cloned this way, and no model can be constructed
with constraints: they look for the parameters before there are any. -/
theorem C93_fails_clone_constraints (nb : Bool) (sp : S → Mentions) (ofData : D → G) (o : Obj S C D) (f : Frame)
    (hc : o.constraints ≠ []) : ∃ e, clone nb sp ofData o f = .error e := by
  have : o.constraints.length ≠ 0 := by simpa using hc
  exact ⟨_, by unfold clone construct; rw [if_pos this]⟩

/-- **C93 (clones, numba engine).** A numba model without constraints can always be cloned; the clone has its utility functions and
the settings of the frame given (completed by the parameters the utility functions mention). -/
theorem C93_clone_numba (sp : S → Mentions) (ofData : D → G) (o : Obj S C D) (f : Frame) (hc : o.constraints = []) :
    ∃ r m, clone true sp ofData o f = .ok r ∧ r.spec = o.spec ∧ mentions sp o.spec none = some m ∧
      r.frame.rows = scanAll m f.rows := by
  refine ⟨⟨o.spec, o.pgraph, none, [], .fin 0, .fin 0, false, mangle { f with rows := scanAll (sp o.spec) f.rows }, none, none,
    some "idce"⟩, sp o.spec, ?_, rfl, rfl, rfl⟩
  simp [clone, construct, hc, mentions, Obj.graph]

/-- **C93 (data keep the structure).** Giving data to a model with a nesting structure keeps that structure; a model without one
gets the structure made from the data. -/
theorem C93_data_structure (nb : Bool) (ofData : D → G) (o : Obj S C D) (d : D) :
    (∀ g, o.graph nb = some g → (o.withData nb ofData d).graph nb = some g) ∧
      (o.graph nb = none → (o.withData nb ofData d).graph nb = some (if nb then assign (ofData d) else ofData d)) := by
  cases nb <;> constructor <;> intros <;> simp_all [Obj.graph, Obj.withData]

/-- **C93 (copy of a model without structure).** The copy of a compiled model that has no structure yet gets the one made from the
data service. -/
theorem C93_copy_structureless (sp : S → Mentions) (ofData : D → G) (o : Obj S C D) (d : D) (hs : Scanned false sp o)
    (hd : o.service = some d) (hg : o.cgraph = none) :
    ∃ r, copyModel false sp ofData o = .ok r ∧ r.cgraph = some (ofData d) ∧ r.spec = o.spec ∧ settings r.frame = settings o.frame := by
  obtain ⟨r, h1, h2, _, _⟩ := C93_pickle false sp o (by simp) hs
  have hgr : r.cgraph = none := by
    have := h2.graph; simpa [Obj.graph, hg] using this
  refine ⟨{ r with service := some d, cgraph := some (ofData d), pgraph := some (assign (ofData d)), frame := mangle r.frame },
    ?_, rfl, h2.spec, h2.settings⟩
  unfold copyModel
  rw [h1, hd]
  simp [setService, Obj.graph, hgr]

/-- **C93 violated (numba clones forget the nests).** The clone of a numba model, and every numba model constructed with a graph, has
no nesting structure: given data it becomes the model whose structure is made from the data. -/
theorem C93_fails_clone_nests (sp : S → Mentions) (ofData : D → G) (o r : Obj S C D) (f : Frame)
    (h : clone true sp ofData o f = .ok r) (d : D) :
    r.graph true = none ∧ (r.withData true ofData d).graph true = some (assign (ofData d)) := by
  unfold clone construct at h
  split at h
  · cases h
  · simp only at h
    split at h
    · cases h
    · cases h; exact ⟨rfl, rfl⟩

/-- Such a clone can be made. -/
example : ∃ r, clone true (fun _ => ⟨["x"], [], []⟩) (fun l => initGraph 0 l)
    ({ persistDemo with constraints := [] } : Obj Unit Nat (List Int)) persistDemo.frame = .ok r := ⟨_, rfl⟩

end Larch.Props
