import Verif.Props.Params

/-!
# C19, C21, C22, C53: histories of parameter operations
-/

namespace Larch.Props

open Larch.Params

/-! ## Single cells -/

theorem setCell_names (rows : List Row) (n : String) (f : Row → Row) (hf : ∀ r, (f r).name = r.name) :
    (setCell rows n f).map Row.name = if n ∈ rows.map Row.name then rows.map Row.name else rows.map Row.name ++ [n] := by
  unfold setCell
  split
  · rw [List.map_map]
    apply List.map_congr_left
    intro r _
    simp only [Function.comp]
    split
    · exact hf r
    · rfl
  · simp [hf]

theorem setCell_nodup (rows : List Row) (n : String) (f : Row → Row) (hf : ∀ r, (f r).name = r.name)
    (h : (rows.map Row.name).Nodup) : ((setCell rows n f).map Row.name).Nodup := by
  rw [setCell_names rows n f hf]
  split
  · exact h
  · next hn =>
    rw [List.nodup_append]
    refine ⟨h, by simp, ?_⟩
    intro a ha b hb hab
    simp at hb
    subst hab hb
    exact hn ha

theorem setCell_other (rows : List Row) (n n' : String) (f : Row → Row) (hf : ∀ r, (f r).name = r.name) (h : n ≠ n') :
    rowOf (setCell rows n' f) n = rowOf rows n := by
  unfold setCell
  split
  · rw [get_map _ (fun r => by split; exact hf r; rfl)]
    cases hg : rowOf rows n with
    | none => rfl
    | some r =>
      have := get_name hg
      simp [this, h]
  · rw [get_append]
    have : rowOf [f ⟨n', .nan, .nan, .nan, .nan, .nan, none, .nan⟩] n = none := by
      rw [get_none]; simp [hf, h]
    rw [this]; simp

theorem setCell_same (rows : List Row) (n : String) (f : Row → Row) (hf : ∀ r, (f r).name = r.name) :
    rowOf (setCell rows n f) n = some (f ((rowOf rows n).getD ⟨n, .nan, .nan, .nan, .nan, .nan, none, .nan⟩)) := by
  unfold setCell
  split
  · next h =>
    obtain ⟨r, hr⟩ := get_isSome h
    rw [get_map _ (fun r => by split; exact hf r; rfl), hr]
    simp [get_name hr]
  · next h =>
    rw [get_append, get_none.mpr h]
    simp [rowOf, hf]

/-- What one keyword does to the row. -/
def kwRow (hasInit : Bool) (r : Row) : Kw → Row
  | .value x => if !hasInit then (if r.init.isNaN then { r with value := x, init := x } else { r with value := x })
      else { r with value := x }
  | .initvalue x => { r with init := x }
  | .nullvalue x => { r with null := x }
  | .minimum x => { r with min := x }
  | .maximum x => { r with max := x }
  | .holdfast k => { r with holdfast := some k }
  | .other => r

theorem applyKw_other (hasInit : Bool) (n n' : String) (rows : List Row) (k : Kw) (h : n ≠ n') :
    rowOf (applyKw hasInit n' rows k) n = rowOf rows n := by
  cases k <;> simp only [applyKw]
  case value x =>
    split
    · rw [setCell_other _ _ _ _ (fun r => by split <;> rfl) h, setCell_other _ _ _ _ (by intro; rfl) h]
    · rw [setCell_other _ _ _ _ (by intro; rfl) h]
  all_goals rw [setCell_other _ _ _ _ (by intro; rfl) h]

theorem applyKw_nodup (hasInit : Bool) (n : String) (rows : List Row) (k : Kw) (h : (rows.map Row.name).Nodup) :
    ((applyKw hasInit n rows k).map Row.name).Nodup := by
  cases k <;> simp only [applyKw]
  case value x =>
    split
    · exact setCell_nodup _ _ _ (fun r => by split <;> rfl) (setCell_nodup _ _ _ (by intro; rfl) h)
    · exact setCell_nodup _ _ _ (by intro; rfl) h
  case other => exact h
  all_goals exact setCell_nodup _ _ _ (by intro; rfl) h

theorem applyKw_same (hasInit : Bool) (n : String) (rows : List Row) (k : Kw) (r : Row) (h : rowOf rows n = some r) :
    rowOf (applyKw hasInit n rows k) n = some (kwRow hasInit r k) := by
  cases k <;> simp only [applyKw, kwRow]
  case value x =>
    split
    · rw [setCell_same _ _ _ (fun r => by split <;> rfl), setCell_same _ _ _ (by intro; rfl), h]
      rfl
    · rw [setCell_same _ _ _ (by intro; rfl), h]; rfl
  case other => exact h
  all_goals (rw [setCell_same _ _ _ (by intro; rfl), h]; rfl)

theorem foldKw_other (hasInit : Bool) (n n' : String) (h : n ≠ n') (ks : List Kw) : ∀ rows,
    rowOf (ks.foldl (applyKw hasInit n') rows) n = rowOf rows n := by
  induction ks with
  | nil => intro rows; rfl
  | cons k ks ih => intro rows; rw [List.foldl_cons, ih, applyKw_other _ _ _ _ _ h]

theorem foldKw_nodup (hasInit : Bool) (n : String) (ks : List Kw) : ∀ rows : List Row, (rows.map Row.name).Nodup →
    ((ks.foldl (applyKw hasInit n) rows).map Row.name).Nodup := by
  induction ks with
  | nil => intro rows h; exact h
  | cons k ks ih => intro rows h; rw [List.foldl_cons]; exact ih _ (applyKw_nodup _ _ _ _ h)

theorem foldKw_same (hasInit : Bool) (n : String) (ks : List Kw) : ∀ (rows : List Row) (r : Row), rowOf rows n = some r →
    rowOf (ks.foldl (applyKw hasInit n) rows) n = some (ks.foldl (kwRow hasInit) r) := by
  induction ks with
  | nil => intro rows r h; exact h
  | cons k ks ih => intro rows r h; rw [List.foldl_cons, List.foldl_cons]; exact ih _ _ (applyKw_same _ _ _ _ _ h)

theorem unmangle_nodup (m : Mentions) (force : Bool) (f : Frame) (h : f.names.Nodup) : (unmangle m force f).names.Nodup := by
  have h2 := scan_nodup m f.rows h
  unfold unmangle
  cases force <;> cases hm : f.mangled <;> simp [hm, mangle, clearBest, Frame.names] <;> first | exact h | exact h2

theorem setValue_nodup (m : Mentions) (f : Frame) (n : String) (ks : List Kw) (h : f.names.Nodup) :
    (setValue m f n ks).1.names.Nodup := by
  have h1 : (if n ∈ f.names then f else unmangle m false f).names.Nodup := by
    split
    · exact h
    · exact unmangle_nodup m false f h
  unfold setValue
  simp only
  generalize (if n ∈ f.names then f else unmangle m false f) = g at h1
  have h2 := foldKw_nodup (ks.any Kw.isInit) n ks _ h1
  split
  · exact h2
  · split
    · simp only [Frame.names]
      refine setCell_nodup _ _ _ ?_ h2
      intro r
      split <;> rfl
    · exact h2

/-! ## C53: set_value -/

/-- **C53 (others untouched).** `set_value` on one parameter leaves the rows of all other parameters as they were. -/
theorem C53_others_untouched (m : Mentions) (f : Frame) (n' : String) (ks : List Kw) (hnd : f.names.Nodup) (n : String)
    (r : Row) (h : rowOf f.rows n = some r) (hn : n ≠ n') : rowOf (setValue m f n' ks).1.rows n = some r := by
  have h1 : rowOf (if n' ∈ f.names then f else unmangle m false f).rows n = some r := by
    split
    · exact h
    · exact C20_keeps m false f hnd n r h
  unfold setValue
  simp only
  generalize (if n' ∈ f.names then f else unmangle m false f) = g at h1
  have h2 := foldKw_other (ks.any Kw.isInit) n n' hn ks g.rows
  split
  · simp only; rw [h2, h1]
  · split
    · simp only; rw [setCell_other _ _ _ _ (fun r => by split <;> rfl) hn, h2, h1]
    · simp only; rw [h2, h1]

/-- **C53 (plain call).** `set_value(name, x)` on an existing parameter, held fast or not, sets its value; the initial value
only follows when it was missing (NaN), the null value is set to 0 only when missing. -/
theorem C53_plain (m : Mentions) (f : Frame) (n : String) (x : X) (r : Row) (h : rowOf f.rows n = some r) :
    (setValue m f n [.value x]).2 = none ∧
    rowOf (setValue m f n [.value x]).1.rows n = some { r with
      value := x
      init := if r.init.isNaN then x else r.init
      null := if r.null.isNaN then .fin 0 else r.null } := by
  have hmem : n ∈ f.names := by
    by_contra hc
    rw [get_none.mpr hc] at h
    cases h
  have h2 := foldKw_same false n [.value x] f.rows r h
  have hm2 : n ∈ (([Kw.value x].foldl (applyKw false n) f.rows)).map Row.name := by
    by_contra hc
    rw [get_none.mpr hc] at h2
    cases h2
  have e : setValue m f n [.value x] = ({ f with rows := (setCell ([Kw.value x].foldl (applyKw false n) f.rows) n
        (fun r => if r.null.isNaN then { r with null := .fin 0 } else r)) }, none) := by
    unfold setValue
    simp only [hmem, if_true, List.any_cons, List.any_nil, Kw.isInit, Kw.isNull, Bool.or_false, Bool.false_eq_true, if_false,
      hm2]
  rw [e]
  refine ⟨rfl, ?_⟩
  simp only
  rw [setCell_same _ _ _ (fun r => by split <;> rfl), h2]
  simp only [List.foldl_cons, List.foldl_nil, kwRow, Bool.not_false, if_true, Option.getD_some]
  cases h1 : r.init.isNaN <;> cases h3 : r.null.isNaN <;> simp [h3]

/-- **C53 violated (documentation).** The documentation says the new value is also saved as the initial value unless another is
given; an existing initial value is kept. -/
theorem C53_fails_initvalue (m : Mentions) :
    (rowOf (setValue m demoFrame "a" [.value (.fin 7)]).1.rows "a").map Row.init = some (.fin 0) := by
  have h : rowOf demoFrame.rows "a" = some ⟨"a", .fin 0, .fin 0, .fin 0, .ninf, .pinf, some 0, .nan⟩ := by
    simp [rowOf, demoFrame]
  rw [(C53_plain m demoFrame "a" (.fin 7) _ h).2]
  simp [X.isNaN]

/-- **C53 violated (unknown name).** Setting the value of a name the model does not mention adds a row whose holdfast is NaN;
no later `set_values` call can change that parameter. -/
theorem C53_fails_unknown_name (m : Mentions) (f : Frame) (n : String) (x : X) (hnd : f.names.Nodup)
    (hn : n ∉ f.names) (hm : f.mangled = false) :
    rowOf (setValue m f n [.value x]).1.rows n = some ⟨n, x, x, .fin 0, .nan, .nan, none, .nan⟩ ∧
    ∀ a kw, (rowOf (setValues m (setValue m f n [.value x]).1 a true kw).1.rows n).map Row.value = some x := by
  have hu : unmangle m false f = f := by simp [unmangle, hm]
  have e : rowOf (setValue m f n [.value x]).1.rows n = some ⟨n, x, x, .fin 0, .nan, .nan, none, .nan⟩ := by
    have hr : rowOf ([Kw.value x].foldl (applyKw false n) f.rows) n = some ⟨n, x, x, .nan, .nan, .nan, none, .nan⟩ := by
      simp only [List.foldl_cons, List.foldl_nil, applyKw, Bool.not_false, if_true]
      rw [setCell_same _ _ _ (fun r => by split <;> rfl), setCell_same _ _ _ (by intro; rfl), get_none.mpr hn]
      rfl
    have hm2 : n ∈ (([Kw.value x].foldl (applyKw false n) f.rows)).map Row.name := by
      by_contra hc
      rw [get_none.mpr hc] at hr
      cases hr
    unfold setValue
    simp only [hn, if_false, hu, List.any_cons, List.any_nil, Kw.isInit, Kw.isNull, Bool.or_false, Bool.false_eq_true,
      hm2, if_true]
    rw [setCell_same _ _ _ (fun r => by split <;> rfl), hr]
    rfl
  refine ⟨e, fun a kw => ?_⟩
  rw [C18_holdfast m _ a kw (setValue_nodup m f n _ hnd) n _ e (by simp)]
  rfl

example : "c" ∉ demoFrame.names ∧ demoFrame.mangled = false ∧ demoFrame.names.Nodup := by
  simp [demoFrame, Frame.names]

/-! ## C19: locked values -/

/-- Operations on the parameters of a model. -/
inductive Op where
  | setValues (a : Arg) (kw : List (String × X))
  | setValue (n : String) (ks : List Kw)
  | lockValue (n : String) (v : X)
  | mangle
  | unmangle (force : Bool)
  | loglike (L : List (String × X) → Except String X)
  | loglikeNull (L : List (String × X) → Except String X) (useCache : Bool)

/-- The state after an operation, whether or not it raises. -/
noncomputable def stepOp (m : Mentions) (f : Frame) : Op → Frame
  | .setValues a kw => (Params.setValues m f a true kw).1
  | .setValue n ks => (Params.setValue m f n ks).1
  | .lockValue n v => (Params.lockValue m f n v).1
  | .mangle => Params.mangle f
  | .unmangle force => Params.unmangle m force f
  | .loglike L => (Params.loglike m L f).1
  | .loglikeNull L c => (Params.loglikeNull m L f c).1

/-- Does the operation address this parameter by `set_value` or `lock_value`? -/
def Op.targets (n : String) : Op → Prop
  | .setValue n' _ => n' = n
  | .lockValue n' _ => n' = n
  | _ => False

theorem setKwargs_nodup (m : Mentions) (f : Frame) (kw : List (String × X)) (h : f.names.Nodup) :
    (setKwargs m f kw).names.Nodup := by
  unfold setKwargs
  split
  · exact h
  · simp only [Frame.names]
    rw [setNamed_fold, List.map_map]
    have : (Row.name ∘ fun r => kw.foldl
        (fun r kv => if r.name = kv.1 ∧ r.free then { r with value := kv.2 } else r) r) = Row.name := by
      funext r; exact named_name kw r
    rw [this]
    split
    · exact scan_nodup m f.rows h
    · exact h

theorem setScalar_names (respect : Bool) (f : Frame) (x : X) : (setScalar respect f x).names = f.names := by
  simp only [setScalar, Frame.names, List.map_map, Function.comp_def]
  apply List.map_congr_left
  intro r _
  split <;> rfl

theorem setValues_nodup (m : Mentions) (f : Frame) (a : Arg) (respect : Bool) (kw : List (String × X))
    (h : f.names.Nodup) : (setValues m f a respect kw).1.names.Nodup := by
  have harr : ∀ vs, (match setArray respect f vs with
      | (f1, some e) => (f1, some e)
      | (f1, none) => (setKwargs m f1 kw, (none : Option String))).1.names.Nodup := by
    intro vs
    have h2 := setArray_names respect f vs
    split
    · next f1 e he => rw [he] at h2; simp only at h2 ⊢; rw [h2]; exact h
    · next f1 he =>
      rw [he] at h2
      exact setKwargs_nodup m f1 kw (by simp only at h2; rw [h2]; exact h)
  unfold setValues
  cases a with
  | none => exact setKwargs_nodup m f kw h
  | dict d => exact setKwargs_nodup m f _ h
  | scalar x => exact setKwargs_nodup m _ kw (by rw [setScalar_names]; exact h)
  | arr vs => exact harr vs
  | key s =>
    simp only
    split
    · exact h
    · next vs _ => exact harr vs

theorem checkIfBest_names (f : Frame) (ll : X) : (checkIfBest f ll).names = f.names := by
  unfold checkIfBest
  split
  · simp [Frame.names, Function.comp_def]
  · rfl

theorem loglike_nodup (m : Mentions) (L : List (String × X) → Except String X) (f : Frame) (h : f.names.Nodup) :
    (loglike m L f).1.names.Nodup := by
  unfold loglike
  simp only
  split
  · exact unmangle_nodup m false f h
  · simp only; rw [checkIfBest_names]; exact unmangle_nodup m false f h

theorem loglikeNull_inv (P : Frame → Prop) (m : Mentions) (L : List (String × X) → Except String X)
    (hu : ∀ f, P f → P (unmangle m false f)) (hs : ∀ f a, P f → P (setValues m f a true []).1)
    (hl : ∀ f, P f → P (loglike m L f).1) (hc : ∀ f x, P f → P { f with cachedNull := x }) (f : Frame) (c : Bool)
    (h : P f) : P (loglikeNull m L f c).1 := by
  unfold loglikeNull
  split
  · exact h
  · simp only
    have h0 := hs (unmangle m false f) (.key .null) (hu f h)
    split
    · next f1 e he => rw [he] at h0; exact h0
    · next f1 he =>
      rw [he] at h0
      have h1 := hl f1 h0
      split
      · next f2 e he2 => rw [he2] at h1; exact h1
      · next f2 ll he2 =>
        rw [he2] at h1
        have h2 := hs { f2 with cachedNull := ll } (.arr ((unmangle m false f).rows.map Row.value)) (hc f2 ll h1)
        split
        · next f3 e he3 => rw [he3] at h2; exact h2
        · next f3 he3 => rw [he3] at h2; exact h2

theorem stepOp_nodup (m : Mentions) (f : Frame) (op : Op) (h : f.names.Nodup) : (stepOp m f op).names.Nodup := by
  cases op with
  | setValues a kw => exact setValues_nodup m f a true kw h
  | setValue n ks => exact setValue_nodup m f n ks h
  | lockValue n v => exact setValue_nodup m f n _ h
  | mangle => exact h
  | unmangle force => exact unmangle_nodup m force f h
  | loglike L => exact loglike_nodup m L f h
  | loglikeNull L c =>
    exact loglikeNull_inv (fun f => f.names.Nodup) m L (fun f h => unmangle_nodup m false f h)
      (fun f a h => setValues_nodup m f a true [] h) (fun f h => loglike_nodup m L f h) (fun f x h => h) f c h

/-- Specification: the parameter is fixed at `v`. -/
def LockedAt (f : Frame) (n : String) (v : X) : Prop :=
  ∃ r, rowOf f.rows n = some r ∧ r.value = v ∧ r.init = v ∧ r.null = v ∧ r.min = v ∧ r.max = v ∧ r.holdfast = some 1

theorem locked_loglike (m : Mentions) (L : List (String × X) → Except String X) (f : Frame) (n : String) (v : X)
    (hnd : f.names.Nodup) (h : LockedAt f n v) : LockedAt (loglike m L f).1 n v := by
  obtain ⟨r, hr, hv⟩ := h
  have h1 := C20_keeps m false f hnd n r hr
  unfold loglike
  simp only
  split
  · exact ⟨r, h1, hv⟩
  · simp only
    unfold checkIfBest
    split
    · refine ⟨{ r with best := r.value }, ?_, hv⟩
      simp only
      rw [get_map _ (by intro; rfl), h1]; rfl
    · exact ⟨r, h1, hv⟩

/-- **C19 (locking).** `lock_value(name, v)` fixes the parameter at `v`, whether or not it was known before. -/
theorem C19_lock (m : Mentions) (f : Frame) (n : String) (v : X) (hnd : f.names.Nodup) :
    (lockValue m f n v).2 = none ∧ LockedAt (lockValue m f n v).1 n v := by
  unfold lockValue setValue
  simp only [List.any_cons, Kw.isInit, Kw.isNull, Bool.false_or, Bool.true_or, if_true, true_and]
  generalize (if n ∈ f.names then f else unmangle m false f) = f1
  simp only [List.foldl_cons, List.foldl_nil, applyKw, Bool.not_true, Bool.false_eq_true, if_false]
  refine ⟨{ (rowOf f1.rows n).getD ⟨n, .nan, .nan, .nan, .nan, .nan, none, .nan⟩ with
      value := v, init := v, null := v, min := v, max := v, holdfast := some 1 }, ?_, ?_⟩
  · simp only
    rw [setCell_same _ _ _ (by intro; rfl), setCell_same _ _ _ (by intro; rfl), setCell_same _ _ _ (by intro; rfl),
      setCell_same _ _ _ (by intro; rfl), setCell_same _ _ _ (by intro; rfl), setCell_same _ _ _ (by intro; rfl)]
    rfl
  · exact ⟨rfl, rfl, rfl, rfl, rfl, rfl⟩

/-- **C19 (stays locked).** After `lock_value(name, v)`, no history of `set_values` calls, re-scans, log likelihood
evaluations and edits of *other* parameters changes the value, bounds or holdfast of the parameter. -/
theorem C19_stays_locked (m : Mentions) (f : Frame) (n : String) (v : X) (hnd : f.names.Nodup) (ops : List Op)
    (hops : ∀ op ∈ ops, ¬ op.targets n) :
    LockedAt (ops.foldl (stepOp m) (lockValue m f n v).1) n v := by
  have hnd1 : (lockValue m f n v).1.names.Nodup := setValue_nodup m f n _ hnd
  have h1 := (C19_lock m f n v hnd).2
  generalize (lockValue m f n v).1 = g at hnd1 h1
  induction ops generalizing g with
  | nil => exact h1
  | cons op ops ih =>
    rw [List.foldl_cons]
    refine ih (fun o ho => hops o (List.mem_cons_of_mem _ ho)) _ (stepOp_nodup m g op hnd1) ?_
    have hop := hops op (by simp)
    have held : ∀ (g : Frame) a kw, g.names.Nodup → LockedAt g n v → LockedAt (setValues m g a true kw).1 n v := by
      rintro g a kw hg ⟨r, hr, h⟩
      exact ⟨r, C18_holdfast m g a kw hg n r hr (by rw [h.2.2.2.2.2]; simp), h⟩
    have hun : ∀ (g : Frame) force, g.names.Nodup → LockedAt g n v → LockedAt (unmangle m force g) n v := by
      rintro g force hg ⟨r, hr, h⟩
      exact ⟨r, C20_keeps m force g hg n r hr, h⟩
    cases op with
    | setValues a kw => exact held g a kw hnd1 h1
    | setValue n' ks =>
      obtain ⟨r, hr, h⟩ := h1
      exact ⟨r, C53_others_untouched m g n' ks hnd1 n r hr (fun he => hop he.symm), h⟩
    | lockValue n' v' =>
      obtain ⟨r, hr, h⟩ := h1
      exact ⟨r, C53_others_untouched m g n' _ hnd1 n r hr (fun he => hop he.symm), h⟩
    | mangle => exact h1
    | unmangle force => exact hun g force hnd1 h1
    | loglike L => exact locked_loglike m L g n v hnd1 h1
    | loglikeNull L c =>
      exact (loglikeNull_inv (fun f => f.names.Nodup ∧ LockedAt f n v) m L
        (fun f h => ⟨unmangle_nodup m false f h.1, hun f false h.1 h.2⟩)
        (fun f a h => ⟨setValues_nodup m f a true [] h.1, held f a [] h.1 h.2⟩)
        (fun f h => ⟨loglike_nodup m L f h.1, locked_loglike m L f n v h.1 h.2⟩) (fun f x h => h) g c ⟨hnd1, h1⟩).2

/-- **C19 (`'null'`).** Locking at `'null'` fixes the parameter at its null value, for a known parameter. -/
theorem C19_lock_null (m : Mentions) (f : Frame) (n : String) (r : Row) (hnd : f.names.Nodup) (h : rowOf f.rows n = some r) :
    (lockNull m f n).2 = none ∧ LockedAt (lockNull m f n).1 n r.null := by
  unfold lockNull
  simp only [C20_keeps m false f hnd n r h]
  exact C19_lock m _ n r.null (unmangle_nodup m false f hnd)

example : ∀ op ∈ ([.setValues (.arr [.fin 1, .fin 2]) [], .mangle, .setValue "b" [.value (.fin 3)]] : List Op),
    ¬ op.targets "a" := by
  simp [Op.targets]

/-! ## C21: best parameters -/

/-- What happened since the best log likelihood was last cleared: the reported values and the parameters in effect. -/
abbrev Hist := List (X × List (String × X))

/-- Events: a reported log likelihood, or something that clears the record, or any change of parameters. -/
inductive Ev where
  | report (ll : X)
  | clear
  | setValues (a : Arg) (kw : List (String × X))
  | setValue (n : String) (ks : List Kw)
  | unmangle

noncomputable def stepEv (m : Mentions) (s : Frame × Hist) : Ev → Frame × Hist
  | .report ll => (checkIfBest s.1 ll, s.2 ++ [(ll, s.1.values)])
  | .clear => (Params.mangle s.1, [])
  | .setValues a kw => ((Params.setValues m s.1 a true kw).1, s.2)
  | .setValue n ks => ((Params.setValue m s.1 n ks).1, s.2)
  | .unmangle => (Params.unmangle m false s.1, s.2)

/-- Specification: the stored best is the largest reported value, with the parameters then in effect in the `best`
column; nothing is stored if nothing above `-inf` was reported. -/
def BestOk (f : Frame) (h : Hist) : Prop :=
  (∀ p ∈ h, ¬ p.1.gt f.bestLL) ∧
  ((f.bestLL = .ninf ∧ f.hasBest = false) ∨
    (f.hasBest = true ∧ ∃ p ∈ h, p.1 = f.bestLL ∧ ∀ nv ∈ p.2, (rowOf f.rows nv.1).map Row.best = some nv.2))

theorem gt_trans {a b c : X} (h1 : a.gt b) (h2 : b.gt c) : a.gt c := by
  cases a <;> cases b <;> cases c <;> simp only [X.gt] at h1 h2 ⊢ <;> first | trivial | exact lt_trans h2 h1

/-- An operation that leaves the best record alone. -/
def KeepsBest (f f' : Frame) : Prop :=
  f'.bestLL = f.bestLL ∧ f'.hasBest = f.hasBest ∧
  ∀ n r, rowOf f.rows n = some r → ∃ r', rowOf f'.rows n = some r' ∧ r'.best = r.best

theorem KeepsBest.refl (f : Frame) : KeepsBest f f := ⟨rfl, rfl, fun _ r h => ⟨r, h, rfl⟩⟩

theorem KeepsBest.trans {f g h : Frame} (h1 : KeepsBest f g) (h2 : KeepsBest g h) : KeepsBest f h := by
  refine ⟨h2.1.trans h1.1, h2.2.1.trans h1.2.1, fun n r hr => ?_⟩
  obtain ⟨r1, hr1, hb1⟩ := h1.2.2 n r hr
  obtain ⟨r2, hr2, hb2⟩ := h2.2.2 n r1 hr1
  exact ⟨r2, hr2, hb2.trans hb1⟩

theorem keeps_map (f : Frame) (g : Row → Row) (h1 : ∀ r, (g r).name = r.name) (h2 : ∀ r, (g r).best = r.best) :
    KeepsBest f { f with rows := f.rows.map g } := by
  refine ⟨rfl, rfl, fun n r hr => ⟨g r, ?_, h2 r⟩⟩
  simp only
  rw [get_map g h1, hr]; rfl

theorem keeps_unmangle (m : Mentions) (f : Frame) (hnd : f.names.Nodup) : KeepsBest f (unmangle m false f) := by
  refine ⟨?_, ?_, fun n r hr => ⟨r, C20_keeps m false f hnd n r hr, rfl⟩⟩
  · unfold unmangle; cases h : f.mangled <;> simp [h]
  · unfold unmangle; cases h : f.mangled <;> simp [h]

theorem keeps_setKwargs (m : Mentions) (f : Frame) (kw : List (String × X)) (hnd : f.names.Nodup) :
    KeepsBest f (setKwargs m f kw) := by
  unfold setKwargs
  split
  · exact KeepsBest.refl f
  · simp only
    have h1 : KeepsBest f { f with rows := if f.mangled then scanAll m f.rows else f.rows } := by
      refine ⟨rfl, rfl, fun n r hr => ⟨r, ?_, rfl⟩⟩
      simp only
      split
      · rw [scan_get m f.rows hnd, hr]; rfl
      · exact hr
    rw [setNamed_fold]
    refine h1.trans (keeps_map { f with rows := if f.mangled then scanAll m f.rows else f.rows } _ (named_name kw) ?_)
    intro r
    generalize hr : r.best = b
    induction kw generalizing r with
    | nil => exact hr
    | cons kv kw ih =>
      rw [List.foldl_cons]
      by_cases hk : kw = []
      · subst hk
        simp only [List.foldl_nil]
        split <;> exact hr
      · exact ih hk _ (by split <;> exact hr)

theorem keeps_setArray (respect : Bool) (f : Frame) (vs : List X) (hnd : f.names.Nodup) :
    KeepsBest f (setArray respect f vs).1 := by
  have hn := setArray_names respect f vs
  have hnd' : ((setArray respect f vs).1.rows.map Row.name).Nodup := by
    have : (setArray respect f vs).1.names.Nodup := by rw [hn]; exact hnd
    exact this
  unfold setArray at hnd' ⊢
  split
  · exact KeepsBest.refl f
  · next hl =>
    split
    · exact KeepsBest.refl f
    · next ha =>
      refine ⟨rfl, rfl, fun n r hr => ?_⟩
      rw [if_neg hl, if_neg ha] at hnd'
      obtain ⟨i, hi⟩ := List.getElem?_of_mem (get_mem hr)
      have hlt : i < vs.length := by
        have := (List.getElem?_eq_some_iff.mp hi).1
        simp at hl
        omega
      refine ⟨if r.free || !respect then { r with value := vs[i] } else r, ?_, by split <;> rfl⟩
      rw [get_iff hnd']
      refine ⟨?_, by have := get_name hr; split <;> exact this⟩
      refine List.mem_map.mpr ⟨(r, vs[i]), ?_, rfl⟩
      exact List.mem_of_getElem? ((List.getElem?_zip_eq_some (z := (r, vs[i]))).mpr
        ⟨hi, List.getElem?_eq_getElem hlt⟩)

theorem keeps_setValues (m : Mentions) (f : Frame) (a : Arg) (respect : Bool) (kw : List (String × X))
    (hnd : f.names.Nodup) : KeepsBest f (setValues m f a respect kw).1 := by
  have harr : ∀ vs, KeepsBest f (match setArray respect f vs with
      | (f1, some e) => (f1, some e)
      | (f1, none) => (setKwargs m f1 kw, (none : Option String))).1 := by
    intro vs
    have h1 := keeps_setArray respect f vs hnd
    have h2 := setArray_names respect f vs
    split
    · next f1 e he => rw [he] at h1; exact h1
    · next f1 he =>
      rw [he] at h1 h2
      exact h1.trans (keeps_setKwargs m f1 kw (by simp only at h2; rw [h2]; exact hnd))
  unfold setValues
  cases a with
  | none => exact keeps_setKwargs m f kw hnd
  | dict d => exact keeps_setKwargs m f _ hnd
  | scalar x =>
    refine (keeps_map f (fun r => if r.free || !respect then { r with value := x } else r) (fun r => by split <;> rfl)
      (fun r => by split <;> rfl)).trans (keeps_setKwargs m (setScalar respect f x) kw ?_)
    rw [setScalar_names]; exact hnd
  | arr vs => exact harr vs
  | key s =>
    simp only
    split
    · exact KeepsBest.refl f
    · next vs _ => exact harr vs

theorem kwRow_best (hasInit : Bool) (ks : List Kw) : ∀ r : Row, (ks.foldl (kwRow hasInit) r).best = r.best := by
  induction ks with
  | nil => intro r; rfl
  | cons k ks ih =>
    intro r
    rw [List.foldl_cons, ih]
    cases k <;> simp only [kwRow]
    split
    · split <;> rfl
    · rfl

theorem keeps_setValue (m : Mentions) (f : Frame) (n : String) (ks : List Kw) (hnd : f.names.Nodup) :
    KeepsBest f (setValue m f n ks).1 := by
  have h1 : KeepsBest f (if n ∈ f.names then f else unmangle m false f) := by
    split
    · exact KeepsBest.refl f
    · exact keeps_unmangle m f hnd
  unfold setValue
  simp only
  generalize (if n ∈ f.names then f else unmangle m false f) = g at h1
  have h2 : KeepsBest g { g with rows := ks.foldl (applyKw (ks.any Kw.isInit) n) g.rows } := by
    refine ⟨rfl, rfl, fun k r hr => ?_⟩
    by_cases hk : k = n
    · subst hk
      exact ⟨_, foldKw_same _ _ ks _ r hr, kwRow_best _ ks r⟩
    · exact ⟨r, by simp only; rw [foldKw_other _ _ _ hk, hr], rfl⟩
  split
  · exact h1.trans h2
  · split
    · refine (h1.trans h2).trans ⟨rfl, rfl, fun k r hr => ?_⟩
      by_cases hk : k = n
      · subst hk
        refine ⟨if r.null.isNaN then { r with null := .fin 0 } else r, ?_, by split <;> rfl⟩
        simp only at hr ⊢
        rw [setCell_same _ _ _ (fun r => by split <;> rfl), hr]
        rfl
      · exact ⟨r, by simp only at hr ⊢; rw [setCell_other _ _ _ _ (fun r => by split <;> rfl) hk, hr], rfl⟩
    · exact h1.trans h2

theorem bestOk_keeps {f f' : Frame} {h : Hist} (hk : KeepsBest f f') (hb : BestOk f h) : BestOk f' h := by
  obtain ⟨k1, k2, k3⟩ := hk
  obtain ⟨b1, b2⟩ := hb
  refine ⟨by rw [k1]; exact b1, ?_⟩
  rw [k1, k2]
  rcases b2 with b2 | ⟨b2, p, hp, hpe, hv⟩
  · exact Or.inl b2
  · refine Or.inr ⟨b2, p, hp, hpe, fun nv hnv => ?_⟩
    have := hv nv hnv
    cases hr : rowOf f.rows nv.1 with
    | none => rw [hr] at this; cases this
    | some r =>
      rw [hr] at this
      obtain ⟨r', hr', hb'⟩ := k3 nv.1 r hr
      rw [hr', Option.map_some, hb']
      exact this

/-- **C21.** Along any history of reported log likelihoods, parameter changes and clears, the stored best log likelihood
is the largest reported since the last clear, and the `best` column holds the parameter values in effect when it was
reported. -/
theorem C21_best (m : Mentions) (f : Frame) (hnd : f.names.Nodup) (h0 : f.bestLL = .ninf) (h1 : f.hasBest = false)
    (evs : List Ev) :
    BestOk (evs.foldl (stepEv m) (f, [])).1 (evs.foldl (stepEv m) (f, [])).2 := by
  have key : ∀ (evs : List Ev) (s : Frame × Hist), s.1.names.Nodup → BestOk s.1 s.2 →
      BestOk (evs.foldl (stepEv m) s).1 (evs.foldl (stepEv m) s).2 := by
    intro evs
    induction evs with
    | nil => intro s _ hb; exact hb
    | cons e evs ih =>
      intro s hs hb
      rw [List.foldl_cons]
      cases e with
      | report ll =>
        refine ih _ (by simp only [stepEv]; rw [checkIfBest_names]; exact hs) ?_
        simp only [stepEv]
        obtain ⟨b1, b2⟩ := hb
        unfold checkIfBest
        split
        · next hgt =>
          constructor
          · intro p hp
            simp only [List.mem_append, List.mem_singleton] at hp
            rcases hp with hp | rfl
            · exact fun hc => b1 p hp (gt_trans hc hgt)
            · cases ll <;> simp [X.gt]
          · refine Or.inr ⟨rfl, (ll, s.1.values), by simp, rfl, ?_⟩
            intro nv hnv
            obtain ⟨r, hr, rfl⟩ := List.mem_map.mp hnv
            simp only
            rw [get_map _ (by intro; rfl), (get_iff hs).mpr ⟨hr, rfl⟩]
            rfl
        · next hgt =>
          constructor
          · intro p hp
            simp only [List.mem_append, List.mem_singleton] at hp
            rcases hp with hp | rfl
            · exact b1 p hp
            · exact hgt
          · rcases b2 with b2 | ⟨b2, p, hp, h⟩
            · exact Or.inl b2
            · exact Or.inr ⟨b2, p, List.mem_append_left _ hp, h⟩
      | clear =>
        refine ih _ hs ?_
        refine ⟨by simp [stepEv], Or.inl ⟨rfl, rfl⟩⟩
      | setValues a kw =>
        exact ih _ (setValues_nodup m s.1 a true kw hs) (bestOk_keeps (keeps_setValues m s.1 a true kw hs) hb)
      | setValue n ks =>
        exact ih _ (setValue_nodup m s.1 n ks hs) (bestOk_keeps (keeps_setValue m s.1 n ks hs) hb)
      | unmangle =>
        exact ih _ (unmangle_nodup m false s.1 hs) (bestOk_keeps (keeps_unmangle m s.1 hs) hb)
  exact key evs (f, []) hnd ⟨by simp, Or.inl ⟨h0, h1⟩⟩

/-- A history in which the second report is the best. -/
example : ((([.report (.fin (-5)), .setValues (.scalar (.fin 1)) [], .report (.fin (-3)), .setValues (.scalar (.fin 2)) [],
    .report (.fin (-4))] : List Ev).foldl (stepEv ⟨[], [], []⟩) (demoFrame, [])).1).bestLL = .fin (-3) := by
  have h1 : X.gt (.fin (-5)) .ninf := trivial
  have h2 : X.gt (.fin (-3)) (.fin (-5)) := by simp; norm_num
  have h3 : ¬ X.gt (.fin (-4)) (.fin (-3)) := by simp; norm_num
  simp only [List.foldl_cons, List.foldl_nil, stepEv, C18_scalar, checkIfBest, demoFrame, h1, h2, h3, if_true, if_false]

/-! ## C22: loglike_null -/

/-- The parameters at which `loglike_null` evaluates: null values for free parameters. -/
def atNull (f : Frame) : List (String × X) :=
  f.rows.map (fun r => (r.name, if r.holdfast = some 0 then r.null else r.value))

theorem zip_map_self (l : List Row) (g : Row → X) : l.zip (l.map g) = l.map (fun r => (r, g r)) := by
  induction l with
  | nil => rfl
  | cons a l ih => simp [ih]

/-- **C22 (partial).** On a scanned model without a cached value, with numeric values and null values, and when the log
likelihood can be computed: `loglike_null` returns the log likelihood at the null values (of the free parameters), and
afterwards every parameter has its old value and settings. Missing: held-fast parameters are not set to their null value,
the cached value is never invalidated, and an exception leaves the parameters at null (see the `C22_fails` theorems). -/
theorem C22_restores_partial (m : Mentions) (L : List (String × X) → Except String X) (f : Frame) (c : Bool)
    (hm : f.mangled = false) (hc : f.cachedNull = .fin 0 ∨ c = false)
    (hnull : ∀ r ∈ f.rows, r.holdfast = some 0 → r.null ≠ .nan) (hval : ∀ r ∈ f.rows, r.holdfast = some 0 → r.value ≠ .nan)
    (ll : X) (hL : L (atNull f) = .ok ll) :
    (loglikeNull m L f c).2 = .ok ll ∧ (loglikeNull m L f c).1.values = f.values ∧
    (loglikeNull m L f c).1.rows.map (fun r => { r with best := .nan }) = f.rows.map (fun r => { r with best := .nan }) ∧
    (loglikeNull m L f c).1.cachedNull = ll := by
  have hcond : ¬ (f.cachedNull ≠ .fin 0 ∧ c = true) := by
    rintro ⟨h1, h2⟩
    rcases hc with h | h
    · exact h1 h
    · rw [h] at h2; cases h2
  have hu : ∀ g : Frame, g.mangled = false → unmangle m false g = g := by
    intro g hg; simp [unmangle, hg]
  set f1 : Frame := { f with rows := f.rows.map (fun r => if r.holdfast = some 0 then { r with value := r.null } else r) }
    with hf1
  have hv1 : f1.values = atNull f := by
    simp only [hf1, Frame.values, atNull, List.map_map]
    apply List.map_congr_left
    intro r _
    simp only [Function.comp]
    split <;> rfl
  have e2 : loglike m L f1 = (checkIfBest f1 ll, .ok ll) := by
    unfold loglike
    rw [hu f1 hm]
    simp only [hv1, hL]
  -- restoring
  have key : ∀ g : Row → Row, (∀ r, (g r).name = r.name ∧ (g r).init = r.init ∧ (g r).null = r.null ∧ (g r).min = r.min ∧
      (g r).max = r.max ∧ (g r).holdfast = r.holdfast ∧ (r.holdfast ≠ some 0 → (g r).value = r.value)) →
      ∀ h1 h2 h3 h4,
      setValues m ⟨f.rows.map g, h1, h2, h3, h4⟩ (.arr (f.rows.map Row.value)) true [] =
        (⟨f.rows.map (fun r => { r with best := (g r).best }), h1, h2, h3, h4⟩, none) := by
    intro g hg h1 h2 h3 h4
    have hz : (f.rows.map g).zip (f.rows.map Row.value) = f.rows.map (fun r => (g r, r.value)) := by
      generalize f.rows = l
      induction l with
      | nil => rfl
      | cons a l ih => simp [ih]
    have hany : ((f.rows.map g).zip (f.rows.map Row.value)).any (fun p => (p.1.free || !true) && p.2.isNaN) = false := by
      rw [hz, List.any_map, List.any_eq_false]
      intro r hr
      simp only [Function.comp, Bool.not_true, Bool.or_false, Bool.and_eq_true, not_and]
      intro hc hv
      have hfree : r.holdfast = some 0 := by
        have : (g r).holdfast = some 0 := by simpa [Row.free] using hc
        rw [(hg r).2.2.2.2.2.1] at this; exact this
      exact hval r hr hfree (by cases h : r.value <;> simp [h, X.isNaN] at hv ⊢)
    simp only [setValues, setArray, List.length_map, ne_eq, not_true_eq_false, if_false, hany, Bool.false_eq_true,
      setKwargs, if_true]
    rw [hz, List.map_map]
    congr 2
    apply List.map_congr_left
    intro r _
    obtain ⟨g1, g2, g3, g4, g5, g6, g7⟩ := hg r
    simp only [Function.comp, Row.free, Bool.not_true, Bool.or_false, decide_eq_true_eq, g6]
    by_cases hh : r.holdfast = some 0
    · rw [if_pos hh]
      cases hgr : g r
      simp only [hgr] at g1 g2 g3 g4 g5 g6
      simp [g1, g2, g3, g4, g5, g6]
    · rw [if_neg hh]
      have g7' := g7 hh
      cases hgr : g r
      simp only [hgr] at g1 g2 g3 g4 g5 g6 g7'
      simp [g1, g2, g3, g4, g5, g6, g7']
  have e3 : ∃ g : Row → Row, (∀ r, (g r).name = r.name ∧ (g r).init = r.init ∧ (g r).null = r.null ∧ (g r).min = r.min ∧
      (g r).max = r.max ∧ (g r).holdfast = r.holdfast ∧ (r.holdfast ≠ some 0 → (g r).value = r.value)) ∧
      ∃ h1 h3, ({ checkIfBest f1 ll with cachedNull := ll } : Frame) = ⟨f.rows.map g, h1, false, h3, ll⟩ := by
    unfold checkIfBest
    split
    · refine ⟨fun r => { (if r.holdfast = some 0 then { r with value := r.null } else r) with
        best := (if r.holdfast = some 0 then ({ r with value := r.null } : Row) else r).value }, ?_, true, ll, ?_⟩
      · intro r
        by_cases h : r.holdfast = some 0 <;> simp [h]
      · simp [hf1, hm, Function.comp_def]
    · refine ⟨fun r => if r.holdfast = some 0 then { r with value := r.null } else r, ?_, f.hasBest, f.bestLL, ?_⟩
      · intro r
        by_cases h : r.holdfast = some 0 <;> simp [h]
      · simp [hf1, hm]
  obtain ⟨g, hg, h1, h3, e3⟩ := e3
  have final : loglikeNull m L f c = (⟨f.rows.map (fun r => { r with best := (g r).best }), h1, false, h3, ll⟩, .ok ll) := by
    unfold loglikeNull
    rw [if_neg hcond]
    simp only [hu f hm]
    rw [C18_null m f hnull]
    simp only
    rw [← hf1, e2]
    simp only
    rw [e3, key g hg h1 false h3 ll]
  rw [final]
  refine ⟨rfl, ?_, ?_, rfl⟩
  · simp [Frame.values, Function.comp_def]
  · simp [Function.comp_def]

/-- With every held-fast parameter at its null value (as `lock_value` leaves it), "null values" means all parameters. -/
theorem C22_at_null (f : Frame) (h : ∀ r ∈ f.rows, r.holdfast ≠ some 0 → r.value = r.null) :
    atNull f = f.rows.map (fun r => (r.name, r.null)) := by
  unfold atNull
  apply List.map_congr_left
  intro r hr
  by_cases hh : r.holdfast = some 0
  · simp [hh]
  · simp [hh, h r hr hh]

/-- **C22 violated (stale).** Once a non-zero value is cached it is returned whatever the model and data have become. -/
theorem C22_fails_stale (m : Mentions) (L : List (String × X) → Except String X) (f : Frame) (h : f.cachedNull ≠ .fin 0) :
    loglikeNull m L f true = (f, .ok f.cachedNull) := by
  unfold loglikeNull
  rw [if_pos ⟨h, rfl⟩]

/-- **C22 violated (exception).** If the evaluation raises, the free parameters are left at their null values. -/
theorem C22_fails_exception (m : Mentions) (L : List (String × X) → Except String X) (f : Frame) (e : String)
    (hm : f.mangled = false) (hc : f.cachedNull = .fin 0)
    (hnull : ∀ r ∈ f.rows, r.holdfast = some 0 → r.null ≠ .nan) (hL : L (atNull f) = .error e) :
    (loglikeNull m L f true).2 = .error e ∧ (loglikeNull m L f true).1.values = atNull f := by
  have hu : ∀ g : Frame, g.mangled = false → unmangle m false g = g := by
    intro g hg; simp [unmangle, hg]
  set f1 : Frame := { f with rows := f.rows.map (fun r => if r.holdfast = some 0 then { r with value := r.null } else r) }
    with hf1
  have hv1 : f1.values = atNull f := by
    simp only [hf1, Frame.values, atNull, List.map_map]
    apply List.map_congr_left
    intro r _
    simp only [Function.comp]
    split <;> rfl
  have e2 : loglike m L f1 = (f1, .error e) := by
    unfold loglike
    rw [hu f1 hm]
    simp only [hv1, hL]
  have final : loglikeNull m L f true = (f1, .error e) := by
    unfold loglikeNull
    rw [if_neg (by simp [hc])]
    simp only [hu f hm]
    rw [C18_null m f hnull]
    simp only
    rw [← hf1, e2]
  rw [final]
  exact ⟨rfl, hv1⟩

/-- **C22 violated (held-fast).** A parameter held at 5 with null value 0 stays at 5 in the "null" log likelihood. -/
theorem C22_fails_holdfast : atNull demoFrame = [("a", .fin 0), ("b", .fin 5)] := by
  simp [atNull, demoFrame]

example : demoFrame.mangled = false ∧ (∀ r ∈ demoFrame.rows, r.holdfast = some 0 → r.null ≠ .nan) ∧
    (∀ r ∈ demoFrame.rows, r.holdfast = some 0 → r.value ≠ .nan) := by
  simp [demoFrame]

end Larch.Props
