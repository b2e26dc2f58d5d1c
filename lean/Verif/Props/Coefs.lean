import Verif.Model.Coefs
import Verif.Props.Params
import Verif.Props.ParamsStats

/-!
# C95: coefficient tables are applied to, and read back from, a model
-/

namespace Larch.Props

open Larch.Params

/-- A parameter whose name is a number, locked at that number. -/
def lockedRow (j : X) (r : Row) : Row :=
  { r with value := j, init := j, null := j, min := j, max := j, holdfast := some 1 }

/-- A row after a coefficient has been written to it: value, held fast exactly when the table says `T`, bounds as given; the initial
value only when it was missing (NaN), the null value then 0. -/
def coefRow (mn mx : Option X) (c : CoefRow) (r : Row) : Row :=
  { r with
    value := c.value
    holdfast := some (if c.constrain = "T" then 1 else 0)
    min := mn.getD .nan
    max := mx.getD .nan
    init := if r.init.isNaN then c.value else r.init
    null := if r.null.isNaN then .fin 0 else r.null }

theorem setCell_in {rows : List Row} {n : String} (f : Row → Row) (h : n ∈ rows.map Row.name) :
    setCell rows n f = rows.map (fun r => if r.name = n then f r else r) := by
  unfold setCell; rw [if_pos h]

theorem names_cell {rows : List Row} (n : String) (f : Row → Row) (hf : ∀ r, (f r).name = r.name) :
    (rows.map (fun r => if r.name = n then f r else r)).map Row.name = rows.map Row.name := by
  rw [List.map_map]
  apply List.map_congr_left
  intro r _
  simp only [Function.comp]
  split
  · exact hf r
  · rfl

theorem cell_comp {rows : List Row} (n : String) (f g : Row → Row) (hf : ∀ r, (f r).name = r.name) :
    (rows.map (fun r => if r.name = n then f r else r)).map (fun r => if r.name = n then g r else r) =
      rows.map (fun r => if r.name = n then g (f r) else r) := by
  rw [List.map_map]
  apply List.map_congr_left
  intro r _
  simp only [Function.comp]
  by_cases h : r.name = n
  · simp [h, hf]
  · simp [h]

/-- One keyword on one row. -/
def kwCell (hasInit : Bool) (r : Row) : Kw → Row
  | .value x => { r with value := x, init := if hasInit = false ∧ r.init.isNaN = true then x else r.init }
  | .initvalue x => { r with init := x }
  | .nullvalue x => { r with null := x }
  | .minimum x => { r with min := x }
  | .maximum x => { r with max := x }
  | .holdfast k => { r with holdfast := some k }
  | .other => r

theorem kwCell_name (hi : Bool) (r : Row) (k : Kw) : (kwCell hi r k).name = r.name := by
  cases k <;> rfl

theorem applyKw_rows (hi : Bool) (n : String) (rows : List Row) (h : n ∈ rows.map Row.name) (k : Kw) :
    applyKw hi n rows k = rows.map (fun r => if r.name = n then kwCell hi r k else r) := by
  cases k with
  | value x =>
    simp only [applyKw]
    rw [setCell_in _ h]
    have h2 : n ∈ (rows.map (fun r => if r.name = n then { r with value := x } else r)).map Row.name := by
      rw [names_cell]; exact h
      intro r; rfl
    cases hi with
    | true =>
      simp only [Bool.not_true, Bool.false_eq_true, if_false]
      apply List.map_congr_left
      intro r _
      simp [kwCell]
    | false =>
      simp only [Bool.not_false, if_true]
      rw [setCell_in _ h2, cell_comp _ _ _ (by intro r; rfl)]
      apply List.map_congr_left
      intro r _
      split
      · simp only [kwCell, true_and]
        split <;> rfl
      · rfl
  | other =>
    simp only [applyKw, kwCell]
    conv_lhs => rw [← List.map_id rows]
    apply List.map_congr_left
    intro r _
    simp
  | _ => simp only [applyKw]; exact setCell_in _ h

theorem foldl_kw (hi : Bool) (n : String) (ks : List Kw) : ∀ (rows : List Row), n ∈ rows.map Row.name →
    ks.foldl (applyKw hi n) rows = rows.map (fun r => if r.name = n then ks.foldl (kwCell hi) r else r) := by
  induction ks with
  | nil => intro rows _; simp
  | cons k ks ih =>
    intro rows h
    rw [List.foldl_cons, applyKw_rows hi n rows h k, ih _ (by rw [names_cell _ _ (fun r => kwCell_name hi r k)]; exact h),
      cell_comp _ _ _ (fun r => kwCell_name hi r k)]
    rfl

theorem foldl_kwCell_name (hi : Bool) (ks : List Kw) (r : Row) : (ks.foldl (kwCell hi) r).name = r.name := by
  induction ks generalizing r with
  | nil => rfl
  | cons k ks ih => rw [List.foldl_cons, ih, kwCell_name]

theorem lockAt_rows (m : Mentions) (f : Frame) (n : String) (j : X) (h : n ∈ f.names) :
    lockAt m f n j = { f with rows := f.rows.map (fun r => if r.name = n then lockedRow j r else r) } := by
  unfold lockAt setValue
  rw [if_pos h]
  simp only [List.any_cons, Kw.isInit, Kw.isNull, List.any_nil, Bool.or_false, Bool.or_true, Bool.false_or, if_true]
  rw [foldl_kw _ _ _ _ h]
  simp [List.foldl_cons, kwCell, lockedRow]

theorem set_rows (m : Mentions) (f : Frame) (mn mx : Option X) (c : CoefRow) (h : c.name ∈ f.names) :
    (setValue m f c.name [.holdfast (if c.constrain = "T" then 1 else 0), .minimum (mn.getD .nan), .maximum (mx.getD .nan),
      .value c.value]).1 =
      { f with rows := f.rows.map (fun r => if r.name = c.name then coefRow mn mx c r else r) } := by
  unfold setValue
  rw [if_pos h]
  simp only [List.any_cons, Kw.isInit, Kw.isNull, List.any_nil, Bool.or_false, Bool.false_eq_true, if_false]
  rw [foldl_kw _ _ _ _ h]
  have h2 : c.name ∈ (f.rows.map (fun r => if r.name = c.name then ([Kw.holdfast (if c.constrain = "T" then 1 else 0),
      .minimum (mn.getD .nan), .maximum (mx.getD .nan), .value c.value].foldl (kwCell false) r) else r)).map Row.name := by
    rw [names_cell _ _ (fun r => foldl_kwCell_name false _ r)]; exact h
  rw [setCell_in _ h2, cell_comp _ _ _ (fun r => foldl_kwCell_name false _ r)]
  have e : f.rows.map (fun r => if r.name = c.name then
      (fun q : Row => if q.null.isNaN then { q with null := .fin 0 } else q) ([Kw.holdfast (if c.constrain = "T" then 1 else 0),
      .minimum (mn.getD .nan), .maximum (mx.getD .nan), .value c.value].foldl (kwCell false) r) else r) =
      f.rows.map (fun r => if r.name = c.name then coefRow mn mx c r else r) := by
    apply List.map_congr_left
    intro r _
    split
    · simp only [List.foldl_cons, List.foldl_nil, kwCell, coefRow, true_and]
      split <;> rfl
    · rfl
  rw [← e, if_pos h2]

theorem names_mapRow (f : Frame) (g : Row → Row) (hg : ∀ r, (g r).name = r.name) :
    ({ f with rows := f.rows.map g } : Frame).names = f.names := by
  unfold Frame.names
  rw [List.map_map]
  exact List.map_congr_left (fun r _ => hg r)

theorem unmangled (m : Mentions) (f : Frame) (h : f.mangled = false) : unmangle m false f = f := by
  simp [unmangle, h]

/-- What happens to a row: a numeric name is locked, then the coefficients of that name are written. -/
def coefRows (num : String → Option X) (mn mx : Option X) (tab : List CoefRow) (r : Row) : Row :=
  tab.foldl (fun r c => if r.name = c.name then coefRow mn mx c r else r) (match num r.name with
    | none => r
    | some j => lockedRow j r)

theorem explicit_rows (m : Mentions) (num : String → Option X) (f : Frame) (hnd : (unmangle m false f).names.Nodup) :
    explicitValues m num f = { unmangle m false f with rows := (unmangle m false f).rows.map (fun r => match num r.name with
      | none => r
      | some j => lockedRow j r) } := by
  unfold explicitValues
  set f0 := unmangle m false f
  have key : ∀ (l : List String) (g : Frame), l.Nodup → (∀ n ∈ l, n ∈ g.names) →
      l.foldl (fun f n => match num n with | none => f | some j => lockAt m f n j) g =
        { g with rows := g.rows.map (fun r => if r.name ∈ l then (match num r.name with
          | none => r
          | some j => lockedRow j r) else r) } := by
    intro l
    induction l with
    | nil => intro g _ _; simp
    | cons n l ih =>
      intro g hl hg
      rw [List.nodup_cons] at hl
      rw [List.foldl_cons]
      cases hn : num n with
      | none =>
        simp only []
        rw [ih g hl.2 (fun x hx => hg x (by simp [hx]))]
        congr 1
        apply List.map_congr_left
        intro r _
        by_cases hr : r.name = n
        · simp [hr, hl.1, hn]
        · simp [hr]
      | some j =>
        simp only []
        rw [lockAt_rows m g n j (hg n (by simp)), ih _ hl.2]
        · simp only [List.map_map]
          congr 1
          apply List.map_congr_left
          intro r _
          simp only [Function.comp]
          by_cases hr : r.name = n
          · simp [hr, lockedRow, hl.1, hn]
          · simp [hr]
        · intro x hx
          rw [names_mapRow]
          · exact hg x (by simp [hx])
          · intro r; split <;> rfl
  refine (key _ _ hnd (fun n hn => hn)).trans ?_
  congr 1
  apply List.map_congr_left
  intro r hr
  have : r.name ∈ f0.names := List.mem_map.2 ⟨r, hr, rfl⟩
  simp [this]

theorem coefRows_name (num : String → Option X) (mn mx : Option X) (tab : List CoefRow) (r : Row) :
    (coefRows num mn mx tab r).name = r.name := by
  have key : ∀ (tab : List CoefRow) (r : Row),
      (tab.foldl (fun r c => if r.name = c.name then coefRow mn mx c r else r) r).name = r.name := by
    intro tab
    induction tab with
    | nil => intro r; rfl
    | cons c t ih =>
      intro r
      rw [List.foldl_cons, ih]
      split <;> rfl
  unfold coefRows
  rw [key]
  cases num r.name <;> rfl

/-- The whole effect on the frame. -/
theorem applyCoefs_rows (m : Mentions) (num : String → Option X) (tab : List CoefRow) (mn mx : Option X) (f : Frame)
    (hnd : (unmangle m false f).names.Nodup) :
    applyCoefs m num tab mn mx f = { unmangle m false f with rows := (unmangle m false f).rows.map (coefRows num mn mx tab) } := by
  have key : ∀ (tab : List CoefRow) (g : Frame), g.mangled = false →
      tab.foldl (applyRow m mn mx) g =
        { g with rows := g.rows.map (fun r => tab.foldl (fun r c => if r.name = c.name then coefRow mn mx c r else r) r) } := by
    intro tab
    induction tab with
    | nil => intro g _; simp
    | cons c t ih =>
      intro g hg
      have e : applyRow m mn mx g c = { g with rows := g.rows.map (fun r => if r.name = c.name then coefRow mn mx c r else r) } := by
        unfold applyRow
        simp only [unmangled m g hg]
        split
        · rename_i h; exact set_rows m g mn mx c h
        · rename_i h
          have : g.rows.map (fun r => if r.name = c.name then coefRow mn mx c r else r) = g.rows := by
            conv_rhs => rw [← List.map_id g.rows]
            apply List.map_congr_left
            intro r hr
            have : r.name ≠ c.name := fun hh => h (hh ▸ List.mem_map.2 ⟨r, hr, rfl⟩)
            simp [this]
          rw [this]
      rw [List.foldl_cons, e, ih { g with rows := g.rows.map (fun r => if r.name = c.name then coefRow mn mx c r else r) } hg]
      simp only [List.map_map]
      rfl
  have hum : (unmangle m false f).mangled = false := by
    unfold unmangle
    by_cases hm : f.mangled = true <;> simp [hm]
  unfold applyCoefs
  rw [explicit_rows m num f hnd]
  refine (key tab _ ?_).trans ?_
  · exact hum
  simp only [List.map_map]
  rfl

theorem unm_nodup (m : Mentions) (f : Frame) (h : f.names.Nodup) : (unmangle m false f).names.Nodup := by
  unfold unmangle
  by_cases hm : f.mangled = true
  · simp only [Bool.false_eq_true, if_false, hm, Bool.or_false, if_true]
    exact scan_nodup m f.rows h
  · simpa [hm] using h

theorem coefRows_in (num : String → Option X) (mn mx : Option X) (tab : List CoefRow) (htab : (tab.map CoefRow.name).Nodup)
    (r : Row) (c : CoefRow) (hc : c ∈ tab) (hn : c.name = r.name) :
    coefRows num mn mx tab r = coefRow mn mx c (match num r.name with
      | none => r
      | some j => lockedRow j r) := by
  have key : ∀ (tab : List CoefRow), (tab.map CoefRow.name).Nodup → ∀ (r : Row), c ∈ tab → c.name = r.name →
      tab.foldl (fun r c => if r.name = c.name then coefRow mn mx c r else r) r = coefRow mn mx c r := by
    have skip : ∀ (tab : List CoefRow) (r : Row), r.name ∉ tab.map CoefRow.name →
        tab.foldl (fun r c => if r.name = c.name then coefRow mn mx c r else r) r = r := by
      intro tab
      induction tab with
      | nil => intro r _; rfl
      | cons d t ih =>
        intro r h
        simp only [List.map_cons, List.mem_cons, not_or] at h
        rw [List.foldl_cons, if_neg h.1]
        exact ih r h.2
    intro tab
    induction tab with
    | nil => intro _ r h; cases h
    | cons d t ih =>
      intro hd r h hn
      rw [List.map_cons, List.nodup_cons] at hd
      rw [List.foldl_cons]
      rcases List.mem_cons.1 h with rfl | h
      · rw [if_pos hn.symm, skip]
        show r.name ∉ _
        rw [← hn]; exact hd.1
      · have : r.name ≠ d.name := by
          rw [← hn]
          intro hh
          exact hd.1 (hh ▸ List.mem_map.2 ⟨c, h, rfl⟩)
        rw [if_neg this]
        exact ih hd.2 r h hn
  unfold coefRows
  refine key tab htab _ hc ?_
  rw [hn]
  cases num r.name <;> rfl

theorem coefRows_out (num : String → Option X) (mn mx : Option X) (tab : List CoefRow) (r : Row)
    (hn : r.name ∉ tab.map CoefRow.name) : coefRows num mn mx tab r = (match num r.name with
      | none => r
      | some j => lockedRow j r) := by
  have skip : ∀ (tab : List CoefRow) (r : Row), r.name ∉ tab.map CoefRow.name →
      tab.foldl (fun r c => if r.name = c.name then coefRow mn mx c r else r) r = r := by
    intro tab
    induction tab with
    | nil => intro r _; rfl
    | cons d t ih =>
      intro r h
      simp only [List.map_cons, List.mem_cons, not_or] at h
      rw [List.foldl_cons, if_neg h.1]
      exact ih r h.2
  unfold coefRows
  apply skip
  cases num r.name <;> exact hn

/-- **C95 (values).** After the table (without repeated names) is applied: the model has the same parameters as before, in the same
order; every coefficient that is a parameter of the model has the value of the table, and is held fast exactly when the table says
`T`. -/
theorem C95_values (m : Mentions) (num : String → Option X) (tab : List CoefRow) (mn mx : Option X) (f : Frame)
    (hnd : f.names.Nodup) (htab : (tab.map CoefRow.name).Nodup) :
    (applyCoefs m num tab mn mx f).names = (unmangle m false f).names ∧
      ∀ c ∈ tab, c.name ∈ (unmangle m false f).names →
        ∃ r, rowOf (applyCoefs m num tab mn mx f).rows c.name = some r ∧ r.value = c.value ∧
          (r.holdfast = some 1 ↔ c.constrain = "T") ∧ (r.holdfast = some 0 ↔ c.constrain ≠ "T") := by
  have hu := unm_nodup m f hnd
  rw [applyCoefs_rows m num tab mn mx f hu]
  refine ⟨names_mapRow _ _ (coefRows_name num mn mx tab), ?_⟩
  intro c hc hn
  obtain ⟨r, hr⟩ := get_isSome hn
  refine ⟨coefRows num mn mx tab r, ?_, ?_, ?_, ?_⟩
  · rw [get_map _ (coefRows_name num mn mx tab), hr]; rfl
  all_goals rw [coefRows_in num mn mx tab htab r c hc (get_name hr).symm]
  · rfl
  · simp only [coefRow]; split <;> simp_all
  · simp only [coefRow]; split <;> simp_all

/-- **C95 (others).** A parameter that is not in the table keeps its row, unless its name is a number: then it is locked at that
number. -/
theorem C95_others (m : Mentions) (num : String → Option X) (tab : List CoefRow) (mn mx : Option X) (f : Frame)
    (hnd : f.names.Nodup) (n : String) (hn : n ∉ tab.map CoefRow.name) (r : Row)
    (hr : rowOf (unmangle m false f).rows n = some r) :
    rowOf (applyCoefs m num tab mn mx f).rows n = some (match num n with
      | none => r
      | some j => ⟨n, j, j, j, j, j, some 1, r.best⟩) := by
  rw [applyCoefs_rows m num tab mn mx f (unm_nodup m f hnd), get_map _ (coefRows_name num mn mx tab), hr]
  have hrn := get_name hr
  rw [Option.map_some, coefRows_out num mn mx tab r (by rw [hrn]; exact hn), hrn]
  cases num n with
  | none => rfl
  | some j => simp [lockedRow, hrn]

/-- **C95 (initial and null values).** For a coefficient whose name is not a number the initial value is kept (unless it was missing:
then it becomes the table's value), and so is the null value (0 if it was missing). -/
theorem C95_init (m : Mentions) (num : String → Option X) (tab : List CoefRow) (mn mx : Option X) (f : Frame)
    (hnd : f.names.Nodup) (htab : (tab.map CoefRow.name).Nodup) (c : CoefRow) (hc : c ∈ tab) (hnum : num c.name = none) (r : Row)
    (hr : rowOf (unmangle m false f).rows c.name = some r) :
    ∃ r', rowOf (applyCoefs m num tab mn mx f).rows c.name = some r' ∧
      (r.init ≠ .nan → r'.init = r.init) ∧ (r.init = .nan → r'.init = c.value) ∧
      (r.null ≠ .nan → r'.null = r.null) ∧ (r.null = .nan → r'.null = .fin 0) ∧ r'.best = r.best := by
  rw [applyCoefs_rows m num tab mn mx f (unm_nodup m f hnd), get_map _ (coefRows_name num mn mx tab), hr]
  refine ⟨_, rfl, ?_⟩
  have hrn := get_name hr
  rw [coefRows_in num mn mx tab htab r c hc hrn.symm, hrn, hnum]
  have hnan : ∀ x : X, x.isNaN = true ↔ x = .nan := by intro x; cases x <;> simp [X.isNaN]
  refine ⟨fun h => ?_, fun h => ?_, fun h => ?_, fun h => ?_, rfl⟩ <;> simp [coefRow, hnan, h]

/-- **C95 (given bounds).** For one model, bounds given to the call are the bounds of every coefficient applied. -/
theorem C95_bounds (m : Mentions) (num : String → Option X) (tab : List CoefRow) (lo hi : X) (f : Frame)
    (hnd : f.names.Nodup) (htab : (tab.map CoefRow.name).Nodup) (c : CoefRow) (hc : c ∈ tab)
    (hn : c.name ∈ (unmangle m false f).names) :
    ∃ r, rowOf (applyCoefs m num tab (some lo) (some hi) f).rows c.name = some r ∧ r.min = lo ∧ r.max = hi := by
  obtain ⟨r, hr⟩ := get_isSome hn
  rw [applyCoefs_rows m num tab _ _ f (unm_nodup m f hnd), get_map _ (coefRows_name num _ _ tab), hr]
  refine ⟨_, rfl, ?_⟩
  rw [coefRows_in num _ _ tab htab r c hc (get_name hr).symm]
  exact ⟨rfl, rfl⟩

/-- **C95 (reading back).** Reading the coefficients from the model to which they were just applied gives the same table. -/
theorem C95_read_back (m : Mentions) (num : String → Option X) (tab : List CoefRow) (mn mx : Option X) (f : Frame)
    (hnd : f.names.Nodup) (htab : (tab.map CoefRow.name).Nodup) :
    updateCoefs m tab (applyCoefs m num tab mn mx f) = tab := by
  have hum : (applyCoefs m num tab mn mx f).mangled = false := by
    rw [applyCoefs_rows m num tab mn mx f (unm_nodup m f hnd)]
    unfold unmangle
    by_cases hm : f.mangled = true <;> simp [hm]
  unfold updateCoefs
  simp only [unmangled m _ hum]
  conv_rhs => rw [← List.map_id tab]
  apply List.map_congr_left
  intro c hc
  cases hr : rowOf (applyCoefs m num tab mn mx f).rows c.name with
  | none => rfl
  | some r =>
    have hn : c.name ∈ (unmangle m false f).names := by
      rw [← (C95_values m num tab mn mx f hnd htab).1]
      by_contra hh
      rw [get_none.2 hh] at hr
      cases hr
    obtain ⟨r', h1, h2, -⟩ := (C95_values m num tab mn mx f hnd htab).2 c hc hn
    rw [hr] at h1
    obtain rfl := Option.some.inj h1
    simp [h2]

/-- **C95 (reading estimates).** For any later state of the model, reading the coefficients replaces the values of those that are
parameters by their current values, and leaves names, order, `constrain` and the other values alone. -/
theorem C95_update (m : Mentions) (tab : List CoefRow) (f : Frame) :
    (updateCoefs m tab f).map (fun c => (c.name, c.constrain)) = tab.map (fun c => (c.name, c.constrain)) ∧
      ∀ (i : Nat) (c : CoefRow), tab[i]? = some c →
        (updateCoefs m tab f)[i]? = some { c with value := match rowOf (unmangle m false f).rows c.name with
          | some r => r.value
          | none => c.value } := by
  refine ⟨?_, ?_⟩
  · unfold updateCoefs
    rw [List.map_map]
    apply List.map_congr_left
    intro c _
    simp only [Function.comp]
    split <;> rfl
  · intro i c hc
    unfold updateCoefs
    refine (List.getElem?_map ..).trans ?_
    rw [hc]
    simp only [Option.map_some]
    cases rowOf (unmangle m false f).rows c.name <;> rfl

/-- **C95 (twice).** Applying the same table again changes nothing. -/
theorem C95_twice (m : Mentions) (num : String → Option X) (tab : List CoefRow) (mn mx : Option X) (f : Frame)
    (hnd : f.names.Nodup) (htab : (tab.map CoefRow.name).Nodup) :
    applyCoefs m num tab mn mx (applyCoefs m num tab mn mx f) = applyCoefs m num tab mn mx f := by
  have hu := unm_nodup m f hnd
  have e := applyCoefs_rows m num tab mn mx f hu
  have hum : (applyCoefs m num tab mn mx f).mangled = false := by
    rw [e]
    unfold unmangle
    by_cases hm : f.mangled = true <;> simp [hm]
  have hn2 : (applyCoefs m num tab mn mx f).names.Nodup := by
    rw [(C95_values m num tab mn mx f hnd htab).1]; exact hu
  rw [applyCoefs_rows m num tab mn mx _ (unm_nodup m _ hn2), unmangled m _ hum]
  have : (applyCoefs m num tab mn mx f).rows.map (coefRows num mn mx tab) = (applyCoefs m num tab mn mx f).rows := by
    rw [e]
    simp only [List.map_map]
    apply List.map_congr_left
    intro r _
    simp only [Function.comp]
    by_cases hin : r.name ∈ tab.map CoefRow.name
    · obtain ⟨c, hc, hcn⟩ := List.mem_map.1 hin
      have h1 := coefRows_in num mn mx tab htab r c hc hcn
      rw [coefRows_in num mn mx tab htab (coefRows num mn mx tab r) c hc (by rw [coefRows_name]; exact hcn), coefRows_name, h1]
      cases num r.name with
      | none =>
        simp only [coefRow]
        congr 1
        · split <;> simp_all
        · cases r.null <;> rfl
      | some j => rfl
    · have h1 := coefRows_out num mn mx tab r hin
      rw [coefRows_out num mn mx tab (coefRows num mn mx tab r) (by rw [coefRows_name]; exact hin), coefRows_name, h1]
      cases num r.name <;> rfl
  rw [this]

/-- A model with a logsum parameter, and a table that names it, a parameter it does not have, and a fixed coefficient. -/
noncomputable def coefFrame : Frame :=
  ⟨[⟨"0.5", .fin 0, .fin 0, .fin 0, .ninf, .pinf, some 0, .nan⟩, ⟨"asc", .fin 0, .fin 0, .fin 0, .ninf, .pinf, some 0, .nan⟩,
    ⟨"cost", .fin 0, .nan, .fin 0, .ninf, .fin 0, some 0, .nan⟩, ⟨"mu", .fin 1, .fin 1, .fin 1, .fin (1 / 1000), .fin 1, some 0, .nan⟩],
   false, false, .ninf, .fin 0⟩

noncomputable def coefTab : List CoefRow := [⟨"mu", .fin (1 / 2), "F"⟩, ⟨"asc", .fin 3, "T"⟩, ⟨"nowhere", .fin 7, "F"⟩]

example : coefFrame.names.Nodup ∧ (coefTab.map CoefRow.name).Nodup ∧ "mu" ∈ (unmangle ⟨[], [], []⟩ false coefFrame).names := by
  refine ⟨by decide +kernel, by simp [coefTab], ?_⟩
  rw [unmangled _ _ rfl]
  decide +kernel

/-- **C95 violated (bounds lost).** Without bounds in the call, the bounds of every coefficient applied become NaN, whatever they
were: the range (0.001, 1] of a logsum parameter, for example. -/
theorem C95_fails_bounds (m : Mentions) (num : String → Option X) (tab : List CoefRow) (f : Frame)
    (hnd : f.names.Nodup) (htab : (tab.map CoefRow.name).Nodup) (c : CoefRow) (hc : c ∈ tab)
    (hn : c.name ∈ (unmangle m false f).names) :
    ∃ r, rowOf (applyCoefs m num tab none none f).rows c.name = some r ∧ r.min = .nan ∧ r.max = .nan := by
  obtain ⟨r, hr⟩ := get_isSome hn
  rw [applyCoefs_rows m num tab _ _ f (unm_nodup m f hnd), get_map _ (coefRows_name num _ _ tab), hr]
  refine ⟨_, rfl, ?_⟩
  rw [coefRows_in num _ _ tab htab r c hc (get_name hr).symm]
  exact ⟨rfl, rfl⟩

/-- **C95 violated (several models).** Bounds given for a dictionary of models are ignored; every coefficient ends up with NaN for
both. -/
theorem C95_fails_many (num : String → Option X) (tab : List CoefRow) (mn mx : Option X) (ms : List (Mentions × Frame))
    (htab : (tab.map CoefRow.name).Nodup) (i : Nat) (m : Mentions) (f : Frame) (hi : ms[i]? = some (m, f)) (hnd : f.names.Nodup)
    (c : CoefRow) (hc : c ∈ tab) (hn : c.name ∈ (unmangle m false f).names) :
    ∃ f' r, (applyCoefsAll num tab mn mx ms)[i]? = some f' ∧ rowOf f'.rows c.name = some r ∧ r.min = .nan ∧ r.max = .nan := by
  obtain ⟨r, h1, h2, h3⟩ := C95_fails_bounds m num tab f hnd htab c hc hn
  exact ⟨_, r, by simp [applyCoefsAll, hi], h1, h2, h3⟩

/-- **C95 violated (constants released).** A parameter whose name is a number is locked at it, but a table row of that name that is
not marked `T` sets another value and releases it. -/
theorem C95_fails_constant (m : Mentions) (num : String → Option X) (n : String) (j v : X) (f : Frame)
    (hnd : f.names.Nodup) (hn : n ∈ (unmangle m false f).names) (hj : num n = some j) :
    (∃ r, rowOf (explicitValues m num f).rows n = some r ∧ r.value = j ∧ r.holdfast = some 1) ∧
      ∃ r, rowOf (applyCoefs m num [⟨n, v, "F"⟩] none none f).rows n = some r ∧ r.value = v ∧ r.holdfast = some 0 := by
  constructor
  · obtain ⟨r, hr⟩ := get_isSome hn
    rw [explicit_rows m num f (unm_nodup m f hnd), get_map _ (by intro r; cases num r.name <;> rfl), hr]
    refine ⟨_, rfl, ?_⟩
    have hrn := get_name hr
    simp only [hrn, hj]
    exact ⟨rfl, rfl⟩
  · obtain ⟨r, h1, h2, h3, h4⟩ := (C95_values m num [⟨n, v, "F"⟩] none none f hnd (by simp)).2 _ (List.mem_singleton.2 rfl) hn
    exact ⟨r, h1, h2, h4.2 (show "F" ≠ "T" by decide)⟩

end Larch.Props
