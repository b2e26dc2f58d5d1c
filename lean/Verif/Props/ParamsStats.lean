import Verif.Props.ParamsOps
import Verif.Model.ParamsStats

/-!
# C87: likelihood ratios and rho squared
-/

namespace Larch.Props

open Larch.Params

/-! ## Specification -/

/-- The parameter values with one replaced. -/
def withValue (vs : List (String × X)) (p : String) (x : X) : List (String × X) :=
  vs.map (fun q => if q.1 = p then (q.1, x) else q)

/-- The settings of the parameters: everything in the frame but the record of the best values. -/
def settings (f : Frame) : List (String × X × X × X × X × X × Option Int) :=
  f.rows.map (fun r => (r.name, r.value, r.init, r.null, r.min, r.max, r.holdfast))

/-- No initial or null value is missing. -/
def Complete (f : Frame) : Prop := ∀ r ∈ f.rows, r.init ≠ .nan ∧ r.null ≠ .nan

/-! ## Lemmas -/

def core (r : Row) : Row := { r with best := .nan }

theorem core_null {r r' : Row} (h : core r = core r') : r.null = r'.null := by
  have : (core r).null = (core r').null := by rw [h]
  exact this

theorem core_value {r r' : Row} (h : core r = core r') : r.value = r'.value := by
  have : (core r).value = (core r').value := by rw [h]
  exact this

theorem core_holdfast {r r' : Row} (h : core r = core r') : r.holdfast = r'.holdfast := by
  have : (core r).holdfast = (core r').holdfast := by rw [h]
  exact this

theorem settings_core {f g : Frame} (h : f.rows.map core = g.rows.map core) : settings f = settings g := by
  have e : ∀ l : List Row, l.map (fun r => (r.name, r.value, r.init, r.null, r.min, r.max, r.holdfast)) =
      (l.map core).map (fun r => (r.name, r.value, r.init, r.null, r.min, r.max, r.holdfast)) := by
    intro l; rw [List.map_map]; rfl
  exact (e _).trans ((congrArg _ h).trans (e _).symm)

theorem values_core {f g : Frame} (h : f.rows.map core = g.rows.map core) : f.values = g.values := by
  have e : ∀ l : List Row, l.map (fun r => (r.name, r.value)) = (l.map core).map (fun r => (r.name, r.value)) := by
    intro l; rw [List.map_map]; rfl
  exact (e _).trans ((congrArg _ h).trans (e _).symm)

theorem names_core {f g : Frame} (h : f.rows.map core = g.rows.map core) : f.names = g.names := by
  have e : ∀ l : List Row, l.map Row.name = (l.map core).map Row.name := by
    intro l; rw [List.map_map]; rfl
  exact (e _).trans ((congrArg _ h).trans (e _).symm)

theorem rowOf_core {f g : Frame} (h : f.rows.map core = g.rows.map core) (n : String) :
    (rowOf f.rows n).map core = (rowOf g.rows n).map core := by
  rw [← get_map core (by intro; rfl), ← get_map core (by intro; rfl), h]

theorem complete_core {f g : Frame} (h : f.rows.map core = g.rows.map core) (hc : Complete f) : Complete g := by
  intro r hr
  have : core r ∈ f.rows.map core := by rw [h]; exact List.mem_map_of_mem hr
  obtain ⟨r', hr', e⟩ := List.mem_map.mp this
  have h1 := hc r' hr'
  have e1 : (core r').init = (core r).init := by rw [e]
  have e2 : (core r').null = (core r).null := by rw [e]
  change r'.init = r.init at e1
  change r'.null = r.null at e2
  rw [← e1, ← e2]; exact h1

theorem isNaN_false {x : X} (h : x ≠ .nan) : x.isNaN = false := by
  cases x <;> simp_all [X.isNaN]

theorem setCell_mem {rows : List Row} {n : String} (h : n ∈ rows.map Row.name) (f : Row → Row) :
    setCell rows n f = rows.map (fun r => if r.name = n then f r else r) := if_pos h

/-- One value changed. -/
def edit (f : Frame) (p : String) (x : X) : Frame :=
  { f with rows := f.rows.map (fun r => if r.name = p then { r with value := x } else r) }

/-- `set_value(p, x)` on a complete frame changes one value and nothing else. -/
theorem setValue_plain (m : Mentions) (f : Frame) (p : String) (x : X) (hc : Complete f) (hp : p ∈ f.names) :
    setValue m f p [.value x] = (edit f p x, none) := by
  have hmem : ∀ g : Row → Row, (∀ r, (g r).name = r.name) → ∀ l : List Row, l.map Row.name = f.rows.map Row.name →
      (setCell l p g).map Row.name = f.rows.map Row.name := by
    intro g hg l hl
    rw [setCell_names l p g hg, if_pos (by rw [hl]; exact hp), hl]
  have e1 : [Kw.value x].foldl (applyKw false p) f.rows =
      f.rows.map (fun r => if r.name = p then { r with value := x } else r) := by
    simp only [List.foldl_cons, List.foldl_nil, applyKw, Bool.not_false, if_true]
    rw [setCell_mem hp]
    rw [setCell_mem]
    · rw [List.map_map]
      apply List.map_congr_left
      intro r hr
      have := isNaN_false (hc r hr).1
      by_cases hn : r.name = p <;> simp [hn, this]
    · have := hmem (fun r => { r with value := x }) (by intro; rfl) f.rows rfl
      rw [setCell_mem hp] at this
      rw [this]; exact hp
  have hm2 : p ∈ (f.rows.map (fun r => if r.name = p then { r with value := x } else r)).map Row.name := by
    have := hmem (fun r => { r with value := x }) (by intro; rfl) f.rows rfl
    rw [setCell_mem hp] at this
    rw [this]; exact hp
  unfold setValue
  simp only [hp, if_true, List.any_cons, List.any_nil, Kw.isInit, Kw.isNull, Bool.or_false, Bool.false_eq_true, if_false]
  rw [e1, if_pos hm2, setCell_mem hm2]
  simp only [edit]
  congr 2
  rw [List.map_map]
  apply List.map_congr_left
  intro r hr
  have := isNaN_false (hc r hr).2
  by_cases hn : r.name = p <;> simp [hn, this]

theorem unmangle_done (m : Mentions) (f : Frame) : (unmangle m false f).mangled = false := by
  cases h : f.mangled <;> simp [unmangle, h]

theorem unmangle_noop (m : Mentions) (f : Frame) (h : f.mangled = false) : unmangle m false f = f := by
  simp [unmangle, h]

/-- An evaluation leaves the settings alone. -/
theorem loglike_core (m : Mentions) (L : List (String × X) → Except String X) (f : Frame) (h : f.mangled = false) :
    (loglike m L f).1.rows.map core = f.rows.map core ∧ (loglike m L f).1.mangled = false ∧
    (loglike m L f).2 = L f.values := by
  unfold loglike
  simp only
  rw [unmangle_noop m f h]
  split
  · next e he => exact ⟨rfl, h, he.symm⟩
  · next ll he =>
    refine ⟨?_, ?_, he.symm⟩
    · simp only [checkIfBest]
      split
      · simp only [List.map_map]; rfl
      · rfl
    · simp only [checkIfBest]
      split <;> exact h

theorem withValue_rows (f : Frame) (p : String) (x : X) :
    (edit f p x).values = withValue f.values p x := by
  simp only [edit, Frame.values, withValue, List.map_map]
  apply List.map_congr_left
  intro r _
  by_cases h : r.name = p <;> simp [h]

theorem restore_core {f g : Frame} {p : String} {x y : X} {r : Row}
    (h : g.rows.map core = (f.rows.map (fun r => if r.name = p then { r with value := x } else r)).map core)
    (hr : rowOf f.rows p = some r) (hy : y = r.value) (hnd : f.names.Nodup) :
    (g.rows.map (fun r => if r.name = p then { r with value := y } else r)).map core = f.rows.map core := by
  have e : (g.rows.map (fun r => if r.name = p then { r with value := y } else r)).map core =
      (g.rows.map core).map (fun r => if r.name = p then { r with value := y } else r) := by
    rw [List.map_map, List.map_map]
    apply List.map_congr_left
    intro r _
    by_cases hn : r.name = p <;> simp [core, hn]
  rw [e, h, List.map_map, List.map_map]
  apply List.map_congr_left
  intro r' hr'
  by_cases hn : r'.name = p
  · have h1 : rowOf f.rows r'.name = some r' := (get_iff hnd).mpr ⟨hr', rfl⟩
    rw [hn, hr] at h1
    cases h1
    simp [core, hn, hy]
  · simp [core, hn]

/-- What one ratio does. -/
theorem ratioOne_spec (m : Mentions) (L : List (String × X) → Except String X) (a b : X) (ref : Option X) (s : LR)
    (p : String) (r : Row) (hm : s.frame.mangled = false) (hnd : s.frame.names.Nodup) (hc : Complete s.frame)
    (hr : rowOf s.frame.rows p = some r) (hb : L (withValue s.frame.values p (ref.getD r.null)) = .ok b) :
    ∃ s', ratioOne m L a ref s p =
        (s', .ok (if feq (ref.getD r.null) r.value then .fin 0 else a - b)) ∧
      s'.frame.rows.map core = s.frame.rows.map core ∧ s'.frame.mangled = false ∧
      ∀ n, s'.col n = if ref = none ∧ n = p then (if feq (ref.getD r.null) r.value then .fin 0 else a - b) else s.col n := by
  have hp : p ∈ s.frame.names := by
    by_contra hc
    rw [get_none.mpr hc] at hr; cases hr
  unfold ratioOne
  simp only
  rw [unmangle_noop m _ hm, hr]
  simp only
  by_cases hf : feq (ref.getD r.null) r.value = true
  · rw [if_pos hf, if_pos hf]
    refine ⟨_, rfl, ?_, ?_, ?_⟩
    · cases ref <;> rfl
    · cases ref <;> exact hm
    · intro n
      cases ref <;> simp [LR.write]
  · rw [if_neg hf, if_neg hf, setValue_plain m _ p _ hc hp]
    simp only
    have hl := loglike_core m L
      (edit s.frame p (ref.getD r.null)) hm
    rw [withValue_rows, hb] at hl
    cases hll : loglike m L
      (edit s.frame p (ref.getD r.null))
      with
    | mk f2 res =>
    rw [hll] at hl
    obtain ⟨h1, h2, h3⟩ := hl
    simp only at h1 h2 h3
    subst h3
    simp only
    have hn2 : p ∈ f2.names := by
      have := names_core (f := f2) (g := edit s.frame p (ref.getD r.null)) h1
      rw [this]
      simp only [edit, Frame.names, List.map_map]
      obtain ⟨r0, hr0, e⟩ := List.mem_map.mp hp
      refine List.mem_map.mpr ⟨r0, hr0, ?_⟩
      simp [e]
    have hc2 : Complete f2 := by
      refine complete_core (f := edit s.frame p (ref.getD r.null)) h1.symm ?_
      intro r' hr'
      obtain ⟨r0, hr0, e⟩ := List.mem_map.mp hr'
      have := hc r0 hr0
      rw [← e]
      split <;> exact this
    rw [setValue_plain m f2 p _ hc2 hn2]
    simp only
    refine ⟨_, rfl, ?_, ?_, ?_⟩
    · have := restore_core h1 hr rfl hnd
      cases ref <;> exact this
    · cases ref <;> exact h2
    · intro n
      cases ref <;> simp [LR.write]

/-! ## C87 -/

/-- **C87 (one parameter).** For any model whose parameter names are distinct and whose initial and null values are all given,
any log likelihood function and any reference value (by default the null value): if the log likelihood is `a` at the current
values and `b` with the one parameter changed to the reference value, `likelihood_ratio` returns `a - b`, and afterwards all
settings of all parameters, held fast or not, are what they were.  The column `likelihood_ratio` of the frame gets the result
when the reference is the null value, and is otherwise left alone. -/
theorem C87_single (m : Mentions) (L : List (String × X) → Except String X) (s : LR) (p : String) (ref : Option X) (r : Row)
    (a b : ℝ) (hm : s.frame.mangled = false) (hnd : s.frame.names.Nodup) (hc : Complete s.frame)
    (hr : rowOf s.frame.rows p = some r) (ha : L s.frame.values = .ok (.fin a))
    (hb : L (withValue s.frame.values p (ref.getD r.null)) = .ok (.fin b)) :
    (likelihoodRatio m L s p ref).2 = .ok (.fin (a - b)) ∧
    settings (likelihoodRatio m L s p ref).1.frame = settings s.frame ∧
    (∀ n, (likelihoodRatio m L s p ref).1.col n = if ref = none ∧ n = p then .fin (a - b) else s.col n) := by
  have hl := loglike_core m L s.frame hm
  unfold likelihoodRatio
  cases hll : loglike m L s.frame with
  | mk f res =>
  rw [hll] at hl
  obtain ⟨h1, h2, h3⟩ := hl
  simp only at h1 h2 h3
  rw [ha] at h3
  subst h3
  simp only
  have hr' := rowOf_core (f := f) (g := s.frame) h1 p
  rw [hr] at hr'
  obtain ⟨r', e', er⟩ := Option.map_eq_some_iff.mp hr'
  have e1 : r'.null = r.null := core_null er
  have e2 : r'.value = r.value := core_value er
  obtain ⟨s', q1, q2, q3, q4⟩ := ratioOne_spec m L (.fin a) (.fin b) ref { s with frame := f } p r' h2
    (by simp only; rw [names_core h1]; exact hnd) (complete_core h1.symm hc) e'
    (by simp only; rw [values_core h1, e1]; exact hb)
  rw [q1]
  -- the shortcut for an unchanged value
  have hz : (if feq (ref.getD r'.null) r'.value then X.fin 0 else X.fin a - X.fin b) = X.fin (a - b) := by
    by_cases hf : feq (ref.getD r'.null) r'.value = true
    · rw [if_pos hf]
      have heq : ref.getD r'.null = r'.value := by
        unfold feq at hf
        simp only [Bool.and_eq_true, decide_eq_true_eq] at hf
        exact hf.1
      have hw : withValue s.frame.values p (ref.getD r.null) = s.frame.values := by
        rw [← e1, heq, e2]
        simp only [withValue, Frame.values, List.map_map]
        apply List.map_congr_left
        intro r0 hr0
        by_cases hn : r0.name = p
        · have h9 : rowOf s.frame.rows r0.name = some r0 := (get_iff hnd).mpr ⟨hr0, rfl⟩
          rw [hn, hr] at h9
          cases h9
          simp
        · simp [hn]
      rw [hw, ha] at hb
      cases hb
      simp
    · rw [if_neg hf, X.fin_sub]
  refine ⟨?_, ?_, ?_⟩
  · simp only; rw [hz]
  · exact settings_core (q2.trans h1)
  · intro n
    simp only
    rw [q4 n, hz]

theorem ratioLoop_spec (m : Mentions) (L : List (String × X) → Except String X) (a : X) (g : Frame) (ref : Option X)
    (ih : Bool) (alt : String → X) (hnd : g.names.Nodup) (hc : Complete g)
    (hL : ∀ n r, rowOf g.rows n = some r → (r.holdfast = some 0 ∨ ih = true) →
      L (withValue g.values n (ref.getD r.null)) = .ok (alt n)) :
    ∀ (ps : List String) (s : LR) (acc : String → X), s.frame.rows.map core = g.rows.map core → s.frame.mangled = false →
      (∀ p ∈ ps, p ∈ g.names) →
      ∃ s' res, ratioLoop m L a ref ih ps s acc = (s', .ok res) ∧ s'.frame.rows.map core = g.rows.map core ∧
        s'.frame.mangled = false ∧
        ∀ n, res n = match rowOf g.rows n with
          | none => acc n
          | some r => if n ∈ ps ∧ (r.holdfast = some 0 ∨ ih = true) then
              (if feq (ref.getD r.null) r.value then .fin 0 else a - alt n) else acc n := by
  intro ps
  induction ps with
  | nil =>
    intro s acc h1 h2 _
    refine ⟨s, acc, rfl, h1, h2, ?_⟩
    intro n
    cases rowOf g.rows n <;> simp
  | cons p ps ihl =>
    intro s acc h1 h2 h3
    unfold ratioLoop
    simp only
    rw [unmangle_noop m _ h2]
    obtain ⟨r, hr⟩ := get_isSome (h3 p (by simp))
    have hr' := rowOf_core h1 p
    rw [hr] at hr'
    obtain ⟨r', e', er⟩ := Option.map_eq_some_iff.mp hr'
    have e1 : r'.null = r.null := core_null er
    have e2 : r'.value = r.value := core_value er
    have e3 : r'.holdfast = r.holdfast := core_holdfast er
    rw [e']
    simp only
    by_cases hcond : r.holdfast = some 0 ∨ ih = true
    · have hcb : (decide (r'.holdfast = some 0) || ih) = true := by
        rw [e3]; rcases hcond with h | h <;> simp [h]
      rw [if_pos hcb]
      obtain ⟨s', q1, q2, q3, q4⟩ := ratioOne_spec m L a (alt p) ref s p r' h2
        (by rw [names_core h1]; exact hnd) (complete_core h1.symm hc) e'
        (by rw [values_core h1, e1]; exact hL p r hr hcond)
      have e0 : ({ s with frame := s.frame } : LR) = s := rfl
      rw [e0, q1]
      simp only
      obtain ⟨s2, res, w1, w2, w3, w4⟩ := ihl s'
        (fun n => if n = p then (if feq (ref.getD r'.null) r'.value then .fin 0 else a - alt p) else acc n)
        (q2.trans h1) q3 (fun q hq => h3 q (by simp [hq]))
      refine ⟨s2, res, w1, w2, w3, ?_⟩
      intro n
      rw [w4 n]
      by_cases hn : n = p
      · subst hn
        rw [hr]
        simp only [if_true, e1, e2, List.mem_cons, true_or, true_and, if_pos hcond]
        split <;> rfl
      · cases hg : rowOf g.rows n with
        | none => simp [hn]
        | some rn => simp [hn]
    · have hcb : ¬ (decide (r'.holdfast = some 0) || ih) = true := by
        rw [e3]; push Not at hcond; simp [hcond]
      rw [if_neg hcb]
      have e0 : ({ s with frame := s.frame } : LR) = s := rfl
      rw [e0]
      obtain ⟨s2, res, w1, w2, w3, w4⟩ := ihl s acc h1 h2 (fun q hq => h3 q (by simp [hq]))
      refine ⟨s2, res, w1, w2, w3, ?_⟩
      intro n
      rw [w4 n]
      by_cases hn : n = p
      · subst hn
        rw [hr]
        simp [hcond]
      · cases hg : rowOf g.rows n with
        | none => simp
        | some rn => simp [hn]

/-- **C87 (several parameters).** Without names (or with any list of parameters of the model) the result has one entry per
parameter asked for, in order: NaN for a parameter held fast (unless `include_holdfast`), otherwise the log likelihood `a` at
the current values minus the log likelihood `alt p` with that parameter alone changed to the reference (null) value; and all
settings are afterwards what they were. -/
theorem C87_all (m : Mentions) (L : List (String × X) → Except String X) (s : LR) (ps : Option (List String))
    (ref : Option X) (inc : Bool) (a : ℝ) (alt : String → ℝ) (hm : s.frame.mangled = false) (hnd : s.frame.names.Nodup)
    (hc : Complete s.frame) (hps : ∀ l, ps = some l → ∀ p ∈ l, p ∈ s.frame.names)
    (ha : L s.frame.values = .ok (.fin a))
    (hL : ∀ n r, rowOf s.frame.rows n = some r → (r.holdfast = some 0 ∨ inc = true) →
      L (withValue s.frame.values n (ref.getD r.null)) = .ok (.fin (alt n))) :
    (likelihoodRatios m L s ps ref inc).2 = .ok ((ps.getD s.frame.names).map (fun p => (p,
      if (rowOf s.frame.rows p).bind Row.holdfast = some 0 ∨ inc = true then X.fin (a - alt p) else .nan))) ∧
    settings (likelihoodRatios m L s ps ref inc).1.frame = settings s.frame := by
  have hl := loglike_core m L s.frame hm
  unfold likelihoodRatios
  cases hll : loglike m L s.frame with
  | mk f res =>
  rw [hll] at hl
  obtain ⟨h1, h2, h3⟩ := hl
  simp only at h1 h2 h3
  rw [ha] at h3
  subst h3
  simp only
  rw [unmangle_noop m f h2]
  have hidx : ps.getD f.names = ps.getD s.frame.names := by rw [names_core h1]
  obtain ⟨s', res, w1, w2, w3, w4⟩ := ratioLoop_spec m L (.fin a) s.frame ref inc (fun n => .fin (alt n)) hnd hc hL
    (ps.getD f.names) { s with frame := f } (fun _ => .nan) h1 h2 (by
      intro p hp
      rw [hidx] at hp
      cases ps with
      | none => exact hp
      | some l => exact hps l rfl p hp)
  rw [w1]
  refine ⟨?_, settings_core w2⟩
  simp only
  rw [hidx]
  congr 1
  apply List.map_congr_left
  intro p hp
  have hpn : p ∈ s.frame.names := by
    cases ps with
    | none => exact hp
    | some l => exact hps l rfl p hp
  obtain ⟨r, hr⟩ := get_isSome hpn
  rw [w4 p, hr]
  simp only [Option.bind_some]
  rw [hidx]
  by_cases hcond : r.holdfast = some 0 ∨ inc = true
  · rw [if_pos ⟨hp, hcond⟩, if_pos hcond]
    by_cases hf : feq (ref.getD r.null) r.value = true
    · rw [if_pos hf]
      have heq : ref.getD r.null = r.value := by
        unfold feq at hf
        simp only [Bool.and_eq_true, decide_eq_true_eq] at hf
        exact hf.1
      have hw : withValue s.frame.values p (ref.getD r.null) = s.frame.values := by
        rw [heq]
        simp only [withValue, Frame.values, List.map_map]
        apply List.map_congr_left
        intro r0 hr0
        by_cases hn : r0.name = p
        · have h9 : rowOf s.frame.rows r0.name = some r0 := (get_iff hnd).mpr ⟨hr0, rfl⟩
          rw [hn, hr] at h9
          cases h9
          simp
        · simp [hn]
      have := hL p r hr hcond
      rw [hw, ha] at this
      cases this
      simp
    · rw [if_neg hf, X.fin_sub]
  · rw [if_neg (fun h => hcond h.2), if_neg hcond]

/-- A frame with two free parameters and one held fast. -/
def lrFrame : Frame := ⟨[⟨"a", .fin 3, .fin 0, .fin 0, .ninf, .pinf, some 0, .nan⟩,
  ⟨"b", .fin 5, .fin 0, .fin 1, .ninf, .pinf, some 0, .nan⟩,
  ⟨"c", .fin 2, .fin 0, .fin 0, .ninf, .pinf, some 1, .nan⟩], false, false, .ninf, .fin 0⟩

/-- A log likelihood that depends on the values of the parameters. -/
noncomputable def lrL (vs : List (String × X)) : Except String X := .ok (vs.foldr (fun q acc => q.2 + acc) (.fin (-100)))

example : lrFrame.names.Nodup ∧ Complete lrFrame ∧ lrFrame.mangled = false ∧
    lrL lrFrame.values = .ok (.fin (-90)) ∧ lrL (withValue lrFrame.values "b" (.fin 1)) = .ok (.fin (-94)) ∧
    lrL (withValue lrFrame.values "a" (.fin 0)) = .ok (.fin (-93)) := by
  refine ⟨by simp [lrFrame, Frame.names], ?_, rfl, ?_, ?_, ?_⟩
  · intro r hr
    simp [lrFrame] at hr
    rcases hr with rfl | rfl | rfl <;> simp
  all_goals simp [lrL, lrFrame, Frame.values, withValue]; norm_num

/-- The table of ratios of that model: 3 and 4, and NaN for the parameter held fast. -/
example (m : Mentions) : (likelihoodRatios m lrL ⟨lrFrame, fun _ => .nan⟩ none none false).2 =
    .ok [("a", .fin 3), ("b", .fin 4), ("c", .nan)] := by
  have h := (C87_all m lrL ⟨lrFrame, fun _ => .nan⟩ none none false (-90)
    (fun n => if n = "a" then -93 else -94) rfl (by simp [lrFrame, Frame.names]) (by
      intro r hr
      simp [lrFrame] at hr
      rcases hr with rfl | rfl | rfl <;> simp) (by simp)
    (by simp [lrL, lrFrame, Frame.values]; norm_num) (by
      intro n r hr hh
      have hn := get_mem hr
      have hn' := get_name hr
      simp [lrFrame] at hn
      rcases hn with rfl | rfl | rfl
      · simp only at hn'; subst hn'
        simp [lrL, lrFrame, Frame.values, withValue]; norm_num
      · simp only at hn'; subst hn'
        simp [lrL, lrFrame, Frame.values, withValue]; norm_num
      · simp at hh)).1
  rw [h]
  simp [lrFrame, Frame.names, rowOf]
  norm_num

/-- **C87 violated (an evaluation that does not finish).** If the evaluation at the reference value raises (or is
interrupted), the parameter is left at the reference value: there is no cleanup. -/
theorem C87_fails_interrupt (m : Mentions) : ∃ L : List (String × X) → Except String X,
    (∃ e, (likelihoodRatio m L ⟨lrFrame, fun _ => .nan⟩ "a" none).2 = .error e) ∧
    (likelihoodRatio m L ⟨lrFrame, fun _ => .nan⟩ "a" none).1.frame.values ≠ lrFrame.values := by
  classical
  refine ⟨fun vs => if vs = lrFrame.values then .ok (.fin (-5)) else .error "KeyboardInterrupt", ?_⟩
  have hne : withValue lrFrame.values "a" (.fin 0) ≠ lrFrame.values := by
    simp [lrFrame, Frame.values, withValue]
  have hcm : Complete lrFrame := by
    intro r hr
    simp [lrFrame] at hr
    rcases hr with rfl | rfl | rfl <;> simp
  set L : List (String × X) → Except String X :=
    fun vs => if vs = lrFrame.values then .ok (.fin (-5)) else .error "KeyboardInterrupt" with hL
  have hl := loglike_core m L lrFrame rfl
  unfold likelihoodRatio
  cases hll : loglike m L lrFrame with
  | mk f res =>
  rw [hll] at hl
  obtain ⟨h1, h2, h3⟩ := hl
  simp only at h1 h2 h3
  have h4 : L lrFrame.values = .ok (.fin (-5)) := by simp [hL]
  rw [h4] at h3
  subst h3
  simp only
  have hr : rowOf lrFrame.rows "a" = some ⟨"a", .fin 3, .fin 0, .fin 0, .ninf, .pinf, some 0, .nan⟩ := by
    simp [rowOf, lrFrame]
  have hr' := rowOf_core h1 "a"
  rw [hr] at hr'
  obtain ⟨r', e', er⟩ := Option.map_eq_some_iff.mp hr'
  have e1 : r'.null = .fin 0 := core_null er
  have e2 : r'.value = .fin 3 := core_value er
  have hp : "a" ∈ f.names := by rw [names_core h1]; simp [lrFrame, Frame.names]
  unfold ratioOne
  simp only
  rw [unmangle_noop m _ h2, e']
  simp only [Option.getD_none, e1, e2]
  have hf : ¬ feq (.fin 0) (.fin 3) = true := by simp [feq]
  rw [if_neg hf, setValue_plain m _ "a" _ (complete_core h1.symm hcm) hp]
  simp only
  have hl2 := loglike_core m L
    (edit f "a" (.fin 0)) h2
  rw [withValue_rows, values_core h1] at hl2
  have h5 : L (withValue lrFrame.values "a" (.fin 0)) = .error "KeyboardInterrupt" := by simp only [hL]; rw [if_neg hne]
  rw [h5] at hl2
  cases hll2 : loglike m L
    (edit f "a" (.fin 0)) with
  | mk f2 res2 =>
  rw [hll2] at hl2
  obtain ⟨g1, g2, g3⟩ := hl2
  simp only at g1 g2 g3
  subst g3
  refine ⟨⟨_, rfl⟩, ?_⟩
  simp only
  have hv := values_core (f := f2) (g := edit f "a" (.fin 0)) g1
  rw [hv, withValue_rows, values_core h1]
  exact hne

end Larch.Props
