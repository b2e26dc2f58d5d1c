import Verif.Spec.PValue
import Verif.Props.PMath
import Verif.Props.Linear
import Verif.Props.ParamsStats

/-!
# C121: the value of a parameter expression
-/

namespace Larch.Props

open Larch.Linear Larch.Params Larch.PVal

/-! ## Looking up names -/

theorem pv_row_of_mem {rows : List Row} (hnd : (rows.map Row.name).Nodup) {r : Row} (hr : r ∈ rows) : rowOf rows r.name = some r := by
  obtain ⟨r', h'⟩ := get_isSome (n := r.name) (List.mem_map_of_mem hr)
  have hm := get_mem h'
  have hn := get_name h'
  have : r' = r := by
    have := List.inj_on_of_nodup_map hnd hm hr hn
    exact this
  rw [← this] at h' ⊢
  rw [hn] at h'
  rw [hn]; exact h'

theorem pv_ref_holds {f : Frame} (hnd : f.names.Nodup) {p : String → ℝ} {ns : List String} (h : Holds f p ns) {s : String} (hs : s ∈ ns)
    (rest : List Src) : refValue (.model f :: rest) s = .ok (.fin (p s)) := by
  obtain ⟨r, hr, hn, hv⟩ := h s hs
  have := pv_row_of_mem hnd hr
  rw [hn] at this
  simp [refValue, this, hv]

theorem pv_ref_missing {f : Frame} {s : String} (h : s ∉ f.names) : refValue [.model f] s = .error .key := by
  have := get_none.2 h
  simp [refValue, this]

theorem pv_ref_present {f : Frame} {s : String} (h : s ∈ f.names) : ∃ x, refValue [.model f] s = .ok x := by
  obtain ⟨r, hr⟩ := get_isSome h
  exact ⟨r.value, by simp [refValue, hr]⟩

/-! ## Arithmetic -/

theorem pv_opX {o : POp} {x y z : ℝ} (h : o = .div → y ≠ 0) (hz : z = (match o with | .add => x + y | .sub => x - y | .mul => x * y | .div => x / y)) :
    opX o (.fin x) (.fin y) = .fin z := by
  subst hz
  cases o
  · rfl
  · show X.add (X.fin x) (X.neg (X.fin y)) = _
    simp [X.add, X.neg, sub_eq_add_neg]
  · rfl
  · have := h rfl
    show X.div (X.fin x) (X.fin y) = _
    simp [X.div, this]

theorem pv_op_value {f : Frame} (hnd : f.names.Nodup) {p : String → ℝ} (e : PM) (h : Holds f p (opNames e)) {x : ℝ}
    (hx : e.Has p x) : opValue [.model f] e = .ok (.fin x) := by
  induction hx with
  | ref => exact pv_ref_holds hnd h (by simp [opNames]) []
  | noop => exact pv_ref_holds hnd h (by simp [opNames]) []
  | num => rfl
  | add _ _ i1 i2 =>
    rw [opValue, i1 (fun n hn => h n (by simp [opNames, hn])), i2 (fun n hn => h n (by simp [opNames, hn]))]
    exact congrArg Except.ok (pv_opX (o := .add) (by simp) rfl)
  | sub _ _ i1 i2 =>
    rw [opValue, i1 (fun n hn => h n (by simp [opNames, hn])), i2 (fun n hn => h n (by simp [opNames, hn]))]
    exact congrArg Except.ok (pv_opX (o := .sub) (by simp) rfl)
  | mul _ _ i1 i2 =>
    rw [opValue, i1 (fun n hn => h n (by simp [opNames, hn])), i2 (fun n hn => h n (by simp [opNames, hn]))]
    exact congrArg Except.ok (pv_opX (o := .mul) (by simp) rfl)
  | div _ _ h0 i1 i2 =>
    rw [opValue, i1 (fun n hn => h n (by simp [opNames, hn])), i2 (fun n hn => h n (by simp [opNames, hn]))]
    exact congrArg Except.ok (pv_opX (o := .div) (fun _ => h0) rfl)

/-- Arithmetic without linear components raises exactly `KeyError`, exactly when a named parameter is missing. -/
theorem pv_op_err {f : Frame} (e : PM) (hp : Pure e) :
    ((∀ n ∈ opNames e, n ∈ f.names) → ∃ x, opValue [.model f] e = .ok x) ∧
    ((∃ n ∈ opNames e, n ∉ f.names) → opValue [.model f] e = .error .key) := by
  induction e with
  | ref s =>
    refine ⟨fun h => pv_ref_present (h s (by simp [opNames])), ?_⟩
    rintro ⟨n, hn, hm⟩
    simp only [opNames, List.mem_singleton] at hn
    subst hn
    exact pv_ref_missing hm
  | noop s =>
    refine ⟨fun h => pv_ref_present (h s (by simp [opNames])), ?_⟩
    rintro ⟨n, hn, hm⟩
    simp only [opNames, List.mem_singleton] at hn
    subst hn
    exact pv_ref_missing hm
  | num v => exact ⟨fun _ => ⟨_, rfl⟩, fun ⟨n, hn, _⟩ => by simp [opNames] at hn⟩
  | lin c => exact absurd hp (by simp [Pure])
  | bin o l r il ir =>
    obtain ⟨l1, l2⟩ := il hp.1
    obtain ⟨r1, r2⟩ := ir hp.2
    refine ⟨fun h => ?_, ?_⟩
    · obtain ⟨x, hx⟩ := l1 (fun n hn => h n (by simp [opNames, hn]))
      obtain ⟨y, hy⟩ := r1 (fun n hn => h n (by simp [opNames, hn]))
      exact ⟨opX o x y, by rw [opValue, hx, hy]; rfl⟩
    · rintro ⟨n, hn, hm⟩
      by_cases hl : ∃ n ∈ opNames l, n ∉ f.names
      · rw [opValue, l2 hl]; rfl
      · push Not at hl
        obtain ⟨x, hx⟩ := l1 hl
        simp only [opNames, List.mem_append] at hn
        have : ∃ n ∈ opNames r, n ∉ f.names := by
          rcases hn with hn | hn
          · exact absurd (hl n hn) hm
          · exact ⟨n, hn, hm⟩
        rw [opValue, hx, r2 this]; rfl

/-! ## C121 -/

/-- **C121.** When a model has the parameters an expression names, `pvalue(expression)` is the arithmetic value of the expression at
the model's current parameter values, whatever default is given; `get_value` gives the same. -/
theorem C121_expression (m : Mentions) (d : Option X) (f : Frame) (hnd : f.names.Nodup) (p : String → ℝ) (e : PM)
    (h : Holds f p (opNames e)) (x : ℝ) (hx : e.Has p x) :
    leafValue m d f (.op e) = (f, .ok (.fin x)) ∧ getValue d f (.op e) = .ok (.fin x) := by
  have := pv_op_value hnd e h hx
  simp [leafValue, getValue, exprValue, scanFor, this, orDefault]

theorem pv_asPmath_names {c : Comp} {e : PM} (h : c.asPmath = .ok e) : opNames e = [c.param] ∧ Pure e := by
  unfold Comp.asPmath at h
  split at h
  · split at h <;> cases h <;> simp [opNames, Pure]
  · split at h
    · split at h <;> cases h <;> simp [opNames, Pure]
    · cases h

theorem pv_addAll_names : ∀ (l : List Comp) (x e : PM), addAll x l = .ok e → Pure x →
    opNames e = opNames x ++ l.map Comp.param ∧ Pure e := by
  intro l
  induction l with
  | nil => intro x e h hx; cases h; simp [hx]
  | cons c cs ih =>
    intro x e h hx
    unfold addAll at h
    cases hc : c.asPmath with
    | error _ => rw [hc] at h; cases h
    | ok y =>
      rw [hc] at h
      obtain ⟨h1, h2⟩ := pv_asPmath_names hc
      obtain ⟨h3, h4⟩ := ih _ _ h ⟨hx, h2⟩
      exact ⟨by simp [h3, opNames, h1], h4⟩

theorem pv_funcPmath_names {l : List Comp} {e : PM} (h : funcPmath l = .ok e) : opNames e = l.map Comp.param ∧ Pure e := by
  unfold funcPmath at h
  split at h
  · cases l with
    | nil => simp at h; subst h; simp [opNames, Pure]
    | cons c cs =>
      simp only at h
      cases hc : c.asPmath with
      | error _ => rw [hc] at h; cases h
      | ok y =>
        rw [hc] at h
        obtain ⟨h1, h2⟩ := pv_asPmath_names hc
        obtain ⟨h3, h4⟩ := pv_addAll_names cs y e h h2
        exact ⟨by simp [h3, h1], h4⟩
  · cases h

theorem pv_asPmath_one {c : Comp} (h : isTxt "1" c.data = true) : ∃ e, c.asPmath = .ok e := by
  unfold Comp.asPmath
  rw [if_pos h]
  split <;> exact ⟨_, rfl⟩

theorem pv_addAll_one : ∀ (l : List Comp) (x : PM), (∀ c ∈ l, isTxt "1" c.data = true) → ∃ e, addAll x l = .ok e := by
  intro l
  induction l with
  | nil => intro x _; exact ⟨x, rfl⟩
  | cons c cs ih =>
    intro x h
    obtain ⟨y, hy⟩ := pv_asPmath_one (h c (by simp))
    obtain ⟨e, he⟩ := ih (.bin .add x y) (fun c hc => h c (by simp [hc]))
    exact ⟨e, by simp only [addAll, hy]; exact he⟩

theorem pv_comp_one {p : String → ℝ} {c : Comp} (h : c.data = [.num "1" 1]) {e : PM} (he : c.asPmath = .ok e) :
    e.Has p (c.scale * p c.param) := by
  have ht : isTxt "1" c.data = true := by simp [h, isTxt]
  unfold Comp.asPmath at he
  rw [if_pos ht] at he
  split at he
  · rename_i hs
    cases he
    rw [hs, one_mul]; exact .noop
  · cases he
    rw [mul_comm]; exact .mul .ref .num

theorem pv_addAll_val {p : String → ℝ} : ∀ (l : List Comp) (x e : PM) (u : ℝ), (∀ c ∈ l, c.data = [.num "1" 1]) →
    addAll x l = .ok e → x.Has p u → e.Has p (u + (l.map (fun c => c.scale * p c.param)).sum) := by
  intro l
  induction l with
  | nil => intro x e u _ h hu; cases h; simpa using hu
  | cons c cs ih =>
    intro x e u hl h hu
    unfold addAll at h
    cases hc : c.asPmath with
    | error _ => rw [hc] at h; cases h
    | ok y =>
      rw [hc] at h
      rw [List.map_cons, List.sum_cons, ← add_assoc]
      exact ih _ e _ (fun d hd => hl d (by simp [hd])) h (.add hu (pv_comp_one (hl c (by simp)) hc))

theorem pv_func_val {p : String → ℝ} {l : List Comp} (hl : ∀ c ∈ l, c.data = [.num "1" 1]) {e : PM} (h : funcPmath l = .ok e) :
    e.Has p (l.map (fun c => c.scale * p c.param)).sum := by
  unfold funcPmath at h
  split at h
  · cases l with
    | nil => simp at h; subst h; simpa using PM.Has.num (p := p) (v := 0)
    | cons c cs =>
      simp only at h
      cases hc : c.asPmath with
      | error _ => rw [hc] at h; cases h
      | ok y =>
        rw [hc] at h
        exact pv_addAll_val cs y e _ (fun d hd => hl d (by simp [hd])) h (pv_comp_one (hl c (by simp)) hc)
  · cases h

theorem pv_func_ok {l : List Comp} (hl : ∀ c ∈ l, isTxt "1" c.data = true) : ∃ e, funcPmath l = .ok e := by
  unfold funcPmath
  rw [if_pos (by simpa using hl)]
  cases l with
  | nil => exact ⟨_, rfl⟩
  | cons c cs =>
    obtain ⟨y, hy⟩ := pv_asPmath_one (hl c (by simp))
    simp only [hy]
    exact pv_addAll_one cs y (fun d hd => hl d (by simp [hd]))

/-- **C121.** The value of a linear component without data is its scale times the parameter, whether the scale is in the
component or in a number given as data; the value of a (non-empty) linear function without data is the sum. -/
theorem C121_linear (m : Mentions) (d : Option X) (f : Frame) (p : String → ℝ) (hnd : f.names.Nodup) :
    (∀ c : Comp, Holds f p [c.param] → ∀ v, c.data = [.num "1" 1] ∧ v = 1 ∨ (isTxt "1" c.data = false ∧ floatOf c.data = some v) →
      leafValue m d f (.comp c) = (f, .ok (.fin (c.scale * p c.param * v)))) ∧
    (∀ l : List Comp, l ≠ [] → (∀ c ∈ l, c.data = [.num "1" 1]) → Holds f p (l.map Comp.param) →
      leafValue m d f (.func l) = (f, .ok (.fin (l.map (fun c => c.scale * p c.param)).sum))) := by
  have key : ∀ (e : PM) (x : ℝ), Holds f p (opNames e) → e.Has p x → opValue [.model f] e = .ok (.fin x) :=
    fun e x h hx => pv_op_value hnd e h hx
  refine ⟨?_, ?_⟩
  · intro c hc v hv
    have hval : viaPmath [.model f] c.asPmath = .ok (.fin (c.scale * p c.param * v)) := by
      rcases hv with ⟨hd, rfl⟩ | ⟨h1, h2⟩
      · have ht : isTxt "1" c.data = true := by simp [hd, isTxt]
        unfold Comp.asPmath
        rw [if_pos ht]
        split
        · rename_i hs
          refine key _ _ (by simpa [opNames] using hc) ?_
          rw [hs]; simpa using PM.Has.noop (p := p) (s := c.param)
        · refine key _ _ (by simpa [opNames] using hc) ?_
          have := PM.Has.mul (p := p) (.ref (s := c.param)) (.num (v := c.scale))
          rw [mul_one, mul_comm]; exact this
      · unfold Comp.asPmath
        rw [if_neg (by simp [h1]), h2]
        dsimp only
        split
        · rename_i hs
          refine key _ _ (by simpa [opNames] using hc) ?_
          have e1 : c.scale * p c.param * v = p c.param := by rw [mul_right_comm, mul_comm c.scale v, hs, one_mul]
          rw [e1]; exact .noop
        · refine key _ _ (by simpa [opNames] using hc) ?_
          have := PM.Has.mul (p := p) (.ref (s := c.param)) (.num (v := v * c.scale))
          have e1 : c.scale * p c.param * v = p c.param * (v * c.scale) := by ring
          rw [e1]; exact this
    simp [leafValue, scanFor, exprValue, hval, orDefault]
  · intro l hne hone hl
    have ht : ∀ c ∈ l, isTxt "1" c.data = true := fun c hc => by simp [hone c hc, isTxt]
    obtain ⟨e, he⟩ := pv_func_ok ht
    have hval : funcValue [.model f] l = .ok (.fin (l.map (fun c => c.scale * p c.param)).sum) := by
      unfold funcValue
      rw [if_neg (by simpa using hne), he]
      exact key e _ (by rw [(pv_funcPmath_names he).1]; exact hl) (pv_func_val hone he)
    simp [leafValue, scanFor, exprValue, hval, orDefault]

/-- **C121.** From what the user wrote to the value: if an expression over references, numbers, components and functions evaluates to
an object that can be given to `pvalue` (a component's or function's data being numbers), `pvalue` is the value of the expression. -/
theorem C121_written (fm : Fmt) (env : Py.Env) (m : Mentions) (d : Option X) (f : Frame) (hnd : f.names.Nodup) (p : String → ℝ)
    (hp : p "_" = 1) (e : Ex) (hl : e.All Obj.LitOk) (hs : SafeEx fm env e) {o : Obj} (ho : e.eval fm = .ok o)
    (hol : o.LitOk) (hdat : ∀ t, o ≠ .dat t) (hfn : o ≠ .func []) (hh : Holds f p (leafNames (ofObj o))) {x : ℝ} (hx : e.Has env p x)
    {y : X} (hy : (leafValue m d f (ofObj o)).2 = .ok y) : y = .fin x := by
  have hv := C23_value_partial fm env p hp e hl hs ho hx
  have key : ∀ (e : PM) (x : ℝ), Holds f p (opNames e) → e.Has p x → opValue [.model f] e = .ok (.fin x) :=
    fun e x h hx => pv_op_value hnd e h hx
  cases o with
  | num n =>
    simp only [Obj.Has] at hv
    simp [leafValue, ofObj, scanFor, exprValue, orDefault] at hy
    rw [← hy, hv]
  | par s =>
    simp only [Obj.Has] at hv
    have := pv_ref_holds hnd hh (s := s) (by simp [ofObj, leafNames]) []
    simp [leafValue, ofObj, scanFor, exprValue, orDefault, this] at hy
    rw [← hy, hv]
  | dat t => exact absurd rfl (hdat t)
  | comp c =>
    simp only [leafValue, ofObj, scanFor, exprValue] at hy
    cases hc : c.asPmath with
    | error ee =>
      rw [hc] at hy
      unfold Comp.asPmath at hc
      split at hc
      · split at hc <;> cases hc
      · split at hc
        · split at hc <;> cases hc
        · cases hc
          simp [viaPmath, pmathErr, orDefault] at hy
    | ok q =>
      rw [hc] at hy
      have h1 := comp_pmath_has (p := p) (env := env) hol hc hv
      have h2 := key q x (by rw [(pv_asPmath_names hc).1]; exact hh) h1
      simp only [viaPmath, h2, orDefault] at hy
      cases hy; rfl
  | func l =>
    simp only [leafValue, ofObj, scanFor, exprValue] at hy
    have hne : l.isEmpty = false := by
      cases l with
      | nil => exact absurd rfl hfn
      | cons _ _ => rfl
    rw [funcValue, if_neg (by simp [hne])] at hy
    cases hc : funcPmath l with
    | error ee =>
      rw [hc] at hy
      exfalso
      have : pmathErr ee ≠ .key := by cases ee <;> simp [pmathErr]
      revert hy
      simp only [viaPmath]
      cases hq : pmathErr ee <;> simp_all [orDefault]
    | ok q =>
      rw [hc] at hy
      have h1 := func_pmath_has (p := p) (env := env) hol hc hv
      have h2 := key q x (by rw [(pv_funcPmath_names hc).1]; exact hh) h1
      simp only [viaPmath, h2, orDefault] at hy
      cases hy; rfl
  | pm q =>
    have h2 := key q x hh hv
    simp only [leafValue, ofObj, scanFor, exprValue, h2, orDefault] at hy
    cases hy; rfl

/-- **C121.** For arithmetic of references and numbers the only exception is `KeyError`, raised exactly when a named parameter is not in
the frame, and replaced by the default if there is one. -/
theorem C121_missing (m : Mentions) (d : Option X) (f : Frame) (e : PM) (hp : Pure e) :
    ((∃ n ∈ opNames e, n ∉ f.names) → (leafValue m d f (.op e)).2 = d.elim (.error .key) .ok) ∧
    ((∀ n ∈ opNames e, n ∈ f.names) → ∃ x, (leafValue m d f (.op e)).2 = .ok x ∧ (leafValue m none f (.op e)).2 = .ok x) := by
  obtain ⟨h1, h2⟩ := pv_op_err (f := f) e hp
  refine ⟨fun h => ?_, fun h => ?_⟩
  · simp [leafValue, scanFor, exprValue, h2 h, orDefault]
  · obtain ⟨x, hx⟩ := h1 h
    exact ⟨x, by simp [leafValue, scanFor, exprValue, hx, orDefault]⟩

/-- **C121.** A name is looked up after scanning the model: every parameter of the model's functions has a value, and a name that
neither they nor the frame have gives the default or `KeyError`. -/
theorem C121_name (m : Mentions) (d : Option X) (f : Frame) (hnd : f.names.Nodup) (hm : f.mangled = true) (s : String) :
    (s ∈ f.names → ∃ r ∈ f.rows, r.name = s ∧ (leafValue m d f (.name s)).2 = .ok r.value) ∧
    (s ∉ f.names → s ∈ m.utility ++ m.quantity → (leafValue m d f (.name s)).2 = .ok (.fin 0)) ∧
    (s ∉ f.names → s ∉ m.utility ++ m.quantity → s ∈ m.logsum → (leafValue m d f (.name s)).2 = .ok (.fin 1)) ∧
    (s ∉ f.names → s ∉ m.utility ++ m.quantity ++ m.logsum → (leafValue m d f (.name s)).2 = d.elim (.error .key) .ok) := by
  refine ⟨fun h => ?_, fun h1 h2 => ?_, fun h1 h2 h3 => ?_, fun h1 h2 => ?_⟩
  · obtain ⟨r, hr⟩ := get_isSome h
    exact ⟨r, get_mem hr, get_name hr, by
      simp [leafValue, scanFor, exprValue, frameGet, C20_keeps m false f hnd s r hr, orDefault]⟩
  · have := C20_defaults m f hnd hm s h1
    rw [if_pos (by simpa using h2)] at this
    simp [leafValue, scanFor, exprValue, frameGet, this, orDefault]
  · have := C20_defaults m f hnd hm s h1
    rw [if_neg (by simpa using h2), if_pos h3] at this
    simp [leafValue, scanFor, exprValue, frameGet, this, orDefault]
  · have := C20_defaults m f hnd hm s h1
    simp only [List.mem_append, not_or] at h2
    rw [if_neg (by simp [h2]), if_neg h2.2] at this
    simp [leafValue, scanFor, exprValue, frameGet, this, orDefault]

/-- **C121.** Asking for values changes no parameter: every row stays as it was, and if the model was scanned nothing changes at
all. -/
theorem C121_harmless (m : Mentions) (d : Option X) (f : Frame) (hnd : f.names.Nodup) (l : Leaf) :
    (∀ n r, rowOf f.rows n = some r → rowOf (leafValue m d f l).1.rows n = some r) ∧
    (f.mangled = false → (leafValue m d f l).1 = f) := by
  refine ⟨fun n r h => ?_, fun h => ?_⟩
  · cases l <;> simp only [leafValue, scanFor] <;> first | exact h | exact C20_keeps m false f hnd n r h
  · cases l <;> simp [leafValue, scanFor, unmangle_noop m f h]

/-- **C121.** Once the model is scanned, a name and a reference give the same, with `pvalue` and with `get_value`. -/
theorem C121_name_or_reference (m : Mentions) (d : Option X) (f : Frame) (hm : f.mangled = false) (s : String) :
    leafValue m d f (.name s) = leafValue m d f (.ref s) ∧ getValue d f (.name s) = getValue d f (.ref s) ∧
    (leafValue m d f (.name s)).2 = getValue d f (.name s) := by
  have h : exprValue f (.name s) = exprValue f (.ref s) := by
    simp only [exprValue, frameGet, refValue]
  have hs : scanFor m f (.name s) = f := unmangle_noop m f hm
  refine ⟨?_, by simp only [getValue, h], by simp only [leafValue, getValue, hs]⟩
  simp only [leafValue, hs, h]
  rfl

theorem pv_leaf_scanned {m : Mentions} {d : Option X} {f : Frame} (hm : f.mangled = false) (l : Leaf) :
    leafValue m d f l = (f, getValue d f l) := by
  have hs : scanFor m f l = f := by cases l <;> simp [scanFor, unmangle_noop m f hm]
  simp [leafValue, getValue, hs]

/-- **C121.** A dictionary of expressions gives the dictionary of their values, under the same keys; if one of them raises, so does
`pvalue`, with the first one's exception. -/
theorem C121_dictionary (m : Mentions) (d : Option X) (f : Frame) (hm : f.mangled = false) (kvs : List (String × Leaf)) :
    (∀ out, (dictValue m d f kvs).2 = .ok out ↔
      List.Forall₂ (fun kv o => o.1 = kv.1 ∧ (leafValue m d f kv.2).2 = .ok o.2) kvs out) ∧
    (∀ e, (dictValue m d f kvs).2 = .error e ↔ ∃ a k l b xs, kvs = a ++ (k, l) :: b ∧
      List.Forall₂ (fun kv x => (leafValue m d f kv.2).2 = .ok x) a xs ∧ (leafValue m d f l).2 = .error e) := by
  induction kvs with
  | nil =>
    refine ⟨fun out => ?_, fun e => ?_⟩
    · constructor
      · intro h; simp only [dictValue, Except.ok.injEq] at h; subst h; exact .nil
      · intro h; cases h; rfl
    · constructor
      · intro h; simp [dictValue] at h
      · rintro ⟨a, k, l, b, xs, h, _⟩; simp at h
  | cons kv rest ih =>
    obtain ⟨k, l⟩ := kv
    have hleaf := pv_leaf_scanned (m := m) (d := d) hm l
    cases hv : getValue d f l with
    | error e' =>
      have hd : dictValue m d f ((k, l) :: rest) = (f, .error e') := by simp [dictValue, hleaf, hv]
      have hl2 : (leafValue m d f l).2 = .error e' := by rw [hleaf, hv]
      rw [hd]
      refine ⟨fun out => ?_, fun e => ?_⟩
      · constructor
        · intro h; cases h
        · intro h
          cases h with
          | cons h1 _ => rw [hl2] at h1; exact absurd h1.2 (by simp)
      · constructor
        · intro h
          cases h
          exact ⟨[], k, l, rest, [], rfl, .nil, hl2⟩
        · rintro ⟨a, k', l', b, xs, h1, h2, h3⟩
          cases a with
          | nil =>
            simp only [List.nil_append, List.cons.injEq, Prod.mk.injEq] at h1
            obtain ⟨⟨rfl, rfl⟩, rfl⟩ := h1
            rw [hl2] at h3; exact (by simpa using h3)
          | cons a0 a =>
            simp only [List.cons_append, List.cons.injEq] at h1
            obtain ⟨rfl, rfl⟩ := h1
            cases h2 with
            | cons h4 _ => rw [hl2] at h4; cases h4
    | ok x =>
      have hd : dictValue m d f ((k, l) :: rest) = ((dictValue m d f rest).1, (dictValue m d f rest).2.map ((k, x) :: ·)) := by
        simp [dictValue, hleaf, hv]
      have hl2 : (leafValue m d f l).2 = .ok x := by rw [hleaf, hv]
      rw [hd]
      refine ⟨fun out => ?_, fun e => ?_⟩
      · constructor
        · intro h
          cases hr : (dictValue m d f rest).2 with
          | error _ => rw [hr] at h; cases h
          | ok o =>
            rw [hr] at h
            simp only [Except.map, Except.ok.injEq] at h
            subst h
            exact .cons ⟨rfl, hl2⟩ ((ih.1 o).1 hr)
        · intro h
          cases h with
          | @cons _ o _ os h1 h2 =>
            have := (ih.1 os).2 h2
            simp only [this, Except.map, Except.ok.injEq, List.cons.injEq, and_true]
            obtain ⟨h3, h4⟩ := h1
            rw [hl2] at h4
            simp only at h3
            exact Prod.ext h3.symm (Except.ok.inj h4)
      · constructor
        · intro h
          cases hr : (dictValue m d f rest).2 with
          | ok o => rw [hr] at h; cases h
          | error e' =>
            rw [hr] at h
            simp only [Except.map, Except.error.injEq] at h
            subst h
            obtain ⟨a, k', l', b, xs, h1, h2, h3⟩ := (ih.2 e').1 hr
            exact ⟨(k, l) :: a, k', l', b, x :: xs, by rw [h1]; rfl, .cons hl2 h2, h3⟩
        · rintro ⟨a, k', l', b, xs, h1, h2, h3⟩
          cases a with
          | nil =>
            simp only [List.nil_append, List.cons.injEq, Prod.mk.injEq] at h1
            obtain ⟨⟨rfl, rfl⟩, rfl⟩ := h1
            rw [hl2] at h3; cases h3
          | cons a0 a =>
            simp only [List.cons_append, List.cons.injEq] at h1
            obtain ⟨rfl, h1⟩ := h1
            cases h2 with
            | cons h4 h5 =>
              have := (ih.2 e).2 ⟨a, k', l', b, _, h1, h5, h3⟩
              simp only [this, Except.map]

/-- **C121.** A list of names and expressions gives each its value. -/
theorem C121_list_partial (m : Mentions) (d : Option X) (f : Frame) (hm : f.mangled = false) (ls : List Leaf)
    (hh : ∀ l ∈ ls, (∀ c, l ≠ .comp c) ∧ ∀ c, l ≠ .func c) (out : List (Leaf × X)) :
    (seqValue m d f ls).2 = .ok out ↔ out.map Prod.fst = ls ∧ ∀ o ∈ out, (leafValue m d f o.1).2 = .ok o.2 := by
  induction ls generalizing out with
  | nil =>
    constructor
    · intro h; simp only [seqValue, Except.ok.injEq] at h; subst h; simp
    · rintro ⟨h, _⟩
      have : out = [] := by simpa using h
      subst this; rfl
  | cons l rest ih =>
    have hl := hh l (by simp)
    have hash : hashable l = true := by
      cases l with
      | comp c => exact absurd rfl (hl.1 c)
      | func c => exact absurd rfl (hl.2 c)
      | _ => rfl
    have ih' := ih (fun l hl => hh l (by simp [hl]))
    have hleaf := pv_leaf_scanned (m := m) (d := d) hm l
    cases hv : getValue d f l with
    | error e' =>
      have hd : seqValue m d f (l :: rest) = (f, .error e') := by simp [seqValue, hleaf, hv]
      rw [hd]
      constructor
      · intro h; cases h
      · rintro ⟨h1, h2⟩
        cases out with
        | nil => simp at h1
        | cons o os =>
          simp only [List.map_cons, List.cons.injEq] at h1
          have := h2 o (by simp)
          rw [h1.1, hleaf, hv] at this
          cases this
    | ok x =>
      have hd : seqValue m d f (l :: rest) = ((seqValue m d f rest).1, (seqValue m d f rest).2.map ((l, x) :: ·)) := by
        simp [seqValue, hleaf, hv, hash]
      have hl2 : (leafValue m d f l).2 = .ok x := by rw [hleaf, hv]
      rw [hd]
      constructor
      · intro h
        cases hr : (seqValue m d f rest).2 with
        | error _ => rw [hr] at h; cases h
        | ok o =>
          rw [hr] at h
          simp only [Except.map, Except.ok.injEq] at h
          subst h
          obtain ⟨h1, h2⟩ := (ih' o).1 hr
          refine ⟨by simp [h1], ?_⟩
          intro q hq
          simp only [List.mem_cons] at hq
          rcases hq with rfl | hq
          · exact hl2
          · exact h2 q hq
      · rintro ⟨h1, h2⟩
        cases out with
        | nil => simp at h1
        | cons o os =>
          simp only [List.map_cons, List.cons.injEq] at h1
          have h3 := h2 o (by simp)
          rw [h1.1, hl2] at h3
          have := (ih' os).2 ⟨h1.2, fun q hq => h2 q (by simp [hq])⟩
          simp only [this, Except.map, Except.ok.injEq, List.cons.injEq, and_true]
          exact Prod.ext h1.1.symm (Except.ok.inj h3)

theorem pv_valid {m : Mentions} {f : Frame} (hm : f.mangled = false) (e : PM) (hp : Pure e) :
    opValid m f e = (f, decide (∀ n ∈ opNames e, n ∈ f.names)) := by
  induction e with
  | ref s => simp [opValid, refValid, unmangle_noop m f hm, opNames]
  | noop s => simp [opValid, refValid, unmangle_noop m f hm, opNames]
  | num v => simp [opValid, opNames]
  | lin c => exact absurd hp (by simp [Pure])
  | bin o l r il ir =>
    rw [opValid, il hp.1, ir hp.2]
    simp only [Prod.mk.injEq, true_and]
    rw [Bool.eq_iff_iff, Bool.and_eq_true, decide_eq_true_iff, decide_eq_true_iff, decide_eq_true_iff]
    simp only [opNames, List.mem_append]
    constructor
    · rintro ⟨h1, h2⟩ n (h | h)
      · exact h1 n h
      · exact h2 n h
    · exact fun h => ⟨fun n hn => h n (.inl hn), fun n hn => h n (.inr hn)⟩

/-- **C121.** Asking whether a reference is valid for a model whose specification has changed looks the name up in the specification as it is now:
it is valid exactly if it is a parameter already or is mentioned there, and the model is scanned afterwards. -/
theorem C121_valid_unscanned (m : Mentions) (f : Frame) (hnd : f.names.Nodup) (hm : f.mangled = true) (s : String) :
    ((opValid m f (.ref s)).2 = true ↔ s ∈ f.names ∨ s ∈ m.utility ∨ s ∈ m.quantity ∨ s ∈ m.logsum) ∧
    (opValid m f (.ref s)).1.mangled = false := by
  refine ⟨?_, unmangle_done m f⟩
  rw [← (C20_names_unique m f hnd hm).2.2 s]
  show (unmangle m false f).names.contains s = true ↔ _
  exact List.contains_iff_mem

example : (opValid ⟨["cost"], [], []⟩ ⟨[], false, true, .nan, .nan⟩ (.ref "cost")).2 = true ∧
    (opValid ⟨["cost"], [], []⟩ ⟨[], false, true, .nan, .nan⟩ (.ref "time")).2 = false := by
  have h1 := (C121_valid_unscanned ⟨["cost"], [], []⟩ ⟨[], false, true, .nan, .nan⟩ (by simp [Frame.names]) rfl "cost").1
  have h2 := (C121_valid_unscanned ⟨["cost"], [], []⟩ ⟨[], false, true, .nan, .nan⟩ (by simp [Frame.names]) rfl "time").1
  refine ⟨h1.mpr (by simp), ?_⟩
  rw [Bool.eq_false_iff]
  intro h
  have := h2.mp h
  simp [Frame.names] at this

/-- **C121.** For a scanned model, `valid(model)` says whether `value(model)` gives a value or raises. -/
theorem C121_valid (m : Mentions) (f : Frame) (hm : f.mangled = false) (e : PM) (hp : Pure e) :
    ((opValid m f e).2 = true ↔ ∃ x, opValue [.model f] e = .ok x) ∧
    ((opValid m f e).2 = false ↔ opValue [.model f] e = .error .key) := by
  obtain ⟨h1, h2⟩ := pv_op_err (f := f) e hp
  rw [pv_valid hm e hp]
  by_cases h : ∀ n ∈ opNames e, n ∈ f.names
  · obtain ⟨x, hx⟩ := h1 h
    simp only [decide_eq_true h, hx]
    simp
  · have h' : ∃ n ∈ opNames e, n ∉ f.names := by push Not at h; exact h
    rw [h2 h']
    simp only [decide_eq_false h]
    simp

/-- **C121.** Given several models, a reference has the value in the first one that has the parameter. -/
theorem C121_first_model (fs : List Frame) (s : String) :
    (∀ a f b r, fs = a ++ f :: b → (∀ g ∈ a, s ∉ g.names) → rowOf f.rows s = some r →
      refValue (fs.map .model) s = .ok r.value) ∧
    ((∀ g ∈ fs, s ∉ g.names) → refValue (fs.map .model) s = .error .key) := by
  induction fs with
  | nil => exact ⟨fun a f b r h => by simp at h, fun _ => rfl⟩
  | cons g gs ih =>
    refine ⟨?_, ?_⟩
    · intro a f b r h ha hr
      cases a with
      | nil =>
        simp only [List.nil_append, List.cons.injEq] at h
        obtain ⟨rfl, rfl⟩ := h
        simp [refValue, hr]
      | cons a0 a =>
        simp only [List.cons_append, List.cons.injEq] at h
        obtain ⟨rfl, h⟩ := h
        have := get_none.2 (ha g (by simp))
        simp only [List.map_cons, refValue, this, Option.map_none, Option.elim_none]
        exact ih.1 a f b r h (fun g hg => ha g (by simp [hg])) hr
    · intro h
      have := get_none.2 (h g (by simp))
      simp only [List.map_cons, refValue, this, Option.map_none, Option.elim_none]
      exact ih.2 (fun g hg => h g (by simp [hg]))

/-! ## Where the code does not have the property -/

/-- A parameter of a function just assigned (the model not yet scanned): its name has a value (0), the reference `P.z` raises
`KeyError`, and so does every expression that names it. -/
theorem C121_fails_unscanned (m : Mentions) (f : Frame) (hnd : f.names.Nodup) (hm : f.mangled = true) (z : String) (hz : z ∉ f.names)
    (hu : z ∈ m.utility) :
    (leafValue m none f (.name z)).2 = .ok (.fin 0) ∧ (leafValue m none f (.ref z)).2 = .error .key ∧
    (∀ e, Pure e → z ∈ opNames e → (leafValue m none f (.op e)).2 = .error .key) := by
  refine ⟨(C121_name m none f hnd hm z).2.1 hz (by simp [hu]), ?_, ?_⟩
  · simp [leafValue, scanFor, exprValue, pv_ref_missing hz, orDefault]
  · intro e hp he
    exact (C121_missing m none f e hp).1 ⟨z, he, hz⟩

/-- So the answer depends on what was asked before: after asking for the name, the same expression has a value. -/
theorem C121_fails_order (m : Mentions) (f : Frame) (hnd : f.names.Nodup) (hm : f.mangled = true) (z : String) (hz : z ∉ f.names)
    (hu : z ∈ m.utility) :
    (leafValue m none f (.ref z)).2 = .error .key ∧
    (leafValue m none (leafValue m none f (.name z)).1 (.ref z)).2 = .ok (.fin 0) := by
  refine ⟨(C121_fails_unscanned m f hnd hm z hz hu).2.1, ?_⟩
  have hd := C20_defaults m f hnd hm z hz
  rw [if_pos (.inl hu)] at hd
  simp [leafValue, scanFor, exprValue, refValue, hd, orDefault]

/-- The value of an empty linear function is not 0: `pvalue` raises `AttributeError`, whatever the default. -/
theorem C121_fails_empty_function (m : Mentions) (d : Option X) (f : Frame) :
    (leafValue m d f (.func [])).2 = .error .attribute := by
  simp [leafValue, scanFor, exprValue, funcValue, orDefault]

/-- A component with a number other than 1 as data has a value, the linear function of that component and any other has not. -/
theorem C121_fails_number_in_function (m : Mentions) (d : Option X) (f : Frame) (l : List Comp) (c : Comp) (hc : c ∈ l)
    (h1 : isTxt "1" c.data = false) : (leafValue m d f (.func l)).2 = .error .notImplemented := by
  have hne : l.isEmpty = false := by cases l with | nil => simp at hc | cons _ _ => rfl
  have : funcPmath l = .error .notImplementedError := by
    unfold funcPmath
    rw [if_neg]
    simp only [List.all_eq_true, not_forall]
    exact ⟨c, hc, by simp [h1]⟩
  simp [leafValue, scanFor, exprValue, funcValue, hne, this, viaPmath, pmathErr, orDefault]

/-- A list with a component (`P.a * 60`) raises `TypeError`, although the component has a value. -/
theorem C121_fails_list (m : Mentions) (d : Option X) (f : Frame) (c : Comp) (x : X) (h : (leafValue m d f (.comp c)).2 = .ok x) :
    (seqValue m d f [.comp c]).2 = .error .type := by
  simp only [seqValue, h, hashable]
  rfl

/-- Given several dictionaries, a name that is only in the second raises `AttributeError`. -/
theorem C121_fails_dictionaries (d d' : List (String × X)) (s : String) (h : d.lookup s = none) :
    refValue [.dict d, .dict d'] s = .error .attribute := by
  simp [refValue, dictGet, h]

/-! ## A concrete case: the value of time -/

noncomputable def pvFrame : Frame :=
  ⟨[⟨"cost", .fin (-2), .fin 0, .fin 0, .ninf, .pinf, some 0, .nan⟩, ⟨"time", .fin (-1), .fin 0, .fin 0, .ninf, .pinf, some 0, .nan⟩],
    false, false, .ninf, .fin 0⟩

noncomputable def pvP (s : String) : ℝ := if s = "cost" then -2 else -1

theorem pvFrame_holds : Holds pvFrame pvP ["time", "cost"] := by
  intro n hn
  simp only [List.mem_cons, List.not_mem_nil, or_false] at hn
  rcases hn with rfl | rfl
  · exact ⟨⟨"time", .fin (-1), .fin 0, .fin 0, .ninf, .pinf, some 0, .nan⟩, by simp [pvFrame], rfl, by simp [pvP]⟩
  · exact ⟨⟨"cost", .fin (-2), .fin 0, .fin 0, .ninf, .pinf, some 0, .nan⟩, by simp [pvFrame], rfl, by simp [pvP]⟩

example (m : Mentions) : (leafValue m none pvFrame (.op (.bin .mul (.bin .div (.ref "time") (.ref "cost")) (.num 60)))).2 = .ok (.fin 30) := by
  have h := C121_expression m none pvFrame (by simp [pvFrame, Frame.names]) pvP (.bin .mul (.bin .div (.ref "time") (.ref "cost")) (.num 60))
    (by simpa [opNames] using pvFrame_holds) (pvP "time" / pvP "cost" * 60)
    (.mul (.div .ref .ref (by simp [pvP])) .num)
  rw [h.1]
  simp [pvP]
  norm_num

example (m : Mentions) : (leafValue m none pvFrame (.func [⟨"time", [.num "1" 1], 3⟩, ⟨"cost", [.num "1" 1], 1⟩])).2 = .ok (.fin (-5)) := by
  have h := (C121_linear m none pvFrame pvP (by simp [pvFrame, Frame.names])).2 [⟨"time", [.num "1" 1], 3⟩, ⟨"cost", [.num "1" 1], 1⟩]
    (by simp) (by simp) (by simpa using pvFrame_holds)
  rw [h]
  simp [pvP]
  norm_num

example (m : Mentions) : (dictValue m (some (.fin 7)) pvFrame [("t", .name "time"), ("x", .name "walk")]).2 =
    .ok [("t", .fin (-1)), ("x", .fin 7)] := by
  rw [(C121_dictionary m (some (.fin 7)) pvFrame rfl _).1]
  refine .cons ⟨rfl, ?_⟩ (.cons ⟨rfl, ?_⟩ .nil)
  · rw [pv_leaf_scanned rfl]
    simp [getValue, exprValue, frameGet, pvFrame, rowOf, orDefault]
  · rw [pv_leaf_scanned rfl]
    simp [getValue, exprValue, frameGet, pvFrame, rowOf, orDefault]

example (m : Mentions) : (opValid m pvFrame (.bin .div (.ref "time") (.ref "fare"))).2 = false := by
  rw [(C121_valid m pvFrame rfl (.bin .div (.ref "time") (.ref "fare")) ⟨trivial, trivial⟩).2]
  exact (pv_op_err (.bin .div (.ref "time") (.ref "fare")) ⟨trivial, trivial⟩).2 ⟨"fare", by simp [opNames], by simp [pvFrame, Frame.names]⟩

example : (leafValue ⟨["z"], [], []⟩ none { pvFrame with mangled := true } (.ref "z")).2 = .error .key :=
  (C121_fails_unscanned ⟨["z"], [], []⟩ { pvFrame with mangled := true } (by simp [pvFrame, Frame.names]) rfl "z"
    (by simp [pvFrame, Frame.names]) (by simp)).2.1

end Larch.Props
