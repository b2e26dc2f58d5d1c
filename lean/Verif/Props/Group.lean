import Verif.Spec.Group
import Verif.Props.ParamsOps
import Mathlib.Analysis.Calculus.Deriv.Add

/-!
# C40: a model group is the sum of its members
-/

namespace Larch.Props

open Larch.Params Larch.Group Larch.Spec

/-! ## Counting -/

/-- **C40 (cases).** A group built from models and groups has as many cases as they have together. -/
theorem C40_n_cases (frame : Frame) (items : List Item) :
    Group.nCases (Group.init frame items) =
      (items.map (fun i => match i with | .model m => m.nCases | .group g => (g.members.map Member.nCases).sum)).sum := by
  unfold Group.nCases Group.init
  simp only
  induction items with
  | nil => rfl
  | cons i l ih =>
    rw [List.flatMap_cons, List.map_append, List.sum_append, ih, List.map_cons, List.sum_cons]
    cases i <;> simp

/-- **C40 (weight).** And their weights together. -/
theorem C40_total_weight (frame : Frame) (items : List Item) :
    totalWeight (Group.init frame items) =
      (items.map (fun i => match i with | .model m => m.weight | .group g => (g.members.map Member.weight).sum)).sum := by
  unfold totalWeight Group.init
  simp only
  induction items with
  | nil => rfl
  | cons i l ih =>
    rw [List.flatMap_cons, List.map_append, List.sum_append, ih, List.map_cons, List.sum_cons]
    cases i <;> simp

/-! ## Synchronisation -/

/-- In sync: nothing to scan, nothing to import. -/
structure Synced (g : MGroup) : Prop where
  uniq : Unique g
  clean : g.frame.mangled = false
  cleanM : ∀ k ∈ g.members, k.frame.mangled = false
  names : ∀ k ∈ g.members, ∀ n ∈ k.frame.names, n ∈ g.frame.names

theorem unmangle_clean (m : Mentions) (f : Frame) : (unmangle m false f).mangled = false := by
  unfold unmangle; cases h : f.mangled <;> simp [h]

theorem unmangle_noop (m : Mentions) (f : Frame) (h : f.mangled = false) : unmangle m false f = f := by
  unfold unmangle; simp [h]

theorem importRows_names (rows : List Row) (k : Member) :
    (importRows rows k).map Row.name = rows.map Row.name ++ k.frame.names.filter (fun n => n ∉ rows.map Row.name) := by
  unfold importRows Frame.names
  rw [List.map_append, List.filter_map]
  rfl

theorem importRows_nodup (rows : List Row) (k : Member) (h : (rows.map Row.name).Nodup) (hk : k.frame.names.Nodup) :
    ((importRows rows k).map Row.name).Nodup := by
  rw [importRows_names, List.nodup_append]
  refine ⟨h, hk.filter _, ?_⟩
  intro a ha b hb hab
  subst hab
  simp only [List.mem_filter, decide_not, Bool.not_eq_eq_eq_not, Bool.not_true, decide_eq_false_iff_not] at hb
  exact hb.2 ha

theorem import_fold (ms : List Member) : ∀ rows : List Row, (rows.map Row.name).Nodup → (∀ k ∈ ms, k.frame.names.Nodup) →
    ((ms.foldl importRows rows).map Row.name).Nodup ∧ (∃ extra, ms.foldl importRows rows = rows ++ extra) ∧
    ∀ k ∈ ms, ∀ n ∈ k.frame.names, n ∈ (ms.foldl importRows rows).map Row.name := by
  induction ms with
  | nil => intro rows h _; exact ⟨h, ⟨[], by simp⟩, by simp⟩
  | cons k ks ih =>
    intro rows h hk
    obtain ⟨h1, ⟨ex, h2⟩, h3⟩ := ih (importRows rows k) (importRows_nodup rows k h (hk k (by simp)))
      (fun j hj => hk j (by simp [hj]))
    rw [List.foldl_cons]
    refine ⟨h1, ⟨_, by rw [h2]; exact List.append_assoc _ _ _⟩, ?_⟩
    intro j hj n hn
    rcases List.mem_cons.mp hj with rfl | hj
    · rw [h2, List.map_append, List.mem_append, importRows_names, List.mem_append, List.mem_filter]
      by_cases hr : n ∈ rows.map Row.name
      · exact Or.inl (Or.inl hr)
      · exact Or.inl (Or.inr ⟨hn, by simpa using hr⟩)
    · exact h3 j hj n hn

/-- The frame of a member after its values were set by name. -/
theorem push_spec (vals : List (String × X)) (hv : (vals.map Prod.fst).Nodup) (k : Member) (hm : k.frame.mangled = false) :
    (push vals k).frame = { k.frame with rows := k.frame.rows.map (fun r =>
      if r.holdfast = some 0 then { r with value := (vals.lookup r.name).getD r.value } else r) } := by
  unfold push
  simp only
  rw [C18_keywords k.mentions k.frame vals true hm hv]

theorem push_names (vals : List (String × X)) (hv : (vals.map Prod.fst).Nodup) (k : Member) (hm : k.frame.mangled = false) :
    (push vals k).frame.names = k.frame.names := by
  rw [push_spec vals hv k hm]
  show (k.frame.rows.map _).map Row.name = _
  unfold Frame.names
  rw [List.map_map]
  apply List.map_congr_left
  intro r _
  simp only [Function.comp]
  split <;> rfl

theorem values_names (f : Frame) : f.values.map Prod.fst = f.names := by
  simp [Frame.values, Frame.names]

theorem values_lookup (f : Frame) (n : String) :
    f.values.lookup n = (rowOf f.rows n).map Row.value := by
  unfold Frame.values rowOf
  induction f.rows with
  | nil => rfl
  | cons r l ih =>
    rw [List.map_cons, List.lookup_cons, List.find?_cons]
    by_cases h : r.name = n
    · subst h; simp
    · have h1 : (r.name == n) = false := by simpa using h
      have h2 : (n == r.name) = false := by simpa using fun e => h e.symm
      rw [h1, h2]
      exact ih

theorem propagate_synced (g : MGroup) (h : Synced g) : Synced (propagate g) := by
  have hv : (g.frame.values.map Prod.fst).Nodup := by rw [values_names]; exact h.uniq.1
  refine ⟨⟨h.uniq.1, ?_⟩, h.clean, ?_, ?_⟩
  · intro k hk
    obtain ⟨j, hj, rfl⟩ := List.mem_map.mp hk
    rw [push_names _ hv j (h.cleanM j hj)]
    exact h.uniq.2 j hj
  · intro k hk
    obtain ⟨j, hj, rfl⟩ := List.mem_map.mp hk
    rw [push_spec _ hv j (h.cleanM j hj)]
    exact h.cleanM j hj
  · intro k hk n hn
    obtain ⟨j, hj, rfl⟩ := List.mem_map.mp hk
    rw [push_names _ hv j (h.cleanM j hj)] at hn
    exact h.names j hj n hn

theorem propagate_shared (g : MGroup) (h : Synced g) : Shared (propagate g) := by
  have hv : (g.frame.values.map Prod.fst).Nodup := by rw [values_names]; exact h.uniq.1
  intro k hk n hn
  have hs := propagate_synced g h
  refine ⟨hs.names k hk n hn, ?_⟩
  intro hh v hval
  obtain ⟨j, hj, rfl⟩ := List.mem_map.mp hk
  have hval' : HasValue g.frame n v := hval
  obtain ⟨R, hR, rfl⟩ := hval'
  rw [push_names _ hv j (h.cleanM j hj)] at hn
  obtain ⟨r, hr⟩ := get_isSome hn
  rw [push_spec _ hv j (h.cleanM j hj)] at hh ⊢
  unfold HasValue Held at *
  simp only at hh ⊢
  rw [get_map _ (fun r => by split <;> rfl), hr, Option.map_some] at hh ⊢
  refine ⟨_, rfl, ?_⟩
  have hfree : r.holdfast = some 0 := by
    by_contra hc
    apply hh
    refine ⟨_, rfl, ?_⟩
    rw [if_neg hc]; exact hc
  rw [if_pos hfree]
  simp only
  rw [get_name hr, values_lookup g.frame, hR]
  rfl

theorem sortOwn_names (f : Frame) (h : f.names.Nodup) : (sortOwn f).names.Nodup := unmangle_nodup _ _ _ h

theorem unmangle_group_synced (g : MGroup) (h : Unique g) : Synced (unmangleGroup g) := by
  unfold unmangleGroup
  simp only
  have h1 : ∀ k ∈ g.members.map Member.unmangled, k.frame.names.Nodup := by
    intro k hk
    obtain ⟨j, hj, rfl⟩ := List.mem_map.mp hk
    exact unmangle_nodup _ _ _ (h.2 j hj)
  obtain ⟨f1, f2, f3⟩ := import_fold (g.members.map Member.unmangled) (sortOwn g.frame).rows (sortOwn_names g.frame h.1) h1
  have base : Synced ⟨{ sortOwn g.frame with rows := (g.members.map Member.unmangled).foldl importRows (sortOwn g.frame).rows },
      g.members.map Member.unmangled⟩ := by
    refine ⟨⟨f1, h1⟩, unmangle_clean _ _, ?_, f3⟩
    intro k hk
    obtain ⟨j, hj, rfl⟩ := List.mem_map.mp hk
    exact unmangle_clean _ _
  split
  · exact base
  · exact propagate_synced _ base

theorem import_noop (ms : List Member) (rows : List Row) (h : ∀ k ∈ ms, ∀ n ∈ k.frame.names, n ∈ rows.map Row.name) :
    ms.foldl importRows rows = rows := by
  induction ms with
  | nil => rfl
  | cons k ks ih =>
    have : importRows rows k = rows := by
      unfold importRows
      rw [List.filter_eq_nil_iff.mpr, List.append_nil]
      intro r hr
      have := h k (by simp) r.name (List.mem_map_of_mem hr)
      simpa using this
    rw [List.foldl_cons, this]
    exact ih (fun j hj => h j (by simp [hj]))

/-- A group in sync is left alone. -/
theorem unmangle_group_noop (g : MGroup) (h : Synced g) : unmangleGroup g = g := by
  unfold unmangleGroup
  simp only
  have e1 : g.members.map Member.unmangled = g.members := by
    conv_rhs => rw [← List.map_id g.members]
    apply List.map_congr_left
    intro k hk
    unfold Member.unmangled
    rw [unmangle_noop _ _ (h.cleanM k hk)]
    rfl
  have e2 : sortOwn g.frame = g.frame := unmangle_noop _ _ h.clean
  rw [e1, e2, import_noop g.members g.frame.rows h.names]
  simp

theorem setValues_clean (m : Mentions) (f : Frame) (a : Arg) (respect : Bool) (kw : List (String × X))
    (h : f.mangled = false) : (setValues m f a respect kw).1.mangled = false := by
  have hk : ∀ (f : Frame) kw, f.mangled = false → (setKwargs m f kw).mangled = false := by
    intro f kw hf; unfold setKwargs; split <;> simp [hf]
  unfold setValues
  cases a with
  | none => exact hk f kw h
  | dict d => exact hk f _ h
  | scalar x => exact hk _ _ h
  | arr vs =>
    simp only
    have := setArray_mangled respect f vs
    split
    · next e1 => rw [e1] at this; rw [← h]; exact this
    · next e1 => rw [e1] at this; exact hk _ _ (by rw [← h]; exact this)
  | key s =>
    simp only
    split
    · exact h
    · next vs _ =>
      have := setArray_mangled respect f vs
      split
      · next e1 => rw [e1] at this; rw [← h]; exact this
      · next e1 => rw [e1] at this; exact hk _ _ (by rw [← h]; exact this)

theorem setValues_names_clean (f : Frame) (a : Arg) (respect : Bool) (kw : List (String × X))
    (h : f.mangled = false) : (setValues noMentions f a respect kw).1.names = f.names := by
  have hk : ∀ (f : Frame) kw, f.mangled = false → (setKwargs noMentions f kw).names = f.names := by
    intro f kw hf
    unfold setKwargs Frame.names
    split
    · rfl
    · simp only [hf, Bool.false_eq_true, if_false]
      rw [setNamed_fold, List.map_map]
      exact List.map_congr_left (fun r _ => named_name kw r)
  have ha : ∀ vs, (setArray respect f vs).1.mangled = false := fun vs => by rw [setArray_mangled]; exact h
  unfold setValues
  cases a with
  | none => exact hk f kw h
  | dict d => exact hk f _ h
  | scalar x =>
    simp only
    rw [hk _ _ (by exact h), setScalar_names]
  | arr vs =>
    simp only
    have := ha vs
    have hn := setArray_names respect f vs
    split
    · next e1 => rw [e1] at hn; exact hn
    · next e1 => rw [e1] at this hn; rw [hk _ _ this]; exact hn
  | key s =>
    simp only
    split
    · rfl
    · next vs _ =>
      have := ha vs
      have hn := setArray_names respect f vs
      split
      · next e1 => rw [e1] at hn; exact hn
      · next e1 => rw [e1] at this hn; rw [hk _ _ this]; exact hn

theorem with_frame_synced (g : MGroup) (h : Synced g) (f : Frame) (hn : f.names = g.frame.names) (hm : f.mangled = false) :
    Synced { g with frame := f } :=
  ⟨⟨by rw [show ({ g with frame := f } : MGroup).frame = f from rfl, hn]; exact h.uniq.1, h.uniq.2⟩, hm, h.cleanM,
    fun k hk n hnk => by
      rw [show ({ g with frame := f } : MGroup).frame = f from rfl, hn]; exact h.names k hk n hnk⟩

/-- What `set_values` does to a group in sync. -/
theorem setGroup_synced (g : MGroup) (h : Synced g) (a : Arg) (respect : Bool) (kw : List (String × X)) (g' : MGroup)
    (hs : setGroup g a respect kw = (g', none)) :
    (setValues noMentions g.frame a respect kw).2 = none ∧
    g' = propagate { g with frame := (setValues noMentions g.frame a respect kw).1 } ∧ Synced g' ∧ Shared g' := by
  unfold setGroup at hs
  split at hs
  · simp at hs
  · next f e1 =>
    have hs' : propagate (unmangleGroup { g with frame := f }) = g' := by simpa using hs
    have e2 : f = (setValues noMentions g.frame a respect kw).1 := by rw [e1]
    have hsy : Synced { g with frame := f } := with_frame_synced g h f
      (by rw [e2]; exact setValues_names_clean _ _ _ _ h.clean) (by rw [e2]; exact setValues_clean _ _ _ _ _ h.clean)
    rw [unmangle_group_noop _ hsy] at hs'
    refine ⟨by rw [e1], ?_, ?_, ?_⟩
    · rw [← hs', e2]
    · rw [← hs']; exact propagate_synced _ hsy
    · rw [← hs']; exact propagate_shared _ hsy

theorem propagate_frame (g : MGroup) : (propagate g).frame = g.frame := rfl

theorem prep_spec (g : MGroup) (h : Unique g) (x : Option Arg) (g' : MGroup) (hp : prep g x = (g', none)) :
    Synced g' ∧ Shared g' ∧ g'.frame =
      (x.elim (unmangleGroup g).frame (fun a => (setValues noMentions (unmangleGroup g).frame a true []).1)) := by
  unfold prep at hp
  have h1 := unmangle_group_synced g h
  cases x with
  | none =>
    simp only [Prod.mk.injEq, and_true] at hp
    rw [unmangle_group_noop _ h1] at hp
    rw [← hp]
    exact ⟨propagate_synced _ h1, propagate_shared _ h1, rfl⟩
  | some a =>
    simp only at hp
    split at hp
    · simp at hp
    · next g2 e =>
      simp only [Prod.mk.injEq, and_true] at hp
      obtain ⟨_, e2, e3, _⟩ := setGroup_synced _ h1 a true [] g2 e
      rw [unmangle_group_noop _ e3] at hp
      rw [← hp]
      refine ⟨propagate_synced _ e3, propagate_shared _ e3, ?_⟩
      rw [propagate_frame, e2, propagate_frame]
      rfl

/-! ## Log likelihood -/

theorem checkIfBest_values (f : Frame) (ll : X) : (checkIfBest f ll).values = f.values := by
  unfold checkIfBest Frame.values
  split <;> simp [Function.comp_def]

theorem best_row (f : Frame) (ll : X) (n : String) : ∃ b : Row → X,
    rowOf (checkIfBest f ll).rows n = (rowOf f.rows n).map (fun r => { r with best := b r }) := by
  unfold checkIfBest
  split
  · exact ⟨Row.value, get_map _ (fun _ => rfl)⟩
  · refine ⟨Row.best, ?_⟩
    cases rowOf f.rows n <;> rfl

theorem best_hasValue (f : Frame) (ll : X) (n : String) (v : X) : HasValue (checkIfBest f ll) n v ↔ HasValue f n v := by
  obtain ⟨b, hb⟩ := best_row f ll n
  unfold HasValue
  rw [hb]
  cases rowOf f.rows n <;> simp

theorem best_held (f : Frame) (ll : X) (n : String) : Held (checkIfBest f ll) n ↔ Held f n := by
  obtain ⟨b, hb⟩ := best_row f ll n
  unfold Held
  rw [hb]
  cases rowOf f.rows n <;> simp

theorem best_shared (f : Frame) (ms ms' : List Member) (v : X) (b : Member → X)
    (hms : ms' = ms.map (fun k => { k with frame := checkIfBest k.frame (b k) })) (h : Shared ⟨f, ms⟩) :
    Shared ⟨checkIfBest f v, ms'⟩ := by
  subst hms
  intro k hk n hn
  obtain ⟨j, hj, rfl⟩ := List.mem_map.mp hk
  simp only [checkIfBest_names] at hn ⊢
  obtain ⟨h1, h2⟩ := h j hj n hn
  refine ⟨h1, ?_⟩
  rw [best_held]
  intro hh w hw
  rw [best_hasValue] at hw ⊢
  exact h2 hh w hw

theorem runMembers_ok (ms ms' : List Member) (ls : List X) (hc : ∀ k ∈ ms, k.frame.mangled = false)
    (h : runMembers ms = (ms', .ok ls)) :
    List.Forall₂ (fun k l => k.ll k.frame.values = .ok l) ms' ls ∧
    List.Forall₂ (fun k k' => ∃ b, k' = { k with frame := checkIfBest k.frame b }) ms ms' := by
  induction ms generalizing ms' ls with
  | nil => simp [runMembers] at h; obtain ⟨rfl, rfl⟩ := h; exact ⟨.nil, .nil⟩
  | cons k ks ih =>
    unfold runMembers at h
    split at h
    · simp at h
    · next f l e1 =>
      have e1' := e1
      unfold Params.loglike at e1
      simp only at e1
      rw [unmangle_noop _ _ (hc k (by simp))] at e1
      split at h
      · simp at h
      · next ks' ls' e2 =>
        simp only [Prod.mk.injEq, Except.ok.injEq] at h
        obtain ⟨rfl, rfl⟩ := h
        obtain ⟨i1, i2⟩ := ih ks' ls' (fun j hj => hc j (by simp [hj])) e2
        split at e1
        · simp at e1
        · next l' e3 =>
          simp only [Prod.mk.injEq, Except.ok.injEq] at e1
          obtain ⟨rfl, rfl⟩ := e1
          refine ⟨.cons ?_ i1, .cons ⟨l', rfl⟩ i2⟩
          simp only [checkIfBest_values]
          exact e3

theorem forall2_shared (f : Frame) (ms ms' : List Member) (v : X)
    (hm : List.Forall₂ (fun k k' => ∃ b, k' = { k with frame := checkIfBest k.frame b }) ms ms') (h : Shared ⟨f, ms⟩) :
    Shared ⟨checkIfBest f v, ms'⟩ := by
  intro k' hk' n hn
  obtain ⟨i, hi, rfl⟩ := List.getElem_of_mem hk'
  have hlen := hm.length_eq
  change i < ms'.length at hi
  obtain ⟨b, e⟩ := (List.forall₂_iff_get.mp hm).2 i (by omega) hi
  simp only [List.get_eq_getElem] at e
  simp only [e, checkIfBest_names] at hn ⊢
  obtain ⟨h1, h2⟩ := h (ms[i]'(by omega)) (List.getElem_mem _) n hn
  refine ⟨h1, ?_⟩
  rw [best_held]
  intro hh w hw
  rw [best_hasValue] at hw ⊢
  exact h2 hh w hw

/-- **C40 (log likelihood).** When a group's `loglike(x)` returns, the result is the sum of the members' log likelihoods, each
evaluated at the parameter values the member then has; and these are the group's values, for every parameter the member does
not hold fast. -/
theorem C40_loglike (g : MGroup) (hu : Unique g) (x : Option Arg) (o : Opts) (g' : MGroup) (v : X)
    (h : Group.loglike g x o = (g', .ok v)) :
    Shared g' ∧ ∃ ls, List.Forall₂ (fun k l => k.ll k.frame.values = .ok l) g'.members ls ∧ v = pySum ls := by
  unfold Group.loglike at h
  split at h
  · simp at h
  · split at h
    · simp at h
    · next g1 e1 =>
      obtain ⟨p1, p2, p3⟩ := prep_spec g hu x g1 e1
      split at h
      · simp at h
      · next ms ls e2 =>
        simp only [Prod.mk.injEq, Except.ok.injEq] at h
        obtain ⟨rfl, rfl⟩ := h
        obtain ⟨r1, r2⟩ := runMembers_ok _ _ _ p1.cleanM e2
        exact ⟨forall2_shared g1.frame g1.members ms _ r2 p2, ls, r1, rfl⟩

theorem pySum_aux (l : List ℝ) : ∀ a : ℝ, (l.map X.fin).foldl (· + ·) (.fin a) = .fin (a + l.sum) := by
  induction l with
  | nil => intro a; simp
  | cons b l ih => intro a; rw [List.map_cons, List.foldl_cons, X.fin_add, ih, List.sum_cons, add_assoc]

theorem pySum_fin (l : List ℝ) : pySum (l.map X.fin) = .fin l.sum := by
  unfold pySum; rw [pySum_aux]; simp

theorem forall2_fin (ms : List Member) (F : Member → ℝ) (ls : List X)
    (h : List.Forall₂ (fun k l => k.ll k.frame.values = .ok l) ms ls)
    (hF : ∀ k ∈ ms, k.ll k.frame.values = .ok (.fin (F k))) : ls = (ms.map F).map X.fin := by
  induction h with
  | nil => rfl
  | cons h1 _ ih =>
    rw [hF _ (by simp)] at h1
    simp only [Except.ok.injEq] at h1
    rw [List.map_cons, List.map_cons, ← h1, ← ih (fun k hk => hF k (by simp [hk]))]

/-- **C40 (finite case).** If the members' log likelihoods are finite numbers, the group's is their ordinary sum. -/
theorem C40_loglike_sum (g : MGroup) (hu : Unique g) (x : Option Arg) (o : Opts) (g' : MGroup) (v : X)
    (h : Group.loglike g x o = (g', .ok v)) (F : Member → ℝ)
    (hF : ∀ k ∈ g'.members, k.ll k.frame.values = .ok (.fin (F k))) : v = .fin (g'.members.map F).sum := by
  obtain ⟨_, ls, h1, rfl⟩ := C40_loglike g hu x o g' v h
  rw [forall2_fin _ F ls h1 hF, pySum_fin]

/-- **C40 (options).** A group refuses case ranges, cross-validation settings and `probability_only`, and then changes
nothing. -/
theorem C40_refuses (g : MGroup) (x : Option Arg) (o : Opts)
    (h : ¬ (o.start = 0 ∧ o.stop = -1 ∧ o.step = 1 ∧ o.leaveOut = -1 ∧ o.keepOnly = -1 ∧ o.subsample = -1 ∧
      o.probabilityOnly = false)) : Group.loglike g x o = (g, .error "NotImplementedError") := by
  have : o.refused = true := by
    by_contra hc
    apply h
    simp only [Opts.refused, Bool.not_eq_true, Bool.or_eq_false_iff, bne_eq_false_iff_eq] at hc
    tauto
  unfold Group.loglike
  rw [if_pos this]

/-- **C40 (assignment).** `set_values(n=v)` on a group in use: afterwards the group has that value if it does not hold the
parameter fast, and every member has the group's value unless it holds the parameter fast. -/
theorem C40_set_values (g : MGroup) (h : Synced g) (a : Arg) (respect : Bool) (kw : List (String × X)) (g' : MGroup)
    (hs : setGroup g a respect kw = (g', none)) :
    g'.frame.rows = (setValues noMentions g.frame a respect kw).1.rows ∧ Shared g' := by
  obtain ⟨_, h2, _, h4⟩ := setGroup_synced g h a respect kw g' hs
  exact ⟨by rw [h2]; rfl, h4⟩

/-- Named assignment, spelled out. -/
theorem C40_set_named (g : MGroup) (h : Synced g) (n : String) (v : X) :
    ∃ g', setGroup g .none true [(n, v)] = (g', none) ∧ Shared g' ∧
      (¬ Held g.frame n → n ∈ g.frame.names → HasValue g'.frame n v) := by
  have e := C18_keywords noMentions g.frame [(n, v)] true h.clean (by simp)
  have hs : ∃ g', setGroup g .none true [(n, v)] = (g', none) := by unfold setGroup; rw [e]; exact ⟨_, rfl⟩
  obtain ⟨g', hs⟩ := hs
  obtain ⟨h1, h2⟩ := C40_set_values g h .none true _ g' hs
  refine ⟨g', hs, h2, ?_⟩
  intro hh hn
  obtain ⟨r, hr⟩ := get_isSome hn
  have hfree : r.holdfast = some 0 := by
    by_contra hc; exact hh ⟨r, hr, hc⟩
  unfold HasValue
  rw [h1, e]
  simp only
  rw [get_map _ (fun r => by split <;> rfl), hr, Option.map_some]
  refine ⟨_, rfl, ?_⟩
  rw [if_pos hfree]
  simp [get_name hr]

/-! ## Gradient -/

theorem lookup_map (names : List String) (d : String → X) (n : String) :
    (names.map (fun m => (m, d m))).lookup n = if n ∈ names then some (d n) else none := by
  induction names with
  | nil => rfl
  | cons a l ih =>
    rw [List.map_cons, List.lookup_cons]
    by_cases h : n = a
    · subst h; simp
    · have h1 : (n == a) = false := by simpa using h
      rw [h1]
      simp only [ih, List.mem_cons, h, false_or]

/-- A Series with finite entries `S` on the labels `A`. -/
def IsFin (s : Series) (A : List String) (S : String → ℝ) : Prop :=
  s.map Prod.fst = A ∧ ∀ n, s.lookup n = if n ∈ A then some (.fin (S n)) else none

theorem present_fin {s : Series} {A : List String} {S : String → ℝ} (h : IsFin s A S) (n : String) :
    present s n = if n ∈ A then some (.fin (S n)) else none := by
  unfold present
  rw [h.2 n]
  by_cases hn : n ∈ A <;> simp [hn]

theorem addFill_fin {a b : Series} {A B : List String} {S T : String → ℝ} (ha : IsFin a A S) (hb : IsFin b B T) :
    IsFin (addFill a b) (A ++ B.filter (fun n => n ∉ A))
      (fun n => (if n ∈ A then S n else 0) + (if n ∈ B then T n else 0)) := by
  unfold addFill
  rw [ha.1, hb.1]
  refine ⟨by simp [List.map_map, Function.comp_def], ?_⟩
  intro n
  rw [lookup_map]
  have hiff : n ∈ A ++ B.filter (fun n => n ∉ A) ↔ n ∈ A ∨ n ∈ B := by
    rw [List.mem_append, List.mem_filter]
    by_cases hA : n ∈ A <;> simp [hA]
  by_cases hm : n ∈ A ++ B.filter (fun n => n ∉ A)
  · rw [if_pos hm, if_pos hm, present_fin ha, present_fin hb]
    by_cases hA : n ∈ A <;> by_cases hB : n ∈ B <;> simp_all [fillAdd]
  · rw [if_neg hm, if_neg hm]

theorem fold_fin (δ : Member → String → ℝ) (ks : List Member) : ∀ (a : Series) (A : List String) (S : String → ℝ), IsFin a A S →
    ∃ A' : List String, (∀ n, n ∈ A' ↔ n ∈ A ∨ ∃ k ∈ ks, n ∈ k.frame.names) ∧
      IsFin ((ks.map (fun k => k.frame.names.map (fun n => (n, X.fin (δ k n))))).foldl addFill a) A'
        (fun n => (if n ∈ A then S n else 0) + (ks.map (fun k => if n ∈ k.frame.names then δ k n else 0)).sum) := by
  induction ks with
  | nil =>
    intro a A S h
    refine ⟨A, by simp, h.1, ?_⟩
    intro n
    show a.lookup n = _
    rw [h.2 n]
    by_cases hn : n ∈ A <;> simp [hn]
  | cons k ks ih =>
    intro a A S h
    have hk : IsFin (k.frame.names.map (fun n => (n, X.fin (δ k n)))) k.frame.names (δ k) :=
      ⟨by simp [List.map_map, Function.comp_def], fun n => lookup_map _ _ n⟩
    obtain ⟨A', h1, h2, h3⟩ := ih _ _ _ (addFill_fin h hk)
    have hiff : ∀ n, n ∈ A ++ k.frame.names.filter (fun n => n ∉ A) ↔ n ∈ A ∨ n ∈ k.frame.names := by
      intro n
      rw [List.mem_append, List.mem_filter]
      by_cases hA : n ∈ A <;> simp [hA]
    refine ⟨A', ?_, h2, ?_⟩
    · intro n
      rw [h1 n, hiff n]
      simp [or_assoc]
    · intro n
      rw [List.map_cons, List.foldl_cons, h3 n]
      congr 3
      show _ + _ = _ + _
      rw [List.map_cons, List.sum_cons, ← add_assoc]
      congr 1
      by_cases hA : n ∈ A <;> by_cases hB : n ∈ k.frame.names <;> simp [hA, hB]

theorem select_ok (s : Series) (A : List String) (S : String → ℝ) (h : IsFin s A S) (names : List String)
    (hn : ∀ n ∈ names, n ∈ A) : select s names = .ok (names.map (fun n => (n, X.fin (S n)))) := by
  induction names with
  | nil => rfl
  | cons n ns ih =>
    unfold select
    rw [ih (fun m hm => hn m (by simp [hm])), h.2 n, if_pos (hn n (by simp))]
    rfl

theorem loglike2_best (k : Member) (hc : k.frame.mangled = false) (b : X) :
    Member.loglike2 { k with frame := checkIfBest k.frame b } = k.loglike2 := by
  have hb : (checkIfBest k.frame b).mangled = false := by unfold checkIfBest; split <;> simp [hc]
  unfold Member.loglike2
  simp only
  rw [unmangle_noop _ _ hc, unmangle_noop _ _ hb, checkIfBest_values, checkIfBest_names]

theorem parts2_best (ms ms' : List Member) (hc : ∀ k ∈ ms, k.frame.mangled = false)
    (hm : List.Forall₂ (fun k k' => ∃ b, k' = { k with frame := checkIfBest k.frame b }) ms ms') : parts2 ms' = parts2 ms := by
  induction hm with
  | nil => rfl
  | cons h1 _ ih =>
    obtain ⟨b, rfl⟩ := h1
    unfold parts2
    rw [loglike2_best _ (hc _ (by simp)) b, ih (fun k hk => hc k (by simp [hk]))]

theorem parts2_ok (ms : List Member) (hc : ∀ k ∈ ms, k.frame.mangled = false) (ls : List X)
    (hl : List.Forall₂ (fun k l => k.ll k.frame.values = .ok l) ms ls) (δ : Member → String → ℝ)
    (hd : ∀ k ∈ ms, k.dll k.frame.values = .ok (fun n => .fin (δ k n))) :
    parts2 ms = .ok (ls.zip (ms.map (fun k => k.frame.names.map (fun n => (n, X.fin (δ k n)))))) := by
  induction hl with
  | nil => rfl
  | cons h1 _ ih =>
    unfold parts2
    rw [ih (fun k hk => hc k (by simp [hk])) (fun k hk => hd k (by simp [hk]))]
    unfold Member.loglike2
    rw [unmangle_noop _ _ (hc _ (by simp)), h1, hd _ (by simp)]
    rfl

/-- **C40 (gradient).** If every member's gradient is finite and every parameter of the group occurs in a member, the group's
gradient has, for each parameter of the group, the sum of the members' entries over the members that have that
parameter. -/
theorem C40_gradient (g : MGroup) (hu : Unique g) (x : Option Arg) (o : Opts) (g' : MGroup) (v : X)
    (h : Group.loglike g x o = (g', .ok v)) (hne : g'.members ≠ [])
    (hcov : ∀ n ∈ g'.frame.names, ∃ k ∈ g'.members, n ∈ k.frame.names) (δ : Member → String → ℝ)
    (hd : ∀ k ∈ g'.members, k.dll k.frame.values = .ok (fun n => .fin (δ k n))) :
    Group.loglike2 g x o = .ok (v, g'.frame.names.map (fun n =>
      (n, .fin (g'.members.map (fun k => if n ∈ k.frame.names then δ k n else 0)).sum))) := by
  unfold Group.loglike at h
  unfold Group.loglike2
  split at h
  · simp at h
  · next ho =>
    rw [if_neg ho]
    split at h
    · simp at h
    · next g1 e1 =>
      obtain ⟨p1, p2, p3⟩ := prep_spec g hu x g1 e1
      split at h
      · simp at h
      · next ms ls e2 =>
        simp only [Prod.mk.injEq, Except.ok.injEq] at h
        obtain ⟨rfl, rfl⟩ := h
        obtain ⟨r1, r2⟩ := runMembers_ok _ _ _ p1.cleanM e2
        simp only at hne hcov hd ⊢
        have hc' : ∀ k ∈ ms, k.frame.mangled = false := by
          intro k hk
          obtain ⟨i, hi, rfl⟩ := List.getElem_of_mem hk
          have hlen := r2.length_eq
          obtain ⟨b, e⟩ := (List.forall₂_iff_get.mp r2).2 i (by omega) hi
          simp only [List.get_eq_getElem] at e
          rw [e]
          have := p1.cleanM _ (List.getElem_mem (show i < g1.members.length by omega))
          unfold checkIfBest
          split <;> exact this
        rw [← parts2_best _ _ p1.cleanM r2, parts2_ok ms hc' ls r1 δ hd]
        cases ms with
        | nil => exact absurd rfl hne
        | cons k ks =>
          cases ls with
          | nil => cases r1
          | cons l ls =>
            simp only [List.map_cons, List.zip_cons_cons]
            have hk : IsFin (k.frame.names.map (fun n => (n, X.fin (δ k n)))) k.frame.names (δ k) :=
              ⟨by simp [List.map_map, Function.comp_def], fun n => lookup_map _ _ n⟩
            obtain ⟨A', a1, a2⟩ := fold_fin δ ks _ _ _ hk
            have hlen : ls.length = ks.length := by
              cases r1 with
              | cons _ t => exact t.length_eq.symm
            have efold : (ls.zip (ks.map (fun k => k.frame.names.map (fun n => (n, X.fin (δ k n)))))).foldl
                (fun acc q => addFill acc q.2) (k.frame.names.map (fun n => (n, X.fin (δ k n)))) =
                (ks.map (fun k => k.frame.names.map (fun n => (n, X.fin (δ k n))))).foldl addFill
                  (k.frame.names.map (fun n => (n, X.fin (δ k n)))) := by
              rw [← List.foldl_map (f := Prod.snd) (g := addFill), List.map_snd_zip (by simp [hlen])]
            rw [efold, select_ok _ A' _ a2 _ (by
              intro n hn
              rw [a1 n]
              obtain ⟨j, hj, hjn⟩ := hcov n (by rw [checkIfBest_names]; exact hn)
              rcases List.mem_cons.mp hj with rfl | hj
              · exact Or.inl hjn
              · exact Or.inr ⟨j, hj, hjn⟩)]
            rw [List.map_fst_zip (by simp [hlen]), checkIfBest_names]
            simp only [List.sum_cons]

/-- **C40 (gradient is the derivative).** Suppose each member's log likelihood is a function `F k` of the parameters it has, with
the partial derivatives `δ k` the member reports.  Then the group's log likelihood is `∑ F k` and each entry of the group's
gradient is the partial derivative of that sum. -/
theorem C40_gradient_deriv (g : MGroup) (hu : Unique g) (x : Option Arg) (o : Opts) (g' : MGroup) (v : X)
    (h : Group.loglike g x o = (g', .ok v)) (hne : g'.members ≠ [])
    (hcov : ∀ n ∈ g'.frame.names, ∃ k ∈ g'.members, n ∈ k.frame.names)
    (F : Member → (String → ℝ) → ℝ) (δ : Member → String → ℝ) (θ : String → ℝ)
    (hF : ∀ k ∈ g'.members, k.ll k.frame.values = .ok (.fin (F k θ)))
    (hd : ∀ k ∈ g'.members, k.dll k.frame.values = .ok (fun n => .fin (δ k n)))
    (hdep : ∀ k ∈ g'.members, ∀ n ∉ k.frame.names, ∀ t, F k (Function.update θ n t) = F k θ)
    (hder : ∀ k ∈ g'.members, ∀ n ∈ k.frame.names, HasDerivAt (fun t => F k (Function.update θ n t)) (δ k n) (θ n)) :
    ∃ d : String → ℝ, Group.loglike2 g x o =
        .ok (.fin (g'.members.map (fun k => F k θ)).sum, g'.frame.names.map (fun n => (n, .fin (d n)))) ∧
      ∀ n ∈ g'.frame.names, HasDerivAt (fun t => (g'.members.map (fun k => F k (Function.update θ n t))).sum) (d n) (θ n) := by
  refine ⟨fun n => (g'.members.map (fun k => if n ∈ k.frame.names then δ k n else 0)).sum, ?_, ?_⟩
  · rw [C40_gradient g hu x o g' v h hne hcov δ hd,
      C40_loglike_sum g hu x o g' v h (fun k => F k θ) hF]
  · intro n _
    have key : ∀ ms : List Member, (∀ k ∈ ms, k ∈ g'.members) →
        HasDerivAt (fun t => (ms.map (fun k => F k (Function.update θ n t))).sum)
          (ms.map (fun k => if n ∈ k.frame.names then δ k n else 0)).sum (θ n) := by
      intro ms
      induction ms with
      | nil => intro _; simpa using hasDerivAt_const (θ n) (0 : ℝ)
      | cons k ks ih =>
        intro hk
        simp only [List.map_cons, List.sum_cons]
        refine HasDerivAt.add ?_ (ih (fun j hj => hk j (by simp [hj])))
        by_cases hn : n ∈ k.frame.names
        · rw [if_pos hn]; exact hder k (hk k (by simp)) n hn
        · rw [if_neg hn]
          have : (fun t => F k (Function.update θ n t)) = fun _ => F k θ := by
            funext t; exact hdep k (hk k (by simp)) n hn t
          rw [this]; exact hasDerivAt_const _ _
    exact key g'.members (fun _ hk => hk)

/-! ## Where the group is not the sum of its members -/

/-- A one-parameter row. -/
def gRow (n : String) (v : ℝ) (held : Int) : Row := ⟨n, .fin v, .fin 0, .fin 0, .ninf, .pinf, some held, .nan⟩

/-- A clean frame of the given rows. -/
def gFrame (rows : List Row) : Frame := ⟨rows, false, false, .ninf, .fin 0⟩

/-- A member whose log likelihood is the value of its first parameter and whose gradient entries are all `d`. -/
noncomputable def gMember (rows : List Row) (d : X) : Member :=
  ⟨⟨[], [], []⟩, gFrame rows, fun vals => .ok (vals.head?.elim (.fin 0) Prod.snd), fun _ => .ok (fun _ => d), 3, 2⟩

theorem gUnmangled (rows : List Row) (d : X) : (gMember rows d).unmangled = gMember rows d := by
  unfold Member.unmangled gMember
  simp only
  rw [unmangle_noop _ _ rfl]

theorem sort_nil (f : Frame) (h : f.rows = []) : (sortOwn f).rows = [] := by
  unfold sortOwn unmangle
  cases hm : f.mangled <;> simp [h, hm, scanAll, ensureNames, noMentions]

/-- The group of the given members, used once. -/
theorem unmangle_fresh (a b : Member) (ha : a.frame.mangled = false) (hb : b.frame.mangled = false) (h : a.frame.names ≠ [])
    (f : Frame) (hf : f.rows = []) :
    unmangleGroup ⟨f, [a, b]⟩ = propagate ⟨{ sortOwn f with rows := importRows (importRows [] a) b }, [a, b]⟩ := by
  have e : ∀ k : Member, k.frame.mangled = false → k.unmangled = k := by
    intro k hk; unfold Member.unmangled; rw [unmangle_noop _ _ hk]
  unfold unmangleGroup
  simp only [List.map_cons, List.map_nil, e a ha, e b hb, sort_nil f hf, List.foldl_cons, List.foldl_nil, List.length_nil]
  rw [if_neg]
  intro hl
  have : (importRows (importRows [] a) b) = [] := List.eq_nil_of_length_eq_zero hl
  unfold importRows at this
  simp only [List.append_eq_nil_iff, List.nil_append] at this
  apply h
  unfold Frame.names
  have h1 := this.1
  simp only [List.map_nil, List.not_mem_nil, not_false_eq_true, decide_true, List.filter_true] at h1
  rw [h1]; rfl

/-- The demonstration group: `a = 1` in the first member, `a = 5` held fast in the second. -/
noncomputable def gDemo : MGroup :=
  Group.init (gFrame []) [.model (gMember [gRow "a" 1 0] (.fin 2)), .model (gMember [gRow "a" 5 1] (.fin 2))]

theorem gDemo_unmangle : unmangleGroup gDemo =
    ⟨{ sortOwn { gFrame [] with mangled := true } with rows := [gRow "a" 1 0] },
      [gMember [gRow "a" 1 0] (.fin 2), gMember [gRow "a" 5 1] (.fin 2)]⟩ := by
  show unmangleGroup ⟨{ gFrame [] with mangled := true }, [gMember [gRow "a" 1 0] (.fin 2), gMember [gRow "a" 5 1] (.fin 2)]⟩ = _
  rw [unmangle_fresh _ _ rfl rfl (by simp [gMember, gFrame, Frame.names]) _ rfl]
  have hi : importRows (importRows [] (gMember [gRow "a" 1 0] (.fin 2))) (gMember [gRow "a" 5 1] (.fin 2)) = [gRow "a" 1 0] := by
    simp [importRows, gMember, gFrame, gRow]
  rw [hi]
  unfold propagate
  simp only [List.map_cons, List.map_nil, push]
  simp only [setValues, setKwargs, gMember, gFrame, Frame.values, List.map_cons, List.map_nil, gRow]
  simp [setNamed, Row.free]

/-- **C40 violated (member holds fast).** A parameter held fast in one member, at a value other than the group's, is not shared:
the group reports `a = 1`, evaluates that member at `a = 5`, and returns `1 + 5`, while the sum at the group's own
parameters is `2`. -/
theorem C40_fails_holdfast : ∃ g', Group.loglike gDemo none {} = (g', .ok (.fin 6)) ∧ HasValue g'.frame "a" (.fin 1) ∧
    ∃ k ∈ g'.members, HasValue k.frame "a" (.fin 5) := by
  have e2 : propagate (unmangleGroup gDemo) = unmangleGroup gDemo := by
    rw [gDemo_unmangle]
    unfold propagate
    simp only [List.map_cons, List.map_nil, push]
    simp only [setValues, setKwargs, gMember, gFrame, Frame.values, List.map_cons, List.map_nil, gRow]
    simp [setNamed, Row.free]
  have hu : Unique gDemo := by
    constructor
    · simp [gDemo, Group.init, gFrame, Frame.names]
    · intro k hk
      simp only [gDemo, Group.init, List.flatMap_cons, List.flatMap_nil, List.append_nil, List.cons_append, List.nil_append,
        List.mem_cons, List.not_mem_nil, or_false] at hk
      rcases hk with rfl | rfl <;> simp [gMember, gFrame, Frame.names]
  have e3 : prep gDemo none = (unmangleGroup gDemo, none) := by
    unfold prep
    simp only
    rw [unmangle_group_noop _ (unmangle_group_synced _ hu), e2]
  have e4 : runMembers (unmangleGroup gDemo).members =
      ([{ gMember [gRow "a" 1 0] (.fin 2) with frame := checkIfBest (gFrame [gRow "a" 1 0]) (.fin 1) },
        { gMember [gRow "a" 5 1] (.fin 2) with frame := checkIfBest (gFrame [gRow "a" 5 1]) (.fin 5) }],
        .ok [.fin 1, .fin 5]) := by
    rw [gDemo_unmangle]
    simp only [runMembers, Params.loglike]
    rw [unmangle_noop _ _ (by rfl), unmangle_noop _ _ (by rfl)]
    simp [gMember, gFrame, Frame.values, gRow]
  have e5 : pySum [.fin 1, .fin 5] = .fin 6 := by
    simp only [pySum, List.foldl_cons, List.foldl_nil, X.fin_add]; norm_num
  unfold Group.loglike
  rw [if_neg (by decide), e3]
  simp only
  rw [e4]
  simp only
  rw [e5]
  refine ⟨_, rfl, ?_, _, List.mem_cons_of_mem _ (List.mem_cons_self), ?_⟩
  · rw [best_hasValue, gDemo_unmangle]
    exact ⟨gRow "a" 1 0, rfl, rfl⟩
  · simp only
    rw [best_hasValue]
    exact ⟨gRow "a" 5 1, rfl, rfl⟩

/-- **C40 violated (unused group).** `set_values` on a group that was not yet used (its frame is still empty) is lost: the
values come from the members, whatever was assigned.  Here `set_values(a=7)` leaves `a = 1`. -/
theorem C40_fails_unused : ∃ g', setGroup gDemo .none true [("a", .fin 7)] = (g', none) ∧ HasValue g'.frame "a" (.fin 1) := by
  have e0 : (setValues noMentions gDemo.frame .none true [("a", .fin 7)]) = ({ gFrame [] with mangled := true }, none) := by
    simp [setValues, setKwargs, gDemo, Group.init, gFrame, scanAll, ensureNames, noMentions, setNamed]
  unfold setGroup
  rw [e0]
  refine ⟨_, rfl, ?_⟩
  rw [propagate_frame]
  have : ({ gDemo with frame := { gFrame [] with mangled := true } } : MGroup) = gDemo := rfl
  rw [this, gDemo_unmangle]
  exact ⟨gRow "a" 1 0, rfl, rfl⟩

/-- **C40 violated (override).** `set_values(…, respect_holdfast=False)` changes the group's value of a held parameter but not
the member's. -/
theorem C40_fails_override :
    let g : MGroup := ⟨gFrame [gRow "a" 1 1], [gMember [gRow "a" 1 1] (.fin 2)]⟩
    Synced g ∧ ∃ g', setGroup g (.arr [.fin 7]) false [] = (g', none) ∧ HasValue g'.frame "a" (.fin 7) ∧
      ∀ k ∈ g'.members, HasValue k.frame "a" (.fin 1) := by
  intro g
  have hs : Synced g := by
    refine ⟨⟨by simp [g, gFrame, Frame.names], ?_⟩, rfl, ?_, ?_⟩
    · intro k hk; simp only [g, List.mem_singleton] at hk; subst hk; simp [gMember, gFrame, Frame.names]
    · intro k hk; simp only [g, List.mem_singleton] at hk; subst hk; rfl
    · intro k hk n hn; simp only [g, List.mem_singleton] at hk; subst hk; exact hn
  refine ⟨hs, ?_⟩
  have e0 : (setValues noMentions g.frame (.arr [.fin 7]) false []) = (gFrame [gRow "a" 7 1], none) := by
    simp [setValues, setKwargs, setArray, g, gFrame, gRow, X.isNaN]
  have hsy : Synced { g with frame := gFrame [gRow "a" 7 1] } := with_frame_synced g hs _ rfl rfl
  unfold setGroup
  rw [e0]
  simp only
  rw [unmangle_group_noop _ hsy]
  refine ⟨_, rfl, ⟨gRow "a" 7 1, rfl, rfl⟩, ?_⟩
  intro k hk
  simp only [propagate, g, List.map_cons, List.map_nil, List.mem_singleton] at hk
  subst hk
  rw [push_spec _ (by simp [Frame.values, gFrame]) _ rfl]
  exact ⟨gRow "a" 1 1, rfl, rfl⟩

/-- **C40 violated (NaN gradient masked).** If one member's gradient entry is NaN and another member has a number for the same
parameter, the group reports the other number instead of NaN. -/
theorem C40_fails_nan_gradient (n : String) (r : ℝ) :
    addFill [(n, .nan)] [(n, .fin r)] = [(n, .fin r)] ∧ (X.nan + .fin r : X) = .nan := by
  refine ⟨?_, rfl⟩
  simp [addFill, present, fillAdd]

/-- **C40 violated (parameter in no member).** A group parameter that no member has (for instance after its only member was
deleted) makes `loglike2` raise KeyError; a group without members raises IndexError, though `loglike` returns 0. -/
theorem C40_fails_orphan : (Group.loglike2 ⟨gFrame [gRow "a" 1 0, gRow "b" 1 0], [gMember [gRow "a" 1 0] (.fin 2)]⟩ none {} =
      .error "KeyError") ∧
    (∀ f : Frame, f.names.Nodup → (Group.loglike ⟨f, []⟩ none {}).2 = .ok (.fin 0) ∧
      Group.loglike2 ⟨f, []⟩ none {} = .error "IndexError") := by
  constructor
  · have hs : Synced ⟨gFrame [gRow "a" 1 0, gRow "b" 1 0], [gMember [gRow "a" 1 0] (.fin 2)]⟩ := by
      refine ⟨⟨by simp [gFrame, Frame.names, gRow], ?_⟩, rfl, ?_, ?_⟩
      · intro k hk; simp only [List.mem_singleton] at hk; subst hk; simp [gMember, gFrame, Frame.names]
      · intro k hk; simp only [List.mem_singleton] at hk; subst hk; rfl
      · intro k hk n hn
        simp only [List.mem_singleton] at hk; subst hk
        simp only [gMember, gFrame, Frame.names, gRow, List.map_cons, List.map_nil, List.mem_singleton] at hn ⊢
        simp [hn]
    unfold Group.loglike2 prep
    rw [if_neg (by decide)]
    simp only
    rw [unmangle_group_noop _ hs, unmangle_group_noop _ hs]
    simp only [propagate, List.map_cons, List.map_nil]
    have hp : push (gFrame [gRow "a" 1 0, gRow "b" 1 0]).values (gMember [gRow "a" 1 0] (.fin 2)) = gMember [gRow "a" 1 0] (.fin 2) := by
      unfold push
      simp [setValues, setKwargs, gMember, gFrame, Frame.values, gRow, setNamed, Row.free]
    rw [hp]
    simp only [parts2, Member.loglike2]
    rw [unmangle_noop _ _ (by rfl)]
    simp [gMember, gFrame, Frame.values, gRow, Frame.names, select, List.lookup]
  · intro f hf
    have hu : Unique ⟨f, []⟩ := ⟨hf, by simp⟩
    have hs := unmangle_group_synced _ hu
    have hm : (unmangleGroup ⟨f, []⟩).members = [] := by
      unfold unmangleGroup propagate
      simp only [List.map_nil, List.foldl_nil, if_true]
    constructor
    · unfold Group.loglike prep
      rw [if_neg (by decide)]
      simp only
      rw [unmangle_group_noop _ hs]
      simp only [propagate, hm, List.map_nil, runMembers]
      rfl
    · unfold Group.loglike2 prep
      rw [if_neg (by decide)]
      simp only
      rw [unmangle_group_noop _ hs]
      simp only [propagate, hm, List.map_nil, parts2]

/-- The hypotheses of the gradient theorem are met by an ordinary group: two members sharing `a`, one also having `b`. -/
example :
    let g : MGroup := ⟨gFrame [gRow "a" 1 0, gRow "b" 4 0], [gMember [gRow "a" 1 0] (.fin 2), gMember [gRow "a" 1 0, gRow "b" 4 0] (.fin 3)]⟩
    Group.loglike2 g none {} = .ok (.fin 2, [("a", .fin 5), ("b", .fin 3)]) := by
  intro g
  have hs : Synced g := by
    refine ⟨⟨by simp [g, gFrame, Frame.names, gRow], ?_⟩, rfl, ?_, ?_⟩
    · intro k hk
      simp only [g, List.mem_cons, List.not_mem_nil, or_false] at hk
      rcases hk with rfl | rfl <;> simp [gMember, gFrame, Frame.names, gRow]
    · intro k hk
      simp only [g, List.mem_cons, List.not_mem_nil, or_false] at hk
      rcases hk with rfl | rfl <;> rfl
    · intro k hk n hn
      simp only [g, List.mem_cons, List.not_mem_nil, or_false] at hk
      rcases hk with rfl | rfl <;>
        simp only [gMember, gFrame, Frame.names, gRow, List.map_cons, List.map_nil, List.mem_cons, List.not_mem_nil, or_false, g] at hn ⊢ <;>
        tauto
  unfold Group.loglike2 prep
  rw [if_neg (by decide)]
  simp only
  rw [unmangle_group_noop _ hs, unmangle_group_noop _ hs]
  simp only [propagate, g, List.map_cons, List.map_nil]
  have hp1 : push (gFrame [gRow "a" 1 0, gRow "b" 4 0]).values (gMember [gRow "a" 1 0] (.fin 2)) = gMember [gRow "a" 1 0] (.fin 2) := by
    unfold push
    simp [setValues, setKwargs, gMember, gFrame, Frame.values, gRow, setNamed, Row.free]
  have hp2 : push (gFrame [gRow "a" 1 0, gRow "b" 4 0]).values (gMember [gRow "a" 1 0, gRow "b" 4 0] (.fin 3)) =
      gMember [gRow "a" 1 0, gRow "b" 4 0] (.fin 3) := by
    unfold push
    simp [setValues, setKwargs, gMember, gFrame, Frame.values, gRow, setNamed, Row.free]
  rw [hp1, hp2]
  simp only [parts2, Member.loglike2]
  rw [unmangle_noop _ _ (by rfl), unmangle_noop _ _ (by rfl)]
  simp [gMember, gFrame, Frame.values, gRow, Frame.names, select, addFill, present, fillAdd, pySum, List.lookup]
  norm_num

end Larch.Props
