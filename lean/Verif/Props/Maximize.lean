import Verif.Model.Maximize

/-!
# C30, C68, C69: `maximize_loglike`
-/

namespace Larch.Props

open Larch.Maximize

variable {V L : Type}

/-! ## C30 -/

/-- C30: whatever the optimizers do to the settings, and however they end, a model with penalty settings has the same settings after
`maximize_loglike` as before. -/
theorem C30_restored (c : Cfg V L) (m : M V) (i s : ℚ) (hi : m.intensity = some i) (hs : m.sharpness = some s) :
    (c.maximize m).2.intensity = some i ∧ (c.maximize m).2.sharpness = some s := by
  simp [Cfg.maximize, hi, hs]

/-- An optimizer that changes both settings and raises. -/
def rude : Cfg ℤ ℤ where
  bhhhStart := 3
  fit b m := (if b then .error .stepFailure else .error .other, { m with intensity := some 7, sharpness := some 9 })
  minimize _ p := ([p + 1, p + 2], .error .other)

example : (rude.body ⟨0, some 1, some 2⟩).2 = ⟨2, some 0, some 9⟩ ∧ (rude.maximize ⟨0, some 1, some 2⟩).2 = ⟨2, some 1, some 2⟩ ∧
    (rude.maximize ⟨0, some 1, some 2⟩).1 = .error .other := by
  exact ⟨rfl, rfl, rfl⟩

/-- C30 fails for a model without these attributes: a start with BHHH leaves a `constraint_intensity` behind. -/
theorem C30_fails_no_attribute (c : Cfg V L) (hb : c.bhhhStart ≠ 0) (hs : c.setup = none) (m : M V) (hi : m.intensity = none)
    (hf : (c.fit true m).1 = .error .other) : (c.maximize m).2.intensity = some 0 := by
  have : c.start m = (.error .other, { (c.fit true m).2 with intensity := some 0 }) := by
    unfold Cfg.start
    rw [if_neg hb]
    generalize h : c.fit true m = x at *
    rcases x with ⟨r, m'⟩
    simp only at hf
    subst hf
    rfl
  simp [Cfg.maximize, Cfg.body, hs, this, hi]

/-! ## C69: choice of the method -/

/-- Some parameter has a finite bound. -/
def HasFiniteBound (c : Cfg V L) : Prop := (∃ q, Bnd.fin q ∈ c.minimum) ∨ ∃ q, Bnd.fin q ∈ c.maximum

theorem any_fin (l : List Bnd) : l.any Bnd.isFin = true ↔ ∃ q, Bnd.fin q ∈ l := by
  rw [List.any_eq_true]
  constructor
  · rintro ⟨x, hx, h⟩
    cases x with
    | fin q => exact ⟨q, hx⟩
    | _ => simp [Bnd.isFin] at h
  · rintro ⟨q, hq⟩; exact ⟨_, hq, rfl⟩

/-- C69, as documented: without a method and without a BHHH start, SLSQP is used if there are constraints or finite bounds, otherwise BHHH -
for bounds that are not infinite the wrong way round. -/
theorem C69_default (c : Cfg V L) (hm : c.method = none) (hb : c.bhhhStart = 0) (h1 : Bnd.pinf ∉ c.minimum) (h2 : Bnd.ninf ∉ c.maximum) :
    (c.chosen = .slsqp ↔ c.hasConstraints = true ∨ HasFiniteBound c) ∧ (c.chosen = .slsqp ∨ c.chosen = .bhhh) := by
  have e1 : maxFinite c.minimum = true ↔ ∃ q, Bnd.fin q ∈ c.minimum := by
    unfold maxFinite
    rw [Bool.and_eq_true, any_fin]
    simp only [ne_eq, List.all_eq_true, decide_not, Bool.not_eq_true', decide_eq_false_iff_not, and_iff_left_iff_imp]
    rintro - x hx rfl
    exact h1 hx
  have e2 : minFinite c.maximum = true ↔ ∃ q, Bnd.fin q ∈ c.maximum := by
    unfold minFinite
    rw [Bool.and_eq_true, any_fin]
    simp only [ne_eq, List.all_eq_true, decide_not, Bool.not_eq_true', decide_eq_false_iff_not, and_iff_left_iff_imp]
    rintro - x hx rfl
    exact h2 hx
  unfold Cfg.chosen HasFiniteBound
  rw [hm]
  simp only [hb, ne_eq, not_true_eq_false, if_false, ← e1, ← e2]
  cases c.hasConstraints <;> cases maxFinite c.minimum <;> cases minFinite c.maximum <;> simp

/-- C69: a given method is used, except that BHHH after a BHHH start is replaced by SLSQP. -/
theorem C69_given (c : Cfg V L) (meth : Meth) (hm : c.method = some meth) :
    c.chosen = meth ∨ (c.bhhhStart ≠ 0 ∧ meth = .bhhh ∧ c.chosen = .slsqp) := by
  unfold Cfg.chosen
  rw [hm]
  simp only
  split
  · rename_i h; exact Or.inr ⟨h.1, h.2, rfl⟩
  · exact Or.inl rfl

/-- C69: when BHHH is used and ends with a step failure, the second method (SLSQP unless another is given) takes over from the values BHHH
left, its report is returned, and both methods are named. -/
theorem C69_fallback (c : Cfg V L) (hb : c.bhhhStart = 0) (hs : c.setup = none) (hc : c.chosen = .bhhh) (m2 : Meth)
    (h2 : c.second = some m2) (hne : m2 ≠ .bhhh) (m m' : M V) (hf : c.fit false m = (.error .stepFailure, m')) (pts : List V) (rep : Rep V L)
    (hm : c.minimize m2 m'.pvals = (pts, .ok rep)) : (c.maximize m).1 = .ok ⟨some rep, [.bhhh, m2]⟩ := by
  simp [Cfg.maximize, Cfg.body, hs, Cfg.start, hb, hc, Cfg.main, hf, h2, hne, Cfg.scipy, hm]

/-- C69: any other exception of an optimizer is raised to the caller. -/
theorem C69_other_raised (c : Cfg V L) (hb : c.bhhhStart = 0) (hs : c.setup = none) (m m' : M V) :
    (c.chosen = .bhhh → c.fit false m = (.error .other, m') → (c.maximize m).1 = .error .other) ∧
    (c.chosen ≠ .bhhh → ∀ pts e, c.minimize c.chosen m.pvals = (pts, .error e) → (c.maximize m).1 = .error e) := by
  constructor
  · intro hc hf
    simp [Cfg.maximize, Cfg.body, hs, Cfg.start, hb, hc, Cfg.main, hf]
  · intro hc pts e hm
    simp [Cfg.maximize, Cfg.body, hs, Cfg.start, hb, hc, Cfg.scipy, hm]

/-- C69 fails: with `method2='bhhh'`, a failure of BHHH is not reported: an empty result is returned. -/
theorem C69_fails_method2 (c : Cfg V L) (hb : c.bhhhStart = 0) (hs : c.setup = none) (hc : c.chosen = .bhhh) (h2 : c.method2 = some .bhhh)
    (m m' : M V) (hf : c.fit false m = (.error .stepFailure, m')) : (c.maximize m).1 = .ok ⟨none, [.bhhh, .bhhh]⟩ := by
  have : c.second = some .bhhh := by simp [Cfg.second, h2]
  simp [Cfg.maximize, Cfg.body, hs, Cfg.start, hb, hc, Cfg.main, hf, this]

/-! ## C68: the values of the model afterwards are the estimates reported -/

/-- C68, BHHH: the values of the model are those reported. -/
theorem C68_bhhh (c : Cfg V L) (hb : c.bhhhStart = 0) (hs : c.setup = none) (hc : c.chosen = .bhhh) (m m' : M V) (ll : L)
    (hf : c.fit false m = (.ok ll, m')) :
    (c.maximize m).1 = .ok ⟨some ⟨m'.pvals, ll⟩, [.bhhh]⟩ ∧ (c.maximize m).2.pvals = m'.pvals := by
  constructor
  · simp [Cfg.maximize, Cfg.body, hs, Cfg.start, hb, hc, Cfg.main, hf]
  · simp [Cfg.maximize, Cfg.body, hs, Cfg.start, hb, hc, Cfg.main, hf]

/-- C68, every method, every way of ending: if each optimizer asks last for the point it reports, the values of the model are those
reported.  (Missing: optimizers that do not, `C68_fails`.) -/
theorem C68_scipy_partial (c : Cfg V L) (hlast : ∀ meth p pts rep, c.minimize meth p = (pts, .ok rep) → pts.getLastD p = rep.x)
    (m : M V) (res : Res V L) (rep : Rep V L) (h : (c.maximize m).1 = .ok res) (hr : res.rep = some rep) :
    (c.maximize m).2.pvals = rep.x := by
  have hsc : ∀ meth ms (m : M V) res, (c.scipy meth ms m).1 = .ok res → res.rep = some rep → (c.scipy meth ms m).2.pvals = rep.x := by
    intro meth ms m res h hr
    unfold Cfg.scipy at h ⊢
    rcases hmin : c.minimize meth m.pvals with ⟨pts, _ | rep'⟩
    · simp [hmin] at h
    · simp only [hmin, Except.ok.injEq] at h ⊢
      subst h
      simp only [Option.some.injEq] at hr
      subst hr
      exact hlast meth _ _ _ hmin
  show (c.body m).2.pvals = rep.x
  replace h : (c.body m).1 = .ok res := h
  unfold Cfg.body at h ⊢
  cases hset : c.setup with
  | some e => simp [hset] at h
  | none =>
    simp only [hset] at h ⊢
    rcases hst : c.start m with ⟨_ | rep0, m1⟩
    · simp [hst] at h
    · simp only [hst] at h ⊢
      split
      · rename_i hc
        simp only [hc, if_true] at h
        have hb : c.bhhhStart = 0 := by
          by_contra hb
          unfold Cfg.chosen at hc
          split at hc
          · rename_i mm _
            by_cases hmm : mm = .bhhh <;> simp [hb, hmm] at hc
          · simp [hb] at hc
        have hst' : rep0 = none ∧ m1 = m := by
          simp only [Cfg.start, hb, if_true, Prod.mk.injEq, Except.ok.injEq] at hst
          exact ⟨hst.1.symm, hst.2.symm⟩
        obtain ⟨rfl, rfl⟩ := hst'
        rcases hma : c.main m1 with ⟨_ | ⟨rep1, ms, meth⟩, m2⟩
        · simp [hma] at h
        · simp only [hma] at h ⊢
          split
          · rename_i hmeth
            simp only [hmeth, if_true, Option.or_none, Except.ok.injEq] at h
            subst h
            simp only at hr
            subst hr
            unfold Cfg.main at hma
            rcases hfit : c.fit false m1 with ⟨e | ll, m3⟩
            · simp only [hfit] at hma
              cases e <;> simp only at hma <;> (try split at hma) <;> simp at hma
            · simp only [hfit, Prod.mk.injEq, Except.ok.injEq, Option.some.injEq] at hma
              obtain ⟨⟨rfl, -⟩, rfl⟩ := hma
              rfl
          · rename_i hmeth
            simp only [hmeth, if_false] at h
            exact hsc _ _ _ _ h hr
      · rename_i hc
        simp only [hc, if_false] at h
        exact hsc _ _ _ _ h hr

/-- A method that evaluates three points and reports the best of them, which is not the last: any direct search does this. -/
def directSearch : Cfg ℤ ℤ where
  method := some (.scipy "nelder-mead")
  fit _ m := (.error .other, m)
  minimize _ p := ([p, p - 1, p - 3], .ok ⟨p - 1, -((p - 1) * (p - 1))⟩)

/-- C68 fails: the estimates reported are 1, the model is left at -1. -/
theorem C68_fails : (directSearch.maximize ⟨2, some 0, some 0⟩).1 = .ok ⟨some ⟨1, -1⟩, [.scipy "nelder-mead"]⟩ ∧
    (directSearch.maximize ⟨2, some 0, some 0⟩).2.pvals = -1 := by
  exact ⟨rfl, rfl⟩

end Larch.Props
