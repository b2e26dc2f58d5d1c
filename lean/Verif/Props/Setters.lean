import Verif.Spec.Setters
import Mathlib.Tactic.SplitIfs

/-!
# C43, C65: choice, availability and weight specifications
-/

namespace Larch.Props

open Larch.Setters

/-- The attributes encode the single slot `c`. -/
def EncCh (a : Attrs) : Option Choice → Prop
  | none => a.chCa = none ∧ a.chCoVars = none ∧ a.chCoCode = none ∧ a.chAny = false
  | some (.ca v) => a.chCa = some v ∧ a.chCoVars = none ∧ a.chCoCode = none ∧ a.chAny = false
  | some (.coVars d) => a.chCa = none ∧ a.chCoVars = some d ∧ a.chCoCode = none ∧ a.chAny = false
  | some (.coCode v) => a.chCa = none ∧ a.chCoVars = none ∧ a.chCoCode = some v ∧ a.chAny = false
  | some .any => a.chCa = none ∧ a.chCoVars = none ∧ a.chCoCode = none ∧ a.chAny = true

def EncAv (a : Attrs) : Option Avail → Prop
  | none => a.avVar = none ∧ a.avCoVars = none ∧ a.avAny = false
  | some (.ca v) => a.avVar = some v ∧ a.avCoVars = none ∧ a.avAny = false
  | some (.coVars d) => a.avVar = none ∧ a.avCoVars = some d ∧ a.avAny = false
  | some .any => a.avVar = none ∧ a.avCoVars = none ∧ a.avAny = true

theorem mangleIf_a (s : St) (c : Bool) : (s.mangleIf c).a = s.a := by
  unfold St.mangleIf; split <;> rfl

theorem encCh_step {s : St} {c : Option Choice} (h : EncCh s.a c) (o : Op) : EncCh (s.step o).a (intendChoice c o) := by
  cases o with
  | choiceCaVar x => cases x <;> rcases c with _ | (_ | _ | _ | _) <;> simp_all [EncCh, St.step, intendChoice, mangleIf_a]
  | choiceCoVars x => cases x <;> rcases c with _ | (_ | _ | _ | _) <;> simp_all [EncCh, St.step, intendChoice, mangleIf_a]
  | choiceCoCode x => cases x <;> rcases c with _ | (_ | _ | _ | _) <;> simp_all [EncCh, St.step, intendChoice, mangleIf_a]
  | choiceAny x => cases x <;> rcases c with _ | (_ | _ | _ | _) <;> simp_all [EncCh, St.step, intendChoice]
  | eval =>
    have : (s.step .eval).a = s.a := by simp only [St.step]; split <;> rfl
    rw [this]; exact h
  | _ => rcases c with _ | (_ | _ | _ | _) <;> simp_all [EncCh, St.step, intendChoice, mangleIf_a, St.mangle]

theorem encCh_run (ops : List Op) (s : St) (c : Option Choice) (h : EncCh s.a c) :
    EncCh (ops.foldl St.step s).a (ops.foldl intendChoice c) := by
  induction ops generalizing s c with
  | nil => exact h
  | cons o t ih => exact ih _ _ (encCh_step h o)

/-- C43, choices: after any sequence of statements, the choice definition in the request is the one assigned last and not removed since
(an empty name or mapping counting as no definition). -/
theorem C43_choice (ops : List Op) :
    (run ops).a.request.choice = (ops.foldl intendChoice none).filter (fun c => !c.empty) := by
  have h := encCh_run ops {} none ⟨rfl, rfl, rfl, rfl⟩
  unfold run
  generalize ops.foldl intendChoice none = c at *
  generalize (ops.foldl St.step {}).a = a at *
  rcases c with _ | (_ | _ | _ | _) <;> simp only [EncCh] at h <;> obtain ⟨h1, h2, h3, h4⟩ := h <;>
    simp only [Attrs.request, h1, h2, h3, h4, truthyS, truthyD, Option.filter, Choice.empty] <;> (try split_ifs) <;> simp_all

/-- C43, choices: never more than one of the attributes is set. -/
theorem C43_choice_exclusive (ops : List Op) :
    let a := (run ops).a
    [a.chCa.isSome, a.chCoVars.isSome, a.chCoCode.isSome, a.chAny].count true ≤ 1 := by
  have h := encCh_run ops {} none ⟨rfl, rfl, rfl, rfl⟩
  unfold run
  generalize ops.foldl intendChoice none = c at *
  generalize (ops.foldl St.step {}).a = a at *
  rcases c with _ | (_ | _ | _ | _) <;> simp only [EncCh] at h <;> obtain ⟨h1, h2, h3, h4⟩ := h <;> simp [h1, h2, h3, h4]

/-- A statement about availability that removes a definition. -/
def Removes : Op → Prop
  | .availCaVar none => True
  | .availAny false => True
  | _ => False

theorem encAv_step {s : St} {c : Option Avail} (h : EncAv s.a c) (o : Op) (ho : ¬ Removes o) :
    EncAv (s.step o).a (intendAvail c o) := by
  cases o with
  | availCaVar x => cases x <;> rcases c with _ | (_ | _ | _) <;> simp_all [EncAv, St.step, intendAvail, mangleIf_a, Removes]
  | availAny x => cases x <;> rcases c with _ | (_ | _ | _) <;> simp_all [EncAv, St.step, intendAvail, Removes]
  | choiceCaVar x => cases x <;> rcases c with _ | (_ | _ | _) <;> simp_all [EncAv, St.step, intendAvail, mangleIf_a]
  | choiceCoVars x => cases x <;> rcases c with _ | (_ | _ | _) <;> simp_all [EncAv, St.step, intendAvail, mangleIf_a]
  | choiceCoCode x => cases x <;> rcases c with _ | (_ | _ | _) <;> simp_all [EncAv, St.step, intendAvail, mangleIf_a]
  | choiceAny x => cases x <;> rcases c with _ | (_ | _ | _) <;> simp_all [EncAv, St.step, intendAvail]
  | eval =>
    have : (s.step .eval).a = s.a := by simp only [St.step]; split <;> rfl
    rw [this]; exact h
  | _ => rcases c with _ | (_ | _ | _) <;> simp_all [EncAv, St.step, intendAvail, mangleIf_a, St.mangle]

/-- C43, availability: the same, for sequences without `availability_ca_var = None` and `availability_any = False`.  (Missing: these two
statements, `C43_fails_*`.) -/
theorem C43_avail_partial (ops : List Op) (ho : ∀ o ∈ ops, ¬ Removes o) :
    (run ops).a.request.avail = (ops.foldl intendAvail none).filter (fun c => !c.empty) := by
  have key : ∀ (ops : List Op) (s : St) (c : Option Avail), (∀ o ∈ ops, ¬ Removes o) → EncAv s.a c →
      EncAv (ops.foldl St.step s).a (ops.foldl intendAvail c) := by
    intro ops
    induction ops with
    | nil => intro s c _ h; exact h
    | cons o t ih => intro s c ho h; exact ih _ _ (fun o h => ho o (by simp [h])) (encAv_step h o (ho o (by simp)))
  have h := key ops {} none ho ⟨rfl, rfl, rfl⟩
  unfold run
  generalize ops.foldl intendAvail none = c at *
  generalize (ops.foldl St.step {}).a = a at *
  rcases c with _ | (_ | _ | _) <;> simp only [EncAv] at h <;> obtain ⟨h1, h2, h3⟩ := h <;>
    simp only [Attrs.request, h1, h2, h3, truthyS, truthyD, Option.filter, Avail.empty] <;> (try split_ifs) <;> simp_all

/-- C43, availability: never more than one of the attributes is set, whatever the statements. -/
theorem C43_avail_exclusive (ops : List Op) :
    let a := (run ops).a
    [a.avVar.isSome, a.avCoVars.isSome, a.avAny].count true ≤ 1 := by
  have step : ∀ (s : St) (o : Op), [s.a.avVar.isSome, s.a.avCoVars.isSome, s.a.avAny].count true ≤ 1 →
      [(s.step o).a.avVar.isSome, (s.step o).a.avCoVars.isSome, (s.step o).a.avAny].count true ≤ 1 := by
    intro s o h
    cases o with
    | availCaVar x => cases x <;> simp [St.step, mangleIf_a]
    | availCoVars x => simp [St.step, mangleIf_a]
    | availAny x => simp [St.step]
    | choiceCaVar x => cases x <;> simpa only [St.step, mangleIf_a] using h
    | choiceCoVars x => cases x <;> simpa only [St.step, mangleIf_a] using h
    | choiceCoCode x => cases x <;> simpa only [St.step, mangleIf_a] using h
    | choiceAny x => cases x <;> simpa only [St.step, mangleIf_a] using h
    | eval =>
      have : (s.step .eval).a = s.a := by simp only [St.step]; split <;> rfl
      rw [this]; exact h
    | _ => simpa only [St.step, mangleIf_a, St.mangle] using h
  have key : ∀ (ops : List Op) (s : St), [s.a.avVar.isSome, s.a.avCoVars.isSome, s.a.avAny].count true ≤ 1 →
      [(ops.foldl St.step s).a.avVar.isSome, (ops.foldl St.step s).a.avCoVars.isSome, (ops.foldl St.step s).a.avAny].count true ≤ 1 := by
    intro ops
    induction ops with
    | nil => intro s h; exact h
    | cons o t ih => intro s h; exact ih _ (step s o h)
  exact key ops {} (by decide)

example : (run [.choiceCaVar (some "ch"), .choiceCoCode (some "alt"), .choiceCaVar none, .availCoVars [(1, "a1")]]).a.request =
    { choice := some (.coCode "alt"), avail := some (.coVars [(1, "a1")]), weight := none } := by decide

/-- C43 fails: `availability_any = False` switches it on and discards the definition in force. -/
theorem C43_fails_any_false (v : String) (hv : v ≠ "") :
    (run [.availCaVar (some v)]).a.request.avail = some (.ca v) ∧
      (run [.availCaVar (some v), .availAny false]).a.request.avail = some .any := by
  simp [run, St.step, mangleIf_a, Attrs.request, truthyS, truthyD, hv]

/-- C43 fails: `availability_ca_var = None` also removes availability conditions given as idco expressions. -/
theorem C43_fails_none (d : Dict) (hd : d ≠ []) :
    (run [.availCoVars d]).a.request.avail = some (.coVars d) ∧
      (run [.availCoVars d, .availCaVar none]).a.request.avail = none := by
  simp [run, St.step, mangleIf_a, Attrs.request, truthyS, truthyD, hd]

/-! ## C65 -/

/-- Statements after which loaded data are kept although the request may have changed. -/
def Unnoticed : Op → Prop
  | .choiceAny _ | .delChoiceAny | .delChoiceCoVars | .availAny _ | .weight _ | .editChoiceCoVars _ | .availCaVar none => True
  | _ => False

/-- Data in use, if any, are what the attributes ask for. -/
def Current (s : St) : Prop := ∀ r, s.loaded = some r → r = s.a.request

theorem mangle_loaded (s : St) : s.mangle.loaded = none := rfl

theorem current_step {s : St} (h : Current s) {c : Option Choice} (hc : EncCh s.a c) {v : Option Avail} (hv : EncAv s.a v) (o : Op)
    (ho : ¬ Unnoticed o) : Current (s.step o) := by
  cases o with
  | choiceCaVar x =>
    by_cases hx : s.a.chCa = x
    · intro r hr
      have e : (s.step (.choiceCaVar x)).a.request = s.a.request := by
        cases x with
        | none => simp [St.step, mangleIf_a, Attrs.request, hx]
        | some w =>
          rcases c with _ | (_ | _ | _ | _) <;> simp only [EncCh] at hc <;> obtain ⟨h1, h2, h3, h4⟩ := hc <;> rw [h1] at hx <;>
            simp at hx
          subst hx
          simp [St.step, mangleIf_a, Attrs.request, h1, h2, h3, h4]
      rw [e]
      apply h
      cases x <;> simpa [St.step, St.mangleIf, hx] using hr
    · intro r hr
      cases x <;> simp [St.step, St.mangleIf, hx, mangle_loaded] at hr
  | choiceCoVars x =>
    by_cases hx : s.a.chCoVars = x
    · intro r hr
      have e : (s.step (.choiceCoVars x)).a.request = s.a.request := by
        cases x with
        | none => simp [St.step, mangleIf_a, Attrs.request, hx]
        | some w =>
          rcases c with _ | (_ | _ | _ | _) <;> simp only [EncCh] at hc <;> obtain ⟨h1, h2, h3, h4⟩ := hc <;> rw [h2] at hx <;>
            simp at hx
          subst hx
          simp [St.step, mangleIf_a, Attrs.request, h1, h2, h3, h4]
      rw [e]
      apply h
      cases x <;> simpa [St.step, St.mangleIf, hx] using hr
    · intro r hr
      cases x <;> simp [St.step, St.mangleIf, hx, mangle_loaded] at hr
  | choiceCoCode x =>
    by_cases hx : s.a.chCoCode = x
    · intro r hr
      have e : (s.step (.choiceCoCode x)).a.request = s.a.request := by
        cases x with
        | none => simp [St.step, mangleIf_a, Attrs.request, hx]
        | some w =>
          rcases c with _ | (_ | _ | _ | _) <;> simp only [EncCh] at hc <;> obtain ⟨h1, h2, h3, h4⟩ := hc <;> rw [h3] at hx <;>
            simp at hx
          subst hx
          simp [St.step, mangleIf_a, Attrs.request, h1, h2, h3, h4]
      rw [e]
      apply h
      cases x <;> simpa [St.step, St.mangleIf, hx] using hr
    · intro r hr
      cases x <;> simp [St.step, St.mangleIf, hx, mangle_loaded] at hr
  | delChoiceCoCode =>
    by_cases hx : s.a.chCoCode = none
    · intro r hr
      have e : (s.step .delChoiceCoCode).a.request = s.a.request := by simp [St.step, mangleIf_a, Attrs.request, hx]
      rw [e]
      exact h r (by simpa [St.step, St.mangleIf, hx] using hr)
    · intro r hr
      simp [St.step, St.mangleIf, hx, mangle_loaded] at hr
  | availCaVar x =>
    cases x with
    | none => exact absurd trivial ho
    | some w =>
      by_cases hx : s.a.avVar = some w
      · intro r hr
        have e : (s.step (.availCaVar (some w))).a.request = s.a.request := by
          rcases v with _ | (_ | _ | _) <;> simp only [EncAv] at hv <;> obtain ⟨h1, h2, h3⟩ := hv <;> rw [h1] at hx <;>
            simp at hx
          subst hx
          simp [St.step, mangleIf_a, Attrs.request, h1, h2, h3]
        rw [e]
        exact h r (by simpa [St.step, St.mangleIf, hx] using hr)
      · intro r hr
        simp [St.step, St.mangleIf, hx, mangle_loaded] at hr
  | availCoVars x =>
    by_cases hx : s.a.avCoVars = some x
    · intro r hr
      have e : (s.step (.availCoVars x)).a.request = s.a.request := by
        rcases v with _ | (_ | _ | _) <;> simp only [EncAv] at hv <;> obtain ⟨h1, h2, h3⟩ := hv <;> rw [h2] at hx <;>
          simp at hx
        subst hx
        simp [St.step, mangleIf_a, Attrs.request, h1, h2, h3]
      rw [e]
      exact h r (by simpa [St.step, St.mangleIf, hx] using hr)
    · intro r hr
      simp [St.step, St.mangleIf, hx, mangle_loaded] at hr
  | other => intro r hr; simp [St.step, mangle_loaded] at hr
  | eval =>
    intro r hr
    cases e : s.loaded with
    | some r' =>
      have e2 : s.step .eval = s := by simp only [St.step, e]
      rw [e2] at hr ⊢
      exact h r hr
    | none =>
      have e2 : s.step .eval = { s with loaded := some s.a.request } := by simp only [St.step, e]
      rw [e2] at hr ⊢
      exact (Option.some.inj hr).symm
  | _ => exact absurd trivial ho

theorem encAv_exists {s : St} (h : ∃ v, EncAv s.a v) (o : Op) : ∃ v, EncAv (s.step o).a v := by
  obtain ⟨v, h⟩ := h
  by_cases ho : Removes o
  · unfold Removes at ho
    split at ho
    · exact ⟨none, by simp [EncAv, St.step]⟩
    · exact ⟨some .any, by simp [EncAv, St.step]⟩
    · exact absurd ho id
  · exact ⟨_, encAv_step h o ho⟩

/-- C65: an evaluation uses the data that the attributes ask for at that moment, after any sequence of statements other than the six
kinds in `Unnoticed`.  (Missing: those, `C65_fails_*`.) -/
theorem C65_current_partial (ops : List Op) (ho : ∀ o ∈ ops, ¬ Unnoticed o) :
    (run (ops ++ [.eval])).loaded = some (run ops).a.request := by
  have key : ∀ (ops : List Op) (s : St), (∀ o ∈ ops, ¬ Unnoticed o) → Current s → (∃ c, EncCh s.a c) → (∃ v, EncAv s.a v) →
      Current (ops.foldl St.step s) := by
    intro ops
    induction ops with
    | nil => intro s _ h _ _; exact h
    | cons o t ih =>
      intro s ho h hc hv
      obtain ⟨c, hc⟩ := hc
      obtain ⟨v, hv'⟩ := hv
      exact ih _ (fun o h => ho o (by simp [h])) (current_step h hc hv' o (ho o (by simp))) ⟨_, encCh_step hc o⟩ (encAv_exists ⟨v, hv'⟩ o)
  have h := key ops {} ho (by intro r hr; simp at hr) ⟨none, rfl, rfl, rfl, rfl⟩ ⟨none, rfl, rfl, rfl⟩
  unfold run
  rw [List.foldl_append]
  generalize ops.foldl St.step {} = s at *
  simp only [List.foldl_cons, List.foldl_nil]
  cases e : s.loaded with
  | some r =>
    have e2 : s.step .eval = s := by simp only [St.step, e]
    rw [e2, e, h r e]
  | none => simp only [St.step, e]

example : (∀ o ∈ [Op.choiceCaVar (some "ch"), .eval, .choiceCoCode (some "alt"), .availCaVar (some "av")], ¬ Unnoticed o) ∧
    (run [.choiceCaVar (some "ch"), .eval, .choiceCoCode (some "alt"), .availCaVar (some "av"), .eval]).loaded =
      some { choice := some (.coCode "alt"), avail := some (.ca "av"), weight := none } := by
  constructor
  · simp [Unnoticed]
  · decide

/-- C65 fails: a weight variable assigned after an evaluation is not used. -/
theorem C65_fails_weight (w : String) (hw : w ≠ "") :
    let s := run [.eval, .weight (some w), .eval]
    s.a.request.weight = some w ∧ s.loaded.map Request.weight = some none := by
  simp [run, St.step, Attrs.request, truthyS, truthyD, hw]

/-- C65 fails: nor is one that was removed put out of use. -/
theorem C65_fails_weight_removed (w : String) (hw : w ≠ "") :
    let s := run [.weight (some w), .eval, .weight none, .eval]
    s.a.request.weight = none ∧ s.loaded.map Request.weight = some (some w) := by
  simp [run, St.step, Attrs.request, truthyS, truthyD, hw]

/-- C65 fails: an entry of the choice mapping changed in place is not used, not even when the mapping is assigned again. -/
theorem C65_fails_edit (d d' : Dict) (hd : d ≠ []) (hd' : d' ≠ []) (hne : d ≠ d') :
    let s := run [.choiceCoVars (some d), .eval, .editChoiceCoVars d', .choiceCoVars (some d'), .eval]
    s.a.request.choice = some (.coVars d') ∧ s.a.request.choice ≠ some (.coVars d) ∧ s.loaded.map Request.choice = some (some (.coVars d)) := by
  simp [run, St.step, Attrs.request, truthyS, truthyD, hd, hd', hne.symm, St.mangleIf, St.mangle]

/-- C65 fails: `availability_ca_var = None` after idco availability conditions were in use. -/
theorem C65_fails_avail_none (d : Dict) (hd : d ≠ []) :
    let s := run [.availCoVars d, .eval, .availCaVar none, .eval]
    s.a.request.avail = none ∧ s.loaded.map Request.avail = some (some (.coVars d)) := by
  simp [run, St.step, Attrs.request, truthyS, truthyD, hd, St.mangleIf, St.mangle]

/-- C65 fails: `del model.choice_co_vars` after an evaluation. -/
theorem C65_fails_del (d : Dict) (hd : d ≠ []) :
    let s := run [.choiceCoVars (some d), .eval, .delChoiceCoVars, .eval]
    s.a.request.choice = none ∧ s.loaded.map Request.choice = some (some (.coVars d)) := by
  simp [run, St.step, Attrs.request, truthyS, truthyD, hd, St.mangleIf, St.mangle]

/-- C65 fails: `choice_any = True` and `availability_any = True` after an evaluation. -/
theorem C65_fails_any :
    let s := run [.choiceCaVar (some "ch"), .availCaVar (some "av"), .eval, .choiceAny true, .availAny true, .eval]
    s.a.request = { choice := some .any, avail := some .any, weight := none } ∧
      s.loaded = some { choice := some (.ca "ch"), avail := some (.ca "av"), weight := none } := by decide

end Larch.Props
