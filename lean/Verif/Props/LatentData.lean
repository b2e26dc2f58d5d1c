import Verif.Model.LatentData
import Verif.Props.Request
import Verif.Props.Latent
import Verif.Props.Weights
import Verif.Props.Recode

/-!
# C127: a latent class model is given the data its classes specify
-/

namespace Larch.Props

open Larch.LatentData Larch.Request Larch.Weights Larch.Spec

/-- `list(set(l))`: the elements of `l`, each once, in some order. -/
def AnyOrder (lst : List String → List String) : Prop := ∀ l, (lst l).Nodup ∧ ∀ x, x ∈ lst l ↔ x ∈ l

theorem ld_keysOf_anyOrder : AnyOrder keysOf := fun l => ⟨keysOf_nodup l, mem_keysOf l⟩

/-- Reading the request of a single model back gives the request. -/
theorem ld_ofDict_asDict (r : Req) : ofDict (asDict r) = r := by
  obtain ⟨ca, co, ch, w, av⟩ := r
  have h1 : pickChoice (asDict ⟨ca, co, ch, w, av⟩) = ch := by
    rcases ch with _ | (_ | _ | _ | _) <;> simp [pickChoice, asDict, choiceCaOf, choiceCoOf, choiceCodeOf]
  have h2 : pickAvail (asDict ⟨ca, co, ch, w, av⟩) = av := by
    rcases av with _ | (_ | _ | _) <;> simp [pickAvail, asDict, availCaOf, availCoOf]
  show (⟨ca, co, pickChoice _, w, pickAvail _⟩ : Req) = _
  rw [h1, h2]

/-! ## The variables -/

/-- The variables named by an entry of a request. -/
def asked (o : Option (List String)) : List String := o.getD []

theorem ld_mergeList {lst} (h : AnyOrder lst) (a b : Option (List String)) :
    (∀ d, d ∈ asked (mergeList lst a b) ↔ d ∈ asked a ∨ d ∈ asked b) ∧
    ((a.getD []).Nodup → (asked (mergeList lst a b)).Nodup) := by
  unfold mergeList asked
  cases a <;> cases b <;> simp [(h _).1, (h _).2]

theorem ld_addClass {lst} (h : AnyOrder lst) {req k r : DictReq} (hr : addClass lst req k = .ok r) :
    (∀ d, d ∈ asked r.ca ↔ d ∈ asked req.ca ∨ d ∈ asked k.ca) ∧
    (∀ d, d ∈ asked r.co ↔ d ∈ asked req.co ∨ d ∈ asked k.co) ∧
    (r.ca = mergeList lst req.ca k.ca) ∧ (r.co = mergeList lst req.co k.co) ∧
    mergeOne req.weightCo k.weightCo = .ok r.weightCo ∧ mergeOne req.availCa k.availCa = .ok r.availCa ∧
    mergeOne req.availCo k.availCo = .ok r.availCo ∧ mergeOne req.choiceCa k.choiceCa = .ok r.choiceCa ∧
    mergeOne req.choiceCoCode k.choiceCoCode = .ok r.choiceCoCode ∧
    r.choiceCo = req.choiceCo ∧ r.choiceAny = req.choiceAny ∧ r.availAny = req.availAny := by
  unfold addClass at hr
  cases hw : mergeOne req.weightCo k.weightCo with
  | error e => rw [hw] at hr; exact absurd hr (by simp [Except.bind])
  | ok w =>
  cases h1 : mergeOne req.availCa k.availCa with
  | error e => rw [hw, h1] at hr; exact absurd hr (by simp [Except.bind])
  | ok aca =>
  cases h2 : mergeOne req.availCo k.availCo with
  | error e => rw [hw, h1, h2] at hr; exact absurd hr (by simp [Except.bind])
  | ok aco =>
  cases h3 : mergeOne req.choiceCa k.choiceCa with
  | error e => rw [hw, h1, h2, h3] at hr; exact absurd hr (by simp [Except.bind])
  | ok cca =>
  cases h4 : mergeOne req.choiceCoCode k.choiceCoCode with
  | error e => rw [hw, h1, h2, h3, h4] at hr; exact absurd hr (by simp [Except.bind, Except.map])
  | ok code =>
    rw [hw, h1, h2, h3, h4] at hr
    simp only [Except.bind, Except.map, Except.ok.injEq] at hr
    subst hr
    exact ⟨(ld_mergeList h req.ca k.ca).1, (ld_mergeList h req.co k.co).1, rfl, rfl, rfl, rfl, rfl, rfl, rfl, rfl, rfl, rfl⟩

theorem ld_addClasses {lst} (h : AnyOrder lst) : ∀ (ks : List Spec) {req r : DictReq}, addClasses lst req ks = .ok r →
    (∀ d, d ∈ asked r.ca ↔ d ∈ asked req.ca ∨ ∃ k ∈ ks, d ∈ asked (required k).ca) ∧
    (∀ d, d ∈ asked r.co ↔ d ∈ asked req.co ∨ ∃ k ∈ ks, d ∈ asked (required k).co) ∧
    ((asked req.ca).Nodup → (asked r.ca).Nodup) ∧ ((asked req.co).Nodup → (asked r.co).Nodup) := by
  intro ks
  induction ks with
  | nil =>
    intro req r hr
    simp only [addClasses, Except.ok.injEq] at hr
    subst hr
    simp
  | cons k ks ih =>
    intro req r hr
    rw [addClasses] at hr
    cases h1 : addClass lst req (asDict (required k)) with
    | error e => rw [h1] at hr; simp [Except.bind] at hr
    | ok r1 =>
      rw [h1] at hr
      obtain ⟨a, b, c, d⟩ := ih (show addClasses lst r1 ks = .ok r from hr)
      obtain ⟨a1, b1, e1, f1, -⟩ := ld_addClass h h1
      refine ⟨fun x => ?_, fun x => ?_, fun hn => c ?_, fun hn => d ?_⟩
      · rw [a x, a1 x]
        simp only [List.mem_cons, exists_eq_or_imp, or_assoc]
        rfl
      · rw [b x, b1 x]
        simp only [List.mem_cons, exists_eq_or_imp, or_assoc]
        rfl
      · rw [e1]; exact (ld_mergeList h _ _).2 hn
      · rw [f1]; exact (ld_mergeList h _ _).2 hn

theorem ld_asked_ca (m : Spec) (d : String) : d ∈ asked (required m).ca ↔ d ∈ m.utilityCa ∨ d ∈ m.quantityCa := by
  obtain ⟨h1, h2⟩ := C85_required_ca m
  cases hc : (required m).ca with
  | none => obtain ⟨a, b⟩ := h1.1 hc; simp [asked, a, b]
  | some l => simpa [asked] using (h2 l hc).2 d

theorem ld_asked_co (m : Spec) (d : String) :
    d ∈ asked (required m).co ↔ d ≠ "1" ∧ ∃ a f, (a, f) ∈ m.utilityCo ∧ d ∈ f := by
  obtain ⟨h1, h2⟩ := C85_required_co m
  cases hc : (required m).co with
  | none => simp [asked, h1.1 hc]
  | some l => simpa [asked] using (h2 l hc).2 d

theorem ld_addTop (top : Req) (req : DictReq) :
    (addTop top req).ca = req.ca ∧ (∀ d, d ∈ asked (addTop top req).co ↔ d ∈ asked req.co ∨ d ∈ asked top.co) ∧
    ((asked req.co).Nodup → (asked (addTop top req).co).Nodup) ∧ pickChoice (addTop top req) = pickChoice req ∧
    pickAvail (addTop top req) = pickAvail req ∧ (addTop top req).weightCo = req.weightCo := by
  unfold addTop
  cases top.co with
  | none => simp [asked]
  | some l =>
    obtain ⟨h1, h2, -⟩ := sortedSet_spec (req.co.getD [] ++ l)
    refine ⟨rfl, fun d => ?_, fun _ => h2, rfl, rfl, rfl⟩
    simp only [Option.map_some, Option.getD_some, asked]
    rw [h1, List.mem_append]

/-- **C127 (variables).** The variables a latent class model asks for are exactly those that the utility and quantity functions of its classes
and the utility functions of the membership model use, each once. -/
theorem C127_variables {lst : List String → List String} (h : AnyOrder lst) (classes : List Spec) (top : Spec) {r : Req}
    (hr : latentRequired lst classes top = .ok r) :
    (r.ca.getD []).Nodup ∧ (r.co.getD []).Nodup ∧
    (∀ d, d ∈ r.ca.getD [] ↔ ∃ k ∈ classes, d ∈ k.utilityCa ∨ d ∈ k.quantityCa) ∧
    (∀ d, d ∈ r.co.getD [] ↔ d ≠ "1" ∧ ∃ k, (k ∈ classes ∨ k = top) ∧ ∃ a f, (a, f) ∈ k.utilityCo ∧ d ∈ f) := by
  unfold latentRequired at hr
  cases h1 : addClasses lst emptyDict classes with
  | error e => rw [h1] at hr; simp [Except.map] at hr
  | ok q =>
    rw [h1] at hr
    simp only [Except.map, Except.ok.injEq] at hr
    subst hr
    obtain ⟨a, b, c, d⟩ := ld_addClasses h classes h1
    obtain ⟨t1, t2, t3, -⟩ := ld_addTop (required top) q
    refine ⟨?_, ?_, fun x => ?_, fun x => ?_⟩
    · show ((addTop (required top) q).ca.getD []).Nodup
      rw [t1]; exact c (by simp [asked, emptyDict])
    · exact t3 (d (by simp [asked, emptyDict]))
    · show x ∈ (addTop (required top) q).ca.getD [] ↔ _
      rw [t1]
      refine (a x).trans ?_
      simp only [asked, emptyDict, Option.getD_none, List.not_mem_nil, false_or]
      exact exists_congr fun k => and_congr_right fun _ => ld_asked_ca k x
    · refine (t2 x).trans ?_
      rw [b x, ld_asked_co]
      simp only [ld_asked_co]
      simp only [asked, emptyDict, Option.getD_none, List.not_mem_nil, false_or]
      constructor
      · rintro (⟨k, hk, hne, hm⟩ | ⟨hne, hm⟩)
        · exact ⟨hne, k, Or.inl hk, hm⟩
        · exact ⟨hne, top, Or.inr rfl, hm⟩
      · rintro ⟨hne, k, hk | rfl, hm⟩
        · exact Or.inl ⟨k, hk, hne, hm⟩
        · exact Or.inr ⟨hne, hm⟩

/-! ## Choices, availability, weights -/

theorem ld_mergeOne_same {α : Type} [DecidableEq α] {a b r : Option α} (h : mergeOne a b = .ok r) :
    (∀ x, a = some x → r = some x) ∧ (∀ x, b = some x → r = some x) ∧ (a = none → r = b) := by
  cases a <;> cases b <;> simp only [mergeOne] at h <;>
    first
      | (split_ifs at h with hc
         simp only [Except.ok.injEq] at h
         subst h
         refine ⟨by simp, ?_, by simp⟩
         rintro x hx
         rw [← hc]; exact hx)
      | (simp only [Except.ok.injEq] at h; subst h; simp)

theorem ld_fold_one {α : Type} [DecidableEq α] {lst} (h : AnyOrder lst) (f : DictReq → Option α)
    (hf : ∀ {req k r}, addClass lst req k = .ok r → mergeOne (f req) (f k) = .ok (f r)) :
    ∀ (ks : List Spec) {req r : DictReq}, addClasses lst req ks = .ok r →
      (∀ x, f req = some x → f r = some x) ∧ (∀ k ∈ ks, ∀ x, f (asDict (required k)) = some x → f r = some x) ∧
      (f req = none → (∀ k ∈ ks, f (asDict (required k)) = none) → f r = none) := by
  intro ks
  induction ks with
  | nil =>
    intro req r hr
    simp only [addClasses, Except.ok.injEq] at hr
    subst hr
    exact ⟨fun _ hx => hx, by simp, fun hx _ => hx⟩
  | cons k ks ih =>
    intro req r hr
    rw [addClasses] at hr
    cases h1 : addClass lst req (asDict (required k)) with
    | error e => rw [h1] at hr; simp [Except.bind] at hr
    | ok r1 =>
      rw [h1] at hr
      obtain ⟨a, b, c⟩ := ih (show addClasses lst r1 ks = .ok r from hr)
      obtain ⟨a1, b1, c1⟩ := ld_mergeOne_same (hf h1)
      refine ⟨fun x hx => a x (a1 x hx), ?_, fun hx hn => ?_⟩
      · intro j hj x hx
        rcases List.mem_cons.1 hj with rfl | hj
        · exact a x (b1 x hx)
        · exact b j hj x hx
      · refine c ?_ (fun j hj => hn j (by simp [hj]))
        rw [c1 hx]; exact hn k (by simp)

theorem ld_never {lst} (h : AnyOrder lst) : ∀ (ks : List Spec) {req r : DictReq}, addClasses lst req ks = .ok r →
    r.choiceCo = req.choiceCo ∧ r.choiceAny = req.choiceAny ∧ r.availAny = req.availAny := by
  intro ks
  induction ks with
  | nil => intro req r hr; simp only [addClasses, Except.ok.injEq] at hr; subst hr; exact ⟨rfl, rfl, rfl⟩
  | cons k ks ih =>
    intro req r hr
    rw [addClasses] at hr
    cases h1 : addClass lst req (asDict (required k)) with
    | error e => rw [h1] at hr; simp [Except.bind] at hr
    | ok r1 =>
      rw [h1] at hr
      obtain ⟨a, b, c⟩ := ih (show addClasses lst r1 ks = .ok r from hr)
      obtain ⟨-, -, -, -, -, -, -, -, -, x, y, z⟩ := ld_addClass h h1
      exact ⟨a.trans x, b.trans y, c.trans z⟩

/-- The request, by its parts. -/
theorem ld_request {lst} (h : AnyOrder lst) {classes : List Spec} {top : Spec} {r : Req} (hr : latentRequired lst classes top = .ok r) :
    ∃ q, addClasses lst emptyDict classes = .ok q ∧ r.choice = pickChoice q ∧ r.avail = pickAvail q ∧ r.weight = q.weightCo ∧
      q.choiceCo = none ∧ q.choiceAny = false ∧ q.availAny = false := by
  unfold latentRequired at hr
  cases h1 : addClasses lst emptyDict classes with
  | error e => rw [h1] at hr; simp [Except.map] at hr
  | ok q =>
    rw [h1] at hr
    simp only [Except.map, Except.ok.injEq] at hr
    subst hr
    obtain ⟨-, -, -, t4, t5, t6⟩ := ld_addTop (required top) q
    obtain ⟨n1, n2, n3⟩ := ld_never h classes h1
    exact ⟨q, rfl, t4, t5, t6, n1, n2, n3⟩

theorem ld_weight {lst} (h : AnyOrder lst) {classes : List Spec} {q : DictReq} (hq : addClasses lst emptyDict classes = .ok q) :
    (∀ x, emptyDict.weightCo = some x → q.weightCo = some x) ∧
    (∀ k ∈ classes, ∀ x, (asDict (required k)).weightCo = some x → q.weightCo = some x) ∧
    (emptyDict.weightCo = none → (∀ k ∈ classes, (asDict (required k)).weightCo = none) → q.weightCo = none) :=
  ld_fold_one h DictReq.weightCo (fun hr => (ld_addClass h hr).2.2.2.2.1) classes hq
theorem ld_availCa {lst} (h : AnyOrder lst) {classes : List Spec} {q : DictReq} (hq : addClasses lst emptyDict classes = .ok q) :
    (∀ x, emptyDict.availCa = some x → q.availCa = some x) ∧
    (∀ k ∈ classes, ∀ x, (asDict (required k)).availCa = some x → q.availCa = some x) ∧
    (emptyDict.availCa = none → (∀ k ∈ classes, (asDict (required k)).availCa = none) → q.availCa = none) :=
  ld_fold_one h DictReq.availCa (fun hr => (ld_addClass h hr).2.2.2.2.2.1) classes hq
theorem ld_availCo {lst} (h : AnyOrder lst) {classes : List Spec} {q : DictReq} (hq : addClasses lst emptyDict classes = .ok q) :
    (∀ x, emptyDict.availCo = some x → q.availCo = some x) ∧
    (∀ k ∈ classes, ∀ x, (asDict (required k)).availCo = some x → q.availCo = some x) ∧
    (emptyDict.availCo = none → (∀ k ∈ classes, (asDict (required k)).availCo = none) → q.availCo = none) :=
  ld_fold_one h DictReq.availCo (fun hr => (ld_addClass h hr).2.2.2.2.2.2.1) classes hq
theorem ld_choiceCa {lst} (h : AnyOrder lst) {classes : List Spec} {q : DictReq} (hq : addClasses lst emptyDict classes = .ok q) :
    (∀ x, emptyDict.choiceCa = some x → q.choiceCa = some x) ∧
    (∀ k ∈ classes, ∀ x, (asDict (required k)).choiceCa = some x → q.choiceCa = some x) ∧
    (emptyDict.choiceCa = none → (∀ k ∈ classes, (asDict (required k)).choiceCa = none) → q.choiceCa = none) :=
  ld_fold_one h DictReq.choiceCa (fun hr => (ld_addClass h hr).2.2.2.2.2.2.2.1) classes hq
theorem ld_choiceCode {lst} (h : AnyOrder lst) {classes : List Spec} {q : DictReq} (hq : addClasses lst emptyDict classes = .ok q) :
    (∀ x, emptyDict.choiceCoCode = some x → q.choiceCoCode = some x) ∧
    (∀ k ∈ classes, ∀ x, (asDict (required k)).choiceCoCode = some x → q.choiceCoCode = some x) ∧
    (emptyDict.choiceCoCode = none → (∀ k ∈ classes, (asDict (required k)).choiceCoCode = none) → q.choiceCoCode = none) :=
  ld_fold_one h DictReq.choiceCoCode (fun hr => (ld_addClass h hr).2.2.2.2.2.2.2.2.1) classes hq

/-- **C127 (choices), the part that holds.** If all classes give the choices by one column of alternatives, or all by one code, the latent class
model asks for just that.  Missing: choices by expressions or `choice_any` (`C127_fails_choice_co`), and classes that give their choices in
different ways (`C127_fails_mixed`). -/
theorem C127_choice_partial {lst : List String → List String} (h : AnyOrder lst) (classes : List Spec) (top : Spec) {r : Req}
    (hr : latentRequired lst classes top = .ok r) (c : Option Choice) (hc : ∀ k ∈ classes, (required k).choice = c) (hne : classes ≠ [])
    (hkind : (∃ e, c = some (.ca e)) ∨ (∃ e, c = some (.code e)) ∨ c = none) : r.choice = c := by
  obtain ⟨q, hq, h1, -, -, n1, n2, -⟩ := ld_request h hr
  obtain ⟨k, hk⟩ := List.exists_mem_of_ne_nil classes hne
  have ca := ld_choiceCa h hq
  have code := ld_choiceCode h hq
  rw [h1]
  have hca : ∀ j ∈ classes, (asDict (required j)).choiceCa = choiceCaOf c := fun j hj => by simp [asDict, hc j hj]
  have hcode : ∀ j ∈ classes, (asDict (required j)).choiceCoCode = choiceCodeOf c := fun j hj => by simp [asDict, hc j hj]
  rcases hkind with ⟨e, rfl⟩ | ⟨e, rfl⟩ | rfl
  · have := ca.2.1 k hk e (hca k hk)
    simp [pickChoice, this]
  · have x1 := ca.2.2 rfl (fun j hj => by rw [hca j hj]; rfl)
    have x2 := code.2.1 k hk e (hcode k hk)
    simp [pickChoice, x1, x2, n1]
  · have x1 := ca.2.2 rfl (fun j hj => by rw [hca j hj]; rfl)
    have x2 := code.2.2 rfl (fun j hj => by rw [hcode j hj]; rfl)
    simp [pickChoice, x1, x2, n1, n2]

/-- **C127 (availability), the part that holds.** The same for the availability, by a column or by expressions for the alternatives.  Missing:
`availability_any` (`C127_fails_any`). -/
theorem C127_avail_partial {lst : List String → List String} (h : AnyOrder lst) (classes : List Spec) (top : Spec) {r : Req}
    (hr : latentRequired lst classes top = .ok r) (c : Option Avail) (hc : ∀ k ∈ classes, (required k).avail = c) (hne : classes ≠ [])
    (hkind : c ≠ some .any) : r.avail = c := by
  obtain ⟨q, hq, -, h1, -, -, -, n3⟩ := ld_request h hr
  obtain ⟨k, hk⟩ := List.exists_mem_of_ne_nil classes hne
  have ca := ld_availCa h hq
  have co := ld_availCo h hq
  rw [h1]
  have hca : ∀ j ∈ classes, (asDict (required j)).availCa = availCaOf c := fun j hj => by simp [asDict, hc j hj]
  have hco : ∀ j ∈ classes, (asDict (required j)).availCo = availCoOf c := fun j hj => by simp [asDict, hc j hj]
  rcases c with _ | (e | m | _)
  · have x1 := ca.2.2 rfl (fun j hj => by rw [hca j hj]; rfl)
    have x2 := co.2.2 rfl (fun j hj => by rw [hco j hj]; rfl)
    simp [pickAvail, x1, x2, n3]
  · have := ca.2.1 k hk e (hca k hk)
    simp [pickAvail, this]
  · have x1 := ca.2.2 rfl (fun j hj => by rw [hca j hj]; rfl)
    have x2 := co.2.1 k hk m (hco k hk)
    simp [pickAvail, x1, x2]
  · exact absurd rfl hkind

/-- **C127 (weights).** The weights asked for are those of the classes that give weights; classes with different weights are refused. -/
theorem C127_weight {lst : List String → List String} (h : AnyOrder lst) (classes : List Spec) (top : Spec) {r : Req}
    (hr : latentRequired lst classes top = .ok r) :
    (∀ k ∈ classes, k.weightCoVar ≠ "" → r.weight = some k.weightCoVar) ∧ ((∀ k ∈ classes, k.weightCoVar = "") → r.weight = none) := by
  obtain ⟨q, hq, -, -, h1, -⟩ := ld_request h hr
  have w := ld_weight h hq
  rw [h1]
  refine ⟨fun k hk hne => w.2.1 k hk _ ?_, fun hn => w.2.2 rfl (fun k hk => ?_)⟩
  · simp [asDict, required, hne]
  · simp [asDict, required, hn k hk]

/-! ## Loading -/

section loading
variable {K : Type} [Ring K] [DecidableEq K]

theorem ld_make {arrow : Bool} {src : Source K} {r : Req} {L : Loaded K} (h : makeDataframes arrow false src r = .ok L) :
    (∀ l, r.ca = some l → ∃ cols, columnizeList arrow src.ca l = .ok cols ∧ L.caCols = some cols) ∧
    (∀ l, r.co = some l → ∃ cols, columnizeList arrow src.co l = .ok cols ∧ L.coCols = some cols) ∧
    loadChoice arrow false src r.choice = .ok L.ch ∧ loadAvail arrow false src r.avail = .ok L.av ∧
    (L.wt, L.wtNorm) = loadWeight false src r.weight := by
  obtain ⟨ca, co, ch, w, av⟩ := r
  unfold makeDataframes at h
  have key : ∀ (A : Except Request.Err (Option (List (String × (Nat → Nat → K))))) (B : Except Request.Err (Option (List (String × (Nat → K))))),
      (A.bind fun a => B.bind fun b => (loadChoice arrow false src ch).bind fun c => (loadAvail arrow false src av).bind fun d =>
        (.ok ⟨a, b, c, d, (loadWeight false src w).1, (loadWeight false src w).2⟩ : Except Request.Err (Loaded K))) = .ok L →
      A = .ok L.caCols ∧ B = .ok L.coCols ∧ loadChoice arrow false src ch = .ok L.ch ∧ loadAvail arrow false src av = .ok L.av ∧
        (L.wt, L.wtNorm) = loadWeight false src w := by
    intro A B hAB
    cases A with
    | error e => cases hAB
    | ok a =>
    cases B with
    | error e => cases hAB
    | ok b =>
    cases hc : loadChoice arrow false src ch with
    | error e => rw [hc] at hAB; cases hAB
    | ok c =>
    cases hd : loadAvail arrow false src av with
    | error e => rw [hc, hd] at hAB; cases hAB
    | ok d =>
      rw [hc, hd] at hAB
      simp only [Except.bind, Except.ok.injEq] at hAB
      subst hAB
      exact ⟨rfl, rfl, rfl, rfl, rfl⟩
  have fin : ∀ {β : Type} {A : Except Request.Err β} {o : Option β}, A.map some = .ok o → ∃ x, A = .ok x ∧ o = some x := by
    intro β A o hA
    cases A with
    | error e => cases hA
    | ok x => exact ⟨x, rfl, by simpa [Except.map] using hA.symm⟩
  cases ca with
  | none =>
    cases co with
    | none =>
      obtain ⟨-, -, k3, k4, k5⟩ := key (.ok none) (.ok none) h
      exact ⟨by simp, by simp, k3, k4, k5⟩
    | some l =>
      obtain ⟨-, k2, k3, k4, k5⟩ := key (.ok none) ((columnizeList arrow src.co l).map some) h
      obtain ⟨x, hx, hy⟩ := fin k2
      exact ⟨by simp, by rintro l' ⟨⟩; exact ⟨x, hx, hy⟩, k3, k4, k5⟩
  | some l1 =>
    cases co with
    | none =>
      obtain ⟨k1, -, k3, k4, k5⟩ := key ((columnizeList arrow src.ca l1).map some) (.ok none) h
      obtain ⟨x, hx, hy⟩ := fin k1
      exact ⟨by rintro l' ⟨⟩; exact ⟨x, hx, hy⟩, by simp, k3, k4, k5⟩
    | some l =>
      obtain ⟨k1, k2, k3, k4, k5⟩ := key ((columnizeList arrow src.ca l1).map some) ((columnizeList arrow src.co l).map some) h
      obtain ⟨x, hx, hy⟩ := fin k1
      obtain ⟨x', hx', hy'⟩ := fin k2
      exact ⟨by rintro l' ⟨⟩; exact ⟨x, hx, hy⟩, by rintro l' ⟨⟩; exact ⟨x', hx', hy'⟩, k3, k4, k5⟩

theorem ld_load {lst : List String → List String} {arrow : Bool} {src : Source K} {classes : List Spec} {top : Spec} {L : Loaded K}
    (h : latentLoad lst arrow src classes top = .ok L) :
    ∃ r, latentRequired lst classes top = .ok r ∧ makeDataframes arrow false src r = .ok L := by
  unfold latentLoad at h
  cases hr : latentRequired lst classes top with
  | error e => rw [hr] at h; simp [Except.bind] at h
  | ok r =>
    rw [hr] at h
    refine ⟨r, rfl, ?_⟩
    simp only [Except.bind] at h
    cases hm : makeDataframes arrow false src r with
    | error e => rw [hm] at h; simp [liftErr] at h
    | ok L' => rw [hm] at h; simp only [liftErr, Except.ok.injEq] at h; rw [h]

theorem ld_column {β : Type} {arrow : Bool} {ev : String → Option β} {l : List String} {cols : List (String × β)}
    (h : columnizeList arrow ev l = .ok cols) {d : String} (hd : d ∈ l) : ∃ v, ev d = some v ∧ (d, v) ∈ cols := by
  have hev : ∀ e ∈ l, (ev e).isSome := by
    intro e he
    by_contra hn
    rw [C85_columns_unknown arrow ev l he (by simpa using hn)] at h
    cases h
  obtain ⟨cols', h', -, hk, hv⟩ := C85_columns arrow ev l hev
  rw [h] at h'
  cases h'
  obtain ⟨p, hp, rfl⟩ := List.mem_map.1 ((hk d).2 hd)
  exact ⟨p.2, hv p.1 p.2 hp, hp⟩

/-- **C127 (columns).** After loading, every variable that a class or the membership model uses is there, with its values; and the weights of
a class that gives weights are the values of its expression. -/
theorem C127_loaded {lst : List String → List String} (h : AnyOrder lst) (arrow : Bool) (src : Source K) (classes : List Spec)
    (top : Spec) {L : Loaded K} (hL : latentLoad lst arrow src classes top = .ok L) :
    (∀ k ∈ classes, ∀ d, d ∈ k.utilityCa ∨ d ∈ k.quantityCa → ∃ v cols, L.caCols = some cols ∧ src.ca d = some v ∧ (d, v) ∈ cols) ∧
    (∀ k, (k ∈ classes ∨ k = top) → ∀ a f d, (a, f) ∈ k.utilityCo → d ∈ f → d ≠ "1" →
      ∃ v cols, L.coCols = some cols ∧ src.co d = some v ∧ (d, v) ∈ cols) ∧
    (∀ k ∈ classes, ∀ v, k.weightCoVar ≠ "" → src.co k.weightCoVar = some v → L.wt = some v ∧ L.wtNorm = 1) := by
  obtain ⟨r, hr, hm⟩ := ld_load hL
  obtain ⟨-, -, v1, v2⟩ := C127_variables h classes top hr
  obtain ⟨m1, m2, -, -, m5⟩ := ld_make hm
  refine ⟨fun k hk d hd => ?_, fun k hk a f d haf hd hne => ?_, fun k hk v hne hv => ?_⟩
  · have hmem := (v1 d).2 ⟨k, hk, hd⟩
    cases hca : r.ca with
    | none => rw [hca] at hmem; simp at hmem
    | some l =>
      rw [hca] at hmem
      obtain ⟨cols, hc, hL'⟩ := m1 l hca
      obtain ⟨v, hv, hin⟩ := ld_column hc hmem
      exact ⟨v, cols, hL', hv, hin⟩
  · have hmem := (v2 d).2 ⟨hne, k, hk, a, f, haf, hd⟩
    cases hco : r.co with
    | none => rw [hco] at hmem; simp at hmem
    | some l =>
      rw [hco] at hmem
      obtain ⟨cols, hc, hL'⟩ := m2 l hco
      obtain ⟨v, hv, hin⟩ := ld_column hc hmem
      exact ⟨v, cols, hL', hv, hin⟩
  · rw [(C127_weight h classes top hr).1 k hk hne, C85_weight false src hv] at m5
    simpa using m5

/-- **C127 (choices by code).** If all classes give their choices by the same code, the loaded choices are those: 1 for the alternative whose code
the case has and 0 for the others. -/
theorem C127_loaded_code {lst : List String → List String} (h : AnyOrder lst) (arrow : Bool) (src : Source K) (classes : List Spec)
    (top : Spec) {L : Loaded K} (hL : latentLoad lst arrow src classes top = .ok L) (hne : classes ≠ []) (e : String)
    (hc : ∀ k ∈ classes, (required k).choice = some (.code e)) :
    ∃ code t, src.co e = some code ∧ L.ch = some t ∧
      ∀ (i j : Nat) (a : Int), src.alts[j]? = some a → t i j = if code i = (a : K) then 1 else 0 := by
  obtain ⟨r, hr, hm⟩ := ld_load hL
  obtain ⟨-, -, m3, -, -⟩ := ld_make hm
  rw [C127_choice_partial h classes top hr _ hc hne (Or.inr (Or.inl ⟨e, rfl⟩))] at m3
  obtain ⟨c1, c2⟩ := C85_choice_code arrow false src e
  cases hco : src.co e with
  | none => rw [c1 hco] at m3; cases m3
  | some code =>
    obtain ⟨t, ht, hv⟩ := c2 code hco
    rw [ht] at m3
    simp only [Except.ok.injEq] at m3
    exact ⟨code, t, rfl, m3.symm, hv⟩

/-- **C127 fails for choices given by expressions.** When every class gives its choices by expressions for the alternatives
(`choice_co_vars`), the latent class model asks for no choices at all (the code looks for a key `choice_co_vars`, the request has `choice_co`): whatever
the expressions are, the choices loaded are the ones the source happens to have, or none. -/
theorem C127_fails_choice_co {lst : List String → List String} (h : AnyOrder lst) (arrow : Bool) (src : Source K) (classes : List Spec)
    (top : Spec) {L : Loaded K} (hL : latentLoad lst arrow src classes top = .ok L)
    (hc : ∀ k ∈ classes, k.choiceCaVar = "" ∧ k.choiceCoVars ≠ []) : L.ch = src.ch := by
  obtain ⟨r, hr, hm⟩ := ld_load hL
  obtain ⟨-, -, m3, -, -⟩ := ld_make hm
  obtain ⟨q, hq, h1, -, -, n1, n2, -⟩ := ld_request h hr
  have hch : ∀ k ∈ classes, (required k).choice = some (.co k.choiceCoVars) := fun k hk => by
    simp [required, (hc k hk).1, (hc k hk).2]
  have x1 := (ld_choiceCa h hq).2.2 rfl (fun j hj => by simp [asDict, hch j hj, choiceCaOf])
  have x2 := (ld_choiceCode h hq).2.2 rfl (fun j hj => by simp [asDict, hch j hj, choiceCodeOf])
  have : r.choice = none := by rw [h1]; simp [pickChoice, x1, x2, n1, n2]
  rw [this] at m3
  simpa [loadChoice] using m3.symm

/-- **C127 fails for `choice_any` and `availability_any`.** These say that the data must have choices (availability); when the source has none, a
latent class model loads without complaint, where each of its classes would refuse. -/
theorem C127_fails_any {lst : List String → List String} (h : AnyOrder lst) (arrow : Bool) (src : Source K) (k top : Spec)
    (hch : src.ch = none) (hav : src.av = none) (hk : (required k).choice = some .any) (hk' : (required k).avail = some .any)
    {L : Loaded K} (hL : latentLoad lst arrow src [k] top = .ok L) :
    L.ch = none ∧ L.av = none ∧ ∃ e, makeDataframes arrow false src ⟨none, none, (required k).choice, none, (required k).avail⟩ = .error e := by
  obtain ⟨r, hr, hm⟩ := ld_load hL
  obtain ⟨-, -, m3, m4, -⟩ := ld_make hm
  obtain ⟨q, hq, h1, h2, -, n1, n2, n3⟩ := ld_request h hr
  have hall : ∀ j ∈ [k], j = k := fun j hj => by simpa using hj
  have x1 := (ld_choiceCa h hq).2.2 rfl (fun j hj => by rw [hall j hj]; simp [asDict, hk, choiceCaOf])
  have x2 := (ld_choiceCode h hq).2.2 rfl (fun j hj => by rw [hall j hj]; simp [asDict, hk, choiceCodeOf])
  have y1 := (ld_availCa h hq).2.2 rfl (fun j hj => by rw [hall j hj]; simp [asDict, hk', availCaOf])
  have y2 := (ld_availCo h hq).2.2 rfl (fun j hj => by rw [hall j hj]; simp [asDict, hk', availCoOf])
  have e1 : r.choice = none := by rw [h1]; simp [pickChoice, x1, x2, n1, n2]
  have e2 : r.avail = none := by rw [h2]; simp [pickAvail, y1, y2, n3]
  rw [e1] at m3
  rw [e2] at m4
  refine ⟨by simpa [loadChoice, hch] using m3.symm, by simpa [loadAvail, hav] using m4.symm, .missing, ?_⟩
  rw [hk]
  simp only [makeDataframes, loadChoice, hch]
  rfl

end loading

/-- **C127 fails for classes that give their choices in different ways.** One class gives a column of alternatives and the other a code.  They are
not refused; the column is used for both. -/
theorem C127_fails_mixed (lst : List String → List String) (k k' top : Spec)
    {e e' : String} (hk : (required k).choice = some (.ca e)) (hk' : (required k').choice = some (.code e'))
    (hw : k.weightCoVar = k'.weightCoVar) (ha : (required k).avail = (required k').avail) :
    (∃ r, latentRequired lst [k, k'] top = .ok r ∧ r.choice = some (.ca e)) ∧
    (∃ r, latentRequired lst [k', k] top = .ok r ∧ r.choice = some (.ca e)) := by
  have ww : (required k).weight = (required k').weight := by simp [required, hw]
  have m1 : ∀ {α : Type} [DecidableEq α] (x : Option α), mergeOne none x = .ok x := fun x => rfl
  have m2 : ∀ {α : Type} [DecidableEq α] (x : Option α), mergeOne x x = .ok x := fun x => by cases x <;> simp [mergeOne]
  have m3 : ∀ {α : Type} [DecidableEq α] (x : Option α), mergeOne x none = .ok x := fun x => by cases x <;> simp [mergeOne]
  constructor
  · simp only [latentRequired, addClasses, addClass, emptyDict, asDict, hk, hk', ww, ha, choiceCaOf, choiceCodeOf, m1, m2, m3, Except.bind,
      Except.map, Except.ok.injEq, exists_eq_left']
    show pickChoice (addTop _ _) = _
    rw [(ld_addTop _ _).2.2.2.1]
    simp [pickChoice]
  · simp only [latentRequired, addClasses, addClass, emptyDict, asDict, hk, hk', ww, ha, choiceCaOf, choiceCodeOf, m1, m2, m3, Except.bind,
      Except.map, Except.ok.injEq, exists_eq_left']
    show pickChoice (addTop _ _) = _
    rw [(ld_addTop _ _).2.2.2.1]
    simp [pickChoice]

/-! ## Weights in the log likelihood -/

/-- **C127 (log likelihood, not rescaled).** With the weights as they are, the log likelihood is the weighted sum. -/
theorem C127_loglike_unscaled (p : Nat → Nat → ℝ) (w : W ℝ) :
    latentLL p w = ∑ i ∈ Finset.range w.nCases, caseWt w i * ∑ a ∈ Finset.range w.nAlts, w.ch i a * Real.log (p i a) := by
  unfold latentLL
  rw [C39_loglike]
  refine Finset.sum_congr rfl fun i _ => ?_
  unfold wOf caseWt
  cases w.wt <;> rfl

/-- **C127 fails for weighted data.** `load_data` rescales the weights by default, dividing them by their average, and every other model
multiplies its log likelihood by that average again (C77).  A latent class model does not: its log likelihood is the one of the weights given, divided
by their average. -/
theorem C127_fails_weights (p : Nat → Nat → ℝ) (w : W ℝ) (wt : Nat → ℝ) (hw : w.wt = some wt) (hn : 0 < w.nCases)
    (ht : ∀ i < w.nCases, ∑ j ∈ Finset.range w.nAlts, w.ch i j = 1) (avg : ℝ)
    (havg : avg = (∑ i ∈ Finset.range w.nCases, wt i) / w.nCases) (h0 : avg ≠ 0) :
    latentLL p (call w .autoscale) = latentLL p w / avg ∧
    (avg ≠ 1 → latentLL p w ≠ 0 → latentLL p (call w .autoscale) ≠ latentLL p w) := by
  have hex := extract_same w ht
  have hcall : call w .autoscale = { w with wt := some (fun i => wt i / avg), norm := w.norm * avg } := by
    show (autoscaleWeights w).1 = _
    rw [autoscaleWeights_some (by rw [hex]; exact hw), hex, if_neg (by omega)]
    have : wtSum w wt / (w.nCases : ℝ) = avg := by rw [havg]; rfl
    rw [this]
    unfold rescale
    rw [if_neg (fun hh => h0 hh.1)]
  have main : latentLL p (call w .autoscale) = latentLL p w / avg := by
    rw [hcall, C127_loglike_unscaled, C127_loglike_unscaled, Finset.sum_div]
    refine Finset.sum_congr rfl fun i _ => ?_
    simp only [caseWt, hw]
    ring
  refine ⟨main, fun h1 hl he => ?_⟩
  rw [main] at he
  have : latentLL p w * (1 / avg - 1) = 0 := by rw [mul_sub, mul_one, mul_one_div, he, sub_self]
  rcases mul_eq_zero.1 this with hz | hz
  · exact hl hz
  · exact h1 (by field_simp at hz; linarith)

/-- Two cases with weights 1 and 3 and probability one half: the log likelihood is `4 log ½`, and `2 log ½` after loading. -/
example : ∃ (p : Nat → Nat → ℝ) (w : W ℝ), latentLL p (call w .autoscale) ≠ latentLL p w := by
  refine ⟨fun _ _ => 1 / 2, ⟨2, 2, fun _ j => if j = 0 then 1 else 0, some (fun i => if i = 0 then 1 else 3), 1⟩, ?_⟩
  refine (C127_fails_weights _ _ _ rfl (by norm_num) ?_ 2 ?_ (by norm_num)).2 (by norm_num) ?_
  · intro i _; simp [Finset.sum_range_succ]
  · simp [Finset.sum_range_succ]; norm_num
  · rw [C127_loglike_unscaled]
    simp [Finset.sum_range_succ, caseWt]
    have : Real.log 2 > 0 := Real.log_pos (by norm_num)
    intro hz; linarith

/-! ## The keys of the classes -/

theorem ld_memberCols (n : Nat) : (memberCols n).Nodup ∧ (memberCols n).length = n ∧
    ∀ k : Nat, toString k ∈ memberCols n ↔ 1 ≤ k ∧ k ≤ n := by
  have inj : Function.Injective (fun (i : Nat) => toString i) := by
    intro a b h
    exact repr_inj h
  refine ⟨?_, by simp [memberCols], fun k => ?_⟩
  · exact (List.nodup_range' (s := 1) (n := n)).map inj
  · unfold memberCols
    rw [List.mem_map]
    constructor
    · rintro ⟨i, hi, he⟩
      have := inj he
      subst this
      simp only [List.mem_range'_1] at hi
      omega
    · intro hk
      exact ⟨k, by simp only [List.mem_range'_1]; omega, rfl⟩

/-- **C127 (classes).** If the classes have the keys 1, 2, …, n, in any order, the probabilities can be computed and form a distribution. -/
theorem C127_keys (nAlts : Nat) (kmPr : Nat → Nat → ℝ) (kmD : Nat → Nat → Nat → ℝ) (ks : List Latent.ClassOut) (c : Nat)
    (hkeys : (ks.map Latent.ClassOut.key).Perm ((List.range' 1 ks.length).map (fun (i : Nat) => toString i)))
    (hw : ∀ k ∈ ks, nAlts ≤ k.width) (hm : IsDist ks.length (kmPr c)) (hk : ∀ k ∈ ks, IsDist nAlts (k.pr c)) :
    ∃ P, Latent.probability nAlts ⟨memberCols ks.length, kmPr, kmD⟩ ks (fun _ _ => 0) = .ok P ∧ IsDist nAlts (P c) := by
  obtain ⟨h1, h2, -⟩ := ld_memberCols ks.length
  exact C39_distribution nAlts ⟨memberCols ks.length, kmPr, kmD⟩ ks c hw h1 hkeys (by simpa [h2] using hm) hk

/-- **C127 fails for other keys.** The documentation allows any integers as keys of the classes; with a key that is not one of 1, …, n,
probabilities cannot be computed (`KeyError`). -/
theorem C127_fails_keys (nAlts : Nat) (kmPr : Nat → Nat → ℝ) (kmD : Nat → Nat → Nat → ℝ) (k : Latent.ClassOut)
    (ks : List Latent.ClassOut) (key : Nat) (hk : k.key = toString key) (hb : key = 0 ∨ ks.length + 1 < key) (p : Nat → Nat → ℝ) :
    Latent.probability nAlts ⟨memberCols (ks.length + 1), kmPr, kmD⟩ (k :: ks) p = .error "KeyError" := by
  have : k.key ∉ memberCols (ks.length + 1) := by
    rw [hk, (ld_memberCols (ks.length + 1)).2.2 key]
    omega
  simp [Latent.probability, this]

/-! ## Witnesses -/

/-- A class with cost as its variable, choices by a code and weights. -/
def ldClass : Spec where
  utilityCa := ["cost"]
  quantityCa := []
  utilityCo := [(1, ["1", "inc"])]
  choiceCaVar := ""
  choiceCoVars := []
  choiceCoCode := "ch"
  choiceAny := false
  weightCoVar := "w"
  availabilityVar := ""
  availabilityCoVars := []
  availabilityAny := false

/-- Another class, with time. -/
def ldClass2 : Spec := { ldClass with utilityCa := ["time", "cost"] }

/-- A membership model with age. -/
def ldTop : Spec := { ldClass with utilityCa := [], utilityCo := [(2, ["age"])], choiceCoCode := "", weightCoVar := "" }

/-- Data for them. -/
def ldSrc : Source ℚ where
  alts := [1, 2]
  co := fun s => if s ∈ ["inc", "age", "w", "ch"] then some (fun i => s.length + i) else none
  ca := fun s => if s ∈ ["cost", "time"] then some (fun i j => s.length + i + j) else none
  ch := none
  av := none
  wt := none
  wtNorm := 1
  chName := none

example : latentRequired keysOf [ldClass, ldClass2] ldTop =
    .ok ⟨some ["cost", "time"], some ["age", "inc"], some (.code "ch"), some "w", none⟩ := by decide +kernel

/-- The hypotheses of `C127_loaded` are met. -/
example : ∃ L, latentLoad keysOf true ldSrc [ldClass, ldClass2] ldTop = .ok L ∧ L.ch.isSome := by
  have : (latentLoad keysOf true ldSrc [ldClass, ldClass2] ldTop).toOption.any (fun L => L.ch.isSome) = true := by decide +kernel
  cases h : latentLoad keysOf true ldSrc [ldClass, ldClass2] ldTop with
  | error e => rw [h] at this; cases this
  | ok L => rw [h] at this; exact ⟨L, rfl, this⟩

/-- Classes with different weights are refused. -/
example : latentRequired keysOf [ldClass, { ldClass2 with weightCoVar := "inc" }] ldTop = .error .mismatch := by decide +kernel

/-- Choices by expressions: the same classes load, without choices. -/
example : ∃ L, latentLoad keysOf true ldSrc [{ ldClass with choiceCoCode := "", choiceCoVars := [(1, "inc"), (2, "age")] }] ldTop = .ok L ∧
    L.ch = none := by
  have : (latentLoad keysOf true ldSrc [{ ldClass with choiceCoCode := "", choiceCoVars := [(1, "inc"), (2, "age")] }] ldTop).toOption.isSome
      = true := by decide +kernel
  cases h : latentLoad keysOf true ldSrc [{ ldClass with choiceCoCode := "", choiceCoVars := [(1, "inc"), (2, "age")] }] ldTop with
  | error e => rw [h] at this; cases this
  | ok L => exact ⟨L, rfl, C127_fails_choice_co ld_keysOf_anyOrder true ldSrc _ ldTop h (by simp [ldClass])⟩

/-- `choice_any`, `availability_any`: a latent class model loads. -/
example : (latentLoad keysOf true ldSrc [{ ldClass with choiceCoCode := "", choiceAny := true, availabilityAny := true }] ldTop).toOption.isSome
    = true := by decide +kernel

end Larch.Props
