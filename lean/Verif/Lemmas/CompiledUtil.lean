import Verif.Model.Compiled
import Verif.Spec.Network
import Verif.Lemmas.KernelRun

namespace Larch.Compiled

open Function Larch Larch.Kernel Larch.Spec
open scoped BigOperators
open Classical

theorem foldl_congr_mem {α β : Type} (f g : α → β → α) (l : List β) (h : ∀ x ∈ l, ∀ a, f a x = g a x) :
    ∀ a, l.foldl f a = l.foldl g a := by
  induction l with
  | nil => intro a; rfl
  | cons x l ih =>
    intro a
    rw [List.foldl_cons, List.foldl_cons, h x List.mem_cons_self]
    exact ih (fun y hy => h y (List.mem_cons_of_mem _ hy)) _

theorem mul_exp_scale (v : X) (r s : ℝ) : v * (X.exp (.fin r) * .fin s) = v * .fin s * X.exp (.fin r) := by
  have he := Real.exp_pos r
  cases v with
  | fin a => simp only [X.exp_fin, X.fin_mul]; congr 1; ring
  | nan => rfl
  | ninf =>
    show X.mul _ (X.mul _ _) = X.mul (X.mul _ _) _
    simp only [X.exp, X.mul, X.infSign]
    rcases lt_trichotomy s 0 with h | h | h
    · have : Real.exp r * s < 0 := mul_neg_of_pos_of_neg he h
      simp [h, this, not_lt.mpr h.le, not_lt.mpr this.le, X.mul, X.infSign, he]
    · simp [h, X.mul]
    · have : 0 < Real.exp r * s := mul_pos he h
      simp [h, this, X.mul, X.infSign, he]
  | pinf =>
    show X.mul _ (X.mul _ _) = X.mul (X.mul _ _) _
    simp only [X.exp, X.mul, X.infSign]
    rcases lt_trichotomy s 0 with h | h | h
    · have : Real.exp r * s < 0 := mul_neg_of_pos_of_neg he h
      simp [h, this, not_lt.mpr h.le, not_lt.mpr this.le, X.mul, X.infSign, he]
    · simp [h, X.mul]
    · have : 0 < Real.exp r * s := mul_pos he h
      simp [h, this, X.mul, X.infSign, he]

theorem quantity_eq (θ : Nat → ℝ) (hold : Nat → Bool) (M : Terms) (row : Nat → X) (j : Nat) :
    quantity θ hold M row j = qBody θ hold M.q M.qScale row j := by
  have h1 : qAdd θ hold (scaleValue θ M.qScale) row j = qStep θ hold (qScaleValue θ M.qScale) row j := by
    have : scaleValue θ M.qScale = qScaleValue θ M.qScale := by cases M.qScale <;> rfl
    rw [this]
    funext s t
    unfold qAdd qStep
    rw [mul_exp_scale]
  have h2 : ∀ U, qDiv hold j U = qDivStep hold j U := fun U => by funext d t; rfl
  funext s
  unfold quantity qBody
  simp only [h1, h2]
  have : scaleValue θ M.qScale = qScaleValue θ M.qScale := by cases M.qScale <;> rfl
  rw [this]
  cases M.qScale <;> rfl

/-- The part of an alternative's slot computed in the first loop. -/
noncomputable def headL (θ : Nat → ℝ) (hold : Nat → Bool) (M : Terms) (row : Nat → X) : Slot :=
  M.ca.foldl (caL θ hold row) (qBodyL θ hold M.q M.qScale row (0, fun _ => 0))

/-- The slot computed in the first loop for an available alternative. -/
noncomputable def rowSlot (θ : Nat → ℝ) (hold : Nat → Bool) (M : Terms) : Option (Nat → X) → Slot
  | some row => headL θ hold M row
  | none => (.ninf, fun _ => 0)

theorem body_local (θ : Nat → ℝ) (hold : Nat → Bool) (M : Terms) (row : Nat → X) (j : Nat) :
    IsLocal (fun s => M.ca.foldl (caAdd θ hold row j) (quantity θ hold M row j s)) j
      (fun x => M.ca.foldl (caL θ hold row) (qBodyL θ hold M.q M.qScale row x)) := by
  intro s
  have h1 := foldl_local _ j _ (caStep_local θ hold row j) M.ca (quantity θ hold M row j s)
  simp only at h1
  have : caAdd θ hold row j = caStep θ hold row j := rfl
  simp only [this]
  rw [h1, quantity_eq, qBody_local]
  simp

theorem altLoop_get (θ : Nat → ℝ) (hold : Nat → Bool) (M : Terms) (C : Case) (a : Nat) :
    ∀ n, Kernel.get ((List.range n).foldl (altStep θ hold M C) ({ U := fun _ => 0, dU := fun _ _ => 0 } : UState)) a =
      if a < n then (if C.av a then rowSlot θ hold M (rowOf C a)
        else (.ninf, fun _ => 0)) else (0, fun _ => 0) := by
  intro n
  induction n with
  | zero => simp [Kernel.get]
  | succ n ih =>
    rw [List.range_succ, List.foldl_append, List.foldl_cons, List.foldl_nil]
    set s := (List.range n).foldl (altStep θ hold M C) { U := fun _ => 0, dU := fun _ _ => 0 } with hs
    by_cases han : a = n
    · subst han
      rw [if_neg (lt_irrefl _)] at ih
      have hd : s.dU a = fun _ => 0 := congrArg Prod.snd ih
      rw [if_pos (Nat.lt_succ_self _)]
      unfold altStep
      by_cases hv : C.av a
      · simp only [hv, if_true]
        cases hr : rowOf C a with
        | none => simp [Kernel.get, hd, rowSlot]
        | some row =>
          simp only
          have hb := body_local θ hold M row a s
          simp only at hb
          rw [hb, get_put_self, ih]
          rfl
      · simp [hv, Kernel.get, hd]
    · have : (a < n + 1) ↔ (a < n) := by omega
      simp only [this]
      rw [← ih]
      unfold altStep
      by_cases hv : C.av n
      · simp only [hv, if_true]
        cases hr : rowOf C n with
        | none => simp [Kernel.get, han]
        | some row =>
          have hb := body_local θ hold M row n s
          simp only at hb
          simp only
          rw [hb, get_put_ne _ _ han]
      · simp [hv, Kernel.get, han]

theorem raw_get (θ : Nat → ℝ) (hold : Nat → Bool) (nAlts : Nat) (M : Terms) (C : Case) (a : Nat) :
    Kernel.get (rawUtility θ hold nAlts M C) a =
      if C.av a then (M.co.filter (fun t => t.alt = a)).foldl (coL θ hold C.co)
        (if a < nAlts then rowSlot θ hold M (rowOf C a)
          else (0, fun _ => 0))
      else if a < nAlts then (.ninf, fun _ => 0) else (0, fun _ => 0) := by
  have h := utilityCo_get θ hold C.av C.co M.co a
    ((List.range nAlts).foldl (altStep θ hold M C) { U := fun _ => 0, dU := fun _ _ => 0 })
  have e : rawUtility θ hold nAlts M C = utilityCo θ hold C.av C.co M.co
    ((List.range nAlts).foldl (altStep θ hold M C) { U := fun _ => 0, dU := fun _ _ => 0 }) := rfl
  rw [e, h, altLoop_get]
  by_cases hv : C.av a <;> by_cases ha : a < nAlts <;> simp [hv, ha]

theorem reverseMap_spec (rows : List (Nat × (Nat → X))) (hnd : (rows.map Prod.fst).Nodup) (a : Nat) :
    (∀ row, (a, row) ∈ rows → reverseMap rows a = some row) ∧ ((∀ row, (a, row) ∉ rows) → reverseMap rows a = none) := by
  unfold reverseMap
  have key := foldl_update_key (α := Option (Nat → X)) Prod.fst (fun r => some r.2) rows hnd (fun _ => none)
  constructor
  · intro row hr; exact key.1 (a, row) hr
  · intro hno
    exact key.2 a (fun hm => by
      obtain ⟨r, hr, rfl⟩ := List.mem_map.mp hm
      exact hno r.2 hr)

/-- Row and availability of an alternative under `Offers`. -/
theorem offers_row {nAlts : Nat} {M : Terms} {C : Case} {A : Nat → Bool} {x : Nat → Nat → ℝ} (h : Offers nAlts M C A x) {a : Nat}
    (ha : a < nAlts) : (A a = true → C.av a = true ∧ ∃ row, rowOf C a = some row ∧ ∀ t ∈ M.q ++ M.ca, row t.data = .fin (x a t.data)) ∧
    (A a = false → C.av a = false ∨ rowOf C a = none) := by
  unfold rowOf
  cases hce : C.ce with
  | none =>
    obtain ⟨h1, h2⟩ := h.dense hce a ha
    simp only
    exact ⟨fun hA => ⟨h1 ▸ hA, _, rfl, h2 hA⟩, fun hA => Or.inl (h1 ▸ hA)⟩
  | some rows =>
    obtain ⟨hnd, h2⟩ := h.sparse rows hce
    obtain ⟨h3, h4⟩ := h2 a ha
    obtain ⟨k1, k2⟩ := reverseMap_spec rows hnd a
    simp only
    constructor
    · intro hA
      obtain ⟨hv, row, hr⟩ := h3.mp hA
      exact ⟨hv, row, k1 row hr, h4 row hr hA⟩
    · intro hA
      by_cases hv : C.av a = true
      · right
        apply k2
        intro row hr
        have := h3.mpr ⟨hv, row, hr⟩
        rw [hA] at this; cases this
      · left; simpa using hv

theorem altL_row (θ : Nat → ℝ) (hold : Nat → Bool) (M : Terms) (co : Nat → X) (row : Nat → X) (x : Nat → Nat → ℝ) (a : Nat)
    (hr : ∀ t ∈ M.q ++ M.ca, row t.data = .fin (x a t.data))
    (hco : ∀ t ∈ M.co, t.alt = a → ∀ d, t.data = some d → ∃ r, co d = .fin r)
    (hS : M.q ≠ [] → 0 < size θ M.q (x a)) :
    altL θ hold M co row a = (.fin (utility M θ (fun d => (co d).toReal) x a),
      fun p => .fin (codeCoef hold M θ (fun d => (co d).toReal) x a p)) := by
  have e : altL θ hold M co row a = altL θ hold M co (fun d => .fin (x a d)) a := by
    unfold altL
    congr 1
    have e1 : qBodyL θ hold M.q M.qScale row (0, fun _ => 0) = qBodyL θ hold M.q M.qScale (fun d => .fin (x a d)) (0, fun _ => 0) := by
      unfold qBodyL
      have := foldl_congr_mem (qL θ hold (qScaleValue θ M.qScale) row) (qL θ hold (qScaleValue θ M.qScale) (fun d => .fin (x a d))) M.q
        (fun t ht z => by unfold qL; rw [hr t (List.mem_append_left _ ht)]) (0, fun _ => 0)
      simp only [this]
    rw [e1]
    exact foldl_congr_mem _ _ _ (fun t ht z => by unfold caL; rw [hr t (List.mem_append_right _ ht)]) _
  rw [e]
  have := altL_real θ hold (a + 1) { M with co := M.co.filter (fun t => t.alt = a) }
    { ch := fun _ => 0, av := fun b => b = a, wt := 0, co := co, ca := fun b d => .fin (x b d), ce := none }
    ⟨fun b _ _ t _ => ⟨_, rfl⟩, fun t ht _ _ d hd => hco t (List.mem_filter.mp ht).1 (by simpa using (List.mem_filter.mp ht).2) d hd⟩
    (fun hq b _ hb => by
      have : b = a := by simpa using hb
      subst this; exact hS hq) a (by omega) (by simp)
  have hff : (M.co.filter (fun t => t.alt = a)).filter (fun t => t.alt = a) = M.co.filter (fun t => t.alt = a) := by
    rw [List.filter_filter]; simp
  have hfp : ∀ p, (M.co.filter (fun t => t.alt = a)).filter (fun t => t.alt = a ∧ t.param = p) =
      M.co.filter (fun t => t.alt = a ∧ t.param = p) := by
    intro p
    rw [List.filter_filter]
    congr 1
    funext t
    by_cases h : t.alt = a <;> simp [h]
  unfold altL at this ⊢
  simp only at this
  rw [hff] at this
  rw [this]
  unfold utility codeCoef linCoef codeSizeCoef
  simp only [hff, hfp]
  rfl

/-- Assembly before the overflow guard: utilities and gradients. -/
theorem raw_real {nAlts : Nat} {M : Terms} {θ : Nat → ℝ} {C : Case} {A : Nat → Bool} {x : Nat → Nat → ℝ}
    (h : Offers nAlts M C A x) (hS : Sizes nAlts M θ A x) (hold : Nat → Bool) :
    (∀ a < nAlts, (rawUtility θ hold nAlts M C).U a = emb (A a = true) (utility M θ (coReal C) x a)) ∧
    (∀ n, nAlts ≤ n → (rawUtility θ hold nAlts M C).U n = .fin 0) ∧
    (∀ a < nAlts, A a = true → ∀ p, (rawUtility θ hold nAlts M C).dU a p = .fin (codeCoef hold M θ (coReal C) x a p)) ∧
    (∀ n p, ∃ r, (rawUtility θ hold nAlts M C).dU n p = .fin r) := by
  have kU : ∀ a, (rawUtility θ hold nAlts M C).U a = (Kernel.get (rawUtility θ hold nAlts M C) a).1 := fun _ => rfl
  have kD : ∀ a, (rawUtility θ hold nAlts M C).dU a = (Kernel.get (rawUtility θ hold nAlts M C) a).2 := fun _ => rfl
  have hcof : ∀ a, ∀ t ∈ M.co, t.alt = a → C.av a = true → ∀ d, t.data = some d → ∃ r, C.co d = .fin r := by
    intro a t ht hta hv d hd
    exact (h.co t ht).2 (hta ▸ hv) d hd
  have hon : ∀ a < nAlts, A a = true → Kernel.get (rawUtility θ hold nAlts M C) a =
      (.fin (utility M θ (coReal C) x a), fun p => .fin (codeCoef hold M θ (coReal C) x a p)) := by
    intro a ha hA
    obtain ⟨hv, row, hr, hrx⟩ := (offers_row h ha).1 hA
    rw [raw_get, if_pos hv, if_pos ha, hr]
    exact altL_row θ hold M C.co row x a hrx (fun t ht hta d hd => hcof a t ht hta hv d hd) (fun hq => hS hq a ha hA)
  have hcoDim : ∀ a, C.av a = true → ∀ g : Nat → ℝ, ∀ z : X, ∀ p, ∃ r,
      ((M.co.filter (fun t => t.alt = a)).foldl (coL θ hold C.co) (z, fun p => .fin (g p))).2 p = .fin r := by
    intro a hv
    have : ∀ l : List CoTerm, (∀ t ∈ l, ∀ d, t.data = some d → ∃ r, C.co d = .fin r) → ∀ (g : Nat → ℝ) (z : X) (p : Nat), ∃ r,
        (l.foldl (coL θ hold C.co) (z, fun p => .fin (g p))).2 p = .fin r := by
      intro l
      induction l with
      | nil => intro _ g z p; exact ⟨_, rfl⟩
      | cons t l ih =>
        intro hl g z p
        rw [List.foldl_cons]
        have hstep : ∃ (z' : X) (g' : Nat → ℝ), coL θ hold C.co (z, fun p => .fin (g p)) t = (z', fun p => .fin (g' p)) := by
          unfold coL
          cases hd : t.data with
          | none =>
            by_cases hh : hold t.param
            · simp only [hh, if_true]; exact ⟨_, _, rfl⟩
            · simp only [hh]
              refine ⟨_, update g t.param (g t.param + t.scale), Prod.ext rfl ?_⟩
              funext q
              by_cases hq : q = t.param
              · subst hq; simp
              · simp [hq]
          | some d =>
            obtain ⟨r, hr⟩ := hl t List.mem_cons_self d hd
            by_cases hh : hold t.param
            · simp only [hh, if_true]; exact ⟨_, _, rfl⟩
            · simp only [hh, hr]
              refine ⟨_, update g t.param (g t.param + r * t.scale), Prod.ext rfl ?_⟩
              funext q
              by_cases hq : q = t.param
              · subst hq; simp
              · simp [hq]
        obtain ⟨z', g', he⟩ := hstep
        rw [he]
        exact ih (fun t' ht' => hl t' (List.mem_cons_of_mem _ ht')) g' z' p
    intro g z p
    exact this _ (fun t ht d hd => hcof a t (List.mem_filter.mp ht).1 (by simpa using (List.mem_filter.mp ht).2) hv d hd) g z p
  refine ⟨?_, ?_, ?_, ?_⟩
  · intro a ha
    rw [kU]
    cases hA : A a with
    | true => rw [hon a ha hA]; simp [emb]
    | false =>
      rw [raw_get]
      simp only [emb]
      rcases (offers_row h ha).2 hA with hv | hr
      · simp [hv, ha]
      · by_cases hv : C.av a = true
        · rw [if_pos hv, if_pos ha, hr]
          unfold rowSlot; rw [coL_fold_ninf θ hold C.co]
          · simp
          · intro t ht d hd
            exact hcof a t (List.mem_filter.mp ht).1 (by simpa using (List.mem_filter.mp ht).2) hv d hd
        · simp [hv, ha]
  · intro n hn
    have hempty : M.co.filter (fun t => t.alt = n) = [] := co_high M nAlts (fun t ht => (h.co t ht).1) (by omega)
    rw [kU, raw_get, hempty]
    have : ¬ n < nAlts := by omega
    simp [this]; rfl
  · intro a ha hA p
    rw [kD, hon a ha hA]
  · intro n p
    rw [kD]
    by_cases hn : n < nAlts
    · cases hA : A n with
      | true => rw [hon n hn hA]; exact ⟨_, rfl⟩
      | false =>
        rw [raw_get]
        rcases (offers_row h hn).2 hA with hv | hr
        · simp only [hv, hn]; exact ⟨0, rfl⟩
        · by_cases hv : C.av n = true
          · rw [if_pos hv, if_pos hn, hr]
            exact hcoDim n hv (fun _ => 0) .ninf p
          · simp only [hv, hn]; exact ⟨0, rfl⟩
    · have hempty : M.co.filter (fun t => t.alt = n) = [] := co_high M nAlts (fun t ht => (h.co t ht).1) (by omega)
      rw [raw_get, hempty]
      simp only [hn]
      exact ⟨0, by by_cases hv : C.av n <;> simp [hv] <;> rfl⟩

end Larch.Compiled
