import Verif.Lemmas.KernelUtil
import Verif.Lemmas.KernelUp

namespace Larch.Kernel

open Function Larch Larch.Spec
open Classical

theorem sum_filter_cons {τ : Type} (P : τ → Prop) [DecidablePred P] (f : τ → ℝ) (t : τ) (l : List τ) :
    (((t :: l).filter (fun t => P t)).map f).sum = (if P t then f t else 0) +
      ((l.filter (fun t => P t)).map f).sum := by
  by_cases h : P t <;> simp [h]

/-- the common shape of one real-valued accumulation step -/
theorem fold_lin {τ : Type} (step : Slot → τ → Slot) (hold : Nat → Bool) (par : τ → Nat) (v c : τ → ℝ) (l : List τ)
    (hstep : ∀ t ∈ l, ∀ (x : ℝ) (g : Nat → ℝ), step (.fin x, fun p => .fin (g p)) t =
      (.fin (x + v t), fun p => .fin (g p + if hold p then 0 else if par t = p then c t else 0))) :
    ∀ (x : ℝ) (g : Nat → ℝ), l.foldl step (.fin x, fun p => .fin (g p)) =
      (.fin (x + (l.map v).sum), fun p => .fin (g p + if hold p then 0 else
        ((l.filter (fun t => par t = p)).map c).sum)) := by
  induction l with
  | nil => intro x g; simp
  | cons t l ih =>
    intro x g
    rw [List.foldl_cons, hstep t List.mem_cons_self, ih (fun t' h => hstep t' (List.mem_cons_of_mem _ h))]
    congr 1
    · simp [add_assoc]
    · funext p
      rw [sum_filter_cons (fun t => par t = p)]
      congr 1
      by_cases hp : hold p <;> simp [hp, add_assoc]

theorem upd_fin (hold : Nat → Bool) (g : Nat → ℝ) (q : Nat) (c : ℝ) :
    (if hold q then (fun p => X.fin (g p)) else update (fun p => X.fin (g p)) q (X.fin (g q) + X.fin c)) =
      fun p => X.fin (g p + if hold p then 0 else if q = p then c else 0) := by
  funext p
  by_cases hq : q = p
  · subst hq
    by_cases hh : hold q <;> simp [hh]
  · have hq' : p ≠ q := fun h => hq h.symm
    by_cases hh : hold q <;> by_cases hp : hold p <;> simp [hh, hp, hq, hq']

theorem caL_fold (θ : Nat → ℝ) (hold : Nat → Bool) (row : Nat → X) (l : List CaTerm)
    (hr : ∀ t ∈ l, ∃ r, row t.data = .fin r) (x : ℝ) (g : Nat → ℝ) :
    l.foldl (caL θ hold row) (.fin x, fun p => .fin (g p)) =
      (.fin (x + (l.map (fun t => t.scale * θ t.param * (row t.data).toReal)).sum),
       fun p => .fin (g p + if hold p then 0 else
        ((l.filter (fun t => t.param = p)).map (fun t => t.scale * (row t.data).toReal)).sum)) := by
  apply fold_lin
  intro t ht x g
  obtain ⟨r, hr⟩ := hr t ht
  unfold caL
  rw [hr]
  simp only [X.fin_mul, X.fin_add, X.toReal_fin]
  congr 1
  · congr 1; ring
  · have := upd_fin hold g t.param (t.scale * r)
    simp only [X.fin_add] at this
    rw [← this, mul_comm r]

theorem qL_fold (θ : Nat → ℝ) (hold : Nat → Bool) (sc : ℝ) (row : Nat → X) (l : List CaTerm)
    (hr : ∀ t ∈ l, ∃ r, row t.data = .fin r) (x : ℝ) (g : Nat → ℝ) :
    l.foldl (qL θ hold sc row) (.fin x, fun p => .fin (g p)) =
      (.fin (x + size θ l (fun d => (row d).toReal)),
       fun p => .fin (g p + if hold p then 0 else
        sc * size θ (l.filter (fun t => t.param = p)) (fun d => (row d).toReal))) := by
  have := fold_lin (qL θ hold sc row) hold CaTerm.param
    (fun t => t.scale * Real.exp (θ t.param) * (row t.data).toReal)
    (fun t => sc * (t.scale * Real.exp (θ t.param) * (row t.data).toReal)) l ?_ x g
  · rw [this]
    unfold size
    simp only [List.sum_map_mul_left]
  · intro t ht x g
    obtain ⟨r, hr⟩ := hr t ht
    unfold qL
    rw [hr]
    simp only [X.fin_mul, X.exp_fin, X.fin_add, X.toReal_fin]
    congr 1
    · congr 1; ring
    · have := upd_fin hold g t.param (sc * (t.scale * Real.exp (θ t.param) * r))
      simp only [X.fin_add] at this
      rw [← this]
      have e : r * t.scale * Real.exp (θ t.param) * sc = sc * (t.scale * Real.exp (θ t.param) * r) := by ring
      rw [e]

/-- how often parameter `p` occurs in the quantity terms -/
def occ (l : List CaTerm) (p : Nat) : Nat := (l.filter (fun t => t.param = p)).length

theorem qDivL_fold (hold : Nat → Bool) (S : ℝ) (hS : S ≠ 0) (l : List CaTerm) :
    ∀ g : Nat → ℝ, l.foldl (qDivL hold (.fin S)) (fun p => .fin (g p)) =
      fun p => .fin (if hold p then g p else g p / S ^ occ l p) := by
  induction l with
  | nil => intro g; simp [occ]
  | cons t l ih =>
    intro g
    rw [List.foldl_cons]
    have : qDivL hold (.fin S) (fun p => .fin (g p)) t =
        fun p => .fin (if hold p then g p else if t.param = p then g p / S else g p) := by
      unfold qDivL
      funext p
      rw [X.fin_div hS]
      by_cases hq : t.param = p
      · subst hq
        by_cases hh : hold t.param <;> simp [hh]
      · have hq' : p ≠ t.param := fun h => hq h.symm
        by_cases hh : hold t.param <;> by_cases hp : hold p <;> simp [hh, hp, hq, hq']
    rw [this, ih]
    funext p
    congr 1
    by_cases hp : hold p
    · simp [hp]
    · by_cases hq : t.param = p
      · simp only [hp, hq, if_true, occ, List.filter_cons, decide_true, List.length_cons, pow_succ,
          Bool.false_eq_true, if_false]
        rw [div_div, mul_comm]
      · simp [hp, hq, occ]

/-- What the code puts in the utility gradient for the quantity part. -/
noncomputable def codeSizeCoef (hold : Nat → Bool) (M : Terms) (θ : Nat → ℝ) (x : Nat → ℝ) (p : Nat) : ℝ :=
  if M.q = [] then 0
  else if hold p then 0
  else sizeScale θ M * size θ (M.q.filter (fun t => t.param = p)) x / size θ M.q x ^ occ M.q p +
    (if M.qScale = some p then Real.log (size θ M.q x) else 0)

theorem qBodyL_real (θ : Nat → ℝ) (hold : Nat → Bool) (M : Terms) (row : Nat → X)
    (hr : ∀ t ∈ M.q, ∃ r, row t.data = .fin r)
    (hS : M.q ≠ [] → 0 < size θ M.q (fun d => (row d).toReal)) :
    qBodyL θ hold M.q M.qScale row (0, fun _ => 0) =
      (.fin (if M.q = [] then 0 else sizeScale θ M * Real.log (size θ M.q (fun d => (row d).toReal))),
       fun p => .fin (codeSizeCoef hold M θ (fun d => (row d).toReal) p)) := by
  unfold qBodyL codeSizeCoef
  by_cases hq : M.q = []
  · simp [hq]; exact ⟨rfl, rfl⟩
  · have hS' := hS hq
    set S := size θ M.q (fun d => (row d).toReal) with hSdef
    rw [if_neg (by simpa using hq)]
    have h1 := qL_fold θ hold (qScaleValue θ M.qScale) row M.q hr 0 (fun _ => 0)
    have hz : ((0 : X), (fun _ => (0 : X))) = ((X.fin 0, fun _ : Nat => X.fin 0) : Slot) := rfl
    simp only
    rw [hz, h1]
    simp only [zero_add, ← hSdef]
    rw [qDivL_fold hold S (ne_of_gt hS'), X.log_fin hS']
    simp only [hq, if_false]
    have hsc : sizeScale θ M = qScaleValue θ M.qScale := by
      unfold sizeScale qScaleValue; cases M.qScale <;> rfl
    congr 1
    · rw [X.fin_mul, hsc, mul_comm]
    · rw [hsc]
      cases hqs : M.qScale with
      | none =>
        funext p
        by_cases hp : hold p <;> simp [hp]
      | some s =>
        funext p
        by_cases hs : hold s <;> by_cases hp : hold p <;> by_cases hps : s = p
        · subst hps; simp [hp]
        · simp [hs, hp]
        · subst hps; simp_all
        · simp [hs, hp, hps]
        · subst hps; simp_all
        · have : p ≠ s := fun h => hps h.symm
          simp [hs, hp, this]
        · subst hps; simp [hp]
        · have : p ≠ s := fun h => hps h.symm
          simp [hs, hp, this, hps]

theorem coL_fold (θ : Nat → ℝ) (hold : Nat → Bool) (co : Nat → X) (l : List CoTerm)
    (hr : ∀ t ∈ l, ∀ d, t.data = some d → ∃ r, co d = .fin r) (x : ℝ) (g : Nat → ℝ) :
    l.foldl (coL θ hold co) (.fin x, fun p => .fin (g p)) =
      (.fin (x + (l.map (fun t => t.scale * θ t.param * coValue (fun d => (co d).toReal) t.data)).sum),
       fun p => .fin (g p + if hold p then 0 else
        ((l.filter (fun t => t.param = p)).map
          (fun t => t.scale * coValue (fun d => (co d).toReal) t.data)).sum)) := by
  apply fold_lin
  intro t ht x g
  unfold coL
  cases hd : t.data with
  | none =>
    simp only [X.fin_mul, X.fin_add, coValue]
    congr 1
    · congr 1; ring
    · have := upd_fin hold g t.param (t.scale * 1)
      simp only [X.fin_add] at this
      rw [← this, mul_one]
  | some d =>
    obtain ⟨r, hr⟩ := hr t ht d hd
    simp only [hr, X.fin_mul, X.fin_add, coValue, X.toReal_fin]
    congr 1
    · congr 1; ring
    · have := upd_fin hold g t.param (t.scale * r)
      simp only [X.fin_add] at this
      rw [← this, mul_comm r]

theorem coL_fold_ninf (θ : Nat → ℝ) (hold : Nat → Bool) (co : Nat → X) (l : List CoTerm)
    (hr : ∀ t ∈ l, ∀ d, t.data = some d → ∃ r, co d = .fin r) :
    ∀ g, (l.foldl (coL θ hold co) (.ninf, g)).1 = .ninf := by
  induction l with
  | nil => intro g; rfl
  | cons t l ih =>
    intro g
    rw [List.foldl_cons]
    have ih' := ih (fun t' h => hr t' (List.mem_cons_of_mem _ h))
    unfold coL
    cases hd : t.data with
    | none => simp only [X.fin_mul, X.ninf_add_fin]; exact ih' _
    | some d =>
      obtain ⟨r, hr⟩ := hr t List.mem_cons_self d hd
      simp only [hr, X.fin_mul, X.ninf_add_fin]; exact ih' _

/-- What the code puts in the utility gradient of alternative `a` for parameter `p`. -/
noncomputable def codeCoef (hold : Nat → Bool) (M : Terms) (θ : Nat → ℝ) (co : Nat → ℝ) (ca : Nat → Nat → ℝ)
    (a p : Nat) : ℝ :=
  codeSizeCoef hold M θ (ca a) p + if hold p then 0 else linCoef M co ca a p

theorem altL_real (θ : Nat → ℝ) (hold : Nat → Bool) (nAlts : Nat) (M : Terms) (C : Case)
    (hF : FiniteData nAlts M C) (hP : PositiveSize nAlts M θ C) (a : Nat) (han : a < nAlts)
    (ha : C.av a = true) :
    altL θ hold M C.co (C.ca a) a =
      (.fin (utility M θ (coReal C) (caReal C) a), fun p => .fin (codeCoef hold M θ (coReal C) (caReal C) a p)) := by
  unfold altL
  rw [qBodyL_real θ hold M (C.ca a) (fun t ht => hF.ca a han ha t (List.mem_append_left _ ht))
    (fun hq => hP hq a han ha)]
  rw [caL_fold θ hold (C.ca a) M.ca (fun t ht => hF.ca a han ha t (List.mem_append_right _ ht))]
  rw [coL_fold]
  · congr 1
    funext p
    unfold codeCoef linCoef
    congr 1
    have : (M.co.filter (fun t => t.alt = a)).filter (fun t => t.param = p) =
        M.co.filter (fun t => t.alt = a ∧ t.param = p) := by
      rw [List.filter_filter]
      congr 1
      funext t
      simp [Bool.and_comm]
    rw [this]
    by_cases hp : hold p
    · simp [hp]; rfl
    · simp only [hp]
      rw [add_assoc]; rfl
  · intro t ht d hd
    have ht' := List.mem_filter.mp ht
    have : t.alt = a := by simpa using ht'.2
    exact hF.co t ht'.1 (this ▸ han) (this ▸ ha) d hd

/-- All co terms refer to elemental alternatives. -/
def CoBelow (M : Terms) (nAlts : Nat) : Prop := ∀ t ∈ M.co, t.alt < nAlts

theorem co_high (M : Terms) (nAlts : Nat) (h : CoBelow M nAlts) {a : Nat} (ha : ¬ a < nAlts) :
    M.co.filter (fun t => t.alt = a) = [] := by
  rw [List.filter_eq_nil_iff]
  intro t ht
  have := h t ht
  simp only [decide_eq_true_eq]; omega

/-- Dense assembly: utilities and gradients of all slots. -/
theorem assemble_dense_real (θ : Nat → ℝ) (hold : Nat → Bool) (nAlts : Nat) (M : Terms) (C : Case)
    (hce : C.ce = none) (hF : FiniteData nAlts M C) (hP : PositiveSize nAlts M θ C) (hco : CoBelow M nAlts) :
    (∀ a < nAlts, (assemble θ hold nAlts M C).U a =
        emb (C.av a = true) (utility M θ (coReal C) (caReal C) a)) ∧
    (∀ n, nAlts ≤ n → (assemble θ hold nAlts M C).U n = .fin 0) ∧
    (∀ n p, (assemble θ hold nAlts M C).dU n p =
      .fin (if n < nAlts ∧ C.av n = true then codeCoef hold M θ (coReal C) (caReal C) n p else 0)) := by
  have key := assemble_dense θ hold nAlts M C hce
  have kU : ∀ a, (assemble θ hold nAlts M C).U a = (get (assemble θ hold nAlts M C) a).1 := fun _ => rfl
  have kD : ∀ a, (assemble θ hold nAlts M C).dU a = (get (assemble θ hold nAlts M C) a).2 := fun _ => rfl
  refine ⟨?_, ?_, ?_⟩
  · intro a ha
    rw [kU, key, if_pos ha]
    by_cases hv : C.av a
    · rw [if_pos hv, altL_real θ hold nAlts M C hF hP a ha hv]; simp [emb, hv]
    · rw [if_neg hv]; simp [emb, hv]
  · intro n hn
    rw [kU, key, if_neg (by omega), co_high M nAlts hco (by omega)]
    by_cases hv : C.av n <;> simp [hv] <;> rfl
  · intro n p
    rw [kD, key]
    by_cases hn : n < nAlts
    · by_cases hv : C.av n
      · rw [if_pos hn, if_pos hv, altL_real θ hold nAlts M C hF hP n hn hv]; simp [hn, hv]
      · simp [hn, hv]; rfl
    · rw [if_neg hn, co_high M nAlts hco hn]
      by_cases hv : C.av n <;> simp [hn, hv] <;> rfl

end Larch.Kernel
