import Verif.Spec.Utility
import Mathlib.Algebra.BigOperators.Group.List.Basic
import Mathlib.Tactic.Ring
import Mathlib.Tactic.FieldSimp
import Mathlib.Tactic.Positivity

namespace Larch.Kernel

open Function Larch Larch.Spec

/-- slot state: utility and gradient row -/
abbrev Slot := X × (Nat → X)

def get (s : UState) (j : Nat) : Slot := (s.U j, s.dU j)
def put (s : UState) (j : Nat) (x : Slot) : UState := ⟨update s.U j x.1, update s.dU j x.2⟩

@[simp] theorem get_put_self (s : UState) (j : Nat) (x : Slot) : get (put s j x) j = x := by
  simp [get, put]
theorem get_put_ne (s : UState) {i j : Nat} (x : Slot) (h : i ≠ j) : get (put s j x) i = get s i := by
  simp [get, put, h]
@[simp] theorem put_put (s : UState) (j : Nat) (x y : Slot) : put (put s j x) j y = put s j y := by
  simp [put]
@[simp] theorem put_get (s : UState) (j : Nat) : put s j (get s j) = s := by
  simp [put, get]

/-- A body that only touches its own slot. -/
def IsLocal (body : UState → UState) (j : Nat) (b : Slot → Slot) : Prop :=
  ∀ s, body s = put s j (b (get s j))

theorem foldl_local {τ : Type} (step : UState → τ → UState) (j : Nat) (b : Slot → τ → Slot)
    (h : ∀ t, IsLocal (fun s => step s t) j (fun x => b x t)) (l : List τ) :
    IsLocal (fun s => l.foldl step s) j (fun x => l.foldl b x) := by
  induction l with
  | nil => intro s; simp
  | cons t l ih =>
    intro s
    have h1 := h t s
    have h2 := ih (step s t)
    simp only at h1 h2
    simp only [List.foldl_cons]
    rw [h2, h1]; simp

noncomputable def caL (θ : Nat → ℝ) (hold : Nat → Bool) (row : Nat → X) (x : Slot) (t : CaTerm) : Slot :=
  (x.1 + row t.data * .fin t.scale * .fin (θ t.param),
   if hold t.param then x.2 else update x.2 t.param (x.2 t.param + row t.data * .fin t.scale))

theorem caStep_local (θ : Nat → ℝ) (hold : Nat → Bool) (row : Nat → X) (j : Nat) (t : CaTerm) :
    IsLocal (fun s => caStep θ hold row j s t) j (fun x => caL θ hold row x t) := by
  intro s
  by_cases hh : hold t.param <;> simp [caStep, caL, put, get, addAt, addAt2, set2, hh]

noncomputable def qL (θ : Nat → ℝ) (hold : Nat → Bool) (sc : ℝ) (row : Nat → X) (x : Slot) (t : CaTerm) : Slot :=
  let temp := row t.data * .fin t.scale * X.exp (.fin (θ t.param))
  (x.1 + temp, if hold t.param then x.2 else update x.2 t.param (x.2 t.param + temp * .fin sc))

theorem qStep_local (θ : Nat → ℝ) (hold : Nat → Bool) (sc : ℝ) (row : Nat → X) (j : Nat) (t : CaTerm) :
    IsLocal (fun s => qStep θ hold sc row j s t) j (fun x => qL θ hold sc row x t) := by
  intro s
  by_cases hh : hold t.param <;> simp [qStep, qL, put, get, addAt, addAt2, set2, hh]

noncomputable def qDivL (hold : Nat → Bool) (u : X) (g : Nat → X) (t : CaTerm) : Nat → X :=
  if hold t.param then g else update g t.param (g t.param / u)

theorem qDiv_fold (hold : Nat → Bool) (j : Nat) (U : Arr) (terms : List CaTerm) :
    ∀ dU : Arr2, terms.foldl (qDivStep hold j U) dU =
      update dU j (terms.foldl (qDivL hold (U j)) (dU j)) := by
  induction terms with
  | nil => intro dU; simp
  | cons t l ih =>
    intro dU
    simp only [List.foldl_cons]
    rw [ih]
    by_cases hh : hold t.param <;> simp [qDivStep, qDivL, set2, hh]

noncomputable def qBodyL (θ : Nat → ℝ) (hold : Nat → Bool) (terms : List CaTerm) (qScale : Option Nat)
    (row : Nat → X) (x : Slot) : Slot :=
  if terms.isEmpty then x
  else
    let sc := qScaleValue θ qScale
    let x1 := terms.foldl (qL θ hold sc row) x
    let g2 := terms.foldl (qDivL hold x1.1) x1.2
    let ts := X.log x1.1
    (ts * .fin sc, match qScale with
      | some p => if hold p then g2 else update g2 p (g2 p + ts)
      | none => g2)

theorem qBody_local (θ : Nat → ℝ) (hold : Nat → Bool) (terms : List CaTerm) (qScale : Option Nat)
    (row : Nat → X) (j : Nat) :
    IsLocal (qBody θ hold terms qScale row j) j (qBodyL θ hold terms qScale row) := by
  intro s
  unfold qBody qBodyL
  by_cases he : terms.isEmpty
  · simp [he]
  · simp only [he]
    have h1 := foldl_local _ j _ (qStep_local θ hold (qScaleValue θ qScale) row j) terms s
    simp only at h1
    rw [h1, qDiv_fold]
    set x1 := terms.foldl (qL θ hold (qScaleValue θ qScale) row) (get s j)
    cases qScale with
    | none => simp [put]
    | some p => by_cases hp : hold p <;> simp [put, hp, addAt2, set2]

/-! ### dense loop -/

theorem denseLoop_get (nAlts : Nat) (av : Nat → Bool) (ca : Nat → Nat → X)
    (body : (Nat → X) → Nat → UState → UState) (b : (Nat → X) → Slot → Slot)
    (hb : ∀ row j, IsLocal (body row j) j (b row)) (s : UState) (a : Nat) :
    get (denseLoop nAlts av ca body s) a =
      if a < nAlts then (if av a then b (ca a) (get s a) else (.ninf, s.dU a)) else get s a := by
  unfold denseLoop
  induction nAlts with
  | zero => simp
  | succ n ih =>
    rw [List.range_succ, List.foldl_append]
    simp only [List.foldl_cons, List.foldl_nil]
    set s' := (List.range n).foldl (fun s j =>
      if av j then body (ca j) j s else { s with U := update s.U j .ninf }) s
    by_cases han : a = n
    · subst han
      have h2 : get s' a = get s a := by rw [ih]; simp
      by_cases hv : av a
      · simp only [hv, if_true, Nat.lt_succ_self]
        rw [hb, get_put_self, h2]
      · have : s'.dU a = s.dU a := congrArg Prod.snd h2
        simp [hv, get, this]
    · have h2 : get s' a = if a < n + 1 then (if av a then b (ca a) (get s a) else (.ninf, s.dU a))
          else get s a := by
        rw [ih]
        by_cases h3 : a < n
        · simp [h3, show a < n + 1 by omega]
        · simp [h3, show ¬ a < n + 1 by omega]
      rw [← h2]
      by_cases hv : av n
      · simp only [hv, if_true]
        rw [hb, get_put_ne _ _ han]
      · simp [hv, get, han]

/-! ### sparse loop -/

theorem fill_get (v : X) (l : List Nat) (U : Arr) (a : Nat) :
    l.foldl (fun U k => update U k v) U a = if a ∈ l then v else U a := by
  induction l generalizing U with
  | nil => simp
  | cons k l ih =>
    rw [List.foldl_cons, ih]
    by_cases h1 : a ∈ l
    · simp [h1]
    · by_cases h2 : a = k
      · subst h2; simp [h1]
      · simp [h1, h2]

theorem skipTo_get (v : X) (stop : Nat) (st : UState × Nat) (a : Nat) :
    get (skipTo v stop st).1 a =
      if st.2 ≤ a ∧ a < stop then (v, st.1.dU a) else get st.1 a := by
  unfold skipTo get
  simp only
  rw [fill_get]
  simp only [List.mem_range'_1]
  by_cases h : st.2 ≤ a ∧ a < stop
  · rw [if_pos (by omega), if_pos h]
  · rw [if_neg (by omega), if_neg h]

/-- rows in strictly ascending alternative order -/
def Ascending (rows : List (Nat × (Nat → X))) : Prop := rows.Pairwise (fun a b => a.1 < b.1)

theorem sparse_fold (v : X) (body : (Nat → X) → Nat → UState → UState) (b : (Nat → X) → Slot → Slot)
    (hb : ∀ row j, IsLocal (body row j) j (b row)) (rows : List (Nat × (Nat → X))) :
    Ascending rows → ∀ (st : UState × Nat), (∀ r ∈ rows, st.2 ≤ r.1) →
    let st' := rows.foldl (fun st r =>
      let st' := skipTo v r.1 st
      (body r.2 st'.2 st'.1, st'.2 + 1)) st
    (∀ a, a < st.2 → get st'.1 a = get st.1 a) ∧
    (∀ a, st.2 ≤ a → a < st'.2 → (∃ r ∈ rows, r.1 = a ∧ get st'.1 a = b r.2 (get st.1 a)) ∨
        ((∀ r ∈ rows, r.1 ≠ a) ∧ get st'.1 a = (v, st.1.dU a))) ∧
    (∀ a, st'.2 ≤ a → get st'.1 a = get st.1 a ∧ ∀ r ∈ rows, r.1 ≠ a) ∧ st.2 ≤ st'.2 ∧
    (∀ N, st.2 ≤ N → (∀ r ∈ rows, r.1 < N) → st'.2 ≤ N) := by
  induction rows with
  | nil => intro _ st _; simp; intro a h1 h2; omega
  | cons r rows ih =>
    intro hasc st hst
    have hp := List.pairwise_cons.mp hasc
    have hr := hst r List.mem_cons_self
    set st1 : UState × Nat := (body r.2 (skipTo v r.1 st).2 (skipTo v r.1 st).1, (skipTo v r.1 st).2 + 1) with hst1
    have hj : (skipTo v r.1 st).2 = r.1 := by simp [skipTo, hr]
    have hst12 : st1.2 = r.1 + 1 := by simp [hst1, hj]
    have hget1 : ∀ a, get st1.1 a = if a = r.1 then b r.2 (get st.1 a) else
        if st.2 ≤ a ∧ a < r.1 then (v, st.1.dU a) else get st.1 a := by
      intro a
      simp only [hst1, hj]
      rw [hb]
      by_cases ha : a = r.1
      · subst ha
        rw [get_put_self, if_pos rfl, skipTo_get, if_neg (by omega)]
      · rw [get_put_ne _ _ ha, if_neg ha, skipTo_get]
    obtain ⟨i1, i2, i3, i4, i5⟩ := ih hp.2 st1 (fun x hx => by
      rw [hst12]; exact hp.1 x hx)
    simp only [List.foldl_cons]
    rw [← hst1]
    set st' := rows.foldl (fun st r =>
      let st' := skipTo v r.1 st
      (body r.2 st'.2 st'.1, st'.2 + 1)) st1
    rw [hst12] at i1 i2 i4 i5
    refine ⟨?_, ?_, ?_, by omega, ?_⟩
    · intro a ha
      rw [i1 a (by omega), hget1, if_neg (by omega), if_neg (by omega)]
    · intro a h1 h2
      by_cases ha : a < r.1 + 1
      · rw [i1 a ha, hget1]
        by_cases har : a = r.1
        · left; exact ⟨r, List.mem_cons_self, har.symm, by rw [if_pos har]⟩
        · right
          refine ⟨?_, by rw [if_neg har, if_pos (by omega)]⟩
          intro x hx
          rcases List.mem_cons.mp hx with rfl | hx
          · exact fun h => har h.symm
          · have := hp.1 x hx; omega
      · rcases i2 a (by omega) h2 with ⟨x, hx, hxa, hxg⟩ | ⟨hx, hxg⟩
        · left
          refine ⟨x, List.mem_cons_of_mem _ hx, hxa, ?_⟩
          rw [hxg, hget1, if_neg (by omega), if_neg (by omega)]
        · right
          refine ⟨?_, ?_⟩
          · intro y hy
            rcases List.mem_cons.mp hy with rfl | hy
            · omega
            · exact hx y hy
          · rw [hxg]
            have := hget1 a
            rw [if_neg (by omega), if_neg (by omega)] at this
            have h3 : st1.1.dU a = st.1.dU a := congrArg Prod.snd this
            rw [h3]
    · intro a ha
      obtain ⟨j1, j2⟩ := i3 a ha
      rw [j1, hget1, if_neg (by omega), if_neg (by omega)]
      refine ⟨rfl, ?_⟩
      intro y hy
      rcases List.mem_cons.mp hy with rfl | hy
      · omega
      · exact j2 y hy
    · intro N hN hNr
      apply i5
      · have := hNr r List.mem_cons_self; omega
      · exact fun x hx => hNr x (List.mem_cons_of_mem _ hx)

theorem sparseLoop_get (v : X) (nAlts : Nat) (body : (Nat → X) → Nat → UState → UState)
    (b : (Nat → X) → Slot → Slot) (hb : ∀ row j, IsLocal (body row j) j (b row))
    (rows : List (Nat × (Nat → X))) (hasc : Ascending rows) (hlt : ∀ r ∈ rows, r.1 < nAlts)
    (s : UState) (a : Nat) :
    (∀ r ∈ rows, r.1 = a → get (sparseLoop v nAlts body rows s) a = b r.2 (get s a)) ∧
    ((∀ r ∈ rows, r.1 ≠ a) → get (sparseLoop v nAlts body rows s) a =
      if a < nAlts then (v, s.dU a) else get s a) := by
  obtain ⟨i1, i2, i3, i4, i5⟩ := sparse_fold v body b hb rows hasc (s, 0) (by simp)
  unfold sparseLoop
  simp only at i1 i2 i3 i4 i5 ⊢
  set st := rows.foldl (fun st r =>
      let st' := skipTo v r.1 st
      (body r.2 st'.2 st'.1, st'.2 + 1)) (s, 0)
  rw [skipTo_get]
  have hN := i5 nAlts (Nat.zero_le _) hlt
  have uniq : ∀ r ∈ rows, ∀ r' ∈ rows, r.1 = r'.1 → r = r' := by
    intro r hr r' hr' he
    by_contra hne
    have key : ∀ (l : List (Nat × (Nat → X))), Ascending l → ∀ r ∈ l, ∀ r' ∈ l, r.1 = r'.1 → r = r' := by
      intro l
      induction l with
      | nil => intro _ r hr; simp at hr
      | cons x l ih =>
        intro hl r hr r' hr' he
        have hp := List.pairwise_cons.mp hl
        rcases List.mem_cons.mp hr with rfl | hr <;> rcases List.mem_cons.mp hr' with rfl | hr'
        · rfl
        · have := hp.1 r' hr'; omega
        · rename_i hr2
          have := hp.1 r hr2; omega
        · exact ih hp.2 r hr r' hr' he
    exact hne (key rows hasc r hr r' hr' he)
  constructor
  · intro r hr hra
    by_cases ha : a < st.2
    · rw [if_neg (by omega)]
      rcases i2 a (Nat.zero_le _) ha with ⟨x, hx, hxa, hxg⟩ | ⟨hx, _⟩
      · have := uniq x hx r hr (hxa.trans hra.symm)
        rw [hxg, this]
      · exact absurd hra (hx r hr)
    · exact absurd hra ((i3 a (by omega)).2 r hr)
  · intro hno
    by_cases ha : a < st.2
    · rw [if_neg (by omega), if_pos (by omega)]
      rcases i2 a (Nat.zero_le _) ha with ⟨x, hx, hxa, _⟩ | ⟨_, hg⟩
      · exact absurd hxa (hno x hx)
      · exact hg
    · have h3 := (i3 a (by omega)).1
      by_cases han : a < nAlts
      · rw [if_pos ⟨by omega, han⟩, if_pos han]
        have : st.1.dU a = s.dU a := congrArg Prod.snd h3
        rw [this]
      · rw [if_neg (by omega), if_neg han, h3]

/-! ### co loop -/

noncomputable def coL (θ : Nat → ℝ) (hold : Nat → Bool) (co : Nat → X) (x : Slot) (t : CoTerm) : Slot :=
  match t.data with
  | none => (x.1 + .fin (θ t.param) * .fin t.scale,
      if hold t.param then x.2 else update x.2 t.param (x.2 t.param + .fin t.scale))
  | some d => (x.1 + co d * .fin t.scale * .fin (θ t.param),
      if hold t.param then x.2 else update x.2 t.param (x.2 t.param + co d * .fin t.scale))

theorem coStep_get (θ : Nat → ℝ) (hold : Nat → Bool) (av : Nat → Bool) (co : Nat → X) (s : UState)
    (t : CoTerm) (a : Nat) :
    get (coStep θ hold av co s t) a = if t.alt = a ∧ av a then coL θ hold co (get s a) t else get s a := by
  unfold coStep coL
  by_cases ha : t.alt = a
  · subst ha
    by_cases hv : av t.alt
    · simp only [hv, if_true, and_self]
      cases t.data <;> by_cases hh : hold t.param <;> simp [get, addAt, addAt2, set2, hh]
    · simp [hv]
  · have hno : ¬ (t.alt = a ∧ av a = true) := fun h => ha h.1
    simp only [hno, if_false]
    by_cases hv : av t.alt
    · simp only [hv, if_true]
      have ha' : a ≠ t.alt := fun h => ha h.symm
      cases t.data <;> by_cases hh : hold t.param <;> simp [get, addAt, addAt2, set2, hh, ha']
    · simp [hv]

theorem utilityCo_get (θ : Nat → ℝ) (hold : Nat → Bool) (av : Nat → Bool) (co : Nat → X)
    (terms : List CoTerm) (a : Nat) : ∀ s : UState,
    get (utilityCo θ hold av co terms s) a =
      if av a then (terms.filter (fun t => t.alt = a)).foldl (coL θ hold co) (get s a) else get s a := by
  unfold utilityCo
  induction terms with
  | nil => intro s; simp
  | cons t l ih =>
    intro s
    rw [List.foldl_cons, ih, coStep_get]
    by_cases hv : av a <;> by_cases ha : t.alt = a <;> simp [hv, ha]

/-! ### slot-wise assembly -/

noncomputable def altL (θ : Nat → ℝ) (hold : Nat → Bool) (M : Terms) (co : Nat → X) (row : Nat → X) (a : Nat) : Slot :=
  (M.co.filter (fun t => t.alt = a)).foldl (coL θ hold co)
    (M.ca.foldl (caL θ hold row) (qBodyL θ hold M.q M.qScale row (0, fun _ => 0)))

theorem assemble_dense (θ : Nat → ℝ) (hold : Nat → Bool) (nAlts : Nat) (M : Terms) (C : Case)
    (hce : C.ce = none) (a : Nat) :
    get (assemble θ hold nAlts M C) a =
      if a < nAlts then
        (if C.av a then altL θ hold M C.co (C.ca a) a else (.ninf, fun _ => 0))
      else if C.av a then (M.co.filter (fun t => t.alt = a)).foldl (coL θ hold C.co) (0, fun _ => 0)
      else (0, fun _ => 0) := by
  unfold assemble
  rw [utilityCo_get]
  unfold utilityCa quantityCa
  rw [hce]
  simp only
  have hca := fun s => denseLoop_get nAlts C.av C.ca
    (fun row j s => M.ca.foldl (caStep θ hold row j) s) (fun row x => M.ca.foldl (caL θ hold row) x)
    (fun row j => foldl_local _ j _ (caStep_local θ hold row j) M.ca) s a
  have hq := fun s => denseLoop_get nAlts C.av C.ca _ _
    (fun row j => qBody_local θ hold M.q M.qScale row j) s a
  by_cases ha : a < nAlts
  · by_cases hv : C.av a
    · simp only [hv, if_true, ha]
      rw [hca, if_pos ha, if_pos hv, hq, if_pos ha, if_pos hv]
      rfl
    · simp only [ha, if_true]
      rw [if_neg hv, if_neg hv, hca, if_pos ha, if_neg hv]
      have := hq { U := fun _ => 0, dU := fun _ _ => 0 }
      rw [if_pos ha, if_neg hv] at this
      have h2 := congrArg Prod.snd this
      simp only [get] at h2
      rw [h2]
  · rw [hca, if_neg ha, hq, if_neg ha, if_neg ha]
    rfl

theorem assemble_sparse (θ : Nat → ℝ) (hold : Nat → Bool) (nAlts : Nat) (M : Terms) (C : Case)
    (rows : List (Nat × (Nat → X))) (hce : C.ce = some rows) (hasc : Ascending rows)
    (hlt : ∀ r ∈ rows, r.1 < nAlts) (a : Nat) (ha : a < nAlts) :
    (∀ r ∈ rows, r.1 = a → get (assemble θ hold nAlts M C) a =
      if C.av a then altL θ hold M C.co r.2 a
      else M.ca.foldl (caL θ hold r.2) (qBodyL θ hold M.q M.qScale r.2 (0, fun _ => 0))) ∧
    ((∀ r ∈ rows, r.1 ≠ a) → get (assemble θ hold nAlts M C) a =
      if C.av a then (M.co.filter (fun t => t.alt = a)).foldl (coL θ hold C.co) (.ninf, fun _ => 0)
      else (.ninf, fun _ => 0)) := by
  unfold assemble
  rw [utilityCo_get]
  unfold utilityCa quantityCa
  rw [hce]
  simp only
  have hca := fun s => sparseLoop_get .ninf nAlts
    (fun row j s => M.ca.foldl (caStep θ hold row j) s) (fun row x => M.ca.foldl (caL θ hold row) x)
    (fun row j => foldl_local _ j _ (caStep_local θ hold row j) M.ca) rows hasc hlt s a
  have hq := fun s => sparseLoop_get 0 nAlts _ _
    (fun row j => qBody_local θ hold M.q M.qScale row j) rows hasc hlt s a
  constructor
  · intro r hr hra
    rw [(hca _).1 r hr hra, (hq _).1 r hr hra]
    rfl
  · intro hno
    rw [(hca _).2 hno, if_pos ha]
    have := (hq { U := fun _ => 0, dU := fun _ _ => 0 }).2 hno
    rw [if_pos ha] at this
    have h2 := congrArg Prod.snd this
    simp only [get] at h2
    rw [h2]

theorem assemble_sparse_high (θ : Nat → ℝ) (hold : Nat → Bool) (nAlts : Nat) (M : Terms) (C : Case)
    (rows : List (Nat × (Nat → X))) (hce : C.ce = some rows) (hasc : Ascending rows)
    (hlt : ∀ r ∈ rows, r.1 < nAlts) (a : Nat) (ha : ¬ a < nAlts) :
    get (assemble θ hold nAlts M C) a =
      if C.av a then (M.co.filter (fun t => t.alt = a)).foldl (coL θ hold C.co) (0, fun _ => 0)
      else (0, fun _ => 0) := by
  unfold assemble
  rw [utilityCo_get]
  unfold utilityCa quantityCa
  rw [hce]
  simp only
  have hca := fun s => sparseLoop_get .ninf nAlts
    (fun row j s => M.ca.foldl (caStep θ hold row j) s) (fun row x => M.ca.foldl (caL θ hold row) x)
    (fun row j => foldl_local _ j _ (caStep_local θ hold row j) M.ca) rows hasc hlt s a
  have hq := fun s => sparseLoop_get 0 nAlts _ _
    (fun row j => qBody_local θ hold M.q M.qScale row j) rows hasc hlt s a
  have hno : ∀ r ∈ rows, r.1 ≠ a := fun r hr h => ha (h ▸ hlt r hr)
  rw [(hca _).2 hno, if_neg ha, (hq _).2 hno, if_neg ha]
  rfl

end Larch.Kernel
