import Verif.Model.Kernel
import Verif.Spec.Nested
import Mathlib.Algebra.BigOperators.Group.List.Basic
import Mathlib.Tactic.Linarith
import Mathlib.Tactic.Ring
import Mathlib.Tactic.FieldSimp
import Mathlib.Tactic.Positivity

namespace Larch.Kernel

open Function Larch
open scoped BigOperators

/-- finite when available, `-inf` otherwise -/
noncomputable def emb (b : Prop) [Decidable b] (v : ℝ) : X := if b then .fin v else .ninf

/-- out-children of node `n` as a list -/
def kids (T : Tree) (n : Nat) : List Nat := (T.edges.filter (fun e => e.1 = n)).map Prod.snd

theorem mem_kids {T : Tree} {n c : Nat} : c ∈ kids T n ↔ (n, c) ∈ T.edges := by
  unfold kids
  simp only [List.mem_map, List.mem_filter, decide_eq_true_eq]
  constructor
  · rintro ⟨⟨a, b⟩, ⟨h1, h2⟩, h3⟩
    simp only at h2 h3; subst h2; subst h3; exact h1
  · intro h; exact ⟨(n, c), ⟨h, rfl⟩, rfl⟩

theorem Tree.WF.kids_nodup {T : Tree} (h : T.WF) (n : Nat) : (kids T n).Nodup :=
  h.oneParent.sublist (List.Sublist.map _ List.filter_sublist)

theorem Tree.WF.kids_lt {T : Tree} (h : T.WF) {n c : Nat} (hc : c ∈ kids T n) : c < n :=
  (h.edge _ (mem_kids.mp hc)).1

theorem childSlots_eq {T : Tree} (h : T.WF) {n : Nat} (h1 : T.nAlts ≤ n) (h2 : n < T.nNodes) :
    childSlots T (n - T.nAlts) = kids T n := by
  obtain ⟨hl, hs⟩ := h.slots (n - T.nAlts) (by omega)
  have hn : T.nAlts + (n - T.nAlts) = n := by omega
  rw [hn] at hs
  unfold childSlots kids
  rw [← hs]
  apply List.ext_getElem?
  intro i
  simp only [List.getElem?_map, List.getElem?_take, List.getElem?_drop]
  by_cases hi : i < T.len (n - T.nAlts)
  · rw [if_pos hi, List.getElem?_range hi]
    simp only [Option.map_some]
    rw [List.getD_eq_getElem?_getD, List.getElem?_eq_getElem (by omega)]
    rfl
  · rw [if_neg hi, List.getElem?_eq_none (by simpa using hi)]
    rfl

/-! ### shift and exponential loops -/

theorem shift_inv (U : Arr) {mu : ℝ} (hmu : mu ≠ 0) (cs : List Nat)
    (hU : ∀ c ∈ cs, (∃ r, U c = .fin r) ∨ U c = .ninf) :
    ∀ s : X × Option Nat,
      (s = (.ninf, none) ∨ ∃ d r, U d = .fin r ∧ s = (.fin (r / mu), some d)) →
      (let s' := cs.foldl (shiftStep U mu) s
       ((s' = (.ninf, none) ∧ s = (.ninf, none) ∧ ∀ c ∈ cs, U c = .ninf) ∨
         ∃ d r, U d = .fin r ∧ s' = (.fin (r / mu), some d) )) := by
  induction cs with
  | nil =>
    intro s hs
    rcases hs with hs | hs
    · left; exact ⟨hs, hs, by simp⟩
    · right; exact hs
  | cons c cs ih =>
    intro s hs
    have ih' := ih (fun x hx => hU x (List.mem_cons_of_mem _ hx))
    simp only [List.foldl_cons]
    rcases hU c List.mem_cons_self with ⟨r, hr⟩ | hr
    · -- available child
      have hstep : ∃ d r, U d = .fin r ∧ shiftStep U mu s c = (.fin (r / mu), some d) := by
        unfold shiftStep
        rw [hr, if_pos (X.fin_gt_ninf r), X.fin_div hmu]
        simp only
        rcases hs with hs | ⟨d, r', hd, hs⟩
        · rw [hs]; rw [if_pos (X.fin_gt_ninf _)]; exact ⟨c, r, hr, rfl⟩
        · split_ifs with hgt
          · exact ⟨c, r, hr, rfl⟩
          · exact ⟨d, r', hd, hs⟩
      rcases ih' _ (Or.inr hstep) with ⟨_, h2, _⟩ | h
      · obtain ⟨d, r', _, h3⟩ := hstep
        rw [h3] at h2; simp at h2
      · right; exact h
    · have hstep : shiftStep U mu s c = s := by
        unfold shiftStep; rw [hr, if_neg (X.not_ninf_gt _)]
      rw [hstep]
      rcases ih' s hs with ⟨h1, h2, h3⟩ | h
      · left; refine ⟨h1, h2, ?_⟩
        intro x hx
        rcases List.mem_cons.mp hx with rfl | hx
        · exact hr
        · exact h3 x hx
      · right; exact h

theorem exp_loop (up : Nat) {mu : ℝ} (hmu : mu ≠ 0) (d : Nat) (r : ℝ) (av : Nat → Prop)
    [DecidablePred av] (V : Nat → ℝ) (cs : List Nat) (hup : up ∉ cs) :
    ∀ (U : Arr) (x : ℝ), (∀ c ∈ cs, U c = emb (av c) (V c)) → V d = r → U up = .fin x →
      let U' := cs.foldl (expStep up mu (.fin (r / mu), some d)) U
      U' up = .fin (x + (cs.map (fun c => if av c then Real.exp (V c / mu - r / mu) else 0)).sum) ∧
        ∀ n ≠ up, U' n = U n := by
  induction cs with
  | nil => intro U x _ _ hx; simp [hx]
  | cons c cs ih =>
    intro U x hU hd hx
    simp only [List.mem_cons, not_or] at hup
    have hc := hU c List.mem_cons_self
    simp only [List.foldl_cons, List.map_cons, List.sum_cons]
    have key : ∃ y, y = x + (if av c then Real.exp (V c / mu - r / mu) else 0) ∧
        expStep up mu (.fin (r / mu), some d) U c up = .fin y ∧
        ∀ n ≠ up, expStep up mu (.fin (r / mu), some d) U c n = U n := by
      refine ⟨_, rfl, ?_⟩
      unfold expStep
      rw [hc]
      unfold emb
      by_cases ha : av c
      · simp only [ha, if_true]
        rw [if_pos (X.fin_gt_ninf _)]
        by_cases hdc : some d = some c
        · rw [if_pos hdc]
          have : d = c := by simpa using hdc
          subst this
          rw [hd, sub_self, Real.exp_zero]
          constructor
          · simp [addAt, hx, X.one_def]
          · intro n hn; simp [addAt, hn]
        · rw [if_neg hdc, X.fin_div hmu, X.fin_sub, X.exp_fin]
          constructor
          · simp [addAt, hx]
          · intro n hn; simp [addAt, hn]
      · simp only [ha, if_false]
        rw [if_neg (X.not_ninf_gt _)]
        exact ⟨by simpa using hx, fun _ _ => rfl⟩
    obtain ⟨y, hy, hy1, hy2⟩ := key
    have := ih hup.2 (expStep up mu (.fin (r / mu), some d) U c) y ?_ hd hy1
    · obtain ⟨h1, h2⟩ := this
      refine ⟨?_, fun n hn => (h2 n hn).trans (hy2 n hn)⟩
      rw [h1, hy, add_assoc]
    · intro c' hc'
      rw [hy2 c' (fun h => hup.2 (h ▸ hc'))]
      exact hU c' (List.mem_cons_of_mem _ hc')

theorem exp_loop_none (up : Nat) {mu : ℝ} (sh : X × Option Nat) (U : Arr) (cs : List Nat)
    (h : ∀ c ∈ cs, U c = .ninf) : cs.foldl (expStep up mu sh) U = U := by
  induction cs with
  | nil => rfl
  | cons c cs ih =>
    rw [List.foldl_cons]
    have : expStep up mu sh U c = U := by
      unfold expStep; rw [h c List.mem_cons_self, if_neg (X.not_ninf_gt _)]
    rw [this]
    exact ih (fun c' hc' => h c' (List.mem_cons_of_mem _ hc'))

/-- One nest: exact logsum, whatever child was taken as the shift. -/
theorem nestStep_spec {T : Tree} (h : T.WF) (θ : Nat → ℝ) (U : Arr) (up : Nat) (h1 : T.nAlts ≤ up)
    (h2 : up < T.nNodes) (av : Nat → Prop) [DecidablePred av] (V : Nat → ℝ)
    (hmu : 0 < muOf T θ (up - T.nAlts)) (hU : ∀ c ∈ kids T up, U c = emb (av c) (V c))
    (h0 : U up = .fin 0) :
    nestStep T θ U up up = emb (∃ c ∈ kids T up, av c)
      (muOf T θ (up - T.nAlts) * Real.log
        ((kids T up).map (fun c => if av c then Real.exp (V c / muOf T θ (up - T.nAlts)) else 0)).sum) := by
  have hne : muOf T θ (up - T.nAlts) ≠ 0 := ne_of_gt hmu
  have hup : up ∉ kids T up := fun hc => absurd (h.kids_lt hc) (lt_irrefl _)
  unfold nestStep
  rw [childSlots_eq h h1 h2]
  generalize muOf T θ (up - T.nAlts) = mu at *
  simp only [if_pos hne]
  have hU' : ∀ c ∈ kids T up, (∃ r, U c = .fin r) ∨ U c = .ninf := by
    intro c hc
    rw [hU c hc]; unfold emb
    by_cases ha : av c <;> simp [ha]
  rw [update_self]
  rcases shift_inv U hne (kids T up) hU' (.ninf, none) (Or.inl rfl) with ⟨hs, _, hall⟩ | ⟨d, r, hd, hs⟩
  · rw [hs, exp_loop_none up _ U _ hall, h0]
    have hno : ¬ ∃ c ∈ kids T up, av c := by
      rintro ⟨c, hc, ha⟩
      have := hU c hc
      rw [hall c hc] at this
      simp [emb, ha] at this
    simp only [emb, hno, if_false, X.log_zero, X.ninf_add_ninf]
    show X.mul _ _ = _
    simp [X.mul, X.infSign, hmu]
  · rw [hs]
    have hdm : d ∈ kids T up := by
      have key : ∀ (cs : List Nat) (s : X × Option Nat) (d : Nat),
          (cs.foldl (shiftStep U mu) s).2 = some d → s.2 = some d ∨ d ∈ cs := by
        intro cs
        induction cs with
        | nil => intro s d h; left; exact h
        | cons c cs ih =>
          intro s d h
          rw [List.foldl_cons] at h
          rcases ih _ _ h with h | h
          · unfold shiftStep at h
            simp only at h
            split_ifs at h
            · right; simp only [Option.some.injEq] at h; simp [h]
            · left; exact h
            · left; exact h
          · right; exact List.mem_cons_of_mem _ h
      have := key (kids T up) (.ninf, none) d (by rw [hs])
      simpa using this
    have hemb := hU d hdm
    rw [hd] at hemb
    have had : av d := by
      by_contra hna
      simp [emb, hna] at hemb
    have hVd : V d = r := by
      simp [emb, had] at hemb; exact hemb.symm
    obtain ⟨e1, _⟩ := exp_loop up hne d r av V (kids T up) hup U 0 hU hVd h0
    rw [e1, zero_add]
    have hex : ∃ c ∈ kids T up, av c := ⟨d, hdm, had⟩
    simp only [emb, hex, if_true]
    have hfac : ((kids T up).map (fun c => if av c then Real.exp (V c / mu - r / mu) else 0)).sum =
        ((kids T up).map (fun c => if av c then Real.exp (V c / mu) else 0)).sum * Real.exp (-(r / mu)) := by
      rw [← List.sum_map_mul_right]
      congr 1
      apply List.map_congr_left
      intro c _
      by_cases ha : av c
      · simp only [ha, if_true]; rw [← Real.exp_add]; ring_nf
      · simp [ha]
    have hpos : 0 < ((kids T up).map (fun c => if av c then Real.exp (V c / mu) else 0)).sum := by
      have hle : ∀ x ∈ (kids T up).map (fun c => if av c then Real.exp (V c / mu) else 0), 0 ≤ x := by
        intro x hx
        obtain ⟨c, _, rfl⟩ := List.mem_map.mp hx
        split_ifs <;> positivity
      have := List.single_le_sum hle (if av d then Real.exp (V d / mu) else 0)
        (List.mem_map.mpr ⟨d, hdm, rfl⟩)
      simp only [had, if_true] at this
      exact lt_of_lt_of_le (Real.exp_pos _) this
    rw [hfac, X.log_fin (by positivity), X.fin_add, X.fin_mul,
      Real.log_mul (ne_of_gt hpos) (ne_of_gt (Real.exp_pos _)), Real.log_exp]
    congr 1; ring

theorem exp_loop_other (up : Nat) (mu : ℝ) (sh : X × Option Nat) (cs : List Nat) :
    ∀ (U : Arr) (n : Nat), n ≠ up → cs.foldl (expStep up mu sh) U n = U n := by
  induction cs with
  | nil => intros; rfl
  | cons c cs ih =>
    intro U n hn
    rw [List.foldl_cons, ih _ n hn]
    unfold expStep addAt
    split_ifs <;> simp [hn]

theorem max_loop_other (up : Nat) (cs : List Nat) :
    ∀ (U : Arr) (n : Nat), n ≠ up → cs.foldl (maxStep up) U n = U n := by
  induction cs with
  | nil => intros; rfl
  | cons c cs ih =>
    intro U n hn
    rw [List.foldl_cons, ih _ n hn]
    unfold maxStep
    split_ifs <;> simp [hn]

theorem nestStep_other (T : Tree) (θ : Nat → ℝ) (U : Arr) (up n : Nat) (hn : n ≠ up) :
    nestStep T θ U up n = U n := by
  unfold nestStep
  simp only
  split_ifs
  · rw [update_of_ne hn]; exact exp_loop_other up _ _ _ U n hn
  · exact max_loop_other up _ U n hn

theorem foldl_nest_other (T : Tree) (θ : Nat → ℝ) (l : List Nat) :
    ∀ (U : Arr) (n : Nat), n ∉ l → l.foldl (nestStep T θ) U n = U n := by
  induction l with
  | nil => intros; rfl
  | cons a l ih =>
    intro U n hn
    simp only [List.mem_cons, not_or] at hn
    rw [List.foldl_cons, ih _ n hn.2, nestStep_other T θ U a n hn.1]

theorem upPass_low (T : Tree) (θ : Nat → ℝ) (U : Arr) (n : Nat) (hn : n < T.nAlts) :
    upPass T θ U n = U n := by
  apply foldl_nest_other
  simp only [List.mem_range'_1]; omega

/-- After the upward pass every nest satisfies the nest equation relative to the final array. -/
theorem upPass_nest {T : Tree} (h : T.WF) (θ : Nat → ℝ) (U : Arr) (av : Nat → Prop) [DecidablePred av]
    (V : Nat → ℝ)
    (hmu : ∀ k, T.nAlts + k < T.nNodes → 0 < muOf T θ k)
    (hU : ∀ a < T.nAlts, U a = emb (av a) (V a))
    (h0 : ∀ n, T.nAlts ≤ n → n < T.nNodes → U n = .fin 0)
    (hav : ∀ n, T.nAlts ≤ n → n < T.nNodes → (av n ↔ ∃ c ∈ kids T n, av c))
    (hV : ∀ n, T.nAlts ≤ n → n < T.nNodes → V n = muOf T θ (n - T.nAlts) * Real.log
        ((kids T n).map (fun c => if av c then Real.exp (V c / muOf T θ (n - T.nAlts)) else 0)).sum) :
    ∀ n < T.nNodes, upPass T θ U n = emb (av n) (V n) := by
  have main : ∀ m, T.nAlts + m ≤ T.nNodes →
      (∀ n < T.nAlts + m, (List.range' T.nAlts m).foldl (nestStep T θ) U n = emb (av n) (V n)) := by
    intro m
    induction m with
    | zero => intro _ n hn; simpa using hU n (by omega)
    | succ m ih =>
      intro hm n hn
      have ih' := ih (by omega)
      rw [List.range'_concat, List.foldl_append]
      simp only [one_mul, List.foldl_cons, List.foldl_nil]
      by_cases hnm : n = T.nAlts + m
      · subst hnm
        rw [nestStep_spec h θ _ (T.nAlts + m) (by omega) (by omega) av V]
        · rw [← hV _ (by omega) (by omega)]
          have := hav (T.nAlts + m) (by omega) (by omega)
          simp only [emb, this]
        · exact hmu _ (by omega)
        · intro c hc
          exact ih' c (h.kids_lt hc)
        · rw [foldl_nest_other]
          · exact h0 _ (by omega) (by omega)
          · simp only [List.mem_range'_1]; omega
      · rw [nestStep_other _ _ _ _ _ hnm]
        exact ih' n (by omega)
  intro n hn
  have := main (T.nNodes - T.nAlts) (by have := h.root; omega) n (by have := h.root; omega)
  exact this

end Larch.Kernel
