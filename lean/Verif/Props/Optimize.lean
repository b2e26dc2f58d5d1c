import Verif.Lemmas.Optimize

/-!
# C29: BHHH estimation never ends worse than it started
-/

namespace Larch.Props

open Larch.Optim Larch.OptimSpec

variable {V D L : Type} [LinearOrder L]

/-! ## `simple_step_bhhh` -/

/-- C29, one step on all cases, for an objective that is never NaN: if the method returns, the values are strictly better than before,
lie in the direction of the step, and the log likelihood returned is the one at these values; if it raises, the values are the
old ones. -/
theorem C29_step (move : V → D → ℚ → V) (ev : V → Eval D L) (hnan : ∀ v, (ev v).ll ≠ none) (fuel : ℕ) (steplen : ℚ) (p : V) :
    let r := simpleStep move ev (fun v => (ev v).ll) fuel steplen p
    (∀ x, r.1 = .returned x → Better (fun v => (ev v).ll) p r.2 ∧ x.1 = (ev r.2).ll ∧
      ∃ k : ℕ, r.2 = move p (ev p).dir (steplen / 2 ^ k)) ∧
    (r.1 = .raised → r.2 = p) := by
  unfold simpleStep
  cases h : search (fun s => move p (ev p).dir s) (fun v => (ev v).ll) (fun v => gt v (ev p).ll) (1 / 100) fuel steplen with
  | none => simp only [h]; simp
  | some t =>
    obtain ⟨h1, ⟨k, h2, -⟩, -⟩ := search_spec _ _ _ _ h
    simp only [h]
    cases hle : le t.res (ev p).ll with
    | true => simp
    | false =>
      have hg := gt_of_not_le (by rw [h1]; exact hnan _) (hnan p) hle
      rw [h1, gt_iff] at hg
      obtain ⟨x, y, hx, hy, hxy⟩ := hg
      simp only [Bool.false_eq_true, if_false, Out.returned.injEq, reduceCtorEq, false_implies, and_true]
      rintro _ rfl
      exact ⟨⟨x, y, hx, hy, hxy⟩, h1, k, h2⟩

/-- One step takes at most `n` evaluations if `steplen < 0.01 * 2 ^ n`; with the default step length 1, at most 7. -/
theorem C29_step_ends (move : V → D → ℚ → V) (sub : V → Eval D L) (full : V → Num L) (n : ℕ) (hn : 1 ≤ n) (steplen : ℚ)
    (hs : steplen < 1 / 100 * 2 ^ n) (fuel : ℕ) (hf : n ≤ fuel) (p : V) :
    (simpleStep move sub full fuel steplen p).1 ≠ .unfinished := by
  obtain ⟨t, ht, -⟩ := search_total (fun s => move p (sub p).dir s) full (fun v => gt v (sub p).ll) (1 / 100) n hn hf hs
  unfold simpleStep
  simp only [ht]
  split <;> simp

/-! ## `simple_fit_bhhh` -/

theorem simpleLoop_spec (move : V → D → ℚ → V) (ev : V → Eval D L) (hnan : ∀ v, (ev v).ll ≠ none) (fuel : ℕ) (ctol smin : ℚ)
    (n iter : ℕ) (p : V) (s : ℚ) (steps : List ℚ) :
    let r := simpleLoop move ev fuel ctol smin n iter p (ev p) s steps
    Improving (fun v => (ev v).ll) (p :: r.callbacks) ∧ r.pvals = lastOf p r.callbacks ∧
      ∀ f, r.out = .returned f → f.ll = (ev r.pvals).ll ∧ f.iter = iter + r.callbacks.length ∧
        f.steps.length = steps.length + r.callbacks.length := by
  induction n generalizing iter p s steps with
  | zero =>
    unfold simpleLoop
    split <;> exact ⟨List.isChain_singleton _, rfl, by rintro f ⟨⟩; exact ⟨rfl, rfl, rfl⟩⟩
  | succ n ih =>
    unfold simpleLoop
    split
    · cases h : search (fun s => move p (ev p).dir s) ev (fun r => gt r.ll (ev p).ll) smin fuel s with
      | none => exact ⟨List.isChain_singleton _, rfl, by rintro f ⟨⟩⟩
      | some t =>
        obtain ⟨h1, -, -⟩ := search_spec _ _ _ _ h
        simp only
        cases hle : le t.res.ll (ev p).ll with
        | true => exact ⟨List.isChain_singleton _, rfl, by rintro f ⟨⟩⟩
        | false =>
          have hb : Better (fun v => (ev v).ll) p t.pos := by
            have hg := gt_of_not_le (by rw [h1]; exact hnan _) (hnan p) hle
            rw [h1, gt_iff] at hg
            obtain ⟨x, y, hx, hy, hxy⟩ := hg
            exact ⟨x, y, hx, hy, hxy⟩
          have := ih (iter + 1) t.pos t.steplen (steps ++ [t.steplen])
          rw [← h1] at this
          obtain ⟨i1, i2, i3⟩ := this
          simp only [Bool.false_eq_true, if_false]
          refine ⟨improving_cons hb i1, by rw [lastOf_cons]; exact i2, fun f hf => ?_⟩
          obtain ⟨j1, j2, j3⟩ := i3 f hf
          refine ⟨j1, ?_, ?_⟩
          · rw [j2]; simp only [List.length_cons]; omega
          · rw [j3]; simp only [List.length_cons, List.length_append, List.length_nil]; omega
    · exact ⟨List.isChain_singleton _, rfl, by rintro f ⟨⟩; exact ⟨rfl, rfl, rfl⟩⟩

/-- C29, series of steps without jumpstart, for an objective that is never NaN, whatever the objective, directions and settings: each set
of values passed to the callback is strictly better than the one before; at the end, by return or by exception, the parameters are
at the last of them, so not worse than at the start; and a returned log likelihood is the one at the final values. -/
theorem C29_fit (move : V → D → ℚ → V) (ev : V → Eval D L) (hnan : ∀ v, (ev v).ll ≠ none) (jump : V → V) (fuel : ℕ)
    (steplen ctol : ℚ) (maxiter : ℕ) (smin : ℚ) (p : V) :
    let r := simpleFit move ev jump fuel steplen ctol maxiter 0 smin p
    Improving (fun v => (ev v).ll) (p :: r.callbacks) ∧ r.pvals = lastOf p r.callbacks ∧
      NotWorse (fun v => (ev v).ll) p r.pvals ∧
      ∀ f, r.out = .returned f → f.ll = (ev r.pvals).ll ∧ f.iter = r.callbacks.length ∧ f.steps.length = r.callbacks.length ∧
        (r.callbacks ≠ [] → Better (fun v => (ev v).ll) p r.pvals) := by
  intro r
  have key : Improving (fun v => (ev v).ll) (p :: r.callbacks) ∧ r.pvals = lastOf p r.callbacks ∧
      ∀ f, r.out = .returned f → f.ll = (ev r.pvals).ll ∧ f.iter = 0 + r.callbacks.length ∧
        f.steps.length = 0 + r.callbacks.length := by
    by_cases hc : absGt (ev p).tol ctol = true ∧ 0 < maxiter
    · have hr : r = { simpleLoop move ev fuel ctol smin (maxiter - 0) 0 p (ev p) steplen [] with
          evals := 1 + (simpleLoop move ev fuel ctol smin (maxiter - 0) 0 p (ev p) steplen []).evals } := if_pos hc
      rw [hr]
      exact simpleLoop_spec move ev hnan fuel ctol smin (maxiter - 0) 0 p steplen []
    · have hr : r = ⟨.returned ⟨(ev p).ll, (ev p).tol, 0, []⟩, p, [], 1⟩ := if_neg hc
      rw [hr]
      exact ⟨List.isChain_singleton _, rfl, by rintro f ⟨⟩; exact ⟨rfl, rfl, rfl⟩⟩
  obtain ⟨k1, k2, k3⟩ := key
  refine ⟨k1, k2, ?_, fun f hf => ?_⟩
  · rw [k2]; exact improving_notWorse k1 (hnan p)
  · obtain ⟨j1, j2, j3⟩ := k3 f hf
    refine ⟨j1, by omega, by omega, fun hne => ?_⟩
    rw [k2]; exact improving_last k1 hne

theorem simpleLoop_ends (move : V → D → ℚ → V) (ev : V → Eval D L) (ctol smin : ℚ) (m : ℕ) (hm : 1 ≤ m) (fuel : ℕ) (hf : m ≤ fuel)
    (n iter : ℕ) (p : V) (cur : Eval D L) (s : ℚ) (hs0 : 0 ≤ s) (hs : s < smin * 2 ^ m) (steps : List ℚ) :
    let r := simpleLoop move ev fuel ctol smin n iter p cur s steps
    r.out ≠ .unfinished ∧ r.evals ≤ n * m := by
  induction n generalizing iter p cur s steps with
  | zero => unfold simpleLoop; split <;> simp
  | succ n ih =>
    unfold simpleLoop
    split
    · obtain ⟨t, ht, hte⟩ := search_total (fun s => move p cur.dir s) ev (fun r => gt r.ll cur.ll) smin m hm hf hs
      simp only [ht]
      split
      · refine ⟨by simp, ?_⟩
        show t.evals ≤ _
        rw [Nat.succ_mul]; omega
      · obtain ⟨l1, l2, -⟩ := search_steplen _ _ _ _ ht hs0
        obtain ⟨i1, i2⟩ := ih (iter + 1) t.pos t.res t.steplen l2 (lt_of_le_of_lt l1 hs) (steps ++ [t.steplen])
        refine ⟨i1, ?_⟩
        show t.evals + _ ≤ _
        rw [Nat.succ_mul]; omega
    · simp

/-- C29: the search ends, after at most `1 + maxiter * n` evaluations, if `0 ≤ steplen < minimum_steplen * 2 ^ n`. -/
theorem C29_fit_ends (move : V → D → ℚ → V) (ev : V → Eval D L) (jump : V → V) (n : ℕ) (hn : 1 ≤ n) (fuel : ℕ) (hf : n ≤ fuel)
    (steplen ctol : ℚ) (maxiter jumpstart : ℕ) (smin : ℚ) (hs0 : 0 ≤ steplen) (hs : steplen < smin * 2 ^ n) (p : V) :
    let r := simpleFit move ev jump fuel steplen ctol maxiter jumpstart smin p
    r.out ≠ .unfinished ∧ r.evals ≤ 1 + maxiter * n := by
  unfold simpleFit
  generalize (if jumpstart = 0 then p else jump p) = p'
  simp only
  split
  · obtain ⟨i1, i2⟩ := simpleLoop_ends move ev ctol smin n hn fuel hf (maxiter - jumpstart) jumpstart p
      (ev p') steplen hs0 hs []
    refine ⟨i1, ?_⟩
    have : (maxiter - jumpstart) * n ≤ maxiter * n := Nat.mul_le_mul_right _ (by omega)
    show 1 + _ ≤ _
    omega
  · simp

/-- With the default arguments: at most 14 evaluations for each iteration. -/
example (move : V → D → ℚ → V) (ev : V → Eval D L) (p : V) (ctol : ℚ) (maxiter : ℕ) :
    (simpleFit move ev id 14 1 ctol maxiter 0 (1 / 10000) p).evals ≤ 1 + maxiter * 14 :=
  (C29_fit_ends move ev id 14 (by norm_num) 14 (le_refl _) 1 ctol maxiter 0 (1 / 10000) (by norm_num) (by norm_num) p).2

/-! ## `fit_bhhh` of the numba models -/

/-- The objective without penalties. -/
abbrev obj (e : Env V D L) (v : V) : Num L := (e.eval 0 0 v).ll

/-- Whatever the objective, penalties and settings: at the end - by return, exception - the parameters are those last passed to the
callback, or the initial ones if there was no call. -/
theorem fitLoop_pvals (e : Env V D L) (a : Args) (fuel n iter : ℕ) (v : Vars V D L) :
    (fitLoop e a fuel n iter v).pvals = lastOf v.p (fitLoop e a fuel n iter v).callbacks := by
  induction n generalizing iter v with
  | zero => rfl
  | succ n ih =>
    unfold fitLoop
    split
    · rfl
    · cases h : body e a fuel v with
      | next v' m => simp only [lastOf_cons]; exact ih _ _
      | _ => rfl

/-- C29: at the end of `fit_bhhh`, however it ends, the parameters are those last passed to the callback. -/
theorem C29_numba_pvals (e : Env V D L) (a : Args) (fuel : ℕ) (steplen : ℚ) (maxiter : ℕ) (i0 s0 : ℚ) (p : V) :
    (fitBhhh e a fuel steplen maxiter i0 s0 p).pvals = lastOf p (fitBhhh e a fuel steplen maxiter i0 s0 p).callbacks :=
  fitLoop_pvals e a fuel maxiter 0 _

omit [LinearOrder L] in
theorem advance_zero (e : Env V D L) (a : Args) (v : Vars V D L) (h : v.i = 0) (p : V) (prop : Eval D L) (s : ℚ) :
    advance e a v p prop s = ({ v with p, cur := prop, s, steps := v.steps ++ [s] }, 0) := by
  simp [advance, h]

theorem mem_lastSteps {m : ℕ} {steps : List ℚ} {x : ℚ} (h : x ∈ lastSteps m steps) : x ∈ steps := by
  unfold lastSteps at h
  split at h
  · exact h
  · exact List.mem_of_mem_drop h

theorem lastSteps_ne {m : ℕ} {steps : List ℚ} (h : steps ≠ []) : lastSteps m steps ≠ [] := by
  unfold lastSteps
  split
  · exact h
  · rw [Ne, List.drop_eq_nil_iff, not_le]
    have := List.length_pos_iff.2 h
    omega

theorem sum_ge (c : ℚ) (l : List ℚ) (h : ∀ x ∈ l, c ≤ x) : c * l.length ≤ l.sum := by
  induction l with
  | nil => simp
  | cons x l ih =>
    have h1 := h x (by simp)
    have h2 := ih (fun y hy => h y (by simp [hy]))
    simp only [List.length_cons, List.sum_cons, Nat.cast_succ]
    linarith

/-- Momentum keeps the step length between the minimum and the maximum. -/
theorem nextStep_ge (a : Args) (hmin : 0 < a.smin) (hmax : a.smin ≤ a.smax) (s : ℚ) (hs : a.smin ≤ s) (steps : List ℚ)
    (h : ∀ x ∈ steps, a.smin ≤ x) : a.smin ≤ nextStep a s steps := by
  unfold nextStep
  split
  · exact hs
  · rename_i hne
    refine le_min ?_ hmax
    have hpos : (0 : ℚ) < (lastSteps a.momentum steps).length := by
      exact_mod_cast List.length_pos_iff.2 (lastSteps_ne hne)
    rw [le_div_iff₀ hpos]
    have := sum_ge a.smin (lastSteps a.momentum steps) (fun x hx => h x (mem_lastSteps hx))
    nlinarith

theorem fitLoop_spec (e : Env V D L) (a : Args) (hsharp : ∀ s v, e.eval 0 s v = e.eval 0 0 v)
    (hmin : 0 < a.smin) (hmax : a.smin ≤ a.smax)
    (himp : ∀ v, absLe (e.eval 0 0 v).tol a.ctol = false → ∀ s, a.smin ≤ s → s < 2 * a.smin →
      Better (obj e) v (e.move v (e.eval 0 0 v).dir s))
    (fuel n iter : ℕ) (v : Vars V D L) (hi : v.i = 0) (hcur : v.cur = e.eval 0 0 v.p) (hs : a.smin ≤ v.s)
    (hsteps : ∀ x ∈ v.steps, a.smin ≤ x) :
    let r := fitLoop e a fuel n iter v
    Improving (obj e) (v.p :: r.callbacks) ∧ r.out ≠ .raised ∧
      ∀ f, r.out = .returned f → f.ll = obj e r.pvals ∧ f.iter = iter + r.callbacks.length ∧
        f.steps.length = v.steps.length + r.callbacks.length := by
  induction n generalizing iter v with
  | zero =>
    refine ⟨List.isChain_singleton _, by simp [fitLoop], ?_⟩
    rintro f ⟨⟩
    exact ⟨by simp [fitLoop, hcur], rfl, rfl⟩
  | succ n ih =>
    unfold fitLoop
    split
    · refine ⟨List.isChain_singleton _, by simp, ?_⟩
      rintro f ⟨⟩
      exact ⟨by simp [hcur], rfl, rfl⟩
    · rename_i hbr
      have htol : absLe (e.eval 0 0 v.p).tol a.ctol = false := by
        by_contra hc
        apply hbr
        simp only [Bool.not_eq_false] at hc
        simp [breaks, hi, hcur, hc]
      have hev : e.eval v.i v.sharp = e.eval 0 0 := by funext w; rw [hi]; exact hsharp _ _
      unfold body
      rw [hev]
      cases h : search (fun s => e.move v.p v.cur.dir s) (e.eval 0 0) (fun r => gt r.ll v.cur.ll) a.smin fuel
          (nextStep a v.s v.steps) with
      | none => simp only; exact ⟨List.isChain_singleton _, by simp, by rintro f ⟨⟩⟩
      | some t =>
        have hns := nextStep_ge a hmin hmax v.s hs v.steps hsteps
        obtain ⟨h1, -, -⟩ := search_spec _ _ _ _ h
        have hg : gt t.res.ll v.cur.ll = true := by
          refine search_success _ _ _ _ h hns fun s' hs1 hs2 => ?_
          rw [gt_iff, hcur]
          exact himp v.p htol s' hs1 hs2
        obtain ⟨-, -, hst⟩ := search_steplen _ _ _ _ h (by linarith)
        have hst := hst hns hg
        simp only [not_le_of_gt hg, Bool.false_eq_true, if_false, advance_zero e a v hi]
        have hb : Better (obj e) v.p t.pos := by
          rw [gt_iff, hcur, h1] at hg
          exact hg
        obtain ⟨i1, i2, i3⟩ := ih (iter + 1) { v with p := t.pos, cur := t.res, s := t.steplen, steps := v.steps ++ [t.steplen] }
          hi h1 hst (by simpa [or_imp, forall_and] using ⟨hsteps, hst⟩)
        refine ⟨improving_cons hb i1, i2, fun f hf => ?_⟩
        obtain ⟨j1, j2, j3⟩ := i3 f hf
        refine ⟨j1, ?_, ?_⟩
        · rw [j2]; simp only [List.length_cons]; omega
        · rw [j3]; simp only [List.length_cons, List.length_append, List.length_nil]; omega

/-- C29 for `fit_bhhh` without penalties, for an objective that is a number at the start and for which, wherever the search has not converged,
*short* steps (between one and two times the minimum length) in the proposed direction are improvements: each set of values passed
to the callback is strictly better than the one before, the search does not raise, the final values are not worse than the initial
ones, and a returned log likelihood is the one at the final values.
(Missing: objectives for which a line search can fail; for these see `C29_fails_worse`.  `hsharp`: without penalties the
sharpness has no effect on the evaluation.) -/
theorem C29_numba_partial (e : Env V D L) (a : Args) (hsharp : ∀ s v, e.eval 0 s v = e.eval 0 0 v)
    (hmin : 0 < a.smin) (hmax : a.smin ≤ a.smax)
    (himp : ∀ v, absLe (e.eval 0 0 v).tol a.ctol = false → ∀ s, a.smin ≤ s → s < 2 * a.smin →
      Better (obj e) v (e.move v (e.eval 0 0 v).dir s))
    (fuel : ℕ) (steplen : ℚ) (hs : a.smin ≤ steplen) (maxiter : ℕ) (s0 : ℚ) (p : V) (hp : obj e p ≠ none) :
    let r := fitBhhh e a fuel steplen maxiter 0 s0 p
    Improving (obj e) (p :: r.callbacks) ∧ r.out ≠ .raised ∧ NotWorse (obj e) p r.pvals ∧
      ∀ f, r.out = .returned f → f.ll = obj e r.pvals ∧ f.iter = r.callbacks.length ∧ f.steps.length = r.callbacks.length := by
  intro r
  obtain ⟨i1, i2, i3⟩ := fitLoop_spec e a hsharp hmin hmax himp fuel maxiter 0
    { p, i := 0, sharp := s0, cur := e.eval 0 s0 p, curPen := e.penalty 0 s0 p, s := steplen, steps := [] } rfl (hsharp _ _) hs
    (by simp)
  refine ⟨i1, i2, ?_, fun f hf => ?_⟩
  · show NotWorse _ p (fitBhhh e a fuel steplen maxiter 0 s0 p).pvals
    rw [C29_numba_pvals]
    exact improving_notWorse i1 hp
  · obtain ⟨j1, j2, j3⟩ := i3 f hf
    simp only [List.length_nil, Nat.zero_add] at j2 j3
    exact ⟨j1, j2, j3⟩

theorem nextStep_le (a : Args) (s b : ℚ) (hs : s ≤ b) (hmax : a.smax ≤ b) (steps : List ℚ) : nextStep a s steps ≤ b := by
  unfold nextStep
  split
  · exact hs
  · exact (min_le_right _ _).trans hmax

theorem nextStep_nonneg (a : Args) (s : ℚ) (hs : 0 ≤ s) (hmax : 0 ≤ a.smax) (steps : List ℚ) (h : ∀ x ∈ steps, 0 ≤ x) :
    0 ≤ nextStep a s steps := by
  unfold nextStep
  split
  · exact hs
  · refine le_min (div_nonneg (mul_nonneg (by norm_num) (List.sum_nonneg fun x hx => h x (mem_lastSteps hx))) (by positivity)) hmax

theorem body_zero (e : Env V D L) (a : Args) (m : ℕ) (hm : 1 ≤ m) (fuel : ℕ) (hf : m ≤ fuel) (v : Vars V D L) (hi : v.i = 0)
    (hpen : v.curPen = 0) (hs0 : 0 ≤ v.s) (hx0 : 0 ≤ a.smax) (b : ℚ) (hb : b < a.smin * 2 ^ m) (hs : v.s ≤ b) (hmax : a.smax ≤ b)
    (hsteps : ∀ x ∈ v.steps, 0 ≤ x) :
    match body e a fuel v with
    | .unfinished => False
    | .raise k => k ≤ m
    | .stop _ k => k ≤ m
    | .next v' k => k ≤ m ∧ v'.i = 0 ∧ v'.curPen = 0 ∧ 0 ≤ v'.s ∧ v'.s ≤ b ∧ ∀ x ∈ v'.steps, 0 ≤ x := by
  have hn0 := nextStep_nonneg a v.s hs0 hx0 v.steps hsteps
  have hnb := nextStep_le a v.s b hs hmax v.steps
  obtain ⟨t, ht, hte⟩ := search_total (fun s => e.move v.p v.cur.dir s) (e.eval v.i v.sharp) (fun r => gt r.ll v.cur.ll) a.smin m hm hf
    (lt_of_le_of_lt hnb hb)
  obtain ⟨l1, l2, -⟩ := search_steplen _ _ _ _ ht hn0
  have hpen' : ¬ (1 / 100 < |v.curPen|) := by rw [hpen]; norm_num
  unfold body
  simp only [ht, hpen', if_false, advance_zero e a v hi]
  have hst : ∀ x ∈ v.steps ++ [t.steplen], 0 ≤ x := by simpa [or_imp, forall_and] using ⟨hsteps, l2⟩
  split <;> rename_i heq <;> split at heq
  all_goals (try split at heq)
  all_goals (try split at heq)
  all_goals simp only [Pass.next.injEq, Pass.raise.injEq, Pass.stop.injEq, reduceCtorEq] at heq
  all_goals (obtain ⟨rfl, rfl⟩ := heq; first | exact hte | exact ⟨by omega, hi, hpen, l2, l1.trans hnb, hst⟩)

/-- C29: `fit_bhhh` without penalties ends, after at most `1 + maxiter * n` evaluations, if step lengths stay below
`minimum_steplen * 2 ^ n`. -/
theorem C29_numba_ends (e : Env V D L) (a : Args) (n : ℕ) (hn : 1 ≤ n) (fuel : ℕ) (hf : n ≤ fuel) (steplen : ℚ) (hs0 : 0 ≤ steplen)
    (hx0 : 0 ≤ a.smax) (hs : steplen < a.smin * 2 ^ n) (hmax : a.smax < a.smin * 2 ^ n) (maxiter : ℕ) (s0 : ℚ) (p : V) :
    let r := fitBhhh e a fuel steplen maxiter 0 s0 p
    r.out ≠ .unfinished ∧ r.evals ≤ 1 + maxiter * n := by
  have key : ∀ (k iter : ℕ) (v : Vars V D L), v.i = 0 → v.curPen = 0 → 0 ≤ v.s → v.s ≤ max steplen a.smax → (∀ x ∈ v.steps, 0 ≤ x) →
      (fitLoop e a fuel k iter v).out ≠ .unfinished ∧ (fitLoop e a fuel k iter v).evals ≤ k * n := by
    intro k
    induction k with
    | zero => intro iter v _ _ _ _ _; simp [fitLoop]
    | succ k ih =>
      intro iter v h1 h2 h3 h4 h5
      have hb := body_zero e a n hn fuel hf v h1 h2 h3 hx0 (max steplen a.smax) (max_lt hs hmax) h4 (le_max_right _ _) h5
      unfold fitLoop
      split
      · simp
      · cases h : body e a fuel v with
        | unfinished => rw [h] at hb; exact hb.elim
        | raise m =>
          rw [h] at hb
          simp only at hb
          refine ⟨by simp, ?_⟩
          show m ≤ _
          rw [Nat.succ_mul]; omega
        | stop tol m =>
          rw [h] at hb
          simp only at hb
          refine ⟨by simp, ?_⟩
          show m ≤ _
          rw [Nat.succ_mul]; omega
        | next v' m =>
          rw [h] at hb
          obtain ⟨b0, b1, b2, b3, b4, b5⟩ := hb
          obtain ⟨j1, j2⟩ := ih (iter + 1) v' b1 b2 b3 b4 b5
          refine ⟨j1, ?_⟩
          show m + _ ≤ _
          rw [Nat.succ_mul]; omega
  obtain ⟨k1, k2⟩ := key maxiter 0
    { p, i := 0, sharp := s0, cur := e.eval 0 s0 p, curPen := e.penalty 0 s0 p, s := steplen, steps := [] } rfl
    (by simp [Env.penalty]) hs0 (le_max_left _ _) (by simp)
  refine ⟨k1, ?_⟩
  show 1 + _ ≤ _
  omega


/-! ## The hypotheses are met, and where the property fails -/

/-- One parameter, objective `-x²`, direction `-x` (which is what Newton's method proposes), tolerance `2x²`. -/
def parabola : Env ℚ ℚ ℚ where
  move p d s := p + d * s
  eval _ _ x := ⟨some (-(x * x)), -x, some (2 * x * x)⟩
  pen _ _ _ := 0
  violated _ := false
  cct _ _ _ := none

theorem parabola_improves (x s : ℚ) (hx : x ≠ 0) (h0 : 0 < s) (h1 : s < 1) :
    Better (fun x : ℚ => some (-(x * x))) x (x + -x * s) := by
  refine ⟨_, _, rfl, rfl, ?_⟩
  have : 0 < x * x := mul_self_pos.2 hx
  have h2 : (x + -x * s) * (x + -x * s) = (x * x) * ((1 - s) * (1 - s)) := by ring
  rw [h2]
  have h3 : (1 - s) * (1 - s) < 1 := by nlinarith
  nlinarith

/-- `C29_numba_partial` applies to it with the default arguments, and steps are made. -/
example : ∀ v : ℚ, absLe (parabola.eval 0 0 v).tol ({} : Args).ctol = false → ∀ s, ({} : Args).smin ≤ s → s < 2 * ({} : Args).smin →
    Better (obj parabola) v (parabola.move v (parabola.eval 0 0 v).dir s) := by
  intro v hv s h1 h2
  refine parabola_improves v s ?_ (by simp only at h1; linarith) (by simp only at h2; linarith)
  rintro rfl
  simp [parabola, absLe] at hv

example : (fitBhhh parabola {} 14 (1 / 2) 3 0 0 8).out = .returned ⟨some 0, some 0, 2, [1 / 2, 1]⟩ ∧
    (fitBhhh parabola {} 14 (1 / 2) 3 0 0 8).callbacks = [4, 0] := by decide +kernel

example : (simpleFit (fun p d s : ℚ => p + d * s) (parabola.eval 0 0) id 14 (1 / 2) (1 / 100) 3 0 (1 / 10000) 8).callbacks = [4, 2, 1] := by
  decide +kernel

example : simpleStep (fun p d s : ℚ => p + d * s) (parabola.eval 0 0) (fun x => some (-(x * x))) 7 4 3 = (.returned (some 0, some 18), 0) := by
  decide +kernel

/-- Objective `-1000 x²`, with its true gradient `-2000 x`, and a BHHH matrix that is small (`1/10`) on one side of the maximum and
larger (`7/4`) on the other.  There are no constraints; the convergence tolerance is the one the code computes with 100 cases. -/
def steep : Env ℚ ℚ ℚ where
  move p d s := p + d * s
  eval _ _ x := let b := if 0 < x then 1 / 10 else 7 / 4
    ⟨some (-1000 * (x * x)), -2000 * x / b, some (2000 * x * (2000 * x) / b)⟩
  pen _ _ _ := 0
  violated _ := false
  cct _ _ x := let b := if 0 < x then 1 / 10 else 7 / 4
    some (2000 * x * (2000 * x) / b - 100)

/-- C29 fails: on a concave objective, `fit_bhhh` with default arguments and two iterations moves the parameter from 1 to a point where the
objective is *lower*, and returns normally.  After the first, failed, line search the values are restored, but the log likelihood and
direction of the last failed trial are kept. -/
theorem C29_fails_worse :
    (fitBhhh steep {} 14 1 2 0 0 1).out = .returned ⟨some (-9487600125125 / 6576668672), some (5929750078203125 / 102760448), 2, [1 / 16384, 1 / 8192]⟩ ∧
    (fitBhhh steep {} 14 1 2 0 0 1).pvals = 275501 / 229376 ∧
    Better (obj steep) (275501 / 229376) 1 := by
  refine ⟨by decide +kernel, by decide +kernel, _, _, rfl, rfl, by decide +kernel⟩

/-- C29 fails: after one iteration the log likelihood that `fit_bhhh` returns is not the one at the final values. -/
theorem C29_fails_reported :
    ∃ f, (fitBhhh steep {} 14 1 1 0 0 1).out = .returned f ∧ f.ll = some (-17020125 / 8192) ∧
      (fitBhhh steep {} 14 1 1 0 0 1).pvals = 1 ∧ obj steep 1 = some (-1000) := by
  refine ⟨⟨some (-17020125 / 8192), some (2127515625 / 448), 1, [1 / 16384]⟩, ?_, rfl, ?_, ?_⟩ <;>
    decide +kernel

/-- C29 fails with an objective that is NaN away from the start: all three methods accept a NaN as an improvement. -/
theorem C29_fails_nan :
    let ev : ℚ → Eval ℚ ℚ := fun x => if x = 0 then ⟨some (-5), 1, some 1⟩ else ⟨none, 0, none⟩
    let mv : ℚ → ℚ → ℚ → ℚ := fun p d s => p + d * s
    simpleStep mv ev (fun x => (ev x).ll) 7 1 0 = (.returned (none, some 1), 1 / 64) ∧
    (simpleFit mv ev id 14 1 (1 / 10000) 100 0 (1 / 10000) 0).out = .returned ⟨none, none, 1, [1 / 16384]⟩ ∧
    (simpleFit mv ev id 14 1 (1 / 10000) 100 0 (1 / 10000) 0).pvals = 1 / 8192 ∧
    (fitBhhh ⟨mv, fun _ _ => ev, fun _ _ _ => 0, fun _ => false, fun _ _ _ => none⟩ {} 14 1 1 0 0 0).out =
      .returned ⟨none, none, 1, [1 / 16384]⟩ ∧
    (fitBhhh ⟨mv, fun _ _ => ev, fun _ _ _ => 0, fun _ => false, fun _ _ _ => none⟩ {} 14 1 1 0 0 0).pvals = 1 / 8192 := by
  decide +kernel

/-- C29 fails with jumpstart: the jump is not checked, so the values can end worse than at the start (here with as many iterations as
jumps); and after a jump to better values, a failing search puts back the values from *before the jump*. -/
theorem C29_fails_jumpstart :
    let mv : ℚ → ℚ → ℚ → ℚ := fun p d s => p + d * s
    ((simpleFit mv (parabola.eval 0 0) (fun p => p + 5) 14 1 (1 / 10000) 1 1 (1 / 10000) 0).out = .returned ⟨some (-25), some 50, 1, []⟩ ∧
      (simpleFit mv (parabola.eval 0 0) (fun p => p + 5) 14 1 (1 / 10000) 1 1 (1 / 10000) 0).pvals = 5) ∧
    ((simpleFit mv (parabola.eval 0 0) (fun p => p / 2) 14 1 (1 / 10000) 100 1 (1 / 10000) 8).out = .raised ∧
      (simpleFit mv (parabola.eval 0 0) (fun p => p / 2) 14 1 (1 / 10000) 100 1 (1 / 10000) 8).pvals = 8) := by
  decide +kernel

/-- C29 fails for `simple_step_bhhh` on a selection of the cases: a step that takes the selection to its maximum is refused, because the
log likelihood of the selection before is compared with that of *all* cases after. -/
theorem C29_fails_selection :
    let mv : ℚ → ℚ → ℚ → ℚ := fun p d s => p + d * s
    let sub : ℚ → Eval ℚ ℚ := fun x => ⟨some (-(x * x) - 1), -x, some (2 * x * x)⟩
    let full : ℚ → Num ℚ := fun x => some (-(2 * x * x) - 20)
    simpleStep mv sub full 7 1 3 = (.raised, 3) ∧ Better (fun x => (sub x).ll) 3 (mv 3 (sub 3).dir 1) ∧ Better full 3 (mv 3 (sub 3).dir 1) := by
  refine ⟨by decide +kernel, ⟨_, _, rfl, rfl, by decide +kernel⟩, ⟨_, _, rfl, rfl, by decide +kernel⟩⟩

end Larch.Props
