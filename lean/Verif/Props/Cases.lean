import Verif.Lemmas.Cases
import Verif.Spec.Cases
import Mathlib.Tactic.NormNum
import Mathlib.Tactic.Push
import Mathlib.Algebra.BigOperators.Ring.Finset

/-!
# C31, C32: case slices and cross-validation folds
-/

namespace Larch.Props

open Larch.Cases Larch.Spec

/-- **C31 (cases).** With a positive step the loop visits, in increasing order and each once, exactly the cases
`start, start+step, … < stop`, `stop` being `n_cases` when the argument is negative. -/
theorem C31_visits (nCases : Nat) (r : Req) (hs : 0 < r.step) :
    (∀ c, c ∈ pyRange r.start (effStop nCases r) r.step ↔
      InSlice r.start (if r.stop < 0 then nCases else r.stop) r.step c) ∧
    (pyRange r.start (effStop nCases r) r.step).Pairwise (· < ·) := by
  exact ⟨fun c => mem_range hs c, range_sorted hs⟩

/-- **C31 (storage).** The number of storage rows is the number of visited cases and the row of the `i`-th visited
case is `i` (for any slice that does not start more than a step beyond its end). -/
theorem C31_storage (nCases : Nat) (r : Req) (hs : 0 < r.step) (hb : r.start < effStop nCases r + r.step) :
    ((pyRange r.start (effStop nCases r) r.step).length : Int) = nLocal nCases r ∧
    (∀ (i : Nat) (c : Int), (pyRange r.start (effStop nCases r) r.step)[i]? = some c → cLocal r c = i) ∧
    (∀ c ∈ pyRange r.start (effStop nCases r) r.step, 0 ≤ cLocal r c ∧ cLocal r c < nLocal nCases r) ∧
    (∀ c ∈ pyRange r.start (effStop nCases r) r.step, ∀ c' ∈ pyRange r.start (effStop nCases r) r.step,
      cLocal r c = cLocal r c' → c = c') := by
  have hlen := pyRange_length hs _ r.start (le_refl (effStop nCases r - r.start).toNat) hb
  refine ⟨hlen, fun i c h => cLocal_get hs h, ?_, fun c hc c' hc' he => cLocal_inj hs hc hc' he⟩
  intro c hc
  obtain ⟨i, hi, rfl⟩ := List.mem_iff_getElem.mp hc
  have := cLocal_get (r := r) hs (List.getElem?_eq_getElem hi)
  rw [this]
  refine ⟨by positivity, ?_⟩
  unfold nLocal
  simp only
  rw [← hlen]
  exact_mod_cast hi

example : pyRange 3 11 3 = [3, 6, 9] ∧ nLocal 20 ⟨3, 11, 3, -1, -1, -1⟩ = 3 := by
  refine ⟨?_, by decide⟩
  rw [pyRange_step (by decide) (by decide), pyRange_step (by decide) (by decide), pyRange_step (by decide) (by decide),
    pyRange_nil (by decide)]
  norm_num

theorem skips_iff {r : Req} (hk : 0 < r.subsample ∨ (r.leaveOut < 0 ∧ r.keepOnly < 0)) (c : Int) :
    skips r c = false ↔ KeptBy r.leaveOut r.keepOnly r.subsample c := by
  unfold skips KeptBy
  rcases hk with hk | ⟨h1, h2⟩
  · rw [Int.fmod_eq_emod_of_nonneg _ hk.le]
    by_cases h1 : 0 ≤ r.leaveOut <;> by_cases h2 : 0 ≤ r.keepOnly <;> simp [h1, h2]
  · have h1' : ¬ 0 ≤ r.leaveOut := by omega
    have h2' : ¬ 0 ≤ r.keepOnly := by omega
    simp [h1', h2']

/-- **C31 (results, any schedule).** However the parallel loop distributes and orders the cases over the threads,
the driver returns normally, the log likelihood and gradient are the sums over exactly the selected cases, and the
casewise array holds, in the row of each visited case, that case's value if selected and zero if not. -/
theorem C31_any_schedule (nThreads nCases : Nat) (r : Req) (hs : 0 < r.step)
    (hk : 0 < r.subsample ∨ (r.leaveOut < 0 ∧ r.keepOnly < 0)) (norm : ℝ)
    (f : Int → ℝ) (g : Int → Nat → ℝ) (sched : List (Nat × Int)) (hsch : Schedule nThreads nCases r sched) :
    ∃ res, drive nThreads r true norm f g sched = .ok res ∧
      res.ll = sliceSum r.start (if r.stop < 0 then nCases else r.stop) r.step r.leaveOut r.keepOnly r.subsample f
        * norm ∧
      (∀ p, res.dll p = sliceSum r.start (if r.stop < 0 then nCases else r.stop) r.step r.leaveOut r.keepOnly
        r.subsample (fun c => g c p) * norm) ∧
      (∀ (i : Nat) (c : Int), (pyRange r.start (effStop nCases r) r.step)[i]? = some c →
        (KeptBy r.leaveOut r.keepOnly r.subsample c → res.llCasewise i = f c) ∧
        (¬ KeptBy r.leaveOut r.keepOnly r.subsample c → res.llCasewise i = 0)) := by
  classical
  obtain ⟨hperm, hthr⟩ := hsch
  have key : ∀ h : Int → ℝ, (((sched.map Prod.snd).filter (fun c => !skips r c)).map h).sum =
      sliceSum r.start (if r.stop < 0 then nCases else r.stop) r.step r.leaveOut r.keepOnly r.subsample h := by
    intro h
    rw [((hperm.filter _).map h).sum_eq, sum_list_eq_finset hs]
    unfold sliceSum
    apply Finset.sum_congr _ (fun _ _ => rfl)
    ext c
    rw [Finset.mem_filter, Finset.mem_filter]
    simp only [Finset.mem_Ico, InSlice, effStop]
    have := skips_iff hk c
    constructor
    · rintro ⟨h1, h2, h3⟩
      refine ⟨h1, ⟨h1.1, h1.2, h2⟩, this.mp ?_⟩
      simpa using h3
    · rintro ⟨h1, h2, h3⟩
      refine ⟨h1, h2.2.2, ?_⟩
      simpa using this.mpr h3
  refine ⟨_, by rw [drive, if_neg (by omega)], ?_, ?_, ?_⟩
  · simp only [foldl_ll, Acc.zero, zero_add, key]
  · intro p
    simp only [foldl_dll r true f g p nThreads sched hthr, key (fun c => g c p), Acc.zero]
    simp
  · intro i c hc
    simp only [foldl_case, Acc.zero, zero_add]
    have hcl := cLocal_get hs hc
    have hmem : c ∈ pyRange r.start (effStop nCases r) r.step := List.mem_of_getElem? hc
    have hnd : (pyRange r.start (effStop nCases r) r.step).Nodup := (range_sorted hs).imp (fun h => ne_of_lt h)
    rw [((hperm.filter _).map f).sum_eq]
    have hfil : ∀ (l : List Int), (∀ x ∈ l, x ∈ pyRange r.start (effStop nCases r) r.step) → l.Nodup →
        ((l.filter (fun c' => !skips r c' && decide (cLocal r c' = i))).map f).sum =
          if c ∈ l ∧ skips r c = false then f c else 0 := by
      intro l
      induction l with
      | nil => simp
      | cons a l ih =>
        intro hl hn
        have ih' := ih (fun x hx => hl x (List.mem_cons_of_mem _ hx)) (List.nodup_cons.mp hn).2
        by_cases hac : a = c
        · subst hac
          have hnot : a ∉ l := (List.nodup_cons.mp hn).1
          rw [List.filter_cons]
          by_cases hsk : skips r a
          · simp [hsk] at ih' ⊢; exact ih'
          · simp [hsk, hnot] at ih' ⊢
            simp [hcl]
            exact ih'
        · have hne : ¬ cLocal r a = i := by
            intro he
            exact hac (cLocal_inj hs (hl a List.mem_cons_self) hmem (he.trans hcl.symm))
          rw [List.filter_cons]
          simp only [hne, decide_false, Bool.and_false, Bool.false_eq_true, if_false, ih', List.mem_cons, Ne.symm hac,
            false_or]
    rw [hfil _ (fun _ h => h) hnd]
    have := skips_iff hk c
    constructor
    · intro hkept
      rw [if_pos ⟨hmem, this.mpr hkept⟩]
    · intro hn
      rw [if_neg]
      rintro ⟨_, h⟩
      exact hn (this.mp h)

/-- Hypotheses met: a two-thread schedule out of order. -/
example : Schedule 2 20 ⟨3, 11, 3, -1, -1, -1⟩ [(1, 9), (0, 3), (1, 6)] := by
  constructor
  · simp only [effStop]
    rw [show pyRange 3 (if (11 : Int) < 0 then ((20 : Nat) : Int) else 11) 3 = [3, 6, 9] by
      rw [if_neg (by decide), pyRange_step (by decide) (by decide), pyRange_step (by decide) (by decide),
        pyRange_step (by decide) (by decide), pyRange_nil (by decide)]
      norm_num]
    decide
  · decide

/-- **C31.** A non-positive step is rejected. -/
theorem C31_step_rejected (nThreads : Nat) (r : Req) (hs : r.step ≤ 0) (persist : Bool) (norm : ℝ)
    (f : Int → ℝ) (g : Int → Nat → ℝ) (sched : List (Nat × Int)) :
    drive nThreads r persist norm f g sched = .error "NotImplementedError" := by
  simp [drive, hs]

/-- **C31 violated (range not checked).** A `stop_case` beyond the number of cases is used as given, so rows that do
not exist are visited (the array accesses are compiled with `boundscheck(False)`). -/
theorem C31_fails_stop_beyond_end (nCases k : Nat) (hk : 0 < k) :
    ((nCases : Int) ∈ pyRange 0 (effStop nCases ⟨0, nCases + k, 1, -1, -1, -1⟩) 1) := by
  rw [mem_range (by decide)]
  simp only [effStop]
  rw [if_neg (by omega)]
  exact ⟨by omega, by omega, one_dvd _⟩

/-- **C31 violated (documented negative stop).** The documentation says negative `stop_case` values count backward from
the end; the compiled drivers treat every negative value as "all": `stop_case=-k` still visits the last case. -/
theorem C31_fails_negative_stop (nCases : Nat) (hn : 0 < nCases) (stop : Int) (hstop : stop < 0) :
    (nCases : Int) - 1 ∈ pyRange 0 (effStop nCases ⟨0, stop, 1, -1, -1, -1⟩) 1 := by
  rw [mem_range (by decide)]
  simp only [effStop, hstop, if_true]
  exact ⟨by omega, by omega, one_dvd _⟩

/-- **C31 (numba).** For bounds between 0 and the number of cases the numba slice selects the same cases as the
compiled drivers. -/
theorem C31_numba_agrees (n : Nat) (a b s : Int) (ha : 0 ≤ a) (han : a ≤ n) (hb : 0 ≤ b) (hbn : b ≤ n) :
    numbaCases n (some a) (some b) (some s) = pyRange a (effStop n ⟨a, b, s, -1, -1, -1⟩) s := by
  simp only [numbaCases, Option.map_some, Option.getD_some, clampBound, effStop]
  rw [if_neg (by omega), if_neg (by omega), if_neg (by omega), min_eq_left han, min_eq_left hbn]

/-- **C31 (numba).** Every numba slice with positive step selects existing cases only. -/
theorem C31_numba_in_range (n : Nat) (a b s : Option Int) (hs : 0 < s.getD 1) (c : Int)
    (hc : c ∈ numbaCases n a b s) : 0 ≤ c ∧ c < n := by
  unfold numbaCases at hc
  obtain ⟨h1, h2, _⟩ := (mem_range hs c).mp hc
  constructor
  · refine le_trans ?_ h1
    cases a with
    | none => simp
    | some a => simp only [Option.map_some, Option.getD_some, clampBound]; split <;> omega
  · refine lt_of_lt_of_le h2 ?_
    cases b with
    | none => simp
    | some b => simp only [Option.map_some, Option.getD_some, clampBound]; split <;> omega

/-- **C31 violated (numba, documented default).** `loglike(stop_case=-1)` is documented to include all cases; in the numba
model the last case is left out. -/
theorem C31_numba_fails_stop_minus_one (n : Nat) (hn : 0 < n) :
    (n : Int) - 1 ∈ numbaCases n none none none ∧ (n : Int) - 1 ∉ numbaCases n none (some (-1)) none := by
  constructor
  · unfold numbaCases
    rw [mem_range (by decide)]
    simp; omega
  · unfold numbaCases
    rw [mem_range (by decide)]
    simp [clampBound]; omega

/-! ## C47 -/

/-- **C47 (numba).** The casewise log likelihoods returned by the numba model (`larch/numba/model.py:1505-1518`: each
times the weight normalization) add up to the log likelihood. -/
theorem C47_numba_casewise_sum (n : Nat) (norm : ℝ) (f : Int → ℝ) (start stop step : Option Int) :
    ((numbaCases n start stop step).map (fun c => f c * norm)).sum =
      numbaLoglike n norm f start stop step (-1) (-1) (-1) := by
  unfold numbaLoglike
  generalize numbaCases n start stop step = l
  induction l with
  | nil => simp
  | cons a l ih => simp [ih]; ring

/-- **C47 (compiled, partial).** In the compiled drivers the rows of `ll_casewise` add up to the log likelihood *before*
weight normalization: the normalization is applied to `ll` and `dll` but not to `ll_casewise`. -/
theorem C47_compiled_casewise_sum_partial (nThreads nCases : Nat) (norm : ℝ) (f : Int → ℝ) (g : Int → Nat → ℝ)
    (sched : List (Nat × Int)) (hsch : Schedule nThreads nCases ⟨0, -1, 1, -1, -1, -1⟩ sched) :
    ∃ res, drive nThreads ⟨0, -1, 1, -1, -1, -1⟩ true norm f g sched = .ok res ∧
      (∑ i ∈ Finset.range nCases, res.llCasewise i) * norm = res.ll := by
  classical
  obtain ⟨res, h1, h2, _, h4⟩ := C31_any_schedule nThreads nCases ⟨0, -1, 1, -1, -1, -1⟩ (by decide)
    (Or.inr ⟨by decide, by decide⟩) norm f g sched hsch
  refine ⟨res, h1, ?_⟩
  rw [h2]
  congr 1
  simp only [if_pos (show (-1 : Int) < 0 by decide)]
  have hlen : ((pyRange 0 (effStop nCases ⟨0, -1, 1, -1, -1, -1⟩) 1).length) = nCases := by
    have := (C31_storage nCases ⟨0, -1, 1, -1, -1, -1⟩ (by decide) (by simp [effStop])).1
    simp [nLocal, effStop] at this
    simpa [effStop] using this
  have hget : ∀ i : Nat, i < nCases → res.llCasewise i = f i := by
    intro i hi
    have hi' : i < (pyRange 0 (effStop nCases ⟨0, -1, 1, -1, -1, -1⟩) 1).length := by omega
    have hv := pyRange_get (b := effStop nCases ⟨0, -1, 1, -1, -1, -1⟩) (s := 1) (by decide) i 0 _
      (List.getElem?_eq_getElem hi')
    have := (h4 i _ (List.getElem?_eq_getElem hi')).1 (by simp [KeptBy])
    rw [this, hv]; simp
  rw [Finset.sum_congr rfl (fun i hi => hget i (Finset.mem_range.mp hi))]
  unfold sliceSum
  have e0 : (Finset.Ico (0 : Int) nCases).filter (fun c => InSlice 0 nCases 1 c ∧ KeptBy (-1) (-1) (-1) c) =
      Finset.Ico (0 : Int) nCases := by
    ext c; simp [InSlice, KeptBy]
  rw [e0]
  refine Finset.sum_nbij' (fun i : Nat => (i : Int)) Int.toNat ?_ ?_ ?_ ?_ ?_
  · intro i hi; simp at hi ⊢; exact hi
  · intro c hc; simp at hc ⊢; omega
  · intro i _; simp
  · intro c hc; simp at hc ⊢; exact hc.1
  · intro i _; rfl

/-- **C47 violated (compiled).** One case of log likelihood -1 with weight normalization 2: `ll = -2` but the casewise
array adds up to -1. -/
theorem C47_fails_compiled :
    ∃ (sched : List (Nat × Int)) (res : Result), Schedule 1 1 ⟨0, -1, 1, -1, -1, -1⟩ sched ∧
      drive 1 ⟨0, -1, 1, -1, -1, -1⟩ true 2 (fun _ => -1) (fun _ _ => 0) sched = .ok res ∧
      res.ll ≠ ∑ i ∈ Finset.range 1, res.llCasewise i := by
  refine ⟨[(0, 0)], ?_⟩
  have hs : Schedule 1 1 ⟨0, -1, 1, -1, -1, -1⟩ [(0, 0)] := by
    constructor
    · rw [show pyRange 0 (effStop 1 ⟨0, -1, 1, -1, -1, -1⟩) 1 = [0] by
        rw [show effStop 1 ⟨0, -1, 1, -1, -1, -1⟩ = 1 by rfl, pyRange_step (by decide) (by decide),
          pyRange_nil (by decide)]]
      rfl
    · decide
  obtain ⟨res, h1, h2⟩ := C47_compiled_casewise_sum_partial 1 1 2 (fun _ => -1) (fun _ _ => 0) _ hs
  refine ⟨res, hs, h1, ?_⟩
  rw [← h2]
  intro h
  have hz : (∑ i ∈ Finset.range 1, res.llCasewise i) = 0 := by linarith
  have hl : res.ll = 0 := by rw [← h2, hz]; ring
  have : res.ll = -2 := by
    have e := Except.ok.inj h1
    rw [← e]
    simp [turn, skips, Acc.zero]
  rw [hl] at this; norm_num at this

/-! ## C32 -/

/-- **C32 (partition).** For `cv` folds every case is kept by exactly one `keep_only` fold, and `leave_out = i` keeps
exactly the cases that `keep_only = i` drops. -/
theorem C32_partition (cv : Nat) (hcv : 0 < cv) (c : Int) :
    (∃! i : Nat, i < cv ∧ skips ⟨0, -1, 1, -1, i, cv⟩ c = false) ∧
    ∀ i : Nat, skips ⟨0, -1, 1, i, -1, cv⟩ c = !skips ⟨0, -1, 1, -1, i, cv⟩ c := by
  have hcv' : (0 : Int) < cv := by exact_mod_cast hcv
  have hf : c.fmod cv = c % cv := Int.fmod_eq_emod_of_nonneg _ hcv'.le
  have h0 := Int.emod_nonneg c hcv'.ne'
  have h1 := Int.emod_lt_of_pos c hcv'
  constructor
  · refine ⟨(c % cv).toNat, ⟨by omega, ?_⟩, ?_⟩
    · simp only [skips, hf]; simp; omega
    · rintro i ⟨_, hi⟩
      simp only [skips, hf] at hi
      simp at hi
      omega
  · intro i
    simp only [skips]
    simp

/-- **C32 (log likelihoods add up).** With parameters fixed, the fold log likelihoods add up to the full one, under any
schedule of each evaluation. -/
theorem C32_folds_add_up (nThreads nCases cv : Nat) (hcv : 0 < cv) (norm : ℝ) (f : Int → ℝ) (g : Int → Nat → ℝ)
    (ll : Int → ℝ) (full : Result) (sched : Nat → List (Nat × Int)) (sched0 : List (Nat × Int))
    (h0 : Schedule nThreads nCases ⟨0, -1, 1, -1, -1, -1⟩ sched0)
    (hfull : drive nThreads ⟨0, -1, 1, -1, -1, -1⟩ true norm f g sched0 = .ok full)
    (hsched : ∀ i : Nat, Schedule nThreads nCases ⟨0, -1, 1, -1, i, cv⟩ (sched i))
    (hll : ∀ i : Nat, ∃ res, drive nThreads ⟨0, -1, 1, -1, i, cv⟩ true norm f g (sched i) = .ok res ∧ ll i = res.ll) :
    ((List.range cv).map (fun i => ll (i : Nat))).sum = full.ll := by
  classical
  obtain ⟨res0, hr0, hv0, _⟩ := C31_any_schedule nThreads nCases ⟨0, -1, 1, -1, -1, -1⟩ (by decide)
    (Or.inr ⟨by decide, by decide⟩) norm f g sched0 h0
  rw [hfull] at hr0
  cases hr0
  rw [hv0]
  have hi : ∀ i : Nat, ll i = sliceSum 0 nCases 1 (-1) i cv f * norm := by
    intro i
    obtain ⟨res, h1, h2⟩ := hll i
    obtain ⟨res', h1', h2', _⟩ := C31_any_schedule nThreads nCases ⟨0, -1, 1, -1, i, cv⟩ (by norm_num)
      (Or.inl (by simpa using hcv)) norm f g (sched i) (hsched i)
    rw [h1] at h1'
    cases h1'
    rw [h2, h2']; simp
  simp_rw [hi]
  rw [list_sum_range, ← Finset.sum_mul]
  congr 1
  have hcv' : (0 : Int) < cv := by exact_mod_cast hcv
  simp only [if_pos (show (-1 : Int) < 0 by decide)]
  unfold sliceSum
  have e0 : (Finset.Ico (0 : Int) nCases).filter (fun c => InSlice 0 nCases 1 c ∧ KeptBy (-1) (-1) (-1) c) =
      Finset.Ico (0 : Int) nCases := by
    ext c; simp [InSlice, KeptBy]
  rw [e0]
  have e1 : ∀ i : Nat, (Finset.Ico (0 : Int) nCases).filter (fun c => InSlice 0 nCases 1 c ∧ KeptBy (-1) i cv c) =
      (Finset.Ico (0 : Int) nCases).filter (fun c => (c % (cv : Int)).toNat = i) := by
    intro i
    ext c
    have h0 := Int.emod_nonneg c hcv'.ne'
    simp [InSlice, KeptBy]
    omega
  simp_rw [e1]
  rw [← Finset.sum_fiberwise_of_maps_to (s := Finset.Ico (0 : Int) nCases) (t := Finset.range cv)
    (g := fun c : Int => (c % (cv : Int)).toNat)]
  intro c _
  have h0 := Int.emod_nonneg c hcv'.ne'
  have h1 := Int.emod_lt_of_pos c hcv'
  simp; omega

/-- **C32 (cross validation).** When the log likelihood honours `keep_only`, the cross-validated value scores every case
exactly once, at the parameters estimated without that case's fold. -/
theorem C32_cross_validate {Θ : Type} (nCases cv : Nat) (hcv : 0 < cv) (fit : Nat → Θ) (f : Θ → Int → ℝ)
    (loglike : Θ → Int → Int → ℝ)
    (hll : ∀ θ (i : Nat), loglike θ i cv = sliceSum 0 nCases 1 (-1) i cv (f θ)) :
    crossValidate cv fit loglike =
      ∑ c ∈ Finset.Ico (0 : Int) nCases, f (fit (c % (cv : Int)).toNat) c := by
  classical
  have hcv' : (0 : Int) < cv := by exact_mod_cast hcv
  have hfold : ∀ (l : List Nat) (a : ℝ), l.foldl (fun a fold => a + loglike (fit fold) fold cv) a =
      a + (l.map (fun i => loglike (fit i) i cv)).sum := by
    intro l
    induction l with
    | nil => simp
    | cons x l ih => intro a; rw [List.foldl_cons, ih]; simp; ring
  unfold crossValidate
  rw [hfold, zero_add, list_sum_range]
  simp_rw [hll]
  unfold sliceSum
  have e1 : ∀ i : Nat, (Finset.Ico (0 : Int) nCases).filter (fun c => InSlice 0 nCases 1 c ∧ KeptBy (-1) i cv c) =
      (Finset.Ico (0 : Int) nCases).filter (fun c => (c % (cv : Int)).toNat = i) := by
    intro i
    ext c
    have h0 := Int.emod_nonneg c hcv'.ne'
    simp [InSlice, KeptBy]
    omega
  simp_rw [e1]
  rw [← Finset.sum_fiberwise_of_maps_to (s := Finset.Ico (0 : Int) nCases) (t := Finset.range cv)
    (g := fun c : Int => (c % (cv : Int)).toNat)]
  · apply Finset.sum_congr rfl
    intro i _
    apply Finset.sum_congr rfl
    intro c hc
    rw [(Finset.mem_filter.mp hc).2]
  · intro c _
    have h0 := Int.emod_nonneg c hcv'.ne'
    have h1 := Int.emod_lt_of_pos c hcv'
    simp; omega

/-- **C32 violated (numba model).** The numba `loglike` ignores `keep_only`, so every "holdout" fold is the full sample
and the cross-validated value at fixed parameters is `cv` times the full log likelihood. -/
theorem C32_fails_numba (n cv : Nat) (norm : ℝ) (f : Int → ℝ) :
    crossValidate cv (fun _ => ()) (fun _ i k => numbaLoglike n norm f none none none (-1) i k) =
      cv * numbaLoglike n norm f none none none (-1) (-1) (-1) := by
  unfold crossValidate
  have : ∀ (k : Nat) (a : ℝ), (List.range k).foldl
      (fun a fold => a + numbaLoglike n norm f none none none (-1) ((fold : Nat) : Int) cv) a =
      a + k * numbaLoglike n norm f none none none (-1) (-1) (-1) := by
    intro k
    induction k with
    | zero => simp
    | succ k ih =>
      intro a
      rw [List.range_succ, List.foldl_append, ih]
      simp only [List.foldl_cons, List.foldl_nil, numbaLoglike]
      push_cast; ring
  have h := this cv 0
  simpa using h

/-- The violation is visible: two cases, two folds. -/
example : crossValidate 2 (fun _ => ()) (fun _ i k => numbaLoglike 2 1 (fun _ => -1) none none none (-1) i k) = -4 := by
  rw [C32_fails_numba]
  unfold numbaLoglike numbaCases
  simp only [Option.map_none, Option.getD_none]
  rw [pyRange_step (by decide) (by decide), pyRange_step (by decide) (by decide), pyRange_nil (by decide)]
  norm_num

end Larch.Props
