import Verif.Spec.RefLL
import Verif.Props.Shared
import Verif.Props.CompiledMnl

/-!
# C125: log likelihoods of no model and of constants only
-/

namespace Larch.Props

open Larch.Weights Larch.Spec Larch.Shared Larch.RefLL Larch.Kernel Larch.Compiled

theorem rl_sum (f : Nat → ℝ) (g : Nat → X) (n : Nat) (h : ∀ i < n, g i = .fin (f i)) :
    (List.range n).foldl (fun ll i => ll + g i) (.fin 0) = .fin (∑ i ∈ Finset.range n, f i) := by
  induction n with
  | zero => simp
  | succ n ih =>
    rw [List.range_succ, List.foldl_append, ih (fun i hi => h i (by omega)), Finset.sum_range_succ]
    simp only [List.foldl_cons, List.foldl_nil]
    rw [h n (by omega)]; rfl

/-- The total of a reference model, as a sum over choices. -/
theorem rl_total (M : Terms) (θ : Nat → ℝ) (av : Nat → Nat → Bool) (w : W ℝ)
    (h : ∀ i < w.nCases, LogitCase w.nAlts M θ (refCase av w i) (av i) (fun _ _ => 0))
    (hch : ∀ i < w.nCases, ∀ j < w.nAlts, w.ch i j ≠ 0 → av i j = true) :
    totalLL M θ av w = .fin (∑ i ∈ Finset.range w.nCases, ∑ j ∈ Finset.range w.nAlts,
      contribution w i j * Real.log (logitProb w.nAlts (av i) (utility M θ (fun _ => 0) (fun _ _ => 0)) j)) := by
  unfold totalLL
  rw [rl_sum (fun i => logitLL w.nAlts (av i) (utility M θ (fun _ => 0) (fun _ _ => 0)) (w.ch i) (caseWt w i))]
  · show X.fin (_ * w.norm) = _
    congr 1
    rw [Finset.sum_mul]
    refine Finset.sum_congr rfl (fun i _ => ?_)
    unfold logitLL
    rw [Finset.mul_sum, Finset.sum_mul]
    refine Finset.sum_congr rfl (fun j _ => ?_)
    unfold contribution
    ring
  · intro i hi
    have := C72_loglike (h i hi) (fun _ => false) (hch i hi)
    exact this

theorem rl_util_nil (θ : Nat → ℝ) (a : Nat) : utility nilTerms θ (fun _ => 0) (fun _ _ => 0) a = 0 := by
  simp [utility, nilTerms]

theorem rl_util_const (n : Nat) (θ : Nat → ℝ) (a : Nat) :
    utility (constantTerms n) θ (fun _ => 0) (fun _ _ => 0) a = if 1 ≤ a ∧ a < n then θ (a - 1) else 0 := by
  have key : ∀ (m s : Nat), (((List.range' s m).map (fun j => (⟨j, 1, j - 1, none⟩ : CoTerm))).filter (fun t => t.alt = a)).map
      (fun t => t.scale * θ t.param * coValue (fun _ => 0) t.data) = if s ≤ a ∧ a < s + m then [θ (a - 1)] else [] := by
    intro m
    induction m with
    | zero => intro s; simp
    | succ m ih =>
      intro s
      rw [List.range'_succ, List.map_cons, List.filter_cons]
      by_cases h : s = a
      · subst h
        simp only [decide_true, if_true, List.map_cons, ih (s + 1)]
        rw [if_neg (by omega), if_pos (by omega)]
        simp [coValue]
      · simp only [h, decide_false, Bool.false_eq_true, if_false, ih (s + 1)]
        by_cases h2 : s + 1 ≤ a ∧ a < s + 1 + m
        · rw [if_pos h2, if_pos (by omega)]
        · rw [if_neg h2, if_neg (by omega)]
  unfold utility constantTerms
  simp only [if_true, List.map_nil, List.sum_nil, zero_add]
  rw [key (n - 1) 1]
  by_cases h : 1 ≤ a ∧ a < n
  · rw [if_pos h, if_pos (by omega)]; simp
  · rw [if_neg h, if_neg (by omega)]; simp

theorem rl_case_nil (av : Nat → Nat → Bool) (w : W ℝ) (i n : Nat) (θ : Nat → ℝ) :
    LogitCase n nilTerms θ (refCase av w i) (av i) (fun _ _ => 0) := by
  refine ⟨⟨fun _ a _ => ⟨rfl, fun _ t ht => by simp [nilTerms] at ht⟩, fun rows hr => by simp [refCase] at hr,
    fun t ht => by simp [nilTerms] at ht⟩, fun hq => by simp [nilTerms] at hq, fun a _ _ => ?_⟩
  show |utility nilTerms θ (fun _ => 0) (fun _ _ => 0) a| < _
  rw [rl_util_nil]; norm_num

theorem rl_case_const (av : Nat → Nat → Bool) (w : W ℝ) (i n : Nat) (θ : Nat → ℝ) (hθ : ∀ p, |θ p| < 10 ^ 38) :
    LogitCase n (constantTerms n) θ (refCase av w i) (av i) (fun _ _ => 0) := by
  refine ⟨⟨fun _ a _ => ⟨rfl, fun _ t ht => by simp [constantTerms] at ht⟩, fun rows hr => by simp [refCase] at hr,
    fun t ht => ?_⟩, fun hq => by simp [constantTerms] at hq, fun a _ _ => ?_⟩
  · simp only [constantTerms, List.mem_map, List.mem_range'_1] at ht
    obtain ⟨j, hj, rfl⟩ := ht
    exact ⟨by dsimp only; omega, fun _ d hd => by simp at hd⟩
  · show |utility (constantTerms n) θ (fun _ => 0) (fun _ _ => 0) a| < _
    rw [rl_util_const]
    split_ifs
    · exact hθ _
    · norm_num

theorem rl_prob_zero (n : Nat) (A : Nat → Bool) (V : Nat → ℝ) (hV : ∀ a < n, V a = 0) (j : Nat) (hj : j < n) (hA : A j = true) :
    Real.log (logitProb n A V j) = -Real.log (choiceSet n A) := by
  have : expSum n A V = choiceSet n A := by
    unfold expSum choiceSet
    rw [Finset.card_filter]
    push_cast
    refine Finset.sum_congr rfl (fun b hb => ?_)
    rw [hV b (Finset.mem_range.mp hb)]
    split_ifs <;> simp
  unfold logitProb
  rw [if_pos hA, this, hV j hj, Real.exp_zero, one_div, Real.log_inv]

/-- With equal utilities the total is that of no model. -/
theorem rl_nil_total (M : Terms) (θ : Nat → ℝ) (av : Nat → Nat → Bool) (w : W ℝ)
    (h : ∀ i < w.nCases, LogitCase w.nAlts M θ (refCase av w i) (av i) (fun _ _ => 0))
    (hV : ∀ a < w.nAlts, utility M θ (fun _ => 0) (fun _ _ => 0) a = 0)
    (hch : ∀ i < w.nCases, ∀ j < w.nAlts, w.ch i j ≠ 0 → av i j = true) :
    totalLL M θ av w = .fin (nilLoglike av w) := by
  rw [rl_total M θ av w h hch]
  congr 1
  refine Finset.sum_congr rfl (fun i hi => Finset.sum_congr rfl (fun j hj => ?_))
  have hi' := Finset.mem_range.mp hi
  have hj' := Finset.mem_range.mp hj
  by_cases hc : w.ch i j = 0
  · simp [contribution, hc]
  · rw [rl_prob_zero _ _ _ hV j hj' (hch i hi' j hj' hc)]

/-- The data of a reference model count like those of the model. -/
theorem rl_ref (m : Mod) (o : Obj ℝ) (hk : m.world.objs[m.cur]? = some o) (hnorm : o.wt = none → o.norm = 1)
    (hs : NonnegChoices (m.world.view o)) :
    ∃ w, m.refData = some w ∧ SameCounts w (m.world.view o) ∧ ∀ i j, (m.world.view o).ch i j = 0 → w.ch i j = 0 := by
  cases hx : o.wt with
  | some x =>
    refine ⟨_, (sh_shared m.world m.cur o hk x hx).1, ?_, fun i j hz => ?_⟩
    · obtain ⟨a, b, _, d⟩ := call_keeps (m.world.view o) hs .autoscale
      exact ⟨a, b, d⟩
    · exact zero_stays (m.world.view o) i j hz [.autoscale]
  | none =>
    obtain ⟨n, hn, n1, n2, n3, n4, n5, n6, n7⟩ := sh_make_shared m.world o
    have hget : (m.world.make o ⟨none, none⟩).objs[m.world.objs.length]? = some n := by rw [hn]; simp
    have hwtd : (m.world.make o ⟨none, none⟩).weighted m.world.objs.length = false := by
      unfold World.weighted; rw [hget]; simp [n4, hx]
    have ht : m.world.load m.cur ⟨none, none⟩ true = m.world.make o ⟨none, none⟩ := by
      rw [sh_load_some m.world m.cur _ _ o hk, hwtd]; rfl
    have hd : m.refData = some (m.world.view o) := by
      unfold Mod.refData Mod.loadRef heldBy
      dsimp only
      rw [ht, hget, Option.map_some]
      congr 1
      unfold World.view
      rw [n6, n7, n1, n2, n3, n4, n5, hx, hnorm hx]
      rfl
    exact ⟨_, hd, ⟨rfl, rfl, fun _ _ _ _ => rfl⟩, fun i j h => h⟩

theorem rl_nil_same (av : Nat → Nat → Bool) (v w : W ℝ) (h : SameCounts v w) : nilLoglike av v = nilLoglike av w := by
  unfold nilLoglike
  rw [h.1, h.2.1]
  refine Finset.sum_congr rfl (fun i hi => Finset.sum_congr rfl (fun j hj => ?_))
  rw [h.2.2 i (Finset.mem_range.mp hi) j (Finset.mem_range.mp hj)]

theorem rl_times_same (v w : W ℝ) (h : SameCounts v w) (j : Nat) (hj : j < w.nAlts) : timesChosen v j = timesChosen w j := by
  unfold timesChosen
  rw [h.1]
  exact Finset.sum_congr rfl (fun i hi => h.2.2 i (Finset.mem_range.mp hi) j hj)

theorem rl_share_same (v w : W ℝ) (h : SameCounts v w) : shareLoglike v = shareLoglike w := by
  have hs : ∑ l ∈ Finset.range v.nAlts, timesChosen v l = ∑ l ∈ Finset.range w.nAlts, timesChosen w l := by
    rw [h.2.1]; exact Finset.sum_congr rfl (fun l hl => rl_times_same v w h l (Finset.mem_range.mp hl))
  unfold shareLoglike
  rw [hs, h.2.1]
  exact Finset.sum_congr rfl (fun j hj => by rw [rl_times_same v w h j (Finset.mem_range.mp hj)])

theorem rl_chosen (av : Nat → Nat → Bool) (v w : W ℝ) (h : SameCounts v w) (hz : ∀ i j, w.ch i j = 0 → v.ch i j = 0)
    (hc : ∀ i < w.nCases, ∀ j < w.nAlts, w.ch i j ≠ 0 → av i j = true) :
    ∀ i < v.nCases, ∀ j < v.nAlts, v.ch i j ≠ 0 → av i j = true :=
  fun i hi j hj hn => hc i (h.1 ▸ hi) j (h.2.1 ▸ hj) (fun e => hn (hz i j e))

/-- **C125 (no model).** For every set of cases in which chosen alternatives are available: `loglike_nil`, when it has not been computed
before or the cache is not used, returns the log likelihood with every available alternative equally likely, every choice counted with its
weight in the model's data; and remembers it. -/
theorem C125_nil (m : Mod) (o : Obj ℝ) (hk : m.world.objs[m.cur]? = some o) (hnorm : o.wt = none → o.norm = 1)
    (hs : Sound m.av (m.world.view o)) (c : Bool) (hc : m.cachedNil = .fin 0 ∨ c = false) :
    (m.loglikeNil c).2 = some (.fin (nilLoglike m.av (m.world.view o))) ∧
    (m.loglikeNil c).1.cachedNil = .fin (nilLoglike m.av (m.world.view o)) := by
  obtain ⟨w, h1, h2, h3⟩ := rl_ref m o hk hnorm hs.choices
  have hv : totalLL nilTerms (fun _ => 0) m.av w = .fin (nilLoglike m.av (m.world.view o)) := by
    rw [rl_nil_total nilTerms (fun _ => 0) m.av w (fun i _ => rl_case_nil m.av w i _ _) (fun a _ => rl_util_nil _ a)
      (rl_chosen m.av w _ h2 h3 hs.chosen), rl_nil_same _ _ _ h2]
  unfold Mod.loglikeNil
  rw [if_neg (by rintro ⟨a, b⟩; rcases hc with hc | hc
                 · exact a hc
                 · rw [hc] at b; simp at b), h1]
  dsimp only
  rw [hv]
  exact ⟨rfl, rfl⟩

theorem rl_cached (m : Mod) (h : m.cachedNil ≠ .fin 0) : m.loglikeNil true = (m, some m.cachedNil) := by
  unfold Mod.loglikeNil
  rw [if_pos ⟨h, rfl⟩]

/-- It is never positive. -/
theorem C125_nil_nonpos (m : Mod) (o : Obj ℝ) (hs : Sound m.av (m.world.view o)) : nilLoglike m.av (m.world.view o) ≤ 0 := by
  unfold nilLoglike
  refine Finset.sum_nonpos (fun i hi => Finset.sum_nonpos (fun j hj => ?_))
  have := hs.counts i (Finset.mem_range.mp hi) j (Finset.mem_range.mp hj)
  have h2 : 0 ≤ Real.log (choiceSet (m.world.view o).nAlts (m.av i)) := Real.log_natCast_nonneg _
  nlinarith

/-- Gibbs' inequality. -/
theorem rl_gibbs (n : Nat) (N p : Nat → ℝ) (hN : ∀ j < n, 0 ≤ N j) (hp : ∀ j < n, 0 < p j) (hs : ∑ j ∈ Finset.range n, p j = 1) :
    ∑ j ∈ Finset.range n, N j * Real.log (p j) ≤
      ∑ j ∈ Finset.range n, N j * Real.log (N j / ∑ l ∈ Finset.range n, N l) := by
  set T := ∑ l ∈ Finset.range n, N l with hT
  have hT0 : 0 ≤ T := Finset.sum_nonneg (fun j hj => hN j (Finset.mem_range.mp hj))
  have key : ∀ j ∈ Finset.range n, N j * Real.log (p j) - N j * Real.log (N j / T) ≤ p j * T - N j := by
    intro j hj
    have hj' := Finset.mem_range.mp hj
    rcases (hN j hj').eq_or_lt with h0 | h0
    · rw [← h0]; simp; exact mul_nonneg (hp j hj').le hT0
    · have hTp : 0 < T := lt_of_lt_of_le h0 (Finset.single_le_sum (fun l hl => hN l (Finset.mem_range.mp hl)) hj)
      have h1 : Real.log (p j) - Real.log (N j / T) = Real.log (p j * T / N j) := by
        rw [← Real.log_div (hp j hj').ne' (div_pos h0 hTp).ne']
        congr 1; field_simp
      have h2 : Real.log (p j * T / N j) ≤ p j * T / N j - 1 :=
        Real.log_le_sub_one_of_pos (div_pos (mul_pos (hp j hj') hTp) h0)
      have h3 : N j * (p j * T / N j - 1) = p j * T - N j := by field_simp
      nlinarith
  have := Finset.sum_le_sum key
  rw [Finset.sum_sub_distrib, Finset.sum_sub_distrib, ← Finset.sum_mul, hs, one_mul, ← hT, sub_self] at this
  linarith

theorem rl_swap (w : W ℝ) (f : Nat → ℝ) :
    ∑ i ∈ Finset.range w.nCases, ∑ j ∈ Finset.range w.nAlts, contribution w i j * f j = ∑ j ∈ Finset.range w.nAlts, timesChosen w j * f j := by
  rw [Finset.sum_comm]
  exact Finset.sum_congr rfl (fun j _ => by unfold timesChosen; rw [Finset.sum_mul])

theorem rl_prob_pos (n : Nat) (A : Nat → Bool) (V : Nat → ℝ) (j : Nat) (hj : j < n) (hA : A j = true) : 0 < logitProb n A V j := by
  unfold logitProb
  rw [if_pos hA]
  apply div_pos (Real.exp_pos _)
  unfold expSum
  refine lt_of_lt_of_le (Real.exp_pos (V j)) ?_
  have : Real.exp (V j) = if A j = true then Real.exp (V j) else 0 := by rw [if_pos hA]
  rw [this]
  exact Finset.single_le_sum (f := fun b => if A b = true then Real.exp (V b) else 0)
    (fun b _ => by split_ifs <;> [exact (Real.exp_pos _).le; exact le_rfl]) (Finset.mem_range.mpr hj)

/-- The value of the constants-only model at given constants, when everything is available. -/
theorem rl_const_value (θ : Nat → ℝ) (hθ : ∀ p, |θ p| < 10 ^ 38) (av : Nat → Nat → Bool) (w : W ℝ)
    (hall : ∀ i < w.nCases, ∀ j < w.nAlts, av i j = true) :
    totalLL (constantTerms w.nAlts) θ av w = .fin (∑ j ∈ Finset.range w.nAlts, timesChosen w j *
      Real.log (logitProb w.nAlts (fun _ => true) (utility (constantTerms w.nAlts) θ (fun _ => 0) (fun _ _ => 0)) j)) := by
  rw [rl_total _ θ av w (fun i _ => rl_case_const av w i _ θ hθ) (fun i hi j hj _ => hall i hi j hj)]
  congr 1
  rw [← rl_swap]
  refine Finset.sum_congr rfl (fun i hi => Finset.sum_congr rfl (fun j hj => ?_))
  have hi' := Finset.mem_range.mp hi
  have hj' := Finset.mem_range.mp hj
  congr 2
  unfold logitProb expSum
  rw [hall i hi' j hj']
  have : ∑ b ∈ Finset.range w.nAlts, (if av i b = true then Real.exp (utility (constantTerms w.nAlts) θ (fun _ => 0) (fun _ _ => 0) b) else 0) =
      ∑ b ∈ Finset.range w.nAlts, (if true = true then Real.exp (utility (constantTerms w.nAlts) θ (fun _ => 0) (fun _ _ => 0) b) else 0) :=
    Finset.sum_congr rfl (fun b hb => by rw [hall i hi' b (Finset.mem_range.mp hb)])
  rw [this]

/-- **C125 (constants only, not below no model).** With idco data, for any optimizer that does not end below its start:
`loglike_constants_only` is at least the log likelihood of no model. -/
theorem C125_constants_above_nil (maxim : ((Nat → ℝ) → X) → X) (hmax : Climbs maxim) (m : Mod) (o : Obj ℝ)
    (hk : m.world.objs[m.cur]? = some o) (hnorm : o.wt = none → o.norm = 1) (hs : Sound m.av (m.world.view o)) (hco : m.hasCo = true)
    (hc : m.cachedConst = .fin 0) :
    ∃ r, (m.loglikeConstants maxim).2 = .ok (.fin r) ∧ (m.loglikeConstants maxim).1.cachedConst = .fin r ∧
      nilLoglike m.av (m.world.view o) ≤ r := by
  obtain ⟨w, h1, h2, h3⟩ := rl_ref m o hk hnorm hs.choices
  have hch := rl_chosen m.av w _ h2 h3 hs.chosen
  have h0 : totalLL (constantTerms w.nAlts) (fun _ => 0) m.av w = .fin (nilLoglike m.av (m.world.view o)) := by
    rw [rl_nil_total _ (fun _ => 0) m.av w (fun i _ => rl_case_const m.av w i _ _ (by norm_num))
      (fun a _ => by rw [rl_util_const]; split_ifs <;> rfl) hch, rl_nil_same _ _ _ h2]
  obtain ⟨θ, hθ, hval⟩ := hmax.attained (fun θ => totalLL (constantTerms w.nAlts) θ m.av w)
  have hf := rl_total (constantTerms w.nAlts) θ m.av w (fun i _ => rl_case_const m.av w i _ θ hθ) hch
  have hle := hmax.notBelow _ _ _ h0 (hval.trans hf)
  unfold Mod.loglikeConstants
  rw [if_neg (by simpa using hc), if_neg (by simp [hco]), h1]
  dsimp only
  rw [hval, hf]
  exact ⟨_, rfl, rfl, hle⟩

/-- **C125 (constants only, market shares).** When every alternative is available in every case, `loglike_constants_only` never exceeds the
log likelihood of the market shares. -/
theorem C125_constants_below_shares (maxim : ((Nat → ℝ) → X) → X) (hmax : Climbs maxim) (m : Mod) (o : Obj ℝ)
    (hk : m.world.objs[m.cur]? = some o) (hnorm : o.wt = none → o.norm = 1) (hs : Sound m.av (m.world.view o)) (hco : m.hasCo = true)
    (hc : m.cachedConst = .fin 0) (hn : 0 < o.nAlts) (hall : ∀ i < o.nCases, ∀ j < o.nAlts, m.av i j = true) :
    ∃ r, (m.loglikeConstants maxim).2 = .ok (.fin r) ∧ r ≤ shareLoglike (m.world.view o) := by
  obtain ⟨w, h1, h2, h3⟩ := rl_ref m o hk hnorm hs.choices
  have hna : w.nAlts = o.nAlts := h2.2.1
  have hnc : w.nCases = o.nCases := h2.1
  have hall' : ∀ i < w.nCases, ∀ j < w.nAlts, m.av i j = true := fun i hi j hj => hall i (hnc ▸ hi) j (hna ▸ hj)
  obtain ⟨θ, hθ, hval⟩ := hmax.attained (fun θ => totalLL (constantTerms w.nAlts) θ m.av w)
  have hf := rl_const_value θ hθ m.av w hall'
  refine ⟨∑ j ∈ Finset.range w.nAlts, timesChosen w j * Real.log (logitProb w.nAlts (fun _ => true)
    (utility (constantTerms w.nAlts) θ (fun _ => 0) (fun _ _ => 0)) j), ?_, ?_⟩
  · unfold Mod.loglikeConstants
    rw [if_neg (by simpa using hc), if_neg (by simp [hco]), h1]
    dsimp only
    rw [hval, hf]
  · rw [← rl_share_same w _ h2]
    refine rl_gibbs _ _ _ (fun j hj => ?_) (fun j hj => rl_prob_pos _ _ _ j hj rfl) (logitProb_sum _ ⟨0, by omega, rfl⟩)
    refine Finset.sum_nonneg (fun i hi => ?_)
    have hi' : i < (m.world.view o).nCases := h2.1 ▸ Finset.mem_range.mp hi
    have hj' : j < (m.world.view o).nAlts := h2.2.1 ▸ hj
    rw [h2.2.2 i hi' j hj']
    exact hs.counts i hi' j hj'

/-- **C125 (constants only, attained).** ... and the constants that reproduce the market shares attain it (every alternative chosen). -/
theorem C125_shares_attained (av : Nat → Nat → Bool) (w : W ℝ) (hn : 0 < w.nAlts)
    (hall : ∀ i < w.nCases, ∀ j < w.nAlts, av i j = true) (hpos : ∀ j < w.nAlts, 0 < timesChosen w j)
    (hmod : ∀ j < w.nAlts, |Real.log (timesChosen w j / timesChosen w 0)| < 10 ^ 38) :
    ∃ θ : Nat → ℝ, totalLL (constantTerms w.nAlts) θ av w = .fin (shareLoglike w) := by
  have hθ : ∀ p, |(if p + 1 < w.nAlts then Real.log (timesChosen w (p + 1) / timesChosen w 0) else 0 : ℝ)| < 10 ^ 38 := by
    intro p
    split_ifs with h
    · exact hmod _ h
    · norm_num
  refine ⟨fun p => if p + 1 < w.nAlts then Real.log (timesChosen w (p + 1) / timesChosen w 0) else 0, ?_⟩
  rw [rl_const_value _ hθ av w hall]
  congr 1
  have hu : ∀ j < w.nAlts, Real.exp (utility (constantTerms w.nAlts) (fun p => if p + 1 < w.nAlts then
      Real.log (timesChosen w (p + 1) / timesChosen w 0) else 0) (fun _ => 0) (fun _ _ => 0) j) = timesChosen w j / timesChosen w 0 := by
    intro j hj
    rw [rl_util_const]
    by_cases h : 1 ≤ j
    · rw [if_pos ⟨h, hj⟩]
      rw [show j - 1 + 1 = j by omega, if_pos hj, Real.exp_log (div_pos (hpos j hj) (hpos 0 hn))]
    · have : j = 0 := by omega
      subst this
      rw [if_neg (by omega), Real.exp_zero, div_self (hpos 0 hn).ne']
  refine Finset.sum_congr rfl (fun j hj => ?_)
  have hj' := Finset.mem_range.mp hj
  congr 2
  unfold logitProb expSum
  rw [if_pos rfl, hu j hj']
  have hsum : ∑ b ∈ Finset.range w.nAlts, (if true = true then Real.exp (utility (constantTerms w.nAlts) (fun p => if p + 1 < w.nAlts then
      Real.log (timesChosen w (p + 1) / timesChosen w 0) else 0) (fun _ => 0) (fun _ _ => 0) b) else 0) =
      (∑ b ∈ Finset.range w.nAlts, timesChosen w b) / timesChosen w 0 := by
    rw [Finset.sum_div]
    exact Finset.sum_congr rfl (fun b hb => by rw [if_pos rfl]; exact hu b (Finset.mem_range.mp hb))
  rw [hsum, div_div_div_cancel_right₀ (hpos 0 hn).ne']

/-- **C125 (the model is left alone).** When the model's data have no weights, or weights that average one with choices that add up to one,
`loglike_nil` changes neither choices nor weights of the model's data. -/
theorem C125_nil_leaves_alone (m : Mod) (o : Obj ℝ) (hk : m.world.objs[m.cur]? = some o) (c : Bool)
    (hw : o.wt = none ∨ ∃ x, o.wt = some x ∧ (∀ i < o.nCases, choiceTotal (m.world.view o) i = 1) ∧ 0 < o.nCases ∧
      (∑ i ∈ Finset.range o.nCases, m.world.wts x i) / o.nCases = 1) :
    held (m.loglikeNil c).1.world m.cur = held m.world m.cur := by
  have hload : held (m.world.load m.cur ⟨none, none⟩ true) m.cur = held m.world m.cur := by
    rcases hw with hx | ⟨x, hx, h1, h2, h3⟩
    · obtain ⟨n, hn, n1, n2, n3, n4, n5, n6, n7⟩ := sh_make_shared m.world o
      have hget : (m.world.make o ⟨none, none⟩).objs[m.world.objs.length]? = some n := by rw [hn]; simp
      have hwtd : (m.world.make o ⟨none, none⟩).weighted m.world.objs.length = false := by
        unfold World.weighted; rw [hget]; simp [n4, hx]
      rw [sh_load_some m.world m.cur _ _ o hk, hwtd]
      simp only [Bool.and_false, Bool.false_eq_true, if_false]
      unfold held
      rw [hn, List.getElem?_append_left (List.getElem?_eq_some_iff.mp hk).1, hk, Option.map_some, Option.map_some]
      congr 1
      unfold World.view
      rw [n6, n7]
    · exact (C124_balanced m.world m.cur o hk x hx h1 h2 h3).1
  unfold Mod.loglikeNil
  split_ifs
  · rfl
  · cases m.refData with
    | none => rfl
    | some w => exact hload

/-- **C125 (rho squared).** `rho_sq_nil` is one minus the ratio of the model's log likelihood (less the number of free parameters, when
adjusted) to that of no model. -/
theorem C125_rho (m : Mod) (o : Obj ℝ) (hk : m.world.objs[m.cur]? = some o) (hnorm : o.wt = none → o.norm = 1)
    (hs : Sound m.av (m.world.view o)) (c : Bool) (hc : m.cachedNil = .fin 0 ∨ c = false) (L : W ℝ → X) (ll k : ℝ)
    (hL : L (m.world.view o) = .fin ll) (h0 : nilLoglike m.av (m.world.view o) ≠ 0) :
    (m.rhoSqNil L k c).2 = some (.fin (1 - (ll - k) / nilLoglike m.av (m.world.view o))) := by
  have hll : m.loglike L = some (.fin ll) := by
    unfold Mod.loglike heldBy; rw [hk]; simp [hL]
  unfold Mod.rhoSqNil
  rw [hll]
  dsimp only
  rw [(C125_nil m o hk hnorm hs c hc).1, Option.map_some]
  congr 1
  show X.fin 1 - X.div (.fin (ll - k)) (.fin _) = _
  simp only [X.div, h0, if_false]
  rfl

/-- **C125 (fails: no idco data).** A model whose data have no idco part has no `loglike_constants_only`: an `AttributeError` is raised. -/
theorem C125_fails_no_idco (maxim : ((Nat → ℝ) → X) → X) (m : Mod) (hco : m.hasCo = false) (hc : m.cachedConst = .fin 0) :
    (m.loglikeConstants maxim).2 = .error .attribute := by
  unfold Mod.loglikeConstants
  rw [if_neg (by simpa using hc), if_pos hco]

/-- **C125 (fails: the model's own log likelihood changes).** If the model's weights do not average one, computing `loglike_nil` divides the
model's own log likelihood - here: that of any model that is a sum over choices - by the average weight. -/
theorem C125_fails_rescales (m : Mod) (o : Obj ℝ) (hk : m.world.objs[m.cur]? = some o) (x : Nat) (hx : o.wt = some x)
    (ht : ∀ i < o.nCases, choiceTotal (m.world.view o) i = 1) (hn : 0 < o.nCases)
    (havg : (∑ i ∈ Finset.range o.nCases, m.world.wts x i) / o.nCases ≠ 0) (hc : m.cachedNil = .fin 0) (p : Nat → Nat → ℝ) :
    let L : W ℝ → X := fun w => .fin (∑ i ∈ Finset.range w.nCases, ∑ j ∈ Finset.range w.nAlts, contribution w i j * p i j)
    ∃ before, m.loglike L = some (.fin before) ∧
      (m.loglikeNil true).1.loglike L = some (.fin (before / ((∑ i ∈ Finset.range o.nCases, m.world.wts x i) / o.nCases))) := by
  intro L
  refine ⟨∑ i ∈ Finset.range o.nCases, ∑ j ∈ Finset.range o.nAlts, contribution (m.world.view o) i j * p i j, ?_, ?_⟩
  · unfold Mod.loglike heldBy; rw [hk]; rfl
  · obtain ⟨w', h1, h2⟩ := C124_fails_source_rescaled m.world m.cur o hk x hx ht hn havg
    have hsh := (sh_shared m.world m.cur o hk x hx).2
    have hw' := h1
    rw [hsh, Option.some.injEq] at h1
    have e1 : w'.nCases = o.nCases := by rw [← h1]; exact (sh_call_shape (m.world.view o) .autoscale).1
    have e2 : w'.nAlts = o.nAlts := by rw [← h1]; exact (sh_call_shape (m.world.view o) .autoscale).2
    have hworld : (m.loglikeNil true).1.world = m.world.load m.cur ⟨none, none⟩ true ∧ (m.loglikeNil true).1.cur = m.cur := by
      have hr : m.refData = some (autoscaleWeights (m.world.view o)).1 := (sh_shared m.world m.cur o hk x hx).1
      unfold Mod.loglikeNil
      rw [if_neg (by simp [hc]), hr]
      exact ⟨rfl, rfl⟩
    unfold Mod.loglike
    rw [hworld.1, hworld.2]
    have : heldBy (m.world.load m.cur ⟨none, none⟩ true) m.cur = some w' := hw'
    rw [this, Option.map_some]
    show some (X.fin _) = _
    rw [e1, e2, Finset.sum_div]
    congr 2
    refine Finset.sum_congr rfl (fun i hi => ?_)
    rw [Finset.sum_div]
    refine Finset.sum_congr rfl (fun j hj => ?_)
    rw [h2 i (Finset.mem_range.mp hi) j (Finset.mem_range.mp hj)]
    ring

/-- Two cases, two alternatives, weights 1 and 3, everything available. -/
noncomputable def rl_demo : Mod where
  world := { chs := fun _ i j => if i = j then 1 else 0
             wts := fun _ i => if i = 0 then 1 else 3
             next := 1
             objs := [⟨2, 2, 0, some 0, 1⟩] }
  cur := 0
  av := fun _ _ => true
  hasCo := true
  cachedNil := .fin 0
  cachedConst := .fin 0

theorem rl_demo_sound : Sound rl_demo.av (rl_demo.world.view ⟨2, 2, 0, some 0, 1⟩) := by
  refine ⟨fun _ _ _ _ _ => rfl, fun i _ j _ => ?_, fun i _ j _ => ?_⟩
  · simp only [World.view, rl_demo]; split_ifs <;> norm_num
  · simp only [contribution, caseWt, World.view, rl_demo, Option.map_some]
    split_ifs <;> norm_num

theorem rl_demo_total : ∀ i < 2, choiceTotal (rl_demo.world.view ⟨2, 2, 0, some 0, 1⟩) i = 1 := by
  intro i hi
  have : i = 0 ∨ i = 1 := by omega
  rcases this with rfl | rfl <;> simp [choiceTotal, World.view, rl_demo, Finset.sum_range_succ]

theorem rl_demo_nil : nilLoglike rl_demo.av (rl_demo.world.view ⟨2, 2, 0, some 0, 1⟩) = -(4 * Real.log 2) := by
  have hc : choiceSet 2 (fun _ => true) = 2 := by decide
  simp only [nilLoglike, World.view, rl_demo, Finset.sum_range_succ, Finset.sum_range_zero, contribution, caseWt, hc, Option.map_some]
  norm_num
  ring

/-- `C125_nil` applies. -/
example : (rl_demo.loglikeNil true).2 = some (.fin (-(4 * Real.log 2))) := by
  have := (C125_nil rl_demo _ rfl (by simp) rl_demo_sound true (Or.inl rfl)).1
  rw [rl_demo_nil] at this
  exact this

/-- `C125_constants_below_shares` and `C125_constants_above_nil` apply: an optimizer that stays at zero. -/
example : ∃ r, (rl_demo.loglikeConstants (fun f => f (fun _ => 0))).2 = .ok (.fin r) ∧ r ≤ shareLoglike (rl_demo.world.view ⟨2, 2, 0, some 0, 1⟩) :=
  C125_constants_below_shares _ ⟨fun f => ⟨fun _ => 0, by norm_num, rfl⟩, fun f a b ha hb => by
    rw [ha] at hb; exact (X.fin.inj hb).le⟩ rl_demo _ rfl (by simp) rl_demo_sound rfl rfl (by decide) (fun _ _ _ _ => rfl)

/-- **C125 (fails: rho squared depends on how often it is asked for).** A model that gives each of the two alternatives probability 1/2, on
two cases with weights 1 and 3: `rho_sq_nil` is 0 the first time and 1/2 the second time. -/
theorem C125_fails_rho_twice :
    let L : W ℝ → X := fun w => .fin (∑ i ∈ Finset.range w.nCases, ∑ j ∈ Finset.range w.nAlts, contribution w i j * Real.log (1 / 2))
    (rl_demo.rhoSqNil L 0 true).2 = some (.fin 0) ∧ ((rl_demo.rhoSqNil L 0 true).1.rhoSqNil L 0 true).2 = some (.fin (1 / 2)) := by
  intro L
  have hlog : Real.log 2 ≠ 0 := (Real.log_pos (by norm_num)).ne'
  obtain ⟨h1, h2⟩ := C125_nil rl_demo _ rfl (by simp) rl_demo_sound true (Or.inl rfl)
  rw [rl_demo_nil] at h1 h2
  have havg : (∑ i ∈ Finset.range 2, rl_demo.world.wts 0 i) / ((2 : Nat) : ℝ) = 2 := by
    simp [rl_demo, Finset.sum_range_succ]; norm_num
  obtain ⟨b, hb, ha⟩ := C125_fails_rescales rl_demo _ rfl 0 rfl rl_demo_total (by decide) (by rw [havg]; norm_num) rfl
    (fun _ _ => Real.log (1 / 2))
  have hL0 : rl_demo.loglike L = some (.fin (-(4 * Real.log 2))) := by
    show some (X.fin _) = _
    congr 2
    simp only [World.view, rl_demo, Finset.sum_range_succ, Finset.sum_range_zero, contribution, caseWt, Option.map_some, one_div,
      Real.log_inv]
    norm_num
    ring
  have hb' : b = -(4 * Real.log 2) := by
    rw [show rl_demo.loglike _ = rl_demo.loglike L from rfl, hL0] at hb
    exact (X.fin.inj (Option.some.inj hb)).symm
  have hL1 : (rl_demo.loglikeNil true).1.loglike L = some (.fin (-(2 * Real.log 2))) := by
    rw [show (rl_demo.loglikeNil true).1.loglike L = _ from ha, havg, hb']
    congr 2; ring
  have hn0 : -(4 * Real.log 2) ≠ 0 := by simpa using hlog
  have hst : (rl_demo.rhoSqNil L 0 true).1 = (rl_demo.loglikeNil true).1 := by
    unfold Mod.rhoSqNil; rw [hL0]
  refine ⟨?_, ?_⟩
  · unfold Mod.rhoSqNil
    rw [hL0]
    dsimp only
    rw [h1, Option.map_some]
    congr 1
    show X.fin 1 - X.div (.fin (-(4 * Real.log 2) - 0)) (.fin (-(4 * Real.log 2))) = _
    simp only [X.div, hn0, if_false, sub_zero, div_self hn0]
    show X.fin (1 - 1) = _
    rw [sub_self]
  · rw [hst]
    have hcache : (rl_demo.loglikeNil true).1.loglikeNil true = ((rl_demo.loglikeNil true).1, some (.fin (-(4 * Real.log 2)))) := by
      rw [rl_cached _ (by rw [h2]; intro h; exact hn0 (X.fin.inj h)), h2]
    unfold Mod.rhoSqNil
    rw [hL1]
    dsimp only
    rw [hcache, Option.map_some]
    congr 1
    show X.fin 1 - X.div (.fin (-(2 * Real.log 2) - 0)) (.fin (-(4 * Real.log 2))) = _
    simp only [X.div, hn0, if_false, sub_zero]
    show X.fin (1 - _) = _
    congr 1
    field_simp
    norm_num

end Larch.Props
