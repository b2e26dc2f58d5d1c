import Verif.Model.StatTable
import Mathlib.Tactic.NormNum

/-!
# C126: the table of estimation statistics
-/

namespace Larch.Props

open Larch.StatTable

/-- What a row should say, for given data and specification and the log likelihood of the last estimation. -/
noncomputable def statTruth (e : Env) (conv : Option X) : Stat → Option X
  | .cases => e.nCases.map (fun k => .fin (k : ℝ))
  | .convergence => conv
  | .null => e.null
  | .rhoNull => conv.bind (fun ll => e.null.map (fun r => .fin 1 - ll / r))
  | .nil => e.nil
  | .rhoNil => conv.bind (fun ll => e.nil.map (fun r => .fin 1 - ll / r))
  | .const => e.const
  | .rhoConst => conv.bind (fun ll => e.const.map (fun r => .fin 1 - ll / r))

/-- The operation leaves data and specification as they are. -/
def keepsEnv : Op → Prop
  | .change _ => False
  | _ => True

/-- The log likelihood of the last estimation in a history. -/
def lastEstimate : List Op → Option X
  | [] => none
  | .estimate ll :: rest => (lastEstimate rest).or (some ll)
  | _ :: rest => lastEstimate rest

/-- What is remembered is what it should be. -/
structure st_Good (e : Env) (s : St) : Prop where
  env : s.env = e
  null : s.cNull = .fin 0 ∨ e.null = some s.cNull
  nil : s.cNil = .fin 0 ∨ e.nil = some s.cNil
  const : s.cConst = .fin 0 ∨ e.const = some s.cConst

theorem st_null (e : Env) (s : St) (h : st_Good e s) (c : Bool) : st_Good e (nullStep s c) ∧ (nullStep s c).recent = s.recent := by
  unfold nullStep
  split_ifs
  · exact ⟨h, rfl⟩
  · cases hn : s.env.null with
    | none => exact ⟨h, rfl⟩
    | some v => exact ⟨⟨h.env, Or.inr (by rw [← h.env]; exact hn), h.nil, h.const⟩, rfl⟩

theorem st_nil (e : Env) (s : St) (h : st_Good e s) (c : Bool) : st_Good e (nilStep s c) ∧ (nilStep s c).recent = s.recent := by
  unfold nilStep
  split_ifs
  · exact ⟨h, rfl⟩
  · cases hn : s.env.nil with
    | none => exact ⟨h, rfl⟩
    | some v => exact ⟨⟨h.env, h.null, Or.inr (by rw [← h.env]; exact hn), h.const⟩, rfl⟩

theorem st_const (e : Env) (s : St) (h : st_Good e s) : st_Good e (constStep s) ∧ (constStep s).recent = s.recent := by
  unfold constStep
  split_ifs
  · exact ⟨h, rfl⟩
  · cases hn : s.env.const with
    | none => exact ⟨h, rfl⟩
    | some v => exact ⟨⟨h.env, h.null, h.nil, Or.inr (by rw [← h.env]; exact hn)⟩, rfl⟩

theorem st_before (e : Env) (s : St) (h : st_Good e s) (c : Bool) : st_Good e (beforeRows s c) ∧ (beforeRows s c).recent = s.recent := by
  unfold beforeRows
  split_ifs
  · exact st_null e s h true
  · exact ⟨h, rfl⟩

theorem st_step (e : Env) (s : St) (h : st_Good e s) (op : Op) (hop : keepsEnv op) :
    st_Good e (step s op) ∧ (step s op).recent = (lastEstimate [op]).or s.recent := by
  cases op with
  | change _ => exact absurd hop (by simp [keepsEnv])
  | estimate ll => exact ⟨⟨h.env, h.null, h.nil, h.const⟩, rfl⟩
  | null c => exact st_null e s h c
  | nil c => exact st_nil e s h c
  | const => exact st_const e s h
  | table c => exact st_before e s h c

theorem st_last (op : Op) (rest : List Op) : lastEstimate (op :: rest) = (lastEstimate rest).or (lastEstimate [op]) := by
  cases op <;> simp [lastEstimate]

theorem st_history (e : Env) (ops : List Op) (hops : ∀ op ∈ ops, keepsEnv op) (s : St) (h : st_Good e s) :
    st_Good e (ops.foldl step s) ∧ (ops.foldl step s).recent = (lastEstimate ops).or s.recent := by
  induction ops generalizing s with
  | nil => exact ⟨h, rfl⟩
  | cons op rest ih =>
    obtain ⟨h1, h2⟩ := st_step e s h op (hops op (by simp))
    obtain ⟨h3, h4⟩ := ih (fun o ho => hops o (by simp [ho])) (step s op) h1
    refine ⟨h3, ?_⟩
    rw [List.foldl_cons, h4, h2, st_last op rest, Option.or_assoc]

theorem st_fresh (e : Env) : st_Good e (fresh e) := ⟨rfl, Or.inl rfl, Or.inl rfl, Or.inl rfl⟩

/-- The rows of a state that remembers the right things. -/
theorem st_rows (e : Env) (s : St) (h : st_Good e s) (r : Row) (hr : r ∈ rows s) :
    (r.agg = none ∧ r.stat = .cases ∧ (e.nCases = none ∨ e.nCases = some 0) ∨ statTruth e s.recent r.stat = r.agg ∧ r.agg ≠ none) ∧
    ∀ x, r.per = some x → ∃ n v, e.nCases = some n ∧ n ≠ 0 ∧ r.agg = some v ∧ x = v / .fin (n : ℝ) := by
  have hper : ∀ (n : Option Nat) (ll x : X), perCase n ll = some x → ∃ k, n = some k ∧ k ≠ 0 ∧ x = ll / .fin (k : ℝ) := by
    intro n ll x hx
    unfold perCase someCases at hx
    cases n with
    | none => simp at hx
    | some k =>
      cases k with
      | zero => simp at hx
      | succ k => exact ⟨k + 1, rfl, by omega, by simpa using hx.symm⟩
  have href : ∀ (st rho : Stat) (ref : X) (tr : Option X), (ref = .fin 0 ∨ tr = some ref) → statTruth e s.recent st = tr →
      statTruth e s.recent rho = s.recent.bind (fun ll => tr.map (fun r => .fin 1 - ll / r)) →
      r ∈ refRows st rho s.env.nCases s.recent ref →
      (r.agg = none ∧ r.stat = .cases ∧ (e.nCases = none ∨ e.nCases = some 0) ∨ statTruth e s.recent r.stat = r.agg ∧ r.agg ≠ none) ∧
      ∀ x, r.per = some x → ∃ n v, e.nCases = some n ∧ n ≠ 0 ∧ r.agg = some v ∧ x = v / .fin (n : ℝ) := by
    intro st rho ref tr h0 hst hrho hm
    unfold refRows at hm
    split_ifs at hm with hz
    · simp at hm
    · have htr : tr = some ref := h0.resolve_left hz
      rcases List.mem_cons.mp hm with rfl | hm
      · refine ⟨Or.inr ⟨hst.trans htr, by simp⟩, fun x hx => ?_⟩
        obtain ⟨k, h1, h2, h3⟩ := hper _ _ _ hx
        exact ⟨k, ref, by rw [← h.env]; exact h1, h2, rfl, h3⟩
      · obtain ⟨ll, hll, rfl⟩ := List.mem_map.mp hm
        have hrec : s.recent = some ll := by simpa using hll
        refine ⟨Or.inr ⟨?_, by simp⟩, fun x hx => by simp at hx⟩
        dsimp only
        rw [hrho, hrec, htr]; rfl
  unfold rows at hr
  simp only [List.cons_append, List.mem_cons, List.mem_append] at hr
  rcases hr with hr | ((hr | hr) | hr) | hr
  · subst hr
    refine ⟨?_, fun x hx => by simp [casesRow] at hx⟩
    unfold casesRow
    rw [h.env]
    cases hn : e.nCases with
    | none => exact Or.inl ⟨rfl, rfl, Or.inl rfl⟩
    | some k =>
      cases k with
      | zero => exact Or.inl ⟨rfl, rfl, Or.inr rfl⟩
      | succ k => exact Or.inr ⟨by simp [statTruth, hn, someCases], by simp [someCases]⟩
  · unfold convRows at hr
    obtain ⟨ll, hll, rfl⟩ := List.mem_map.mp hr
    have hrec : s.recent = some ll := by simpa using hll
    refine ⟨Or.inr ⟨by simp [statTruth, hrec], by simp⟩, fun x hx => ?_⟩
    obtain ⟨k, h1, h2, h3⟩ := hper _ _ _ hx
    exact ⟨k, ll, by rw [← h.env]; exact h1, h2, rfl, h3⟩
  · exact href .null .rhoNull s.cNull e.null h.null rfl rfl hr
  · exact href .nil .rhoNil s.cNil e.nil h.nil rfl rfl hr
  · exact href .const .rhoConst s.cConst e.const h.const rfl rfl hr

/-- **C126 (every row is right).** Whatever is computed, estimated and tabulated, in any order and as long as neither data nor specification
change: each row of the table shows the value its label names - the log likelihood of the last estimation, the reference log likelihoods, one minus
the ratio of the two - (or "not available" for the number of cases, if there are none), and the second column shows that value divided by the
number of cases. -/
theorem C126_rows (e : Env) (ops : List Op) (hops : ∀ op ∈ ops, keepsEnv op) (compute : Bool) (r : Row)
    (hr : r ∈ (table (ops.foldl step (fresh e)) compute).2) :
    (r.agg = none ∧ r.stat = .cases ∧ (e.nCases = none ∨ e.nCases = some 0) ∨
      statTruth e (lastEstimate ops) r.stat = r.agg ∧ r.agg ≠ none) ∧
    ∀ x, r.per = some x → ∃ n v, e.nCases = some n ∧ n ≠ 0 ∧ r.agg = some v ∧ x = v / .fin (n : ℝ) := by
  obtain ⟨h1, h2⟩ := st_history e ops hops (fresh e) (st_fresh e)
  obtain ⟨h3, h4⟩ := st_before e _ h1 compute
  have := st_rows e _ h3 r hr
  rw [h4, h2] at this
  simpa [fresh] using this

theorem st_keep_nil (s : St) (op : Op) (hop : keepsEnv op) (h : s.cNil ≠ .fin 0) (e : Env) (hg : st_Good e s) : (step s op).cNil = s.cNil := by
  cases op with
  | change _ => exact absurd hop (by simp [keepsEnv])
  | estimate ll => rfl
  | null c =>
    show (nullStep s c).cNil = _
    unfold nullStep; split_ifs
    · rfl
    · cases s.env.null <;> rfl
  | nil c =>
    show (nilStep s c).cNil = _
    unfold nilStep; split_ifs
    · rfl
    · cases hn : s.env.nil with
      | none => rfl
      | some v =>
        rcases hg.nil with h0 | h0
        · exact absurd h0 h
        · rw [hg.env, h0] at hn; simp at hn; simp [hn]
  | const =>
    show (constStep s).cNil = _
    unfold constStep; split_ifs
    · rfl
    · cases s.env.const <;> rfl
  | table c =>
    show (beforeRows s c).cNil = _
    unfold beforeRows nullStep; split_ifs
    · rfl
    · cases s.env.null <;> rfl
    · rfl

/-- **C126 (what is known is shown).** The number of cases is the first row; after an estimation its log likelihood is a row; the null value is
a row when it is asked for and not zero; and the log likelihood of no model is a row once it has been computed (if it is not zero). -/
theorem C126_shown (e : Env) (ops : List Op) (hops : ∀ op ∈ ops, keepsEnv op) (compute : Bool) :
    let t := (table (ops.foldl step (fresh e)) compute).2
    ((t.map Row.stat).head? = some .cases) ∧ (∀ ll, lastEstimate ops = some ll → ∃ r ∈ t, r.stat = .convergence ∧ r.agg = some ll) ∧
    (∀ v, e.null = some v → v ≠ .fin 0 → compute = true → ∃ r ∈ t, r.stat = .null ∧ r.agg = some v) ∧
    (∀ v c, e.nil = some v → v ≠ .fin 0 → .nil c ∈ ops → ∃ r ∈ t, r.stat = .nil ∧ r.agg = some v) := by
  obtain ⟨h1, h2⟩ := st_history e ops hops (fresh e) (st_fresh e)
  obtain ⟨h3, h4⟩ := st_before e _ h1 compute
  refine ⟨rfl, ?_, ?_, ?_⟩
  · intro ll hll
    have hrec : (beforeRows (ops.foldl step (fresh e)) compute).recent = some ll := by rw [h4, h2, hll]; rfl
    refine ⟨⟨.convergence, some ll, perCase (beforeRows (ops.foldl step (fresh e)) compute).env.nCases ll⟩, ?_, rfl, rfl⟩
    show _ ∈ rows _
    unfold rows convRows
    rw [hrec]; simp
  · intro v hv h0 hcomp
    have hc : (beforeRows (ops.foldl step (fresh e)) compute).cNull = v := by
      rcases h3.null with hz | hz
      · exfalso
        subst hcomp
        unfold beforeRows at hz
        split_ifs at hz with hh
        · unfold nullStep at hz
          rw [if_neg (fun hx => hx.1 hh.1), h1.env, hv] at hz
          exact h0 hz
        · exact hh ⟨hz, rfl⟩
      · rw [hv] at hz; exact (Option.some.inj hz).symm
    refine ⟨⟨.null, some v, perCase (beforeRows (ops.foldl step (fresh e)) compute).env.nCases v⟩, ?_, rfl, rfl⟩
    show _ ∈ rows _
    unfold rows refRows
    rw [hc, if_neg h0]; simp
  · intro v c hv h0 hmem
    have hkey : ∀ (ops : List Op) (s : St), st_Good e s → (∀ op ∈ ops, keepsEnv op) → (Op.nil c ∈ ops ∨ s.cNil = v) → (ops.foldl step s).cNil = v := by
      intro ops
      induction ops with
      | nil => intro s _ _ h; exact h.resolve_left (by simp)
      | cons op rest ih =>
        intro s hg hall h
        rw [List.foldl_cons]
        have hop := hall op (by simp)
        refine ih _ (st_step e s hg op hop).1 (fun o ho => hall o (by simp [ho])) ?_
        rcases h with h | h
        · rcases List.mem_cons.mp h with h | h
          · right
            subst h
            show (nilStep s c).cNil = v
            unfold nilStep
            split_ifs with hh
            · rcases hg.nil with h1 | h1
              · exact absurd h1 hh.1
              · rw [hv] at h1; exact (Option.some.inj h1).symm
            · rw [hg.env, hv]; rfl
          · exact Or.inl h
        · right
          rw [st_keep_nil s op hop (by rw [h]; exact h0) e hg, h]
    have hc1 := hkey ops (fresh e) (st_fresh e) hops (Or.inl hmem)
    have hc : (beforeRows (ops.foldl step (fresh e)) compute).cNil = v := by
      have := st_keep_nil _ (.table compute) trivial (by rw [hc1]; exact h0) e h1
      exact this.trans hc1
    refine ⟨⟨.nil, some v, perCase (beforeRows (ops.foldl step (fresh e)) compute).env.nCases v⟩, ?_, rfl, rfl⟩
    show _ ∈ rows _
    unfold rows
    simp only [List.cons_append, List.mem_cons, List.mem_append]
    refine Or.inr (Or.inl (Or.inr ?_))
    unfold refRows
    rw [hc, if_neg h0]; simp

/-- Ten cases, null and nil log likelihood -8, constants -6. -/
noncomputable def st_env : Env := ⟨some 10, some (.fin (-8)), some (.fin (-8)), some (.fin (-6))⟩

/-- Hundred cases: other data. -/
noncomputable def st_env' : Env := ⟨some 100, some (.fin (-80)), some (.fin (-80)), some (.fin (-60))⟩

/-- The theorems apply: a table after an estimation and after the value for no model was computed. -/
example : ∃ r ∈ (table ([Op.nil true, .estimate (.fin (-4)), .table true].foldl step (fresh st_env)) true).2, r.stat = .nil ∧ r.agg = some (.fin (-8)) :=
  (C126_shown st_env [Op.nil true, .estimate (.fin (-4)), .table true] (by simp [keepsEnv]) true).2.2.2 (.fin (-8)) true rfl
    (by intro h; have := X.fin.inj h; norm_num at this) (by simp)

/-- **C126 (fails: other data).** After the model is given other data the table goes on showing the log likelihoods of the old data, with the new number
of cases - and divides by it; even asking for the null value to be computed does not help. -/
theorem C126_fails_other_data :
    ∃ r ∈ (table ([Op.null true, .change st_env'].foldl step (fresh st_env)) true).2,
      r.stat = .null ∧ r.agg = some (.fin (-8)) ∧ r.per = some (.fin (-8 / 100)) ∧ st_env'.null = some (.fin (-80)) := by
  have h8 : (X.fin (-8) : X) ≠ .fin 0 := by intro h; have := X.fin.inj h; norm_num at this
  have hs : [Op.null true, .change st_env'].foldl step (fresh st_env) = ⟨st_env', .fin (-8), .fin 0, .fin 0, none⟩ := by
    simp only [List.foldl_cons, List.foldl_nil, step, nullStep, fresh, st_env]
    rw [if_neg (by simp)]; rfl
  rw [hs]
  refine ⟨⟨.null, some (.fin (-8)), some (.fin (-8 / 100))⟩, ?_, rfl, rfl, rfl, rfl⟩
  show _ ∈ rows (beforeRows _ true)
  unfold beforeRows
  rw [if_neg (fun h => h8 h.1)]
  unfold rows refRows convRows perCase someCases st_env'
  simp only [h8, if_false, Option.toList_none, List.map_nil, Option.map_some, List.append_nil, List.nil_append, List.cons_append, List.mem_cons]
  right; left
  congr 2
  show _ = X.div (.fin (-8)) (.fin ((100 : Nat) : ℝ))
  simp [X.div]

/-- **C126 (fails: rho squared of two data sets).** After other data, `loglike_null(use_cache=False)` renews the null value, but not the log likelihood at
convergence: the rho squared shown compares an estimation on the old data with the null value on the new. -/
theorem C126_fails_mixed_rho :
    ∃ r ∈ (table ([Op.estimate (.fin (-4)), .change st_env', .null false].foldl step (fresh st_env)) true).2,
      r.stat = .rhoNull ∧ r.agg = some (.fin (1 - 4 / 80)) := by
  have h8 : (X.fin (-80) : X) ≠ .fin 0 := by intro h; have := X.fin.inj h; norm_num at this
  have hs : [Op.estimate (.fin (-4)), .change st_env', .null false].foldl step (fresh st_env) =
      ⟨st_env', .fin (-80), .fin 0, .fin 0, some (.fin (-4))⟩ := by
    simp only [List.foldl_cons, List.foldl_nil, step, nullStep, fresh, st_env']
    rw [if_neg (by simp)]; rfl
  rw [hs]
  refine ⟨⟨.rhoNull, some (.fin (1 - 4 / 80)), none⟩, ?_, rfl, rfl⟩
  show _ ∈ rows (beforeRows _ true)
  unfold beforeRows
  rw [if_neg (fun h => h8 h.1)]
  unfold rows refRows convRows
  simp only [h8, if_false, Option.toList_some, List.map_cons, List.map_nil, List.cons_append, List.nil_append, List.mem_cons, List.mem_append]
  right; right; right; left
  congr 2
  show _ = X.fin 1 - X.div (.fin (-4)) (.fin (-80))
  simp only [X.div, show (-80 : ℝ) ≠ 0 by norm_num, if_false]
  show _ = X.fin (1 - _)
  norm_num

/-- **C126 (fails: a value of zero is not shown).** A reference log likelihood that is exactly zero (every case has one available alternative) counts as
not known. -/
theorem C126_fails_zero (e : Env) (h : e.nil = some (.fin 0)) :
    ∀ r ∈ (table ([Op.nil true].foldl step (fresh e)) false).2, r.stat ≠ .nil := by
  have hs : [Op.nil true].foldl step (fresh e) = ⟨e, .fin 0, .fin 0, .fin 0, none⟩ := by
    simp only [List.foldl_cons, List.foldl_nil, step, nilStep, fresh]
    rw [if_neg (by simp), h]; rfl
  rw [hs]
  intro r hr
  have : beforeRows (⟨e, .fin 0, .fin 0, .fin 0, none⟩ : St) false = ⟨e, .fin 0, .fin 0, .fin 0, none⟩ := by simp [beforeRows]
  change r ∈ rows _ at hr
  rw [this] at hr
  simp [rows, refRows, convRows] at hr
  rw [hr]; simp [casesRow]

end Larch.Props
