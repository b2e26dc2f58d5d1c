import Verif.Model.Loading
import Mathlib.Logic.Function.Basic

/-!
# C66, C67: reuse of flows and of work arrays
-/

namespace Larch.Props

open Larch.Loading

/-! ## C66 -/

theorem join_pair (v : String) : String.join ((specOf [v]).map fun kv => kv.1 ++ kv.2) = v ++ v := by
  simp [specOf, String.join]

theorem append_self_inj {a b : String} (h : a ++ a = b ++ b) : a = b := by
  have h' : a.toList ++ a.toList = b.toList ++ b.toList := by
    rw [← String.toList_append, ← String.toList_append, h]
  have hl : a.toList.length = b.toList.length := by
    have := congrArg List.length h'
    simp only [List.length_append] at this
    omega
  exact String.toList_inj.1 (List.append_inj h' hl).1

/-- C66, single expressions (choice, availability and weight variables): whatever flow was kept from before for another single
expression, the values loaded are those of the expression asked for. -/
theorem C66_single_partial (tag : String) (extra : List String) (old : Option String) (v : String) :
    prep tag extra (old.map fun o => specOf [o]) (specOf [v]) = specOf [v] := by
  cases old with
  | none => rfl
  | some o =>
    simp only [Option.map_some, prep]
    split
    · rename_i h
      simp only [flowText, join_pair] at h
      have h' := congrArg String.toList h
      simp only [String.toList_append, List.append_assoc] at h'
      have h2 := List.append_cancel_left h'
      rw [← List.append_assoc, ← List.append_assoc] at h2
      have h3 := List.append_cancel_right h2
      rw [← String.toList_append, ← String.toList_append] at h3
      have := append_self_inj (String.toList_inj.1 h3)
      rw [this]
    · rfl

example : flowText "co" (specOf ["a", "b"]) ["h"] = "coaabbh" := by decide

/-- C66 fails: a model that used the data columns `x` and `xx`, and then uses the column `xxx` only, is given `x` and `xx` again. -/
theorem C66_fails_columns :
    prep "co" ["h"] (some (specOf ["x", "xx"])) (specOf ["xxx"]) = specOf ["x", "xx"] := by decide

/-- C66 fails: availability conditions of the same alternatives, the second with a digit moved from the condition of one alternative
to that of the other. -/
theorem C66_fails_avail :
    prep "av" [] (some [("1", "car"), ("2", "2*walk>1")]) [("1", "car2"), ("2", "*walk>1")] = [("1", "car"), ("2", "2*walk>1")] ∧
      prep "av" [] (some [("1", "a>1"), ("2", "20>b")]) [("1", "a>12"), ("2", "0>b")] = [("1", "a>1"), ("2", "20>b")] := by decide

/-! ## C67 -/

/-- The method fills the array of this kind. -/
def Writes : Op → Field → Prop
  | .probability _, _ => True
  | .d_loglike _, _ => True
  | .utility _, .utility => True
  | .logsums _, .utility => True
  | .loglike _, .utility => True
  | _, _ => False

/-- All sets of arrays made so far have smaller numbers than the next one. -/
def Ok (s : St) : Prop := ∀ c, s.cur = some c → c < s.next

theorem ok_step {s : St} (h : Ok s) (o : Op) : Ok (s.step o).1 := by
  have he : Ok s.ensure.1 := by
    unfold St.ensure
    split
    · rename_i c e; intro c' hc'; exact h c' hc'
    · intro c' hc'; simp only [Option.some.injEq] at hc'; subst hc'; exact Nat.lt_succ_self _
  cases o with
  | mangle => intro c hc; simp [St.step] at hc
  | _ => exact fun c hc => he c hc

theorem ensure_cur (s : St) : s.ensure.1.cur = some s.ensure.2 := by
  unfold St.ensure; split <;> simp_all

theorem ensure_heap {s : St} (c : Nat) (hc : c < s.next) : s.ensure.1.heap c = s.heap c ∧ s.next ≤ s.ensure.1.next := by
  unfold St.ensure
  split
  · exact ⟨rfl, Nat.le_refl _⟩
  · exact ⟨Function.update_of_ne (by omega) _ _, Nat.le_succ _⟩

theorem next_step (s : St) (o : Op) : s.next ≤ (s.step o).1.next := by
  have : s.next ≤ s.ensure.1.next := by unfold St.ensure; split <;> simp
  cases o with
  | mangle => simp [St.step]
  | _ => exact this

/-- A step does not change what a view shows unless it fills that kind of array in the set in use. -/
theorem read_step {s : St} (o : Op) (v : View) (hv : v.cell < s.next) (h : ¬ Writes o v.field ∨ s.cur ≠ some v.cell) :
    (s.step o).1.read v = s.read v := by
  obtain ⟨he, -⟩ := ensure_heap v.cell hv
  have hne : s.cur ≠ some v.cell → v.cell ≠ s.ensure.2 := by
    intro hc e
    unfold St.ensure at e
    split at e
    · rename_i c e'; exact hc (by rw [e', e])
    · simp at e; omega
  rcases v with ⟨c, f⟩
  cases o <;> cases f <;> simp only [Writes, not_true_eq_false, false_or, not_false_eq_true, true_or, St.step, St.read] at h ⊢ <;>
    by_cases hcc : c = s.ensure.2 <;> simp_all

theorem returned_read {s : St} (o : Op) {v : View} (h : (s.step o).2 = some v) :
    (s.step o).1.cur = some v.cell ∧
      ((∃ x, o = .probability x ∧ v.field = .probability ∧ (s.step o).1.read v = some x) ∨
       (∃ x, (o = .utility x ∨ o = .logsums x) ∧ v.field = .utility ∧ (s.step o).1.read v = some x)) := by
  cases o <;> simp only [St.step, Option.some.injEq, reduceCtorEq] at h <;> subst h <;>
    refine ⟨ensure_cur s, ?_⟩ <;> simp [St.step, St.read]

theorem view_kept (s : St) (h : Ok s) (o : Op) (v : View) (hv : (s.step o).2 = some v) (ops : List Op)
    (ho : ∀ o' ∈ ops, ¬ Writes o' v.field) : ((s.step o).1.run ops).read v = (s.step o).1.read v := by
  have hlt : v.cell < (s.step o).1.next := ok_step h o v.cell (returned_read o hv).1
  have key : ∀ (ops : List Op) (t : St), v.cell < t.next → (∀ o' ∈ ops, ¬ Writes o' v.field) → (t.run ops).read v = t.read v := by
    intro ops
    induction ops with
    | nil => intro t _ _; rfl
    | cons o' r ih =>
      intro t ht ho
      have e1 := ih (t.step o').1 (Nat.lt_of_lt_of_le ht (next_step t o')) (fun o'' h => ho o'' (by simp [h]))
      have e2 := read_step (s := t) o' v ht (Or.inl (ho o' (by simp)))
      exact e1.trans e2
  exact key ops _ hlt ho

theorem view_detached (s : St) (h : Ok s) (o : Op) (v : View) (hv : (s.step o).2 = some v) (ops : List Op) :
    ((s.step o).1.run (.mangle :: ops)).read v = (s.step o).1.read v := by
  have hlt : v.cell < (s.step o).1.next := ok_step h o v.cell (returned_read o hv).1
  have key : ∀ (ops : List Op) (t : St), v.cell < t.next → t.cur ≠ some v.cell → (t.run ops).read v = t.read v := by
    intro ops
    induction ops with
    | nil => intro t _ _; rfl
    | cons o' r ih =>
      intro t ht hc
      have hc' : (t.step o').1.cur ≠ some v.cell := by
        cases o' with
        | mangle => simp [St.step]
        | _ =>
          show t.ensure.1.cur ≠ some v.cell
          rw [ensure_cur]
          unfold St.ensure
          split
          · rename_i c e; rw [e] at hc; exact hc
          · simp; omega
      exact (ih (t.step o').1 (Nat.lt_of_lt_of_le ht (next_step t o')) hc').trans (read_step o' v ht (Or.inr hc))
  exact key ops (({ (s.step o).1 with cur := none } : St)) hlt (by simp)

theorem ok_run {s : St} (h : Ok s) (ops : List Op) : Ok (s.run ops) := by
  induction ops generalizing s with
  | nil => exact h
  | cons o r ih => exact ih (ok_step h o)

theorem ok_init : Ok {} := by intro c hc; simp at hc

/-- C67, for every history `pre` of calls on a new model: the array returned by `probability(x)` shows the probabilities at `x` after any
number of later calls, none of which fills an array of probabilities.  (Missing: the other calls, `C67_fails_*`.) -/
theorem C67_probability_kept_partial (pre : List Op) (x : Nat) (ops : List Op) (ho : ∀ o ∈ ops, ¬ Writes o .probability) :
    ∃ v, ((St.run {} pre).step (.probability x)).2 = some v ∧
      (((St.run {} pre).step (.probability x)).1.run ops).read v = some x := by
  have hok := ok_run ok_init pre
  generalize St.run {} pre = s at hok
  refine ⟨⟨s.ensure.2, .probability⟩, rfl, ?_⟩
  exact (view_kept s hok (.probability x) ⟨s.ensure.2, .probability⟩ rfl ops ho).trans (by simp [St.step, St.read])

/-- C67: after `mangle` the arrays returned before never change again, whatever is called. -/
theorem C67_detached (pre : List Op) (x : Nat) (ops : List Op) :
    (∃ v, ((St.run {} pre).step (.probability x)).2 = some v ∧
      (((St.run {} pre).step (.probability x)).1.run (.mangle :: ops)).read v = some x) ∧
    (∃ v, ((St.run {} pre).step (.utility x)).2 = some v ∧
      (((St.run {} pre).step (.utility x)).1.run (.mangle :: ops)).read v = some x) ∧
    (∃ v, ((St.run {} pre).step (.logsums x)).2 = some v ∧
      (((St.run {} pre).step (.logsums x)).1.run (.mangle :: ops)).read v = some x) := by
  have hok := ok_run ok_init pre
  generalize St.run {} pre = s at hok
  exact ⟨⟨⟨s.ensure.2, .probability⟩, rfl, (view_detached s hok (.probability x) ⟨s.ensure.2, .probability⟩ rfl ops).trans (by simp [St.step, St.read])⟩,
    ⟨⟨s.ensure.2, .utility⟩, rfl, (view_detached s hok (.utility x) ⟨s.ensure.2, .utility⟩ rfl ops).trans (by simp [St.step, St.read])⟩,
    ⟨⟨s.ensure.2, .utility⟩, rfl, (view_detached s hok (.logsums x) ⟨s.ensure.2, .utility⟩ rfl ops).trans (by simp [St.step, St.read])⟩⟩

/-- The hypothesis of `C67_probability_kept_partial` is met by log likelihoods, utilities and logsums in any number. -/
example (pre : List Op) (y z w : Nat) : ∃ v, ((St.run {} pre).step (.probability 7)).2 = some v ∧
    (((St.run {} pre).step (.probability 7)).1.run [.loglike y, .utility z, .logsums w]).read v = some 7 :=
  C67_probability_kept_partial pre 7 _ (by simp [Writes])

theorem ensure_of_cur {t : St} {c : Nat} (h : t.cur = some c) : t.ensure = (t, c) := by simp [St.ensure, h]

/-- C67 fails: the array returned by `probability(x)` shows other probabilities after `probability(y)`, or after any call that computes
a gradient at `y`. -/
theorem C67_fails_probability (s : St) (x y : Nat) :
    ∃ v, (s.step (.probability x)).2 = some v ∧ (s.step (.probability x)).1.read v = some x ∧
      ((s.step (.probability x)).1.run [.probability y]).read v = some y ∧
      ((s.step (.probability x)).1.run [.d_loglike y]).read v = some y := by
  have h : (s.step (.probability x)).1.ensure = ((s.step (.probability x)).1, s.ensure.2) := ensure_of_cur (ensure_cur s)
  refine ⟨⟨s.ensure.2, .probability⟩, rfl, by simp [St.step, St.read], ?_, ?_⟩
  · show ((s.step (.probability x)).1.step (.probability y)).1.read _ = _
    generalize s.step (.probability x) = t at h
    simp only [St.step, h, St.read, Function.update_self]
  · show ((s.step (.probability x)).1.step (.d_loglike y)).1.read _ = _
    generalize s.step (.probability x) = t at h
    simp only [St.step, h, St.read, Function.update_self]

/-- C67 fails: the array returned by `logsums(x)` changes with every later evaluation. -/
theorem C67_fails_logsums (s : St) (x y : Nat) :
    ∃ v, (s.step (.logsums x)).2 = some v ∧ (s.step (.logsums x)).1.read v = some x ∧
      ((s.step (.logsums x)).1.run [.loglike y]).read v = some y := by
  have h : (s.step (.logsums x)).1.ensure = ((s.step (.logsums x)).1, s.ensure.2) := ensure_of_cur (ensure_cur s)
  refine ⟨⟨s.ensure.2, .utility⟩, rfl, by simp [St.step, St.read], ?_⟩
  show ((s.step (.logsums x)).1.step (.loglike y)).1.read _ = _
  generalize s.step (.logsums x) = t at h
  simp only [St.step, h, St.read, Function.update_self]

end Larch.Props
