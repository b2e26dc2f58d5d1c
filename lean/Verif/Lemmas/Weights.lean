import Verif.Spec.Weights
import Mathlib.Data.List.Range
import Mathlib.Algebra.Order.BigOperators.Group.Finset
import Mathlib.Tactic.FieldSimp
import Mathlib.Tactic.Ring
import Mathlib.Tactic.Linarith

/-!
# Helper lemmas for the weights (C77)
-/

namespace Larch.Weights

open Larch.Spec

section
set_option linter.unusedSectionVars false
variable {K : Type} [Field K] [LinearOrder K]

theorem rowTotal_eq (row : Nat → K) (n : Nat) : rowTotal row n = ∑ j ∈ Finset.range n, row j := by
  unfold rowTotal
  induction n with
  | zero => simp
  | succ n ih => rw [List.range_succ, List.foldl_append, ih, Finset.sum_range_succ]; simp

theorem ensureWt_ch (w : W K) : (ensureWt w).ch = w.ch := by unfold ensureWt; split <;> rfl
theorem ensureWt_nCases (w : W K) : (ensureWt w).nCases = w.nCases := by unfold ensureWt; split <;> rfl
theorem ensureWt_nAlts (w : W K) : (ensureWt w).nAlts = w.nAlts := by unfold ensureWt; split <;> rfl
theorem ensureWt_norm (w : W K) : (ensureWt w).norm = w.norm := by unfold ensureWt; split <;> rfl
theorem ensureWt_caseWt (w : W K) (i : Nat) : caseWt (ensureWt w) i = caseWt w i := by
  cases w with | mk a b c d e => cases d <;> rfl
theorem ensureWt_some (w : W K) : ∃ wt, (ensureWt w).wt = some wt := by
  unfold ensureWt; split
  · exact ⟨_, rfl⟩
  · rename_i wt h; exact ⟨wt, h⟩

/-- What a run of the extraction loop over the cases in `l` (each once) leaves behind. -/
structure Extracted (w w' : W K) (P : Nat → Prop) : Prop where
  nCases : w'.nCases = w.nCases
  nAlts : w'.nAlts = w.nAlts
  norm : w'.norm = w.norm
  isSome : (∃ wt, w'.wt = some wt) ↔ ∃ wt, w.wt = some wt
  same : ∀ i, ¬ P i → (∀ j, w'.ch i j = w.ch i j) ∧ caseWt w' i = caseWt w i
  wt : ∀ i, P i → (∃ wt, w.wt = some wt) → caseWt w' i = caseWt w i * choiceTotal w i
  ch : ∀ i, P i → ∀ j, w'.ch i j = if choiceTotal w i ≠ 0 then w.ch i j / choiceTotal w i else w.ch i j

theorem extractOne_spec (w : W K) (i : Nat) : Extracted w (extractOne w i) (fun k => k = i) := by
  refine ⟨rfl, rfl, rfl, ?_, ?_, ?_, ?_⟩
  · unfold extractOne; cases h : w.wt <;> simp
  · intro k hk
    constructor
    · intro j; unfold extractOne; dsimp only; split_ifs <;> simp [hk]
    · unfold extractOne caseWt; cases h : w.wt <;> simp [hk]
  · rintro k rfl ⟨wt, hwt⟩
    unfold extractOne caseWt
    simp [hwt, rowTotal_eq, choiceTotal]
  · rintro k rfl j
    unfold extractOne
    simp only [rowTotal_eq, choiceTotal]
    by_cases h : ∑ j ∈ Finset.range w.nAlts, w.ch k j = 0 <;> simp [h]

theorem extractLoop_spec (l : List Nat) : ∀ w : W K, l.Nodup → Extracted w (l.foldl extractOne w) (fun k => k ∈ l) := by
  induction l with
  | nil => intro w _; exact ⟨rfl, rfl, rfl, Iff.rfl, fun _ _ => ⟨fun _ => rfl, rfl⟩, fun _ h => by simp at h, fun _ h => by simp at h⟩
  | cons a l ih =>
    intro w hnd
    obtain ⟨ha, hnd⟩ := List.nodup_cons.mp hnd
    have h1 := extractOne_spec w a
    have h2 := ih (extractOne w a) hnd
    rw [List.foldl_cons]
    have htot : ∀ k, k ≠ a → choiceTotal (extractOne w a) k = choiceTotal w k := by
      intro k hk
      unfold choiceTotal
      rw [h1.nAlts]
      exact Finset.sum_congr rfl (fun j _ => (h1.same k hk).1 j)
    refine ⟨h2.nCases.trans h1.nCases, h2.nAlts.trans h1.nAlts, h2.norm.trans h1.norm, h2.isSome.trans h1.isSome, ?_, ?_, ?_⟩
    · intro k hk
      rw [List.mem_cons, not_or] at hk
      have e1 := h2.same k hk.2
      have e2 := h1.same k hk.1
      exact ⟨fun j => (e1.1 j).trans (e2.1 j), e1.2.trans e2.2⟩
    · intro k hk hs
      rw [List.mem_cons] at hk
      rcases hk with rfl | hk
      · rw [(h2.same k ha).2, h1.wt k rfl hs]
      · have hka : k ≠ a := fun e => ha (e ▸ hk)
        rw [h2.wt k hk (h1.isSome.mpr hs), (h1.same k hka).2, htot k hka]
    · intro k hk j
      rw [List.mem_cons] at hk
      rcases hk with rfl | hk
      · rw [(h2.same k ha).1 j, h1.ch k rfl j]
      · have hka : k ≠ a := fun e => ha (e ▸ hk)
        rw [h2.ch k hk j, htot k hka, (h1.same k hka).1 j]

/-- The extraction as a whole: from the first case `i0` whose total is not one, the totals move to the weights. -/
theorem extract_spec (w : W K) :
    (extract w = w ∧ ∀ i < w.nCases, offTotal (choiceTotal w i) = false) ∨
    (∃ i0 < w.nCases, (∀ i < i0, offTotal (choiceTotal w i) = false) ∧
      Extracted (ensureWt w) (extract w) (fun k => i0 ≤ k ∧ k < w.nCases)) := by
  unfold extract
  cases h : firstOff w with
  | none =>
    left
    refine ⟨rfl, fun i hi => ?_⟩
    have := (List.find?_eq_none.mp h) i (List.mem_range.mpr hi)
    simpa [rowTotal_eq, choiceTotal] using this
  | some i0 =>
    right
    have h' := List.find?_range_eq_some.mp h
    obtain ⟨h1, h2, h3⟩ := h'
    have hlt := List.mem_range.mp h2
    refine ⟨i0, hlt, fun i hi => by simpa [rowTotal_eq, choiceTotal] using h3 i hi, ?_⟩
    have hl := extractLoop_spec (List.range' i0 (w.nCases - i0)) (ensureWt w) List.nodup_range'
    have hm : (fun k => k ∈ List.range' i0 (w.nCases - i0)) = (fun k => i0 ≤ k ∧ k < w.nCases) := by
      funext k
      rw [List.mem_range'_1]
      apply propext; constructor <;> intro hk <;> omega
    rw [hm] at hl
    exact hl

theorem scaleWeights_none {w : W K} (s : K) (h : (extract w).wt = none) :
    scaleWeights w s = if s = 1 then (extract w, .ok 1) else (extract w, .error .noWeights) := by
  simp only [scaleWeights, h]

theorem scaleWeights_some {w : W K} {wt : Nat → K} (s : K) (h : (extract w).wt = some wt) :
    scaleWeights w s = rescale (extract w) wt s := by simp only [scaleWeights, h]

theorem autoscaleWeights_none {w : W K} (h : (extract w).wt = none) : autoscaleWeights w = (extract w, .ok 1) := by
  simp only [autoscaleWeights, h]

theorem autoscaleWeights_some {w : W K} {wt : Nat → K} (h : (extract w).wt = some wt) :
    autoscaleWeights w = if (extract w).nCases = 0 then (extract w, .error .noCases)
      else rescale (extract w) wt (wtSum (extract w) wt / (extract w).nCases) := by simp only [autoscaleWeights, h]

end
end Larch.Weights
