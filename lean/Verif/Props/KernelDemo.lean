import Verif.Lemmas.KernelRun

/-!
# A concrete case used to show that hypotheses of the kernel theorems are satisfiable

Three alternatives; nest 3 = {0, 1} with logsum parameter 1 (value 1/2); root 4 = {2, 3}.  One idca term
(parameter 0), one constant (parameter 2) on alternative 1, one quantity term (parameter 3).
-/

namespace Larch.Props

open Larch Larch.Kernel Larch.Spec

/-- tree arrays of the demonstration case -/
def demoTree : Tree where
  nAlts := 3
  nNodes := 5
  edges := [(3, 0), (3, 1), (4, 2), (4, 3)]
  muSlot k := if k = 0 then some 1 else none
  start k := if k = 0 then 0 else 2
  len _ := 2

theorem demoTree_wf : demoTree.WF where
  root := by decide
  edge := by decide
  sorted := by decide
  oneParent := by decide
  covered := by
    intro n hn
    have : n + 1 < 5 := hn
    have : n = 0 ∨ n = 1 ∨ n = 2 ∨ n = 3 := by omega
    rcases this with rfl | rfl | rfl | rfl
    · exact ⟨3, by decide⟩
    · exact ⟨3, by decide⟩
    · exact ⟨4, by decide⟩
    · exact ⟨4, by decide⟩
  slots := by
    intro k hk
    have : 3 + k < 5 := hk
    have : k = 0 ∨ k = 1 := by omega
    rcases this with rfl | rfl <;> decide

/-- declared utility functions of the demonstration case -/
noncomputable def demoTerms : Terms where
  q := [⟨1, 3, 1⟩]
  qScale := none
  ca := [⟨1, 0, 0⟩]
  co := [⟨1, 1, 2, none⟩]

/-- parameter values of the demonstration case -/
noncomputable def demoTheta : Nat → ℝ := fun p => if p = 1 then 1 / 2 else 1

/-- data of the demonstration case: alternative 2 is unavailable and its data is NaN -/
noncomputable def demoCase : Case where
  ch a := if a = 0 then 1 else 0
  av a := a < 2
  wt := 2
  co _ := .nan
  ca a _ := if a < 2 then .fin 1 else .nan
  ce := none

theorem demo_dense : DenseCase demoTree demoTerms demoTheta demoCase where
  wf := demoTree_wf
  dense := rfl
  mu := by
    intro n h1 h2
    have h1 : 3 ≤ n := h1
    have h2 : n < 5 := h2
    have : n = 3 ∨ n = 4 := by omega
    rcases this with rfl | rfl <;> simp [muN, demoTree, demoTheta]
  data := by
    constructor
    · intro a _ ha t _
      have : a ≤ 1 := by simpa [demoCase] using ha
      exact ⟨1, by simp [demoCase, this]⟩
    · intro t ht _ _ d hd
      simp [demoTerms] at ht
      subst ht
      simp at hd
  size := by
    intro _ a _ ha
    have : a ≤ 1 := by simpa [demoCase] using ha
    simp [size, demoTerms, caReal, demoCase, this]
    try exact Real.exp_pos _
  co := by
    intro t ht
    simp [demoTerms] at ht
    subst ht
    decide

theorem demo_chosen : ∀ a < demoTree.nAlts, demoCase.ch a ≠ 0 → demoCase.av a = true := by
  intro a _ hc
  have : a = 0 := by
    by_contra h
    exact hc (by simp [demoCase, h])
  subst this
  rfl

theorem demo_nonneg : ∀ a < demoTree.nAlts, 0 ≤ demoCase.ch a := by
  intro a _
  unfold demoCase
  simp only
  split_ifs <;> norm_num

theorem demo_separate : SeparateLogsums demoTree demoTerms := by
  intro n p h1 h2 hs
  have h1 : 3 ≤ n := h1
  have h2 : n < 5 := h2
  have hn : n = 3 := by
    by_contra h
    have : n = 4 := by omega
    subst this
    simp [demoTree] at hs
  subst hn
  have hp : p = 1 := by simpa [demoTree, eq_comm] using hs
  subst hp
  refine ⟨⟨?_, ?_, ?_⟩, ?_⟩
  · simp [demoTerms]
  · simp [demoTerms]
  · simp [demoTerms]
  · intro c hc hb
    exfalso
    have hlt : ∀ x, Below demoTree 3 x → x < 3 := by
      intro x hx
      induction hx with
      | single he => exact (demoTree_wf.edge _ he).1
      | tail _ he ih => exact lt_trans (demoTree_wf.edge _ he).1 ih
    have := hlt c hb
    have : 3 ≤ c := hc
    omega

end Larch.Props
