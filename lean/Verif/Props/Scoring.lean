import Verif.Model.Scoring
import Mathlib.Tactic.Linarith
import Mathlib.Tactic.NormNum
import Mathlib.Order.Interval.Finset.Nat
import Mathlib.Data.Real.Archimedean
import Mathlib.Algebra.Order.BigOperators.Group.Finset
import Mathlib.Algebra.Order.Field.Basic

/-!
# C132: ranks of alternatives and top-k accuracy
-/

namespace Larch.Props

open Larch.Scoring Finset

/-- Number of alternatives better than `a`. -/
noncomputable def better (m : Nat) (p : Nat → ℝ) (a : Nat) : Nat := by
  classical exact ((range m).filter (fun b => p a < p b)).card

/-- Number of other alternatives as good as `a`. -/
noncomputable def tied (m : Nat) (p : Nat → ℝ) (a : Nat) : Nat := by
  classical exact ((range m).filter (fun b => b ≠ a ∧ p b = p a)).card

theorem sc_nodup {m : Nat} {p : Nat → ℝ} {t : List Nat} (h : IsArgsort m p t) : t.Nodup := h.1.nodup_iff.mpr List.nodup_range

theorem sc_length {m : Nat} {p : Nat → ℝ} {t : List Nat} (h : IsArgsort m p t) : t.length = m := by rw [h.1.length_eq, List.length_range]

theorem sc_idx {m : Nat} {p : Nat → ℝ} {t : List Nat} (h : IsArgsort m p t) {a : Nat} (ha : a < m) : t.idxOf a < m := by
  rw [← sc_length h]; exact List.idxOf_lt_length_of_mem (h.1.mem_iff.mpr (List.mem_range.mpr ha))

theorem sc_le {m : Nat} {p : Nat → ℝ} {t : List Nat} (h : IsArgsort m p t) {a b : Nat} (ha : a < m) (hb : b < m) (hab : t.idxOf a ≤ t.idxOf b) :
    p a ≤ p b := by
  rcases Nat.lt_or_eq_of_le hab with hlt | he
  · have h1 : t.idxOf a < t.length := by rw [sc_length h]; exact sc_idx h ha
    have h2 : t.idxOf b < t.length := by rw [sc_length h]; exact sc_idx h hb
    have := List.pairwise_iff_getElem.mp h.2 _ _ h1 h2 hlt
    simpa using this
  · have := (List.idxOf_inj (h.1.mem_iff.mpr (List.mem_range.mpr ha))).mp he
    rw [this]

/-- The alternatives placed after `a` are as many as its rank says. -/
theorem sc_rank {m : Nat} {p : Nat → ℝ} {t : List Nat} (h : IsArgsort m p t) {a : Nat} (ha : a < m) :
    rank m t a = ((range m).filter (fun b => t.idxOf a < t.idxOf b)).card + 1 := by
  have hmem : ∀ b, b < m ↔ b ∈ t := fun b => by rw [h.1.mem_iff, List.mem_range]
  have hcard : ((range m).filter (fun b => t.idxOf a < t.idxOf b)).card = (Finset.Ico (t.idxOf a + 1) m).card := by
    refine Finset.card_bij (fun b _ => t.idxOf b) ?_ ?_ ?_
    · intro b hb
      simp only [mem_filter, Finset.mem_range] at hb
      exact Finset.mem_Ico.mpr ⟨hb.2, sc_idx h hb.1⟩
    · intro b hb c hc e
      simp only [mem_filter, Finset.mem_range] at hb hc
      exact (List.idxOf_inj ((hmem b).mp hb.1)).mp e
    · intro i hi
      obtain ⟨h1, h2⟩ := Finset.mem_Ico.mp hi
      have hl : i < t.length := by rw [sc_length h]; exact h2
      refine ⟨t[i], ?_, ?_⟩
      · simp only [mem_filter, Finset.mem_range]
        refine ⟨(hmem _).mpr (List.getElem_mem hl), ?_⟩
        rw [(sc_nodup h).idxOf_getElem]; omega
      · exact (sc_nodup h).idxOf_getElem i hl
  rw [hcard, Nat.card_Ico]
  unfold rank
  have := sc_idx h ha
  omega

/-- **C132.**  Whatever order the sort gives equal values, the ranks of a row are `1, …, m`, each once; a better alternative has a smaller rank; and the rank
of an alternative is one more than the number of better ones, plus at most the number of equally good others. -/
theorem C132_ranks (m : Nat) (p : Nat → ℝ) (t : List Nat) (h : IsArgsort m p t) :
    (∀ r, 1 ≤ r → r ≤ m → ∃ a, a < m ∧ rank m t a = r ∧ ∀ b, b < m → rank m t b = r → b = a) ∧
    (∀ a b, a < m → b < m → p b < p a → rank m t a < rank m t b) ∧
    (∀ a, a < m → better m p a + 1 ≤ rank m t a ∧ rank m t a ≤ better m p a + tied m p a + 1) := by
  refine ⟨?_, ?_, ?_⟩
  · intro r h1 h2
    have hl : m - r < t.length := by rw [sc_length h]; omega
    refine ⟨t[m - r], List.mem_range.mp (h.1.mem_iff.mp (List.getElem_mem hl)), ?_, ?_⟩
    · unfold rank; rw [(sc_nodup h).idxOf_getElem]; omega
    · intro b hb e
      have hi := sc_idx h hb
      unfold rank at e
      have : t.idxOf b = m - r := by omega
      have hb' : b ∈ t := h.1.mem_iff.mpr (List.mem_range.mpr hb)
      have := List.getElem_idxOf (List.idxOf_lt_length_of_mem hb')
      simp_all
  · intro a b ha hb hp
    have h1 := sc_idx h ha
    have h2 := sc_idx h hb
    unfold rank
    have : ¬ t.idxOf a ≤ t.idxOf b := fun hle => absurd (sc_le h ha hb hle) (not_le.mpr hp)
    omega
  · intro a ha
    rw [sc_rank h ha]
    classical
    constructor
    · unfold better
      refine Nat.add_le_add_right (Finset.card_le_card ?_) 1
      intro b hb
      simp only [mem_filter, Finset.mem_range] at hb ⊢
      refine ⟨hb.1, ?_⟩
      by_contra hc
      exact absurd (sc_le h hb.1 ha (not_lt.mp hc)) (not_le.mpr hb.2)
    · unfold better tied
      refine Nat.add_le_add_right ?_ 1
      refine le_trans (Finset.card_le_card ?_) (Finset.card_union_le _ _)
      intro b hb
      simp only [mem_filter, Finset.mem_range, mem_union] at hb ⊢
      have hle := sc_le h ha hb.1 hb.2.le
      rcases lt_or_eq_of_le hle with hlt | he
      · exact Or.inl ⟨hb.1, hlt⟩
      · refine Or.inr ⟨hb.1, ?_, he.symm⟩
        rintro rfl
        exact lt_irrefl _ hb.2

/-- The choice of alternative `a` in case `c`, times the weight of the case (1 if there are no weights). -/
def mass (ch : Nat → Nat → ℝ) (w : Option (Nat → ℝ)) (c a : Nat) : ℝ := ch c a * (match w with | none => 1 | some w => w c)

/-- The part of the choices that fall on one of the `k` best alternatives of their case. -/
noncomputable def shareOfBest (n m : Nat) (p : Nat → Nat → ℝ) (ch : Nat → Nat → ℝ) (w : Option (Nat → ℝ)) (k : Nat) : ℝ :=
  (∑ c ∈ range n, ∑ a ∈ (range m).filter (fun a => better m (p c) a < k), mass ch w c a) / (∑ c ∈ range n, ∑ a ∈ range m, mass ch w c a)

theorem sc_weighted (ch : Nat → Nat → ℝ) (w : Option (Nat → ℝ)) : weighted ch w = mass ch w := by
  funext c a
  unfold weighted mass
  cases w with
  | none => simp
  | some w => rfl

theorem sc_topK (n m : Nat) (r : Nat → Nat → Nat) (q : Nat → Nat → ℝ) (hq : ∀ c a, 0 ≤ q c a) (k : Nat) :
    topK n m r q k = (∑ c ∈ range n, ∑ a ∈ range m, if r c a ≤ k then q c a else 0) / (∑ c ∈ range n, ∑ a ∈ range m, q c a) := by
  unfold topK
  congr 1
  refine Finset.sum_congr rfl (fun c _ => Finset.sum_congr rfl (fun a _ => ?_))
  split
  · split <;> simp
  · rename_i h
    have : q c a = 0 := le_antisymm (not_lt.mp h) (hq c a)
    simp [this]

/-- **C132.**  Without ties, `top_k_accuracy` is the weighted share of choices that fall on one of the `k` most probable alternatives. -/
theorem C132_accuracy (n m : Nat) (p ch : Nat → Nat → ℝ) (w : Option (Nat → ℝ)) (t : Nat → List Nat) (ht : ∀ c, c < n → IsArgsort m (p c) (t c))
    (hp : ∀ c, c < n → ∀ a b, a < m → b < m → p c a = p c b → a = b) (hm : ∀ c a, 0 ≤ mass ch w c a) (k : Nat) :
    accuracy n m t ch w k = shareOfBest n m p ch w k := by
  unfold accuracy shareOfBest
  rw [sc_weighted, sc_topK _ _ _ _ hm]
  congr 1
  refine Finset.sum_congr rfl (fun c hc => ?_)
  rw [Finset.sum_filter]
  refine Finset.sum_congr rfl (fun a ha => ?_)
  have hc' := Finset.mem_range.mp hc
  have ha' := Finset.mem_range.mp ha
  obtain ⟨l, u⟩ := (C132_ranks m (p c) (t c) (ht c hc')).2.2 a ha'
  have h0 : tied m (p c) a = 0 := by
    unfold tied
    classical
    rw [Finset.card_eq_zero, Finset.filter_eq_empty_iff]
    intro b hb hcon
    exact hcon.1 (hp c hc' b a (Finset.mem_range.mp hb) ha' hcon.2)
  have : rank m (t c) a ≤ k ↔ better m (p c) a < k := by omega
  simp only [this]

/-- **C132.**  With or without ties, the accuracy is between 0 and 1, does not decrease with `k`, and is 1 when `k` is the number of alternatives. -/
theorem C132_range (n m : Nat) (ch : Nat → Nat → ℝ) (w : Option (Nat → ℝ)) (t : Nat → List Nat)
    (hm : ∀ c a, 0 ≤ mass ch w c a) (k l : Nat) (hkl : k ≤ l) :
    0 ≤ accuracy n m t ch w k ∧ accuracy n m t ch w k ≤ accuracy n m t ch w l ∧ accuracy n m t ch w l ≤ 1 ∧
    ((∑ c ∈ range n, ∑ a ∈ range m, mass ch w c a) ≠ 0 → accuracy n m t ch w m = 1) := by
  unfold accuracy
  rw [sc_weighted, sc_topK _ _ _ _ hm, sc_topK _ _ _ _ hm, sc_topK _ _ _ _ hm]
  have hs : 0 ≤ ∑ c ∈ range n, ∑ a ∈ range m, mass ch w c a := Finset.sum_nonneg (fun c _ => Finset.sum_nonneg (fun a _ => hm c a))
  refine ⟨?_, ?_, ?_, ?_⟩
  · refine div_nonneg (Finset.sum_nonneg (fun c _ => Finset.sum_nonneg (fun a _ => ?_))) hs
    split
    · exact hm c a
    · exact le_refl _
  · refine div_le_div_of_nonneg_right (Finset.sum_le_sum (fun c _ => Finset.sum_le_sum (fun a _ => ?_))) hs
    split
    · rename_i h
      rw [if_pos (le_trans h hkl)]
    · split
      · exact hm c a
      · exact le_refl _
  · refine div_le_one_of_le₀ (Finset.sum_le_sum (fun c _ => Finset.sum_le_sum (fun a _ => ?_))) hs
    split
    · exact le_refl _
    · exact hm c a
  · intro hne
    rw [div_eq_one_iff_eq hne]
    refine Finset.sum_congr rfl (fun c _ => Finset.sum_congr rfl (fun a _ => ?_))
    rw [if_pos (by unfold rank; omega)]

example : IsArgsort 3 (fun a => if a = 0 then 1/2 else if a = 1 then 1/6 else 1/3) [1, 2, 0] := by
  constructor
  · decide
  · norm_num

/-- **C132 fails.**  Alternatives with the same probability are not treated alike: with equal probabilities, the accuracy at 1 is the share of whichever
alternative the sort puts last. -/
theorem C132_fails_ties : ∃ (p ch : Nat → Nat → ℝ) (s t : Nat → List Nat), IsArgsort 2 (p 0) (s 0) ∧ IsArgsort 2 (p 0) (t 0) ∧
    accuracy 1 2 s ch none 1 = 0 ∧ accuracy 1 2 t ch none 1 = 1 := by
  refine ⟨fun _ _ => 1/2, fun _ a => if a = 0 then 1 else 0, fun _ => [0, 1], fun _ => [1, 0], ⟨by decide, by simp⟩, ⟨by decide, by simp⟩, ?_, ?_⟩
  · unfold accuracy topK weighted rank
    simp [Finset.sum_range_succ, List.idxOf_cons]
  · unfold accuracy topK weighted rank
    simp [Finset.sum_range_succ, List.idxOf_cons]

end Larch.Props
