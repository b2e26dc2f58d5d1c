import Verif.Model.Optimize
import Verif.Spec.Optimize
import Mathlib.Tactic.Linarith
import Mathlib.Tactic.Ring
import Mathlib.Tactic.FieldSimp
import Mathlib.Tactic.Positivity
import Mathlib.Tactic.NormNum

/-! # Line search lemmas -/

namespace Larch.Optim

open Larch.OptimSpec

variable {V D L : Type} [LinearOrder L]

theorem gt_iff (a b : Num L) : gt a b = true ↔ ∃ x y, b = some x ∧ a = some y ∧ x < y := by
  rcases a with _ | a <;> rcases b with _ | b <;> simp [gt]

theorem le_of_not_gt {a b : Num L} (ha : a ≠ none) (hb : b ≠ none) (h : gt a b = false) : le a b = true := by
  rcases a with _ | a <;> rcases b with _ | b <;> simp_all [gt, le]

theorem gt_of_not_le {a b : Num L} (ha : a ≠ none) (hb : b ≠ none) (h : le a b = false) : gt a b = true := by
  rcases a with _ | a <;> rcases b with _ | b <;> simp_all [gt, le]

theorem not_le_of_gt {a b : Num L} (h : gt a b = true) : le a b = false := by
  rcases a with _ | a <;> rcases b with _ | b <;> simp_all [gt, le]

section
variable {E : Type} (try_ : ℚ → V) (ev : V → E) (better : E → Bool) (smin : ℚ)

/-- Where the search stands when it ends. -/
theorem search_spec {fuel : ℕ} {s : ℚ} {t : Trial V E} (h : search try_ ev better smin fuel s = some t) :
    t.res = ev t.pos ∧ (∃ k : ℕ, t.pos = try_ (s / 2 ^ k) ∧ t.evals = k + 1) ∧ t.evals ≤ fuel := by
  induction fuel generalizing s t with
  | zero => simp [search] at h
  | succ n ih =>
    unfold search at h
    split at h
    · cases h; exact ⟨rfl, ⟨0, by simp, rfl⟩, by simp⟩
    · split at h
      · cases h; exact ⟨rfl, ⟨0, by simp, rfl⟩, by simp⟩
      · rw [Option.map_eq_some_iff] at h
        obtain ⟨t', h', rfl⟩ := h
        obtain ⟨h1, ⟨k, hk, hk'⟩, h2⟩ := ih h'
        refine ⟨h1, ⟨k + 1, ?_, by simp [hk']⟩, by simpa using h2⟩
        show t'.pos = _
        rw [hk, pow_succ']
        congr 1
        field_simp

/-- The step length afterwards: at most the initial one; if it was at least `smin` and the last point is better, still at least
`smin`. -/
theorem search_steplen {fuel : ℕ} {s : ℚ} {t : Trial V E} (h : search try_ ev better smin fuel s = some t) (hs : 0 ≤ s) :
    t.steplen ≤ s ∧ 0 ≤ t.steplen ∧ (smin ≤ s → better t.res = true → smin ≤ t.steplen) := by
  induction fuel generalizing s t with
  | zero => simp [search] at h
  | succ n ih =>
    unfold search at h
    split at h
    · cases h; exact ⟨le_refl _, hs, fun h _ => h⟩
    · rename_i hb
      split at h
      · cases h; exact ⟨by simp only; linarith, by simp only; linarith, fun _ hb' => absurd hb' hb⟩
      · rename_i hs2
        rw [Option.map_eq_some_iff] at h
        obtain ⟨t', h', rfl⟩ := h
        obtain ⟨h1, h2, h3⟩ := ih h' (by linarith)
        exact ⟨by simp only; linarith, h2, fun _ => h3 (not_lt.1 hs2)⟩

/-- The search ends after at most `n` evaluations if `s < smin * 2 ^ n`. -/
theorem search_total (n : ℕ) (hn : 1 ≤ n) {fuel : ℕ} (hf : n ≤ fuel) {s : ℚ} (hs : s < smin * 2 ^ n) :
    ∃ t, search try_ ev better smin fuel s = some t ∧ t.evals ≤ n := by
  induction fuel generalizing n s with
  | zero => omega
  | succ f ih =>
    unfold search
    split
    · exact ⟨_, rfl, hn⟩
    · split
      · exact ⟨_, rfl, hn⟩
      · rename_i hs2
        obtain _ | _ | n := n
        · omega
        · exact absurd (by simp at hs; linarith) hs2
        · obtain ⟨t, ht, hte⟩ := ih (n + 1) (by omega) (by omega) (s := s / 2) (by rw [pow_succ] at hs; linarith)
          exact ⟨{ t with evals := t.evals + 1 }, by rw [ht]; rfl, by simp only; omega⟩

/-- If every step between `smin` and `2 * smin` is better, the search finds one. -/
theorem search_success {fuel : ℕ} {s : ℚ} {t : Trial V E} (h : search try_ ev better smin fuel s = some t) (hs : smin ≤ s)
    (hb : ∀ s', smin ≤ s' → s' < 2 * smin → better (ev (try_ s')) = true) : better t.res = true := by
  induction fuel generalizing s t with
  | zero => simp [search] at h
  | succ n ih =>
    unfold search at h
    split at h
    · cases h; assumption
    · rename_i hb'
      split at h
      · rename_i hs2
        exact absurd (hb s hs (by linarith)) hb'
      · rename_i hs2
        rw [Option.map_eq_some_iff] at h
        obtain ⟨t', h', rfl⟩ := h
        exact ih (t := t') h' (not_lt.1 hs2)

end

theorem lastOf_cons (p q : V) (l : List V) : lastOf p (q :: l) = lastOf q l := by
  cases l <;> rfl

theorem improving_cons {f : V → Option L} {p q : V} {l : List V} (h : Better f p q) (hl : Improving f (q :: l)) :
    Improving f (p :: q :: l) := List.IsChain.cons_cons h hl

theorem better_trans {f : V → Option L} {p q r : V} (h : Better f p q) (h' : Better f q r) : Better f p r := by
  obtain ⟨a, b, h1, h2, h3⟩ := h
  obtain ⟨b', c, h4, h5, h6⟩ := h'
  rw [h2] at h4; cases h4
  exact ⟨a, c, h1, h5, h3.trans h6⟩

/-- The last point of an improving path is strictly better than the first, if there is another one. -/
theorem improving_last {f : V → Option L} {p : V} {l : List V} (h : Improving f (p :: l)) (hl : l ≠ []) :
    Better f p (lastOf p l) := by
  induction l generalizing p with
  | nil => exact absurd rfl hl
  | cons q r ih =>
    obtain ⟨h1, h2⟩ := List.isChain_cons_cons.1 h
    rw [lastOf_cons]
    rcases r with _ | ⟨x, r⟩
    · exact h1
    · exact better_trans h1 (ih h2 (by simp))

theorem improving_notWorse {f : V → Option L} {p : V} {l : List V} (h : Improving f (p :: l)) (hp : f p ≠ none) :
    NotWorse f p (lastOf p l) := by
  rcases l with _ | ⟨q, r⟩
  · obtain ⟨a, ha⟩ := Option.ne_none_iff_exists'.1 hp
    exact ⟨a, a, ha, ha, le_refl _⟩
  · obtain ⟨a, b, h1, h2, h3⟩ := improving_last h (by simp)
    exact ⟨a, b, h1, h2, h3.le⟩

end Larch.Optim
