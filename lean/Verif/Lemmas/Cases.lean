import Verif.Model.Cases
import Mathlib.Tactic.Linarith
import Mathlib.Tactic.Ring
import Mathlib.Algebra.BigOperators.Group.Finset.Basic
import Mathlib.Algebra.BigOperators.Group.Finset.Piecewise
import Mathlib.Order.Interval.Finset.Basic
import Mathlib.Data.Int.Interval

namespace Larch.Cases

theorem pyRange_step {a b s : Int} (hs : 0 < s) (h : a < b) : pyRange a b s = a :: pyRange (a + s) b s := by
  rw [pyRange]; simp [hs, h]

theorem pyRange_nil {a b s : Int} (h : b ≤ a) : pyRange a b s = [] := by
  rw [pyRange]; simp; omega

theorem mem_pyRange {b s : Int} (hs : 0 < s) (c : Int) :
    ∀ (n : Nat) (a : Int), (b - a).toNat ≤ n → (c ∈ pyRange a b s ↔ a ≤ c ∧ c < b ∧ s ∣ c - a) := by
  intro n
  induction n with
  | zero =>
    intro a ha
    rw [pyRange_nil (by omega)]
    simp; intros; omega
  | succ n ih =>
    intro a ha
    by_cases h : a < b
    · rw [pyRange_step hs h, List.mem_cons, ih (a + s) (by omega)]
      constructor
      · rintro (rfl | ⟨h1, h2, h3⟩)
        · exact ⟨le_refl _, h, by simp⟩
        · refine ⟨by omega, h2, ?_⟩
          have : c - a = (c - (a + s)) + s := by ring
          rw [this]; exact dvd_add h3 (dvd_refl s)
      · rintro ⟨h1, h2, k, hk⟩
        rcases eq_or_lt_of_le h1 with h1 | h1
        · left; exact h1.symm
        · right
          have hk1 : 1 ≤ k := by
            by_contra hc
            have : k ≤ 0 := by omega
            have := mul_nonpos_of_nonneg_of_nonpos hs.le this
            omega
          have : s ≤ s * k := le_mul_of_one_le_right hs.le hk1
          refine ⟨by omega, h2, ⟨k - 1, ?_⟩⟩
          rw [mul_sub, ← hk]; ring
    · rw [pyRange_nil (by omega)]
      simp; intros; omega

theorem mem_range {a b s : Int} (hs : 0 < s) (c : Int) :
    c ∈ pyRange a b s ↔ a ≤ c ∧ c < b ∧ s ∣ c - a := mem_pyRange hs c _ a (le_refl _)

theorem pyRange_sorted {b s : Int} (hs : 0 < s) :
    ∀ (n : Nat) (a : Int), (b - a).toNat ≤ n → (pyRange a b s).Pairwise (· < ·) := by
  intro n
  induction n with
  | zero => intro a ha; rw [pyRange_nil (by omega)]; exact List.Pairwise.nil
  | succ n ih =>
    intro a ha
    by_cases h : a < b
    · rw [pyRange_step hs h]
      refine List.Pairwise.cons ?_ (ih _ (by omega))
      intro c hc
      have := (mem_range hs c).mp hc
      omega
    · rw [pyRange_nil (by omega)]; exact List.Pairwise.nil

theorem range_sorted {a b s : Int} (hs : 0 < s) : (pyRange a b s).Pairwise (· < ·) :=
  pyRange_sorted hs _ a (le_refl _)

/-- ceil division by a positive number -/
theorem ceil_step {d s : Int} (hs : 0 < s) :
    d.fdiv s + (if d.fmod s ≠ 0 then 1 else 0) =
    (d - s).fdiv s + (if (d - s).fmod s ≠ 0 then 1 else 0) + 1 := by
  rw [Int.fdiv_eq_ediv_of_nonneg _ hs.le, Int.fdiv_eq_ediv_of_nonneg _ hs.le, Int.fmod_eq_emod_of_nonneg _ hs.le,
    Int.fmod_eq_emod_of_nonneg _ hs.le]
  have e1 : (d - s) / s = d / s - 1 := by
    have := Int.add_mul_ediv_right d (-1) hs.ne'
    rw [← this.trans (by ring : _ = d / s - 1)]; congr 1; ring
  have e2 : (d - s) % s = d % s := by
    rw [Int.sub_emod_right]
  rw [e1, e2]; ring

theorem pyRange_length {b s : Int} (hs : 0 < s) :
    ∀ (n : Nat) (a : Int), (b - a).toNat ≤ n → a < b + s →
      ((pyRange a b s).length : Int) = (b - a).fdiv s + (if (b - a).fmod s ≠ 0 then 1 else 0) := by
  intro n
  induction n with
  | zero =>
    intro a ha hb
    rw [pyRange_nil (by omega)]
    rw [Int.fdiv_eq_ediv_of_nonneg _ hs.le, Int.fmod_eq_emod_of_nonneg _ hs.le]
    by_cases h0 : b - a = 0
    · simp [h0]
    · have hneg : b - a < 0 := by omega
      have e1 : (b - a) / s = -1 := by
        have := Int.add_mul_ediv_right (b - a) 1 hs.ne'
        have h2 : (b - a + 1 * s) / s = 0 := Int.ediv_eq_zero_of_lt (by omega) (by omega)
        omega
      have e2 : (b - a) % s ≠ 0 := by
        intro hc
        have := Int.emod_add_mul_ediv (b - a) s
        rw [hc, e1] at this
        omega
      simp [e1, e2]
  | succ n ih =>
    intro a ha hb
    by_cases h : a < b
    · rw [pyRange_step hs h, List.length_cons]
      push_cast
      rw [ih (a + s) (by omega) (by omega), ceil_step hs (d := b - a)]
      rw [show b - (a + s) = b - a - s by ring]
    · -- covered by the first case
      have := pyRange_nil (s := s) (show b ≤ a by omega)
      rw [this]
      rw [Int.fdiv_eq_ediv_of_nonneg _ hs.le, Int.fmod_eq_emod_of_nonneg _ hs.le]
      by_cases h0 : b - a = 0
      · simp [h0]
      · have e1 : (b - a) / s = -1 := by
          have := Int.add_mul_ediv_right (b - a) 1 hs.ne'
          have h2 : (b - a + 1 * s) / s = 0 := Int.ediv_eq_zero_of_lt (by omega) (by omega)
          omega
        have e2 : (b - a) % s ≠ 0 := by
          intro hc
          have := Int.emod_add_mul_ediv (b - a) s
          rw [hc, e1] at this
          omega
        simp [e1, e2]

theorem pyRange_get {b s : Int} (hs : 0 < s) :
    ∀ (i : Nat) (a : Int) (c : Int), (pyRange a b s)[i]? = some c → c = a + i * s := by
  intro i
  induction i with
  | zero =>
    intro a c h
    by_cases hab : a < b
    · rw [pyRange_step hs hab] at h; simp at h; simp [h]
    · rw [pyRange_nil (by omega)] at h; simp at h
  | succ i ih =>
    intro a c h
    by_cases hab : a < b
    · rw [pyRange_step hs hab] at h
      simp only [List.getElem?_cons_succ] at h
      rw [ih _ _ h]; push_cast; ring
    · rw [pyRange_nil (by omega)] at h; simp at h

theorem cLocal_get {r : Req} (hs : 0 < r.step) {b : Int} {i : Nat} {c : Int}
    (h : (pyRange r.start b r.step)[i]? = some c) : cLocal r c = i := by
  rw [pyRange_get hs i _ _ h, cLocal, Int.fdiv_eq_ediv_of_nonneg _ hs.le,
    show r.start + (i : Int) * r.step - r.start = i * r.step by ring, Int.mul_ediv_cancel _ hs.ne']

theorem cLocal_inj {r : Req} (hs : 0 < r.step) {b c c' : Int} (h : c ∈ pyRange r.start b r.step)
    (h' : c' ∈ pyRange r.start b r.step) (he : cLocal r c = cLocal r c') : c = c' := by
  obtain ⟨_, _, k, hk⟩ := (mem_range hs c).mp h
  obtain ⟨_, _, k', hk'⟩ := (mem_range hs c').mp h'
  unfold cLocal at he
  rw [Int.fdiv_eq_ediv_of_nonneg _ hs.le, Int.fdiv_eq_ediv_of_nonneg _ hs.le, hk, hk',
    Int.mul_ediv_cancel_left _ hs.ne', Int.mul_ediv_cancel_left _ hs.ne'] at he
  rw [he] at hk
  omega

/-! ## The loop -/

theorem foldl_ll (r : Req) (persist : Bool) (f : Int → ℝ) (g : Int → Nat → ℝ) (l : List (Nat × Int)) :
    ∀ s : Acc, (l.foldl (turn r persist f g) s).ll =
      s.ll + (((l.map Prod.snd).filter (fun c => !skips r c)).map f).sum := by
  induction l with
  | nil => simp
  | cons tc l ih =>
    intro s
    rw [List.foldl_cons, ih]
    unfold turn
    by_cases h : skips r tc.2
    · simp [h]
    · simp [h]; ring

theorem foldl_case (r : Req) (f : Int → ℝ) (g : Int → Nat → ℝ) (i : Int) (l : List (Nat × Int)) :
    ∀ s : Acc, (l.foldl (turn r true f g) s).llCase i =
      s.llCase i + (((l.map Prod.snd).filter (fun c => !skips r c && decide (cLocal r c = i))).map f).sum := by
  induction l with
  | nil => simp
  | cons tc l ih =>
    intro s
    rw [List.foldl_cons, ih]
    unfold turn
    by_cases h : skips r tc.2
    · simp [h]
    · by_cases h2 : cLocal r tc.2 = i
      · simp [h, h2]; ring
      · simp [h, h2, Ne.symm h2]

theorem list_sum_range (f : Nat → ℝ) (n : Nat) : ((List.range n).map f).sum = ∑ t ∈ Finset.range n, f t := by
  induction n with
  | zero => simp
  | succ n ih => rw [List.range_succ, Finset.sum_range_succ, ← ih]; simp

theorem foldl_dll (r : Req) (persist : Bool) (f : Int → ℝ) (g : Int → Nat → ℝ) (p nT : Nat)
    (l : List (Nat × Int)) (hl : ∀ tc ∈ l, tc.1 < nT) :
    ∀ s : Acc, ((List.range nT).map (fun t => (l.foldl (turn r persist f g) s).dllTotal t p)).sum =
      ((List.range nT).map (fun t => s.dllTotal t p)).sum +
        (((l.map Prod.snd).filter (fun c => !skips r c)).map (fun c => g c p)).sum := by
  induction l with
  | nil => simp
  | cons tc l ih =>
    intro s
    rw [List.foldl_cons, ih (fun x hx => hl x (List.mem_cons_of_mem _ hx))]
    by_cases h : skips r tc.2
    · simp [turn, h]
    · have key : ((List.range nT).map (fun t => (turn r persist f g s tc).dllTotal t p)).sum =
          ((List.range nT).map (fun t => s.dllTotal t p)).sum + g tc.2 p := by
        have hlt := hl tc List.mem_cons_self
        rw [list_sum_range, list_sum_range]
        have : ∀ t, (turn r persist f g s tc).dllTotal t p = s.dllTotal t p + (if t = tc.1 then g tc.2 p else 0) := by
          intro t
          simp only [turn, h]
          by_cases ht : t = tc.1 <;> simp [ht]
        simp_rw [this]
        rw [Finset.sum_add_distrib]
        congr 1
        rw [Finset.sum_ite_eq' ]
        simp [hlt]
      rw [key]
      simp [h]; ring

theorem sum_list_eq_finset {a b s : Int} (hs : 0 < s) (q : Int → Bool) (f : Int → ℝ) :
    (((pyRange a b s).filter q).map f).sum =
      ∑ c ∈ (Finset.Ico a b).filter (fun c => s ∣ c - a ∧ q c = true), f c := by
  have hnd : ((pyRange a b s).filter q).Nodup :=
    List.Nodup.filter _ ((range_sorted hs).imp (fun h => ne_of_lt h))
  rw [← List.sum_toFinset f hnd]
  apply Finset.sum_congr
  · ext c
    simp only [List.mem_toFinset, List.mem_filter, mem_range hs, Finset.mem_filter, Finset.mem_Ico]
    tauto
  · intros; rfl

end Larch.Cases
