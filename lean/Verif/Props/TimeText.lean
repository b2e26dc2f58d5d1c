import Verif.Spec.TimeText
import Mathlib.Tactic.Linarith
import Mathlib.Tactic.NormNum
import Mathlib.Tactic.Ring
import Mathlib.Tactic.FieldSimp
import Mathlib.Tactic.Positivity

/-! # C198: durations in the log -/

namespace Larch.Props

open Larch.TimeText Larch.Spec

theorem tt_cents_near (x : ℚ) : |(cents x : ℚ) / 100 - x| ≤ 1 / 200 := by
  have h1 := Int.floor_le (100 * x)
  have h2 := Int.lt_floor_add_one (100 * x)
  rw [abs_le]
  unfold cents
  split_ifs <;> push_cast <;> constructor <;> linarith

theorem tt_cents_mono {x y : ℚ} (h : x ≤ y) : cents x ≤ cents y := by
  have hf : ⌊100 * x⌋ ≤ ⌊100 * y⌋ := Int.floor_mono (by linarith)
  rcases lt_or_eq_of_le hf with hl | he
  · have h3 : cents x ≤ ⌊100 * x⌋ + 1 := by unfold cents; split_ifs <;> omega
    have h4 : ⌊100 * y⌋ ≤ cents y := by unfold cents; split_ifs <;> omega
    omega
  · unfold cents
    rw [he]
    split_ifs <;> first | omega | (exfalso; linarith)

theorem tt_cents_shift (x : ℚ) (k n : Int) (hk : 2 ∣ k) : cents (x + (k * n : Int) ) = cents x + 100 * (k * n) := by
  obtain ⟨j, rfl⟩ := hk
  have e : 100 * (x + ((2 * j * n : Int) : ℚ)) = 100 * x + ((100 * (2 * j * n) : Int) : ℚ) := by push_cast; ring
  have hf : ⌊100 * (x + ((2 * j * n : Int) : ℚ))⌋ = ⌊100 * x⌋ + 100 * (2 * j * n) := by rw [e, Int.floor_add_intCast]
  have hg : 100 * (x + ((2 * j * n : Int) : ℚ)) - ((⌊100 * (x + ((2 * j * n : Int) : ℚ))⌋ : Int) : ℚ) = 100 * x - ⌊100 * x⌋ := by
    rw [hf, e]; push_cast; ring
  have hm : (⌊100 * x⌋ + 100 * (2 * j * n)) % 2 = ⌊100 * x⌋ % 2 := by
    have : 100 * (2 * j * n) = 2 * (100 * (j * n)) := by ring
    omega
  unfold cents
  rw [hg, hf, hm]
  split_ifs <;> ring

theorem tt_cents_bounds {x : ℚ} (h0 : 0 ≤ x) (h1 : x < 60) : 0 ≤ cents x ∧ cents x ≤ 6000 := by
  have a : cents 0 = 0 := by decide +kernel
  have b : cents 60 = 6000 := by decide +kernel
  exact ⟨by rw [← a]; exact tt_cents_mono h0, by rw [← b]; exact tt_cents_mono h1.le⟩

theorem tt_rest (t : ℚ) (k : Int) (hk : 0 < k) : 0 ≤ rest t k ∧ rest t k < k ∧ t = rest t k + (k * ⌊t / k⌋ : Int) := by
  have hk' : (0 : ℚ) < k := by exact_mod_cast hk
  have h1 := Int.floor_le (t / k)
  have h2 := Int.lt_floor_add_one (t / k)
  rw [le_div_iff₀ hk'] at h1
  rw [div_lt_iff₀ hk'] at h2
  unfold rest
  refine ⟨by linarith, by linarith, by push_cast; ring⟩

theorem tt_said_cons (a : Num × Letter) (l : List (Num × Letter)) : saidSeconds (a :: l) = numValue a.1 * unitSeconds a.2 + saidSeconds l := by
  simp [saidSeconds]

theorem tt_said_seconds (t : ℚ) : saidSeconds (seconds t) = (cents t : ℚ) / 100 := by
  simp [saidSeconds, seconds, numValue, unitSeconds]

theorem tt_step (t : ℚ) (k : Int) (hk : 0 < k) (h2 : 2 ∣ k) (l : Letter) (hl : unitSeconds l = k) (R : List (Num × Letter))
    (hR : saidSeconds R = (cents (rest t k) : ℚ) / 100) :
    saidSeconds ((.whole ⌊t / k⌋, l) :: R) = (cents t : ℚ) / 100 := by
  rw [tt_said_cons, hR, hl]
  have := tt_cents_shift (rest t k) k ⌊t / k⌋ h2
  rw [← (tt_rest t k hk).2.2] at this
  rw [this]
  simp only [numValue]
  push_cast
  ring

theorem tt_said_minutes (t : ℚ) : saidSeconds (minutes t) = (cents t : ℚ) / 100 := by
  unfold minutes
  split_ifs
  · exact tt_said_seconds t
  · exact tt_step t 60 (by norm_num) (by norm_num) .m rfl _ (tt_said_seconds _)

theorem tt_said_hours (t : ℚ) : saidSeconds (hours t) = (cents t : ℚ) / 100 := by
  unfold hours
  split_ifs
  · exact tt_said_minutes t
  · exact tt_step t 3600 (by norm_num) (by norm_num) .h rfl _ (tt_said_minutes _)

theorem tt_said (t : ℚ) : saidSeconds (stack t) = (cents t : ℚ) / 100 := by
  unfold stack
  split_ifs
  · exact tt_said_hours t
  · exact tt_step t 86400 (by norm_num) (by norm_num) .d rfl _ (tt_said_hours _)

/-- **C198, what the text says.** The days, hours, minutes and seconds of a duration add up to it, to the nearest hundredth of a second, of any
length. -/
theorem C198_stack_value (t : ℚ) :
    |saidSeconds (stack t) - t| ≤ 1 / 200 ∧ ∃ n : Int, saidSeconds (stack t) = n / 100 := by
  rw [tt_said]
  exact ⟨tt_cents_near t, cents t, rfl⟩

example : stack 93784.5 = [(.whole 1, .d), (.whole 2, .h), (.whole 3, .m), (.hundredths 450, .s)] := by decide +kernel

example : stack 90000.25 = [(.whole 1, .d), (.whole 1, .h), (.hundredths 25, .s)] := by decide +kernel

/-- **C198, ties.** A duration halfway between two hundredths is written with the even one. -/
theorem C198_stack_ties (t : ℚ) (n : Int) (h : 100 * t = n + 1 / 2) : ∃ k : Int, saidSeconds (stack t) = 2 * k / 100 ∧ (2 * k = n ∨ 2 * k = n + 1) := by
  have hf : ⌊100 * t⌋ = n := by
    rw [h, Int.floor_eq_iff]
    constructor <;> linarith
  rw [tt_said]
  have e : 100 * t - n = 1 / 2 := by linarith
  unfold cents
  rw [hf, e, if_neg (lt_irrefl _), if_neg (lt_irrefl _)]
  split_ifs with h2
  · refine ⟨n / 2, ?_, Or.inl (by omega)⟩
    have : (2 * (n / 2) : Int) = n := by omega
    have : (2 * ((n / 2 : Int) : ℚ)) = n := by exact_mod_cast this
    rw [this]
  · refine ⟨(n + 1) / 2, ?_, Or.inr (by omega)⟩
    have : (2 * ((n + 1) / 2) : Int) = n + 1 := by omega
    have : (2 * (((n + 1) / 2 : Int) : ℚ)) = ((n + 1 : Int) : ℚ) := by exact_mod_cast this
    rw [this]

example : (100 : ℚ) * (5 / 8) = (62 : Int) + 1 / 2 ∧ stack (5 / 8) = [(.hundredths 62, .s)] := by
  refine ⟨by norm_num, by decide +kernel⟩

/-- **C198, order.** The longer of two durations is not written as the shorter. -/
theorem C198_stack_mono {t u : ℚ} (h : t ≤ u) : saidSeconds (stack t) ≤ saidSeconds (stack u) := by
  rw [tt_said, tt_said]
  have : (cents t : ℚ) ≤ cents u := by exact_mod_cast tt_cents_mono h
  linarith

example : saidSeconds (stack 59.996) ≤ saidSeconds (stack 60) := C198_stack_mono (by norm_num)

/-- The form up to a largest unit. -/
def FormBelow (k : ℚ) (l : List (Num × Letter)) : Prop :=
  ∃ (pre : List (Num × Letter)) (c : Int), l = pre ++ [(.hundredths c, .s)] ∧ 0 ≤ c ∧ c ≤ 6000 ∧
    pre.Pairwise (fun a b => unitSeconds b.2 < unitSeconds a.2) ∧ (∀ p ∈ pre, unitSeconds p.2 < k) ∧
    ∀ p ∈ pre, ∃ n : Int, p.1 = .whole n ∧ 1 ≤ n ∧ ((p.2 = .m ∧ n < 60) ∨ (p.2 = .h ∧ n < 24) ∨ p.2 = .d)

theorem tt_form_mono {k k' : ℚ} (h : k ≤ k') {l : List (Num × Letter)} : FormBelow k l → FormBelow k' l := by
  rintro ⟨pre, c, h1, h2, h3, h4, h5, h6⟩
  exact ⟨pre, c, h1, h2, h3, h4, fun p hp => lt_of_lt_of_le (h5 p hp) h, h6⟩

theorem tt_form_cons {k : ℚ} {l : List (Num × Letter)} (h : FormBelow k l) (n : Int) (u : Letter) (hu : unitSeconds u = k) (hn : 1 ≤ n)
    (hr : (u = .m ∧ n < 60) ∨ (u = .h ∧ n < 24) ∨ u = .d) {k' : ℚ} (hk : k < k') : FormBelow k' ((.whole n, u) :: l) := by
  obtain ⟨pre, c, h1, h2, h3, h4, h5, h6⟩ := h
  refine ⟨(.whole n, u) :: pre, c, by rw [h1]; rfl, h2, h3, List.pairwise_cons.2 ⟨fun p hp => ?_, h4⟩, fun p hp => ?_, fun p hp => ?_⟩
  · show unitSeconds p.2 < unitSeconds u
    rw [hu]; exact h5 p hp
  · rcases List.mem_cons.1 hp with rfl | hp
    · show unitSeconds u < k'
      rw [hu]; exact hk
    · exact (h5 p hp).trans hk
  · rcases List.mem_cons.1 hp with rfl | hp
    · exact ⟨n, rfl, hn, hr⟩
    · exact h6 p hp

theorem tt_form_seconds {t : ℚ} (h0 : 0 ≤ t) (h1 : t < 60) : FormBelow 60 (seconds t) :=
  ⟨[], cents t, rfl, (tt_cents_bounds h0 h1).1, (tt_cents_bounds h0 h1).2, List.Pairwise.nil, by simp, by simp⟩

theorem tt_floor {t : ℚ} {k : Int} (hk : 0 < k) (h : (k : ℚ) ≤ t) : 1 ≤ ⌊t / k⌋ := by
  have hk' : (0 : ℚ) < k := by exact_mod_cast hk
  rw [Int.le_floor, le_div_iff₀ hk']
  simpa using h

theorem tt_floor_lt {t : ℚ} {k : Int} {j : Int} (hk : 0 < k) (h : t < j * k) : ⌊t / k⌋ < j := by
  have hk' : (0 : ℚ) < k := by exact_mod_cast hk
  rw [Int.floor_lt, div_lt_iff₀ hk']
  exact h

theorem tt_form_minutes {t : ℚ} (h0 : 0 ≤ t) (h1 : t < 3600) : FormBelow 3600 (minutes t) := by
  unfold minutes
  split_ifs with h
  · exact tt_form_mono (by norm_num) (tt_form_seconds h0 h)
  · obtain ⟨r1, r2, _⟩ := tt_rest t 60 (by norm_num)
    exact tt_form_cons (tt_form_seconds r1 (by simpa using r2)) _ .m rfl (tt_floor (k := 60) (by norm_num) (by push_cast; linarith))
      (Or.inl ⟨rfl, tt_floor_lt (k := 60) (by norm_num) (by push_cast; linarith)⟩) (by norm_num)

theorem tt_form_hours {t : ℚ} (h0 : 0 ≤ t) (h1 : t < 86400) : FormBelow 86400 (hours t) := by
  unfold hours
  split_ifs with h
  · exact tt_form_mono (by norm_num) (tt_form_minutes h0 h)
  · obtain ⟨r1, r2, _⟩ := tt_rest t 3600 (by norm_num)
    exact tt_form_cons (tt_form_minutes r1 (by simpa using r2)) _ .h rfl (tt_floor (k := 3600) (by norm_num) (by push_cast; linarith))
      (Or.inr (Or.inl ⟨rfl, tt_floor_lt (k := 3600) (by norm_num) (by push_cast; linarith)⟩)) (by norm_num)

/-- **C198, the form of the text.** No unit is written twice or as zero, the larger ones come first, hours are below 24 and minutes below 60, and the
seconds come last, with two places. -/
theorem C198_stack_form (t : ℚ) (h0 : 0 ≤ t) : UsualForm (stack t) := by
  have hb : FormBelow 86401 (stack t) := by
    unfold stack
    split_ifs with h
    · exact tt_form_mono (by norm_num) (tt_form_hours h0 h)
    · obtain ⟨r1, r2, _⟩ := tt_rest t 86400 (by norm_num)
      exact tt_form_cons (tt_form_hours r1 (by simpa using r2)) _ .d rfl (tt_floor (k := 86400) (by norm_num) (by push_cast; linarith))
        (Or.inr (Or.inr rfl)) (by norm_num)
  obtain ⟨pre, c, h1, h2, h3, h4, _, h6⟩ := hb
  exact ⟨pre, c, h1, h2, h3, h4, h6⟩

example : stack 60 = [(.whole 1, .m), (.hundredths 0, .s)] := by decide +kernel

/-- **C198, the recursion.** The text is made as the code makes it: one unit, and the text of what remains. -/
theorem C198_stack_recursion (t : ℚ) :
    stack t = if t < 60 then [(.hundredths (cents t), .s)]
      else if t < 3600 then (.whole ⌊t / 60⌋, .m) :: stack (rest t 60)
      else if t < 86400 then (.whole ⌊t / 3600⌋, .h) :: stack (rest t 3600)
      else (.whole ⌊t / 86400⌋, .d) :: stack (rest t 86400) := by
  obtain ⟨-, r1, _⟩ := tt_rest t 60 (by norm_num)
  obtain ⟨-, r2, _⟩ := tt_rest t 3600 (by norm_num)
  obtain ⟨-, r3, _⟩ := tt_rest t 86400 (by norm_num)
  norm_num at r1 r2 r3
  have s0 : ∀ u : ℚ, u < 60 → stack u = seconds u := fun u hu => by
    unfold stack hours minutes
    rw [if_pos (by linarith), if_pos (by linarith), if_pos hu]
  have s1 : ∀ u : ℚ, u < 3600 → stack u = minutes u := fun u hu => by
    unfold stack hours
    rw [if_pos (by linarith), if_pos hu]
  have s2 : ∀ u : ℚ, u < 86400 → stack u = hours u := fun u hu => by
    unfold stack
    rw [if_pos hu]
  split_ifs with h1 h2 h3
  · exact s0 t h1
  · rw [s1 t h2, s0 _ r1]; unfold minutes; rw [if_neg h1]
  · rw [s2 t h3, s1 _ r2]; unfold hours; rw [if_neg h2]
  · rw [s2 _ r3]; unfold stack; rw [if_neg h3]

/-- **C198, the short text.** One number in the largest unit of which there is one, to the nearest hundredth of it. -/
theorem C198_single (t : ℚ) :
    ∃ n : Int, (single t).1 = .hundredths n ∧
      |(n : ℚ) / 100 * unitSeconds (single t).2 - t| ≤ unitSeconds (single t).2 / 200 ∧
      ((single t).2 ≠ .s → unitSeconds (single t).2 ≤ t) ∧
      (∀ u, unitSeconds (single t).2 < unitSeconds u → t < unitSeconds u) := by
  have near : ∀ (k : ℚ), 0 < k → |(cents (t / k) : ℚ) / 100 * k - t| ≤ k / 200 := by
    intro k hk
    have h := tt_cents_near (t / k)
    have e : (cents (t / k) : ℚ) / 100 * k - t = ((cents (t / k) : ℚ) / 100 - t / k) * k := by field_simp
    rw [e, abs_mul, abs_of_pos hk]
    calc _ ≤ 1 / 200 * k := by exact mul_le_mul_of_nonneg_right h hk.le
      _ = _ := by ring
  unfold single
  split_ifs with h1 h2 h3
  · refine ⟨_, rfl, by simpa [unitSeconds] using tt_cents_near t, fun h => absurd rfl h, fun u hu => ?_⟩
    cases u <;> simp only [unitSeconds] at hu ⊢ <;> linarith
  · refine ⟨_, rfl, near 60 (by norm_num), fun _ => by simp only [unitSeconds]; linarith, fun u hu => ?_⟩
    cases u <;> simp only [unitSeconds] at hu ⊢ <;> linarith
  · refine ⟨_, rfl, near 3600 (by norm_num), fun _ => by simp only [unitSeconds]; linarith, fun u hu => ?_⟩
    cases u <;> simp only [unitSeconds] at hu ⊢ <;> linarith
  · refine ⟨_, rfl, near 86400 (by norm_num), fun _ => by simp only [unitSeconds]; linarith, fun u hu => ?_⟩
    cases u <;> simp only [unitSeconds] at hu ⊢ <;> linarith

example : single 5400 = (.hundredths 150, .h) := by decide +kernel

/-- **C198, what goes wrong.** Just below a minute the text says sixty seconds, after 59 minutes too; the short text says sixty minutes, and 24 hours. -/
theorem C198_fails_sixty_seconds :
    stack 59.996 = [(.hundredths 6000, .s)] ∧ stack 3599.996 = [(.whole 59, .m), (.hundredths 6000, .s)] ∧
      single 3599.9 = (.hundredths 6000, .m) ∧ single 86399 = (.hundredths 2400, .h) := by decide +kernel

theorem tt_splits (prev : ℚ) (l : List ℚ) : ((splitLines prev l).map partOf).sum = l.getLastD prev - prev := by
  induction l generalizing prev with
  | nil => simp [splitLines]
  | cons now r ih =>
    rw [splitLines, List.map_cons, List.sum_cons, ih, List.getLastD_cons]
    simp only [partOf]
    ring

theorem tt_split_whole (prev : ℚ) (l : List ℚ) : ((splitLines prev l).map wholeOf).sum = 0 := by
  induction l generalizing prev with
  | nil => simp [splitLines]
  | cons now r ih => rw [splitLines, List.map_cons, List.sum_cons, ih]; simp [wholeOf]

/-- **C198, splits.** The durations of the splits, with the last one that is written at the end, add up to that of the block; there is one line for
each split and one more for the rest if there was any. -/
theorem C198_splits (start stop : ℚ) (l : List ℚ) :
    ((timing none start l stop).map wholeOf).sum = stop - start ∧
      (l ≠ [] → ((timing none start l stop).map partOf).sum = stop - start ∧ (timing none start l stop).length = l.length + 2) ∧
      (l = [] → timing none start l stop = [.finish (stop - start)]) := by
  have hlen : ∀ (p : ℚ), (splitLines p l).length = l.length := by
    intro p
    induction l generalizing p with
    | nil => rfl
    | cons a r ih => rw [splitLines, List.length_cons, ih, List.length_cons]
  refine ⟨?_, fun h => ⟨?_, ?_⟩, fun h => by subst h; rfl⟩
  · unfold timing
    rw [List.map_append, List.map_append, List.sum_append, List.sum_append, tt_split_whole]
    split_ifs <;> simp [wholeOf]
  · have hb : l.isEmpty = false := by simpa using h
    unfold timing
    rw [hb, List.map_append, List.map_append, List.sum_append, List.sum_append, tt_splits]
    simp [partOf]
  · have hb : l.isEmpty = false := by simpa using h
    unfold timing
    rw [hb, List.length_append, List.length_append, hlen]
    rfl

example : timing none 10 [12, 15] 20 = [.split 2, .split 3, .final 5, .finish 10] := by decide +kernel

/-- **C198, each split.** A split line has the time since the split before it (the first, since the start). -/
theorem C198_split_each (start stop : ℚ) (l : List ℚ) (i : Nat) (now : ℚ) (h : l[i]? = some now) :
    (timing none start l stop)[i]? = some (.split (now - ((start :: l)[i]?).getD start)) := by
  have key : ∀ (l : List ℚ) (p : ℚ) (i : Nat) (now : ℚ), l[i]? = some now →
      (splitLines p l)[i]? = some (.split (now - ((p :: l)[i]?).getD p)) := by
    intro l
    induction l with
    | nil => intro p i now h; simp at h
    | cons a r ih =>
      intro p i now h
      cases i with
      | zero =>
        simp only [List.getElem?_cons_zero, Option.some.injEq] at h
        subst h
        simp [splitLines]
      | succ j =>
        rw [List.getElem?_cons_succ] at h
        rw [splitLines, List.getElem?_cons_succ, ih a j now h, List.getElem?_cons_succ]
        have : j < (a :: r).length := by
          have := (List.getElem?_eq_some_iff.1 h).1
          rw [List.length_cons]; omega
        rw [List.getElem?_eq_getElem this]
        rfl
  have hk := key l start i now h
  unfold timing
  rw [List.append_assoc, Option.getD_none, List.getElem?_append_left (List.getElem?_eq_some_iff.1 hk).1]
  exact hk

/-- **C198, what goes wrong.** If the same object times a second block, the first split of it starts at the last split of the first block: the splits
exceed the duration, by all that was between; and a block without splits gets a last split. -/
theorem C198_fails_reused (start stop : ℚ) (l : List ℚ) (old : ℚ) (ho : old < start) :
    stop - start < ((timing (some old) start l stop).map partOf).sum := by
  unfold timing
  rw [List.map_append, List.map_append, List.sum_append, List.sum_append, Option.getD_some, tt_splits]
  simp [partOf]
  linarith

example : splitTimeAfter none [12] = some 12 ∧ timing (splitTimeAfter none [12]) 100 [] 101 = [.final 89, .finish 1] := by decide +kernel

end Larch.Props
