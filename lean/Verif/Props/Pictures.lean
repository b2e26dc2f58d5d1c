import Verif.Model.Pictures
import Mathlib.Tactic.FieldSimp
import Mathlib.Tactic.Linarith
import Mathlib.Algebra.BigOperators.Group.Finset.Basic
import Mathlib.Algebra.BigOperators.Field

/-! # C202: comparing and trimming pictures -/

namespace Larch.Props

open Larch.Pictures

theorem pc_starts (n step : Nat) (hs : 0 < step) (x : Nat) : x ∈ starts n step ↔ step ∣ x ∧ x < n := by
  unfold starts
  rw [List.mem_map]
  constructor
  · rintro ⟨k, hk, rfl⟩
    rw [List.mem_range, Nat.lt_div_iff_mul_lt hs] at hk
    refine ⟨⟨k, Nat.mul_comm _ _⟩, ?_⟩
    have e2 : n + step - 1 - (step - 1) = n := by omega
    rw [e2] at hk
    show k * step < n
    exact hk
  · rintro ⟨⟨k, rfl⟩, h⟩
    refine ⟨k, ?_, Nat.mul_comm _ _⟩
    have e2 : n + step - 1 - (step - 1) = n := by omega
    rw [List.mem_range, Nat.lt_div_iff_mul_lt hs, e2]
    show k * step < n
    rw [Nat.mul_comm]
    exact h

theorem pc_starts_nodup (n step : Nat) (hs : 0 < step) : (starts n step).Nodup := by
  unfold starts
  refine List.Nodup.map (fun a b h => ?_) List.nodup_range
  exact Nat.eq_of_mul_eq_mul_right hs h

theorem pc_blocks (w h : Nat) (p : Nat × Nat) :
    p ∈ blocks w h ↔ ((blockSize w 60 + 1) ∣ p.1 ∧ p.1 < w) ∧ ((blockSize h 80 + 1) ∣ p.2 ∧ p.2 < h) := by
  unfold blocks
  rw [List.mem_flatMap]
  constructor
  · rintro ⟨y, hy, hp⟩
    obtain ⟨x, hx, rfl⟩ := List.mem_map.1 hp
    exact ⟨(pc_starts _ _ (by omega) _).1 hx, (pc_starts _ _ (by omega) _).1 hy⟩
  · rintro ⟨h1, h2⟩
    exact ⟨p.2, (pc_starts _ _ (by omega) _).2 h2, List.mem_map.2 ⟨p.1, (pc_starts _ _ (by omega) _).2 h1, rfl⟩⟩

theorem pc_blocks_nodup (w h : Nat) : (blocks w h).Nodup := by
  unfold blocks
  rw [List.nodup_flatMap]
  refine ⟨fun y _ => (pc_starts_nodup w _ (by omega)).map (fun a b e => (Prod.mk.inj e).1), ?_⟩
  refine (pc_starts_nodup h _ (by omega)).imp (fun {a b} hab => ?_)
  intro p hp hq
  obtain ⟨x, _, rfl⟩ := List.mem_map.1 hp
  obtain ⟨x', _, e⟩ := List.mem_map.1 hq
  exact hab (Prod.mk.inj e).2.symm

/-- The sum of all values of a rectangle of a picture. -/
def rectSum (im : Picture) (x y w h : Nat) : ℚ := ∑ p ∈ Finset.range w ×ˢ Finset.range h, ((im.pixel (x + p.1) (y + p.2)).sum : ℚ)

/-- A block that lies in both pictures. -/
def InBoth (a b : Picture) (p : Nat × Nat) : Prop :=
  p.1 + blockSize a.width 60 ≤ a.width ∧ p.2 + blockSize a.height 80 ≤ a.height ∧ p.1 + blockSize a.width 60 ≤ b.width ∧
    p.2 + blockSize a.height 80 ≤ b.height

theorem pc_region (im : Picture) (x y w h : Nat) (t : ℚ) (ht : im.tuples = true) (hx : x + w ≤ im.width) (hy : y + h ≤ im.height) :
    region im x y w h t = some (rectSum im x y w h / 4 / t) := by
  unfold region rectSum
  rw [if_pos ⟨ht, hx, hy⟩, Finset.sum_div, Finset.sum_div, Finset.sum_div]

theorem pc_mismatch (a b : Picture) (ha : a.tuples = true) (hb : b.tuples = true) (t : ℚ) (ht : t ≠ 0) (p : Nat × Nat) :
    mismatch (region a p.1 p.2 (blockSize a.width 60) (blockSize a.height 80) t) (region b p.1 p.2 (blockSize a.width 60) (blockSize a.height 80) t) = true ↔
      InBoth a b p ∧ rectSum a p.1 p.2 (blockSize a.width 60) (blockSize a.height 80) ≠ rectSum b p.1 p.2 (blockSize a.width 60) (blockSize a.height 80) := by
  by_cases h1 : p.1 + blockSize a.width 60 ≤ a.width ∧ p.2 + blockSize a.height 80 ≤ a.height
  · by_cases h2 : p.1 + blockSize a.width 60 ≤ b.width ∧ p.2 + blockSize a.height 80 ≤ b.height
    · rw [pc_region a _ _ _ _ t ha h1.1 h1.2, pc_region b _ _ _ _ t hb h2.1 h2.2]
      simp only [mismatch, decide_eq_true_eq]
      constructor
      · intro h
        exact ⟨⟨h1.1, h1.2, h2.1, h2.2⟩, fun e => h (by rw [e])⟩
      · rintro ⟨_, h⟩ e
        apply h
        field_simp at e
        exact e.symm
    · have : region b p.1 p.2 (blockSize a.width 60) (blockSize a.height 80) t = none := by
        unfold region
        exact if_neg (fun h => h2 h.2)
      rw [this]
      constructor
      · intro h
        cases hr : region a p.1 p.2 (blockSize a.width 60) (blockSize a.height 80) t <;> rw [hr] at h <;> cases h
      · rintro ⟨h, _⟩
        exact absurd ⟨h.2.2.1, h.2.2.2⟩ h2
  · have : region a p.1 p.2 (blockSize a.width 60) (blockSize a.height 80) t = none := by
      unfold region
      exact if_neg (fun h => h1 h.2)
    rw [this]
    constructor
    · intro h; cases h
    · rintro ⟨h, _⟩
      exact absurd ⟨h.1, h.2.1⟩ h1

theorem pc_diff (a b : Picture) (t : ℚ) (ht : t ≠ 0) :
    diff a b t = some ((blocks a.width a.height).filter (fun p =>
      mismatch (region a p.1 p.2 (blockSize a.width 60) (blockSize a.height 80) t) (region b p.1 p.2 (blockSize a.width 60) (blockSize a.height 80) t))).length := by
  unfold diff
  rw [if_neg (fun h => ht h.1)]

/-- **C202, equal pictures.** Pictures with the same values have no mismatch, whatever the tolerance (other than zero). -/
theorem C202_equal (a b : Picture) (t : ℚ) (ht : t ≠ 0) (h : ∀ x y, x < a.width → y < a.height → a.pixel x y = b.pixel x y) : diff a b t = some 0 := by
  rw [pc_diff a b t ht, List.filter_eq_nil_iff.2, List.length_nil]
  intro p _
  by_cases ha : a.tuples = true
  · by_cases hb : b.tuples = true
    · rw [pc_mismatch a b ha hb t ht]
      rintro ⟨h1, h2⟩
      apply h2
      unfold rectSum
      refine Finset.sum_congr rfl (fun q hq => ?_)
      rw [Finset.mem_product, Finset.mem_range, Finset.mem_range] at hq
      obtain ⟨i1, i2, _⟩ := h1
      rw [h (p.1 + q.1) (p.2 + q.2) (by omega) (by omega)]
    · have : ∀ x y w h, region b x y w h t = none := fun x y w h => by unfold region; exact if_neg (fun e => hb e.1)
      rw [this]
      cases region a p.1 p.2 (blockSize a.width 60) (blockSize a.height 80) t <;> simp [mismatch]
  · have : ∀ x y w h, region a x y w h t = none := fun x y w h => by unfold region; exact if_neg (fun e => ha e.1)
    rw [this]
    simp [mismatch]

/-- A picture of one colour. -/
def pcPlain (w h : Nat) : Picture := ⟨w, h, true, fun _ _ => [9, 9, 9]⟩

/-- With another value at one place. -/
def pcDot (w h i j : Nat) : Picture := ⟨w, h, true, fun x y => if x = i ∧ y = j then [9, 9, 10] else [9, 9, 9]⟩

example : diff (pcPlain 3 3) (pcPlain 3 3) 100 = some 0 := C202_equal _ _ _ (by decide) (fun _ _ _ _ => rfl)

/-- **C202, what is counted.** The blocks that lie in both pictures in full and whose values have another sum. -/
theorem C202_counts (a b : Picture) (ha : a.tuples = true) (hb : b.tuples = true) (t : ℚ) (ht : t ≠ 0) :
    ∃ bad : List (Nat × Nat), diff a b t = some bad.length ∧ bad.Nodup ∧
      ∀ p, p ∈ bad ↔ ((blockSize a.width 60 + 1) ∣ p.1 ∧ p.1 < a.width) ∧ ((blockSize a.height 80 + 1) ∣ p.2 ∧ p.2 < a.height) ∧ InBoth a b p ∧
        rectSum a p.1 p.2 (blockSize a.width 60) (blockSize a.height 80) ≠ rectSum b p.1 p.2 (blockSize a.width 60) (blockSize a.height 80) := by
  refine ⟨_, pc_diff a b t ht, (pc_blocks_nodup _ _).filter _, fun p => ?_⟩
  rw [List.mem_filter, pc_blocks, pc_mismatch a b ha hb t ht]
  tauto

/-- **C202, one place.** If one place has another sum of values, the result is one if the place is in a block of the first picture that lies in both, and
zero otherwise. -/
theorem C202_one_place (a b : Picture) (ha : a.tuples = true) (hb : b.tuples = true) (t : ℚ) (ht : t ≠ 0) (hw : b.width = a.width) (hh : b.height = a.height)
    (i j : Nat) (hi : (a.pixel i j).sum ≠ (b.pixel i j).sum) (hs : ∀ x y, ¬ (x = i ∧ y = j) → a.pixel x y = b.pixel x y) :
    ((∃ p : Nat × Nat, ((blockSize a.width 60 + 1) ∣ p.1 ∧ (blockSize a.height 80 + 1) ∣ p.2) ∧ p.1 ≤ i ∧ i < p.1 + blockSize a.width 60 ∧ p.2 ≤ j ∧
        j < p.2 + blockSize a.height 80 ∧ p.1 + blockSize a.width 60 ≤ a.width ∧ p.2 + blockSize a.height 80 ≤ a.height) → diff a b t = some 1) ∧
      (¬ (∃ p : Nat × Nat, ((blockSize a.width 60 + 1) ∣ p.1 ∧ (blockSize a.height 80 + 1) ∣ p.2) ∧ p.1 ≤ i ∧ i < p.1 + blockSize a.width 60 ∧ p.2 ≤ j ∧
        j < p.2 + blockSize a.height 80 ∧ p.1 + blockSize a.width 60 ≤ a.width ∧ p.2 + blockSize a.height 80 ≤ a.height) → diff a b t = some 0) := by
  have hsum : ∀ x y w h, rectSum a x y w h ≠ rectSum b x y w h ↔ x ≤ i ∧ i < x + w ∧ y ≤ j ∧ j < y + h := by
    intro x y w h
    unfold rectSum
    constructor
    · intro hne
      by_contra hc
      apply hne
      refine Finset.sum_congr rfl (fun q hq => ?_)
      rw [Finset.mem_product, Finset.mem_range, Finset.mem_range] at hq
      rw [hs _ _ (fun e => hc ⟨by omega, by omega, by omega, by omega⟩)]
    · rintro ⟨h1, h2, h3, h4⟩ e
      have hm : (i - x, j - y) ∈ Finset.range w ×ˢ Finset.range h := by
        rw [Finset.mem_product, Finset.mem_range, Finset.mem_range]
        constructor <;> simp only <;> omega
      rw [← Finset.add_sum_erase _ _ hm, ← Finset.add_sum_erase _ (fun p : Nat × Nat => ((b.pixel (x + p.1) (y + p.2)).sum : ℚ)) hm] at e
      have hr : ∑ p ∈ (Finset.range w ×ˢ Finset.range h).erase (i - x, j - y), ((a.pixel (x + p.1) (y + p.2)).sum : ℚ) =
          ∑ p ∈ (Finset.range w ×ˢ Finset.range h).erase (i - x, j - y), ((b.pixel (x + p.1) (y + p.2)).sum : ℚ) := by
        refine Finset.sum_congr rfl (fun q hq => ?_)
        rw [Finset.mem_erase] at hq
        rw [hs _ _ (fun e => hq.1 (by ext <;> simp only <;> omega))]
      rw [hr] at e
      have e2 := add_right_cancel e
      simp only [show x + (i - x) = i by omega, show y + (j - y) = j by omega] at e2
      exact hi (by exact_mod_cast e2)
  obtain ⟨bad, h1, h2, h3⟩ := C202_counts a b ha hb t ht
  have hbad : ∀ p, p ∈ bad ↔ (((blockSize a.width 60 + 1) ∣ p.1 ∧ (blockSize a.height 80 + 1) ∣ p.2) ∧ p.1 ≤ i ∧ i < p.1 + blockSize a.width 60 ∧ p.2 ≤ j ∧
        j < p.2 + blockSize a.height 80 ∧ p.1 + blockSize a.width 60 ≤ a.width ∧ p.2 + blockSize a.height 80 ≤ a.height) := by
    intro p
    have b1 : 0 < blockSize a.width 60 := by unfold blockSize; omega
    have b2 : 0 < blockSize a.height 80 := by unfold blockSize; omega
    rw [h3, hsum]
    unfold InBoth
    rw [hw, hh]
    constructor
    · rintro ⟨⟨a1, _⟩, ⟨a2, _⟩, ⟨a3, a4, _⟩, a5, a6, a7, a8⟩
      exact ⟨⟨a1, a2⟩, a5, a6, a7, a8, a3, a4⟩
    · rintro ⟨⟨a1, a2⟩, a5, a6, a7, a8, a3, a4⟩
      exact ⟨⟨a1, by omega⟩, ⟨a2, by omega⟩, ⟨a3, a4, a3, a4⟩, a5, a6, a7, a8⟩
  have uniq : ∀ p q, p ∈ bad → q ∈ bad → p = q := by
    have mult : ∀ (s u v z : Nat), (s + 1) ∣ u → (s + 1) ∣ v → u ≤ z → z < u + s → v ≤ z → z < v + s → u = v := by
      rintro s u v z ⟨k, rfl⟩ ⟨l, rfl⟩ h1 h2 h3 h4
      have : k = l := by
        rcases Nat.lt_trichotomy k l with h | h | h
        · have : (s + 1) * (k + 1) ≤ (s + 1) * l := Nat.mul_le_mul_left _ h
          rw [Nat.mul_add] at this; omega
        · exact h
        · have : (s + 1) * (l + 1) ≤ (s + 1) * k := Nat.mul_le_mul_left _ h
          rw [Nat.mul_add] at this; omega
      rw [this]
    intro p q hp hq
    obtain ⟨⟨p1, p2⟩, p3, p4, p5, p6, _⟩ := (hbad p).1 hp
    obtain ⟨⟨q1, q2⟩, q3, q4, q5, q6, _⟩ := (hbad q).1 hq
    ext
    · exact mult _ _ _ _ p1 q1 p3 p4 q3 q4
    · exact mult _ _ _ _ p2 q2 p5 p6 q5 q6
  constructor
  · rintro ⟨p, hp⟩
    have hpb := (hbad p).2 hp
    rw [h1]
    congr 1
    cases hb : bad with
    | nil => rw [hb] at hpb; cases hpb
    | cons u r =>
      cases r with
      | nil => rfl
      | cons v r =>
        exfalso
        have huv := uniq u v (by rw [hb]; simp) (by rw [hb]; simp)
        rw [hb, huv] at h2
        exact (List.nodup_cons.1 h2).1 (by simp)
  · intro hno
    rw [h1]
    congr 1
    cases hb : bad with
    | nil => rfl
    | cons u r => exact absurd ⟨u, (hbad u).1 (by rw [hb]; simp)⟩ hno

example : diff (pcPlain 3 3) (pcDot 3 3 2 0) 100 = some 1 :=
  (C202_one_place (pcPlain 3 3) (pcDot 3 3 2 0) rfl rfl 100 (by decide) rfl rfl 2 0 (by decide) (fun x y h => by simp [pcPlain, pcDot, h])).1
    ⟨(2, 0), by decide⟩

/-- **C202, what goes wrong.** A column between two blocks is not looked at: in a picture no more than 60 wide, the second of every two. -/
theorem C202_fails_gaps (a b : Picture) (ha : a.tuples = true) (hb : b.tuples = true) (t : ℚ) (ht : t ≠ 0) (hn : a.width ≤ 60)
    (h : ∀ x y, x % 2 = 0 → a.pixel x y = b.pixel x y) : diff a b t = some 0 := by
  have hbs : blockSize a.width 60 = 1 := by unfold blockSize; omega
  obtain ⟨bad, h1, _, h3⟩ := C202_counts a b ha hb t ht
  cases hbad : bad with
  | nil => rw [h1, hbad]; rfl
  | cons p r =>
    exfalso
    obtain ⟨⟨p1, _⟩, _, _, p4⟩ := (h3 p).1 (by rw [hbad]; simp)
    apply p4
    rw [hbs] at p1 ⊢
    unfold rectSum
    refine Finset.sum_congr rfl (fun q hq => ?_)
    rw [Finset.mem_product, Finset.mem_range, Finset.mem_range] at hq
    rw [h _ _ (by omega)]

example : diff (pcPlain 3 3) (pcDot 3 3 1 1) 100 = some 0 :=
  C202_fails_gaps _ _ rfl rfl _ (by decide) (by decide) (fun x y hx => by
    have : ¬ (x = 1 ∧ y = 1) := by omega
    simp [pcPlain, pcDot, this])

/-- **C202, what goes wrong.** Pictures of one band never differ, and the tolerance has no influence. -/
theorem C202_fails_tolerance (a b : Picture) (t u : ℚ) (ht : t ≠ 0) (hu : u ≠ 0) :
    ((a.tuples = false ∨ b.tuples = false) → diff a b t = some 0) ∧ diff a b t = diff a b u := by
  have none_of : ∀ (im : Picture), im.tuples = false → ∀ x y w h (s : ℚ), region im x y w h s = none := fun im hi x y w h s => by
    unfold region; exact if_neg (fun e => by rw [hi] at e; exact absurd e.1 (by decide))
  have zero : ∀ (s : ℚ), s ≠ 0 → (a.tuples = false ∨ b.tuples = false) → diff a b s = some 0 := by
    intro s hs h
    rw [pc_diff a b s hs, List.filter_eq_nil_iff.2, List.length_nil]
    intro p _
    rcases h with h | h
    · rw [none_of a h]; simp [mismatch]
    · rw [none_of b h]
      cases region a p.1 p.2 (blockSize a.width 60) (blockSize a.height 80) s <;> simp [mismatch]
  refine ⟨zero t ht, ?_⟩
  by_cases h : a.tuples = false ∨ b.tuples = false
  · rw [zero t ht h, zero u hu h]
  · have ha : a.tuples = true := by by_contra hc; exact h (Or.inl (by simpa using hc))
    have hb : b.tuples = true := by by_contra hc; exact h (Or.inr (by simpa using hc))
    rw [pc_diff a b t ht, pc_diff a b u hu]
    congr 2
    refine List.filter_congr (fun p _ => ?_)
    have := (pc_mismatch a b ha hb t ht p).trans (pc_mismatch a b ha hb u hu p).symm
    exact Bool.eq_iff_iff.2 this

example : (100 : ℚ) ≠ 0 ∧ (1000000 : ℚ) ≠ 0 := by decide +kernel

/-! ## Trimming -/

/-- A place that differs in a band by more than 100 from the corner. -/
def PcStands (im : Picture) (x y : Nat) : Prop :=
  x < im.width ∧ y < im.height ∧ ∃ (k u v : Nat), (im.pixel x y)[k]? = some u ∧ (im.pixel 0 0)[k]? = some v ∧ (100 + v < u ∨ 100 + u < v)

theorem pc_strong (im : Picture) (x y : Nat) :
    strong im x y = true ↔ ∃ (k u v : Nat), (im.pixel x y)[k]? = some u ∧ (im.pixel 0 0)[k]? = some v ∧ (100 + v < u ∨ 100 + u < v) := by
  unfold strong
  rw [List.any_eq_true]
  constructor
  · rintro ⟨⟨u, v⟩, he, hd⟩
    obtain ⟨k, hk⟩ := List.mem_iff_getElem?.1 he
    rw [List.getElem?_zip_eq_some] at hk
    simp only [decide_eq_true_eq] at hd
    exact ⟨k, u, v, hk.1, hk.2, by omega⟩
  · rintro ⟨k, u, v, h1, h2, h3⟩
    refine ⟨(u, v), List.mem_iff_getElem?.2 ⟨k, List.getElem?_zip_eq_some.2 ⟨h1, h2⟩⟩, ?_⟩
    simp only [decide_eq_true_eq]
    omega

theorem pc_ends (n : Nat) (P : Nat → Bool) :
    (∀ x, ((List.range n).filter P).head? = some x → P x = true ∧ x < n ∧ ∀ y < n, P y = true → x ≤ y) ∧
      (∀ x, ((List.range n).filter P).getLast? = some x → P x = true ∧ x < n ∧ ∀ y < n, P y = true → y ≤ x) ∧
      ((∃ y < n, P y = true) → (∃ x, ((List.range n).filter P).head? = some x) ∧ ∃ x, ((List.range n).filter P).getLast? = some x) := by
  have hs : ((List.range n).filter P).Pairwise (· < ·) := List.Pairwise.filter _ List.pairwise_lt_range
  have hm : ∀ y, y ∈ (List.range n).filter P ↔ y < n ∧ P y = true := fun y => by rw [List.mem_filter, List.mem_range]
  refine ⟨fun x hx => ?_, fun x hx => ?_, ?_⟩
  · obtain ⟨r, hr⟩ := List.head?_eq_some_iff.1 hx
    obtain ⟨h1, h2⟩ := (hm x).1 (by rw [hr]; simp)
    refine ⟨h2, h1, fun y hy hp => ?_⟩
    have := (hm y).2 ⟨hy, hp⟩
    rw [hr] at this hs
    rcases List.mem_cons.1 this with rfl | h
    · exact le_refl _
    · exact ((List.pairwise_cons.1 hs).1 y h).le
  · obtain ⟨r, hr⟩ := List.getLast?_eq_some_iff.1 hx
    obtain ⟨h1, h2⟩ := (hm x).1 (by rw [hr]; simp)
    refine ⟨h2, h1, fun y hy hp => ?_⟩
    have := (hm y).2 ⟨hy, hp⟩
    rw [hr] at this hs
    rcases List.mem_append.1 this with h | h
    · exact ((List.pairwise_append.1 hs).2.2 y h x (by simp)).le
    · exact (List.mem_singleton.1 h).le
  · rintro ⟨y, h1, h2⟩
    have hne : (List.range n).filter P ≠ [] := List.ne_nil_of_mem ((hm y).2 ⟨h1, h2⟩)
    exact ⟨⟨_, List.head?_eq_some_head hne⟩, ⟨_, List.getLast?_eq_some_getLast hne⟩⟩

/-- **C202, trimming.** If some place stands out, the trimmed picture is the part of the picture in the least rectangle that holds all that stand
out: all of them are in it, and each of its four sides has one. -/
theorem C202_trim (im : Picture) (h : ∃ x y, PcStands im x y) :
    ∃ l u r d, ∃ t, trim im = some t ∧ l + t.width = r ∧ u + t.height = d ∧ r ≤ im.width ∧ d ≤ im.height ∧
      (∀ x y, t.pixel x y = im.pixel (l + x) (u + y)) ∧
      (∀ x y, PcStands im x y → l ≤ x ∧ x < r ∧ u ≤ y ∧ y < d) ∧
      (∃ y, PcStands im l y) ∧ (∃ x, PcStands im x u) ∧ (∃ x y, PcStands im x y ∧ x + 1 = r) ∧ (∃ x y, PcStands im x y ∧ y + 1 = d) := by
  obtain ⟨x0, y0, hx0, hy0, hk0⟩ := h
  have st : ∀ x y, PcStands im x y ↔ x < im.width ∧ y < im.height ∧ strong im x y = true := fun x y => by unfold PcStands; rw [pc_strong]
  have hX : ∀ x, (List.range im.height).any (fun y => strong im x y) = true ↔ ∃ y < im.height, strong im x y = true := fun x => by
    simp [List.any_eq_true]
  have hY : ∀ y, (List.range im.width).any (fun x => strong im x y) = true ↔ ∃ x < im.width, strong im x y = true := fun y => by
    simp [List.any_eq_true]
  have hs0 := (pc_strong im x0 y0).2 hk0
  obtain ⟨a1, a2, a3⟩ := pc_ends im.width (fun x => (List.range im.height).any (fun y => strong im x y))
  obtain ⟨b1, b2, b3⟩ := pc_ends im.height (fun y => (List.range im.width).any (fun x => strong im x y))
  obtain ⟨⟨l, hl⟩, ⟨r, hr⟩⟩ := a3 ⟨x0, hx0, (hX x0).2 ⟨y0, hy0, hs0⟩⟩
  obtain ⟨⟨u, hu⟩, ⟨d, hd⟩⟩ := b3 ⟨y0, hy0, (hY y0).2 ⟨x0, hx0, hs0⟩⟩
  obtain ⟨l1, l2, l3⟩ := a1 l hl
  obtain ⟨r1, r2, r3⟩ := a2 r hr
  obtain ⟨u1, u2, u3⟩ := b1 u hu
  obtain ⟨d1, d2, d3⟩ := b2 d hd
  have hlr : l ≤ r := r3 l l2 l1
  have hud : u ≤ d := d3 u u2 u1
  refine ⟨l, u, r + 1, d + 1, ⟨r + 1 - l, d + 1 - u, im.tuples, fun x y => im.pixel (l + x) (u + y)⟩, ?_, by simp only; omega, by simp only; omega,
    r2, d2, fun _ _ => rfl, fun x y hxy => ?_, ?_, ?_, ?_, ?_⟩
  · unfold trim bbox
    simp only [hl, hu, hr, hd]
    rfl
  · obtain ⟨s1, s2, s3⟩ := (st x y).1 hxy
    have c1 := (hX x).2 ⟨y, s2, s3⟩
    have c2 := (hY y).2 ⟨x, s1, s3⟩
    have := l3 x s1 c1
    have := r3 x s1 c1
    have := u3 y s2 c2
    have := d3 y s2 c2
    omega
  · obtain ⟨y, y1, y2⟩ := (hX l).1 l1
    exact ⟨y, (st l y).2 ⟨l2, y1, y2⟩⟩
  · obtain ⟨x, x1, x2⟩ := (hY u).1 u1
    exact ⟨x, (st x u).2 ⟨x1, u2, x2⟩⟩
  · obtain ⟨y, y1, y2⟩ := (hX r).1 r1
    exact ⟨r, y, (st r y).2 ⟨r2, y1, y2⟩, rfl⟩
  · obtain ⟨x, x1, x2⟩ := (hY d).1 d1
    exact ⟨x, d, (st x d).2 ⟨x1, d2, x2⟩, rfl⟩

example : ∃ x y, PcStands ⟨3, 3, true, fun x y => if x = 1 ∧ y = 2 then [0] else [255]⟩ x y :=
  ⟨1, 2, by decide, by decide, 0, 0, 255, rfl, rfl, by decide⟩

/-- **C202, what goes wrong.** If nothing differs by more than 100 from the corner, `None` is returned, not the picture. -/
theorem C202_fails_faint (im : Picture) (h : ∀ x y, ¬ PcStands im x y) : trim im = none := by
  have he : (List.range im.width).filter (fun x => (List.range im.height).any (fun y => strong im x y)) = [] := by
    rw [List.filter_eq_nil_iff]
    intro x hx hc
    rw [List.any_eq_true] at hc
    obtain ⟨y, hy, hs⟩ := hc
    exact h x y ⟨List.mem_range.1 hx, List.mem_range.1 hy, (pc_strong im x y).1 hs⟩
  unfold trim bbox
  simp only [he]
  rfl

example : trim ⟨3, 3, true, fun x y => if x = 1 ∧ y = 1 then [170] else [255]⟩ = none :=
  C202_fails_faint _ (by
    rintro x y ⟨_, _, k, u, v, h1, h2, h3⟩
    have hv : v = 255 := by
      cases k with
      | zero => simpa using h2.symm
      | succ n => simp at h2
    have hu : u = 170 ∨ u = 255 := by
      cases k with
      | zero =>
        by_cases hc : x = 1 ∧ y = 1
        · left; simpa [hc] using h1.symm
        · right; simpa [hc] using h1.symm
      | succ n =>
        by_cases hc : x = 1 ∧ y = 1 <;> simp [hc] at h1
    omega)

end Larch.Props
