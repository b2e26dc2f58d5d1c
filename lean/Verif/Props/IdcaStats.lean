import Verif.Model.IdcaStats
import Verif.Props.Shares
import Mathlib.Tactic

/-!
# C177: statistics of an idca variable
-/

namespace Larch.Props

set_option linter.unusedSectionVars false

open Larch.IdcaStats
open Larch.Shares (hist divide)

variable {K : Type} [Field K] [LinearOrder K] [IsStrictOrderedRing K]

/-- The weight of the cases that have alternative `k` available with a value in bin `b`. -/
def availIn (e : List K) (b : Nat) (cases : List (IdcaStats.Case K)) (k : Nat) : K :=
  ((cases.filter (fun c => inBin e b (c.x k))).map (fun c => c.av k * c.wt)).sum

/-- The weight of the cases that choose alternative `k`, when it is available, with a value in bin `b`. -/
def chosenIn (e : List K) (b : Nat) (cases : List (IdcaStats.Case K)) (k : Nat) : K :=
  ((cases.filter (fun c => inBin e b (c.x k))).map (fun c => c.ch k * c.av k * c.wt)).sum

theorem is_edges_len (s : K × K) (nb : Nat) : (edges s nb).length = nb + 1 := by simp [edges]

theorem is_edge (s : K × K) (nb b : Nat) (h : b ≤ nb) : (edges s nb)[b]? = some (linspace s.1 s.2 (nb + 1) b) := by
  simp only [edges, List.getElem?_map]
  rw [List.getElem?_range (by omega)]
  rfl

theorem is_linspace_mono (lo hi : K) (h : lo ≤ hi) (n i j : Nat) (hij : i ≤ j) : linspace lo hi n i ≤ linspace lo hi n j := by
  unfold linspace
  have h1 : (0 : K) ≤ (hi - lo) / ((n - 1 : Nat) : K) := div_nonneg (by linarith) (Nat.cast_nonneg _)
  have h2 : (i : K) ≤ (j : K) := by exact_mod_cast hij
  have := mul_le_mul_of_nonneg_right h2 h1
  linarith

theorem is_increasing (s : K × K) (nb : Nat) (h : s.1 ≤ s.2) : Increasing (edges s nb) := by
  unfold Increasing edges
  rw [List.pairwise_map]
  exact List.pairwise_lt_range.imp (fun hab => is_linspace_mono s.1 s.2 h _ _ _ (Nat.le_of_lt hab))

theorem is_spread {r : Nat} (hr : 0 < r) (l : List K) (j : Nat) : (spread r l)[j]? = l[j / r]? := by
  induction l generalizing j with
  | nil => simp [spread]
  | cons a t ih =>
    have hs : spread r (a :: t) = List.replicate r a ++ spread r t := by simp [spread]
    rw [hs]
    by_cases hj : j < r
    · rw [List.getElem?_append_left (by simpa using hj), List.getElem?_replicate, if_pos hj, Nat.div_eq_of_lt hj]
      rfl
    · rw [List.getElem?_append_right (by simpa using Nat.le_of_not_lt hj), List.length_replicate, ih]
      have : j / r = (j - r) / r + 1 := by
        have h1 : j = (j - r) + r := by omega
        conv_lhs => rw [h1]
        rw [Nat.add_div_right _ hr]
      rw [this]
      rfl

theorem is_spread_len (r : Nat) (l : List K) : (spread r l).length = l.length * r := by
  induction l with
  | nil => simp [spread]
  | cons a t ih =>
    have hs : spread r (a :: t) = List.replicate r a ++ spread r t := by simp [spread]
    rw [hs, List.length_append, ih, List.length_replicate, List.length_cons]
    ring

/-- **C177**: the frequencies of an alternative are the weights of the cases that have it, by bins of equal width from the least to the greatest value;
each is there once for every step of the resolution, and so are those of the cases that choose it. -/
theorem C177_frequency (s : K × K) (hs : s.1 ≤ s.2) (nb r : Nat) (hr : 0 < r) (cases : List (IdcaStats.Case K)) (k j : Nat) (hj : j < nb * r) :
    (frequency (edges s nb) r cases k)[j]? = some (availIn (edges s nb) (j / r) cases k) ∧
      (frequencyChosen (edges s nb) r cases k)[j]? = some (chosenIn (edges s nb) (j / r) cases k) := by
  have hjr : j / r < nb := by rw [Nat.div_lt_iff_lt_mul hr]; exact hj
  have hlen : ∀ d : List (K × K), (spread r (hist d (edges s nb))).length = nb * r := by
    intro d; rw [is_spread_len, sh_length, is_edges_len]; simp
  have key : ∀ (f : IdcaStats.Case K → K) (l : List (IdcaStats.Case K)),
      (((l.map (fun c => (c.x k, f c))).filter (fun p => inBin (edges s nb) (j / r) p.1)).map Prod.snd).sum =
        ((l.filter (fun c => inBin (edges s nb) (j / r) (c.x k))).map f).sum := by
    intro f l
    induction l with
    | nil => rfl
    | cons c t ih =>
      simp only [List.map_cons, List.filter_cons]
      by_cases hc : inBin (edges s nb) (j / r) (c.x k) = true
      · simp only [hc, if_true, List.map_cons, List.sum_cons, ih]
      · simp only [hc, Bool.false_eq_true, if_false, ih]
  constructor
  · unfold frequency
    rw [List.getElem?_append_left (by rw [hlen]; exact hj), is_spread hr, sh_hist _ _ (is_increasing s nb hs) _ (by rw [is_edges_len]; omega)]
    rw [key (fun c => c.av k * c.wt)]
    rfl
  · unfold frequencyChosen
    rw [List.getElem?_append_left (by rw [hlen]; exact hj), is_spread hr, sh_hist _ _ (is_increasing s nb hs) _ (by rw [is_edges_len]; omega)]
    rw [key (fun c => c.ch k * c.av k * c.wt)]
    rfl

theorem is_telescope (d : List (K × K)) (a b : K) (e : List K) : (hist d (a :: b :: e)).sum =
    Shares.upTo d ((b :: e).getLast (by simp)) - Shares.below d a := by
  induction e generalizing a b with
  | nil => simp [hist]
  | cons c t ih =>
    have : hist d (a :: b :: c :: t) = (Shares.below d b - Shares.below d a) :: hist d (b :: c :: t) := rfl
    rw [this, List.sum_cons, ih b c]
    have hg : (b :: c :: t).getLast (by simp) = (c :: t).getLast (by simp) := List.getLast_cons (by simp)
    rw [hg]
    ring

/-- **C177**: nothing is left out: the frequencies of the bins add up to the weight of all cases that have the alternative. -/
theorem C177_total (s : K × K) (hs : s.1 ≤ s.2) (nb : Nat) (hnb : 0 < nb) (cases : List (IdcaStats.Case K)) (k : Nat)
    (hin : ∀ c ∈ cases, s.1 ≤ c.x k ∧ c.x k ≤ s.2) :
    ((List.range nb).map (fun b => availIn (edges s nb) b cases k)).sum = (cases.map (fun c => c.av k * c.wt)).sum := by
  have h1 : (List.range nb).map (fun b => availIn (edges s nb) b cases k) = hist (cases.map (fun c => (c.x k, c.av k * c.wt))) (edges s nb) := by
    apply List.ext_getElem?
    intro b
    by_cases hb : b < nb
    · have h2 := (C177_frequency s hs nb 1 (by omega) cases k b (by omega)).1
      unfold frequency at h2
      rw [List.getElem?_append_left (by rw [is_spread_len, sh_length, is_edges_len]; omega), is_spread (by omega), Nat.div_one] at h2
      rw [h2, List.getElem?_map, List.getElem?_range hb]
      rfl
    · rw [List.getElem?_eq_none_iff.mpr (by simpa using hb), List.getElem?_eq_none_iff.mpr (by rw [sh_length, is_edges_len]; omega)]
  rw [h1]
  obtain ⟨m, rfl⟩ : ∃ m, nb = m + 1 := ⟨nb - 1, by omega⟩
  have he : ∃ e, edges s (m + 1) = linspace s.1 s.2 (m + 2) 0 :: linspace s.1 s.2 (m + 2) 1 :: e := by
    refine ⟨(List.range m).map (fun i => linspace s.1 s.2 (m + 2) (i + 2)), ?_⟩
    simp only [edges]
    rw [List.range_succ_eq_map, List.range_succ_eq_map]
    simp [List.map_map, Function.comp_def]
  obtain ⟨e, he⟩ := he
  have hlast : ∀ h, (edges s (m + 1)).getLast h = s.2 := by
    intro h
    rw [List.getLast_eq_getElem]
    have : (edges s (m + 1))[(edges s (m + 1)).length - 1]? = some s.2 := by
      rw [is_edges_len, is_edge s (m + 1) _ (by omega)]
      congr 1
      unfold linspace
      have hm : ((m + 1 : Nat) : K) ≠ 0 := by exact_mod_cast (by omega : m + 1 ≠ 0)
      have e1 : m + 1 + 1 - 1 = m + 1 := by omega
      rw [e1, mul_div_cancel₀ _ hm]
      ring
    exact (List.getElem?_eq_some_iff.mp this).2
  have hl2 : (linspace s.1 s.2 (m + 2) 1 :: e).getLast (by simp) = s.2 := by
    have := hlast (by rw [he]; simp)
    simp only [he] at this
    rw [List.getLast_cons (by simp)] at this
    exact this
  rw [he, is_telescope, hl2]
  have h0 : linspace s.1 s.2 (m + 2) 0 = s.1 := by simp [linspace]
  rw [h0]
  unfold Shares.upTo Shares.below
  rw [List.filter_eq_self.mpr, List.filter_eq_nil_iff.mpr]
  · simp [List.map_map, Function.comp_def]
  · intro p hp
    obtain ⟨c, hc, rfl⟩ := List.mem_map.mp hp
    simp [(hin c hc).1]
  · intro p hp
    obtain ⟨c, hc, rfl⟩ := List.mem_map.mp hp
    simp [(hin c hc).2]

/-- **C177, the part that holds of the figure**: with a resolution of one, each frequency is given at the lower edge of its bin. -/
theorem C177_plotted_partial (s : K × K) (hs : s.1 ≤ s.2) (nb : Nat) (cases : List (IdcaStats.Case K)) (k b : Nat) (hb : b < nb) :
    ∃ e, (edges s nb)[b]? = some e ∧ (plotted s nb 1 cases k)[b]? = some (e, some (availIn (edges s nb) b cases k)) := by
  refine ⟨_, is_edge s nb b (by omega), ?_⟩
  have h2 := (C177_frequency s hs nb 1 (by omega) cases k b (by omega)).1
  rw [Nat.div_one] at h2
  simp only [plotted, List.getElem?_map]
  rw [List.getElem?_range (by omega)]
  simp only [Option.map_some, one_mul, h2]

/-- **C177, where the code falls short**: with any greater resolution (the default is 10, in figures 100) the frequencies of all bins but the first are drawn too
far to the left: the first point that the frequency of bin `b` is given at is below that bin. -/
theorem C177_fails_plotted (s : K × K) (hs : s.1 < s.2) (nb r : Nat) (hr : 2 ≤ r) (cases : List (IdcaStats.Case K)) (k b : Nat) (h1 : 1 ≤ b) (hb : b < nb) :
    ∃ x e, (plotted s nb r cases k)[b * r]? = some (x, some (availIn (edges s nb) b cases k)) ∧ (edges s nb)[b]? = some e ∧ x < e ∧
      inBin (edges s nb) b x = false := by
  have hlt : b * r < nb * r := Nat.mul_lt_mul_of_pos_right hb (by omega)
  have h2 := (C177_frequency s hs.le nb r (by omega) cases k (b * r) hlt).1
  rw [Nat.mul_div_cancel _ (by omega : 0 < r)] at h2
  have hx : linspace s.1 s.2 (r * (nb + 1)) (b * r) < linspace s.1 s.2 (nb + 1) b := by
    unfold linspace
    have e1 : nb + 1 - 1 = nb := by omega
    rw [e1]
    have hm : (0 : K) < ((r * (nb + 1) - 1 : Nat) : K) := by
      have : 0 < r * (nb + 1) - 1 := by
        have : 2 * 1 ≤ r * (nb + 1) := Nat.mul_le_mul hr (by omega)
        omega
      exact_mod_cast this
    have hn : (0 : K) < (nb : K) := by exact_mod_cast (by omega : 0 < nb)
    have hd : 0 < s.2 - s.1 := by linarith
    have hnat : b * r * nb < b * (r * (nb + 1) - 1) := by
      have h3 : r * (nb + 1) = r * nb + r := by ring
      rw [h3, mul_assoc]
      apply Nat.mul_lt_mul_of_pos_left _ (by omega)
      omega
    have hK : ((b * r : Nat) : K) * (nb : K) < (b : K) * ((r * (nb + 1) - 1 : Nat) : K) := by exact_mod_cast hnat
    have : ((b * r : Nat) : K) * ((s.2 - s.1) / ((r * (nb + 1) - 1 : Nat) : K)) < (b : K) * ((s.2 - s.1) / (nb : K)) := by
      rw [← mul_div_assoc, ← mul_div_assoc, div_lt_div_iff₀ hm hn]
      have := mul_lt_mul_of_pos_left hK hd
      nlinarith
    linarith
  refine ⟨_, _, ?_, is_edge s nb b (by omega), hx, ?_⟩
  · simp only [plotted, List.getElem?_map]
    rw [List.getElem?_range (by
      have : nb * r ≤ r * (nb + 1) := by rw [mul_comm nb r]; exact Nat.mul_le_mul_left r (by omega)
      omega)]
    simp only [Option.map_some, h2]
  · unfold inBin
    rw [is_edge s nb b (by omega), is_edge s nb (b + 1) (by omega)]
    simp only [Bool.and_eq_false_iff, decide_eq_false_iff_not]
    left
    exact not_le.mpr hx

/-- **C177**: the factor of the density of the chosen cases is their part of the weight of the cases that have the alternative: between 0 and 1 when only available
alternatives are chosen. -/
theorem C177_scale (cases : List (IdcaStats.Case K)) (k : Nat) (f : K) (h : chosenScale cases k = some f)
    (hc : ∀ c ∈ cases, 0 ≤ c.wt ∧ 0 ≤ c.ch k ∧ c.ch k ≤ c.av k) : 0 ≤ f ∧ f ≤ 1 := by
  unfold chosenScale divide at h
  split at h
  · simp at h
  · rename_i hne
    simp only [Option.some.injEq] at h
    subst h
    have h1 : 0 ≤ (cases.map (fun c => c.ch k * c.wt)).sum := by
      apply List.sum_nonneg
      intro y hy
      obtain ⟨c, hcm, rfl⟩ := List.mem_map.mp hy
      exact mul_nonneg (hc c hcm).2.1 (hc c hcm).1
    have h2 : (cases.map (fun c => c.ch k * c.wt)).sum ≤ (cases.map (fun c => c.av k * c.wt)).sum := by
      apply List.sum_le_sum
      intro c hcm
      exact mul_le_mul_of_nonneg_right (hc c hcm).2.2 (hc c hcm).1
    have h3 : 0 < (cases.map (fun c => c.av k * c.wt)).sum := lt_of_le_of_ne (le_trans h1 h2) (Ne.symm hne)
    exact ⟨div_nonneg h1 h3.le, (div_le_one h3).mpr h2⟩

/-- **C177, the range of the bins**: from the least to the greatest of all values, and from zero to one if there are none. -/
theorem C177_range (cases : List (IdcaStats.Case K)) (alts : Nat) :
    (values cases alts = [] → span cases alts = (0, 1)) ∧
      (∀ v ∈ values cases alts, (span cases alts).1 ≤ v ∧ v ≤ (span cases alts).2) ∧
      (values cases alts ≠ [] → (span cases alts).1 ∈ values cases alts ∧ (span cases alts).2 ∈ values cases alts) := by
  refine ⟨fun h => by unfold span; rw [h]; rfl, fun v hv => ?_, fun h => ?_⟩
  · unfold span
    cases h1 : (values cases alts).min? with
    | none => rw [List.min?_eq_none_iff.1 h1] at hv; cases hv
    | some a =>
      cases h2 : (values cases alts).max? with
      | none => rw [List.max?_eq_none_iff.1 h2] at hv; cases hv
      | some b => exact ⟨(List.min?_eq_some_iff.1 h1).2 v hv, (List.max?_eq_some_iff.1 h2).2 v hv⟩
  · unfold span
    cases h1 : (values cases alts).min? with
    | none => exact absurd (List.min?_eq_none_iff.1 h1) h
    | some a =>
      cases h2 : (values cases alts).max? with
      | none => exact absurd (List.max?_eq_none_iff.1 h2) h
      | some b => exact ⟨(List.min?_eq_some_iff.1 h1).1, (List.max?_eq_some_iff.1 h2).1⟩

example : values ([⟨1, fun _ => 10, fun _ => 1, fun _ => 1⟩] : List (IdcaStats.Case ℚ)) 1 ≠ [] := by decide +kernel

/-- Two cases; the second does not have the alternative, and has some value for it. -/
def halfAvail : List (IdcaStats.Case ℚ) := [⟨1, fun _ => 10, fun _ => 1, fun _ => 1⟩, ⟨1, fun _ => 90, fun _ => 0, fun _ => 0⟩]

/-- **C177, where the code falls short**: the mean of an alternative is over all cases, whether they have it or not and whatever their weight; and values of
alternatives that are not available stretch the bins. -/
theorem C177_fails_mean :
    mean halfAvail 0 = some 50 ∧ divide ((halfAvail.map (fun c => c.x 0 * (c.av 0 * c.wt))).sum) ((halfAvail.map (fun c => c.av 0 * c.wt)).sum) = some 10 ∧
      span halfAvail 1 = (10, 90) := by decide +kernel

/-- **C177, where the code falls short**: no weights change the mean. -/
theorem C177_fails_unweighted (cases : List (IdcaStats.Case K)) (w : IdcaStats.Case K → K) (k : Nat) :
    mean (cases.map (fun c => { c with wt := w c })) k = mean cases k := by
  simp [mean, List.map_map, Function.comp_def]

example : plotted (0, 4) 2 2 ([⟨1, fun _ => 0, fun _ => 1, fun _ => 1⟩, ⟨2, fun _ => 3, fun _ => 1, fun _ => 0⟩] : List (IdcaStats.Case ℚ)) 0 =
    [(0, some 1), (4 / 5, some 1), (8 / 5, some 2), (12 / 5, some 2), (16 / 5, some 0), (4, none)] := by decide +kernel

end Larch.Props
