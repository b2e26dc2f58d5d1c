import Verif.Model.HistFig
import Verif.Props.Shares
import Mathlib.Data.Rat.Floor
import Mathlib.Algebra.Order.Floor.Ring

/-!
# C184: the numbers of a histogram
-/

namespace Larch.Props

open Larch.Shares Larch.HistFig

set_option linter.unusedSectionVars false
set_option linter.unusedSimpArgs false

variable {K : Type} [Field K] [LinearOrder K]

/-- The entry is a number with this property. -/
def isNumber (P : K → Bool) (r : Rec K) : Bool :=
  match r.x with
  | .fin v => P v
  | _ => false

/-- The sum of a quantity over the entries that are numbers with a property. -/
def massWhere (d : List (Rec K)) (q : Rec K → K) (P : K → Bool) : K := ((d.filter (isNumber P)).map q).sum

/-- The weight of an entry: one without weights. -/
def weightOf (weighted : Bool) (r : Rec K) : K := if weighted then r.w else 1

theorem hf_finites (d : List (Rec K)) (q : Rec K → K) (P : K → Bool) :
    (((finites d).filter (fun p => P p.1)).map (fun p => q p.2)).sum = massWhere d q P := by
  induction d with
  | nil => rfl
  | cons r t ih =>
    unfold finites massWhere at *
    rcases r with ⟨x, w, c⟩
    cases x with
    | fin v =>
      simp only [List.filterMap_cons, List.filter_cons, isNumber]
      by_cases h : P v = true
      · simp only [h, if_true, List.map_cons, List.sum_cons, ih]
      · simp only [h, Bool.false_eq_true, if_false, ih]
    | nan => simpa [isNumber] using ih
    | pinf => simpa [isNumber] using ih
    | ninf => simpa [isNumber] using ih

theorem hf_unless (drop : Bool) (l : List (K × Rec K)) (P : K → Bool) :
    (unlessZero drop l).filter (fun p => P p.1) = l.filter (fun p => P p.1 && !(drop && decide (p.1 = 0))) := by
  unfold unlessZero
  cases drop with
  | false => simp
  | true => simp [List.filter_filter]

theorem hf_mem_finites (d : List (Rec K)) (p : K × Rec K) : p ∈ finites d ↔ p.2 ∈ d ∧ p.2.x = .fin p.1 := by
  unfold finites
  rw [List.mem_filterMap]
  constructor
  · rintro ⟨r, hr, h⟩
    rcases r with ⟨x, w, c⟩
    cases x <;> simp at h
    subst h
    exact ⟨hr, rfl⟩
  · rintro ⟨h1, h2⟩
    refine ⟨p.2, h1, ?_⟩
    rw [h2]

theorem hf_bar (edges : List K) (h : Increasing edges) (l : List (K × Rec K)) (q : Rec K → K) (k : Nat) (hk : k + 1 < edges.length) :
    (hist (l.map (fun p => (p.1, q p.2))) edges)[k]? = some ((l.filter (fun p => inBin edges k p.1)).map (fun p => q p.2)).sum := by
  rw [sh_hist _ edges h k hk, List.filter_map, List.map_map]
  rfl

theorem hf_total (d : List (K × K)) (edges : List K) (h : Increasing edges) (a z : K) (ha : edges.head? = some a) (hz : edges.getLast? = some z)
    (h2 : 2 ≤ edges.length) : (hist d edges).sum = ((d.filter (fun p => decide (a ≤ p.1) && decide (p.1 ≤ z))).map Prod.snd).sum := by
  have key : ∀ (edges : List K), Increasing edges → 2 ≤ edges.length → ∀ a z, edges.head? = some a → edges.getLast? = some z →
      a ≤ z ∧ (hist d edges).sum = upTo d z - below d a := by
    intro edges
    induction edges using hist.induct with
    | case1 => intro _ h; simp at h
    | case2 a => intro _ h; simp at h
    | case3 a b =>
      intro h _ x z hx hz
      simp only [List.head?_cons, Option.some.injEq] at hx
      simp at hz
      subst hx; subst hz
      exact ⟨by simpa [Increasing] using h, by simp [hist]⟩
    | case4 a b c r ih =>
      intro h _ x z hx hz
      simp only [List.head?_cons, Option.some.injEq] at hx
      subst hx
      have hab : a ≤ b := List.rel_of_pairwise_cons h (by simp)
      obtain ⟨h1, h2⟩ := ih (List.Pairwise.of_cons h) (by simp) b z rfl (by simpa [List.getLast?_cons_cons] using hz)
      refine ⟨hab.trans h1, ?_⟩
      simp only [hist, List.sum_cons, h2]
      ring
  obtain ⟨h1, h3⟩ := key edges h h2 a z ha hz
  rw [h3, sh_upTo d a z h1]

section ordered
variable [IsStrictOrderedRing K]

theorem hf_linspace (b t : K) (n : Nat) (h : b ≤ t) (hn : 2 ≤ n) :
    (linspace b t n).length = n ∧ Increasing (linspace b t n) ∧ (linspace b t n).head? = some b ∧ (linspace b t n).getLast? = some t ∧
      ∀ (i : Nat), i < n → (linspace b t n)[i]? = some (b + (i : K) * ((t - b) / ((n : K) - 1))) := by
  have hget : ∀ (i : Nat), i < n → (linspace b t n)[i]? = some (b + (i : K) * ((t - b) / ((n : K) - 1))) := by
    intro i hi
    simp [linspace, hi]
  have hlen : (linspace b t n).length = n := by simp [linspace]
  have hn1 : (0 : K) < (n : K) - 1 := by
    have : (2 : K) ≤ (n : K) := by exact_mod_cast hn
    linarith
  refine ⟨hlen, ?_, ?_, ?_, hget⟩
  · unfold Increasing linspace
    rw [List.pairwise_map]
    refine List.Pairwise.imp ?_ (List.pairwise_lt_range (n := n))
    intro i j hij
    have : (i : K) ≤ (j : K) := by exact_mod_cast hij.le
    have h3 : 0 ≤ (t - b) / ((n : K) - 1) := div_nonneg (by linarith) hn1.le
    nlinarith [mul_le_mul_of_nonneg_right this h3]
  · rw [List.head?_eq_getElem?, hget 0 (by omega)]
    simp
  · rw [List.getLast?_eq_getElem?, hlen, hget (n - 1) (by omega)]
    have : ((n - 1 : Nat) : K) = (n : K) - 1 := by
      rw [Nat.cast_sub (by omega)]; simp
    rw [this, mul_div_cancel₀ _ hn1.ne']
    simp

/-- The lists of numbers that the histogram uses, for a range that is not fixed: all that are finite, or those that are not zero. -/
theorem hf_robust (threshold cut pct : K) (percentile : K → Option K) (d : List (Rec K)) :
    (robust threshold cut pct percentile d).kept = unlessZero (robust threshold cut pct percentile d).dropped (finites d) ∧
      (robust threshold cut pct percentile d).dropped = dropZeros threshold (zeros d) (finites d).length ∧
      (robust threshold cut pct percentile d).under = some 0 ∧ (robust threshold cut pct percentile d).over = some 0 := by
  unfold robust
  simp only []
  split <;> exact ⟨rfl, rfl, rfl, rfl⟩

theorem hf_ok [FloorRing K] (dt cut eps : K) (percentile : K → Option K) (a : Args K) (d : List (Rec K)) (o : Out K)
    (h : histogramData dt cut eps percentile a d = .ok o) (hd : a.density = false) :
    ∃ f, rangeOf dt cut eps percentile a d = some f ∧ Increasing o.edges ∧
      o.edges = binEdges a.bins (limits a.maxrange f.bottom f.top).1 (limits a.maxrange f.bottom f.top).2 ∧
      o.heights = (hist (dataOf a.weighted f.kept) o.edges).map some ∧
      o.chosen = (if a.choices then some ((hist (choicesOf f.kept) o.edges).map some) else none) ∧
      o.dropped = f.dropped ∧ o.truncated = f.truncated ∧ o.under = f.under ∧ o.over = f.over := by
  unfold histogramData at h
  cases hf : rangeOf dt cut eps percentile a d with
  | none => rw [hf] at h; cases h
  | some f =>
    rw [hf] at h
    simp only [histogram, hd, Bool.false_eq_true, if_false] at h
    by_cases hi : List.Pairwise (fun a b => a ≤ b) (binEdges a.bins (limits a.maxrange f.bottom f.top).1 (limits a.maxrange f.bottom f.top).2)
    · simp only [if_pos hi, Except.bind, Except.ok.injEq] at h
      subst h
      exact ⟨f, rfl, hi, rfl, rfl, rfl, rfl, rfl, rfl, rfl⟩
    · simp only [if_neg hi, Except.bind] at h
      cases h

/-- **C184.**  Without a fixed range each bar is the weight of the entries of its bin, infinite and missing ones left out; and of the choices likewise.  If zeros
are more than the given part of the finite entries they are left out too, and this is marked. -/
theorem C184_bars [FloorRing K] (dt cut eps : K) (percentile : K → Option K) (a : Args K) (d : List (Rec K)) (o : Out K)
    (h : histogramData dt cut eps percentile a d = .ok o) (hd : a.density = false) (hr : a.fixedrange = none) :
    (o.dropped = true ↔ dt * (((d.filter (isNumber (fun _ => true))).length : Nat) : K) < (((d.filter (isNumber (fun v => decide (v = 0)))).length : Nat) : K) ∧
      d.filter (isNumber (fun _ => true)) ≠ []) ∧
      ∀ (k : Nat), k + 1 < o.edges.length →
        o.heights[k]? = some (some (massWhere d (weightOf a.weighted) (fun v => inBin o.edges k v && !(o.dropped && decide (v = 0))))) ∧
        (a.choices = true → ∃ l, o.chosen = some l ∧
          l[k]? = some (some (massWhere d (fun r => r.c) (fun v => inBin o.edges k v && !(o.dropped && decide (v = 0)))))) := by
  obtain ⟨f, hf, hi, -, hh, hc, hdr, -, -, -⟩ := hf_ok dt cut eps percentile a d o h hd
  have hfr : f = robust dt cut a.pct percentile d := by
    unfold rangeOf at hf
    rw [hr] at hf
    exact (Option.some.inj hf).symm
  obtain ⟨h1, h2, -, -⟩ := hf_robust dt cut a.pct percentile d
  rw [← hfr] at h1 h2
  have hlen : (d.filter (isNumber (fun _ => true))).length = (finites d).length := by
    unfold finites
    clear h hf h2 hfr h1
    induction d with
    | nil => rfl
    | cons r t ih =>
      rcases r with ⟨x, w, c⟩
      cases x with
      | fin v => simp only [isNumber, List.filterMap_cons, List.filter_cons, if_true, List.length_cons, ih]
      | nan => simpa [isNumber] using ih
      | pinf => simpa [isNumber] using ih
      | ninf => simpa [isNumber] using ih
  have hz : (d.filter (isNumber (fun v => decide (v = 0)))).length = zeros d := by
    unfold zeros
    congr 2
    funext r
    rcases r with ⟨x, w, c⟩
    cases x <;> simp [isNumber]
  refine ⟨?_, fun k hk => ⟨?_, fun hch => ?_⟩⟩
  · rw [hdr, h2, hlen, hz, ← List.length_pos_iff_ne_nil, hlen]
    unfold dropZeros
    simp only [Bool.and_eq_true, decide_eq_true_eq]
    constructor
    · rintro ⟨hn, hlt⟩
      have hp : (0 : K) < ((finites d).length : K) := by exact_mod_cast Nat.pos_of_ne_zero hn
      exact ⟨(lt_div_iff₀ hp).1 hlt, Nat.pos_of_ne_zero hn⟩
    · rintro ⟨hlt, hn⟩
      have hp : (0 : K) < ((finites d).length : K) := by exact_mod_cast hn
      exact ⟨by omega, (lt_div_iff₀ hp).2 hlt⟩
  · rw [hh, List.getElem?_map]
    have : dataOf a.weighted f.kept = f.kept.map (fun p => (p.1, weightOf a.weighted p.2)) := rfl
    rw [this, hf_bar o.edges hi f.kept (weightOf a.weighted) k hk, h1, hf_unless, hdr]
    exact congrArg (fun x => some (some x)) (hf_finites d (weightOf a.weighted) (fun v => inBin o.edges k v && !(f.dropped && decide (v = 0))))
  · refine ⟨_, by rw [hc, if_pos hch], ?_⟩
    rw [List.getElem?_map]
    have : choicesOf f.kept = f.kept.map (fun p => (p.1, (fun r : Rec K => r.c) p.2)) := rfl
    rw [this, hf_bar o.edges hi f.kept (fun r => r.c) k hk, h1, hf_unless, hdr]
    exact congrArg (fun x => some (some x)) (hf_finites d (fun r => r.c) (fun v => inBin o.edges k v && !(f.dropped && decide (v = 0))))

theorem hf_foldl_min (l : List K) : ∀ (a : K), l.foldl min a ∈ a :: l ∧ ∀ v ∈ a :: l, l.foldl min a ≤ v := by
  induction l with
  | nil => simp
  | cons b r ih =>
    intro a
    obtain ⟨h1, h2⟩ := ih (min a b)
    simp only [List.foldl_cons]
    refine ⟨?_, fun v hv => ?_⟩
    · rcases List.mem_cons.1 h1 with h | h
      · rw [h]
        rcases min_choice a b with h | h <;> rw [h] <;> simp
      · simp [h]
    · have := h2 (min a b) (by simp)
      simp only [List.mem_cons] at hv
      rcases hv with rfl | rfl | hv
      · exact this.trans (min_le_left _ _)
      · exact this.trans (min_le_right _ _)
      · exact h2 v (by simp [hv])

theorem hf_foldl_max (l : List K) : ∀ (a : K), l.foldl max a ∈ a :: l ∧ ∀ v ∈ a :: l, v ≤ l.foldl max a := by
  induction l with
  | nil => simp
  | cons b r ih =>
    intro a
    obtain ⟨h1, h2⟩ := ih (max a b)
    simp only [List.foldl_cons]
    refine ⟨?_, fun v hv => ?_⟩
    · rcases List.mem_cons.1 h1 with h | h
      · rw [h]
        rcases max_choice a b with h | h <;> rw [h] <;> simp
      · simp [h]
    · have := h2 (max a b) (by simp)
      simp only [List.mem_cons] at hv
      rcases hv with rfl | rfl | hv
      · exact (le_max_left _ _).trans this
      · exact (le_max_right _ _).trans this
      · exact h2 v (by simp [hv])

/-- Without cutting the range goes from the least to the greatest of the values that are used. -/
theorem hf_range (threshold cut pct : K) (hpct : 0 ≤ pct) (percentile : K → Option K) (d : List (Rec K))
    (h0 : (robust threshold cut pct percentile d).truncated = 0) :
    ((robust threshold cut pct percentile d).kept ≠ [] → (∃ p ∈ (robust threshold cut pct percentile d).kept, p.1 = (robust threshold cut pct percentile d).bottom) ∧
      (∃ p ∈ (robust threshold cut pct percentile d).kept, p.1 = (robust threshold cut pct percentile d).top)) ∧
      ∀ p ∈ (robust threshold cut pct percentile d).kept,
        (robust threshold cut pct percentile d).bottom ≤ p.1 ∧ p.1 ≤ (robust threshold cut pct percentile d).top := by
  have hcut : ∀ (far : Bool) (v : K) (p : Option K), 0 ≤ (cutAt pct far v p).2 ∧ ((cutAt pct far v p).2 = 0 → (cutAt pct far v p).1 = v) := by
    intro far v p
    unfold cutAt
    split_ifs with hp
    · cases p with
      | none => simp
      | some w => simp only [Option.map_some, Option.getD_some]; exact ⟨hpct, fun h => absurd h hp.1.ne'⟩
    · simp
  unfold robust at h0 ⊢
  simp only [] at h0 ⊢
  generalize unlessZero (dropZeros threshold (zeros d) (finites d).length) (finites d) = kept at h0 ⊢
  cases hk : kept.map Prod.fst with
  | nil =>
    rw [hk] at h0
    norm_num at h0
  | cons x l =>
    rw [hk] at h0
    simp only [] at h0 ⊢
    generalize hB : cutAt pct (decide (List.foldl min x l < meanOf (x :: l)) && decide (cut ^ 2 * varOf (x :: l) < (meanOf (x :: l) - List.foldl min x l) ^ 2))
      (List.foldl min x l) (percentile pct) = B at h0 ⊢
    generalize hT : cutAt pct (decide (meanOf (x :: l) < List.foldl max x l) && decide (cut ^ 2 * varOf (x :: l) < (List.foldl max x l - meanOf (x :: l)) ^ 2))
      (List.foldl max x l) (percentile (100 - pct)) = T at h0 ⊢
    have h1 := hcut (decide (List.foldl min x l < meanOf (x :: l)) && decide (cut ^ 2 * varOf (x :: l) < (meanOf (x :: l) - List.foldl min x l) ^ 2))
      (List.foldl min x l) (percentile pct)
    have h2 := hcut (decide (meanOf (x :: l) < List.foldl max x l) && decide (cut ^ 2 * varOf (x :: l) < (List.foldl max x l - meanOf (x :: l)) ^ 2))
      (List.foldl max x l) (percentile (100 - pct))
    rw [hB] at h1
    rw [hT] at h2
    have e1 := h1.2 (by linarith [h1.1, h2.1])
    have e2 := h2.2 (by linarith [h1.1, h2.1])
    rw [e1, e2]
    obtain ⟨m1, m2⟩ := hf_foldl_min l x
    obtain ⟨n1, n2⟩ := hf_foldl_max l x
    rw [← hk] at m1 m2 n1 n2
    refine ⟨fun _ => ⟨?_, ?_⟩, fun p hp => ⟨m2 _ (List.mem_map_of_mem hp), n2 _ (List.mem_map_of_mem hp)⟩⟩
    · obtain ⟨p, hp, h⟩ := List.mem_map.1 m1
      exact ⟨p, hp, h⟩
    · obtain ⟨p, hp, h⟩ := List.mem_map.1 n1
      exact ⟨p, hp, h⟩

/-- **C184.**  Without a fixed range, a limit (`maxrange`) or cutting, and with the number `n` given, there are `n` edges at equal distances from the least to
the greatest of the values that are used, and the bars together have all of their weight. -/
theorem C184_all_shown [FloorRing K] (dt cut eps : K) (percentile : K → Option K) (a : Args K) (d : List (Rec K)) (o : Out K) (n : Nat)
    (h : histogramData dt cut eps percentile a d = .ok o) (hd : a.density = false) (hr : a.fixedrange = none) (hm : a.maxrange = none)
    (hb : a.bins = .number n) (hn : 2 ≤ n) (hp : 0 ≤ a.pct) (h0 : o.truncated = 0) :
    ∃ lo hi : K, lo ≤ hi ∧ (∃ r ∈ d, isNumber (fun v => decide (v = lo) && !(o.dropped && decide (v = 0))) r = true) ∧
      (∃ r ∈ d, isNumber (fun v => decide (v = hi) && !(o.dropped && decide (v = 0))) r = true) ∧
      o.edges.length = n ∧ (∀ (i : Nat), i < n → o.edges[i]? = some (lo + (i : K) * ((hi - lo) / ((n : K) - 1)))) ∧
      ∃ l : List K, o.heights = l.map some ∧ l.length + 1 = n ∧ l.sum = massWhere d (weightOf a.weighted) (fun v => !(o.dropped && decide (v = 0))) := by
  obtain ⟨f, hf, hi, he, hh, -, hdr, htr, -, -⟩ := hf_ok dt cut eps percentile a d o h hd
  have hfr : f = robust dt cut a.pct percentile d := by
    unfold rangeOf at hf
    rw [hr] at hf
    exact (Option.some.inj hf).symm
  obtain ⟨h1, h2, -, -⟩ := hf_robust dt cut a.pct percentile d
  obtain ⟨h3, h4⟩ := hf_range dt cut a.pct hp percentile d (by rw [← hfr, ← htr]; exact h0)
  rw [← hfr] at h1 h3 h4
  have hne : f.kept ≠ [] := by
    intro hk
    have h0' : f.truncated = 0 := by rw [← htr]; exact h0
    have h1' : unlessZero (dropZeros dt (zeros d) (finites d).length) (finites d) = [] := by rw [← h2, ← hfr, ← h1]; exact hk
    rw [hfr] at h0'
    unfold robust at h0'
    simp only [h1'] at h0'
    norm_num at h0'
  obtain ⟨⟨p, hp1, hp2⟩, q, hq1, hq2⟩ := h3 hne
  have hle : f.bottom ≤ f.top := (h4 p hp1).1.trans (h4 p hp1).2
  have hlim : limits a.maxrange f.bottom f.top = (f.bottom, f.top) := by
    unfold limits
    rw [hm]
    simp only [if_neg (not_lt.2 hle)]
  rw [hlim, hb] at he
  have he' : o.edges = linspace f.bottom f.top n := he
  obtain ⟨l1, l2, l3, l4, l5⟩ := hf_linspace f.bottom f.top n hle hn
  have hused : ∀ p ∈ f.kept, p.2 ∈ d ∧ isNumber (fun v => decide (v = p.1) && !(o.dropped && decide (v = 0))) p.2 = true := by
    intro p hp
    rw [h1] at hp
    have hz : p ∈ finites d ∧ (f.dropped = true → p.1 ≠ 0) := by
      unfold unlessZero at hp
      split_ifs at hp with hh
      · have := List.mem_filter.1 hp
        exact ⟨this.1, fun _ => by simpa using this.2⟩
      · exact ⟨hp, fun h => absurd h hh⟩
    have hm := (hf_mem_finites d p).1 hz.1
    refine ⟨hm.1, ?_⟩
    unfold isNumber
    rw [hm.2, hdr]
    cases hd' : f.dropped with
    | false => simp
    | true => simpa using hz.2 hd'
  refine ⟨f.bottom, f.top, hle, ⟨p.2, (hused p hp1).1, by rw [← hp2]; exact (hused p hp1).2⟩, ⟨q.2, (hused q hq1).1, by rw [← hq2]; exact (hused q hq1).2⟩,
    by rw [he']; exact l1, fun i hi => by rw [he']; exact l5 i hi, hist (dataOf a.weighted f.kept) o.edges, hh, ?_, ?_⟩
  · rw [sh_length, he', l1]
    omega
  · rw [hf_total _ o.edges hi f.bottom f.top (by rw [he']; exact l3) (by rw [he']; exact l4) (by rw [he', l1]; exact hn)]
    have hall : (dataOf a.weighted f.kept).filter (fun p => decide (f.bottom ≤ p.1) && decide (p.1 ≤ f.top)) = dataOf a.weighted f.kept := by
      refine List.filter_eq_self.2 (fun x hx => ?_)
      obtain ⟨p, hp, rfl⟩ := List.mem_map.1 hx
      have := h4 p hp
      simp [this.1, this.2]
    rw [hall]
    have hm2 : (dataOf a.weighted f.kept).map Prod.snd = f.kept.map (fun p => weightOf a.weighted p.2) := by
      unfold dataOf weightOf
      rw [List.map_map]
      rfl
    have hfl := hf_unless f.dropped (finites d) (fun _ => true)
    simp only [List.filter_true, Bool.true_and] at hfl
    rw [hm2, h1, hfl, hdr]
    exact hf_finites d (weightOf a.weighted) (fun v => !(f.dropped && decide (v = 0)))

/-! ## A fixed range -/

/-- The value is between the limits, the limits not included. -/
def between (lo hi : Option K) (v : K) : Bool :=
  (match lo with | some l => decide (l < v) | none => true) && (match hi with | some h => decide (v < h) | none => true)

/-- Infinite values are on a side with a limit. -/
def Bounded (lo hi : Option K) (d : List (Rec K)) : Prop := ∀ r ∈ d, (r.x = .pinf → hi ≠ none) ∧ (r.x = .ninf → lo ≠ none)

theorem hf_fixed (threshold eps : K) (lo hi : Option K) (d : List (Rec K)) (f : Found K) (h : fixed threshold eps lo hi d = some f) :
    f.kept = finites (((unmasked threshold d).filter (fun r => !isOver hi r.x)).filter (fun r => !isUnder lo r.x)) ∧
      f.dropped = dropZeros threshold (zeros d) (present d).length ∧ (∀ l, lo = some l → f.bottom = l) ∧ (∀ t, hi = some t → f.top = t) ∧
      f.over = divide (((unmasked threshold d).length - ((unmasked threshold d).filter (fun r => !isOver hi r.x)).length : Nat) : K) ((present d).length : K) ∧
      f.under = divide ((((unmasked threshold d).filter (fun r => !isOver hi r.x)).length -
        (((unmasked threshold d).filter (fun r => !isOver hi r.x)).filter (fun r => !isUnder lo r.x)).length : Nat) : K) ((present d).length : K) := by
  unfold fixed at h
  simp only [] at h
  rw [Option.bind_eq_some_iff] at h
  obtain ⟨b, hb, h⟩ := h
  rw [Option.map_eq_some_iff] at h
  obtain ⟨t, ht, rfl⟩ := h
  refine ⟨rfl, rfl, fun l hl => ?_, fun l hl => ?_, rfl, rfl⟩
  · subst hl
    exact (Option.some.inj hb).symm
  · subst hl
    exact (Option.some.inj ht).symm

theorem hf_left (threshold : K) (lo hi : Option K) (d : List (Rec K)) (hbd : Bounded lo hi d) (drop : Bool)
    (hdrop : drop = dropZeros threshold (zeros d) (present d).length) (P : K → Bool) (q : Rec K → K) :
    (((finites (((unmasked threshold d).filter (fun r => !isOver hi r.x)).filter (fun r => !isUnder lo r.x))).filter (fun p => P p.1)).map (fun p => q p.2)).sum =
      massWhere d q (fun v => P v && between lo hi v && !(drop && decide (v = 0))) := by
  rw [hf_finites]
  unfold massWhere unmasked
  rw [← hdrop]
  congr 2
  have key : ∀ r ∈ d, (isNumber P r && !isUnder lo r.x && !isOver hi r.x && (if drop then decide (r.x ≠ .fin 0) else true) && decide (r.x ≠ .nan)) =
      isNumber (fun v => P v && between lo hi v && !(drop && decide (v = 0))) r := by
    intro r hr
    rcases r with ⟨x, w, c⟩
    cases x with
    | fin v =>
      cases lo with
      | none =>
        cases hi with
        | none => cases drop <;> simp [isNumber, isUnder, isOver, between]
        | some t => cases drop <;> simp [isNumber, isUnder, isOver, between, not_le] <;> cases P v <;> simp [← not_lt]
      | some l =>
        cases hi with
        | none => cases drop <;> simp [isNumber, isUnder, isOver, between] <;> cases P v <;> simp [← not_lt]
        | some t =>
          have h1 : (!decide (v ≤ l)) = decide (l < v) := by simp [← not_le]
          have h2 : (!decide (t ≤ v)) = decide (v < t) := by simp [← not_le]
          cases drop <;> simp [isNumber, isUnder, isOver, between, h1, h2, Bool.and_assoc]
    | nan => simp [isNumber]
    | pinf => simp [isNumber]
    | ninf => simp [isNumber]
  have hfil : ∀ (l : List (Rec K)), (∀ r ∈ l, r ∈ d) → (List.filter (isNumber P) (List.filter (fun r => !isUnder lo r.x) (List.filter (fun r => !isOver hi r.x)
      (if drop = true then List.filter (fun r => decide (r.x ≠ .fin 0)) (present l) else present l)))) =
      l.filter (isNumber (fun v => P v && between lo hi v && !(drop && decide (v = 0)))) := by
    intro l hl
    have : (if drop = true then List.filter (fun r : Rec K => decide (r.x ≠ .fin 0)) (present l) else present l) =
        (present l).filter (fun r => if drop then decide (r.x ≠ .fin 0) else true) := by
      cases drop <;> simp
    rw [this]
    unfold present
    simp only [List.filter_filter]
    exact List.filter_congr (fun r hr => by rw [← key r (hl r hr)]; simp only [Bool.and_assoc])
  exact hfil d (fun r hr => hr)

/-- **C184.**  With a fixed range (a limit on one side or both) each bar is the weight of the entries of its bin that are between the limits, the limits not
included. -/
theorem C184_fixed_bars [FloorRing K] (dt cut eps : K) (percentile : K → Option K) (a : Args K) (d : List (Rec K)) (o : Out K) (lo hi : Option K)
    (h : histogramData dt cut eps percentile a d = .ok o) (hd : a.density = false) (hr : a.fixedrange = some (lo, hi)) (hbd : Bounded lo hi d) :
    ∀ (k : Nat), k + 1 < o.edges.length →
      o.heights[k]? = some (some (massWhere d (weightOf a.weighted) (fun v => inBin o.edges k v && between lo hi v && !(o.dropped && decide (v = 0))))) := by
  obtain ⟨f, hf, hi', -, hh, -, hdr, -, -, -⟩ := hf_ok dt cut eps percentile a d o h hd
  have hfx : fixed a.threshold eps lo hi d = some f := by
    unfold rangeOf at hf
    rw [hr] at hf
    exact hf
  obtain ⟨h1, h2, -⟩ := hf_fixed a.threshold eps lo hi d f hfx
  intro k hk
  rw [hh, List.getElem?_map]
  have : dataOf a.weighted f.kept = f.kept.map (fun p => (p.1, weightOf a.weighted p.2)) := rfl
  rw [this, hf_bar o.edges hi' f.kept (weightOf a.weighted) k hk, h1, hdr]
  exact congrArg (fun x => some (some x)) (hf_left a.threshold lo hi d hbd f.dropped h2 (inBin o.edges k) (weightOf a.weighted))

/-- The number of entries with a value of some kind. -/
def countOf (d : List (Rec K)) (P : Num K → Bool) : Nat := (d.filter (fun r => P r.x)).length

theorem hf_count_split (l : List (Rec K)) (P : Num K → Bool) : l.length - (l.filter (fun r => !P r.x)).length = countOf l P := by
  have : l.length = (l.filter (fun r => P r.x)).length + (l.filter (fun r => !P r.x)).length := by
    induction l with
    | nil => rfl
    | cons r t ih =>
      simp only [List.filter_cons, List.length_cons]
      cases P r.x <;> simp [ih] <;> omega
  unfold countOf
  omega

/-- **C184.**  With both limits, and zeros not left out, the bars are over the range, and together have the weight of the entries between the limits; the parts under
and over the limits are those of the entries at or beyond them (and not missing), and with the part shown they make one. -/
theorem C184_fixed_parts [FloorRing K] (dt cut eps : K) (percentile : K → Option K) (a : Args K) (d : List (Rec K)) (o : Out K) (lo hi : K) (n : Nat)
    (h : histogramData dt cut eps percentile a d = .ok o) (hd : a.density = false) (hr : a.fixedrange = some (some lo, some hi)) (hm : a.maxrange = none)
    (hlt : lo < hi) (hb : a.bins = .number n) (hn : 2 ≤ n) (hz : o.dropped = false) (hne : ∃ r ∈ d, r.x ≠ .nan) :
    (o.edges.head? = some lo ∧ o.edges.getLast? = some hi) ∧
      (∃ l : List K, o.heights = l.map some ∧ l.sum = massWhere d (weightOf a.weighted) (fun v => decide (lo < v) && decide (v < hi))) ∧
      ∃ under over : K, o.under = some under ∧ o.over = some over ∧
        over * (countOf d (fun x => decide (x ≠ .nan)) : K) = (countOf d (isOver (some hi)) : K) ∧
        under * (countOf d (fun x => decide (x ≠ .nan)) : K) = (countOf d (isUnder (some lo)) : K) ∧
        under + over + massWhere d (fun _ => 1) (fun v => decide (lo < v) && decide (v < hi)) / (countOf d (fun x => decide (x ≠ .nan)) : K) = 1 := by
  obtain ⟨f, hf, hi', he, hh, -, hdr, -, hun, hov⟩ := hf_ok dt cut eps percentile a d o h hd
  have hfx : fixed a.threshold eps (some lo) (some hi) d = some f := by
    unfold rangeOf at hf
    rw [hr] at hf
    exact hf
  obtain ⟨h1, h2, h3, h4, h5, h6⟩ := hf_fixed a.threshold eps (some lo) (some hi) d f hfx
  have hbd : Bounded (some lo) (some hi) d := fun r _ => ⟨fun _ => by simp, fun _ => by simp⟩
  have hdrop : dropZeros a.threshold (zeros d) (present d).length = false := by rw [← h2, ← hdr]; exact hz
  have hun' : unmasked a.threshold d = present d := by
    unfold unmasked
    rw [hdrop]
    rfl
  have hlim : limits a.maxrange f.bottom f.top = (lo, hi) := by
    unfold limits
    rw [hm, h3 lo rfl, h4 hi rfl]
    simp only [if_neg (not_lt.2 hlt.le)]
  rw [hlim, hb] at he
  have he' : o.edges = linspace lo hi n := he
  obtain ⟨l1, l2, l3, l4, l5⟩ := hf_linspace lo hi n hlt.le hn
  have hpres : (countOf d (fun x => decide (x ≠ .nan)) : K) = ((present d).length : K) := rfl
  have hpos : (0 : K) < ((present d).length : K) := by
    obtain ⟨r, hr, hrn⟩ := hne
    have : 0 < (present d).length := List.length_pos_of_mem (List.mem_filter.2 ⟨hr, by simpa using hrn⟩)
    exact_mod_cast this
  have hcountover : countOf (present d) (isOver (some hi)) = countOf d (isOver (some hi)) := by
    unfold countOf present
    rw [List.filter_filter]
    congr 1
    refine List.filter_congr (fun r _ => ?_)
    rcases r with ⟨x, w, c⟩
    cases x <;> simp [isOver]
  have hcountunder : countOf ((present d).filter (fun r => !isOver (some hi) r.x)) (isUnder (some lo)) = countOf d (isUnder (some lo)) := by
    unfold countOf present
    rw [List.filter_filter, List.filter_filter]
    congr 1
    refine List.filter_congr (fun r _ => ?_)
    rcases r with ⟨x, w, c⟩
    cases x with
    | fin v =>
      simp only [isUnder, isOver, ne_eq, reduceCtorEq, not_false_eq_true, decide_true, Bool.and_true]
      by_cases hv : v ≤ lo
      · simp [hv, lt_of_le_of_lt hv hlt]
      · simp [hv]
    | nan => simp [isUnder]
    | pinf => simp [isUnder]
    | ninf => simp [isUnder, isOver]
  rw [hun', hf_count_split, hcountover] at h5
  rw [hun', hf_count_split, hcountunder] at h6
  have hdiv : ∀ (x : K), divide x ((present d).length : K) = some (x / ((present d).length : K)) := fun x => by
    unfold divide
    rw [if_neg hpos.ne']
  rw [hdiv] at h5 h6
  have hmass : massWhere d (fun _ => 1) (fun v => decide (lo < v) && decide (v < hi)) +
      (countOf d (isUnder (some lo)) : K) + (countOf d (isOver (some hi)) : K) = ((present d).length : K) := by
    unfold massWhere countOf present
    clear h hf he hh hun hov hfx h1 h2 h3 h4 h5 h6 hbd hdrop hun' hlim hpres hpos hcountover hcountunder hdiv hne
    induction d with
    | nil => simp
    | cons r t ih =>
      rcases r with ⟨x, w, c⟩
      cases x with
      | fin v =>
        simp only [isNumber, isUnder, isOver, List.filter_cons, ne_eq, reduceCtorEq, not_false_eq_true, decide_true, if_true, List.length_cons, Nat.cast_add,
          Nat.cast_one] at ih ⊢
        rw [← ih]
        by_cases hv : v ≤ lo
        · have hv1 : ¬ lo < v := not_lt.2 hv
          have hv2 : ¬ hi ≤ v := not_le.2 (lt_of_le_of_lt hv hlt)
          simp only [hv, hv1, hv2, decide_true, decide_false, Bool.false_and, Bool.false_eq_true, if_false, if_true, List.length_cons, Nat.cast_add, Nat.cast_one]
          ring
        · by_cases hv3 : hi ≤ v
          · have hv1 : lo < v := not_le.1 hv
            have hv2 : ¬ v < hi := not_lt.2 hv3
            simp only [hv, hv1, hv2, hv3, decide_true, decide_false, Bool.and_false, Bool.false_eq_true, if_false, if_true, List.length_cons, Nat.cast_add, Nat.cast_one]
            ring
          · have hv1 : lo < v := not_le.1 hv
            have hv2 : v < hi := not_le.1 hv3
            simp only [hv, hv1, hv2, hv3, decide_true, decide_false, Bool.and_true, Bool.false_eq_true, if_false, if_true, List.map_cons, List.sum_cons]
            ring
      | nan => simpa [isNumber, isUnder, isOver] using ih
      | pinf =>
        simp only [isNumber, isUnder, isOver, List.filter_cons, ne_eq, reduceCtorEq, not_false_eq_true, decide_true, if_true, List.length_cons, Nat.cast_add,
          Nat.cast_one, Bool.false_eq_true, if_false] at ih ⊢
        rw [← ih]
        ring
      | ninf =>
        simp only [isNumber, isUnder, isOver, List.filter_cons, ne_eq, reduceCtorEq, not_false_eq_true, decide_true, if_true, List.length_cons, Nat.cast_add,
          Nat.cast_one, Bool.false_eq_true, if_false] at ih ⊢
        rw [← ih]
        ring
  refine ⟨⟨by rw [he']; exact l3, by rw [he']; exact l4⟩, ⟨hist (dataOf a.weighted f.kept) o.edges, hh, ?_⟩, _, _, hun.trans h6, hov.trans h5, ?_, ?_, ?_⟩
  · rw [hf_total _ o.edges hi' lo hi (by rw [he']; exact l3) (by rw [he']; exact l4) (by rw [he', l1]; exact hn)]
    have h7 := hf_left a.threshold (some lo) (some hi) d hbd f.dropped h2 (fun v => decide (lo ≤ v) && decide (v ≤ hi)) (weightOf a.weighted)
    rw [← h1] at h7
    have h8 : (((dataOf a.weighted f.kept).filter (fun p => decide (lo ≤ p.1) && decide (p.1 ≤ hi))).map Prod.snd).sum =
        ((f.kept.filter (fun p => decide (lo ≤ p.1) && decide (p.1 ≤ hi))).map (fun p => weightOf a.weighted p.2)).sum := by
      unfold dataOf weightOf
      rw [List.filter_map, List.map_map]
      rfl
    rw [h8, h7]
    congr 1
    funext v
    rw [← hdr, hz]
    by_cases h9 : lo < v
    · by_cases h10 : v < hi
      · simp [between, h9, h10, h9.le, h10.le]
      · simp [between, h10]
    · simp [between, h9]
  · rw [hpres]
    field_simp
  · rw [hpres]
    field_simp
  · rw [hpres, ← add_div, ← add_div, div_eq_one_iff_eq hpos.ne', ← hmass]
    ring

/-! ## Densities, and discrete data -/

theorem hf_ok_density [FloorRing K] (dt cut eps : K) (percentile : K → Option K) (a : Args K) (d : List (Rec K)) (o : Out K)
    (h : histogramData dt cut eps percentile a d = .ok o) (hd : a.density = true) :
    a.choices = true ∧ ∃ f, rangeOf dt cut eps percentile a d = some f ∧ Increasing o.edges ∧
      o.heights = perWidth (hist (dataOf a.weighted f.kept) o.edges) o.edges
        (if a.fixedrange.isSome then (if a.weighted then (d.map Rec.w).sum else (d.length : K)) else (hist (dataOf a.weighted f.kept) o.edges).sum) ∧
      o.chosen = some (perWidth (hist (choicesOf f.kept) o.edges) o.edges
        (if a.fixedrange.isSome then (d.map Rec.c).sum else (hist (choicesOf f.kept) o.edges).sum)) := by
  unfold histogramData at h
  cases hf : rangeOf dt cut eps percentile a d with
  | none => rw [hf] at h; cases h
  | some f =>
    rw [hf] at h
    simp only [histogram, hd, if_true] at h
    by_cases hi : List.Pairwise (fun a b => a ≤ b) (binEdges a.bins (limits a.maxrange f.bottom f.top).1 (limits a.maxrange f.bottom f.top).2)
    · simp only [if_pos hi, Except.bind] at h
      cases hc : a.choices with
      | false => rw [hc] at h; cases h
      | true =>
        simp only [hc, if_true, Except.ok.injEq] at h
        subst h
        exact ⟨rfl, f, rfl, hi, rfl, rfl⟩
    · simp only [if_neg hi, Except.bind] at h
      cases h

/-- The area of bars: heights times widths. -/
def areaOf (heights : List (Option K)) (edges : List K) : Option K :=
  (List.zipWith (fun (h : Option K) w => h.map (fun x => x * w)) heights (stepsOf edges)).foldr (fun x s => x.bind (fun a => s.map (fun b => a + b))) (some 0)

theorem hf_area (T : K) (hT : T ≠ 0) : ∀ (h w : List K), h.length = w.length → (∀ v ∈ w, v ≠ 0) →
    (List.zipWith (fun (h : Option K) w => h.map (fun x => x * w)) (List.zipWith (fun a b => (divide a b).bind (fun q => divide q T)) h w) w).foldr
      (fun x s => x.bind (fun a => s.map (fun b => a + b))) (some 0) = some (h.sum / T)
  | [], [], _, _ => by simp
  | [], _ :: _, h, _ => by simp at h
  | _ :: _, [], h, _ => by simp at h
  | a :: r, b :: t, h, hw => by
    have hb : b ≠ 0 := hw b (by simp)
    have := hf_area T hT r t (by simpa using h) (fun v hv => hw v (by simp [hv]))
    simp only [List.zipWith_cons_cons, List.foldr_cons, this]
    simp only [divide, if_neg hb, if_neg hT, Option.bind_some, Option.map_some, List.sum_cons]
    congr 1
    field_simp

/-- **C184.**  With choice weights and `density`, and without a fixed range, the bars have an area of one, and so have those of the choices: if the edges differ and there
is any weight in the range. -/
theorem C184_density [FloorRing K] (dt cut eps : K) (percentile : K → Option K) (a : Args K) (d : List (Rec K)) (o : Out K)
    (h : histogramData dt cut eps percentile a d = .ok o) (hd : a.density = true) (hr : a.fixedrange = none)
    (hup : o.edges.Pairwise (fun a b => a < b)) :
    ∃ f l, rangeOf dt cut eps percentile a d = some f ∧ o.chosen = some l ∧
      ((hist (dataOf a.weighted f.kept) o.edges).sum ≠ 0 → areaOf o.heights o.edges = some 1) ∧
      ((hist (choicesOf f.kept) o.edges).sum ≠ 0 → areaOf l o.edges = some 1) := by
  obtain ⟨-, f, hf, -, hh, hc⟩ := hf_ok_density dt cut eps percentile a d o h hd
  rw [hr] at hh hc
  simp only [Option.isSome_none, Bool.false_eq_true, if_false] at hh hc
  have hsteps : ∀ v ∈ stepsOf o.edges, v ≠ 0 := by
    have : ∀ (l : List K), l.Pairwise (fun a b => a < b) → ∀ v ∈ stepsOf l, v ≠ 0 := by
      intro l
      induction l with
      | nil => intro _ v hv; simp [stepsOf] at hv
      | cons x r ih =>
        intro hp v hv
        cases r with
        | nil => simp [stepsOf] at hv
        | cons y t =>
          simp only [stepsOf, List.tail_cons, List.zipWith_cons_cons, List.mem_cons] at hv
          rcases hv with rfl | hv
          · have : x < y := List.rel_of_pairwise_cons hp (by simp)
            exact sub_ne_zero.2 this.ne'
          · exact ih (List.Pairwise.of_cons hp) v hv
    exact this _ hup
  have hlen : ∀ (q : List (K × K)), (hist q o.edges).length = (stepsOf o.edges).length := by
    intro q
    rw [sh_length]
    simp [stepsOf]
  refine ⟨f, _, hf, hc, fun h0 => ?_, fun h0 => ?_⟩
  · rw [hh]
    exact (hf_area _ h0 _ _ (hlen _) hsteps).trans (by rw [div_self h0])
  · exact (hf_area _ h0 _ _ (hlen _) hsteps).trans (by rw [div_self h0])

/-- **C184.**  Of discrete data each distinct value has a bar, in order, with the weight of its entries; the bars together have all of the weight. -/
theorem C184_discrete (weighted : Bool) (d : List (K × Rec K)) :
    (discreteBars weighted false d).1.Pairwise (fun a b => a < b) ∧ (∀ (v : K), v ∈ (discreteBars weighted false d).1 ↔ ∃ p ∈ d, p.1 = v) ∧
      (discreteBars weighted false d).2.1 = (discreteBars weighted false d).1.map (fun v => some ((d.filter (fun p => decide (p.1 = v))).map (fun p => weightOf weighted p.2)).sum) := by
  refine ⟨?_, fun v => ?_, ?_⟩
  · have h1 := List.pairwise_insertionSort (fun (a b : K) => a ≤ b) (d.map Prod.fst).dedup
    have h2 : ((d.map Prod.fst).dedup.insertionSort (fun a b => a ≤ b)).Nodup :=
      (List.perm_insertionSort _ _).nodup_iff.2 (List.nodup_dedup _)
    exact (List.Pairwise.and h1 h2).imp (fun ⟨h, h'⟩ => lt_of_le_of_ne h h')
  · show v ∈ (d.map Prod.fst).dedup.insertionSort (fun a b => a ≤ b) ↔ _
    rw [(List.perm_insertionSort _ _).mem_iff, List.mem_dedup, List.mem_map]
  · show List.map some (List.map _ _) = List.map _ _
    rw [List.map_map]
    rfl

theorem hf_dedup_take {α : Type} [DecidableEq α] (l : List α) (n : Nat) : (l.take n).dedup.length ≤ l.dedup.length := by
  refine List.Subperm.length_le (List.subperm_of_subset (List.nodup_dedup _) (fun x hx => ?_))
  rw [List.mem_dedup] at hx ⊢
  exact List.mem_of_mem_take hx

/-- **C184.**  Without a dictionary, data seem discrete if they have fewer than six distinct values, and only then, wherever these are; with one, if at most two
distinct values are not in it. -/
theorem C184_seems_discrete {α : Type} [DecidableEq α] (arr keys : List α) :
    (seemsDiscrete arr = true ↔ arr.dedup.length < 6) ∧
      (seemsDiscreteWith arr keys = true ↔ (arr.dedup.filter (fun v => decide (v ∉ keys))).length ≤ 2) := by
  constructor
  · unfold seemsDiscrete
    simp only [Bool.and_eq_true, decide_eq_true_eq]
    have h1 := hf_dedup_take arr 100
    have h2 := hf_dedup_take arr 1000
    omega
  · unfold seemsDiscreteWith
    simp

/-! ## Examples, and where the code falls short -/

end ordered

/-- Five entries, one of them missing. -/
def waits : List (Rec ℚ) := [⟨.fin 0, 1, 0⟩, ⟨.fin 2, 1, 1⟩, ⟨.fin 4, 2, 1⟩, ⟨.nan, 1, 1⟩, ⟨.fin 10, 1, 0⟩]

/-- The numbers of a result that are shown. -/
def numbersOf (r : Except String (Out ℚ)) : Option (List (Option ℚ) × List ℚ × Bool × ℚ) :=
  match r with
  | .ok o => some (o.heights, o.edges, o.dropped, o.truncated)
  | .error _ => none

/-- The parts under and over the limits. -/
def partsOf (r : Except String (Out ℚ)) : Option (Option ℚ × Option ℚ) :=
  match r with
  | .ok o => some (o.under, o.over)
  | .error _ => none

/-- The exception. -/
def errorOf (r : Except String (Out ℚ)) : Option String :=
  match r with
  | .ok _ => none
  | .error e => some e

example : numbersOf (histogramData (7 / 20) 5 0 (fun _ => none) { bins := .number 3, pct := 1, threshold := 7 / 20 } waits) =
    some ([some 3, some 1], [0, 5, 10], false, 0) ∧
    numbersOf (histogramData (7 / 20) 5 0 (fun _ => none) { bins := .number 3, weighted := true, pct := 1, threshold := 7 / 20 } waits) =
      some ([some 4, some 1], [0, 5, 10], false, 0) := by decide +kernel

example : numbersOf (histogramData (7 / 20) 5 0 (fun _ => none)
      { bins := .number 3, pct := 1, threshold := 7 / 20, fixedrange := some (some 1, some 5) } waits) = some ([some 1, some 1], [1, 3, 5], false, 50) ∧
    partsOf (histogramData (7 / 20) 5 0 (fun _ => none)
      { bins := .number 3, pct := 1, threshold := 7 / 20, fixedrange := some (some 1, some 5) } waits) = some (some (1 / 4), some (1 / 4)) := by decide +kernel

example : numbersOf (histogramData (7 / 20) 5 0 (fun _ => none)
      { bins := .number 3, pct := 1, threshold := 7 / 20, choices := true, density := true } waits) =
    some ([some (3 / 20), some (1 / 20)], [0, 5, 10], false, 0) := by decide +kernel

example : discreteBars true false [((2 : ℚ), (⟨.fin 2, 3, 0⟩ : Rec ℚ)), (1, ⟨.fin 1, 1, 0⟩), (2, ⟨.fin 2, 1, 0⟩)] = ([1, 2], [some 1, some 4], none) := by decide +kernel

example : seemsDiscrete (List.replicate 120 (1 : Nat) ++ [1, 2, 3, 4, 5]) = true ∧ seemsDiscreteWith [1, 2, 3, 7] [1, 2] = true := by decide +kernel

/-- **C184, violated.**  With the number of bins given there is one bar less. -/
theorem C184_fails_number_of_bars (dt cut eps : ℚ) (percentile : ℚ → Option ℚ) (a : Args ℚ) (d : List (Rec ℚ)) (o : Out ℚ) (n : Nat)
    (h : histogramData dt cut eps percentile a d = .ok o) (hd : a.density = false) (hb : a.bins = .number n) : o.heights.length = n - 1 := by
  obtain ⟨f, -, -, he, hh, -⟩ := hf_ok dt cut eps percentile a d o h hd
  rw [hb] at he
  rw [hh, List.length_map, sh_length, he]
  simp [binEdges, linspace]

/-- **C184, violated.**  Without a fixed range the threshold for leaving out zeros that is asked for has no effect. -/
theorem C184_fails_threshold (dt cut eps : ℚ) (percentile : ℚ → Option ℚ) (a : Args ℚ) (d : List (Rec ℚ)) (t : ℚ) (hr : a.fixedrange = none) :
    histogramData dt cut eps percentile { a with threshold := t } d = histogramData dt cut eps percentile a d := by
  unfold histogramData rangeOf
  simp only [hr]

/-- **C184, violated.**  `density` without weights of choice always raises. -/
theorem C184_fails_density (dt cut eps : ℚ) (percentile : ℚ → Option ℚ) (a : Args ℚ) (d : List (Rec ℚ)) (hd : a.density = true) (hc : a.choices = false) :
    ∀ (o : Out ℚ), histogramData dt cut eps percentile a d ≠ .ok o := by
  intro o h
  have := (hf_ok_density dt cut eps percentile a d o h hd).1
  rw [hc] at this
  cases this

/-- **C184, violated.**  Zeros that are left out are not counted as under a limit that they are at: of four entries three are zero, and the part at or under
zero is shown as none; and the zeros of a fixed range that does not have them are left out though nothing would show them. -/
theorem C184_fails_zeros_under : partsOf (histogramData (7 / 20) 5 0 (fun _ => none)
      { bins := .number 3, pct := 1, threshold := 7 / 20, fixedrange := some (some 0, some 5) }
      [⟨.fin 0, 1, 0⟩, ⟨.fin 0, 1, 0⟩, ⟨.fin 0, 1, 0⟩, ⟨.fin 3, 1, 0⟩]) = some (some 0, some 0) := by decide +kernel

/-- **C184, violated.**  Without finite data the range is marked as truncated by 100 percent. -/
theorem C184_fails_no_data : numbersOf (histogramData (7 / 20) 5 0 (fun _ => none) { bins := .number 3, pct := 1, threshold := 7 / 20 }
    [⟨.nan, 1, 0⟩]) = some ([some 0, some 0], [0, 1 / 2, 1], false, 100) := by decide +kernel

end Larch.Props
