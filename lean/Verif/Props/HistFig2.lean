import Verif.Props.HistFig

/-!
# C184, continued: limits, numbers of bins, pieces
-/

namespace Larch.Props
open Larch.Shares Larch.HistFig

set_option linter.unusedSectionVars false

variable {K : Type} [Field K] [LinearOrder K]

section ordered
variable [IsStrictOrderedRing K]

/-- **C184 (limits).**  With limits (`maxrange`), and some of the range of the data in them, the first edge is the lower limit or the least of the range, whichever is
greater, the last the upper limit or the greatest of the range, whichever is less: no edge is outside of the limits. -/
theorem C184_limits [FloorRing K] (dt cut eps : K) (percentile : K → Option K) (a : Args K) (d : List (Rec K)) (o : Out K) (n : Nat) (lo hi : K)
    (h : histogramData dt cut eps percentile a d = .ok o) (hd : a.density = false) (hm : a.maxrange = some (lo, hi)) (hlt : lo ≤ hi)
    (hb : a.bins = .number n) (hn : 2 ≤ n) :
    ∃ f, rangeOf dt cut eps percentile a d = some f ∧ (f.bottom ≤ f.top → f.bottom ≤ hi → lo ≤ f.top →
      o.edges.head? = some (max f.bottom lo) ∧ o.edges.getLast? = some (min f.top hi) ∧ lo ≤ max f.bottom lo ∧ min f.top hi ≤ hi ∧ max f.bottom lo ≤ min f.top hi) := by
  obtain ⟨f, hf, -, he, -⟩ := hf_ok dt cut eps percentile a d o h hd
  refine ⟨f, hf, ?_⟩
  intro h1 h2 h3
  have hle : max f.bottom lo ≤ min f.top hi := le_min (max_le h1 h3) (max_le h2 hlt)
  have hl : limits a.maxrange f.bottom f.top = (max f.bottom lo, min f.top hi) := by
    have e1 : (if f.bottom < lo then lo else f.bottom) = max f.bottom lo := by
      rcases lt_or_ge f.bottom lo with g | g
      · rw [if_pos g, max_eq_right g.le]
      · rw [if_neg (not_lt.2 g), max_eq_left g]
    have e2 : (if hi < f.top then hi else f.top) = min f.top hi := by
      rcases lt_or_ge hi f.top with g | g
      · rw [if_pos g, min_eq_right g.le]
      · rw [if_neg (not_lt.2 g), min_eq_left g]
    unfold limits
    rw [hm]
    dsimp only
    rw [e1, e2, if_neg (not_lt.2 hle)]
  rw [hl, hb] at he
  obtain ⟨-, -, l3, l4, -⟩ := hf_linspace (max f.bottom lo) (min f.top hi) n hle hn
  have he' : o.edges = linspace (max f.bottom lo) (min f.top hi) n := he
  rw [he']
  exact ⟨l3, l4, le_max_right _ _, min_le_right _ _, hle⟩

/-- **C184 (methods).**  With the name of a method for the bins there are from 10 to 50 edges, whatever width it finds. -/
theorem C184_methods [FloorRing K] (dt cut eps : K) (percentile : K → Option K) (a : Args K) (d : List (Rec K)) (o : Out K) (w : Option K)
    (h : histogramData dt cut eps percentile a d = .ok o) (hd : a.density = false) (hb : a.bins = .method w) : 10 ≤ o.edges.length ∧ o.edges.length ≤ 50 := by
  obtain ⟨f, -, -, he, -⟩ := hf_ok dt cut eps percentile a d o h hd
  have hc : ∀ i : Int, 10 ≤ clamp i ∧ clamp i ≤ 50 := by
    intro i
    unfold clamp
    split_ifs <;> omega
  rw [hb] at he
  have : ∀ (b t : K) (n : Nat), (linspace b t n).length = n := by intro b t n; simp [linspace]
  rw [he]
  show 10 ≤ (linspace _ _ _).length ∧ (linspace _ _ _).length ≤ 50
  rw [this]
  unfold methodBins
  dsimp only
  split_ifs
  · exact hc _
  · exact hc _

/-- **C184 (an open side).**  A range that is open above ends a bit over the greatest of the values left; one that is open below begins a bit under the least: all of them
are inside. -/
theorem C184_open (threshold eps : K) (lo hi : Option K) (d : List (Rec K)) (f : Found K) (he : 0 < eps) (h : fixed threshold eps lo hi d = some f) :
    (lo = none → ∀ p ∈ f.kept, f.bottom + eps ≤ p.1 ∧ f.bottom < p.1) ∧ (hi = none → ∀ p ∈ f.kept, p.1 + eps ≤ f.top ∧ p.1 < f.top) := by
  have hmin : ∀ (l : List K) (a x : K), x ∈ a :: l → (a :: l).foldl min a ≤ x := by
    intro l a x hx
    have gen : ∀ (l : List K) (b : K), l.foldl min b ≤ b ∧ ∀ x ∈ l, l.foldl min b ≤ x := by
      intro l
      induction l with
      | nil => intro b; exact ⟨le_refl _, fun x hx => absurd hx List.not_mem_nil⟩
      | cons c t ih =>
        intro b
        obtain ⟨i1, i2⟩ := ih (min b c)
        refine ⟨i1.trans (min_le_left _ _), ?_⟩
        intro x hx
        rcases List.mem_cons.1 hx with rfl | hx
        · exact i1.trans (min_le_right _ _)
        · exact i2 x hx
    exact (gen (a :: l) a).2 x hx
  have hmax : ∀ (l : List K) (a x : K), x ∈ a :: l → x ≤ (a :: l).foldl max a := by
    intro l a x hx
    have gen : ∀ (l : List K) (b : K), b ≤ l.foldl max b ∧ ∀ x ∈ l, x ≤ l.foldl max b := by
      intro l
      induction l with
      | nil => intro b; exact ⟨le_refl _, fun x hx => absurd hx List.not_mem_nil⟩
      | cons c t ih =>
        intro b
        obtain ⟨i1, i2⟩ := ih (max b c)
        refine ⟨(le_max_left _ _).trans i1, ?_⟩
        intro x hx
        rcases List.mem_cons.1 hx with rfl | hx
        · exact (le_max_right _ _).trans i1
        · exact i2 x hx
    exact (gen (a :: l) a).2 x hx
  unfold fixed at h
  dsimp only at h
  generalize finites _ = kept at h
  obtain ⟨b, hb, h⟩ := Option.bind_eq_some_iff.1 h
  obtain ⟨t, ht, h⟩ := Option.map_eq_some_iff.1 h
  subst h
  refine ⟨?_, ?_⟩
  · rintro rfl p hp
    dsimp only at hb hp ⊢
    cases hk : kept with
    | nil => rw [hk] at hp; cases hp
    | cons q r =>
      rw [hk] at hb hp
      simp only [List.map_cons, List.head?_cons, Option.map_some, Option.some.injEq] at hb
      have := hmin (r.map Prod.fst) q.1 p.1 (by rw [← List.map_cons]; exact List.mem_map.2 ⟨p, hp, rfl⟩)
      rw [← hb]
      refine ⟨by linarith, by linarith⟩
  · rintro rfl p hp
    dsimp only at ht hp ⊢
    cases hk : kept with
    | nil => rw [hk] at hp; cases hp
    | cons q r =>
      rw [hk] at ht hp
      simp only [List.map_cons, List.head?_cons, Option.map_some, Option.some.injEq] at ht
      have := hmax (r.map Prod.fst) q.1 p.1 (by rw [← List.map_cons]; exact List.mem_map.2 ⟨p, hp, rfl⟩)
      rw [← ht]
      refine ⟨by linarith, by linarith⟩

/-- The part of a value in a piece: from the lower limit on, up to the upper one. -/
def pieceOf (piece : Option K × Option K) (x : K) : K :=
  match piece with
  | (none, none) => x
  | (none, some h) => min x h
  | (some l, none) => max x l - l
  | (some l, some h) => max (min x h) l - l

/-- **C184 (pieces).**  For data that are the parts of values in a piece, the range is such that just those of values inside of the piece are in it. -/
theorem C184_piece (dt eps largest : K) (lo hi : Option K) (x : K) (he : 0 < eps) (hord : ∀ l h, lo = some l → hi = some h → l < h)
    (hx : pieceOf (lo, hi) x ≤ largest) (hsome : lo ≠ none ∨ hi ≠ none) :
    ∃ r, (pieceRange dt eps largest (lo, hi)).1 = some r ∧ (between r.1 r.2 (pieceOf (lo, hi) x) = true ↔ (∀ l, lo = some l → l < x) ∧ ∀ h, hi = some h → x < h) := by
  cases lo with
  | none =>
    cases hi with
    | none => simp at hsome
    | some h => exact ⟨_, rfl, by simp [between, pieceOf]⟩
  | some l =>
    cases hi with
    | none =>
      refine ⟨_, rfl, ?_⟩
      have hx' : max x l - l ≤ largest := hx
      have h1 : max x l - l < largest + eps := by linarith
      simp [between, pieceOf, h1]
    | some h =>
      have hlh := hord l h rfl rfl
      refine ⟨_, rfl, ?_⟩
      simp only [between, pieceOf, Bool.and_eq_true, decide_eq_true_eq, Option.some.injEq, forall_eq', sub_pos, sub_lt_sub_iff_right, lt_max_iff, lt_min_iff, max_lt_iff, min_lt_iff,
        lt_irrefl, or_false]
      constructor
      · rintro ⟨h1, h2⟩
        exact ⟨h1.1, h2.1⟩
      · rintro ⟨h1, h2⟩
        exact ⟨⟨h1, hlh⟩, h2, hlh⟩

example : pieceOf (some (2 : ℚ), some 5) 7 = 3 ∧ pieceOf (some (2 : ℚ), some 5) 1 = 0 ∧ pieceOf (some (2 : ℚ), none) 4 = 2 := by decide +kernel

/-- **C184 (discrete choices).**  With weights of choice the bars of discrete data are the parts of all weight that the values have, those of the choices likewise by weight of
choice; together they make one. -/
theorem C184_discrete_choices (weighted : Bool) (d : List (K × Rec K)) :
    ∃ l, (discreteBars weighted true d).2.2 = some l ∧ (discreteBars weighted true d).1 = (discreteBars weighted false d).1 ∧
      (∀ (W C : K), W = ((discreteBars weighted true d).1.map (fun v => ((d.filter (fun p => decide (p.1 = v))).map (fun p => weightOf weighted p.2)).sum)).sum →
        C = ((discreteBars weighted true d).1.map (fun v => ((d.filter (fun p => decide (p.1 = v))).map (fun p => p.2.c)).sum)).sum → W ≠ 0 → C ≠ 0 →
        (discreteBars weighted true d).2.1 = (discreteBars weighted true d).1.map (fun v => some (((d.filter (fun p => decide (p.1 = v))).map (fun p => weightOf weighted p.2)).sum / W)) ∧
        l = (discreteBars weighted true d).1.map (fun v => some (((d.filter (fun p => decide (p.1 = v))).map (fun p => p.2.c)).sum / C))) := by
  refine ⟨_, rfl, rfl, ?_⟩
  intro W C hW hC hW0 hC0
  unfold discreteBars at hW hC ⊢
  simp only [if_true] at hW hC ⊢
  refine ⟨?_, ?_⟩
  · rw [List.map_map]
    refine List.map_congr_left (fun v _ => ?_)
    show divide _ _ = _
    have hw : ((((d.map Prod.fst).dedup.insertionSort (fun a b => a ≤ b))).map (fun v => ((d.filter (fun p => decide (p.1 = v))).map (fun p => if weighted then p.2.w else 1)).sum)).sum = W := hW.symm
    rw [hw]
    exact if_neg hW0
  · rw [List.map_map]
    refine List.map_congr_left (fun v _ => ?_)
    show divide _ _ = _
    rw [← hC]
    exact if_neg hC0

example : numbersOf (histogramData (7 / 20) 5 0 (fun _ => none) { bins := .number 3, pct := 0, maxrange := some (1, 3), threshold := 7 / 20 } waits)
    = some ([some 0, some 1], [1, 2, 3], false, 0) := by decide +kernel

end ordered

end Larch.Props
