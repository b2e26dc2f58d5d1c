import Verif.Model.Selector
import Verif.Props.Align
import Verif.Props.Split

/-!
# C100: selecting cases of a `DataFrames`
-/

namespace Larch.Props

open Larch.Frames

variable {α : Type}

/-- The case with this id has attributes that meet the condition. -/
def selected (keep : α → Bool) (f : Co α) (c : Int) : Bool := f.any (fun r => r.1 == c && keep r.2)

theorem selected_mem {keep : α → Bool} {f : Co α} (hn : (f.map Prod.fst).Nodup) {x : Int × α} (hx : x ∈ f) :
    selected keep f x.1 = keep x.2 := by
  rw [Bool.eq_iff_iff]
  unfold selected
  rw [List.any_eq_true]
  constructor
  · rintro ⟨y, hy, h⟩
    rw [Bool.and_eq_true, beq_iff_eq] at h
    rw [List.inj_on_of_nodup_map hn hx hy h.1.symm]
    exact h.2
  · intro h
    exact ⟨x, hx, by simp [h]⟩

theorem lookup_selection (keep : α → Bool) (f : Co α) (hn : (f.map Prod.fst).Nodup) (c : Int) :
    ((selection keep f).lookup c == some true) = selected keep f c ∧
    ((selection keep f).lookup c).isSome = decide (c ∈ f.map Prod.fst) := by
  induction f with
  | nil => simp [selection, selected]
  | cons a f ih =>
    rw [List.map_cons, List.nodup_cons] at hn
    obtain ⟨h1, h2⟩ := ih hn.2
    have hs : selected keep (a :: f) c = (a.1 == c && keep a.2 || selected keep f c) := by simp [selected]
    simp only [selection, List.map_cons, List.lookup_cons]
    by_cases h : c = a.1
    · subst h
      have : selected keep f a.1 = false := by
        rw [Bool.eq_false_iff]
        intro hh
        obtain ⟨y, hy, he⟩ := List.any_eq_true.1 hh
        rw [Bool.and_eq_true, beq_iff_eq] at he
        exact hn.1 (List.mem_map.2 ⟨y, hy, he.1⟩)
      rw [hs, this]
      cases hk : keep a.2 <;> simp
    · have h' : (c == a.1) = false := by simpa using h
      have h'' : (a.1 == c) = false := by simpa using fun e => h e.symm
      rw [h', hs, h'']
      refine ⟨by simpa [selection] using h1, ?_⟩
      have : ((selection keep f).lookup c).isSome = decide (c ∈ f.map Prod.fst) := h2
      simp only [selection] at this
      simp only [this, List.mem_cons, h, false_or]

theorem zip_filter {β : Type} (p : β → Bool) : ∀ (g : List β) (s : List (Int × Bool)), List.Forall₂ (fun x y => p x = y.2) g s →
    ((g.zip s).filter (fun r => r.2.2)).map Prod.fst = g.filter p
  | [], _, h => by cases h; rfl
  | x :: g, _, h => by
    cases h with
    | @cons _ y _ s h1 h2 =>
      have ih := zip_filter p g s h2
      rw [List.zip_cons_cons, List.filter_cons, List.filter_cons, h1]
      cases y.2 <;> simp [ih]

theorem same_labels {β : Type} (keep : α → Bool) (F : Co α) (hn : (F.map Prod.fst).Nodup) : ∀ (f : Co α) (g : List (Int × β)),
    (∀ x ∈ f, x ∈ F) → g.map Prod.fst = f.map Prod.fst → List.Forall₂ (fun x y => selected keep F x.1 = y.2) g (selection keep f)
  | [], [], _, _ => .nil
  | [], _ :: _, _, h => by simp at h
  | _ :: _, [], _, h => by simp at h
  | a :: f, x :: g, hs, h => by
    rw [List.map_cons, List.map_cons, List.cons.injEq] at h
    refine .cons ?_ (same_labels keep F hn f g (fun y hy => hs y (by simp [hy])) h.2)
    rw [h.1]
    exact selected_mem hn (hs a (by simp))

/-- A frame of the cases keeps exactly the rows of the selected cases. -/
theorem boolIndex_some {β : Type} {keep : α → Bool} {f : Co α} (hn : (f.map Prod.fst).Nodup) {g g' : List (Int × β)}
    (h : boolIndex (selection keep f) g = some g') : g' = g.filter (fun x => selected keep f x.1) := by
  have hsel : (selection keep f).map Prod.fst = f.map Prod.fst := by simp [selection, Function.comp_def]
  unfold boolIndex at h
  rw [hsel] at h
  split_ifs at h with h1 h2
  · rw [← Option.some.inj h]
    exact zip_filter _ g _ (same_labels keep f hn f g (fun _ hx => hx) h1)
  · rw [← Option.some.inj h]
    apply List.filter_congr
    intro x _
    exact (lookup_selection keep f hn x.1).1

theorem boolIndex_isSome {β : Type} (keep : α → Bool) {f : Co α} (hn : (f.map Prod.fst).Nodup) (g : List (Int × β))
    (h : ∀ x ∈ g, x.1 ∈ f.map Prod.fst) : boolIndex (selection keep f) g = some (g.filter (fun x => selected keep f x.1)) := by
  have hsel : (selection keep f).map Prod.fst = f.map Prod.fst := by simp [selection, Function.comp_def]
  have : ∃ g', boolIndex (selection keep f) g = some g' := by
    unfold boolIndex
    rw [hsel]
    by_cases h1 : g.map Prod.fst = f.map Prod.fst
    · rw [if_pos h1]; exact ⟨_, rfl⟩
    · rw [if_neg h1, if_pos]
      · exact ⟨_, rfl⟩
      · refine ⟨hn, List.all_eq_true.2 (fun x hx => ?_)⟩
        rw [(lookup_selection keep f hn x.1).2]
        exact decide_eq_true (h x hx)
  obtain ⟨g', hg⟩ := this
  rw [hg, boolIndex_some hn hg]

theorem co_filter {keep : α → Bool} {f : Co α} (hn : (f.map Prod.fst).Nodup) :
    f.filter (fun x => selected keep f x.1) = f.filter (fun x => keep x.2) :=
  List.filter_congr (fun _ hx => selected_mem hn hx)

theorem optArg_some {β γ : Type} {g : β → Option γ} {o : Option β} {r : Option γ} (h : optArg g o = some r) :
    (o = none ∧ r = none) ∨ ∃ b c, o = some b ∧ r = some c ∧ g b = some c := by
  cases o with
  | none => simp only [optArg, Option.some.injEq] at h; exact .inl ⟨rfl, h.symm⟩
  | some b =>
    simp only [optArg, Option.map_eq_some_iff] at h
    obtain ⟨c, h1, h2⟩ := h
    exact .inr ⟨b, c, rfl, h2.symm, h1⟩

/-- What `selector_co` hands to the constructor. -/
theorem selector_inv {keep missing : α → Bool} {d r : DF α} (h : selectorCo keep missing d = some r) {f : Co α} (hf : d.co = some f)
    (hn : (f.map Prod.fst).Nodup) :
    ∃ x r0, build x = some r0 ∧ r = { r0 with altCodes := d.altCodes } ∧ x.co = some (f.filter (fun y => keep y.2)) ∧
      x.ch = d.ch.map (fun g => g.filter (fun y => selected keep f y.1)) ∧
      x.av = d.av.map (fun g => g.filter (fun y => selected keep f y.1)) ∧
      x.wt = d.wt.map (fun g => g.filter (fun y => selected keep f y.1)) ∧
      (d.ca.or d.ce = none → x.mf = none) ∧
      (∀ g, d.ca.or d.ce = some g → ∃ g', x.mf = some g' ∧ unstackStack (selection keep f) missing g = some g' ∧ g'.lev1 = d.altCodes) := by
  unfold selectorCo at h
  rw [hf, Option.bind_some] at h
  obtain ⟨co, h1, h⟩ := Option.bind_eq_some_iff.1 h
  obtain ⟨wt, h2, h⟩ := Option.bind_eq_some_iff.1 h
  obtain ⟨mf, h3, h⟩ := Option.bind_eq_some_iff.1 h
  obtain ⟨av, h4, h⟩ := Option.bind_eq_some_iff.1 h
  obtain ⟨ch, h5, h⟩ := Option.bind_eq_some_iff.1 h
  split_ifs at h with hl
  obtain ⟨r0, h6, h7⟩ := Option.map_eq_some_iff.1 h
  have key : ∀ {o r : Option (Co α)}, optArg (boolIndex (selection keep f)) o = some r →
      r = o.map (fun g => g.filter (fun y => selected keep f y.1)) := by
    intro o r ho
    rcases optArg_some ho with ⟨e1, e2⟩ | ⟨b, c, e1, e2, e3⟩
    · rw [e1, e2]; rfl
    · rw [e1, e2, boolIndex_some hn e3]; rfl
  refine ⟨_, r0, h6, h7.symm, ?_, key h5, key h4, key h2, ?_, ?_⟩
  · dsimp only
    rw [boolIndex_some hn h1, co_filter hn]
  · intro hm
    rw [hm] at h3
    rcases optArg_some h3 with ⟨_, e2⟩ | ⟨b, c, e1, _⟩
    · exact e2
    · exact absurd e1 (by simp)
  · intro g hg
    rw [hg] at h3
    rcases optArg_some h3 with ⟨e1, _⟩ | ⟨b, c, e1, e2, e3⟩
    · exact absurd e1 (by simp)
    · cases e1
      refine ⟨c, e2, e3, ?_⟩
      subst e2
      simpa using hl

/-- **C100 (cases).** The result has exactly the cases whose attributes meet the condition, unchanged and in the same order. -/
theorem C100_cases (keep missing : α → Bool) (d r : DF α) (h : selectorCo keep missing d = some r) (f : Co α) (hf : d.co = some f)
    (hs : (f.map Prod.fst).Pairwise (· < ·)) : r.co = some (f.filter (fun y => keep y.2)) := by
  obtain ⟨x, r0, h1, h2, h3, _⟩ := selector_inv h hf (hs.imp ne_of_lt)
  rw [h2, (build_spec h1).1, h3, Option.map_some, setSorted_of_sublist (g := f) _ List.filter_sublist]
  exact decide_eq_true (hs.imp le_of_lt)

/-- **C100 (choices, availability, weights).** Each of these frames keeps exactly the rows of the selected cases, unchanged and in the same
order. -/
theorem C100_frames (keep missing : α → Bool) (d r : DF α) (h : selectorCo keep missing d = some r) (f : Co α) (hf : d.co = some f)
    (hs : (f.map Prod.fst).Nodup) (get : DF α → Option (Co α)) (ha : Accessor get) (g : Co α) (hg : get d = some g)
    (hmono : (g.map Prod.fst).Pairwise (· ≤ ·)) : get r = some (g.filter (fun y => selected keep f y.1)) := by
  obtain ⟨x, r0, h1, h2, h3, h4, h5, h6, _⟩ := selector_inv h hf hs
  have b := build_spec h1
  have hm : isMono (g.map Prod.fst) = true := decide_eq_true hmono
  subst h2
  cases ha with
  | co =>
    rw [hf] at hg; cases hg
    show r0.co = _
    rw [b.1, h3, Option.map_some, setSorted_of_sublist hm List.filter_sublist, co_filter hs]
  | ch => show r0.ch = _; rw [b.2.1, h4, hg]; simp only [Option.map_some]; rw [setSorted_of_sublist hm List.filter_sublist]
  | av => show r0.av = _; rw [b.2.2.1, h5, hg]; simp only [Option.map_some]; rw [setSorted_of_sublist hm List.filter_sublist]
  | wt => show r0.wt = _; rw [b.2.2.2.1, h6, hg]; rfl

/-- **C100 (weights in any order).** Weights are kept in the order they were given; they follow their case all the same. -/
theorem C100_weights (keep missing : α → Bool) (d r : DF α) (h : selectorCo keep missing d = some r) (f : Co α) (hf : d.co = some f)
    (hs : (f.map Prod.fst).Nodup) (g : Co α) (hg : d.wt = some g) : r.wt = some (g.filter (fun y => selected keep f y.1)) := by
  obtain ⟨x, r0, h1, h2, h3, h4, h5, h6, _⟩ := selector_inv h hf hs
  subst h2
  show r0.wt = _
  rw [(build_spec h1).2.2.2.1, h6, hg]; rfl

/-- What is not there is not made up. -/
theorem C100_none (keep missing : α → Bool) (d r : DF α) (h : selectorCo keep missing d = some r) (f : Co α) (hf : d.co = some f)
    (hs : (f.map Prod.fst).Nodup) : r.altCodes = d.altCodes ∧ (d.ch = none → r.ch = none) ∧ (d.av = none → r.av = none) ∧
    (d.wt = none → r.wt = none) ∧ (d.ca.or d.ce = none → r.ca = none ∧ r.ce = none) := by
  obtain ⟨x, r0, h1, h2, h3, h4, h5, h6, h7, _⟩ := selector_inv h hf hs
  have b := build_spec h1
  subst h2
  refine ⟨rfl, fun e => ?_, fun e => ?_, fun e => ?_, fun e => b.2.2.2.2.2 (h7 e)⟩
  · show r0.ch = _; rw [b.2.1, h4, e]; rfl
  · show r0.av = _; rw [b.2.2.1, h5, e]; rfl
  · show r0.wt = _; rw [b.2.2.2.1, h6, e]; rfl

/-! ## Rows of the alternatives -/

theorem find_row {f : MF α} (hf : Regular f) (missing : α → Bool) (p : Int × Int) (r : (Int × Int) × α) :
    f.rows.find? (fun r => r.1 == p && !missing r.2) = some r ↔ r ∈ f.rows ∧ r.1 = p ∧ missing r.2 = false := by
  constructor
  · intro h
    have h1 := List.find?_some h
    have h2 := List.mem_of_find?_eq_some h
    rw [Bool.and_eq_true, beq_iff_eq] at h1
    exact ⟨h2, h1.1, by simpa using h1.2⟩
  · rintro ⟨h1, h2, h3⟩
    cases hc : f.rows.find? (fun r => r.1 == p && !missing r.2) with
    | none =>
      have := List.find?_eq_none.1 hc r h1
      simp [h2, h3] at this
    | some y =>
      have h4 := List.find?_some hc
      rw [Bool.and_eq_true, beq_iff_eq] at h4
      rw [List.inj_on_of_nodup_map hf.nodup (List.mem_of_find?_eq_some hc) h1 (h4.1.trans h2.symm)]

/-- The frame of the alternatives that is handed to the constructor. -/
theorem unstackStack_spec {keep missing : α → Bool} {f : Co α} (hn : (f.map Prod.fst).Nodup) {g g' : MF α} (hg : Regular g)
    (h : unstackStack (selection keep f) missing g = some g') :
    Regular g' ∧ isMonoLex (g'.rows.map Prod.fst) = true ∧
    ∀ r, r ∈ g'.rows ↔ r ∈ g.rows ∧ selected keep f r.1.1 = true ∧ missing r.2 = false := by
  unfold unstackStack at h
  rw [if_pos hg.nodup] at h
  obtain ⟨kept, h1, h2⟩ := Option.map_eq_some_iff.1 h
  have hk := boolIndex_some hn h1
  have hkl : kept.map Prod.fst = (g.lev0.filter (fun c => g.rows.any (fun r => r.1.1 == c))).filter (fun c => selected keep f c) := by
    rw [hk, List.filter_map, List.map_map]
    simp [Function.comp_def]
  rw [hkl] at h2
  set L0 := (g.lev0.filter (fun c => g.rows.any (fun r => r.1.1 == c))).filter (fun c => selected keep f c) with hL0
  set L1 := g.lev1.filter (fun a => g.rows.any (fun r => r.1.2 == a)) with hL1
  have s0 : L0.Pairwise (· < ·) := (hg.lev0.sublist (List.filter_sublist.trans List.filter_sublist))
  have s1 : L1.Pairwise (· < ·) := hg.lev1.sublist List.filter_sublist
  have hmem : ∀ r, r ∈ g'.rows ↔ r ∈ g.rows ∧ selected keep f r.1.1 = true ∧ missing r.2 = false := by
    intro r
    rw [← h2, List.mem_filterMap]
    constructor
    · rintro ⟨p, hp, hr⟩
      obtain ⟨e1, e2, e3⟩ := (find_row hg missing p r).1 hr
      obtain ⟨hp1, _⟩ := List.mem_product.1 hp
      rw [← e2] at hp1
      exact ⟨e1, (List.mem_filter.1 hp1).2, e3⟩
    · rintro ⟨e1, e2, e3⟩
      refine ⟨r.1, List.mem_product.2 ⟨?_, ?_⟩, (find_row hg missing _ r).2 ⟨e1, rfl, e3⟩⟩
      · refine List.mem_filter.2 ⟨List.mem_filter.2 ⟨(hg.rows r e1).1, List.any_eq_true.2 ⟨r, e1, by simp⟩⟩, e2⟩
      · exact List.mem_filter.2 ⟨(hg.rows r e1).2, List.any_eq_true.2 ⟨r, e1, by simp⟩⟩
  have hlab : (g'.rows.map Prod.fst).Sublist (L0.product L1) := by
    rw [← h2]
    have : ∀ P : List (Int × Int), ((P.filterMap (fun p => g.rows.find? (fun r => r.1 == p && !missing r.2))).map Prod.fst).Sublist P := by
      intro P
      induction P with
      | nil => simp
      | cons p P ih =>
        rw [List.filterMap_cons]
        cases hc : g.rows.find? (fun r => r.1 == p && !missing r.2) with
        | none => exact ih.cons p
        | some y =>
          rw [List.map_cons, ((find_row hg missing p y).1 hc).2.1]
          exact ih.cons_cons p
    exact this _
  have hprod : (L0.product L1).Pairwise (fun a b => lexLe a b = true ∧ a ≠ b) := by
    generalize L0 = A at s0
    induction A with
    | nil => exact List.Pairwise.nil
    | cons a A ih =>
      rw [List.pairwise_cons] at s0
      show ((L1.map (fun b => (a, b))) ++ A.product L1).Pairwise _
      rw [List.pairwise_append]
      refine ⟨?_, ih s0.2, ?_⟩
      · rw [List.pairwise_map]
        refine s1.imp (fun {x y} hxy => ⟨by simp [lexLe, le_of_lt hxy], fun e => ?_⟩)
        exact absurd (Prod.mk.inj e).2 (ne_of_lt hxy)
      · intro x hx y hy
        obtain ⟨b, _, rfl⟩ := List.mem_map.1 hx
        have := s0.1 _ (List.mem_product.1 hy).1
        refine ⟨by simp [lexLe, this], fun e => ?_⟩
        rw [← e] at this
        exact lt_irrefl _ this
  have hpw := hprod.sublist hlab
  refine ⟨⟨?_, ?_, ?_, ?_⟩, decide_eq_true (hpw.imp (fun h => h.1)), hmem⟩
  · rw [← h2]; exact s0
  · rw [← h2]; exact s1
  · intro r hr
    have : r.1 ∈ L0.product L1 := hlab.subset (List.mem_map.2 ⟨r, hr, rfl⟩)
    rw [← h2]
    exact List.mem_product.1 this
  · exact hpw.imp (fun h => h.2)

theorem selector_rows {keep missing : α → Bool} {d r : DF α} (h : selectorCo keep missing d = some r) {f : Co α} (hf : d.co = some f)
    (hn : (f.map Prod.fst).Nodup) {g : MF α} (hg : d.ca.or d.ce = some g) (hr : Regular g) :
    (altRows r).Perm (g.rows.filter (fun x => selected keep f x.1.1 && !missing x.2)) := by
  obtain ⟨x, r0, h1, h2, _, _, _, _, _, h8⟩ := selector_inv h hf hn
  obtain ⟨g', e1, e2, e3⟩ := h8 g hg
  obtain ⟨c1, c2, c3⟩ := unstackStack_spec hn hr e2
  have b := (build_spec h1).2.2.2.2.1 g' e1
  have hrow : altRows r = g'.rows := by
    subst h2
    unfold altRows
    cases hi : isIdce g' with
    | true =>
      obtain ⟨b1, b2⟩ := b.2.1 hi
      simp only [b1, b2, setCe_rows c2]
    | false =>
      obtain ⟨b1, b2⟩ := b.2.2 hi
      simp only [b1]
  rw [hrow, List.perm_ext_iff_of_nodup c1.nodup.of_map (hr.nodup.of_map.filter _)]
  intro y
  rw [c3, List.mem_filter, Bool.and_eq_true]
  simp

/-- **C100 (rows of the alternatives).** The result holds exactly the rows of the selected cases, unchanged, except those without any
value. -/
theorem C100_alternatives (keep missing : α → Bool) (d r : DF α) (h : selectorCo keep missing d = some r) (f : Co α) (hf : d.co = some f)
    (hn : (f.map Prod.fst).Nodup) (g : MF α) (hg : d.ca.or d.ce = some g) (hr : Regular g) :
    (altRows r).Perm (g.rows.filter (fun x => selected keep f x.1.1 && !missing x.2)) := selector_rows h hf hn hg hr

/-- **C100 (rows where they are read).** If no row is without values and every selected case has rows, then at the position of a
selected case the result reads the rows that this case had. -/
theorem C100_read (keep missing : α → Bool) (d r : DF α) (h : selectorCo keep missing d = some r) (f : Co α) (hf : d.co = some f)
    (hs : (f.map Prod.fst).Pairwise (· < ·)) (g : MF α) (hg : d.ca.or d.ce = some g) (hr : Regular g)
    (hv : ∀ x ∈ g.rows, missing x.2 = false) (hrows : ∀ x ∈ f, keep x.2 = true → ∃ y ∈ g.rows, y.1.1 = x.1)
    (i a : Nat) (ha : a < d.altCodes.length) (c : Int) (v : α) (hi : (f.filter (fun y => keep y.2))[i]? = some (c, v))
    (x : (Int × Int) × α) :
    altRow r i a = some x ↔ x ∈ g.rows ∧ x.1.1 = c ∧ d.altCodes[a]? = some x.1.2 := by
  have hn := hs.imp (fun h => ne_of_lt h)
  obtain ⟨y, r0, h1, h2, h3, _, _, _, _, h8⟩ := selector_inv h hf hn
  obtain ⟨g', e1, e2, e3⟩ := h8 g hg
  obtain ⟨c1, c2, c3⟩ := unstackStack_spec hn hr e2
  have b := (build_spec h1).2.2.2.2.1 g' e1
  have hr0 : r = r0 := by
    rw [h2]
    have : r0.altCodes = d.altCodes := b.1.trans e3
    rw [← this]
  have hco : r0.co = some (f.filter (fun y => keep y.2)) := by
    rw [← hr0]; exact C100_cases keep missing d r h f hf hs
  have hsub : (f.filter (fun y => keep y.2)).Sublist f := List.filter_sublist
  have hnd : ((f.filter (fun y => keep y.2)).map Prod.fst).Nodup := (hsub.map Prod.fst).nodup hn
  have hsame : ∀ c, c ∈ (f.filter (fun y => keep y.2)).map Prod.fst ↔ ∃ r ∈ g'.rows, r.1.1 = c := by
    intro c
    constructor
    · intro hc
      obtain ⟨z, hz, rfl⟩ := List.mem_map.1 hc
      obtain ⟨hz1, hz2⟩ := List.mem_filter.1 hz
      obtain ⟨w, hw, hwe⟩ := hrows z hz1 hz2
      exact ⟨w, (c3 w).2 ⟨hw, by rw [hwe, selected_mem hn hz1]; exact hz2, hv w hw⟩, hwe⟩
    · rintro ⟨w, hw, rfl⟩
      obtain ⟨_, hw2, _⟩ := (c3 w).1 hw
      obtain ⟨z, hz, he⟩ := List.any_eq_true.1 hw2
      rw [Bool.and_eq_true, beq_iff_eq] at he
      exact List.mem_map.2 ⟨z, List.mem_filter.2 ⟨hz, he.2⟩, he.1⟩
  obtain ⟨hcv, hrd⟩ := C79_aligned y r0 h1 _ h3 hnd g' e1 c1 hsame i a (by rw [b.1, e3]; exact ha) c v ⟨_, hco, hi⟩
  rw [hr0, hrd, b.1, e3, c3]
  obtain ⟨hc1, hc2⟩ := List.mem_filter.1 hcv
  constructor
  · rintro ⟨⟨q1, _, _⟩, q2, q3⟩; exact ⟨q1, q2, q3⟩
  · rintro ⟨q1, q2, q3⟩
    refine ⟨⟨q1, ?_, hv x q1⟩, q2, q3⟩
    rw [q2, selected_mem hn hc1]; exact hc2

/-- **C100 (no exception).** Selection succeeds when every frame is about the cases of `data_co` and every alternative has a row somewhere. -/
theorem C100_succeeds (keep missing : α → Bool) (d : DF α) (f : Co α) (hf : d.co = some f) (hn : (f.map Prod.fst).Nodup)
    (hfr : ∀ get, Accessor get → ∀ g, get d = some g → (g.map Prod.fst).Perm (f.map Prod.fst))
    (hmf : ∀ g, d.ca.or d.ce = some g → Regular g ∧ g.lev1 = d.altCodes ∧ (∀ r ∈ g.rows, r.1.1 ∈ f.map Prod.fst) ∧
      (∀ a ∈ g.lev1, ∃ r ∈ g.rows, r.1.2 = a)) : ∃ r, selectorCo keep missing d = some r := by
  have key : ∀ get, Accessor get → optArg (boolIndex (selection keep f)) (get d) =
      some ((get d).map (fun g => g.filter (fun y => selected keep f y.1))) := by
    intro get ha
    cases hg : get d with
    | none => rfl
    | some g =>
      simp only [optArg, Option.map_some]
      rw [boolIndex_isSome keep hn g (fun x hx => (hfr get ha g hg).mem_iff.1 (List.mem_map.2 ⟨x, hx, rfl⟩))]
      rfl
  have hlen : ∀ get, Accessor get → ∀ g, get d = some g →
      (g.filter (fun y => selected keep f y.1)).length = (f.filter (fun y => selected keep f y.1)).length := by
    intro get ha g hg
    have e : ∀ l : Co α, (l.filter (fun y => selected keep f y.1)).length = ((l.map Prod.fst).filter (selected keep f)).length := by
      intro l; rw [List.filter_map, List.length_map]; rfl
    rw [e, e]
    exact ((hfr get ha g hg).filter _).length_eq
  have hm : ∃ mf, optArg (unstackStack (selection keep f) missing) (d.ca.or d.ce) = some mf ∧
      mf.all (fun g => decide (g.lev1 = d.altCodes)) = true := by
    cases hg : d.ca.or d.ce with
    | none => exact ⟨none, rfl, rfl⟩
    | some g =>
      obtain ⟨m1, m2, m3, m4⟩ := hmf g hg
      simp only [optArg]
      unfold unstackStack
      rw [if_pos m1.nodup]
      dsimp only
      rw [boolIndex_isSome keep hn]
      · refine ⟨_, rfl, ?_⟩
        simp only [Option.all_some]
        rw [decide_eq_true_eq, ← m2]
        apply List.filter_eq_self.2
        intro a ha
        obtain ⟨r, hr, he⟩ := m4 a ha
        exact List.any_eq_true.2 ⟨r, hr, by simp [he]⟩
      · intro x hx
        obtain ⟨c, hc, rfl⟩ := List.mem_map.1 hx
        obtain ⟨r, hr, he⟩ := List.any_eq_true.1 (List.mem_filter.1 hc).2
        rw [beq_iff_eq] at he
        subst he
        exact m3 r hr
  obtain ⟨mf, hm1, hm2⟩ := hm
  unfold selectorCo
  rw [hf, Option.bind_some]
  dsimp only
  rw [boolIndex_isSome keep hn f (fun x hx => List.mem_map.2 ⟨x, hx, rfl⟩), Option.bind_some, key DF.wt .wt, Option.bind_some, hm1,
    Option.bind_some, key DF.av .av, Option.bind_some, key DF.ch .ch, Option.bind_some, if_pos hm2]
  have hb : ∀ x : Args α, x.co = some (f.filter (fun y => selected keep f y.1)) →
      x.ch = d.ch.map (fun g => g.filter (fun y => selected keep f y.1)) →
      x.av = d.av.map (fun g => g.filter (fun y => selected keep f y.1)) →
      x.wt = d.wt.map (fun g => g.filter (fun y => selected keep f y.1)) → x.computational = false → x.mf = mf → ∃ r, build x = some r := by
    rintro ⟨xco, xmf, xch, xav, xwt, xc⟩ rfl rfl rfl rfl rfl rfl
    unfold build
    dsimp only
    rw [if_pos, if_pos, if_pos, if_pos]
    · exact ⟨_, rfl⟩
    · cases hg : d.av with
      | none => rfl
      | some g => simp [fits, nCases, length_setSorted, hlen DF.av .av g hg]
    · cases hg : d.wt with
      | none => rfl
      | some g => simp [fits, nCases, length_setSorted, setWt, hlen DF.wt .wt g hg]
    · cases hg : d.ch with
      | none => rfl
      | some g => simp [fits, nCases, length_setSorted, hlen DF.ch .ch g hg]
    · cases xmf with
      | none => rfl
      | some g => cases hi : isIdce g <;> simp [hi]
  have hmap : ∀ (x : Args α), (∃ r, build x = some r) → ∃ r, (build x).map (fun r => { r with altCodes := d.altCodes }) = some r := by
    rintro x ⟨r, hr⟩
    exact ⟨_, by rw [hr]; rfl⟩
  apply hmap
  exact hb _ rfl rfl rfl rfl rfl rfl

/-- **C100 (weight normalization).** The normalization of the weights is that of the whole data. -/
theorem C100_normalization {K : Type} (keep missing : α → Bool) (d r : DF α × K) (h : selectorNorm keep missing d = some r) : r.2 = d.2 := by
  unfold selectorNorm at h
  obtain ⟨_, _, h⟩ := Option.map_eq_some_iff.1 h
  rw [← h]

/-- Three cases, two alternatives, all complete; the value 0 stands for a missing value. -/
def selArgs : Args Nat where
  co := some [(1, 10), (2, 20), (3, 30)]
  mf := some ⟨[1, 2, 3], [1, 2], [((1, 1), 11), ((1, 2), 12), ((2, 1), 21), ((2, 2), 22), ((3, 1), 31), ((3, 2), 0)], 1⟩
  ch := some [(1, 1), (2, 2), (3, 1)]
  av := none
  wt := some [(3, 33), (2, 22), (1, 11)]

/-- The case ids, the rows and the weights of the result, and whether the data is still idca. -/
def selShow (keep : Nat → Bool) (x : Args Nat) : Option (List Int × List ((Int × Int) × Nat) × List Int × Bool) :=
  ((build x).bind (selectorCo keep (· == 0))).map (fun r =>
    ((r.co.getD []).map Prod.fst, altRows r, (r.wt.getD []).map Prod.fst, r.ca.isSome))

example : selShow (fun v => decide (v ≤ 20)) selArgs = some ([1, 2], [((1, 1), 11), ((1, 2), 12), ((2, 1), 21), ((2, 2), 22)], [2, 1], true) := by
  decide +kernel

/-- **C100 fails for rows without values**: the second row of case 3 disappears, and the data of all selected cases turn from idca
into idce. -/
theorem C100_fails_missing : selShow (fun v => decide (20 ≤ v)) selArgs =
    some ([2, 3], [((2, 1), 21), ((2, 2), 22), ((3, 1), 31)], [3, 2], false) := by decide +kernel

/-- The alternatives 1, 2, 3, of which 3 has no rows (as after selecting rows of a frame). -/
def selUnused : Args Nat where
  co := some [(1, 10), (2, 20)]
  mf := some ⟨[1, 2], [1, 2, 3], [((1, 1), 11), ((1, 2), 12), ((2, 1), 21)], 1⟩
  ch := none
  av := none
  wt := none

/-- **C100 fails when an alternative has no rows**: the container exists, but no selection of its cases is possible, not even the one that
selects them all. -/
theorem C100_fails_unused_alternative : (build selUnused).isSome = true ∧ selShow (fun _ => true) selUnused = none := by decide +kernel

end Larch.Props
