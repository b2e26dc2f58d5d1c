import Verif.Spec.ConText
import Verif.Props.Constraints
import Mathlib.Data.List.Basic

/-!
# C123: constraints given as text
-/

namespace Larch.Props

open Larch.ConText

/-! ## The matcher -/

/-- What a pattern matches: the text consumed and the groups. -/
def Mt : Re → Text → List Text → Prop
  | .star p, t, g => (∀ c ∈ t, p c = true) ∧ g = []
  | .plus p, t, g => t ≠ [] ∧ (∀ c ∈ t, p c = true) ∧ g = []
  | .opt p, t, g => (t = [] ∨ ∃ c, p c = true ∧ t = [c]) ∧ g = []
  | .str s, t, g => t = s ∧ g = []
  | .seq a b, t, g => ∃ t₁ t₂ g₁ g₂, t = t₁ ++ t₂ ∧ g = g₁ ++ g₂ ∧ Mt a t₁ g₁ ∧ Mt b t₂ g₂
  | .alt a b, t, g => Mt a t g ∨ Mt b t g
  | .grp a, t, g => (∃ g', Mt a t g') ∧ g = [t]

theorem ct_runs {p : Char → Bool} {s : Text} {q : Text × Text} : q ∈ runs p s ↔ (∀ c ∈ q.1, p c = true) ∧ s = q.1 ++ q.2 := by
  induction s generalizing q with
  | nil =>
    rcases q with ⟨a, b⟩
    simp only [runs, List.mem_singleton, Prod.mk.injEq]
    constructor
    · rintro ⟨rfl, rfl⟩; simp
    · rintro ⟨_, h⟩
      simpa using h.symm
  | cons c s ih =>
    rcases q with ⟨a, b⟩
    simp only [runs, List.mem_append, List.mem_singleton, Prod.mk.injEq]
    constructor
    · rintro (h | ⟨rfl, rfl⟩)
      · split at h
        · rename_i hp
          simp only [List.mem_map, Prod.mk.injEq] at h
          obtain ⟨⟨a', b'⟩, hq, rfl, rfl⟩ := h
          obtain ⟨h1, h2⟩ := ih.1 hq
          refine ⟨?_, by simp_all⟩
          intro d hd
          rcases List.mem_cons.1 hd with rfl | hd
          · exact hp
          · exact h1 d hd
        · simp at h
      · simp
    · rintro ⟨h1, h2⟩
      cases a with
      | nil => right; simpa using h2.symm
      | cons d a =>
        left
        simp only [List.cons_append, List.cons.injEq] at h2
        obtain ⟨rfl, h2⟩ := h2
        rw [if_pos (h1 c (by simp))]
        simp only [List.mem_map, Prod.mk.injEq]
        exact ⟨(a, b), ih.2 ⟨fun x hx => h1 x (by simp [hx]), h2⟩, rfl, rfl⟩

theorem ct_runOpt {p : Char → Bool} {s : Text} {q : Text × Text} :
    q ∈ runOpt p s ↔ (q.1 = [] ∨ ∃ c, p c = true ∧ q.1 = [c]) ∧ s = q.1 ++ q.2 := by
  rcases q with ⟨a, b⟩
  cases s with
  | nil =>
    simp only [runOpt, List.mem_singleton, Prod.mk.injEq]
    constructor
    · rintro ⟨rfl, rfl⟩; simp
    · rintro ⟨_, h⟩
      simpa using h.symm
  | cons c s =>
    simp only [runOpt, List.mem_append, List.mem_singleton, Prod.mk.injEq]
    constructor
    · rintro (h | ⟨rfl, rfl⟩)
      · split at h
        · rename_i hp
          simp only [List.mem_singleton, Prod.mk.injEq] at h
          obtain ⟨rfl, rfl⟩ := h
          exact ⟨.inr ⟨c, hp, rfl⟩, rfl⟩
        · simp at h
      · simp
    · rintro ⟨rfl | ⟨d, hd, rfl⟩, h⟩
      · right; simpa using h.symm
      · left
        simp only [List.cons_append, List.nil_append, List.cons.injEq] at h
        obtain ⟨rfl, rfl⟩ := h
        simp [hd]

theorem ct_runStr {t s : Text} {q : Text × Text} : q ∈ runStr t s ↔ q.1 = t ∧ s = q.1 ++ q.2 := by
  induction t generalizing s q with
  | nil =>
    rcases q with ⟨a, b⟩
    simp only [runStr, List.mem_singleton, Prod.mk.injEq]
    constructor
    · rintro ⟨rfl, rfl⟩; simp
    · rintro ⟨rfl, h⟩; simp [h]
  | cons c t ih =>
    rcases q with ⟨a, b⟩
    cases s with
    | nil =>
      simp only [runStr, List.not_mem_nil, false_iff]
      rintro ⟨rfl, h⟩
      simp at h
    | cons d s =>
      simp only [runStr]
      split
      · rename_i hcd
        subst hcd
        simp only [List.mem_map, Prod.mk.injEq]
        constructor
        · rintro ⟨⟨a', b'⟩, hq, rfl, rfl⟩
          obtain ⟨h1, h2⟩ := ih.1 hq
          simp_all
        · rintro ⟨rfl, h⟩
          simp only [List.cons_append, List.cons.injEq, true_and] at h
          exact ⟨(t, b), ih.2 ⟨rfl, h⟩, rfl, rfl⟩
      · rename_i hcd
        simp only [List.not_mem_nil, false_iff]
        rintro ⟨rfl, h⟩
        simp only [List.cons_append, List.cons.injEq] at h
        exact hcd h.1.symm

theorem ct_plain {l : List (Text × Text)} {h : Hit} : h ∈ l.map plain ↔ (h.used, h.rest) ∈ l ∧ h.groups = [] := by
  rcases h with ⟨u, g, r⟩
  simp only [List.mem_map, plain, Hit.mk.injEq]
  constructor
  · rintro ⟨⟨a, b⟩, h, rfl, rfl, rfl⟩; exact ⟨h, rfl⟩
  · rintro ⟨h, rfl⟩; exact ⟨(u, r), h, rfl, rfl, rfl⟩

/-- The matcher finds exactly the matches. -/
theorem ct_hits (r : Re) (s : Text) (h : Hit) : h ∈ r.hits s ↔ Mt r h.used h.groups ∧ s = h.used ++ h.rest := by
  induction r generalizing s h with
  | star p => rw [Re.hits, ct_plain, ct_runs]; simp only [Mt]; tauto
  | plus p =>
    rw [Re.hits, ct_plain, runPlus, List.mem_filter, ct_runs]
    simp only [Mt, Bool.not_eq_true', List.isEmpty_eq_false_iff]
    tauto
  | opt p => rw [Re.hits, ct_plain, ct_runOpt]; simp only [Mt]; tauto
  | str t => rw [Re.hits, ct_plain, ct_runStr]; simp only [Mt]; tauto
  | seq a b iha ihb =>
    rcases h with ⟨u, g, r⟩
    simp only [Re.hits, List.mem_flatMap, List.mem_map, Mt, Hit.mk.injEq]
    constructor
    · rintro ⟨x, hx, y, hy, rfl, rfl, rfl⟩
      obtain ⟨h1, h2⟩ := (iha _ _).1 hx
      obtain ⟨h3, h4⟩ := (ihb _ _).1 hy
      exact ⟨⟨_, _, _, _, rfl, rfl, h1, h3⟩, by rw [h2, h4]; simp⟩
    · rintro ⟨⟨t₁, t₂, g₁, g₂, rfl, rfl, h1, h2⟩, h3⟩
      exact ⟨⟨t₁, g₁, t₂ ++ r⟩, (iha _ _).2 ⟨h1, by rw [h3]; simp⟩, ⟨t₂, g₂, r⟩, (ihb _ _).2 ⟨h2, rfl⟩, rfl, rfl, rfl⟩
  | alt a b iha ihb =>
    simp only [Re.hits, List.mem_append, iha, ihb, Mt]
    tauto
  | grp a ih =>
    rcases h with ⟨u, g, r⟩
    simp only [Re.hits, List.mem_map, Mt, Hit.mk.injEq]
    constructor
    · rintro ⟨x, hx, rfl, rfl, rfl⟩
      obtain ⟨h1, h2⟩ := (ih _ _).1 hx
      exact ⟨⟨⟨_, h1⟩, rfl⟩, h2⟩
    · rintro ⟨⟨⟨g', h1⟩, rfl⟩, h2⟩
      exact ⟨⟨u, g', r⟩, (ih _ _).2 ⟨h1, h2⟩, rfl, rfl, rfl⟩

theorem ct_full_mt {r : Re} {c : Text} {g : List Text} (h : r.fullMatch c = some g) : Mt r c g := by
  unfold Re.fullMatch at h
  rw [Option.map_eq_some_iff] at h
  obtain ⟨x, hx, rfl⟩ := h
  have h1 := (ct_hits r c x).1 (List.mem_of_find?_eq_some hx)
  have h2 := List.find?_some hx
  simp only [List.isEmpty_iff] at h2
  rw [h2, List.append_nil] at h1
  rw [h1.2]; exact h1.1

theorem ct_full_none {r : Re} {c : Text} (h : ∀ g, ¬ Mt r c g) : r.fullMatch c = none := by
  cases h' : r.fullMatch c with
  | none => rfl
  | some g => exact absurd (ct_full_mt h') (h g)

theorem ct_full_some {r : Re} {c : Text} {g : List Text} (h : Mt r c g) (hu : ∀ g', Mt r c g' → g' = g) :
    r.fullMatch c = some g := by
  cases h' : r.fullMatch c with
  | some g' => rw [hu g' (ct_full_mt h')]
  | none =>
    unfold Re.fullMatch at h'
    rw [Option.map_eq_none_iff, List.find?_eq_none] at h'
    exact absurd (h' ⟨c, g, []⟩ ((ct_hits r c _).2 ⟨h, by simp⟩)) (by simp)

/-! ## Parts of a text -/

/-- Not cut by a sign of relation. -/
def NoRel (t : Text) : Prop := ∀ c ∈ t, c ≠ '<' ∧ c ≠ '>' ∧ c ≠ '='

theorem NoRel.app {a b : Text} (ha : NoRel a) (hb : NoRel b) : NoRel (a ++ b) := by
  intro c hc
  rcases List.mem_append.1 hc with h | h
  · exact ha c h
  · exact hb c h

def IsRel (r : Text) : Prop := IsLe r ∨ IsGe r

theorem IsRel.cases {r : Text} (h : IsRel r) : ∃ c, (c = '<' ∨ c = '>') ∧ (r = [c] ∨ r = [c, '=']) := by
  rcases h with (rfl | rfl) | (rfl | rfl)
  · exact ⟨'<', .inl rfl, .inr rfl⟩
  · exact ⟨'<', .inl rfl, .inl rfl⟩
  · exact ⟨'>', .inr rfl, .inr rfl⟩
  · exact ⟨'>', .inr rfl, .inl rfl⟩

/-- Cutting a text at its first sign of relation. -/
theorem ct_cut {a a' r r' b b' : Text} (ha : NoRel a) (ha' : NoRel a') (hr : IsRel r) (hr' : IsRel r')
    (hb : ∀ t, b ≠ '=' :: t) (hb' : ∀ t, b' ≠ '=' :: t) (h : a ++ r ++ b = a' ++ r' ++ b') : a = a' ∧ r = r' ∧ b = b' := by
  obtain ⟨c, hc, hrc⟩ := hr.cases
  obtain ⟨c', hc', hrc'⟩ := hr'.cases
  induction a generalizing a' with
  | nil =>
    cases a' with
    | nil =>
      simp only [List.nil_append] at h
      rcases hrc with rfl | rfl <;> rcases hrc' with rfl | rfl
      · simp_all
      · simp only [List.cons_append, List.nil_append, List.cons.injEq] at h
        exact absurd h.2 (hb _)
      · simp only [List.cons_append, List.nil_append, List.cons.injEq] at h
        exact absurd h.2.symm (hb' _)
      · simp_all
    | cons d a' =>
      have := ha' d (by simp)
      have hd : d = c := by
        rcases hrc with rfl | rfl <;> simp only [List.cons_append, List.nil_append, List.cons.injEq] at h <;> exact h.1.symm
      subst hd
      rcases hc with rfl | rfl <;> simp at this
  | cons d a ih =>
    cases a' with
    | nil =>
      have := ha d (by simp)
      have hd : d = c' := by
        rcases hrc' with rfl | rfl <;> simp only [List.cons_append, List.nil_append, List.cons.injEq] at h <;> exact h.1
      subst hd
      rcases hc' with rfl | rfl <;> simp at this
    | cons d' a' =>
      simp only [List.cons_append, List.cons.injEq] at h
      obtain ⟨rfl, h⟩ := h
      obtain ⟨rfl, h2⟩ := ih (fun c hc => ha c (by simp [hc])) (a' := a') (fun c hc => ha' c (by simp [hc])) h
      exact ⟨rfl, h2⟩

theorem NoRel.neq {b : Text} (h : NoRel b) (t : Text) : b ≠ '=' :: t := by
  rintro rfl
  exact (h '=' (by simp)).2.2 rfl

theorem NoRel.neq_app {b r c : Text} (h : NoRel b) (hr : IsRel r) (t : Text) : b ++ r ++ c ≠ '=' :: t := by
  intro hh
  cases b with
  | nil =>
    obtain ⟨d, hd, hrd⟩ := hr.cases
    rcases hd with rfl | rfl <;> rcases hrd with rfl | rfl <;> simp at hh
  | cons d b =>
    simp only [List.cons_append, List.cons.injEq] at hh
    exact (h d (by simp)).2.2 hh.1

theorem IsRel.not_noRel {a r b : Text} (hr : IsRel r) : ¬ NoRel (a ++ r ++ b) := by
  intro h
  obtain ⟨d, hd, hrd⟩ := hr.cases
  have := h d (by rcases hrd with rfl | rfl <;> simp)
  rcases hd with rfl | rfl <;> simp at this

/-- Two parts against two parts. -/
theorem ct_two {a a' r r' b b' : Text} (ha : NoRel a) (ha' : NoRel a') (hr : IsRel r) (hr' : IsRel r') (hb : NoRel b) (hb' : NoRel b')
    (h : a ++ r ++ b = a' ++ r' ++ b') : a = a' ∧ r = r' ∧ b = b' := ct_cut ha ha' hr hr' hb.neq hb'.neq h

theorem ct_two_three {a a' r r' b b' r'' c' : Text} (ha : NoRel a) (ha' : NoRel a') (hr : IsRel r) (hr' : IsRel r') (hb : NoRel b)
    (hb' : NoRel b') (hr'' : IsRel r'') (h : a ++ r ++ b = a' ++ r' ++ (b' ++ r'' ++ c')) : False := by
  obtain ⟨-, -, h3⟩ := ct_cut ha ha' hr hr' hb.neq (hb'.neq_app hr'') h
  rw [h3] at hb
  exact hr''.not_noRel hb

theorem ct_three {a a' r r' b b' s s' c c' : Text} (ha : NoRel a) (ha' : NoRel a') (hr : IsRel r) (hr' : IsRel r') (hb : NoRel b)
    (hb' : NoRel b') (hs : IsRel s) (hs' : IsRel s') (hc : NoRel c) (hc' : NoRel c')
    (h : a ++ r ++ (b ++ s ++ c) = a' ++ r' ++ (b' ++ s' ++ c')) : a = a' ∧ r = r' ∧ b = b' ∧ s = s' ∧ c = c' := by
  obtain ⟨h1, h2, h3⟩ := ct_cut ha ha' hr hr' (hb.neq_app hs) (hb'.neq_app hs') h
  exact ⟨h1, h2, ct_two hb hb' hs hs' hc hc' h3⟩

/-! ## What the parts match -/

/-- A text that the pattern for numbers matches. -/
def NumTxt (k : Cls) (t : Text) : Prop := Decimal k t ∨ ∃ a b, a ≠ [] ∧ Digits k a ∧ b ≠ [] ∧ Digits k b ∧ t = a ++ '/' :: b

theorem ct_one {cs : Text} {p : Char → Bool} (h : ∀ c, p c = true ↔ c ∈ cs) (t : Text) :
    (t = [] ∨ ∃ c, p c = true ∧ t = [c]) ↔ AtMostOne cs t := by
  simp [AtMostOne, h]

theorem ct_numbr {k : Cls} {t : Text} {g : List Text} : Mt (numbr k) t g ↔ ∃ u, Spaced k t u ∧ NumTxt k u ∧ g = [u] := by
  have hs := ct_one (cs := ['-', '+']) (p := isSign) (by simp [isSign])
  have hd := ct_one (cs := ['.']) (p := isDot) (by simp [isDot])
  have he := ct_one (cs := ['e', 'E']) (p := isExp) (by simp [isExp])
  simp only [numbr, Mt, hs, hd, he]
  constructor
  · rintro ⟨w, _, _, _, rfl, rfl, ⟨hw, rfl⟩, u, w', _, _, rfl, rfl, ⟨⟨g', hu⟩, rfl⟩, hw', rfl⟩
    refine ⟨u, ⟨w, w', hw, hw', by simp⟩, ?_, by simp⟩
    rcases hu with ⟨s, _, _, _, rfl, -, ⟨h1, -⟩, d, _, _, _, rfl, -, ⟨h2, -⟩, p, _, _, _, rfl, -, ⟨h3, -⟩, f, _, _, _, rfl, -, ⟨h4, -⟩,
      e, _, _, _, rfl, -, ⟨h5, -⟩, s', x, _, _, rfl, -, ⟨h6, -⟩, h7, -⟩ | ⟨a, _, _, _, rfl, -, ⟨h1, h2, -⟩, _, b, _, _, rfl, -, ⟨rfl, -⟩, h3, h4, -⟩
    · exact .inl ⟨s, d, p, f, e, s', x, h1, h2, h3, h4, h5, h6, h7, by simp⟩
    · exact .inr ⟨a, b, h1, h2, h3, h4, by simp⟩
  · rintro ⟨u, ⟨w, w', hw, hw', rfl⟩, hu, rfl⟩
    refine ⟨w, u ++ w', [], [u], by simp, rfl, ⟨hw, rfl⟩, u, w', [u], [], rfl, rfl, ⟨⟨[], ?_⟩, rfl⟩, hw', rfl⟩
    rcases hu with ⟨s, d, p, f, e, s', x, h1, h2, h3, h4, h5, h6, h7, rfl⟩ | ⟨a, b, h1, h2, h3, h4, rfl⟩
    · exact .inl ⟨s, _, [], [], by simp only [List.append_assoc], rfl, ⟨h1, rfl⟩, d, _, [], [], rfl, rfl, ⟨h2, rfl⟩, p, _, [], [], rfl, rfl,
        ⟨h3, rfl⟩, f, _, [], [], rfl, rfl, ⟨h4, rfl⟩, e, _, [], [], rfl, rfl, ⟨h5, rfl⟩, s', x, [], [], rfl, rfl, ⟨h6, rfl⟩, h7, rfl⟩
    · exact .inr ⟨a, _, [], [], rfl, rfl, ⟨h1, h2, rfl⟩, ['/'], b, [], [], rfl, rfl, ⟨rfl, rfl⟩, h3, h4, rfl⟩

theorem ct_isTok {k : Cls} {c : Char} : isTok k c = true ↔ k.wd c = true ∨ c ∈ ['#', ':', '*', '&', '^', '%', '$', '!', '@'] := by
  simp [isTok]

theorem ct_token {k : Cls} {t : Text} {g : List Text} : Mt (token k) t g ↔ ∃ u, Spaced k t u ∧ Name k u ∧ g = [u] := by
  simp only [token, Mt, Name, ct_isTok]
  constructor
  · rintro ⟨w, _, _, _, rfl, rfl, ⟨hw, rfl⟩, u, w', _, _, rfl, rfl, ⟨⟨g', hu1, hu2, -⟩, rfl⟩, hw', rfl⟩
    exact ⟨u, ⟨w, w', hw, hw', by simp⟩, ⟨hu1, hu2⟩, by simp⟩
  · rintro ⟨u, ⟨w, w', hw, hw', rfl⟩, ⟨hu1, hu2⟩, rfl⟩
    exact ⟨w, u ++ w', [], [u], by simp, rfl, ⟨hw, rfl⟩, u, w', [u], [], rfl, rfl, ⟨⟨[], hu1, hu2, rfl⟩, rfl⟩, hw', rfl⟩

theorem ct_less {t : Text} {g : List Text} : Mt less t g ↔ IsLe t ∧ g = [t] := by
  simp only [less, Mt, IsLe]
  constructor
  · rintro ⟨⟨_, h⟩, rfl⟩; exact ⟨h.imp And.left And.left, rfl⟩
  · rintro ⟨h, rfl⟩; exact ⟨⟨[], h.imp (⟨·, rfl⟩) (⟨·, rfl⟩)⟩, rfl⟩

theorem ct_more {t : Text} {g : List Text} : Mt more t g ↔ IsGe t ∧ g = [t] := by
  simp only [more, Mt, IsGe]
  constructor
  · rintro ⟨⟨_, h⟩, rfl⟩; exact ⟨h.imp And.left And.left, rfl⟩
  · rintro ⟨h, rfl⟩; exact ⟨⟨[], h.imp (⟨·, rfl⟩) (⟨·, rfl⟩)⟩, rfl⟩

theorem ct_ratio {k : Cls} {t : Text} {g : List Text} : Mt (ratio k) t g ↔
    ∃ a b u v, t = a ++ ['/'] ++ b ∧ Spaced k a u ∧ Name k u ∧ Spaced k b v ∧ Name k v ∧ g = [u, v] := by
  simp only [ratio, Mt, ct_token]
  constructor
  · rintro ⟨a, _, _, _, rfl, rfl, ⟨u, h1, h2, rfl⟩, _, b, _, _, rfl, rfl, ⟨rfl, rfl⟩, v, h3, h4, rfl⟩
    exact ⟨a, b, u, v, by simp, h1, h2, h3, h4, by simp⟩
  · rintro ⟨a, b, u, v, rfl, h1, h2, h3, h4, rfl⟩
    exact ⟨a, ['/'] ++ b, [u], [v], by simp, rfl, ⟨u, h1, h2, rfl⟩, ['/'], b, [], [v], rfl, rfl, ⟨rfl, rfl⟩, v, h3, h4, rfl⟩

/-! ## Spaces -/

section
variable {k : Cls} (hk : k.Ok)
include hk

theorem ct_dg_sp {c : Char} (h : k.dg c = true) : k.sp c = false := by
  cases hs : k.sp c with
  | false => rfl
  | true => have := hk.space_word c hs; rw [hk.digit_word c h] at this; simp at this

theorem ct_tok_sp {c : Char} (h : k.wd c = true ∨ c ∈ ['#', ':', '*', '&', '^', '%', '$', '!', '@']) : k.sp c = false := by
  rcases h with h | h
  · cases hs : k.sp c with
    | false => rfl
    | true => have := hk.space_word c hs; rw [h] at this; simp at this
  · apply hk.sign_space
    simp only [List.mem_cons, List.not_mem_nil, or_false] at h ⊢
    tauto

theorem ct_name_tight {u : Text} (h : Name k u) : ∀ c ∈ u, k.sp c = false := fun c hc => ct_tok_sp hk (h.2 c hc)

theorem ct_wd_noRel {c : Char} (h : k.wd c = true) : c ≠ '<' ∧ c ≠ '>' ∧ c ≠ '=' ∧ c ≠ '/' := by
  refine ⟨?_, ?_, ?_, ?_⟩ <;> rintro rfl <;> rw [hk.sign_word _ (by simp)] at h <;> simp at h

theorem ct_name_char {u : Text} (h : Name k u) {c : Char} (hc : c ∈ u) : c ≠ '<' ∧ c ≠ '>' ∧ c ≠ '=' ∧ c ≠ '/' := by
  rcases h.2 c hc with h | h
  · exact ct_wd_noRel hk h
  · simp only [List.mem_cons, List.not_mem_nil, or_false] at h
    rcases h with rfl | rfl | rfl | rfl | rfl | rfl | rfl | rfl | rfl <;> decide

theorem ct_name_noRel {u : Text} (h : Name k u) : NoRel u := fun c hc =>
  ⟨(ct_name_char hk h hc).1, (ct_name_char hk h hc).2.1, (ct_name_char hk h hc).2.2.1⟩

theorem ct_one_char {cs t : Text} (hcs : ∀ c ∈ cs, c ∈ ['.', '+', '-', 'e', 'E']) (h : AtMostOne cs t) :
    ∀ c ∈ t, c ∈ ['.', '+', '-', 'e', 'E'] := by
  rcases h with rfl | ⟨c, hc, rfl⟩
  · simp
  · intro d hd
    rw [List.mem_singleton] at hd
    subst hd
    exact hcs d hc

theorem ct_decimal_chars {t : Text} (h : Decimal k t) : ∀ c ∈ t, k.dg c = true ∨ c ∈ ['.', '+', '-', 'e', 'E'] := by
  obtain ⟨s, d, p, f, e, s', x, h1, h2, h3, h4, h5, h6, h7, rfl⟩ := h
  have g1 := ct_one_char hk (by simp) h1
  have g3 := ct_one_char hk (by simp) h3
  have g5 := ct_one_char hk (by simp) h5
  have g6 := ct_one_char hk (by simp) h6
  intro c hc
  simp only [List.mem_append] at hc
  rcases hc with (((((hc | hc) | hc) | hc) | hc) | hc) | hc
  · exact .inr (g1 c hc)
  · exact .inl (h2 c hc)
  · exact .inr (g3 c hc)
  · exact .inl (h4 c hc)
  · exact .inr (g5 c hc)
  · exact .inr (g6 c hc)
  · exact .inl (h7 c hc)

theorem ct_e_sp : k.sp 'e' = false ∧ k.sp 'E' = false := by
  constructor
  · exact ct_tok_sp hk (.inl hk.exp_word.1)
  · exact ct_tok_sp hk (.inl hk.exp_word.2)

theorem ct_decimal_char {t : Text} (h : Decimal k t) {c : Char} (hc : c ∈ t) :
    k.sp c = false ∧ c ≠ '<' ∧ c ≠ '>' ∧ c ≠ '=' ∧ c ≠ '/' := by
  rcases ct_decimal_chars hk h c hc with h | h
  · exact ⟨ct_dg_sp hk h, ct_wd_noRel hk (hk.digit_word c h)⟩
  · simp only [List.mem_cons, List.not_mem_nil, or_false] at h
    have he := ct_e_sp hk
    rcases h with rfl | rfl | rfl | rfl | rfl
    · exact ⟨hk.sign_space _ (by simp), by decide⟩
    · exact ⟨hk.sign_space _ (by simp), by decide⟩
    · exact ⟨hk.sign_space _ (by simp), by decide⟩
    · exact ⟨he.1, by decide⟩
    · exact ⟨he.2, by decide⟩

theorem ct_num_char {t : Text} (h : NumTxt k t) {c : Char} (hc : c ∈ t) :
    k.sp c = false ∧ c ≠ '<' ∧ c ≠ '>' ∧ c ≠ '=' := by
  rcases h with h | ⟨a, b, -, ha, -, hb, rfl⟩
  · obtain ⟨h1, h2, h3, h4, -⟩ := ct_decimal_char hk h hc
    exact ⟨h1, h2, h3, h4⟩
  · have hd : ∀ d, k.dg d = true → k.sp d = false ∧ d ≠ '<' ∧ d ≠ '>' ∧ d ≠ '=' := fun d hd =>
      have := ct_wd_noRel hk (hk.digit_word d hd)
      ⟨ct_dg_sp hk hd, this.1, this.2.1, this.2.2.1⟩
    simp only [List.mem_append, List.mem_cons] at hc
    rcases hc with hc | rfl | hc
    · exact hd c (ha c hc)
    · exact ⟨hk.sign_space _ (by simp), by decide⟩
    · exact hd c (hb c hc)

theorem ct_num_noRel {t : Text} (h : NumTxt k t) : NoRel t := fun _ hc => (ct_num_char hk h hc).2

theorem ct_spaced_noRel {t u : Text} (h : Spaced k t u) (hu : NoRel u) : NoRel t := by
  obtain ⟨w, w', hw, hw', rfl⟩ := h
  have hs : ∀ c, k.sp c = true → c ≠ '<' ∧ c ≠ '>' ∧ c ≠ '=' := by
    intro c hc
    refine ⟨?_, ?_, ?_⟩ <;> rintro rfl <;> rw [hk.sign_space _ (by simp)] at hc <;> simp at hc
  intro c hc
  simp only [List.mem_append] at hc
  rcases hc with (hc | hc) | hc
  · exact hs c (hw c hc)
  · exact hu c hc
  · exact hs c (hw' c hc)

omit hk in
theorem ct_squeeze {t u : Text} (h : Spaced k t u) (hu : ∀ c ∈ u, k.sp c = false) : t.filter (fun c => !k.sp c) = u := by
  obtain ⟨w, w', hw, hw', rfl⟩ := h
  have h1 : w.filter (fun c => !k.sp c) = [] := by simpa using hw
  have h2 : w'.filter (fun c => !k.sp c) = [] := by simpa using hw'
  have h3 : u.filter (fun c => !k.sp c) = u := by rw [List.filter_eq_self]; simpa using hu
  simp [List.filter_append, h1, h2, h3]

omit hk in
theorem ct_spaced_unique {t u u' : Text} (h : Spaced k t u) (h' : Spaced k t u') (hu : ∀ c ∈ u, k.sp c = false)
    (hu' : ∀ c ∈ u', k.sp c = false) : u = u' := (ct_squeeze h hu).symm.trans (ct_squeeze h' hu')

theorem ct_num_at {t u : Text} (h : Spaced k t u) (hu : ∀ c ∈ u, k.sp c = false) {g : List Text} :
    Mt (numbr k) t g ↔ NumTxt k u ∧ g = [u] := by
  rw [ct_numbr]
  constructor
  · rintro ⟨u', h1, h2, rfl⟩
    have := ct_spaced_unique h h1 hu (fun c hc => (ct_num_char hk h2 hc).1)
    subst this
    exact ⟨h2, rfl⟩
  · rintro ⟨h1, rfl⟩; exact ⟨u, h, h1, rfl⟩

theorem ct_tok_at {t u : Text} (h : Spaced k t u) (hu : ∀ c ∈ u, k.sp c = false) {g : List Text} :
    Mt (token k) t g ↔ Name k u ∧ g = [u] := by
  rw [ct_token]
  constructor
  · rintro ⟨u', h1, h2, rfl⟩
    have := ct_spaced_unique h h1 hu (ct_name_tight hk h2)
    subst this
    exact ⟨h2, rfl⟩
  · rintro ⟨h1, rfl⟩; exact ⟨u, h, h1, rfl⟩

theorem ct_sp_slash {c : Char} (h : k.sp c = true) : c ≠ '/' := by
  rintro rfl; rw [hk.sign_space _ (by simp)] at h; simp at h

theorem ct_spaced_noSlash {t u : Text} (h : Spaced k t u) (hu : Name k u) : '/' ∉ t := by
  obtain ⟨w, w', hw, hw', rfl⟩ := h
  intro hc
  simp only [List.mem_append] at hc
  rcases hc with (hc | hc) | hc
  · exact ct_sp_slash hk (hw _ hc) rfl
  · exact (ct_name_char hk hu hc).2.2.2 rfl
  · exact ct_sp_slash hk (hw' _ hc) rfl

omit hk in
theorem ct_slash_cut {a a' b b' : Text} (ha : '/' ∉ a) (ha' : '/' ∉ a') (h : a ++ '/' :: b = a' ++ '/' :: b') : a = a' ∧ b = b' := by
  induction a generalizing a' with
  | nil =>
    cases a' with
    | nil => simpa using h
    | cons c a' => simp at h ha'; exact absurd h.1 ha'.1
  | cons c a ih =>
    cases a' with
    | nil => simp at h ha; exact absurd h.1.symm ha.1
    | cons c' a' =>
      simp only [List.cons_append, List.cons.injEq, List.mem_cons, not_or] at h ha ha'
      obtain ⟨rfl, h⟩ := h
      obtain ⟨rfl, h2⟩ := ih ha.2 ha'.2 h
      exact ⟨rfl, h2⟩

theorem ct_ratio_at {a b u v : Text} (ha : Spaced k a u) (hu : Name k u) (hb : Spaced k b v) (hv : Name k v) {g : List Text} :
    Mt (ratio k) (a ++ ['/'] ++ b) g ↔ g = [u, v] := by
  rw [ct_ratio]
  constructor
  · rintro ⟨a', b', u', v', h, h1, h2, h3, h4, rfl⟩
    simp only [List.append_assoc, List.singleton_append] at h
    obtain ⟨rfl, rfl⟩ := ct_slash_cut (ct_spaced_noSlash hk ha hu) (ct_spaced_noSlash hk h1 h2) h
    rw [ct_spaced_unique ha h1 (ct_name_tight hk hu) (ct_name_tight hk h2),
      ct_spaced_unique hb h3 (ct_name_tight hk hv) (ct_name_tight hk h4)]
  · rintro rfl; exact ⟨a, b, u, v, rfl, ha, hu, hb, hv, rfl⟩

theorem ct_tok_not_ratio {a b : Text} {g : List Text} : ¬ Mt (token k) (a ++ ['/'] ++ b) g := by
  rw [ct_token]
  rintro ⟨u, h1, h2, rfl⟩
  exact ct_spaced_noSlash hk h1 h2 (by simp)

omit hk in
theorem ct_digits_decimal {t : Text} (h : Digits k t) : Decimal k t :=
  ⟨[], t, [], [], [], [], [], .inl rfl, h, .inl rfl, by simp [Digits], .inl rfl, .inl rfl, by simp [Digits], by simp⟩

theorem ct_num_not_ratio {a b u v : Text} (ha : Spaced k a u) (hu : Name k u) (hn : ¬ Decimal k u) (hb : Spaced k b v) (hv : Name k v)
    {g : List Text} : ¬ Mt (numbr k) (a ++ ['/'] ++ b) g := by
  rw [ct_numbr]
  rintro ⟨x, h1, h2, rfl⟩
  have e1 := ct_squeeze h1 (fun c hc => (ct_num_char hk h2 hc).1)
  have hsl : k.sp '/' = false := hk.sign_space _ (by simp)
  rw [List.filter_append, List.filter_append, ct_squeeze ha (ct_name_tight hk hu), ct_squeeze hb (ct_name_tight hk hv)] at e1
  simp only [hsl, Bool.not_false, List.filter_cons_of_pos, List.filter_nil, List.append_assoc, List.singleton_append] at e1
  have hus : '/' ∉ u := fun h => (ct_name_char hk hu h).2.2.2 rfl
  rcases h2 with h2 | ⟨c, d, -, hc, -, hd, rfl⟩
  · exact (ct_decimal_char hk h2 (c := '/') (by rw [← e1]; simp)).2.2.2.2 rfl
  · have hcs : '/' ∉ c := fun h => (ct_wd_noRel hk (hk.digit_word _ (hc _ h))).2.2.2 rfl
    obtain ⟨rfl, -⟩ := ct_slash_cut hus hcs e1
    exact hn (ct_digits_decimal hc)

theorem ct_numbr_noRel {t : Text} {g : List Text} (h : Mt (numbr k) t g) : NoRel t := by
  obtain ⟨u, h1, h2, -⟩ := ct_numbr.1 h
  exact ct_spaced_noRel hk h1 (ct_num_noRel hk h2)

theorem ct_token_noRel {t : Text} {g : List Text} (h : Mt (token k) t g) : NoRel t := by
  obtain ⟨u, h1, h2, -⟩ := ct_token.1 h
  exact ct_spaced_noRel hk h1 (ct_name_noRel hk h2)

theorem ct_ratio_noRel {t : Text} {g : List Text} (h : Mt (ratio k) t g) : NoRel t := by
  obtain ⟨a, b, u, v, rfl, h1, h2, h3, h4, -⟩ := ct_ratio.1 h
  refine .app (.app (ct_spaced_noRel hk h1 (ct_name_noRel hk h2)) ?_) (ct_spaced_noRel hk h3 (ct_name_noRel hk h4))
  intro c hc
  rw [List.mem_singleton] at hc
  subst hc
  decide

end

/-! ## Patterns of two and three parts -/

/-- The pattern matches only signs of the given kind. -/
def RelPat (R : Re) (P : Text → Prop) : Prop := (∀ t g, Mt R t g ↔ P t ∧ g = [t]) ∧ ∀ t, P t → IsRel t

theorem relLess : RelPat less IsLe := ⟨fun _ _ => ct_less, fun _ => .inl⟩
theorem relMore : RelPat more IsGe := ⟨fun _ _ => ct_more, fun _ => .inr⟩

theorem ct_pat2 {A R B : Re} {P : Text → Prop} (hA : ∀ t g, Mt A t g → NoRel t) (hB : ∀ t g, Mt B t g → NoRel t) (hR : RelPat R P)
    {a r b : Text} (ha : NoRel a) (hr : IsRel r) (hb : NoRel b) {g : List Text} :
    Mt (A ;; R ;; B) (a ++ r ++ b) g ↔ ∃ ga gb, Mt A a ga ∧ P r ∧ Mt B b gb ∧ g = ga ++ [r] ++ gb := by
  constructor
  · rintro ⟨a', _, ga, _, h, rfl, h1, r', b', _, gb, rfl, rfl, h2, h3⟩
    obtain ⟨h4, rfl⟩ := (hR.1 _ _).1 h2
    rw [← List.append_assoc] at h
    obtain ⟨rfl, rfl, rfl⟩ := ct_two ha (hA _ _ h1) hr (hR.2 _ h4) hb (hB _ _ h3) h
    exact ⟨ga, gb, h1, h4, h3, by simp⟩
  · rintro ⟨ga, gb, h1, h2, h3, rfl⟩
    exact ⟨a, r ++ b, ga, [r] ++ gb, by simp, by simp, h1, r, b, [r], gb, rfl, rfl, (hR.1 _ _).2 ⟨h2, rfl⟩, h3⟩

theorem ct_pat3_two {A R B S C : Re} {P Q : Text → Prop} (hA : ∀ t g, Mt A t g → NoRel t) (hB : ∀ t g, Mt B t g → NoRel t)
    (hR : RelPat R P) (hS : RelPat S Q) {a r b : Text} (ha : NoRel a) (hr : IsRel r) (hb : NoRel b) {g : List Text} :
    ¬ Mt (A ;; R ;; B ;; S ;; C) (a ++ r ++ b) g := by
  rintro ⟨a', _, ga, _, h, rfl, h1, r', _, _, gb, rfl, rfl, h2, b', _, _, _, rfl, rfl, h3, s', c', _, _, rfl, rfl, h4, h5⟩
  have h6 := ((hR.1 _ _).1 h2).1
  have h7 := ((hS.1 _ _).1 h4).1
  exact ct_two_three ha (hA _ _ h1) hr (hR.2 _ h6) hb (hB _ _ h3) (hS.2 _ h7) (c' := c') (by rw [h]; simp)

theorem ct_pat2_three {A R B : Re} {P : Text → Prop} (hA : ∀ t g, Mt A t g → NoRel t) (hB : ∀ t g, Mt B t g → NoRel t)
    (hR : RelPat R P) {a r b s c : Text} (ha : NoRel a) (hr : IsRel r) (hb : NoRel b) (hs : IsRel s) {g : List Text} :
    ¬ Mt (A ;; R ;; B) (a ++ r ++ b ++ s ++ c) g := by
  rintro ⟨a', _, ga, _, h, rfl, h1, r', b', _, gb, rfl, rfl, h2, h3⟩
  have h6 := ((hR.1 _ _).1 h2).1
  exact ct_two_three (hA _ _ h1) ha (hR.2 _ h6) hr (hB _ _ h3) hb hs (c' := c) (by rw [List.append_assoc, ← h]; simp)

theorem ct_pat3 {A R B S C : Re} {P Q : Text → Prop} (hA : ∀ t g, Mt A t g → NoRel t) (hB : ∀ t g, Mt B t g → NoRel t)
    (hC : ∀ t g, Mt C t g → NoRel t) (hR : RelPat R P) (hS : RelPat S Q) {a r b s c : Text} (ha : NoRel a) (hr : IsRel r)
    (hb : NoRel b) (hs : IsRel s) (hc : NoRel c) {g : List Text} : Mt (A ;; R ;; B ;; S ;; C) (a ++ r ++ b ++ s ++ c) g ↔
      ∃ ga gb gc, Mt A a ga ∧ P r ∧ Mt B b gb ∧ Q s ∧ Mt C c gc ∧ g = ga ++ [r] ++ gb ++ [s] ++ gc := by
  constructor
  · rintro ⟨a', _, ga, _, h, rfl, h1, r', _, _, gb, rfl, rfl, h2, b', _, _, _, rfl, rfl, h3, s', c', _, _, rfl, rfl, h4, h5⟩
    obtain ⟨h6, rfl⟩ := (hR.1 _ _).1 h2
    obtain ⟨h7, rfl⟩ := (hS.1 _ _).1 h4
    obtain ⟨rfl, rfl, rfl, rfl, rfl⟩ := ct_three ha (hA _ _ h1) hr (hR.2 _ h6) hb (hB _ _ h3) hs (hS.2 _ h7) hc (hC _ _ h5)
      (by simpa using h)
    exact ⟨_, _, _, h1, h6, h3, h7, h5, by simp⟩
  · rintro ⟨ga, gb, gc, h1, h2, h3, h4, h5, rfl⟩
    exact ⟨a, r ++ (b ++ (s ++ c)), ga, [r] ++ (gb ++ ([s] ++ gc)), by simp, by simp, h1, r, _, [r], _, rfl, rfl, (hR.1 _ _).2 ⟨h2, rfl⟩,
      b, _, gb, _, rfl, rfl, h3, s, c, [s], gc, rfl, rfl, (hS.1 _ _).2 ⟨h4, rfl⟩, h5⟩

/-! ## Numbers -/

theorem ct_decimal_noSlash {k : Cls} (hk : k.Ok) {t : Text} (h : Decimal k t) : t.contains '/' = false := by
  rw [List.contains_eq_mem, decide_eq_false_iff_not]
  exact fun hc => (ct_decimal_char hk h hc).2.2.2.2 rfl

theorem ct_digits_noSlash {k : Cls} (hk : k.Ok) {t : Text} (h : Digits k t) : ∀ c ∈ t, (c != '/') = true := by
  intro c hc
  simpa using (ct_wd_noRel hk (hk.digit_word _ (h c hc))).2.2.2

theorem ct_takeWhile {p : Char → Bool} {a b : Text} {c : Char} (ha : ∀ x ∈ a, p x = true) (hc : p c = false) :
    (a ++ c :: b).takeWhile p = a ∧ (a ++ c :: b).dropWhile p = c :: b := by
  induction a with
  | nil => simp [hc]
  | cons d a ih =>
    have := ih (fun x hx => ha x (by simp [hx]))
    simp [ha d (by simp), this]

theorem ct_takeWhile_all {p : Char → Bool} {a : Text} (ha : ∀ x ∈ a, p x = true) : a.takeWhile p = a := by
  induction a with
  | nil => rfl
  | cons d a ih => simp [ha d (by simp), ih (fun x hx => ha x (by simp [hx]))]

theorem ct_asfloat_frac {k : Cls} (hk : k.Ok) {flt : Text → Option ℝ} {a b : Text} (ha : Digits k a) (hb : Digits k b) :
    asfloat flt (a ++ '/' :: b) = (pyFloat flt a).bind fun x => (pyFloat flt b).bind fun y => pyDiv x y := by
  have h := ct_takeWhile (b := b) (ct_digits_noSlash hk ha) (c := '/') (by decide)
  have hc : (a ++ '/' :: b).contains '/' = true := by simp
  rw [asfloat, if_pos hc, beforeSlash, afterSlash, h.1, h.2, List.tail_cons, ct_takeWhile_all (ct_digits_noSlash hk hb)]

/-- `asfloat` reads exactly the numbers. -/
theorem ct_asfloat {k : Cls} (hk : k.Ok) {flt : Text → Option ℝ} {t : Text} (ht : NumTxt k t) (x : ℝ) :
    asfloat flt t = .ok x ↔ Number k flt t x := by
  constructor
  · intro h
    rcases ht with ht | ⟨a, b, ha0, ha, hb0, hb, rfl⟩
    · rw [asfloat, if_neg (by simp [ct_decimal_noSlash hk ht, -List.contains_eq_mem])] at h
      unfold pyFloat at h
      cases hf : flt t with
      | none => rw [hf] at h; cases h
      | some y => rw [hf] at h; cases h; exact .decimal ht hf
    · rw [ct_asfloat_frac hk ha hb] at h
      unfold pyFloat at h
      cases hf : flt a with
      | none => rw [hf] at h; cases h
      | some y =>
        rw [hf] at h
        cases hf' : flt b with
        | none => rw [hf'] at h; cases h
        | some z =>
          rw [hf'] at h
          have h' : pyDiv y z = .ok x := h
          unfold pyDiv at h'
          split at h'
          · cases h'
          · rename_i hz
            cases h'
            exact .fraction ha0 ha hb0 hb hf hf' hz
  · intro h
    cases h with
    | decimal h1 h2 =>
      rw [asfloat, if_neg (by simp [ct_decimal_noSlash hk h1, -List.contains_eq_mem])]
      simp [pyFloat, h2]
    | fraction ha0 ha hb0 hb h1 h2 h3 =>
      rw [ct_asfloat_frac hk ha hb]
      simp [pyFloat, h1, h2, pyDiv, h3, Except.bind]

theorem ct_numTxt {k : Cls} {flt : Text → Option ℝ} {t : Text} {x : ℝ} (h : Number k flt t x) : NumTxt k t := by
  cases h with
  | decimal h1 _ => exact .inl h1
  | fraction ha0 ha hb0 hb _ _ _ => exact .inr ⟨_, _, ha0, ha, hb0, hb, rfl⟩

/-- A text read as a constraint was matched by one of the patterns. -/
theorem ct_tryRules {rs : List Rule} {c : Text} {K : Constraint} (h : tryRules rs c = .ok K) :
    ∃ r ∈ rs, ∃ g, Mt r.1 c g ∧ r.2 g = .ok K := by
  induction rs with
  | nil => cases h
  | cons r rs ih =>
    unfold tryRules at h
    cases hf : r.1.fullMatch c with
    | some g => rw [hf] at h; exact ⟨r, by simp, g, ct_full_mt hf, h⟩
    | none =>
      rw [hf] at h
      obtain ⟨r', h1, h2⟩ := ih h
      exact ⟨r', by simp [h1], h2⟩

theorem ct_try_skip {r : Rule} {rs : List Rule} {c : Text} (h : ∀ g, ¬ Mt r.1 c g) : tryRules (r :: rs) c = tryRules rs c := by
  rw [tryRules, ct_full_none h]; rfl

theorem ct_try_hit {r : Rule} {rs : List Rule} {c : Text} {g : List Text} (h : ∀ g', Mt r.1 c g' ↔ g' = g) :
    tryRules (r :: rs) c = r.2 g := by
  rw [tryRules, ct_full_some ((h g).2 rfl) (fun g' h' => (h g').1 h')]; rfl

theorem ct_map_ok {α β : Type} {x : Except CErr α} {f : α → β} {y : β} (h : x.map f = .ok y) : ∃ a, x = .ok a ∧ f a = y := by
  cases x with
  | error e => cases h
  | ok a => cases h; exact ⟨a, rfl, rfl⟩

theorem ct_bind_ok {α β : Type} {x : Except CErr α} {f : α → Except CErr β} {y : β} (h : x.bind f = .ok y) :
    ∃ a, x = .ok a ∧ f a = .ok y := by
  cases x with
  | error e => cases h
  | ok a => exact ⟨a, rfl, h⟩

/-- The text of two parts with a sign between. -/
theorem ct_seq3 {A R B : Re} {P : Text → Prop} (hR : RelPat R P) {c : Text} {g : List Text} (h : Mt (A ;; R ;; B) c g) :
    ∃ a r b ga gb, c = a ++ r ++ b ∧ Mt A a ga ∧ P r ∧ Mt B b gb ∧ g = ga ++ [r] ++ gb := by
  obtain ⟨a, _, ga, _, rfl, rfl, h1, r, b, _, gb, rfl, rfl, h2, h3⟩ := h
  obtain ⟨h4, rfl⟩ := (hR.1 _ _).1 h2
  exact ⟨a, r, b, ga, gb, by simp, h1, h4, h3, by simp⟩

theorem ct_seq5 {A R B S C : Re} {P Q : Text → Prop} (hR : RelPat R P) (hS : RelPat S Q) {c : Text} {g : List Text}
    (h : Mt (A ;; R ;; B ;; S ;; C) c g) : ∃ a r b s d ga gb gd, c = a ++ r ++ b ++ s ++ d ∧ Mt A a ga ∧ P r ∧ Mt B b gb ∧ Q s ∧
      Mt C d gd ∧ g = ga ++ [r] ++ gb ++ [s] ++ gd := by
  obtain ⟨a, _, ga, _, rfl, rfl, h1, h⟩ := h
  obtain ⟨r, _, _, _, rfl, rfl, h2, h⟩ := h
  obtain ⟨b, _, gb, _, rfl, rfl, h3, s, d, _, gd, rfl, rfl, h4, h5⟩ := h
  obtain ⟨h6, rfl⟩ := (hR.1 _ _).1 h2
  obtain ⟨h7, rfl⟩ := (hS.1 _ _).1 h4
  exact ⟨a, r, b, s, d, ga, gb, gd, by simp, h1, h6, h3, h7, h5, by simp⟩

/-! ## The property -/

/-- **C123.** Whatever text is accepted, the constraint says what the text says: the text can be read as an inequality, and the
constraint holds exactly when that inequality does. -/
theorem C123_accepted_says_so (k : Cls) (hk : k.Ok) (flt : Text → Option ℝ) (c : Text) (K : Constraint) (h : interpret k flt c = .ok K) :
    ∃ i, Written k flt (fun _ => True) c i ∧ ∀ v, K.Holds v ↔ i.Holds v := by
  obtain ⟨r, hr, g, hm, hg⟩ := ct_tryRules h
  simp only [rules, List.mem_cons, List.not_mem_nil, or_false] at hr
  rcases hr with rfl | rfl | rfl | rfl | rfl | rfl | rfl | rfl | rfl | rfl
  · obtain ⟨a, r, b, s, d, ga, gb, gd, rfl, h1, h2, h3, h4, h5, rfl⟩ := ct_seq5 relLess relLess hm
    obtain ⟨ua, s1, h1', rfl⟩ := ct_numbr.1 h1
    obtain ⟨ub, s3, h3', rfl⟩ := ct_token.1 h3
    obtain ⟨ud, s5, h5', rfl⟩ := ct_numbr.1 h5
    obtain ⟨x, hx, hg⟩ := ct_bind_ok hg
    obtain ⟨y, hy, rfl⟩ := ct_map_ok hg
    exact ⟨_, .both ⟨ua, s1, (ct_asfloat hk h1' x).1 hx⟩ h2 ⟨ub, s3, h3', trivial, rfl⟩ h4 ⟨ud, s5, (ct_asfloat hk h5' y).1 hy⟩, fun v => by
      simp [fixedBoth, Constraint.Holds, Con.Fixed.Holds, Con.AtLeast, Con.AtMost, Ineq.Holds, group, name]⟩
  · obtain ⟨a, r, b, ga, gb, rfl, h1, h2, h3, rfl⟩ := ct_seq3 relLess hm
    obtain ⟨ua, s1, h1', rfl⟩ := ct_token.1 h1
    obtain ⟨ub, s3, h3', rfl⟩ := ct_numbr.1 h3
    obtain ⟨x, hx, rfl⟩ := ct_map_ok hg
    exact ⟨_, .nameLe ⟨ua, s1, h1', trivial, rfl⟩ h2 ⟨ub, s3, (ct_asfloat hk h3' x).1 hx⟩, fun v => by
      simp [fixedMax, Constraint.Holds, Con.Fixed.Holds, Con.AtMost, Ineq.Holds, group, name]⟩
  · obtain ⟨a, r, b, ga, gb, rfl, h1, h2, h3, rfl⟩ := ct_seq3 relMore hm
    obtain ⟨ua, s1, h1', rfl⟩ := ct_token.1 h1
    obtain ⟨ub, s3, h3', rfl⟩ := ct_numbr.1 h3
    obtain ⟨x, hx, rfl⟩ := ct_map_ok hg
    exact ⟨_, .nameGe ⟨ua, s1, h1', trivial, rfl⟩ h2 ⟨ub, s3, (ct_asfloat hk h3' x).1 hx⟩, fun v => by
      simp [fixedMin, Constraint.Holds, Con.Fixed.Holds, Con.AtLeast, Ineq.Holds, group, name]⟩
  · obtain ⟨a, r, b, ga, gb, rfl, h1, h2, h3, rfl⟩ := ct_seq3 relLess hm
    obtain ⟨ua, s1, h1', rfl⟩ := ct_numbr.1 h1
    obtain ⟨ub, s3, h3', rfl⟩ := ct_token.1 h3
    obtain ⟨x, hx, rfl⟩ := ct_map_ok hg
    exact ⟨_, .numLe ⟨ua, s1, (ct_asfloat hk h1' x).1 hx⟩ h2 ⟨ub, s3, h3', trivial, rfl⟩, fun v => by
      simp [fixedMin, Constraint.Holds, Con.Fixed.Holds, Con.AtLeast, Ineq.Holds, group, name]⟩
  · obtain ⟨a, r, b, ga, gb, rfl, h1, h2, h3, rfl⟩ := ct_seq3 relMore hm
    obtain ⟨ua, s1, h1', rfl⟩ := ct_numbr.1 h1
    obtain ⟨ub, s3, h3', rfl⟩ := ct_token.1 h3
    obtain ⟨x, hx, rfl⟩ := ct_map_ok hg
    exact ⟨_, .numGe ⟨ua, s1, (ct_asfloat hk h1' x).1 hx⟩ h2 ⟨ub, s3, h3', trivial, rfl⟩, fun v => by
      simp [fixedMax, Constraint.Holds, Con.Fixed.Holds, Con.AtMost, Ineq.Holds, group, name]⟩
  · obtain ⟨a, r, b, ga, gb, rfl, h1, h2, h3, rfl⟩ := ct_seq3 relLess hm
    obtain ⟨ua, s1, h1', rfl⟩ := ct_token.1 h1
    obtain ⟨ub, s3, h3', rfl⟩ := ct_token.1 h3
    cases hg
    exact ⟨_, .le ⟨ua, s1, h1', trivial, rfl⟩ h2 ⟨ub, s3, h3', trivial, rfl⟩, fun v => by
      simp [order, Constraint.Holds, Con.Ordering.Holds, Ineq.Holds, group, name]⟩
  · obtain ⟨a, r, b, ga, gb, rfl, h1, h2, h3, rfl⟩ := ct_seq3 relMore hm
    obtain ⟨ua, s1, h1', rfl⟩ := ct_token.1 h1
    obtain ⟨ub, s3, h3', rfl⟩ := ct_token.1 h3
    cases hg
    exact ⟨_, .ge ⟨ua, s1, h1', trivial, rfl⟩ h2 ⟨ub, s3, h3', trivial, rfl⟩, fun v => by
      simp [order, Constraint.Holds, Con.Ordering.Holds, Ineq.Holds, group, name]⟩
  · obtain ⟨a, r, b, ga, gb, rfl, h1, h2, h3, rfl⟩ := ct_seq3 relLess hm
    obtain ⟨a, d, ua, ud, rfl, s1, h1', s4, h4', rfl⟩ := ct_ratio.1 h1
    obtain ⟨ub, s3, h3', rfl⟩ := ct_numbr.1 h3
    obtain ⟨x, hx, rfl⟩ := ct_map_ok hg
    exact ⟨_, .ratioLe ⟨ua, s1, h1', trivial, rfl⟩ ⟨ud, s4, h4', trivial, rfl⟩ h2 ⟨ub, s3, (ct_asfloat hk h3' x).1 hx⟩, fun v => by
      simp [ratioMax, Constraint.Holds, Con.Ratio.Holds, Ineq.Holds, group, name]⟩
  · obtain ⟨a, r, b, ga, gb, rfl, h1, h2, h3, rfl⟩ := ct_seq3 relMore hm
    obtain ⟨a, d, ua, ud, rfl, s1, h1', s4, h4', rfl⟩ := ct_ratio.1 h1
    obtain ⟨ub, s3, h3', rfl⟩ := ct_numbr.1 h3
    obtain ⟨x, hx, rfl⟩ := ct_map_ok hg
    exact ⟨_, .ratioGe ⟨ua, s1, h1', trivial, rfl⟩ ⟨ud, s4, h4', trivial, rfl⟩ h2 ⟨ub, s3, (ct_asfloat hk h3' x).1 hx⟩, fun v => by
      simp [ratioMin, Constraint.Holds, Con.Ratio.Holds, Ineq.Holds, group, name]⟩
  · obtain ⟨a, r, b, s, d, ga, gb, gd, rfl, h1, h2, h3, h4, h5, rfl⟩ := ct_seq5 relLess relLess hm
    obtain ⟨ua, s1, h1', rfl⟩ := ct_numbr.1 h1
    obtain ⟨b, e, ub, ue, rfl, s3, h3', s6, h6', rfl⟩ := ct_ratio.1 h3
    obtain ⟨ud, s5, h5', rfl⟩ := ct_numbr.1 h5
    obtain ⟨x, hx, hg⟩ := ct_bind_ok hg
    obtain ⟨y, hy, rfl⟩ := ct_map_ok hg
    refine ⟨.ratioBetween x (String.ofList ub) (String.ofList ue) y, ?_, fun v => ?_⟩
    · have := Written.ratioBoth (k := k) (flt := flt) (ok := fun _ => True) ⟨ua, s1, (ct_asfloat hk h1' x).1 hx⟩ h2
        ⟨ub, s3, h3', trivial, rfl⟩ ⟨ue, s6, h6', trivial, rfl⟩ h4 ⟨ud, s5, (ct_asfloat hk h5' y).1 hy⟩
      simpa using this
    · simp [ratioBoth, Constraint.Holds, Con.Ratio.Holds, Ineq.Holds, group, name]


section
variable {A R B : Re} {P : Text → Prop} (hA : ∀ t g, Mt A t g → NoRel t) (hB : ∀ t g, Mt B t g → NoRel t) (hR : RelPat R P)
  {a r b : Text} (ha : NoRel a) (hr : IsRel r) (hb : NoRel b)
include hA hB hR ha hr hb

theorem ct_skipA (h : ∀ g, ¬ Mt A a g) (g : List Text) : ¬ Mt (A ;; R ;; B) (a ++ r ++ b) g := by
  rw [ct_pat2 hA hB hR ha hr hb]; rintro ⟨ga, gb, h1, -⟩; exact h _ h1

theorem ct_skipR (h : ¬ P r) (g : List Text) : ¬ Mt (A ;; R ;; B) (a ++ r ++ b) g := by
  rw [ct_pat2 hA hB hR ha hr hb]; rintro ⟨ga, gb, -, h1, -⟩; exact h h1

theorem ct_skipB (h : ∀ g, ¬ Mt B b g) (g : List Text) : ¬ Mt (A ;; R ;; B) (a ++ r ++ b) g := by
  rw [ct_pat2 hA hB hR ha hr hb]; rintro ⟨ga, gb, -, -, h1, -⟩; exact h _ h1

theorem ct_hit2 {ga gb : List Text} (h1 : ∀ g, Mt A a g ↔ g = ga) (h2 : P r) (h3 : ∀ g, Mt B b g ↔ g = gb) (g : List Text) :
    Mt (A ;; R ;; B) (a ++ r ++ b) g ↔ g = ga ++ [r] ++ gb := by
  rw [ct_pat2 hA hB hR ha hr hb]
  constructor
  · rintro ⟨ga', gb', g1, -, g3, rfl⟩; rw [(h1 _).1 g1, (h3 _).1 g3]
  · rintro rfl; exact ⟨ga, gb, (h1 _).2 rfl, h2, (h3 _).2 rfl, rfl⟩

end

theorem ct_le_ge {r : Text} (h : IsLe r) : ¬ IsGe r := by
  rcases h with rfl | rfl <;> rintro (h | h) <;> simp at h

theorem ct_ge_le {r : Text} (h : IsGe r) : ¬ IsLe r := fun h' => ct_le_ge h' h

theorem ct_name_not_num {k : Cls} (hk : k.Ok) {u : Text} (h : Name k u) (hn : ¬ Decimal k u) : ¬ NumTxt k u := by
  rintro (h1 | ⟨a, b, -, -, -, -, rfl⟩)
  · exact hn h1
  · exact (ct_name_char hk h (c := '/') (by simp)).2.2.2 rfl

/-- A side of a relation, as the patterns see it: which of the three kinds of part match it, and with what groups. -/
structure Side (k : Cls) (a : Text) (tok num rat : Option (List Text)) : Prop where
  noRel : NoRel a
  tok : ∀ g, Mt (token k) a g ↔ some g = tok
  num : ∀ g, Mt (numbr k) a g ↔ some g = num
  rat : ∀ g, Mt (ratio k) a g ↔ some g = rat

theorem ct_side_name {k : Cls} (hk : k.Ok) {a u : Text} (hs : Spaced k a u) (hn : Name k u) (hd : ¬ Decimal k u) :
    Side k a (some [u]) none none where
  noRel := ct_spaced_noRel hk hs (ct_name_noRel hk hn)
  tok g := by rw [ct_tok_at hk hs (ct_name_tight hk hn)]; simp [hn]
  num g := by rw [ct_num_at hk hs (ct_name_tight hk hn)]; simp [ct_name_not_num hk hn hd]
  rat g := by
    rw [ct_ratio]
    simp only [reduceCtorEq, iff_false]
    rintro ⟨x, y, _, _, rfl, -⟩
    exact ct_spaced_noSlash hk hs hn (by simp)

/-- A number is matched by the number pattern; it may also be matched as a name (`5`) or as a ratio of names (`1/2`). -/
theorem ct_side_num {k : Cls} (hk : k.Ok) {a u : Text} (hs : Spaced k a u) (hn : NumTxt k u) :
    ∃ t r, Side k a t (some [u]) r ∧ (t = none ∨ t = some [u]) := by
  have ht : ∀ c ∈ u, k.sp c = false := fun c hc => (ct_num_char hk hn hc).1
  have hnum : ∀ g, Mt (numbr k) a g ↔ some g = some [u] := fun g => by rw [ct_num_at hk hs ht]; simp [hn]
  have htok : ∃ t : Option (List Text), (∀ g, Mt (token k) a g ↔ some g = t) ∧ (t = none ∨ t = some [u]) := by
    by_cases h : Name k u
    · exact ⟨some [u], fun g => by rw [ct_tok_at hk hs ht]; simp [h], .inr rfl⟩
    · exact ⟨none, fun g => by rw [ct_tok_at hk hs ht]; simp [h], .inl rfl⟩
  have hrat : ∃ r : Option (List Text), ∀ g, Mt (ratio k) a g ↔ some g = r := by
    by_cases h : ∃ g, Mt (ratio k) a g
    · obtain ⟨g, hg⟩ := h
      obtain ⟨x, y, u', v', rfl, h1, h2, h3, h4, rfl⟩ := ct_ratio.1 hg
      exact ⟨some [u', v'], fun g => by rw [ct_ratio_at hk h1 h2 h3 h4]; simp⟩
    · exact ⟨none, fun g => by simp only [reduceCtorEq, iff_false]; exact fun hg => h ⟨g, hg⟩⟩
  obtain ⟨t, h1, h2⟩ := htok
  obtain ⟨r, h3⟩ := hrat
  exact ⟨t, r, ⟨ct_spaced_noRel hk hs (ct_num_noRel hk hn), h1, hnum, h3⟩, h2⟩

theorem ct_side_ratio {k : Cls} (hk : k.Ok) {a b u v : Text} (ha : Spaced k a u) (hu : Name k u) (hd : ¬ Decimal k u) (hb : Spaced k b v)
    (hv : Name k v) : Side k (a ++ ['/'] ++ b) none none (some [u, v]) where
  noRel := ct_ratio_noRel hk ((ct_ratio_at hk ha hu hb hv).2 rfl)
  tok g := by simp [-List.append_assoc, ct_tok_not_ratio hk]
  num g := by simp [-List.append_assoc, ct_num_not_ratio hk ha hu hd hb hv]
  rat g := by rw [ct_ratio_at hk ha hu hb hv]; simp

/-- What a pattern of two parts does. -/
theorem ct_eval2 {A R B : Re} {P : Text → Prop} (hA : ∀ t g, Mt A t g → NoRel t) (hB : ∀ t g, Mt B t g → NoRel t) (hR : RelPat R P)
    {a r b : Text} (ha : NoRel a) (hr : IsRel r) (hb : NoRel b) {oa ob : Option (List Text)} (h1 : ∀ g, Mt A a g ↔ some g = oa)
    (h3 : ∀ g, Mt B b g ↔ some g = ob) (f : List Text → Except CErr Constraint) (rs : List Rule) :
    (∀ ga gb, oa = some ga → ob = some gb → P r → tryRules ((A ;; R ;; B, f) :: rs) (a ++ r ++ b) = f (ga ++ [r] ++ gb)) ∧
    (oa = none ∨ ob = none ∨ ¬ P r → tryRules ((A ;; R ;; B, f) :: rs) (a ++ r ++ b) = tryRules rs (a ++ r ++ b)) := by
  constructor
  · rintro ga gb rfl rfl hP
    exact ct_try_hit (r := (A ;; R ;; B, f))
      (ct_hit2 hA hB hR ha hr hb (fun g => by rw [h1]; simp) hP (fun g => by rw [h3]; simp))
  · rintro (rfl | rfl | h)
    · exact ct_try_skip (r := (A ;; R ;; B, f)) (ct_skipA hA hB hR ha hr hb (fun g => by rw [h1]; simp))
    · exact ct_try_skip (r := (A ;; R ;; B, f)) (ct_skipB hA hB hR ha hr hb (fun g => by rw [h3]; simp))
    · exact ct_try_skip (r := (A ;; R ;; B, f)) (ct_skipR hA hB hR ha hr hb h)

/-- The result for a text of two parts, by what its sides are. -/
theorem ct_two_parts {k : Cls} (hk : k.Ok) (flt : Text → Option ℝ) {a r b : Text} (hr : IsRel r) {ta na ra tb nb rb : Option (List Text)}
    (ha : Side k a ta na ra) (hb : Side k b tb nb rb) :
    (∀ ga gb, IsLe r → ta = some ga → nb = some gb → interpret k flt (a ++ r ++ b) = (ruleLeN k flt).2 (ga ++ [r] ++ gb)) ∧
    (∀ ga gb, IsGe r → ta = some ga → nb = some gb → interpret k flt (a ++ r ++ b) = (ruleGeN k flt).2 (ga ++ [r] ++ gb)) ∧
    (∀ ga gb, IsLe r → na = some ga → tb = some gb → nb = none → interpret k flt (a ++ r ++ b) = (ruleNLe k flt).2 (ga ++ [r] ++ gb)) ∧
    (∀ ga gb, IsGe r → na = some ga → tb = some gb → nb = none → interpret k flt (a ++ r ++ b) = (ruleNGe k flt).2 (ga ++ [r] ++ gb)) ∧
    (∀ ga gb, IsLe r → ta = some ga → na = none → tb = some gb → nb = none →
      interpret k flt (a ++ r ++ b) = (ruleLe k).2 (ga ++ [r] ++ gb)) ∧
    (∀ ga gb, IsGe r → ta = some ga → na = none → tb = some gb → nb = none →
      interpret k flt (a ++ r ++ b) = (ruleGe k).2 (ga ++ [r] ++ gb)) ∧
    (∀ ga gb, IsLe r → ta = none → na = none → ra = some ga → nb = some gb →
      interpret k flt (a ++ r ++ b) = (ruleRLe k flt).2 (ga ++ [r] ++ gb)) ∧
    (∀ ga gb, IsGe r → ta = none → na = none → ra = some ga → nb = some gb →
      interpret k flt (a ++ r ++ b) = (ruleRGe k flt).2 (ga ++ [r] ++ gb)) ∧
    ((ta = none ∨ nb = none ∧ tb = none) → (na = none ∨ tb = none) → (ra = none ∨ nb = none) →
      interpret k flt (a ++ r ++ b) = .error .value) := by
  have hT : ∀ t g, Mt (token k) t g → NoRel t := fun _ _ => ct_token_noRel hk
  have hN : ∀ t g, Mt (numbr k) t g → NoRel t := fun _ _ => ct_numbr_noRel hk
  have hQ : ∀ t g, Mt (ratio k) t g → NoRel t := fun _ _ => ct_ratio_noRel hk
  have e1 : ∀ rs, tryRules (ruleN2w k flt :: rs) (a ++ r ++ b) = tryRules rs (a ++ r ++ b) := fun rs =>
    ct_try_skip (r := ruleN2w k flt) (fun g => ct_pat3_two hN hT relLess relLess ha.noRel hr hb.noRel)
  have e10 : ∀ rs, tryRules (ruleR2w k flt :: rs) (a ++ r ++ b) = tryRules rs (a ++ r ++ b) := fun rs =>
    ct_try_skip (r := ruleR2w k flt) (fun g => ct_pat3_two hN hQ relLess relLess ha.noRel hr hb.noRel)
  have e2 := fun rs => ct_eval2 hT hN relLess ha.noRel hr hb.noRel ha.tok hb.num (ruleLeN k flt).2 rs
  have e3 := fun rs => ct_eval2 hT hN relMore ha.noRel hr hb.noRel ha.tok hb.num (ruleGeN k flt).2 rs
  have e4 := fun rs => ct_eval2 hN hT relLess ha.noRel hr hb.noRel ha.num hb.tok (ruleNLe k flt).2 rs
  have e5 := fun rs => ct_eval2 hN hT relMore ha.noRel hr hb.noRel ha.num hb.tok (ruleNGe k flt).2 rs
  have e6 := fun rs => ct_eval2 hT hT relLess ha.noRel hr hb.noRel ha.tok hb.tok (ruleLe k).2 rs
  have e7 := fun rs => ct_eval2 hT hT relMore ha.noRel hr hb.noRel ha.tok hb.tok (ruleGe k).2 rs
  have e8 := fun rs => ct_eval2 hQ hN relLess ha.noRel hr hb.noRel ha.rat hb.num (ruleRLe k flt).2 rs
  have e9 := fun rs => ct_eval2 hQ hN relMore ha.noRel hr hb.noRel ha.rat hb.num (ruleRGe k flt).2 rs
  change _ ∧ _
  simp only [interpret, rules, e1]
  refine ⟨?_, ?_, ?_, ?_, ?_, ?_, ?_, ?_, ?_⟩
  · intro ga gb hP h1 h2
    exact (e2 _).1 ga gb h1 h2 hP
  · intro ga gb hP h1 h2
    have := ct_ge_le hP
    exact ((e2 _).2 (.inr (.inr this))).trans ((e3 _).1 ga gb h1 h2 hP)
  · intro ga gb hP h1 h2 h3
    exact ((e2 _).2 (.inr (.inl h3))).trans (((e3 _).2 (.inr (.inl h3))).trans ((e4 _).1 ga gb h1 h2 hP))
  · intro ga gb hP h1 h2 h3
    have := ct_ge_le hP
    exact ((e2 _).2 (.inr (.inl h3))).trans (((e3 _).2 (.inr (.inl h3))).trans (((e4 _).2 (.inr (.inr this))).trans
      ((e5 _).1 ga gb h1 h2 hP)))
  · intro ga gb hP h1 h1' h2 h3
    exact ((e2 _).2 (.inr (.inl h3))).trans (((e3 _).2 (.inr (.inl h3))).trans (((e4 _).2 (.inl h1')).trans (((e5 _).2 (.inl h1')).trans
      ((e6 _).1 ga gb h1 h2 hP))))
  · intro ga gb hP h1 h1' h2 h3
    have := ct_ge_le hP
    exact ((e2 _).2 (.inr (.inl h3))).trans (((e3 _).2 (.inr (.inl h3))).trans (((e4 _).2 (.inl h1')).trans (((e5 _).2 (.inl h1')).trans
      (((e6 _).2 (.inr (.inr this))).trans ((e7 _).1 ga gb h1 h2 hP)))))
  · intro ga gb hP h1 h1' h2 h3
    exact ((e2 _).2 (.inl h1)).trans (((e3 _).2 (.inl h1)).trans (((e4 _).2 (.inl h1')).trans (((e5 _).2 (.inl h1')).trans
      (((e6 _).2 (.inl h1)).trans (((e7 _).2 (.inl h1)).trans ((e8 _).1 ga gb h2 h3 hP))))))
  · intro ga gb hP h1 h1' h2 h3
    have := ct_ge_le hP
    exact ((e2 _).2 (.inl h1)).trans (((e3 _).2 (.inl h1)).trans (((e4 _).2 (.inl h1')).trans (((e5 _).2 (.inl h1')).trans
      (((e6 _).2 (.inl h1)).trans (((e7 _).2 (.inl h1)).trans (((e8 _).2 (.inr (.inr this))).trans ((e9 _).1 ga gb h2 h3 hP)))))))
  · intro h1 h2 h3
    have g2 : ta = none ∨ nb = none := h1.imp id And.left
    have g6 : ta = none ∨ tb = none := h1.imp id And.right
    have w : ∀ {p q : Prop} {z : Prop}, p ∨ q → p ∨ q ∨ z := fun h => h.imp id .inl
    exact ((e2 _).2 (w g2)).trans (((e3 _).2 (w g2)).trans (((e4 _).2 (w h2)).trans (((e5 _).2 (w h2)).trans
      (((e6 _).2 (w g6)).trans (((e7 _).2 (w g6)).trans (((e8 _).2 (w h3)).trans (((e9 _).2 (w h3)).trans (e10 _))))))))

/-- The result for a text of three parts. -/
theorem ct_three_parts {k : Cls} (hk : k.Ok) (flt : Text → Option ℝ) {a r b s c : Text} (hr : IsRel r) (hs : IsRel s)
    {ta na ra tb nb rb tc nc rc : Option (List Text)} (ha : Side k a ta na ra) (hb : Side k b tb nb rb) (hc : Side k c tc nc rc) :
    (∀ ga gb gc, IsLe r → IsLe s → na = some ga → tb = some gb → nc = some gc →
      interpret k flt (a ++ r ++ b ++ s ++ c) = (ruleN2w k flt).2 (ga ++ [r] ++ gb ++ [s] ++ gc)) ∧
    (∀ ga gb gc, IsLe r → IsLe s → na = some ga → tb = none → rb = some gb → nc = some gc →
      interpret k flt (a ++ r ++ b ++ s ++ c) = (ruleR2w k flt).2 (ga ++ [r] ++ gb ++ [s] ++ gc)) ∧
    (IsGe r ∨ IsGe s → interpret k flt (a ++ r ++ b ++ s ++ c) = .error .value) := by
  have hT : ∀ t g, Mt (token k) t g → NoRel t := fun _ _ => ct_token_noRel hk
  have hN : ∀ t g, Mt (numbr k) t g → NoRel t := fun _ _ => ct_numbr_noRel hk
  have hQ : ∀ t g, Mt (ratio k) t g → NoRel t := fun _ _ => ct_ratio_noRel hk
  have e2 : ∀ {A R B : Re} {P : Text → Prop} (f : List Text → Except CErr Constraint) (rs : List Rule), (∀ t g, Mt A t g → NoRel t) →
      (∀ t g, Mt B t g → NoRel t) → RelPat R P →
      tryRules ((A ;; R ;; B, f) :: rs) (a ++ r ++ b ++ s ++ c) = tryRules rs (a ++ r ++ b ++ s ++ c) := fun f rs hA hB hR =>
    ct_try_skip (r := (_, f)) (fun g => ct_pat2_three hA hB hR ha.noRel hr hb.noRel hs)
  have emid : tryRules (rules k flt).tail (a ++ r ++ b ++ s ++ c) = tryRules [ruleR2w k flt] (a ++ r ++ b ++ s ++ c) :=
    (e2 (ruleLeN k flt).2 _ hT hN relLess).trans <| (e2 (ruleGeN k flt).2 _ hT hN relMore).trans <|
    (e2 (ruleNLe k flt).2 _ hN hT relLess).trans <| (e2 (ruleNGe k flt).2 _ hN hT relMore).trans <|
    (e2 (ruleLe k).2 _ hT hT relLess).trans <| (e2 (ruleGe k).2 _ hT hT relMore).trans <|
    (e2 (ruleRLe k flt).2 _ hQ hN relLess).trans (e2 (ruleRGe k flt).2 _ hQ hN relMore)
  have hrules : rules k flt = ruleN2w k flt :: (rules k flt).tail := rfl
  refine ⟨?_, ?_, ?_⟩
  · rintro ga gb gc h1 h2 rfl rfl rfl
    rw [interpret, hrules]
    refine ct_try_hit (r := ruleN2w k flt) (fun g => ?_)
    rw [show (ruleN2w k flt).1 = (numbr k ;; less ;; token k ;; less ;; numbr k) from rfl,
      ct_pat3 hN hT hN relLess relLess ha.noRel hr hb.noRel hs hc.noRel]
    simp only [ha.num, hb.tok, hc.num, Option.some.injEq, h1, h2, true_and]
    constructor
    · rintro ⟨_, _, _, rfl, rfl, rfl, rfl⟩; rfl
    · rintro rfl; exact ⟨_, _, _, rfl, rfl, rfl, rfl⟩
  · rintro ga gb gc h1 h2 rfl rfl rfl rfl
    rw [interpret, hrules]
    refine (ct_try_skip (r := ruleN2w k flt) (fun g => ?_)).trans (emid.trans (ct_try_hit (r := ruleR2w k flt) (fun g => ?_)))
    · rw [show (ruleN2w k flt).1 = (numbr k ;; less ;; token k ;; less ;; numbr k) from rfl,
        ct_pat3 hN hT hN relLess relLess ha.noRel hr hb.noRel hs hc.noRel]
      simp [hb.tok]
    · rw [show (ruleR2w k flt).1 = (numbr k ;; less ;; ratio k ;; less ;; numbr k) from rfl,
        ct_pat3 hN hQ hN relLess relLess ha.noRel hr hb.noRel hs hc.noRel]
      simp only [ha.num, hb.rat, hc.num, Option.some.injEq, h1, h2, true_and]
      constructor
      · rintro ⟨_, _, _, rfl, rfl, rfl, rfl⟩; rfl
      · rintro rfl; exact ⟨_, _, _, rfl, rfl, rfl, rfl⟩
  · intro h
    have hno : ∀ {B : Re}, (∀ t g, Mt B t g → NoRel t) → ∀ g, ¬ Mt (numbr k ;; less ;; B ;; less ;; numbr k) (a ++ r ++ b ++ s ++ c) g := by
      intro B hB g
      rw [ct_pat3 hN hB hN relLess relLess ha.noRel hr hb.noRel hs hc.noRel]
      rintro ⟨_, _, _, -, h1, -, h2, -⟩
      rcases h with h | h
      · exact ct_le_ge h1 h
      · exact ct_le_ge h2 h
    rw [interpret, hrules]
    exact (ct_try_skip (r := ruleN2w k flt) (hno hT)).trans (emid.trans (ct_try_skip (r := ruleR2w k flt) (hno hQ)))

/-- **C123.** Every inequality that can be written in the grammar, with names that do not have the form of a number, is accepted, and
the constraint holds exactly when the inequality does. -/
theorem C123_written_accepted (k : Cls) (hk : k.Ok) (flt : Text → Option ℝ) (c : Text) (i : Ineq)
    (h : Written k flt (fun u => ¬ Decimal k u) c i) : ∃ K, interpret k flt c = .ok K ∧ ∀ v, K.Holds v ↔ i.Holds v := by
  cases h with
  | nameLe h1 h2 h3 =>
    obtain ⟨u, s1, n1, d1, rfl⟩ := h1
    obtain ⟨w, s3, n3⟩ := h3
    obtain ⟨t, q, sb, -⟩ := ct_side_num hk s3 (ct_numTxt n3)
    rw [(ct_two_parts hk flt (.inl h2) (ct_side_name hk s1 n1 d1) sb).1 _ _ h2 rfl rfl]
    rw [show (ruleLeN k flt).2 _ = (asfloat flt w).map (fun x => fixedMax u x) from rfl,
      (ct_asfloat hk (ct_numTxt n3) _).2 n3]
    exact ⟨_, rfl, fun v => by simp [fixedMax, Constraint.Holds, Con.Fixed.Holds, Con.AtMost, Ineq.Holds, name]⟩
  | nameGe h1 h2 h3 =>
    obtain ⟨u, s1, n1, d1, rfl⟩ := h1
    obtain ⟨w, s3, n3⟩ := h3
    obtain ⟨t, q, sb, -⟩ := ct_side_num hk s3 (ct_numTxt n3)
    rw [(ct_two_parts hk flt (.inr h2) (ct_side_name hk s1 n1 d1) sb).2.1 _ _ h2 rfl rfl]
    rw [show (ruleGeN k flt).2 _ = (asfloat flt w).map (fun x => fixedMin u x) from rfl,
      (ct_asfloat hk (ct_numTxt n3) _).2 n3]
    exact ⟨_, rfl, fun v => by simp [fixedMin, Constraint.Holds, Con.Fixed.Holds, Con.AtLeast, Ineq.Holds, name]⟩
  | numLe h1 h2 h3 =>
    obtain ⟨u, s1, n1, d1, rfl⟩ := h3
    obtain ⟨w, s3, n3⟩ := h1
    obtain ⟨t, q, sb, -⟩ := ct_side_num hk s3 (ct_numTxt n3)
    rw [(ct_two_parts hk flt (.inl h2) sb (ct_side_name hk s1 n1 d1)).2.2.1 _ _ h2 rfl rfl rfl]
    rw [show (ruleNLe k flt).2 _ = (asfloat flt w).map (fun x => fixedMin u x) from rfl,
      (ct_asfloat hk (ct_numTxt n3) _).2 n3]
    exact ⟨_, rfl, fun v => by simp [fixedMin, Constraint.Holds, Con.Fixed.Holds, Con.AtLeast, Ineq.Holds, name]⟩
  | numGe h1 h2 h3 =>
    obtain ⟨u, s1, n1, d1, rfl⟩ := h3
    obtain ⟨w, s3, n3⟩ := h1
    obtain ⟨t, q, sb, -⟩ := ct_side_num hk s3 (ct_numTxt n3)
    rw [(ct_two_parts hk flt (.inr h2) sb (ct_side_name hk s1 n1 d1)).2.2.2.1 _ _ h2 rfl rfl rfl]
    rw [show (ruleNGe k flt).2 _ = (asfloat flt w).map (fun x => fixedMax u x) from rfl,
      (ct_asfloat hk (ct_numTxt n3) _).2 n3]
    exact ⟨_, rfl, fun v => by simp [fixedMax, Constraint.Holds, Con.Fixed.Holds, Con.AtMost, Ineq.Holds, name]⟩
  | both h1 h2 h3 h4 h5 =>
    obtain ⟨u, s3, n3, d3, rfl⟩ := h3
    obtain ⟨w, s1, n1⟩ := h1
    obtain ⟨w', s5, n5⟩ := h5
    obtain ⟨t, q, sa, -⟩ := ct_side_num hk s1 (ct_numTxt n1)
    obtain ⟨t', q', sc, -⟩ := ct_side_num hk s5 (ct_numTxt n5)
    rw [(ct_three_parts hk flt (.inl h2) (.inl h4) sa (ct_side_name hk s3 n3 d3) sc).1 _ _ _ h2 h4 rfl rfl rfl]
    rw [show (ruleN2w k flt).2 _ = (asfloat flt w).bind (fun x => (asfloat flt w').map (fun y => fixedBoth u x y)) from rfl,
      (ct_asfloat hk (ct_numTxt n1) _).2 n1]
    rw [Except.bind, (ct_asfloat hk (ct_numTxt n5) _).2 n5]
    exact ⟨_, rfl, fun v => by simp [fixedBoth, Constraint.Holds, Con.Fixed.Holds, Con.AtLeast, Con.AtMost, Ineq.Holds, name]⟩
  | le h1 h2 h3 =>
    obtain ⟨u, s1, n1, d1, rfl⟩ := h1
    obtain ⟨w, s3, n3, d3, rfl⟩ := h3
    rw [(ct_two_parts hk flt (.inl h2) (ct_side_name hk s1 n1 d1) (ct_side_name hk s3 n3 d3)).2.2.2.2.1 _ _ h2 rfl rfl rfl rfl]
    exact ⟨_, rfl, fun v => by simp [order, Constraint.Holds, Con.Ordering.Holds, Ineq.Holds, group, name]⟩
  | ge h1 h2 h3 =>
    obtain ⟨u, s1, n1, d1, rfl⟩ := h1
    obtain ⟨w, s3, n3, d3, rfl⟩ := h3
    rw [(ct_two_parts hk flt (.inr h2) (ct_side_name hk s1 n1 d1) (ct_side_name hk s3 n3 d3)).2.2.2.2.2.1 _ _ h2 rfl rfl rfl rfl]
    exact ⟨_, rfl, fun v => by simp [order, Constraint.Holds, Con.Ordering.Holds, Ineq.Holds, group, name]⟩
  | ratioLe h1 h4 h2 h3 =>
    obtain ⟨u, s1, n1, d1, rfl⟩ := h1
    obtain ⟨u', s4, n4, d4, rfl⟩ := h4
    obtain ⟨w, s3, n3⟩ := h3
    obtain ⟨t, q, sb, -⟩ := ct_side_num hk s3 (ct_numTxt n3)
    rw [(ct_two_parts hk flt (.inl h2) (ct_side_ratio hk s1 n1 d1 s4 n4) sb).2.2.2.2.2.2.1 _ _ h2 rfl rfl rfl rfl]
    rw [show (ruleRLe k flt).2 _ = (asfloat flt w).map (fun x => ratioMax u u' x) from rfl,
      (ct_asfloat hk (ct_numTxt n3) _).2 n3]
    exact ⟨_, rfl, fun v => by simp [ratioMax, Constraint.Holds, Con.Ratio.Holds, Ineq.Holds, name]⟩
  | ratioGe h1 h4 h2 h3 =>
    obtain ⟨u, s1, n1, d1, rfl⟩ := h1
    obtain ⟨u', s4, n4, d4, rfl⟩ := h4
    obtain ⟨w, s3, n3⟩ := h3
    obtain ⟨t, q, sb, -⟩ := ct_side_num hk s3 (ct_numTxt n3)
    rw [(ct_two_parts hk flt (.inr h2) (ct_side_ratio hk s1 n1 d1 s4 n4) sb).2.2.2.2.2.2.2.1 _ _ h2 rfl rfl rfl rfl]
    rw [show (ruleRGe k flt).2 _ = (asfloat flt w).map (fun x => ratioMin u u' x) from rfl,
      (ct_asfloat hk (ct_numTxt n3) _).2 n3]
    exact ⟨_, rfl, fun v => by simp [ratioMin, Constraint.Holds, Con.Ratio.Holds, Ineq.Holds, name]⟩
  | @ratioBoth a r b d r' c p q x y h1 h2 h3 h6 h4 h5 =>
    obtain ⟨u, s3, n3, d3, rfl⟩ := h3
    obtain ⟨u', s6, n6, d6, rfl⟩ := h6
    obtain ⟨w, s1, n1⟩ := h1
    obtain ⟨w', s5, n5⟩ := h5
    obtain ⟨t, q, sa, -⟩ := ct_side_num hk s1 (ct_numTxt n1)
    obtain ⟨t', q', sc, -⟩ := ct_side_num hk s5 (ct_numTxt n5)
    have e := (ct_three_parts hk flt (.inl h2) (.inl h4) sa (ct_side_ratio hk s3 n3 d3 s6 n6) sc).2.1 _ _ _ h2 h4 rfl rfl rfl rfl
    rw [show a ++ r ++ b ++ ['/'] ++ d ++ r' ++ c = a ++ r ++ (b ++ ['/'] ++ d) ++ r' ++ c by simp, e]
    rw [show (ruleR2w k flt).2 _ = (asfloat flt w).bind (fun x => (asfloat flt w').map (fun y => ratioBoth u u' x y)) from rfl,
      (ct_asfloat hk (ct_numTxt n1) _).2 n1]
    rw [Except.bind, (ct_asfloat hk (ct_numTxt n5) _).2 n5]
    exact ⟨_, rfl, fun v => by simp [ratioBoth, Constraint.Holds, Con.Ratio.Holds, Ineq.Holds, name]⟩

/-- **C123.** A text that cannot be read as an inequality raises; nothing is guessed. -/
theorem C123_other_texts_raise (k : Cls) (hk : k.Ok) (flt : Text → Option ℝ) (c : Text) (h : ∀ i, ¬ Written k flt (fun _ => True) c i) :
    ∃ e, interpret k flt c = .error e := by
  cases hc : interpret k flt c with
  | error e => exact ⟨e, rfl⟩
  | ok K =>
    obtain ⟨i, hi, -⟩ := C123_accepted_says_so k hk flt c K hc
    exact absurd hi (h i)

/-- **C123.** A text has one reading: two ways to read it (with names that do not have the form of a number) say the same. -/
theorem C123_one_reading (k : Cls) (hk : k.Ok) (flt : Text → Option ℝ) (c : Text) (i j : Ineq)
    (hi : Written k flt (fun u => ¬ Decimal k u) c i) (hj : Written k flt (fun u => ¬ Decimal k u) c j) (v : String → ℝ) :
    i.Holds v ↔ j.Holds v := by
  obtain ⟨K, h1, h2⟩ := C123_written_accepted k hk flt c i hi
  obtain ⟨K', h3, h4⟩ := C123_written_accepted k hk flt c j hj
  rw [h1] at h3
  cases h3
  rw [← h2, h4]

/-! ## Enforcing -/

theorem ct_fixed_fin {k : Cls} {flt : Text → Option ℝ} {c : Text} {f : Con.Fixed} (h : interpret k flt c = .ok (.fixed f)) :
    f.mx ≠ some .nan := by
  obtain ⟨r, hr, g, -, hg⟩ := ct_tryRules h
  simp only [rules, List.mem_cons, List.not_mem_nil, or_false] at hr
  rcases hr with rfl | rfl | rfl | rfl | rfl | rfl | rfl | rfl | rfl | rfl
  · obtain ⟨x, -, hg⟩ := ct_bind_ok hg
    obtain ⟨y, -, hg⟩ := ct_map_ok hg
    cases hg; simp
  · obtain ⟨x, -, hg⟩ := ct_map_ok hg
    cases hg; simp
  · obtain ⟨x, -, hg⟩ := ct_map_ok hg
    cases hg; simp
  · obtain ⟨x, -, hg⟩ := ct_map_ok hg
    cases hg; simp
  · obtain ⟨x, -, hg⟩ := ct_map_ok hg
    cases hg; simp
  · cases hg
  · cases hg
  · obtain ⟨x, -, hg⟩ := ct_map_ok hg
    cases hg
  · obtain ⟨x, -, hg⟩ := ct_map_ok hg
    cases hg
  · obtain ⟨x, -, hg⟩ := ct_bind_ok hg
    obtain ⟨y, -, hg⟩ := ct_map_ok hg
    cases hg

/-- **C123.** From the text to the optimiser: once linked to a model, the constraint's function is non-negative exactly at the parameter
values for which the inequality written holds (for a ratio: with positive bounds, where the denominator respects its bounds). -/
theorem C123_enforced (k : Cls) (hk : k.Ok) (flt : Text → Option ℝ) (c : Text) (names : List String) (scale : ℝ) (hs : 0 < scale) :
    (∀ o L, interpret k flt c = .ok (.ordering o) → o.link names scale = .ok L →
      ∃ i, Written k flt (fun _ => True) c i ∧ ∀ v, 0 ≤ L.fn (Con.vec names v) ↔ i.Holds v) ∧
    (∀ f L, interpret k flt c = .ok (.fixed f) → f.link names scale = .ok L →
      ∃ i, Written k flt (fun _ => True) c i ∧ ∀ v, Con.NonNeg (L.fn (Con.vec names v)) ↔ i.Holds v) ∧
    (∀ q bmin bmax L, interpret k flt c = .ok (.ratio q) → q.link names bmin bmax scale = .ok L →
      (∀ r, q.minR = some r → 0 < r) → (∀ r, q.maxR = some r → 0 < r) →
      ∃ i, Written k flt (fun _ => True) c i ∧ ∀ v, Con.DenOk (v q.den) bmin bmax → (0 ≤ L.fn (Con.vec names v) ↔ i.Holds v)) := by
  refine ⟨fun o L h hl => ?_, fun f L h hl => ?_, fun q bmin bmax L h hl h1 h2 => ?_⟩
  · obtain ⟨i, hi, hv⟩ := C123_accepted_says_so k hk flt c _ h
    exact ⟨i, hi, fun v => (C26_ordering o names scale hs v L hl).trans (hv v)⟩
  · obtain ⟨i, hi, hv⟩ := C123_accepted_says_so k hk flt c _ h
    exact ⟨i, hi, fun v => (C26_fixed f names scale hs (ct_fixed_fin h) v L hl).trans (hv v)⟩
  · obtain ⟨i, hi, hv⟩ := C123_accepted_says_so k hk flt c _ h
    exact ⟨i, hi, fun v hd => (C26_ratio_partial q names bmin bmax scale hs v hd h1 h2 L hl).trans (hv v)⟩

/-! ## `OrderingBound("a <= b")` -/

theorem ct_cut_none {sign t : Text} {c : Char} (h1 : c ∈ sign) (h2 : c ∉ t) : cut sign t = none := by
  induction t with
  | nil => rfl
  | cons d t ih =>
    have hp : sign.isPrefixOf (d :: t) = false := by
      cases hh : sign.isPrefixOf (d :: t) with
      | false => rfl
      | true => exact absurd ((List.isPrefixOf_iff_prefix.1 hh).subset h1) h2
    rw [cut, hp]
    simp only [Bool.false_eq_true, if_false]
    rw [ih (fun h => h2 (by simp [h]))]
    rfl

theorem ct_cut_hit {s : Text} {c : Char} {a b : Text} (h : c ∉ a) : cut (c :: s) (a ++ (c :: s) ++ b) = some (a, b) := by
  induction a with
  | nil =>
    have hp : (c :: s).isPrefixOf (c :: (s ++ b)) = true := List.isPrefixOf_iff_prefix.2 ⟨b, by simp⟩
    simp only [List.nil_append, List.cons_append, cut, hp, if_true]
    simp
  | cons d a ih =>
    have hdc : c ≠ d := fun hh => h (by simp [hh])
    have hp : (c :: s).isPrefixOf (d :: (a ++ (c :: s) ++ b)) = false := by
      simp [List.isPrefixOf, hdc]
    rw [List.cons_append, List.cons_append, cut, hp]
    simp only [Bool.false_eq_true, if_false]
    rw [ih (fun hh => h (by simp [hh]))]
    rfl

theorem ct_dropWhile_sp {p : Char → Bool} {w u : Text} (hw : ∀ c ∈ w, p c = true) (hu : ∀ c ∈ u, p c = false) :
    (w ++ u).dropWhile p = u := by
  induction w with
  | nil =>
    cases u with
    | nil => rfl
    | cons d u => simp [hu d (by simp)]
  | cons d w ih => simp [hw d (by simp), ih (fun c hc => hw c (by simp [hc]))]

theorem ct_strip {k : Cls} {t u : Text} (h : Spaced k t u) (hne : u ≠ []) (hu : ∀ c ∈ u, k.sp c = false) : strip k t = u := by
  obtain ⟨w, w', hw, hw', rfl⟩ := h
  have h1 : (w ++ u ++ w').dropWhile k.sp = u ++ w' := by
    clear hw'
    induction w with
    | nil =>
      cases u with
      | nil => exact absurd rfl hne
      | cons d u => simp [hu d (by simp)]
    | cons d w ih => simpa [hw d (by simp)] using ih (fun c hc => hw c (by simp [hc]))
  rw [strip, h1, List.reverse_append, ct_dropWhile_sp (by simpa using hw') (by simpa using hu), List.reverse_reverse]

theorem ct_sides {k : Cls} (hk : k.Ok) {a b u w : Text} (ha : Spaced k a u) (hu : Name k u) (hb : Spaced k b w) (hw : Name k w) :
    sides k (a, b) = order u w := by
  rw [sides, ct_strip ha hu.1 (ct_name_tight hk hu), ct_strip hb hw.1 (ct_name_tight hk hw)]

theorem ct_orderingText {k : Cls} (hk : k.Ok) {a b u w r : Text} (ha : Spaced k a u) (hu : Name k u) (hb : Spaced k b w) (hw : Name k w) :
    (IsLe r → orderingText k (a ++ r ++ b) = .ok (order u w)) ∧ (IsGe r → orderingText k (a ++ r ++ b) = .ok (order w u)) := by
  have na := ct_spaced_noRel hk ha (ct_name_noRel hk hu)
  have nb := ct_spaced_noRel hk hb (ct_name_noRel hk hw)
  have a1 : '<' ∉ a := fun h => (na _ h).1 rfl
  have a2 : '>' ∉ a := fun h => (na _ h).2.1 rfl
  have a3 : '=' ∉ a := fun h => (na _ h).2.2 rfl
  have b1 : '<' ∉ b := fun h => (nb _ h).1 rfl
  have b3 : '=' ∉ b := fun h => (nb _ h).2.2 rfl
  refine ⟨?_, ?_⟩
  · rintro (rfl | rfl)
    · rw [orderingText, ct_cut_hit a1]
      simp [ct_sides hk ha hu hb hw]
    · rw [orderingText, ct_cut_none (sign := ['<', '=']) (c := '=') (by simp) (by simp [a3, b3]), ct_cut_hit a1]
      simp [ct_sides hk ha hu hb hw]
  · rintro (rfl | rfl)
    · rw [orderingText, ct_cut_none (sign := ['<', '=']) (c := '<') (by simp) (by simp [a1, b1]),
        ct_cut_none (sign := ['<']) (c := '<') (by simp) (by simp [a1, b1]), ct_cut_hit a2]
      simp [ct_sides hk hb hw ha hu]
    · rw [orderingText, ct_cut_none (sign := ['<', '=']) (c := '<') (by simp) (by simp [a1, b1]),
        ct_cut_none (sign := ['<']) (c := '<') (by simp) (by simp [a1, b1]),
        ct_cut_none (sign := ['>', '=']) (c := '=') (by simp) (by simp [a3, b3]), ct_cut_hit a2]
      simp [ct_sides hk hb hw ha hu]

/-- **C123.** `OrderingBound("a <= b")` (also with `<`, `>=`, `>`) is the ordering written, for every two names. -/
theorem C123_ordering_text (k : Cls) (hk : k.Ok) (a r b : Text) (p q : String) (ha : NameIn k (fun _ => True) a p)
    (hb : NameIn k (fun _ => True) b q) :
    (IsLe r → ∃ K, orderingText k (a ++ r ++ b) = .ok K ∧ ∀ v, K.Holds v ↔ v p ≤ v q) ∧
    (IsGe r → ∃ K, orderingText k (a ++ r ++ b) = .ok K ∧ ∀ v, K.Holds v ↔ v q ≤ v p) := by
  obtain ⟨u, s1, n1, -, rfl⟩ := ha
  obtain ⟨w, s2, n2, -, rfl⟩ := hb
  have h := ct_orderingText (r := r) hk s1 n1 s2 n2
  exact ⟨fun hr => ⟨_, h.1 hr, fun v => by simp [order, Constraint.Holds, Con.Ordering.Holds, name]⟩,
    fun hr => ⟨_, h.2 hr, fun v => by simp [order, Constraint.Holds, Con.Ordering.Holds, name]⟩⟩

/-! ## Where the code does not have the property -/

theorem ct_spaced_self {k : Cls} (t : Text) : Spaced k t t := ⟨[], [], by simp, by simp, by simp⟩

theorem ct_side_any {k : Cls} (hk : k.Ok) {u : Text} (hn : Name k u) : ∃ n r, Side k u (some [u]) n r := by
  by_cases h : Decimal k u
  · obtain ⟨t, r, hs, -⟩ := ct_side_num hk (ct_spaced_self u) (.inl h)
    have : t = some [u] := ((hs.tok [u]).1 ((ct_tok_at hk (ct_spaced_self u) (ct_name_tight hk hn)).2 ⟨hn, rfl⟩)).symm
    subst this
    exact ⟨_, r, hs⟩
  · exact ⟨_, _, ct_side_name hk (ct_spaced_self u) hn h⟩

/-- A parameter whose name has the form of a number without being one (`e`, `E`, `e1`): a constraint with it on the right, which the
grammar admits, raises `ValueError` from `float`, whether a name or a number is on the left; `OrderingBound` accepts the same text. -/
theorem C123_fails_number_like (k : Cls) (hk : k.Ok) (flt : Text → Option ℝ) (p q : Text) (hp : Name k p) (hq : Name k q)
    (hd : Decimal k q) (hf : flt q = none) :
    Written k flt (fun _ => True) (p ++ ['<', '='] ++ q) (.ordered (String.ofList p) (String.ofList q)) ∧
    (∀ x, Number k flt p x → Written k flt (fun _ => True) (p ++ ['<', '='] ++ q) (.atLeast (String.ofList q) x)) ∧
    interpret k flt (p ++ ['<', '='] ++ q) = .error .value ∧
    orderingText k (p ++ ['<', '='] ++ q) = .ok (order p q) := by
  have hr : IsLe ['<', '='] := .inl rfl
  refine ⟨.le ⟨p, ct_spaced_self p, hp, trivial, rfl⟩ hr ⟨q, ct_spaced_self q, hq, trivial, rfl⟩,
    fun x hx => .numLe ⟨p, ct_spaced_self p, hx⟩ hr ⟨q, ct_spaced_self q, hq, trivial, rfl⟩, ?_,
    (ct_orderingText hk (ct_spaced_self p) hp (ct_spaced_self q) hq).1 hr⟩
  obtain ⟨n, t, sp⟩ := ct_side_any hk hp
  obtain ⟨t', r', sq, -⟩ := ct_side_num hk (ct_spaced_self q) (.inl hd)
  rw [(ct_two_parts hk flt (.inl hr) sp sq).1 _ _ hr rfl rfl, show (ruleLeN k flt).2 _ = (asfloat flt q).map (fun x => fixedMax p x) from rfl]
  have hc := ct_decimal_noSlash hk hd
  simp [asfloat, -List.contains_eq_mem, hc, pyFloat, hf, Except.map]

/-- Two numbers are accepted: `1 <= 2` becomes a bound on a parameter named `1`. -/
theorem C123_fails_two_numbers (k : Cls) (hk : k.Ok) (flt : Text → Option ℝ) (p q : Text) (hp0 : p ≠ []) (hp : Digits k p) (x : ℝ)
    (hq : Number k flt q x) : interpret k flt (p ++ ['<', '='] ++ q) = .ok (.fixed ⟨String.ofList p, none, some (.fin x)⟩) := by
  have hr : IsLe ['<', '='] := .inl rfl
  have hn : Name k p := ⟨hp0, fun c hc => .inl (hk.digit_word c (hp c hc))⟩
  obtain ⟨n, t, sp⟩ := ct_side_any hk hn
  obtain ⟨t', r', sq, -⟩ := ct_side_num hk (ct_spaced_self q) (ct_numTxt hq)
  rw [(ct_two_parts hk flt (.inl hr) sp sq).1 _ _ hr rfl rfl, show (ruleLeN k flt).2 _ = (asfloat flt q).map (fun x => fixedMax p x) from rfl,
    (ct_asfloat hk (ct_numTxt hq) _).2 hq]
  rfl

/-- A ratio on the right of a number (`3 <= a/b`) raises `ValueError`, although `a/b >= 3` and `3 <= a/b <= 4` are accepted; so does
the descending chain `5 >= a >= 3`. -/
theorem C123_fails_forms (k : Cls) (hk : k.Ok) (flt : Text → Option ℝ) (a b c d r : Text) (x y : ℝ) (ha : Number k flt a x)
    (hd : Number k flt d y) (hb : Name k b) (hbd : ¬ Decimal k b) (hc : Name k c) (hr : IsRel r) :
    interpret k flt (a ++ r ++ (b ++ ['/'] ++ c)) = .error .value ∧
    (∀ s, IsGe r → IsGe s → interpret k flt (a ++ r ++ b ++ s ++ d) = .error .value) := by
  obtain ⟨t, q, sa, -⟩ := ct_side_num hk (ct_spaced_self a) (ct_numTxt ha)
  obtain ⟨t', q', sd, -⟩ := ct_side_num hk (ct_spaced_self d) (ct_numTxt hd)
  refine ⟨?_, fun s h1 h2 => ?_⟩
  · exact (ct_two_parts hk flt hr sa (ct_side_ratio hk (ct_spaced_self b) hb hbd (ct_spaced_self c) hc)).2.2.2.2.2.2.2.2
      (.inr ⟨rfl, rfl⟩) (.inr rfl) (.inr rfl)
  · exact (ct_three_parts hk flt (.inr h1) (.inr h2) sa (ct_side_name hk (ct_spaced_self b) hb hbd) sd).2.2 (.inl h1)

/-- A negative fraction (`x <= -1/2`) raises `ValueError`, although `1/2` and `-0.5` are accepted. -/
theorem C123_fails_negative_fraction (k : Cls) (hk : k.Ok) (flt : Text → Option ℝ) (p a b r : Text) (hp : Name k p)
    (ha : Digits k a) (hb : Digits k b) (hr : IsRel r) : interpret k flt (p ++ r ++ ('-' :: a ++ '/' :: b)) = .error .value := by
  obtain ⟨n, t, sp⟩ := ct_side_any hk hp
  have hm : k.wd '-' = false := hk.sign_word _ (by simp)
  have hms : k.sp '-' = false := hk.sign_space _ (by simp)
  have hmd : k.dg '-' = false := by
    cases h : k.dg '-' with
    | false => rfl
    | true => have := hk.digit_word _ h; rw [hm] at this; simp at this
  have nn : ∀ {w u : Text}, Spaced k w u → '-' ∈ w → ¬ Name k u := by
    rintro w u ⟨x, y, hx, hy, rfl⟩ hw hu
    simp only [List.mem_append] at hw
    rcases hw with (h | h) | h
    · have := hx _ h; rw [hms] at this; simp at this
    · have := hu.2 _ h
      rw [hm] at this
      simp at this
    · have := hy _ h; rw [hms] at this; simp at this
  have hmem : '-' ∈ ('-' :: a ++ '/' :: b) := by simp
  have tight : ∀ c ∈ ('-' :: a ++ '/' :: b), k.sp c = false := by
    intro c hc
    simp only [List.cons_append, List.mem_cons, List.mem_append] at hc
    rcases hc with rfl | hc | rfl | hc
    · exact hms
    · exact ct_dg_sp hk (ha c hc)
    · exact hk.sign_space _ (by simp)
    · exact ct_dg_sp hk (hb c hc)
  have sd : Side k ('-' :: a ++ '/' :: b) none none none := by
    refine ⟨?_, fun g => ?_, fun g => ?_, fun g => ?_⟩
    · intro c hc
      simp only [List.cons_append, List.mem_cons, List.mem_append] at hc
      rcases hc with rfl | hc | rfl | hc
      · decide
      · have := ct_wd_noRel hk (hk.digit_word _ (ha c hc)); exact ⟨this.1, this.2.1, this.2.2.1⟩
      · decide
      · have := ct_wd_noRel hk (hk.digit_word _ (hb c hc)); exact ⟨this.1, this.2.1, this.2.2.1⟩
    · simp only [reduceCtorEq, iff_false]
      rw [ct_token]
      rintro ⟨u, h1, h2, -⟩
      exact nn h1 hmem h2
    · simp only [reduceCtorEq, iff_false]
      rw [ct_num_at hk (ct_spaced_self _) tight]
      rintro ⟨h | ⟨c, d, hc0, hc, -, -, h⟩, -⟩
      · exact (ct_decimal_char hk h (c := '/') (by simp)).2.2.2.2 rfl
      · cases c with
        | nil => exact hc0 rfl
        | cons e c =>
          simp only [List.cons_append, List.cons.injEq] at h
          have := hc e (by simp)
          rw [← h.1, hmd] at this
          simp at this
    · simp only [reduceCtorEq, iff_false]
      rw [ct_ratio]
      rintro ⟨c, d, u, w, h, h1, h2, h3, h4, -⟩
      cases c with
      | nil => simp at h
      | cons e c =>
        simp only [List.cons_append, List.cons.injEq] at h
        exact nn h1 (by rw [← h.1]; simp) h2
  exact (ct_two_parts hk flt hr sp sd).2.2.2.2.2.2.2.2 (.inr ⟨rfl, rfl⟩) (.inr rfl) (.inr rfl)

/-- The strict signs are not strict: `p < 5` is satisfied by `p = 5`. -/
theorem C123_fails_strict (k : Cls) (hk : k.Ok) (flt : Text → Option ℝ) (p n : Text) (hp : Name k p) (hd : ¬ Decimal k p) (x : ℝ)
    (hn : Number k flt n x) : ∃ K, interpret k flt (p ++ ['<'] ++ n) = .ok K ∧ ∀ v : String → ℝ, v (String.ofList p) = x → K.Holds v := by
  obtain ⟨K, h1, h2⟩ := C123_written_accepted k hk flt _ _
    (.nameLe ⟨p, ct_spaced_self p, hp, hd, rfl⟩ (.inr rfl : IsLe ['<']) ⟨n, ct_spaced_self n, hn⟩)
  exact ⟨K, h1, fun v hv => (h2 v).2 (le_of_eq hv)⟩

/-- Text is accepted when added to `model.constraints`, but not when assigned or given to the constructor. -/
theorem C123_fails_assignment (k : Cls) (hk : k.Ok) (flt : Text → Option ℝ) (c : Text) (i : Ineq)
    (h : Written k flt (fun u => ¬ Decimal k u) c i) :
    (∃ K, itemInsert k flt (.text c) = .ok K) ∧ itemInit (.text c) = .error .type := by
  obtain ⟨K, hK, -⟩ := C123_written_accepted k hk flt c i h
  exact ⟨⟨K, hK⟩, rfl⟩

/-! ## Concrete cases -/

theorem ct_ascii : ascii.Ok where
  digit_word c h := by
    simp only [ascii, Char.isAlphanum, Bool.or_eq_true] at h ⊢
    exact .inl (.inr h)
  space_word c h := by
    simp only [ascii, Bool.or_eq_true, beq_iff_eq] at h ⊢
    rcases h with (rfl | rfl) | rfl <;> decide
  sign_space := by decide
  sign_word := by decide
  exp_word := by decide

/-- A few numbers. -/
noncomputable def ctFlt : Text → Option ℝ := fun t =>
  if t = ['3'] then some 3 else if t = ['0', '.', '5'] then some (1 / 2) else if t = ['1'] then some 1 else if t = ['2'] then some 2 else none

theorem ct_not_decimal_time : ¬ Decimal ascii ['t', 'i', 'm', 'e'] := by
  intro h
  have := ct_decimal_chars ct_ascii h 't' (by simp)
  revert this
  decide

theorem ct_not_decimal_cost : ¬ Decimal ascii ['c', 'o', 's', 't'] := by
  intro h
  have := ct_decimal_chars ct_ascii h 'c' (by simp)
  revert this
  decide

/-- `1/2 <= time / cost < 3`. -/
example : ∃ K, interpret ascii ctFlt "1/2 <= time / cost < 3".toList = .ok K ∧
    ∀ v, K.Holds v ↔ 1 / 2 ≤ v "time" / v "cost" ∧ v "time" / v "cost" ≤ 3 := by
  refine C123_written_accepted ascii ct_ascii ctFlt _ (.ratioBetween (1 / 2) "time" "cost" 3) ?_
  have hd : Decimal ascii ['3'] := ct_digits_decimal (by unfold Digits; decide +kernel)
  have := Written.ratioBoth (k := ascii) (flt := ctFlt) (ok := fun u => ¬ Decimal ascii u) (a := ['1', '/', '2', ' ']) (r := ['<', '='])
    (b := " time ".toList) (d := " cost ".toList) (r' := ['<']) (c := " 3".toList) (p := "time") (q := "cost") (x := 1 / 2) (y := 3)
    ⟨['1', '/', '2'], ⟨[], [' '], by decide, by decide, rfl⟩,
      .fraction (a := ['1']) (b := ['2']) (by simp) (by unfold Digits; decide +kernel) (by simp) (by unfold Digits; decide +kernel) (by simp [ctFlt]) (by simp [ctFlt]) (by norm_num)⟩
    (.inl rfl) ⟨['t', 'i', 'm', 'e'], ⟨[' '], [' '], by decide, by decide, by decide⟩, by unfold Name; decide +kernel, ct_not_decimal_time, by decide⟩
    ⟨['c', 'o', 's', 't'], ⟨[' '], [' '], by decide, by decide, by decide⟩, by unfold Name; decide +kernel, ct_not_decimal_cost, by decide⟩ (.inr rfl)
    ⟨['3'], ⟨[' '], [], by decide, by decide, by decide⟩, .decimal hd (by simp [ctFlt])⟩
  exact this

/-- A parameter named `e1`. -/
example : interpret ascii ctFlt "time<=e1".toList = .error .value := by
  have hd : Decimal ascii ['e', '1'] :=
    ⟨[], [], [], [], ['e'], [], ['1'], .inl rfl, by unfold Digits; decide +kernel, .inl rfl, by unfold Digits; decide +kernel, .inr ⟨'e', by simp, rfl⟩, .inl rfl, by unfold Digits; decide +kernel, rfl⟩
  exact (C123_fails_number_like ascii ct_ascii ctFlt ['t', 'i', 'm', 'e'] ['e', '1'] (by unfold Name; decide +kernel) (by unfold Name; decide +kernel) hd
    (by simp [ctFlt])).2.2.1

example : ∃ K, orderingText ascii "hhinc#3 <= hhinc#2".toList = .ok K ∧ ∀ v, K.Holds v ↔ v "hhinc#3" ≤ v "hhinc#2" :=
  (C123_ordering_text ascii ct_ascii "hhinc#3 ".toList ['<', '='] " hhinc#2".toList "hhinc#3" "hhinc#2"
    ⟨"hhinc#3".toList, ⟨[], [' '], by decide, by decide, by decide⟩, by unfold Name; decide +kernel, trivial, by decide⟩
    ⟨"hhinc#2".toList, ⟨[' '], [], by decide, by decide, by decide⟩, by unfold Name; decide +kernel, trivial, by decide⟩).1 (.inl rfl)

end Larch.Props
