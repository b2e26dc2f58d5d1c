import Verif.Spec.Slots
import Verif.Props.KernelUtil
import Verif.Props.CompiledMnl

/-!
# C101: specifications written with names are evaluated on the named data
-/

namespace Larch.Props

open Function Larch Larch.Kernel Larch.Spec Larch.Slots

/-! ## Positions -/

theorem getLoc_spec {α : Type} [DecidableEq α] {l : List α} {a : α} {i : Nat} (h : getLoc l a = some i) :
    ∃ hi : i < l.length, l[i] = a ∧ ∀ j (hj : j < l.length), l[j] = a → j = i := by
  unfold getLoc at h
  split at h
  · rename_i hc
    rw [Option.some.injEq] at h
    subst h
    have hm : a ∈ l := List.count_pos_iff.1 (by omega)
    have hi := List.idxOf_lt_length_of_mem hm
    refine ⟨hi, List.getElem_idxOf hi, ?_⟩
    intro j hj hja
    by_contra hne
    have hd : (List.idxOf a l) ≠ j := fun h => hne h.symm
    have h2 : 2 ≤ l.count a := by
      rw [← List.duplicate_iff_two_le_count, List.duplicate_iff_exists_distinct_get]
      rcases Nat.lt_or_gt_of_ne hd with hlt | hlt
      · exact ⟨⟨_, hi⟩, ⟨j, hj⟩, hlt, (List.getElem_idxOf hi).symm, hja.symm⟩
      · exact ⟨⟨j, hj⟩, ⟨_, hi⟩, hlt, hja.symm, (List.getElem_idxOf hi).symm⟩
    omega
  · cases h

theorem getLoc_of_nodup {α : Type} [DecidableEq α] {l : List α} {a : α} (hn : l.Nodup) (h : a ∈ l) : ∃ i, getLoc l a = some i := by
  unfold getLoc
  rw [if_pos (List.count_eq_one_of_mem hn h)]
  exact ⟨_, rfl⟩

theorem dictLoc_aux (a : String) (l : List String) (k : Nat) (d : Option Nat) :
    ((l.zipIdx k).foldl (fun d e => if e.1 = a then some e.2 else d) d = d ∧ a ∉ l) ∨
      ∃ i, ∃ h : i < l.length, (l.zipIdx k).foldl (fun d e => if e.1 = a then some e.2 else d) d = some (k + i) ∧ l[i] = a := by
  induction l generalizing k d with
  | nil => left; simp
  | cons b t ih =>
    rw [List.zipIdx_cons, List.foldl_cons]
    rcases ih (k + 1) (if b = a then some k else d) with ⟨h1, h2⟩ | ⟨i, hi, h1, h2⟩
    · by_cases hb : b = a
      · right
        refine ⟨0, by simp, ?_, by simpa using hb⟩
        rw [h1, if_pos hb, Nat.add_zero]
      · left
        refine ⟨by rw [h1, if_neg hb], ?_⟩
        simp only [List.mem_cons, not_or]
        exact ⟨fun h => hb h.symm, h2⟩
    · right
      exact ⟨i + 1, by simpa using hi, by rw [h1]; congr 1; omega, by simpa using h2⟩

theorem dictLoc_spec {l : List String} {a : String} {i : Nat} (h : dictLoc l a = some i) : ∃ hi : i < l.length, l[i] = a := by
  unfold dictLoc at h
  rcases dictLoc_aux a l 0 none with ⟨h1, _⟩ | ⟨j, hj, h1, h2⟩
  · rw [h1] at h; cases h
  · rw [h1, Option.some.injEq, Nat.zero_add] at h
    subst h
    exact ⟨hj, h2⟩

theorem dictLoc_of_mem {l : List String} {a : String} (h : a ∈ l) : ∃ i, dictLoc l a = some i := by
  unfold dictLoc
  rcases dictLoc_aux a l 0 none with ⟨_, h2⟩ | ⟨j, _, h1, _⟩
  · exact absurd h h2
  · exact ⟨_, h1⟩

theorem allOf_spec {α β : Type} {f : α → Option β} {l : List α} {r : List β} (h : allOf f l = some r) :
    List.Forall₂ (fun a b => f a = some b) l r := by
  induction l generalizing r with
  | nil =>
    simp only [allOf, Option.some.injEq] at h
    subst h
    exact List.Forall₂.nil
  | cons a t ih =>
    simp only [allOf, Option.bind_eq_some_iff, Option.map_eq_some_iff] at h
    obtain ⟨b, hb, r', hr', rfl⟩ := h
    exact List.Forall₂.cons hb (ih hr')

theorem allOf_of_forall {α β : Type} {f : α → Option β} {l : List α} (h : ∀ a ∈ l, ∃ b, f a = some b) : ∃ r, allOf f l = some r := by
  induction l with
  | nil => exact ⟨[], rfl⟩
  | cons a t ih =>
    obtain ⟨b, hb⟩ := h a (by simp)
    obtain ⟨r, hr⟩ := ih (fun x hx => h x (by simp [hx]))
    exact ⟨b :: r, by simp [allOf, hb, hr]⟩

/-! ## What the linked arrays contain -/

/-- A linked `idca` term stands for the named one, in a table with these columns. -/
def IsCa (T : Table) (cols : List String) (t : NTerm) (c : CaTerm) : Prop :=
  c.scale = t.scale ∧ (∃ h : c.param < T.params.length, T.params[c.param] = t.param) ∧ ∃ h : c.data < cols.length, cols[c.data] = t.data

/-- A linked term of alternative `a` stands for the named one. -/
def IsCo (T : Table) (a : Nat) (t : NTerm) (c : CoTerm) : Prop :=
  c.alt = a ∧ c.scale = t.scale ∧ (∃ h : c.param < T.params.length, T.params[c.param] = t.param) ∧
    ((t.data = "1" ∧ c.data = none) ∨
      (t.data ≠ "1" ∧ ∃ d, c.data = some d ∧ ∃ h : d < (T.co.getD []).length, (T.co.getD [])[d] = t.data))

theorem caSlot_spec {T : Table} {cols : List String} (hc : caOrCe T = some cols) {t : NTerm} {c : CaTerm} (h : caSlot T t = some c) :
    IsCa T cols t c := by
  simp only [caSlot, hc, Option.bind_eq_some_iff, Option.map_eq_some_iff, Option.some.injEq] at h
  obtain ⟨p, hp, _, rfl, d, hd, rfl⟩ := h
  obtain ⟨h1, h2, -⟩ := getLoc_spec hp
  obtain ⟨h3, h4, -⟩ := getLoc_spec hd
  exact ⟨rfl, ⟨h1, h2⟩, ⟨h3, h4⟩⟩

theorem coSlot_spec {T : Table} {a : Nat} {t : NTerm} {c : CoTerm} (h : coSlot T.params (T.co.getD []) a t = some c) :
    IsCo T a t c := by
  simp only [coSlot, Option.bind_eq_some_iff] at h
  obtain ⟨p, hp, h⟩ := h
  obtain ⟨h1, h2⟩ := dictLoc_spec hp
  by_cases h1' : t.data = "1"
  · rw [if_pos h1', Option.some.injEq] at h
    subst h
    exact ⟨rfl, rfl, ⟨h1, h2⟩, Or.inl ⟨h1', rfl⟩⟩
  · rw [if_neg h1', Option.map_eq_some_iff] at h
    obtain ⟨d, hd, rfl⟩ := h
    obtain ⟨h3, h4⟩ := dictLoc_spec hd
    exact ⟨rfl, rfl, ⟨h1, h2⟩, Or.inr ⟨h1', d, rfl, h3, h4⟩⟩

/-- What `numbaSlots` returns, term by term. -/
structure Linked (T : Table) (S : NSpec) (M : Terms) : Prop where
  ca : ∀ cols, caOrCe T = some cols → List.Forall₂ (IsCa T cols) S.ca M.ca
  q : ∀ cols, caOrCe T = some cols → List.Forall₂ (IsCa T cols) S.q M.q
  caNone : caOrCe T = none → S.ca = [] ∧ M.ca = [] ∧ S.q = [] ∧ M.q = []
  scale : (S.qScale = none ∧ M.qScale = none) ∨
    ∃ n k, S.qScale = some n ∧ M.qScale = some k ∧ ∃ h : k < T.params.length, T.params[k] = n
  co : ∃ L : List (List CoTerm), M.co = L.flatten ∧ List.Forall₂ (fun e l => ∃ a, (∃ h : a < T.alts.length, T.alts[a] = e.1 ∧
    ∀ j (hj : j < T.alts.length), T.alts[j] = e.1 → j = a) ∧ List.Forall₂ (IsCo T a) e.2 l) S.co L

theorem linked {T : Table} {S : NSpec} {M : Terms} (h : numbaSlots T S = some M) : Linked T S M := by
  simp only [numbaSlots, Option.bind_eq_some_iff, Option.map_eq_some_iff] at h
  obtain ⟨ca, hca, co, hco, q, hq, s, hs, rfl⟩ := h
  have hca' := allOf_spec hca
  have hq' := allOf_spec hq
  refine ⟨fun cols hc => ?_, fun cols hc => ?_, fun hn => ?_, ?_, ?_⟩
  · exact hca'.imp (fun a b hab => caSlot_spec hc hab)
  · exact hq'.imp (fun a b hab => caSlot_spec hc hab)
  · have hno : ∀ t c, caSlot T t ≠ some c := by
      intro t c hc
      simp [caSlot, hn] at hc
    have hnil : ∀ (l : List NTerm) (r : List CaTerm), List.Forall₂ (fun t c => caSlot T t = some c) l r → l = [] ∧ r = [] := by
      intro l r hlr
      cases hlr with
      | nil => exact ⟨rfl, rfl⟩
      | cons hab _ => exact absurd hab (hno _ _)
    exact ⟨(hnil _ _ hca').1, (hnil _ _ hca').2, (hnil _ _ hq').1, (hnil _ _ hq').2⟩
  · unfold scaleSlot at hs
    cases hS : S.qScale with
    | none =>
      rw [hS] at hs
      simp only [Option.some.injEq] at hs
      exact Or.inl ⟨rfl, hs.symm⟩
    | some n =>
      rw [hS] at hs
      simp only [Option.map_eq_some_iff] at hs
      obtain ⟨k, hk, rfl⟩ := hs
      obtain ⟨h1, h2, -⟩ := getLoc_spec hk
      exact Or.inr ⟨n, k, rfl, rfl, h1, h2⟩
  · simp only [coSlots, Option.map_eq_some_iff] at hco
    obtain ⟨L, hL, rfl⟩ := hco
    refine ⟨L, rfl, (allOf_spec hL).imp ?_⟩
    intro e l hel
    simp only [Option.bind_eq_some_iff] at hel
    obtain ⟨a, ha, hel⟩ := hel
    exact ⟨a, getLoc_spec ha, (allOf_spec hel).imp (fun t c htc => coSlot_spec htc)⟩

theorem forall₂_right {α β : Type} {R : α → β → Prop} {l : List α} {r : List β} (h : List.Forall₂ R l r) {b : β} (hb : b ∈ r) :
    ∃ a, a ∈ l ∧ R a b := by
  induction h with
  | nil => cases hb
  | cons hab _ ih =>
    rcases List.mem_cons.1 hb with rfl | hb
    · exact ⟨_, by simp, hab⟩
    · obtain ⟨a, ha, hR⟩ := ih hb
      exact ⟨a, by simp [ha], hR⟩

theorem forall₂_sum {α β : Type} {R : α → β → Prop} {f : α → ℝ} {g : β → ℝ} {l : List α} {r : List β}
    (h : List.Forall₂ R l r) (hfg : ∀ a b, R a b → g b = f a) : (r.map g).sum = (l.map f).sum := by
  induction h with
  | nil => rfl
  | cons hab _ ih => rw [List.map_cons, List.map_cons, List.sum_cons, List.sum_cons, ih, hfg _ _ hab]

/-- The declared utility of the linked arrays is the utility of the specification in terms of names. -/
theorem linked_utility {T : Table} {S : NSpec} {M : Terms} (h : Linked T S M) {v co : String → ℝ} {ca : Int → String → ℝ}
    {θ arrCo : Nat → ℝ} {arrCa : Nat → Nat → ℝ} {j : Nat} (hj : j < T.alts.length) (hθ : LaidParams T v θ)
    (hco : ∀ k (h : k < (T.co.getD []).length), arrCo k = co (T.co.getD [])[k])
    (hca : ∀ cols, caOrCe T = some cols → ∀ t ∈ M.q ++ M.ca, ∀ h : t.data < cols.length,
      arrCa j t.data = ca T.alts[j] cols[t.data]) :
    utility M θ arrCo arrCa j = nUtility S v co ca T.alts[j] := by
  unfold utility nUtility
  congr 1
  · have hterm : ∀ cols, caOrCe T = some cols → ∀ t c, IsCa T cols t c → c ∈ M.q ++ M.ca →
        c.scale = t.scale ∧ θ c.param = v t.param ∧ arrCa j c.data = ca T.alts[j] t.data := by
      intro cols hc t c hI hm
      obtain ⟨h1, ⟨h2, h3⟩, ⟨h4, h5⟩⟩ := hI
      exact ⟨h1, by rw [hθ _ h2, h3], by rw [hca cols hc c hm h4, h5]⟩
    have hsum : ∀ (l : List NTerm) (r : List CaTerm), (∀ cols, caOrCe T = some cols → List.Forall₂ (IsCa T cols) l r) →
        (caOrCe T = none → l = [] ∧ r = []) → (∀ c ∈ r, c ∈ M.q ++ M.ca) → ∀ (F : ℝ → ℝ),
        (r.map fun t => t.scale * F (θ t.param) * arrCa j t.data).sum = (l.map fun t => t.scale * F (v t.param) * ca T.alts[j] t.data).sum := by
      intro l r h1 h2 h3 F
      cases hc : caOrCe T with
      | none => obtain ⟨rfl, rfl⟩ := h2 hc; rfl
      | some cols =>
        have hf := h1 cols hc
        clear h1 h2
        induction hf with
        | nil => rfl
        | cons hab _ ih =>
          obtain ⟨e1, e2, e3⟩ := hterm cols hc _ _ hab (h3 _ (by simp))
          rw [List.map_cons, List.map_cons, List.sum_cons, List.sum_cons, e1, e2, e3, ih (fun c hc => h3 c (by simp [hc]))]
    congr 1
    · have hlen : M.q = [] ↔ S.q = [] := by
        cases hc : caOrCe T with
        | none => obtain ⟨-, -, h1, h2⟩ := h.caNone hc; simp [h1, h2]
        | some cols =>
          have := (h.q cols hc).length_eq
          rw [← List.length_eq_zero_iff, ← List.length_eq_zero_iff, this]
      simp only [hlen]
      split
      · rfl
      · congr 1
        · unfold sizeScale
          rcases h.scale with ⟨h1, h2⟩ | ⟨n, k, h1, h2, hk, hn⟩
          · rw [h1, h2]; rfl
          · rw [h1, h2]
            show θ k = v n
            rw [hθ k hk, hn]
        · unfold size
          rw [hsum S.q M.q h.q (fun hn => ⟨(h.caNone hn).2.2.1, (h.caNone hn).2.2.2⟩) (fun c hc => by simp [hc]) Real.exp]
    · exact hsum S.ca M.ca h.ca (fun hn => ⟨(h.caNone hn).1, (h.caNone hn).2.1⟩) (fun c hc => by simp [hc]) id
  · obtain ⟨L, hL, hf⟩ := h.co
    rw [hL]
    clear hL
    generalize S.co = SC at hf
    induction hf with
    | nil => rfl
    | @cons e l es ls hel _ ih =>
      rw [List.flatten_cons, List.filter_append, List.map_append, List.sum_append, ih, List.map_cons, List.sum_cons]
      congr 1
      obtain ⟨a, ⟨ha, hae, hau⟩, hel⟩ := hel
      by_cases hja : a = j
      · subst hja
        rw [if_pos hae.symm]
        have hall : l.filter (fun t => t.alt = a) = l := by
          rw [List.filter_eq_self]
          intro c hc
          obtain ⟨t, -, htc⟩ := forall₂_right hel hc
          simpa using htc.1
        rw [hall]
        refine forall₂_sum hel ?_
        rintro t c ⟨-, h2, ⟨h3, h4⟩, h5⟩
        unfold nTerm
        rw [h2, hθ _ h3, h4]
        rcases h5 with ⟨h5, h6⟩ | ⟨h5, d, h6, h7, h8⟩
        · rw [if_pos h5, h6]; rfl
        · rw [if_neg h5, h6]
          show _ * arrCo d = _
          rw [hco d h7, h8]
      · have hne : e.1 ≠ T.alts[j] := fun he => hja (hau j hj he.symm).symm
        rw [if_neg hne]
        have hnone : l.filter (fun t => t.alt = j) = [] := by
          rw [List.filter_eq_nil_iff]
          intro c hc
          obtain ⟨t, -, htc⟩ := forall₂_right hel hc
          simp [htc.1, hja]
        rw [hnone]; rfl

/-! ## C101 -/

/-- **C101 (in bounds).** Whenever linking succeeds, every position it hands to the kernels (which do not check bounds) lies
within the parameter frame, the alternatives, the columns of the case data and the columns of `data_ca`, or of `data_ce` when
there is no `data_ca`. -/
theorem C101_in_bounds {T : Table} {S : NSpec} {M : Terms} (h : numbaSlots T S = some M) :
    (∀ t ∈ M.q ++ M.ca, t.param < T.params.length ∧ ∃ cols, (T.ca = some cols ∨ T.ca = none ∧ T.ce = some cols) ∧
      t.data < cols.length) ∧
    (∀ k, M.qScale = some k → k < T.params.length) ∧
    ∀ t ∈ M.co, t.alt < T.alts.length ∧ t.param < T.params.length ∧
      ∀ d, t.data = some d → ∃ cols, T.co = some cols ∧ d < cols.length := by
  have hl := linked h
  refine ⟨?_, ?_, ?_⟩
  · intro t ht
    have hcols : ∀ cols, caOrCe T = some cols → T.ca = some cols ∨ T.ca = none ∧ T.ce = some cols := by
      intro cols hc
      unfold caOrCe at hc
      cases h1 : T.ca with
      | some c => rw [h1] at hc; exact Or.inl hc
      | none => rw [h1] at hc; exact Or.inr ⟨rfl, hc⟩
    cases hc : caOrCe T with
    | none =>
      obtain ⟨-, h1, -, h2⟩ := hl.caNone hc
      simp [h1, h2] at ht
    | some cols =>
      rcases List.mem_append.1 ht with ht | ht
      · obtain ⟨n, -, -, ⟨h2, -⟩, ⟨h3, -⟩⟩ := forall₂_right (hl.q cols hc) ht
        exact ⟨h2, cols, hcols cols hc, h3⟩
      · obtain ⟨n, -, -, ⟨h2, -⟩, ⟨h3, -⟩⟩ := forall₂_right (hl.ca cols hc) ht
        exact ⟨h2, cols, hcols cols hc, h3⟩
  · intro k hk
    rcases hl.scale with ⟨-, h2⟩ | ⟨n, k', -, h2, h3, -⟩
    · rw [h2] at hk; cases hk
    · rw [h2, Option.some.injEq] at hk; subst hk; exact h3
  · obtain ⟨L, hL, hf⟩ := hl.co
    intro t ht
    rw [hL, List.mem_flatten] at ht
    obtain ⟨l, hlm, htl⟩ := ht
    obtain ⟨e, -, a, ⟨ha, -, -⟩, hel⟩ := forall₂_right hf hlm
    obtain ⟨n, -, h1, -, ⟨h3, -⟩, h5⟩ := forall₂_right hel htl
    refine ⟨h1 ▸ ha, h3, ?_⟩
    intro d hd
    rcases h5 with ⟨-, h6⟩ | ⟨-, d', h6, h7, -⟩
    · rw [h6] at hd; cases hd
    · rw [h6, Option.some.injEq] at hd
      subst hd
      cases hc : T.co with
      | none => rw [hc] at h7; simp at h7
      | some cols => rw [hc] at h7; exact ⟨cols, rfl, h7⟩

/-- The named data that the specification uses is finite for the alternatives that are available (`alts`, with flags `av`). -/
structure NFinite (S : NSpec) (alts : List Int) (av : Nat → Bool) (co : String → X) (ca : Int → String → X) : Prop where
  ca : ∀ j (h : j < alts.length), av j = true → ∀ t ∈ S.q ++ S.ca, ∃ r, ca alts[j] t.data = .fin r
  co : ∀ e ∈ S.co, ∀ j (h : j < alts.length), alts[j] = e.1 → av j = true → ∀ t ∈ e.2, t.data ≠ "1" → ∃ r, co t.data = .fin r

/-- The named size of every available alternative is positive (vacuous without quantity terms). -/
def NPositive (S : NSpec) (alts : List Int) (av : Nat → Bool) (v : String → ℝ) (ca : Int → String → X) : Prop :=
  S.q ≠ [] → ∀ j (h : j < alts.length), av j = true → 0 < (S.q.map fun t => t.scale * Real.exp (v t.param) * (ca alts[j] t.data).toReal).sum

theorem linked_q_nil {T : Table} {S : NSpec} {M : Terms} (h : Linked T S M) : M.q = [] ↔ S.q = [] := by
  cases hc : caOrCe T with
  | none => obtain ⟨-, -, h1, h2⟩ := h.caNone hc; simp [h1, h2]
  | some cols =>
    have := (h.q cols hc).length_eq
    rw [← List.length_eq_zero_iff, ← List.length_eq_zero_iff, this]

theorem caOrCe_ca {T : Table} {cols c : List String} (h : caOrCe T = some cols) (hc : T.ca = some c) : cols = c := by
  unfold caOrCe at h; rw [hc] at h; exact (Option.some.inj h).symm

theorem numba_conditions {T : Table} {S : NSpec} {M : Terms} (hl : Linked T S M) (hdense : T.ca.isSome ∨ S.ca = [] ∧ S.q = [])
    {v : String → ℝ} {co : String → X} {ca : Int → String → X} {θ : Nat → ℝ} {C : Case} (hθ : LaidParams T v θ)
    (hco : LaidCo T co C.co) (hca : ∀ j (h : j < T.alts.length), LaidRow (T.ca.getD []) (ca T.alts[j]) (C.ca j))
    (hF : NFinite S T.alts C.av co ca) (hP : NPositive S T.alts C.av v ca) :
    FiniteData T.alts.length M C ∧ PositiveSize T.alts.length M θ C ∧ (∀ t ∈ M.co, t.alt < T.alts.length) ∧
      ∀ cols, caOrCe T = some cols → ∀ t ∈ M.q ++ M.ca, ∀ h : t.data < cols.length, ∀ j (hj : j < T.alts.length),
        caReal C j t.data = (ca T.alts[j] cols[t.data]).toReal := by
  have hcols : ∀ cols, caOrCe T = some cols → M.q ++ M.ca ≠ [] → T.ca = some cols := by
    intro cols hc hne
    rcases hdense with hd | ⟨h1, h2⟩
    · obtain ⟨c, hc'⟩ := Option.isSome_iff_exists.1 hd
      rw [caOrCe_ca hc hc', hc']
    · exfalso
      have e1 := (hl.q cols hc).length_eq
      have e2 := (hl.ca cols hc).length_eq
      rw [h2] at e1; rw [h1] at e2
      simp only [List.length_nil] at e1 e2
      exact hne (by rw [List.length_eq_zero_iff.1 e1.symm, List.length_eq_zero_iff.1 e2.symm]; rfl)
  have harr : ∀ cols, caOrCe T = some cols → ∀ t ∈ M.q ++ M.ca, ∀ h : t.data < cols.length, ∀ j (hj : j < T.alts.length),
      C.ca j t.data = ca T.alts[j] cols[t.data] := by
    intro cols hc t ht hd j hj
    have hca' := hcols cols hc (List.ne_nil_of_mem ht)
    have := hca j hj t.data (by rw [hca']; exact hd)
    rw [this]
    simp only [hca', Option.getD_some]
  have hterm : ∀ t ∈ M.q ++ M.ca, ∃ cols, caOrCe T = some cols ∧ ∃ h : t.data < cols.length, ∃ n ∈ S.q ++ S.ca, cols[t.data] = n.data := by
    intro t ht
    cases hc : caOrCe T with
    | none => obtain ⟨-, h1, -, h2⟩ := hl.caNone hc; simp [h1, h2] at ht
    | some cols =>
      rcases List.mem_append.1 ht with ht | ht
      · obtain ⟨n, hn, -, -, ⟨h3, h4⟩⟩ := forall₂_right (hl.q cols hc) ht
        exact ⟨cols, rfl, h3, n, by simp [hn], h4⟩
      · obtain ⟨n, hn, -, -, ⟨h3, h4⟩⟩ := forall₂_right (hl.ca cols hc) ht
        exact ⟨cols, rfl, h3, n, by simp [hn], h4⟩
  refine ⟨⟨?_, ?_⟩, ?_, ?_, ?_⟩
  · intro a ha hav t ht
    obtain ⟨cols, hc, hd, n, hn, hdn⟩ := hterm t ht
    rw [harr cols hc t ht hd a ha, hdn]
    exact hF.ca a ha hav n hn
  · obtain ⟨L, hL, hf⟩ := hl.co
    intro t ht _ hav d hd
    rw [hL, List.mem_flatten] at ht
    obtain ⟨l, hlm, htl⟩ := ht
    obtain ⟨e, he, a, ⟨ha, hae, -⟩, hel⟩ := forall₂_right hf hlm
    obtain ⟨n, hn, h1, -, -, h5⟩ := forall₂_right hel htl
    rcases h5 with ⟨-, h6⟩ | ⟨h5, d', h6, h7, h8⟩
    · rw [h6] at hd; cases hd
    · rw [h6, Option.some.injEq] at hd
      subst hd
      rw [hco _ h7, h8]
      exact hF.co e he a ha hae (h1 ▸ hav) n hn h5
  · intro hne a ha hav
    have hne' : S.q ≠ [] := fun hq => hne ((linked_q_nil hl).2 hq)
    have hp := hP hne' a ha hav
    have : size θ M.q (caReal C a) = (S.q.map fun t => t.scale * Real.exp (v t.param) * (ca T.alts[a] t.data).toReal).sum := by
      unfold size
      cases hc : caOrCe T with
      | none => obtain ⟨-, -, h1, h2⟩ := hl.caNone hc; rw [h1, h2]; rfl
      | some cols =>
        have hq := hl.q cols hc
        have key : ∀ (l : List NTerm) (r : List CaTerm), List.Forall₂ (IsCa T cols) l r → (∀ c ∈ r, c ∈ M.q ++ M.ca) →
            (r.map fun t => t.scale * Real.exp (θ t.param) * caReal C a t.data).sum =
              (l.map fun t => t.scale * Real.exp (v t.param) * (ca T.alts[a] t.data).toReal).sum := by
          intro l r hlr
          induction hlr with
          | nil => intro _; rfl
          | cons hab _ ih =>
            intro hr
            obtain ⟨e1, ⟨e2, e3⟩, ⟨e4, e5⟩⟩ := hab
            rw [List.map_cons, List.map_cons, List.sum_cons, List.sum_cons, ih (fun c hc => hr c (by simp [hc])), e1, hθ _ e2, e3]
            unfold caReal
            rw [harr cols hc _ (hr _ (by simp)) e4 a ha, e5]
        exact key _ _ hq (fun c hc => by simp [hc])
    rw [this]; exact hp
  · obtain ⟨L, hL, hf⟩ := hl.co
    intro t ht
    rw [hL, List.mem_flatten] at ht
    obtain ⟨l, hlm, htl⟩ := ht
    obtain ⟨e, -, a, ⟨ha, -, -⟩, hel⟩ := forall₂_right hf hlm
    obtain ⟨n, -, h1, -⟩ := forall₂_right hel htl
    rw [h1]; exact ha
  · intro cols hc t ht hd j hj
    unfold caReal
    rw [harr cols hc t ht hd j hj]

/-- **C101 (numba engine), partial: data not in `idce` form** (see `C101_fails_idce`).  The utility computed for an available
alternative is the specification evaluated on the named parameters and the named data; other columns, the other parameters, and
the order of columns, alternatives and parameters do not matter. -/
theorem C101_numba_utility_partial {T : Table} {S : NSpec} {M : Terms} (h : numbaSlots T S = some M)
    (hdense : T.ca.isSome ∨ S.ca = [] ∧ S.q = []) (v : String → ℝ) (co : String → X) (ca : Int → String → X) (θ : Nat → ℝ)
    (hold : Nat → Bool) (C : Case) (hce : C.ce = none) (hθ : LaidParams T v θ) (hco : LaidCo T co C.co)
    (hca : ∀ j (h : j < T.alts.length), LaidRow (T.ca.getD []) (ca T.alts[j]) (C.ca j))
    (hF : NFinite S T.alts C.av co ca) (hP : NPositive S T.alts C.av v ca) :
    ∀ j (hj : j < T.alts.length), (assemble θ hold T.alts.length M C).U j =
      if C.av j then .fin (nUtility S v (fun n => (co n).toReal) (fun a n => (ca a n).toReal) T.alts[j]) else .ninf := by
  intro j hj
  have hl := linked h
  obtain ⟨h1, h2, h3, h4⟩ := numba_conditions hl hdense hθ hco hca hF hP
  rw [C08_utility_declared θ hold T.alts.length M C hce h1 h2 h3 j hj]
  split
  · congr 1
    refine linked_utility hl hj hθ ?_ ?_
    · intro k hk; unfold coReal; rw [hco k hk]
    · intro cols hc t ht hd; exact h4 cols hc t ht hd j hj
  · rfl

/-- **C101 (numba engine, gradient), partial** as above and for parameters in at most one quantity term
(`C08_fails_duplicate_quantity`): the entry at the place of the parameter named `n` is the derivative of the utility in terms of
names with respect to `n`. -/
theorem C101_numba_gradient_partial {T : Table} {S : NSpec} {M : Terms} (h : numbaSlots T S = some M)
    (hdense : T.ca.isSome ∨ S.ca = [] ∧ S.q = []) (hnd : T.params.Nodup) (v : String → ℝ) (co : String → X)
    (ca : Int → String → X) (θ : Nat → ℝ)
    (hold : Nat → Bool) (C : Case) (hce : C.ce = none) (hθ : LaidParams T v θ) (hco : LaidCo T co C.co)
    (hca : ∀ j (h : j < T.alts.length), LaidRow (T.ca.getD []) (ca T.alts[j]) (C.ca j))
    (hF : NFinite S T.alts C.av co ca) (hP : NPositive S T.alts C.av v ca) (p : Nat) (hp : p < T.params.length)
    (hq : (S.q.filter (fun t => t.param = T.params[p])).length ≤ 1) (hh : hold p = false) :
    ∀ j (hj : j < T.alts.length), C.av j = true → ∃ g : ℝ, (assemble θ hold T.alts.length M C).dU j p = .fin g ∧
      HasDerivAt (fun x => nUtility S (update v T.params[p] x) (fun n => (co n).toReal) (fun a n => (ca a n).toReal) T.alts[j])
        g (v T.params[p]) := by
  intro j hj hav
  have hl := linked h
  obtain ⟨h1, h2, h3, h4⟩ := numba_conditions hl hdense hθ hco hca hF hP
  have hq' : (M.q.filter (fun t => t.param = p)).length ≤ 1 := by
    have key : ∀ cols (l : List NTerm) (r : List CaTerm), List.Forall₂ (IsCa T cols) l r →
        (r.filter (fun t => t.param = p)).length = (l.filter (fun t => t.param = T.params[p])).length := by
      intro cols l r hlr
      induction hlr with
      | nil => rfl
      | @cons t c _ _ hab _ ih =>
        obtain ⟨-, ⟨e2, e3⟩, -⟩ := hab
        have : c.param = p ↔ t.param = T.params[p] := by
          rw [← e3]
          constructor
          · rintro rfl; rfl
          · intro he; exact hnd.getElem_inj_iff.1 he
        by_cases hc : c.param = p
        · rw [List.filter_cons_of_pos (by simpa using hc), List.filter_cons_of_pos (by simpa using this.1 hc), List.length_cons,
            List.length_cons, ih]
        · rw [List.filter_cons_of_neg (by simpa using hc), List.filter_cons_of_neg (by simpa using fun hx => hc (this.2 hx)), ih]
    cases hc : caOrCe T with
    | none => obtain ⟨-, -, -, e⟩ := hl.caNone hc; rw [e]; simp
    | some cols => rw [key cols _ _ (hl.q cols hc)]; exact hq
  obtain ⟨g, hg, -, -, hD⟩ := C08_utility_gradient_partial θ hold T.alts.length M C hce h1 h2 h3 p hq' j hj
  refine ⟨g, hg, ?_⟩
  have hD' := hD hav hh
  rw [hθ p hp] at hD'
  refine hD'.congr_of_eventuallyEq (Filter.Eventually.of_forall ?_)
  intro x
  refine (linked_utility hl hj ?_ ?_ ?_).symm
  · intro k hk
    by_cases hkp : k = p
    · subst hkp; simp
    · rw [update_of_ne hkp, update_of_ne (fun he => hkp (hnd.getElem_inj_iff.1 he)), hθ k hk]
  · intro k hk; unfold coReal; rw [hco k hk]
  · intro cols hc t ht hd; exact h4 cols hc t ht hd j hj

/-- **C101 (compiled engine), partial: not both `data_ca` and `data_ce`** (see `C101_fails_both`).  `A` are the alternatives
offered (available, and with a row when the data is sparse).  Up to one number subtracted from all of them (the overflow guard,
see C73), the computed utilities are those of the specification on the named parameters and data. -/
theorem C101_compiled_utility_partial {T : Table} {S : NSpec} {M : Terms} (h : compiledSlots T S = some M)
    (hone : T.ca = none ∨ T.ce = none) (v : String → ℝ) (co : String → X) (ca : Int → String → X) (θ : Nat → ℝ)
    (hold : Nat → Bool) (C : Case) (A : Nat → Bool) (hθ : LaidParams T v θ) (hco : LaidCo T co C.co)
    (hdense : T.ce = none → C.ce = none ∧ ∀ j (h : j < T.alts.length), A j = C.av j ∧
      LaidRow (T.ca.getD []) (ca T.alts[j]) (C.ca j))
    (hsparse : ∀ cols, T.ce = some cols → ∃ rows, C.ce = some rows ∧ (rows.map Prod.fst).Nodup ∧ ∀ j (h : j < T.alts.length),
      (A j = true ↔ C.av j = true ∧ ∃ row, (j, row) ∈ rows) ∧ ∀ row, (j, row) ∈ rows → LaidRow cols (ca T.alts[j]) row)
    (hF : NFinite S T.alts C.av co ca) (hP : NPositive S T.alts C.av v ca) :
    ∃ s : ℝ, ∀ j (hj : j < T.alts.length), (Compiled.assemble θ hold T.alts.length M C).U j =
      if A j then .fin (nUtility S v (fun n => (co n).toReal) (fun a n => (ca a n).toReal) T.alts[j] - s) else .ninf := by
  have hslots : numbaSlots T S = some M := by
    unfold compiledSlots at h
    split at h
    · exact h
    · cases h
  have hl := linked hslots
  have hcols : ∀ cols, caOrCe T = some cols → compiledCols T = cols := by
    intro cols hc
    unfold compiledCols
    unfold caOrCe at hc
    rcases hone with h1 | h1
    · rw [h1] at hc; rw [show T.ce = some cols from hc]
    · rw [h1]
      cases h2 : T.ca with
      | none => rw [h2, h1] at hc; cases hc
      | some c => rw [h2] at hc; exact Option.some.inj hc
  let x : Nat → Nat → ℝ := fun a k =>
    if ha : a < T.alts.length then (if hk : k < (compiledCols T).length then (ca T.alts[a] (compiledCols T)[k]).toReal else 0) else 0
  have hx : ∀ cols, caOrCe T = some cols → ∀ k (hk : k < cols.length) j (hj : j < T.alts.length),
      x j k = (ca T.alts[j] cols[k]).toReal := by
    intro cols hc k hk j hj
    have hcc := hcols cols hc
    subst hcc
    simp only [x, hj, hk, dif_pos]
  have hterm : ∀ t ∈ M.q ++ M.ca, ∃ cols, caOrCe T = some cols ∧ ∃ h : t.data < cols.length, ∃ n ∈ S.q ++ S.ca, cols[t.data] = n.data := by
    intro t ht
    cases hc : caOrCe T with
    | none => obtain ⟨-, h1, -, h2⟩ := hl.caNone hc; simp [h1, h2] at ht
    | some cols =>
      rcases List.mem_append.1 ht with ht | ht
      · obtain ⟨n, hn, -, -, ⟨h3, h4⟩⟩ := forall₂_right (hl.q cols hc) ht
        exact ⟨cols, rfl, h3, n, by simp [hn], h4⟩
      · obtain ⟨n, hn, -, -, ⟨h3, h4⟩⟩ := forall₂_right (hl.ca cols hc) ht
        exact ⟨cols, rfl, h3, n, by simp [hn], h4⟩
  have hval : ∀ j (hj : j < T.alts.length), C.av j = true → ∀ t ∈ M.q ++ M.ca, ∀ row : Nat → X,
      LaidRow (compiledCols T) (ca T.alts[j]) row → row t.data = .fin (x j t.data) := by
    intro j hj hav t ht row hrow
    obtain ⟨cols, hc, hd, n, hn, hdn⟩ := hterm t ht
    have hcc := hcols cols hc
    rw [hcc] at hrow
    obtain ⟨r, hr⟩ := hF.ca j hj hav n hn
    rw [hrow t.data hd, hx cols hc t.data hd j hj, hdn, hr]
    rfl
  have hAav : ∀ j, j < T.alts.length → A j = true → C.av j = true := by
    intro j hj hA
    cases hce : T.ce with
    | none => rw [← ((hdense hce).2 j hj).1]; exact hA
    | some cols =>
      obtain ⟨rows, -, -, h4⟩ := hsparse cols hce
      exact (((h4 j hj).1).1 hA).1
  have hO : Offers T.alts.length M C A x := by
    refine ⟨?_, ?_, ?_⟩
    · intro hce a ha
      cases hT : T.ce with
      | some cols =>
        obtain ⟨rows, h1, -⟩ := hsparse cols hT
        rw [h1] at hce; cases hce
      | none =>
        obtain ⟨h1, h2⟩ := (hdense hT).2 a ha
        refine ⟨h1, fun hA t ht => hval a ha (h1 ▸ hA) t ht _ ?_⟩
        have : compiledCols T = T.ca.getD [] := by unfold compiledCols; rw [hT]
        rw [this]; exact h2
    · intro rows hrows
      cases hT : T.ce with
      | none => rw [(hdense hT).1] at hrows; cases hrows
      | some cols =>
        obtain ⟨rows', h1, h2, h3⟩ := hsparse cols hT
        rw [h1, Option.some.injEq] at hrows
        subst hrows
        refine ⟨h2, fun a ha => ⟨(h3 a ha).1, fun row hrow hA t ht => hval a ha (((h3 a ha).1.1 hA).1) t ht row ?_⟩⟩
        have : compiledCols T = cols := by unfold compiledCols; rw [hT]
        rw [this]; exact (h3 a ha).2 row hrow
    · obtain ⟨L, hL, hf⟩ := hl.co
      intro t ht
      rw [hL, List.mem_flatten] at ht
      obtain ⟨l, hlm, htl⟩ := ht
      obtain ⟨e, he, a, ⟨ha, hae, -⟩, hel⟩ := forall₂_right hf hlm
      obtain ⟨n, hn, h1, -, -, h5⟩ := forall₂_right hel htl
      refine ⟨h1 ▸ ha, fun hav d hd => ?_⟩
      rcases h5 with ⟨-, h6⟩ | ⟨h5, d', h6, h7, h8⟩
      · rw [h6] at hd; cases hd
      · rw [h6, Option.some.injEq] at hd
        subst hd
        rw [hco _ h7, h8]
        exact hF.co e he a ha hae (h1 ▸ hav) n hn h5
  have hS : Sizes T.alts.length M θ A x := by
    intro hne a ha hA
    have hne' : S.q ≠ [] := fun hq => hne ((linked_q_nil hl).2 hq)
    have hp := hP hne' a ha (hAav a ha hA)
    have : size θ M.q (x a) = (S.q.map fun t => t.scale * Real.exp (v t.param) * (ca T.alts[a] t.data).toReal).sum := by
      unfold size
      cases hc : caOrCe T with
      | none => obtain ⟨-, -, h1, h2⟩ := hl.caNone hc; rw [h1, h2]; rfl
      | some cols =>
        refine forall₂_sum (hl.q cols hc) ?_
        rintro t c ⟨h1, ⟨h2, h3⟩, ⟨h4, h5⟩⟩
        rw [h1, hθ _ h2, h3, hx cols hc _ h4 a ha, h5]
    rw [this]; exact hp
  refine ⟨Larch.Compiled.shiftV T.alts.length A (utility M θ (coReal C) x), fun j hj => ?_⟩
  rw [(Larch.Compiled.assemble_real hO hS hold).1 j hj]
  unfold emb
  rw [linked_utility hl (v := v) (co := fun n => (co n).toReal) (ca := fun a n => (ca a n).toReal) hj hθ
    (fun k hk => by unfold coReal; rw [hco k hk]) (fun cols hc t _ hd => hx cols hc t.data hd j hj)]

/-- **C101 (linking succeeds), partial: without renamed parameters and with a quantity scale only beside quantities** (see
`C101_fails_rename`, `C101_fails_scale_alone`).  When the frame holds the scanned names and the data the named columns, the
numba engine accepts the specification, and so does the compiled one if there is case data or no case utility
(`C101_fails_constants`). -/
theorem C101_resolves_partial (T : Table) (S : NSpec) (hp : T.params.Nodup) (hscan : ∀ n ∈ scanNames id S, n ∈ T.params)
    (hscale : S.q = [] → S.qScale = none) (halts : T.alts.Nodup) (hcodes : ∀ e ∈ S.co, e.1 ∈ T.alts)
    (hco : ∀ e ∈ S.co, ∀ t ∈ e.2, t.data ≠ "1" → ∃ cols, T.co = some cols ∧ t.data ∈ cols)
    (hca : ∀ t ∈ S.q ++ S.ca, ∃ cols, (T.ca = some cols ∨ T.ca = none ∧ T.ce = some cols) ∧ cols.Nodup ∧ t.data ∈ cols) :
    (∃ M, numbaSlots T S = some M) ∧ (T.co.isSome ∨ S.co = [] → ∃ M, compiledSlots T S = some M) := by
  have hor : ∀ t ∈ S.q ++ S.ca, ∃ cols, caOrCe T = some cols ∧ cols.Nodup ∧ t.data ∈ cols := by
    intro t ht
    obtain ⟨cols, h1, h2⟩ := hca t ht
    refine ⟨cols, ?_, h2⟩
    unfold caOrCe
    rcases h1 with h1 | ⟨h1, h3⟩
    · rw [h1]
    · rw [h1]; exact h3
  have hpar : ∀ t ∈ S.q ++ S.ca, t.param ∈ T.params := by
    intro t ht
    apply hscan
    simp only [scanNames, id_eq, List.mem_append, List.mem_map, List.mem_flatMap]
    rcases List.mem_append.1 ht with ht | ht
    · exact Or.inl (Or.inr ⟨t, ht, rfl⟩)
    · exact Or.inl (Or.inl (Or.inr ⟨t, ht, rfl⟩))
  have hslot : ∀ t ∈ S.q ++ S.ca, ∃ c, caSlot T t = some c := by
    intro t ht
    obtain ⟨cols, h1, h2, h3⟩ := hor t ht
    obtain ⟨i, hi⟩ := getLoc_of_nodup hp (hpar t ht)
    obtain ⟨k, hk⟩ := getLoc_of_nodup h2 h3
    exact ⟨⟨t.scale, i, k⟩, by simp [caSlot, hi, h1, hk]⟩
  obtain ⟨ca, hca'⟩ := allOf_of_forall (fun t ht => hslot t (by simp [ht])) (l := S.ca)
  obtain ⟨q, hq'⟩ := allOf_of_forall (fun t ht => hslot t (by simp [ht])) (l := S.q)
  have hcoSlot : ∃ co, coSlots T S = some co := by
    obtain ⟨L, hL⟩ := allOf_of_forall (l := S.co) (f := fun e : Int × List NTerm => (getLoc T.alts e.1).bind fun a =>
      allOf (coSlot T.params (T.co.getD []) a) e.2) (by
        intro e he
        obtain ⟨a, ha⟩ := getLoc_of_nodup halts (hcodes e he)
        rw [ha]
        refine allOf_of_forall (f := coSlot T.params (T.co.getD []) a) ?_
        intro t ht
        have htp : t.param ∈ T.params := by
          apply hscan
          simp only [scanNames, id_eq, List.mem_append, List.mem_map, List.mem_flatMap]
          exact Or.inl (Or.inl (Or.inl ⟨e, he, t, ht, rfl⟩))
        obtain ⟨i, hi⟩ := dictLoc_of_mem htp
        by_cases h1 : t.data = "1"
        · exact ⟨_, by rw [coSlot, hi]; simp only [Option.bind_some, if_pos h1]; rfl⟩
        · obtain ⟨cols, hc, hm⟩ := hco e he t ht h1
          obtain ⟨k, hk⟩ := dictLoc_of_mem hm
          exact ⟨_, by rw [coSlot, hi, hc]; simp only [Option.bind_some, if_neg h1, Option.getD_some, hk, Option.map_some]; rfl⟩)
    exact ⟨L.flatten, by rw [coSlots, hL]; rfl⟩
  obtain ⟨co, hco'⟩ := hcoSlot
  have hsc : ∃ s, scaleSlot T S = some s := by
    unfold scaleSlot
    cases hS : S.qScale with
    | none => exact ⟨_, rfl⟩
    | some n =>
      have hq : S.q ≠ [] := fun hq => by rw [hscale hq] at hS; cases hS
      have hn : n ∈ T.params := by
        apply hscan
        simp only [scanNames, List.mem_append]
        right
        have : S.q.isEmpty = false := by simpa using hq
        rw [this, hS]; simp
      obtain ⟨i, hi⟩ := getLoc_of_nodup hp hn
      exact ⟨some i, by simp [hi]⟩
  obtain ⟨s, hs⟩ := hsc
  have hM : numbaSlots T S = some { q := q, qScale := s, ca := ca, co := co } := by
    simp [numbaSlots, hca', hco', hq', hs]
  refine ⟨⟨_, hM⟩, fun hcond => ⟨{ q := q, qScale := s, ca := ca, co := co }, ?_⟩⟩
  · unfold compiledSlots
    rw [if_pos, hM]
    have hall : ∀ l : List NTerm, (∀ t ∈ l, t ∈ S.q ++ S.ca) →
        (l.isEmpty || ((caOrCe T).any fun cols => l.all fun t => decide (t.data ∈ cols))) = true := by
      intro l hl
      cases l with
      | nil => rfl
      | cons t0 l =>
        obtain ⟨cols, h1, -, -⟩ := hor t0 (hl t0 (by simp))
        rw [h1]
        simp only [List.isEmpty_cons, Bool.false_or, Option.any_some, List.all_eq_true, decide_eq_true_eq]
        intro t ht
        obtain ⟨cols', h2, -, h3⟩ := hor t (hl t ht)
        rw [h1, Option.some.injEq] at h2
        rw [h2]; exact h3
    unfold sufficient
    rw [hall S.ca (fun t ht => by simp [ht]), hall S.q (fun t ht => by simp [ht]), Bool.true_and, Bool.true_and]
    rcases hcond with hcond | hcond
    · obtain ⟨cols, hc⟩ := Option.isSome_iff_exists.1 hcond
      rw [hc]
      simp only [Option.any_some, Bool.or_eq_true, List.all_eq_true, decide_eq_true_eq]
      right
      intro e he t ht
      by_cases h1 : t.data = "1"
      · exact Or.inr h1
      · obtain ⟨cols', h2, h3⟩ := hco e he t ht h1
        rw [hc, Option.some.injEq] at h2
        exact Or.inl (h2 ▸ h3)
    · rw [hcond]; rfl

/-- **C101 violated (sparse data in the numba engine).**  With `data_ce` and no `data_ca`, every `idca` position the numba engine
is given lies outside its (empty) data row: the kernel reads foreign memory. -/
theorem C101_fails_idce (T : Table) (S : NSpec) (M : Terms) (hca : T.ca = none) (_ : numbaSlots T S = some M) :
    ∀ t ∈ M.q ++ M.ca, numbaWidth T ≤ t.data := by
  intro t _
  simp [numbaWidth, hca]

/-- A specification of one `idca` term. -/
def costSpec : NSpec := { co := [], ca := [{ param := "b", data := "cost", scale := 1 }], q := [], qScale := none }

/-- ... which such data does not prevent. -/
example : ∃ M, numbaSlots { params := ["b"], alts := [1, 2], co := none, ca := none, ce := some ["cost"] } costSpec = some M ∧
    M.ca ≠ [] := ⟨_, rfl, by simp⟩

/-- **C101 violated (both tables).**  A `DataFrames` with `data_ca` and `data_ce` is accepted, and the compiled engine then reads
the column of `data_ce` at the place that `cost` has in `data_ca`: here, the time. -/
theorem C101_fails_both : ∃ T M t, T.ca = some ["cost", "time"] ∧ T.ce = some ["time", "cost"] ∧
    compiledSlots T costSpec = some M ∧ M.ca = [t] ∧ (compiledCols T)[t.data]? = some "time" := by
  refine ⟨⟨["b"], [1, 2], none, some ["cost", "time"], some ["time", "cost"]⟩, _, _, rfl, rfl, rfl, rfl, rfl⟩

/-- **C101 violated (constants only).**  A model whose case utilities are constants is refused when there is no case data
(by the check in `set_dataframes` of both engines), although it needs none and the positions could be computed. -/
theorem C101_fails_constants : ∃ (T : Table) (S : NSpec), (∀ e ∈ S.co, ∀ t ∈ e.2, t.data = "1") ∧
    (∃ M, numbaSlots T S = some M) ∧ compiledSlots T S = none := by
  refine ⟨{ params := ["asc", "b"], alts := [1, 2], co := none, ca := some ["cost"], ce := none },
    { costSpec with co := [(2, [{ param := "asc", data := "1", scale := 1 }])] }, by simp, ⟨_, rfl⟩, rfl⟩

/-- **C101 violated (renamed parameters).**  When `rename_parameters` maps a parameter of the specification to another name, the
scan puts only the new name in the frame and linking raises `KeyError`. -/
theorem C101_fails_rename : 
    numbaSlots ⟨scanNames (fun n => if n = "b" then "beta" else n) costSpec, [1, 2], none, some ["cost"], none⟩ costSpec = none := by
  simp [numbaSlots, costSpec, scanNames, allOf, caSlot, getLoc]

/-- **C101 violated (quantity scale without quantities).**  The name of the scale is not scanned, and linking raises
`KeyError`. -/
theorem C101_fails_scale_alone : 
    numbaSlots ⟨scanNames id { costSpec with qScale := some "theta" }, [1, 2], none, some ["cost"], none⟩
      { costSpec with qScale := some "theta" } = none := by
  simp [numbaSlots, costSpec, scanNames, allOf, caSlot, getLoc, caOrCe, coSlots, scaleSlot]

/-! ### A concrete case -/

/-- Two alternatives, a constant and an income effect for the second one, a cost coefficient, and sizes. -/
def modeSpec : NSpec :=
  { co := [(2, [{ param := "asc", data := "1", scale := 1 }, { param := "inc", data := "income", scale := 1 }])]
    ca := [{ param := "cost", data := "tottime", scale := 2 }]
    q := [{ param := "emp", data := "jobs", scale := 1 }]
    qScale := some "theta" }

def modeTable : Table :=
  { params := ["asc", "cost", "emp", "inc", "theta"], alts := [1, 2], co := some ["age", "income"], ca := some ["jobs", "tottime"],
    ce := none }

/-- The arrays of a case: `age` is missing (NaN) and not used. -/
noncomputable def modeCase : Case where
  ch := fun _ => 0
  av := fun _ => true
  wt := 1
  co := fun k => if k = 0 then .nan else .fin 7
  ca := fun j k => if k = 0 then .fin (10 + j) else .fin (20 + j)
  ce := none

noncomputable def modeCo : String → X := fun n => if n = "income" then .fin 7 else .nan
noncomputable def modeCa : Int → String → X := fun a n =>
  if n = "jobs" then .fin (if a = 1 then 10 else 11) else if n = "tottime" then .fin (if a = 1 then 20 else 21) else .nan

theorem modeFinite : NFinite modeSpec modeTable.alts modeCase.av modeCo modeCa := by
  refine ⟨?_, ?_⟩
  · intro j hj _ t ht
    simp only [modeSpec, List.singleton_append, List.mem_cons, List.not_mem_nil, or_false] at ht
    rcases ht with rfl | rfl
    · exact ⟨_, by simp only [modeCa, if_true]; rfl⟩
    · refine ⟨if modeTable.alts[j] = 1 then 20 else 21, ?_⟩
      simp [modeCa]
  · intro e he j hj _ _ t ht h1
    simp only [modeSpec, List.mem_cons, List.not_mem_nil, or_false] at he
    subst he
    simp only [List.mem_cons, List.not_mem_nil, or_false] at ht
    rcases ht with rfl | rfl
    · exact absurd rfl h1
    · exact ⟨7, by simp [modeCo]⟩

theorem modePositive (v : String → ℝ) : NPositive modeSpec modeTable.alts modeCase.av v modeCa := by
  intro _ j hj _
  simp only [modeSpec, List.map_cons, List.map_nil, List.sum_cons, List.sum_nil, modeCa, if_true, X.toReal]
  have := Real.exp_pos (v "emp")
  split_ifs <;> positivity

/-- The conclusion for it. -/
example (v : String → ℝ) (θ : Nat → ℝ) (hold : Nat → Bool) (hθ : LaidParams modeTable v θ) : ∃ M, numbaSlots modeTable modeSpec = some M ∧
    (assemble θ hold 2 M modeCase).U 1 =
      .fin (nUtility modeSpec v (fun n => (modeCo n).toReal) (fun a n => (modeCa a n).toReal) 2) := by
  refine ⟨_, rfl, ?_⟩
  have := C101_numba_utility_partial (T := modeTable) (S := modeSpec) rfl (Or.inl rfl) v modeCo modeCa θ hold modeCase rfl hθ
    (by
      intro k hk
      simp only [modeTable, Option.getD_some, List.length_cons, List.length_nil] at hk
      rcases k with _ | _ | k
      · simp [modeTable, modeCase, modeCo]
      · simp [modeTable, modeCase, modeCo]
      · omega)
    (by
      intro j hj k hk
      simp only [modeTable, Option.getD_some, List.length_cons, List.length_nil] at hk hj
      rcases j with _ | _ | j
      · rcases k with _ | _ | k
        · simp [modeTable, modeCase, modeCa]
        · simp [modeTable, modeCase, modeCa]
        · omega
      · rcases k with _ | _ | k
        · simp [modeTable, modeCase, modeCa]; norm_num
        · simp [modeTable, modeCase, modeCa]; norm_num
        · omega
      · omega)
    modeFinite (modePositive v) 1 (by simp [modeTable])
  exact this

end Larch.Props
