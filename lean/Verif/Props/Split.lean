import Verif.Lemmas.Frames
import Verif.Spec.Weights
import Mathlib.Algebra.Order.BigOperators.Group.List
import Mathlib.Algebra.BigOperators.Ring.List
import Mathlib.Algebra.Order.Floor.Semiring
import Mathlib.Data.List.Perm.Basic
import Mathlib.Tactic.Linarith
import Mathlib.Tactic.FieldSimp
import Mathlib.Tactic.Ring

/-!
# C78: splitting a `DataFrames`
-/

namespace Larch.Props

open Larch.Frames

section
set_option linter.unusedSectionVars false
variable {K : Type} [Field K] [LinearOrder K] [IsStrictOrderedRing K]

/-- Relative sizes: not negative, not all zero. -/
def Sizes78 (l : List K) : Prop := (∀ x ∈ l, 0 ≤ x) ∧ 0 < l.sum

theorem cum_eq (l : List K) (s : Nat) : cumShare l s = (l.take (s + 1)).sum / l.sum := by
  unfold cumShare
  generalize l.sum = t
  generalize l.take (s + 1) = m
  induction m with
  | nil => simp
  | cons a m ih => simp [ih, add_div]

theorem cum_mono {l : List K} (h : Sizes78 l) {s t : Nat} (hst : s ≤ t) : cumShare l s ≤ cumShare l t := by
  rw [cum_eq, cum_eq]
  apply div_le_div_of_nonneg_right _ h.2.le
  have : l.take (s + 1) = (l.take (t + 1)).take (s + 1) := by rw [List.take_take]; congr 1; omega
  rw [this]
  have hs := List.sum_take_add_sum_drop (l.take (t + 1)) (s + 1)
  have hd : 0 ≤ ((l.take (t + 1)).drop (s + 1)).sum :=
    List.sum_nonneg (fun x hx => h.1 x (List.mem_of_mem_take (List.mem_of_mem_drop hx)))
  linarith

theorem cum_last {l : List K} (h : Sizes78 l) {s : Nat} (hs : l.length ≤ s + 1) : cumShare l s = 1 := by
  rw [cum_eq, List.take_of_length_le hs, div_self h.2.ne']

theorem cum_succ {l : List K} {s : Nat} (hs : s + 1 < l.length) : cumShare l (s + 1) = cumShare l s + l[s + 1] / l.sum := by
  have ht : l.take (s + 1 + 1) = l.take (s + 1) ++ [l[s + 1]] := by rw [List.take_succ_eq_append_getElem hs]
  rw [cum_eq, cum_eq, ht, List.sum_append, List.sum_singleton, add_div]

/-- Lower end of part `s`. -/
def lowShare (l : List K) : Nat → K
  | 0 => 0
  | s + 1 => cumShare l s

theorem member_iff {l : List K} (h : Sizes78 l) (u : Nat → K) (i s : Nat) (hu : 0 ≤ u i) :
    member l u i s = true ↔ lowShare l s ≤ u i ∧ u i < cumShare l s := by
  cases s with
  | zero => simp [member, lowShare, hu]
  | succ s =>
    have := cum_mono h (Nat.le_succ s)
    simp only [member, lowShare]
    by_cases h1 : u i < cumShare l (s + 1) <;> by_cases h2 : u i < cumShare l s
    · simp [h1, h2]
    · simp [h1, h2]; exact not_lt.mp h2
    · exact absurd (lt_of_lt_of_le h2 this) h1
    · simp [h1, h2]

/-- The order produced by a shuffle, or none at all. -/
def Order78 (n : Nat) (perm : Nat → Nat) : Prop := (∀ i < n, perm i < n) ∧ ∀ i < n, ∀ j < n, perm i = perm j → i = j

theorem uniform_range {n : Nat} {perm : Nat → Nat} (hp : Order78 n perm) {i : Nat} (hi : i < n) :
    0 ≤ uniformSeq (K := K) n perm i ∧ uniformSeq (K := K) n perm i < 1 := by
  unfold uniformSeq
  have hn : (0 : K) < n := by exact_mod_cast (by omega : 0 < n)
  refine ⟨by positivity, ?_⟩
  rw [div_lt_one hn]
  exact_mod_cast hp.1 i hi

theorem parts_exist {l : List K} (h : Sizes78 l) : 0 < l.length := by
  rcases l with _ | ⟨a, l⟩
  · exact absurd h.2 (by simp)
  · simp

/-- **C78 (partition).** Every case belongs to exactly one of the parts, whatever the (non-negative) sizes and the method. -/
theorem C78_partition (l : List K) (h : Sizes78 l) (n : Nat) (perm : Nat → Nat) (hp : Order78 n perm) (i : Nat) (hi : i < n) :
    ∃! s, s < l.length ∧ member l (uniformSeq n perm) i s = true := by
  obtain ⟨hu0, hu1⟩ := uniform_range (K := K) hp hi
  have hk := parts_exist h
  have hex : ∃ s, uniformSeq (K := K) n perm i < cumShare l s := ⟨l.length - 1, by rw [cum_last h (by omega)]; exact hu1⟩
  classical
  have hfind := Nat.find_spec hex
  set s0 := Nat.find hex with hs0
  have hlow : lowShare l s0 ≤ uniformSeq (K := K) n perm i := by
    cases hc : s0 with
    | zero => exact hu0
    | succ t =>
      have := Nat.find_min hex (m := t) (by rw [← hs0, hc]; omega)
      exact not_lt.mp this
  refine ⟨s0, ⟨?_, (member_iff h _ i s0 hu0).mpr ⟨hlow, hfind⟩⟩, ?_⟩
  · have : s0 ≤ l.length - 1 := Nat.find_min' hex (by rw [cum_last h (by omega)]; exact hu1)
    omega
  · rintro t ⟨_, ht⟩
    obtain ⟨h1, h2⟩ := (member_iff h _ i t hu0).mp ht
    have hle : s0 ≤ t := Nat.find_min' hex h2
    by_contra hne
    have hlt : s0 < t := by omega
    have : cumShare l s0 ≤ lowShare l t := by
      cases t with
      | zero => omega
      | succ t => exact cum_mono h (by omega)
    linarith

/-- **C78 (blocks).** Without shuffling, the parts are consecutive blocks of cases, in the order of the sizes. -/
theorem C78_blocks (l : List K) (h : Sizes78 l) (n i j s t : Nat) (hj : j < n) (hij : i ≤ j)
    (hi : member l (uniformSeq n id) i s = true) (ht : member l (uniformSeq n id) j t = true) : s ≤ t := by
  have hp : Order78 n id := ⟨fun i hi => hi, fun _ _ _ _ e => e⟩
  obtain ⟨a1, _⟩ := (member_iff h _ i s (uniform_range hp (by omega)).1).mp hi
  obtain ⟨_, b2⟩ := (member_iff h _ j t (uniform_range hp hj).1).mp ht
  by_contra hlt
  have hn : (0 : K) < n := by exact_mod_cast (by omega : 0 < n)
  have hu : uniformSeq (K := K) n id i ≤ uniformSeq n id j := by
    unfold uniformSeq
    exact div_le_div_of_nonneg_right (by exact_mod_cast hij) hn.le
  have : cumShare l t ≤ lowShare l s := by
    cases s with
    | zero => omega
    | succ s => exact cum_mono h (by omega)
  linarith

theorem count_below [FloorSemiring K] (n : Nat) (perm : Nat → Nat) (hp : Order78 n perm) (c : K) (h1 : c ≤ 1) :
    ((Finset.range n).filter (fun i => uniformSeq (K := K) n perm i < c)).card = ⌈(n : K) * c⌉₊ := by
  rcases Nat.eq_zero_or_pos n with rfl | hpos
  · simp
  have hn : (0 : K) < n := by exact_mod_cast hpos
  have hinj : Set.InjOn perm (Finset.range n : Set Nat) := fun i hi j hj e =>
    hp.2 i (by simpa using hi) j (by simpa using hj) e
  have himg : (Finset.range n).image perm = Finset.range n := by
    apply Finset.eq_of_subset_of_card_le
    · intro k hk
      obtain ⟨i, hi, rfl⟩ := Finset.mem_image.mp hk
      exact Finset.mem_range.mpr (hp.1 i (Finset.mem_range.mp hi))
    · rw [Finset.card_image_of_injOn hinj]
  have : ((Finset.range n).filter (fun i => uniformSeq (K := K) n perm i < c)).image perm = Finset.range ⌈(n : K) * c⌉₊ := by
    ext k
    simp only [Finset.mem_image, Finset.mem_filter, Finset.mem_range]
    constructor
    · rintro ⟨i, ⟨hi, hlt⟩, rfl⟩
      rw [Nat.lt_ceil]
      unfold uniformSeq at hlt
      rw [div_lt_iff₀ hn] at hlt
      linarith
    · intro hk
      rw [Nat.lt_ceil] at hk
      have hkn : k < n := by
        have : (k : K) < n := lt_of_lt_of_le hk (by nlinarith)
        exact_mod_cast this
      have : k ∈ (Finset.range n).image perm := by rw [himg]; exact Finset.mem_range.mpr hkn
      obtain ⟨i, hi, rfl⟩ := Finset.mem_image.mp this
      refine ⟨i, ⟨Finset.mem_range.mp hi, ?_⟩, rfl⟩
      unfold uniformSeq
      rw [div_lt_iff₀ hn]
      linarith
  rw [← Finset.card_range ⌈(n : K) * c⌉₊, ← this, Finset.card_image_of_injOn]
  exact hinj.mono (fun i hi => by simp at hi ⊢; exact hi.1)

/-- **C78 (sizes).** The number of cases of a part differs from its exact share of the cases by less than one. -/
theorem C78_sizes [FloorSemiring K] (l : List K) (h : Sizes78 l) (n : Nat) (perm : Nat → Nat) (hp : Order78 n perm) (s : Nat)
    (hs : s < l.length) :
    |(((Finset.range n).filter (fun i => member l (uniformSeq n perm) i s = true)).card : K) - n * (l[s] / l.sum)| < 1 := by
  have hlow0 : 0 ≤ lowShare l s := by
    cases s with
    | zero => exact le_refl _
    | succ s =>
      show 0 ≤ cumShare l s
      rw [cum_eq]
      exact div_nonneg (List.sum_nonneg (fun x hx => h.1 x (List.mem_of_mem_take hx))) h.2.le
  have hle : lowShare l s ≤ cumShare l s := by
    cases s with
    | zero =>
      show 0 ≤ cumShare l 0
      rw [cum_eq]
      exact div_nonneg (List.sum_nonneg (fun x hx => h.1 x (List.mem_of_mem_take hx))) h.2.le
    | succ s => exact cum_mono h (by omega)
  have hone : cumShare l s ≤ 1 := by
    rw [← cum_last h (s := l.length - 1) (by omega)]
    exact cum_mono h (by omega)
  have hdiff : cumShare l s - lowShare l s = l[s] / l.sum := by
    cases s with
    | zero =>
      show cumShare l 0 - 0 = _
      rcases l with _ | ⟨a, l⟩
      · simp at hs
      · simp [cum_eq]
    | succ s =>
      show cumShare l (s + 1) - cumShare l s = _
      rw [cum_succ hs]; ring
  have hcard : ((Finset.range n).filter (fun i => member l (uniformSeq n perm) i s = true)).card +
      ⌈(n : K) * lowShare l s⌉₊ = ⌈(n : K) * cumShare l s⌉₊ := by
    rw [← count_below n perm hp (lowShare l s) (hle.trans hone), ← count_below n perm hp (cumShare l s) hone]
    rw [← Finset.card_union_of_disjoint]
    · congr 1
      ext i
      simp only [Finset.mem_union, Finset.mem_filter, Finset.mem_range]
      constructor
      · rintro (⟨hi, hm⟩ | ⟨hi, hm⟩)
        · exact ⟨hi, ((member_iff h _ i s (uniform_range hp hi).1).mp hm).2⟩
        · exact ⟨hi, lt_of_lt_of_le hm hle⟩
      · rintro ⟨hi, hm⟩
        rcases lt_or_ge (uniformSeq (K := K) n perm i) (lowShare l s) with h1 | h1
        · exact Or.inr ⟨hi, h1⟩
        · exact Or.inl ⟨hi, (member_iff h _ i s (uniform_range hp hi).1).mpr ⟨h1, hm⟩⟩
    · rw [Finset.disjoint_left]
      intro i hi hj
      simp only [Finset.mem_filter, Finset.mem_range] at hi hj
      exact absurd hj.2 (not_lt.mpr ((member_iff h _ i s (uniform_range hp hi.1).1).mp hi.2).1)
  have hcard' := congrArg (Nat.cast (R := K)) hcard
  push_cast at hcard'
  have hnn : (0 : K) ≤ n := Nat.cast_nonneg n
  have c1 := Nat.ceil_lt_add_one (mul_nonneg hnn hlow0)
  have c2 := Nat.le_ceil ((n : K) * lowShare l s)
  have c3 := Nat.ceil_lt_add_one (mul_nonneg hnn (hlow0.trans hle))
  have c4 := Nat.le_ceil ((n : K) * cumShare l s)
  rw [← hdiff, abs_lt]
  constructor <;> nlinarith

/-! ## The parts -/

theorem mapM_ok {α β E : Type} (g : α → Except E β) : ∀ (L : List α) (parts : List β), L.mapM g = .ok parts →
    List.Forall₂ (fun a b => g a = .ok b) L parts := by
  intro L
  induction L with
  | nil => intro parts h; simp [pure, Except.pure] at h; subst h; exact .nil
  | cons a L ih =>
    intro parts h
    rw [List.mapM_cons] at h
    cases hg : g a with
    | error e => rw [hg] at h; simp [bind, Except.bind] at h
    | ok b =>
      rw [hg] at h
      cases hm : L.mapM g with
      | error e => rw [hm] at h; simp [bind, Except.bind] at h
      | ok bs =>
        rw [hm] at h
        simp [bind, Except.bind, pure, Except.pure] at h
        subst h
        exact .cons hg (ih bs hm)

theorem forall2_flatMap {α β γ : Type} {R : α → β → Prop} {L : List α} {M : List β} (h : List.Forall₂ R L M) (q : α → List γ)
    (pr : β → List γ) (hq : ∀ a b, R a b → pr b = q a) : M.flatMap pr = L.flatMap q := by
  induction h with
  | nil => rfl
  | cons h1 _ ih => rw [List.flatMap_cons, List.flatMap_cons, ih, hq _ _ h1]

theorem forall2_mem {α β : Type} {R : α → β → Prop} {L : List α} {M : List β} (h : List.Forall₂ R L M) {b : β} (hb : b ∈ M) :
    ∃ a, R a b := by
  induction h with
  | nil => simp at hb
  | cons h1 _ ih =>
    rcases List.mem_cons.mp hb with rfl | hb
    · exact ⟨_, h1⟩
    · exact ih hb

variable {α : Type}

/-- Parts of a split, with what they were built from. -/
theorem split_parts {d : DF α} {l : List K} {perm : Nat → Nat} {parts : List (DF α)} (h : split d (.inr l) perm = .ok parts) :
    List.Forall₂ (fun s p => build (partArgs d (fun i => member l (uniformSeq (nCases d) perm) i s)) = some p)
      (List.range l.length) parts := by
  unfold split shares at h
  dsimp only at h
  split_ifs at h
  have := mapM_ok _ _ _ h
  refine this.imp (fun s p hs => ?_)
  cases hb : build (partArgs d (fun i => member l (uniformSeq (nCases d) perm) i s)) with
  | none => rw [hb] at hs; simp at hs
  | some q => rw [hb] at hs; simp at hs; rw [hs]

/-- A frame of the cases that the container holds (in increasing order of cases where it sorts them). -/
structure CaseFrame (d : DF α) (get : DF α → Option (Co α)) (f : Co α) : Prop where
  has : get d = some f
  length : f.length = nCases d

/-- The four frames of the cases. -/
inductive Accessor : (DF α → Option (Co α)) → Prop
  | co : Accessor DF.co
  | ch : Accessor DF.ch
  | av : Accessor DF.av
  | wt : Accessor DF.wt

theorem part_frame {d p : DF α} {m : Nat → Bool} (h : build (partArgs d m) = some p) {get : DF α → Option (Co α)} (ha : Accessor get)
    {f : Co α} (hf : get d = some f) (hmono : isMono (f.map Prod.fst) = true) : get p = some (pickCo f m) := by
  obtain ⟨b1, b2, b3, b4, _⟩ := build_spec h
  cases ha with
  | co => rw [b1]; simp only [partArgs, hf, Option.map_some]; rw [setSorted_of_sublist hmono (pickCo_sublist f m)]
  | ch => rw [b2]; simp only [partArgs, hf, Option.map_some]; rw [setSorted_of_sublist hmono (pickCo_sublist f m)]
  | av => rw [b3]; simp only [partArgs, hf, Option.map_some]; rw [setSorted_of_sublist hmono (pickCo_sublist f m)]
  | wt => rw [b4]; simp only [partArgs, hf, Option.map_some]

/-- **C78 (rows of the cases).** The parts together hold every row of each frame of the cases (attributes, choices, availability,
weights) exactly once; without shuffling, one after the other in the original order. -/
theorem C78_case_rows (d : DF α) (l : List K) (h : Sizes78 l) (perm : Nat → Nat) (hp : Order78 (nCases d) perm) (parts : List (DF α))
    (hs : split d (.inr l) perm = .ok parts) (get : DF α → Option (Co α)) (ha : Accessor get) (f : Co α)
    (hf : CaseFrame d get f) (hmono : isMono (f.map Prod.fst) = true) :
    parts.length = l.length ∧ (parts.flatMap (fun p => (get p).getD [])).Perm f ∧
    (perm = id → parts.flatMap (fun p => (get p).getD []) = f) := by
  have hsp := split_parts hs
  have heq := forall2_flatMap hsp (fun s => pickCo f (fun i => member l (uniformSeq (nCases d) perm) i s))
    (fun p => (get p).getD []) (fun s p hb => by rw [part_frame hb ha hf.has hmono]; rfl)
  have hpart : ∀ i < f.length, ∃! s, s < l.length ∧ member l (uniformSeq (nCases d) perm) i s = true :=
    fun i hi => C78_partition l h (nCases d) perm hp i (hf.length ▸ hi)
  refine ⟨?_, ?_, ?_⟩
  · have := hsp.length_eq; simpa using this.symm
  · rw [heq]
    exact pickCo_perm f l.length (fun s i => member l (uniformSeq (nCases d) perm) i s) hpart
  · rintro rfl
    rw [heq]
    exact pickCo_eq f l.length (fun s i => member l (uniformSeq (nCases d) id) i s) hpart
      (fun i j hij hj s t h1 h2 => C78_blocks l h (nCases d) i j s t (hf.length ▸ hj) hij h1 h2)

/-- Rows of the alternatives that a container holds, in whichever format. -/
def altRows (d : DF α) : List ((Int × Int) × α) :=
  match d.ca, d.ce with
  | some f, _ => f.rows
  | none, some f => f.rows
  | none, none => []

theorem setCe_rows {g : MF α} (h : isMonoLex (g.rows.map Prod.fst) = true) : setCe g = g := by
  unfold setCe; rw [if_pos h]

theorem part_rows {d p : DF α} {m : Nat → Bool} (h : build (partArgs d m) = some p) {g : MF α}
    (hg : d.ca = some g ∨ d.ca = none ∧ d.ce = some g) (hmono : isMonoLex (g.rows.map Prod.fst) = true) :
    altRows p = g.rows.filter (fun r => decide (code0 g r.1.1 < nCases d) && m (code0 g r.1.1)) := by
  obtain ⟨_, _, _, _, b5, _⟩ := build_spec h
  have key : ∀ q : MF α, (partArgs d m).mf = some q → q.rows = (pickMF g (nCases d) m).rows → altRows p = q.rows := by
    intro q hq hr
    obtain ⟨_, c1, c2⟩ := b5 q hq
    have hm : isMonoLex (q.rows.map Prod.fst) = true := by
      rw [hr]
      unfold isMonoLex at *
      rw [decide_eq_true_eq] at *
      exact hmono.sublist (List.filter_sublist.map _)
    cases hi : isIdce q with
    | true => obtain ⟨e1, e2⟩ := c1 hi; simp [altRows, e1, e2, setCe_rows hm]
    | false => obtain ⟨e1, e2⟩ := c2 hi; simp [altRows, e1]
  rcases hg with hg | ⟨hg0, hg⟩
  · exact key (pickMF g (nCases d) m) (by simp [partArgs, hg]) rfl
  · have hsh : (shrink0 (pickMF g (nCases d) m)).rows = (pickMF g (nCases d) m).rows := by
      unfold shrink0; split <;> rfl
    rw [key (shrink0 (pickMF g (nCases d) m)) (by simp [partArgs, hg0, hg]) hsh, hsh]
    rfl

/-- **C78 (rows of the alternatives), when every level is used.** If the case levels of the alternatives' frame are the cases of the
container (each with rows or not, in this order), then every row goes to the part that has its case, and only there.  Frames that
keep levels without rows are the failing case (`C78_fails_unused_level`). -/
theorem C78_alternative_rows_partial (d : DF α) (l : List K) (h : Sizes78 l) (perm : Nat → Nat) (hp : Order78 (nCases d) perm)
    (parts : List (DF α)) (hs : split d (.inr l) perm = .ok parts) (f : Co α) (hf : CaseFrame d DF.co f)
    (hmono : isMono (f.map Prod.fst) = true) (hnd : (f.map Prod.fst).Nodup) (g : MF α)
    (hg : d.ca = some g ∨ d.ca = none ∧ d.ce = some g) (hgm : isMonoLex (g.rows.map Prod.fst) = true)
    (hlev : g.lev0 = f.map Prod.fst) (hrows : ∀ r ∈ g.rows, r.1.1 ∈ g.lev0) :
    (parts.flatMap altRows).Perm g.rows ∧
    ∀ p ∈ parts, ∀ r, r ∈ altRows p ↔ r ∈ g.rows ∧ r.1.1 ∈ ((p.co.getD []).map Prod.fst) := by
  have hsp := split_parts hs
  have heq := forall2_flatMap hsp (fun s => g.rows.filter (fun r => decide (code0 g r.1.1 < nCases d) &&
      member l (uniformSeq (nCases d) perm) (code0 g r.1.1) s)) altRows (fun s p hb => part_rows hb hg hgm)
  have hlt : ∀ r ∈ g.rows, code0 g r.1.1 < nCases d := by
    intro r hr
    have h1 := List.idxOf_lt_length_of_mem (hrows r hr)
    rw [hlev, List.length_map, hf.length] at h1
    unfold code0
    rw [hlev]; exact h1
  constructor
  · rw [heq]
    apply perm_parts g.rows l.length
    intro r hr
    have := C78_partition l h (nCases d) perm hp _ (hlt r hr)
    simpa [hlt r hr] using this
  · intro p hpm r
    obtain ⟨s, hb⟩ : ∃ s, build (partArgs d (fun i => member l (uniformSeq (nCases d) perm) i s)) = some p := forall2_mem hsp hpm
    rw [part_rows hb hg hgm, part_frame hb .co hf.has hmono]
    simp only [Option.getD_some, List.mem_filter, Bool.and_eq_true, decide_eq_true_eq, List.mem_map]
    constructor
    · rintro ⟨hr, _, hm⟩
      refine ⟨hr, ?_⟩
      have h1 := List.idxOf_lt_length_of_mem (hrows r hr)
      have h2 : g.lev0[g.lev0.idxOf r.1.1]? = some r.1.1 := by
        rw [List.getElem?_eq_getElem h1, List.getElem_idxOf]
      rw [hlev, List.getElem?_map, Option.map_eq_some_iff] at h2
      obtain ⟨x, hx1, hx2⟩ := h2
      refine ⟨x, (mem_pickCo f _ x).mpr ⟨_, hx1, ?_⟩, hx2⟩
      rw [← hlev]
      exact hm
    · rintro ⟨hr, x, hx, hxr⟩
      refine ⟨hr, hlt r hr, ?_⟩
      obtain ⟨i, hi, hm⟩ := (mem_pickCo f _ x).mp hx
      have : code0 g r.1.1 = i := by
        unfold code0
        rw [hlev, ← hxr]
        have hi' : (f.map Prod.fst)[i]? = some x.1 := by rw [List.getElem?_map, hi]; rfl
        obtain ⟨hl, he⟩ := List.getElem?_eq_some_iff.mp hi'
        rw [← he]
        exact hnd.idxOf_getElem i hl
      rw [this]; exact hm

end

/-! ## Witnesses -/

/-- Four cases, three alternatives, attributes of both (one number per row). -/
def demoArgs : Args Nat where
  co := some [(4, 0), (5, 1), (7, 2), (9, 3)]
  mf := some ⟨[4, 5, 7, 9], [1, 2], [((4, 1), 0), ((4, 2), 1), ((5, 1), 2), ((7, 1), 4), ((7, 2), 5), ((9, 2), 7)], 1⟩
  ch := some [(9, 3), (7, 2), (5, 1), (4, 0)]
  av := none
  wt := some [(4, 10), (5, 11), (7, 12), (9, 13)]

theorem sizes_demo : Sizes78 ([1, 2] : List ℚ) := ⟨by intro x hx; simp at hx; rcases hx with rfl | rfl <;> norm_num, by norm_num⟩

/-- Labels of the cases and of the rows of the alternatives, part by part. -/
def partLabels (r : Except SplitErr (List (DF Nat))) : Option (List (List Int × List (Int × Int))) :=
  match r with
  | .ok ps => some (ps.map (fun p => (((p.co.getD []).map Prod.fst), (altRows p).map Prod.fst)))
  | .error _ => none

/-- The split of the example in proportion 1:2. -/
example : (build demoArgs).bind (fun d => partLabels (split d (.inr ([1, 2] : List ℚ)) id)) =
    some [([4, 5], [(4, 1), (4, 2), (5, 1)]), ([7, 9], [(7, 1), (7, 2), (9, 2)])] := by decide +kernel

theorem demo_isSome : (build demoArgs).isSome = true := by decide +kernel

def demoDF : DF Nat := (build demoArgs).get demo_isSome

/-- The hypotheses of `C78_case_rows` and `C78_alternative_rows_partial` are met by it. -/
example : ∃ (d : DF Nat) (parts : List (DF Nat)) (f : Co Nat) (g : MF Nat), build demoArgs = some d ∧
    split d (.inr ([1, 2] : List ℚ)) id = .ok parts ∧ Order78 (nCases d) id ∧ CaseFrame d DF.co f ∧
    isMono (f.map Prod.fst) = true ∧ (f.map Prod.fst).Nodup ∧ d.ca = none ∧ d.ce = some g ∧
    isMonoLex (g.rows.map Prod.fst) = true ∧ g.lev0 = f.map Prod.fst ∧ ∀ r ∈ g.rows, r.1.1 ∈ g.lev0 := by
  have h2 : demoDF.co = some [(4, 0), (5, 1), (7, 2), (9, 3)] := by decide +kernel
  have h3 : (demoDF.ce.map (fun g => (g.lev0, g.rows))) =
    some ([4, 5, 7, 9], [((4, 1), 0), ((4, 2), 1), ((5, 1), 2), ((7, 1), 4), ((7, 2), 5), ((9, 2), 7)]) := by decide +kernel
  obtain ⟨g, hg, hg2⟩ := Option.map_eq_some_iff.mp h3
  have hg0 : g.lev0 = [4, 5, 7, 9] := congrArg Prod.fst hg2
  have hg1 : g.rows = [((4, 1), 0), ((4, 2), 1), ((5, 1), 2), ((7, 1), 4), ((7, 2), 5), ((9, 2), 7)] := congrArg Prod.snd hg2
  have h4 : ∃ parts, split demoDF (.inr ([1, 2] : List ℚ)) id = .ok parts := by
    cases h : split demoDF (.inr ([1, 2] : List ℚ)) id with
    | ok ps => exact ⟨ps, rfl⟩
    | error e =>
      have : partLabels (split demoDF (.inr ([1, 2] : List ℚ)) id) ≠ none := by decide +kernel
      rw [h] at this; exact absurd rfl this
  obtain ⟨parts, hp⟩ := h4
  refine ⟨demoDF, parts, _, g, (Option.some_get _).symm, hp, ⟨fun _ h => h, fun _ _ _ _ h => h⟩,
    ⟨h2, by decide +kernel⟩, by decide +kernel, by decide +kernel, Option.isNone_iff_eq_none.mp (by decide +kernel), hg,
    by rw [hg1]; decide +kernel, by rw [hg0]; rfl, by rw [hg0, hg1]; decide +kernel⟩

/-- The same data after the rows of case 5 were removed from both frames: pandas keeps level 5. -/
def filteredArgs : Args Nat where
  co := some [(4, 0), (7, 2), (9, 3)]
  mf := some ⟨[4, 5, 7, 9], [1, 2], [((4, 1), 0), ((4, 2), 1), ((7, 1), 4), ((7, 2), 5), ((9, 2), 7)], 1⟩
  ch := none
  av := none
  wt := none

/-- **C78 fails when a case level has no rows** (as after selecting rows of a frame): case 9 loses its rows, and those of case 7 go to the
part of case 9. -/
theorem C78_fails_unused_level : (build filteredArgs).bind (fun d => partLabels (split d (.inr ([1, 1, 1] : List ℚ)) id)) =
    some [([4], [(4, 1), (4, 2)]), ([7], []), ([9], [(7, 1), (7, 2)])] := by decide +kernel

/-- Complete (idca) data of four cases. -/
def fullArgs : Args Nat where
  co := some [(1, 0), (2, 0), (3, 0), (4, 0)]
  mf := some ⟨[1, 2, 3, 4], [1, 2], [((1, 1), 0), ((1, 2), 0), ((2, 1), 0), ((2, 2), 0), ((3, 1), 0), ((3, 2), 0), ((4, 1), 0), ((4, 2), 0)], 1⟩
  ch := none
  av := none
  wt := none

/-- The second part of a split in two. -/
def second (d : DF Nat) : Option (DF Nat) :=
  match split d (.inr ([1, 1] : List ℚ)) id with
  | .ok ps => ps[1]?
  | .error _ => none

/-- **C78 fails for idca data**: a part holds its data as idce (`data_ca` is `None`), and splitting the second part again loses all the
rows of its alternatives. -/
theorem C78_fails_resplit : ∃ d d2, build fullArgs = some d ∧ d.ca.isSome = true ∧ second d = some d2 ∧ d2.ca.isSome = false ∧
    altRows d2 = [((3, 1), 0), ((3, 2), 0), ((4, 1), 0), ((4, 2), 0)] ∧
    partLabels (split d2 (.inr ([1, 1] : List ℚ)) id) = some [([3], []), ([4], [])] := by
  refine ⟨(build fullArgs).get (by decide +kernel), (second ((build fullArgs).get (by decide +kernel))).get (by decide +kernel),
    (Option.some_get _).symm, by decide +kernel, (Option.some_get _).symm, by decide +kernel, by decide +kernel, by decide +kernel⟩

/-- Splitting into at most one part is refused. -/
theorem C78_too_few {K : Type} [Field K] [LinearOrder K] {α : Type} (d : DF α) (arg : Int ⊕ List K) (perm : Nat → Nat)
    (h : match arg with | .inl k => k ≤ 1 | .inr l => l.length ≤ 1) : ∃ e, split d arg perm = .error e := by
  unfold split shares
  cases arg with
  | inl k =>
    dsimp only at h ⊢
    split_ifs <;> exact ⟨_, rfl⟩
  | inr l =>
    dsimp only at h ⊢
    rw [if_pos h]
    exact ⟨_, rfl⟩

/-- An integer gives equal sizes. -/
theorem C78_equal {K : Type} [Field K] [LinearOrder K] [IsStrictOrderedRing K] (k : Int) (hk : 1 < k) :
    ∃ l : List K, shares (.inl k) = .ok l ∧ Sizes78 l ∧ l.length = k.toNat ∧ ∀ s (hs : s < l.length), l[s] / l.sum = 1 / k := by
  refine ⟨List.replicate k.toNat (1 / (k : K)), ?_, ?_, by simp, ?_⟩
  · unfold shares; dsimp only; rw [if_neg (by omega), if_neg (by omega)]
  all_goals
    have hk0 : (0 : K) < (k : K) := by exact_mod_cast (by omega : 0 < k)
    have hkn : ((k.toNat : Nat) : K) = (k : K) := by
      have : ((k.toNat : Nat) : Int) = k := Int.toNat_of_nonneg (by omega)
      exact_mod_cast congrArg (Int.cast (R := K)) this
    have hsum : (List.replicate k.toNat (1 / (k : K))).sum = 1 := by
      rw [List.sum_replicate, nsmul_eq_mul, hkn]; field_simp
  · refine ⟨fun x hx => ?_, by rw [hsum]; exact one_pos⟩
    rw [List.eq_of_mem_replicate hx]; positivity
  · intro s hs
    rw [hsum, List.getElem_replicate, div_one]

/-! ## Weights of the parts -/

open Larch.Weights in
/-- Weights of the part with the cases at the given positions: rows picked, normalization one (`dataframes.pyx:3131-3146`, 706). -/
def partW {K : Type} [Field K] [LinearOrder K] (w : W K) (pos : List Nat) : W K :=
  { nCases := pos.length, nAlts := w.nAlts, ch := fun i j => w.ch (pos.getD i 0) j,
    wt := w.wt.map (fun wt i => wt (pos.getD i 0)), norm := 1 }

open Larch.Weights Larch.Spec in
/-- **C78 (weights of the parts), for data without weight normalization.** In general the contributions of a part are those of the whole
*divided by the normalization*, which the parts do not inherit. -/
theorem C78_weights_partial {K : Type} [Field K] [LinearOrder K] (w : W K) (pos : List Nat) (i j : Nat) :
    contribution (partW w pos) i j * w.norm = contribution w (pos.getD i 0) j := by
  unfold contribution partW caseWt
  cases w.wt <;> simp

open Larch.Weights Larch.Spec in
/-- **C78 fails after `autoscale_weights`**: two cases with weight 3, split in two; every contribution is divided by three. -/
theorem C78_fails_normalization : ∃ w : W ℚ, contribution (call w .autoscale) 0 0 = 3 ∧
    contribution (partW (call w .autoscale) [0]) 0 0 = 1 ∧ contribution (partW w [0]) 0 0 = 3 :=
  ⟨⟨2, 1, fun _ _ => 1, some (fun _ => 3), 1⟩, by decide +kernel, by decide +kernel, by decide +kernel⟩

end Larch.Props
