import Verif.Model.FramesAv
import Verif.Lemmas.Frames
import Mathlib.Data.List.ProdSigma
import Mathlib.Data.List.Nodup
import Mathlib.Data.List.Dedup
import Mathlib.Tactic.Linarith

/-!
# Helper lemmas: which row is read for a case and an alternative
-/

namespace Larch.Frames

variable {α : Type}

theorem setSorted_perm (f : Co α) : (setSorted f).Perm f := by
  unfold setSorted
  split
  · exact List.Perm.refl _
  · exact List.perm_insertionSort _ _

theorem setSorted_sorted (f : Co α) : ((setSorted f).map Prod.fst).Pairwise (· ≤ ·) := by
  unfold setSorted
  split
  · rename_i h; unfold isMono at h; exact of_decide_eq_true h
  · rw [List.pairwise_map]
    letI : Std.Total (fun a b : Int × α => a.1 ≤ b.1) := ⟨fun a b => le_total a.1 b.1⟩
    letI : IsTrans (Int × α) (fun a b : Int × α => a.1 ≤ b.1) := ⟨fun a b c h1 h2 => le_trans h1 h2⟩
    exact List.pairwise_insertionSort _ _

/-- Sorted lists with the same labels are the same list. -/
theorem labels_eq {β : Type} {f : Co α} {g : Co β} (h : (f.map Prod.fst).Perm (g.map Prod.fst)) :
    (setSorted f).map Prod.fst = (setSorted g).map Prod.fst := by
  have h1 := (setSorted_perm f).map Prod.fst
  have h2 := (setSorted_perm g).map Prod.fst
  exact ((h1.trans h).trans h2.symm).eq_of_pairwise (fun a b _ _ h1 h2 => le_antisymm h1 h2) (setSorted_sorted f) (setSorted_sorted g)

/-- The last place that satisfies a condition. -/
theorem foldl_last {β : Type} (p : β → Bool) (L : List (β × Nat)) : ∀ (acc : Option Nat),
    (∀ r ∈ L, ∀ s ∈ L, p r.1 = true → p s.1 = true → r.2 = s.2) →
    ∀ k, L.foldl (fun acc r => if p r.1 then some r.2 else acc) acc = some k ↔
      (∃ r ∈ L, p r.1 = true ∧ r.2 = k) ∨ ((∀ r ∈ L, p r.1 = false) ∧ acc = some k) := by
  induction L with
  | nil => intro acc _ k; simp
  | cons x L ih =>
    intro acc hu k
    rw [List.foldl_cons, ih _ (fun r hr s hs => hu r (List.mem_cons_of_mem _ hr) s (List.mem_cons_of_mem _ hs))]
    constructor
    · rintro (⟨r, hr, hp, hk⟩ | ⟨hall, hacc⟩)
      · exact Or.inl ⟨r, List.mem_cons_of_mem _ hr, hp, hk⟩
      · by_cases hx : p x.1 = true
        · rw [if_pos hx] at hacc
          exact Or.inl ⟨x, List.mem_cons_self, hx, by simpa using hacc⟩
        · rw [if_neg hx] at hacc
          refine Or.inr ⟨fun r hr => ?_, hacc⟩
          rcases List.mem_cons.mp hr with rfl | hr
          · simpa using hx
          · exact hall r hr
    · rintro (⟨r, hr, hp, hk⟩ | ⟨hall, hacc⟩)
      · rcases List.mem_cons.mp hr with rfl | hr
        · by_cases he : ∃ s ∈ L, p s.1 = true
          · obtain ⟨s, hs, hps⟩ := he
            exact Or.inl ⟨s, hs, hps, by rw [← hk]; exact hu s (List.mem_cons_of_mem _ hs) r List.mem_cons_self hps hp⟩
          · refine Or.inr ⟨fun s hs => ?_, by rw [if_pos hp, hk]⟩
            by_contra hc
            exact he ⟨s, hs, by simpa using hc⟩
        · exact Or.inl ⟨r, hr, hp, hk⟩
      · refine Or.inr ⟨fun r hr => hall r (List.mem_cons_of_mem _ hr), ?_⟩
        rw [if_neg (by simp [hall x List.mem_cons_self]), hacc]

/-- Places in a list without repetitions are determined by a property with a single witness. -/
theorem reverseMap_some {f : MF α} {c a k : Nat}
    (hu : ∀ (r s : Nat) (x y : (Int × Int) × α), f.rows[r]? = some x → f.rows[s]? = some y →
      caseRank f (code0 f x.1.1) = c → code1 f x.1.2 = a → caseRank f (code0 f y.1.1) = c → code1 f y.1.2 = a → r = s) :
    reverseMap f c a = some k ↔ ∃ x, f.rows[k]? = some x ∧ caseRank f (code0 f x.1.1) = c ∧ code1 f x.1.2 = a := by
  unfold reverseMap
  have := foldl_last (fun r : (Int × Int) × α => decide (caseRank f (code0 f r.1.1) = c ∧ code1 f r.1.2 = a)) f.rows.zipIdx none (by
    intro r hr s hs h1 h2
    rw [decide_eq_true_eq] at h1 h2
    exact hu r.2 s.2 r.1 s.1 (List.mem_zipIdx_iff_getElem?.mp hr) (List.mem_zipIdx_iff_getElem?.mp hs) h1.1 h1.2 h2.1 h2.2) k
  simp only [decide_eq_true_eq] at this
  rw [this]
  constructor
  · rintro (⟨r, hr, hp, rfl⟩ | ⟨_, h⟩)
    · exact ⟨r.1, List.mem_zipIdx_iff_getElem?.mp hr, hp⟩
    · simp at h
  · rintro ⟨x, hx, hp⟩
    exact Or.inl ⟨(x, k), List.mem_zipIdx_iff_getElem?.mpr hx, hp, rfl⟩

theorem idxOf_lt {l : List Int} (h : l.Pairwise (· < ·)) {a b : Int} (ha : a ∈ l) (hb : b ∈ l) : l.idxOf a < l.idxOf b ↔ a < b := by
  have hia := List.idxOf_lt_length_of_mem ha
  have hib := List.idxOf_lt_length_of_mem hb
  have ea : l[l.idxOf a] = a := List.getElem_idxOf hia
  have eb : l[l.idxOf b] = b := List.getElem_idxOf hib
  rw [List.pairwise_iff_getElem] at h
  constructor
  · intro hl; have := h _ _ hia hib hl; rwa [ea, eb] at this
  · intro hl
    by_contra hn
    rcases Nat.lt_or_eq_of_le (not_lt.mp hn) with h2 | h2
    · have := h _ _ hib hia h2; rw [ea, eb] at this; omega
    · have : a = b := by rw [← ea, ← eb]; simp [h2]
      omega

theorem idxOf_inj {l : List Int} {a b : Int} (ha : a ∈ l) (hb : b ∈ l) (h : l.idxOf a = l.idxOf b) : a = b := by
  have ea : l[l.idxOf a]'(List.idxOf_lt_length_of_mem ha) = a := List.getElem_idxOf _
  have eb : l[l.idxOf b]'(List.idxOf_lt_length_of_mem hb) = b := List.getElem_idxOf _
  rw [← ea, ← eb]; simp [h]

/-- In an increasing list, the number of smaller entries is the place. -/
theorem count_smaller {l : List Int} (h : l.Pairwise (· < ·)) {i : Nat} {c : Int} (hi : l[i]? = some c) :
    (l.filter (fun x => decide (x < c))).length = i := by
  induction l generalizing i with
  | nil => simp at hi
  | cons a l ih =>
    rw [List.pairwise_cons] at h
    cases i with
    | zero =>
      simp at hi; subst hi
      rw [List.length_eq_zero_iff, List.filter_eq_nil_iff]
      intro x hx
      rcases List.mem_cons.mp hx with rfl | hx
      · simp
      · have := h.1 x hx; simp; omega
    | succ i =>
      simp at hi
      have hac := h.1 c (List.mem_of_getElem? hi)
      rw [List.filter_cons, if_pos (by simpa using hac), List.length_cons, ih h.2 hi]

/-- Places of cases: with increasing levels, the position given to a case is its place among the cases that have rows. -/
theorem caseRank_eq {f : MF α} (h0 : f.lev0.Pairwise (· < ·)) (hrows : ∀ r ∈ f.rows, r.1.1 ∈ f.lev0) {ids : List Int}
    (hids : ids.Pairwise (· < ·)) (hmem : ∀ c, c ∈ ids ↔ ∃ r ∈ f.rows, r.1.1 = c) {i : Nat} {c : Int} (hi : ids[i]? = some c) :
    caseRank f (code0 f c) = i := by
  have hsub : ∀ c ∈ ids, c ∈ f.lev0 := fun c hc => by
    obtain ⟨r, hr, rfl⟩ := (hmem c).mp hc
    exact hrows r hr
  have hp : (usedCodes f).Perm (ids.map (code0 f)) := by
    unfold usedCodes
    rw [List.perm_ext_iff_of_nodup (List.nodup_dedup _)]
    · intro k
      rw [List.mem_dedup, List.mem_map, List.mem_map]
      constructor
      · rintro ⟨r, hr, rfl⟩; exact ⟨r.1.1, (hmem _).mpr ⟨r, hr, rfl⟩, rfl⟩
      · rintro ⟨c, hc, rfl⟩
        obtain ⟨r, hr, rfl⟩ := (hmem c).mp hc
        exact ⟨r, hr, rfl⟩
    · apply List.Nodup.map_on
      · intro a ha b hb hab
        exact idxOf_inj (hsub a ha) (hsub b hb) hab
      · exact hids.imp (fun h => ne_of_lt h)
  unfold caseRank
  rw [(hp.filter _).length_eq, List.filter_map, List.length_map]
  rw [← count_smaller hids hi]
  congr 1
  apply List.filter_congr
  intro x hx
  simp only [Function.comp_apply]
  rw [decide_eq_decide]
  exact idxOf_lt h0 (hsub x hx) (hsub c (List.mem_of_getElem? hi))

theorem foldl_max_eq (l : List Nat) (acc : Nat) : l.foldl max acc = max acc (l.foldl max 0) := by
  induction l generalizing acc with
  | nil => simp
  | cons a l ih => rw [List.foldl_cons, ih, List.foldl_cons, ih (max 0 a)]; simp [max_assoc]

theorem le_foldl_max {l : List Nat} {a : Nat} (h : a ∈ l) : a ≤ l.foldl max 0 := by
  induction l with
  | nil => simp at h
  | cons b l ih =>
    rw [List.foldl_cons, foldl_max_eq]
    rcases List.mem_cons.mp h with rfl | h
    · exact le_max_of_le_left (by simp)
    · exact le_max_of_le_right (ih h)

theorem foldl_max_le {l : List Nat} {n : Nat} (h : ∀ a ∈ l, a ≤ n) : l.foldl max 0 ≤ n := by
  induction l with
  | nil => simp
  | cons b l ih =>
    rw [List.foldl_cons, foldl_max_eq]
    exact max_le (by simpa using h b List.mem_cons_self) (ih (fun a ha => h a (List.mem_cons_of_mem _ ha)))

/-- The number of cases of idce data. -/
theorem ceCases_eq {f : MF α} (h0 : f.lev0.Pairwise (· < ·)) (hrows : ∀ r ∈ f.rows, r.1.1 ∈ f.lev0) {ids : List Int}
    (hids : ids.Pairwise (· < ·)) (hmem : ∀ c, c ∈ ids ↔ ∃ r ∈ f.rows, r.1.1 = c) : ceCases f = ids.length := by
  unfold ceCases
  apply le_antisymm
  · apply foldl_max_le
    intro a ha
    obtain ⟨r, hr, rfl⟩ := List.mem_map.mp ha
    have : r.1.1 ∈ ids := (hmem _).mpr ⟨r, hr, rfl⟩
    obtain ⟨i, hi⟩ := List.mem_iff_getElem?.mp this
    rw [caseRank_eq h0 hrows hids hmem hi]
    have := (List.getElem?_eq_some_iff.mp hi).1
    omega
  · rcases Nat.eq_zero_or_pos ids.length with h | h
    · omega
    · have hl : ids[ids.length - 1]? = some ids[ids.length - 1] := List.getElem?_eq_getElem _
      obtain ⟨r, hr, he⟩ := (hmem _).mp (List.mem_of_getElem? hl)
      have := caseRank_eq h0 hrows hids hmem hl
      have := le_foldl_max (l := f.rows.map (fun r => caseRank f (code0 f r.1.1) + 1)) (a := ids.length)
        (List.mem_map.mpr ⟨r, hr, by rw [he, this]; omega⟩)
      exact this

/-! ## idca data -/

theorem lexLe_iff (a b : Int × Int) : lexLe a b = true ↔ a.1 < b.1 ∨ a.1 = b.1 ∧ a.2 ≤ b.2 := by
  unfold lexLe; simp

theorem lexLe_antisymm (a b : Int × Int) (h1 : lexLe a b = true) (h2 : lexLe b a = true) : a = b := by
  rw [lexLe_iff] at h1 h2
  apply Prod.ext <;> omega

theorem product_sorted {l m : List Int} (hl : l.Pairwise (· < ·)) (hm : m.Pairwise (· < ·)) :
    (l ×ˢ m).Pairwise (fun a b => lexLe a b = true) := by
  induction l with
  | nil => simp
  | cons a l ih =>
    rw [List.pairwise_cons] at hl
    rw [List.product_cons, List.pairwise_append]
    refine ⟨?_, ih hl.2, ?_⟩
    · rw [List.pairwise_map]
      exact hm.imp (fun {u v} h => (lexLe_iff (a, u) (a, v)).mpr (Or.inr ⟨rfl, le_of_lt h⟩))
    · intro x hx y hy
      obtain ⟨b, hb, rfl⟩ := List.mem_map.mp hx
      have := (List.mem_product (a := y.1) (b := y.2)).mp hy
      exact (lexLe_iff _ _).mpr (Or.inl (hl.1 _ this.1))

theorem product_getElem {l m : List Int} {i a : Nat} {c b : Int} (hi : l[i]? = some c) (ha : m[a]? = some b) :
    (l ×ˢ m)[i * m.length + a]? = some (c, b) := by
  have hla := (List.getElem?_eq_some_iff.mp ha).1
  induction l generalizing i with
  | nil => simp at hi
  | cons x l ih =>
    rw [List.product_cons]
    cases i with
    | zero =>
      simp at hi; subst hi
      rw [List.getElem?_append_left (by simpa using hla)]
      simp [ha]
    | succ i =>
      simp at hi
      rw [List.getElem?_append_right (by simp [Nat.succ_mul]; omega)]
      have : (i + 1) * m.length + a - (m.map (fun b => (x, b))).length = i * m.length + a := by
        simp [Nat.succ_mul]; omega
      rw [this]
      exact ih hi

/-- Complete data are the product of the levels, in order. -/
theorem full_labels {f : MF α} (h0 : f.lev0.Pairwise (· < ·)) (h1 : f.lev1.Pairwise (· < ·))
    (hrows : ∀ r ∈ f.rows, r.1.1 ∈ f.lev0 ∧ r.1.2 ∈ f.lev1) (hnd : (f.rows.map Prod.fst).Nodup) (hca : isIdce f = false) :
    f.rows.map Prod.fst = f.lev0 ×ˢ f.lev1 := by
  unfold isIdce at hca
  simp only [Bool.or_eq_false_iff, decide_eq_false_iff_not, Bool.not_eq_eq_eq_not, Bool.not_false] at hca
  have hsub : f.rows.map Prod.fst ⊆ f.lev0 ×ˢ f.lev1 := by
    intro x hx
    obtain ⟨r, hr, rfl⟩ := List.mem_map.mp hx
    exact List.mem_product.mpr (hrows r hr)
  have hperm : (f.rows.map Prod.fst).Perm (f.lev0 ×ˢ f.lev1) := by
    apply (List.subperm_of_subset hnd hsub).perm_of_length_le
    rw [List.length_product, List.length_map]
    omega
  have hm := hca.2
  unfold isMonoLex at hm
  exact hperm.eq_of_pairwise (fun a b _ _ h1 h2 => lexLe_antisymm a b h1 h2) (of_decide_eq_true hm) (product_sorted h0 h1)

theorem strict_insertionSort {l : List Int} (h : l.Pairwise (· < ·)) : l.insertionSort (· ≤ ·) = l :=
  List.Pairwise.insertionSort_eq (h.imp (fun h => le_of_lt h))

theorem setCe_levels {f : MF α} (h0 : f.lev0.Pairwise (· < ·)) (h1 : f.lev1.Pairwise (· < ·)) :
    (setCe f).lev0 = f.lev0 ∧ (setCe f).lev1 = f.lev1 ∧ (setCe f).rows.Perm f.rows := by
  unfold setCe
  split
  · exact ⟨rfl, rfl, List.Perm.refl _⟩
  · exact ⟨strict_insertionSort h0, strict_insertionSort h1, List.perm_insertionSort _ _⟩

end Larch.Frames
