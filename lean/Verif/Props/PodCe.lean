import Verif.Model.PodCe
import Mathlib.Data.List.Perm.Basic
import Mathlib.Tactic.Linarith

/-!
# C148: the array made of an idce pod holds every row in its place
-/

namespace Larch.Props

open Larch.PodCe

variable {K : Type} [Zero K] [One K]

/-! ## Indexes -/

theorem pc_sorted {α : Type} [LinearOrder α] (l : List α) : (l.dedup.insertionSort (· ≤ ·)).Pairwise (· < ·) := by
  have h1 := List.pairwise_insertionSort (· ≤ ·) l.dedup
  have h2 : (l.dedup.insertionSort (· ≤ ·)).Nodup := (List.perm_insertionSort _ _).nodup_iff.mpr (List.nodup_dedup _)
  refine (h1.and h2).imp ?_
  rintro a b ⟨hab, hne⟩
  exact lt_of_le_of_ne hab hne

theorem pc_mem {α : Type} [LinearOrder α] (l : List α) (v : α) : v ∈ l.dedup.insertionSort (· ≤ ·) ↔ v ∈ l := by
  rw [List.mem_insertionSort, List.mem_dedup]

/-- **C148 (labels).** The labels returned are those that occur, each once and in increasing order, and the index of each entry is the place of its
label. -/
theorem C148_labels {α : Type} [LinearOrder α] (labels : List α) : (indexes labels).1.Pairwise (· < ·) ∧ (∀ v, v ∈ (indexes labels).1 ↔ v ∈ labels) ∧
    (indexes labels).2.length = labels.length ∧
    ∀ (k : Nat) (l : α), labels[k]? = some l → ∃ i, (indexes labels).2[k]? = some i ∧ (indexes labels).1[i]? = some l := by
  refine ⟨pc_sorted labels, pc_mem labels, by simp [indexes], fun k l h => ?_⟩
  refine ⟨(labels.dedup.insertionSort (· ≤ ·)).idxOf l, by simp [indexes, h], ?_⟩
  have hm : l ∈ labels.dedup.insertionSort (· ≤ ·) := (pc_mem labels l).mpr (List.mem_of_getElem? h)
  simp only [indexes]
  rw [List.getElem?_eq_getElem (List.idxOf_lt_length_of_mem hm), List.getElem_idxOf]

theorem pc_extent (ix : List Nat) (hne : ix ≠ []) : ∃ n, extent ix = some n ∧ (∀ i ∈ ix, i < n) ∧ n - 1 ∈ ix ∧ 0 < n := by
  have key : ∀ (t : List Nat) (i : Nat), (∀ j ∈ i :: t, j ≤ t.foldl max i) ∧ t.foldl max i ∈ i :: t := by
    intro t
    induction t with
    | nil => intro i; simp
    | cons a t ih =>
      intro i
      obtain ⟨h1, h2⟩ := ih (max i a)
      have h3 := h1 (max i a) (by simp)
      refine ⟨fun j hj => ?_, ?_⟩
      · rw [List.foldl_cons]
        rcases List.mem_cons.mp hj with rfl | hj
        · exact le_trans (le_max_left _ _) h3
        · rcases List.mem_cons.mp hj with rfl | hj
          · exact le_trans (le_max_right _ _) h3
          · exact h1 j (by simp [hj])
      · rw [List.foldl_cons]
        rcases List.mem_cons.mp h2 with h | h
        · rcases max_choice i a with e | e <;> rw [h, e] <;> simp
        · simp [h]
  cases ix with
  | nil => exact absurd rfl hne
  | cons i t =>
    obtain ⟨h1, h2⟩ := key t i
    exact ⟨_, rfl, fun j hj => by have := h1 j hj; omega, by simpa using h2, by omega⟩

theorem pc_extent_labels {α : Type} [LinearOrder α] (labels : List α) (hne : labels ≠ []) : extent (indexes labels).2 = some (indexes labels).1.length := by
  obtain ⟨n, h1, h2, h3, h4⟩ := pc_extent (indexes labels).2 (by simpa [indexes] using hne)
  rw [h1, Option.some.injEq]
  have hpos : 0 < (indexes labels).1.length := by
    obtain ⟨l, hl⟩ := List.exists_mem_of_ne_nil _ hne
    exact List.length_pos_of_mem ((pc_mem labels l).mpr hl)
  have hub : n ≤ (indexes labels).1.length := by
    simp only [indexes, List.mem_map] at h3
    obtain ⟨l, hl, e⟩ := h3
    have := List.idxOf_lt_length_of_mem ((pc_mem labels l).mpr hl)
    simp only [indexes]
    omega
  have hlb : (indexes labels).1.length ≤ n := by
    obtain ⟨l, hl⟩ : ∃ l, (indexes labels).1[(indexes labels).1.length - 1]? = some l := ⟨_, List.getElem?_eq_getElem (by omega)⟩
    have hm := List.mem_of_getElem? hl
    have hi : (indexes labels).1.idxOf l = (indexes labels).1.length - 1 := by
      obtain ⟨hlt, e⟩ := List.getElem?_eq_some_iff.mp hl
      rw [← e, List.Nodup.idxOf_getElem (show (indexes labels).1.Nodup from (pc_sorted labels).imp (fun h => ne_of_lt h))]
    have := h2 ((indexes labels).1.idxOf l) (List.mem_map.mpr ⟨l, (pc_mem labels l).mp hm, rfl⟩)
    omega
  omega

theorem pc_zip3 {α β γ : Type} {a : List α} {b : List β} {c : List γ} {r : α × β × γ} : r ∈ a.zip (b.zip c) ↔
    ∃ k : Nat, a[k]? = some r.1 ∧ b[k]? = some r.2.1 ∧ c[k]? = some r.2.2 := by
  rw [List.mem_iff_getElem?]
  refine exists_congr (fun k => ?_)
  rw [List.getElem?_zip_eq_some, List.getElem?_zip_eq_some]

/-- What a cell must be: the value of the only row with this case and alternative, zero if there is none. -/
def RowsIn (cx ax : List Nat) (vals : List K) (f : Nat → Nat → K) : Prop :=
  (∀ (k : Nat) c a v, cx[k]? = some c → ax[k]? = some a → vals[k]? = some v → f c a = v) ∧
  ∀ c a, (∀ k : Nat, cx[k]? = some c → ax[k]? ≠ some a) → f c a = 0

omit [One K] in
theorem pc_scatter (cx ax : List Nat) (vals : List K)
    (hd : ∀ (k l : Nat) c a, cx[k]? = some c → cx[l]? = some c → ax[k]? = some a → ax[l]? = some a → k = l) : RowsIn cx ax vals (scatter cx ax vals) := by
  unfold scatter
  constructor
  · intro k c a v h1 h2 h3
    cases hf : (cx.zip (ax.zip vals)).reverse.find? (fun r => decide (r.1 = c ∧ r.2.1 = a)) with
    | none =>
      have hm : (c, a, v) ∈ (cx.zip (ax.zip vals)).reverse := by
        rw [List.mem_reverse]
        exact pc_zip3.mpr ⟨k, h1, h2, h3⟩
      have := List.find?_eq_none.mp hf _ hm
      simp at this
    | some r =>
      have hm := pc_zip3.mp (List.mem_reverse.mp (List.mem_of_find?_eq_some hf))
      have hp := List.find?_some hf
      simp only [decide_eq_true_eq] at hp
      obtain ⟨l, e1, e2, e3⟩ := hm
      rw [hp.1] at e1
      rw [hp.2] at e2
      have := hd k l c a h1 e1 h2 e2
      subst this
      rw [h3, Option.some.injEq] at e3
      simp only [hf, Option.map_some, Option.getD_some]
      exact e3.symm
  · intro c a hno
    cases hf : (cx.zip (ax.zip vals)).reverse.find? (fun r => decide (r.1 = c ∧ r.2.1 = a)) with
    | none => simp only [hf, Option.map_none, Option.getD_none]
    | some r =>
      have hm := pc_zip3.mp (List.mem_reverse.mp (List.mem_of_find?_eq_some hf))
      have hp := List.find?_some hf
      simp only [decide_eq_true_eq] at hp
      obtain ⟨l, e1, e2, _⟩ := hm
      rw [hp.1] at e1
      rw [hp.2] at e2
      exact absurd e2 (hno l e1)

/-- **C148 (array).** The array has one row for each case label, one column for each alternative label and one layer for each name.  If no case has an alternative twice, the layer of
a name holds the value of every row at the places of its labels and zero elsewhere; the layer of the presence flag holds one where there is a row. -/
theorem C148_array {α β : Type} [LinearOrder α] [LinearOrder β] (cases : List α) (alts : List β) (hne : cases ≠ []) (hl : alts.length = cases.length)
    (hd : ∀ (k l : Nat) c a, cases[k]? = some c → cases[l]? = some c → alts[k]? = some a → alts[l]? = some a → k = l)
    (data : String → Option (List K)) (present : Option String) (names : List String) (hdata : ∀ s ∈ names, present ≠ some s → ∃ v, data s = some v ∧ v.length = cases.length) :
    ∃ f, asArray (indexes cases).2 (indexes alts).2 data present names = some (((indexes cases).1.length, (indexes alts).1.length, names.length), f) ∧
    ∀ (x : Nat) s vals, names[x]? = some s → (if present = some s then vals = cases.map (fun _ => (1 : K)) else data s = some vals) →
      (∀ (k : Nat) c a v i j, cases[k]? = some c → alts[k]? = some a → vals[k]? = some v → (indexes cases).1[i]? = some c → (indexes alts).1[j]? = some a → f i j x = v) ∧
      ∀ (i j : Nat) c a, (indexes cases).1[i]? = some c → (indexes alts).1[j]? = some a → (∀ k : Nat, cases[k]? = some c → alts[k]? ≠ some a) → f i j x = 0 := by
  have hane : alts ≠ [] := by
    rintro rfl
    exact hne (List.length_eq_zero_iff.mp (by simpa using hl.symm))
  have hplace : ∀ {γ : Type} [LinearOrder γ] (l : List γ) (k i : Nat) (c : γ), (indexes l).1[i]? = some c → ((indexes l).2[k]? = some i ↔ l[k]? = some c) := by
    intro γ _ l k i c hi
    have hci : (indexes l).1.idxOf c = i := by
      obtain ⟨hlt, e⟩ := List.getElem?_eq_some_iff.mp hi
      rw [← e, List.Nodup.idxOf_getElem (show (indexes l).1.Nodup from (pc_sorted l).imp (fun h => ne_of_lt h))]
    have hidx : (indexes l).2[k]? = (l[k]?).map (fun v => (indexes l).1.idxOf v) := by simp [indexes]
    rw [hidx]
    cases hk : l[k]? with
    | none => simp
    | some v =>
      rw [Option.map_some, Option.some.injEq, Option.some.injEq]
      constructor
      · intro e
        have hm : v ∈ (indexes l).1 := (pc_mem l v).mpr (List.mem_of_getElem? hk)
        rw [← hci] at e
        exact (List.idxOf_inj hm).mp e
      · rintro rfl; exact hci
  have hdix : ∀ (k l : Nat) c a, (indexes cases).2[k]? = some c → (indexes cases).2[l]? = some c → (indexes alts).2[k]? = some a → (indexes alts).2[l]? = some a → k = l := by
    have hback : ∀ {γ : Type} [LinearOrder γ] (l : List γ) (k i : Nat), (indexes l).2[k]? = some i → ∃ c, (indexes l).1[i]? = some c ∧ l[k]? = some c := by
      intro γ _ l k i h
      have hk : k < l.length := by
        have := (List.getElem?_eq_some_iff.mp h).1
        simpa [indexes] using this
      obtain ⟨i', h1, h2⟩ := (C148_labels l).2.2.2 k _ (List.getElem?_eq_getElem hk)
      rw [h, Option.some.injEq] at h1
      subst h1
      exact ⟨_, h2, List.getElem?_eq_getElem hk⟩
    intro k l c a h1 h2 h3 h4
    obtain ⟨c', e1, e2⟩ := hback cases k c h1
    obtain ⟨a', e3, e4⟩ := hback alts k a h3
    exact hd k l c' a' e2 ((hplace cases l c c' e1).mp h2) e4 ((hplace alts l a a' e3).mp h4)
  unfold asArray
  rw [pc_extent_labels cases hne, Option.bind_some, pc_extent_labels alts hane, Option.bind_some, if_pos]
  · refine ⟨_, rfl, ?_⟩
    intro x s vals hx hv
    simp only [hx]
    have hR : ∀ vs : List K, RowsIn (indexes cases).2 (indexes alts).2 vs (scatter (indexes cases).2 (indexes alts).2 vs) := fun vs => pc_scatter _ _ vs hdix
    have hval : (if present = some s then scatter (indexes cases).2 (indexes alts).2 ((indexes cases).2.map (fun _ => (1 : K)))
        else scatter (indexes cases).2 (indexes alts).2 ((data s).getD [])) = scatter (indexes cases).2 (indexes alts).2 vals := by
      by_cases hp : present = some s
      · rw [if_pos hp] at hv ⊢
        rw [hv]
        congr 1
        rw [show (indexes cases).2 = cases.map (fun l => (indexes cases).1.idxOf l) from rfl, List.map_map]
        rfl
      · rw [if_neg hp] at hv ⊢
        rw [hv]
        rfl
    have hcell : ∀ i j, (if present = some s then scatter (indexes cases).2 (indexes alts).2 ((indexes cases).2.map (fun _ => (1 : K))) i j
        else scatter (indexes cases).2 (indexes alts).2 ((data s).getD []) i j) = scatter (indexes cases).2 (indexes alts).2 vals i j := by
      intro i j
      rw [← hval]
      split <;> rfl
    constructor
    · intro k c a v i j h1 h2 h3 h4 h5
      rw [hcell]
      exact (hR vals).1 k i j v ((hplace cases k i c h4).mpr h1) ((hplace alts k j a h5).mpr h2) h3
    · intro i j c a h4 h5 hno
      rw [hcell]
      refine (hR vals).2 i j (fun k h6 h7 => hno k ((hplace cases k i c h4).mp h6) ((hplace alts k j a h5).mp h7))
  · rw [List.all_eq_true]
    intro s hs
    by_cases hp : present = some s
    · simp [hp]
    · obtain ⟨v, hv, _⟩ := hdata s hs hp
      simp [hv]

omit [One K] in
/-- **C148 fails (repeated rows).** If a case has an alternative twice, only the later row is in the array. -/
theorem C148_fails_repeat (v w : K) : scatter [0, 0] [0, 0] [v, w] 0 0 = w := by
  simp [scatter]

/-! ## Concrete cases -/

/-- Three rows of two cases and two alternatives. -/
def rowCases : List Nat := [7, 3, 7]

def rowAlts : List Nat := [4, 1, 1]

def rowData (s : String) : Option (List Int) := if s = "t" then some [10, 20, 30] else none

example : (asArray (indexes rowCases).2 (indexes rowAlts).2 rowData (some "here") ["t", "here"]).map
    (fun r => (r.1, [r.2 0 0 0, r.2 1 0 0, r.2 1 1 0, r.2 0 1 0, r.2 1 1 1, r.2 0 1 1])) = some ((2, 2, 2), [20, 30, 10, 0, 1, 0]) := by decide +kernel

example : ∀ (k l : Nat) c a, rowCases[k]? = some c → rowCases[l]? = some c → rowAlts[k]? = some a → rowAlts[l]? = some a → k = l := by
  intro k l c a h1 h2 h3 h4
  rcases k with _ | _ | _ | k <;> rcases l with _ | _ | _ | l <;> simp [rowCases, rowAlts] at h1 h2 h3 h4 ⊢ <;> omega

end Larch.Props
