import Verif.Spec.Workbook
import Mathlib.Data.List.Chain

/-!
# C192: nested dicts in a workbook
-/

namespace Larch.Props
open Larch.Workbook Larch.Spec.Workbook

theorem ne_unpack (i : Item) : ∀ (d : Nat) (s : Sheet), unpack s d i = (outline d i).foldl (fun t e => place t e.1 e.2) s := by
  induction i with
  | leaf v => intro d s; rfl
  | ended => intro d s; rfl
  | entry k v rest ih1 ih2 =>
    intro d s
    simp only [unpack, outline, List.foldl_cons, List.foldl_append]
    rw [ih1, ih2]
  | element v rest ih1 ih2 =>
    intro d s
    simp only [unpack, outline, List.foldl_append]
    rw [ih1, ih2]
  | frame columns cells =>
    intro d s
    simp only [unpack, outline, List.foldl_map]

/-- Reading order of cells. -/
def ReadFirst (a b : Nat × Int × String) : Prop := a.2.1 < b.2.1 ∨ (a.2.1 = b.2.1 ∧ a.1 < b.1)

/-- A cell and the next: in the same row if it is further right, in the next row otherwise. -/
def CellAfter (a b : Nat × Int × String) : Prop := b.2.1 = if a.1 < b.1 then a.2.1 else a.2.1 + 1

/-- What holds while cells are placed. -/
structure NeInv (s : Sheet) : Prop where
  rows : ∀ c ∈ s.cells, 0 ≤ c.2.1 ∧ (c.2.1 < s.row ∨ (c.2.1 = s.row ∧ c.1 ≤ s.prev))
  order : s.cells.Pairwise ReadFirst
  last : ∀ c ∈ s.cells.getLast?, c.1 = s.prev ∧ c.2.1 = s.row
  low : -1 ≤ s.row
  chain : s.cells.IsChain CellAfter
  start : s.cells = [] → s.row = -1 ∧ s.prev = 0

theorem ne_place (s : Sheet) (h : NeInv s) (d : Nat) (v : String) (hd : s.cells = [] → d = 0) : NeInv (place s d v) := by
  have hlast : s.cells ≠ [] → ∃ c, s.cells.getLast? = some c ∧ c.1 = s.prev ∧ c.2.1 = s.row := by
    intro hn
    cases hq : s.cells.getLast? with
    | none => exact absurd (List.getLast?_eq_none_iff.1 hq) hn
    | some c => exact ⟨c, rfl, h.last c hq⟩
  have hrow : 0 ≤ (place s d v).row := by
    unfold place
    dsimp only
    by_cases hn : s.cells = []
    · have h1 := h.start hn
      rw [hd hn, if_pos (Nat.zero_le _), h1.1]; decide
    · obtain ⟨c, h1, h2, h3⟩ := hlast hn
      have h4 := (h.rows c (List.mem_of_getLast? h1)).1
      split <;> omega
  have hbef : ∀ c ∈ s.cells, ReadFirst c (d, (place s d v).row, v) := by
    intro c hc
    have h1 := (h.rows c hc).2
    unfold ReadFirst place
    dsimp only
    split
    · omega
    · omega
  refine ⟨?_, ?_, ?_, ?_, ?_, ?_⟩
  · intro c hc
    rcases List.mem_append.1 hc with hc | hc
    · refine ⟨(h.rows c hc).1, ?_⟩
      have := hbef c hc
      show c.2.1 < (place s d v).row ∨ (c.2.1 = (place s d v).row ∧ c.1 ≤ d)
      rcases this with h1 | h1
      · exact Or.inl h1
      · exact Or.inr ⟨h1.1, Nat.le_of_lt h1.2⟩
    · rw [List.mem_singleton.1 hc]
      exact ⟨hrow, Or.inr ⟨rfl, Nat.le_refl _⟩⟩
  · show (s.cells ++ _).Pairwise ReadFirst
    rw [List.pairwise_append]
    refine ⟨h.order, List.pairwise_singleton _ _, ?_⟩
    intro a ha b hb
    rw [List.mem_singleton.1 hb]
    exact hbef a ha
  · intro c hc
    have : (place s d v).cells.getLast? = some (d, (place s d v).row, v) := List.getLast?_concat
    rw [this] at hc
    cases hc
    exact ⟨rfl, rfl⟩
  · omega
  · show (s.cells ++ _).IsChain CellAfter
    rw [List.isChain_append]
    refine ⟨h.chain, List.isChain_singleton _, ?_⟩
    intro a ha b hb
    rw [List.head?_cons, Option.mem_some] at hb
    subst hb
    obtain ⟨h1, h2⟩ := h.last a ha
    unfold CellAfter
    dsimp only
    rw [h1, h2]
    split
    · rw [if_neg (by omega)]
    · rw [if_pos (by omega)]
  · intro e
    exact absurd e (List.append_ne_nil_of_right_ne_nil _ (List.cons_ne_nil _ _))

theorem ne_fold (l : List (Nat × String)) : ∀ s, NeInv s → (s.cells = [] → ∀ e ∈ l.head?, e.1 = 0) →
    NeInv (l.foldl (fun t e => place t e.1 e.2) s)
      ∧ (l.foldl (fun t e => place t e.1 e.2) s).cells.map (fun c => (c.1, c.2.2)) = s.cells.map (fun c => (c.1, c.2.2)) ++ l := by
  induction l with
  | nil => intro s h _; exact ⟨h, (List.append_nil _).symm⟩
  | cons e t ih =>
    intro s h hd
    have h1 := ne_place s h e.1 e.2 (fun hs => hd hs e rfl)
    obtain ⟨h2, h3⟩ := ih _ h1 (fun hs => absurd hs (List.append_ne_nil_of_right_ne_nil _ (List.cons_ne_nil _ _)))
    refine ⟨h2, ?_⟩
    rw [List.foldl_cons, h3]
    show (s.cells ++ [(e.1, _, e.2)]).map _ ++ t = _
    rw [List.map_append, List.append_assoc]
    rfl

theorem ne_head (i : Item) : ∀ d, ∀ e ∈ (outline d i).head?, e.1 = d := by
  induction i with
  | leaf v => intro d e he; cases he; rfl
  | ended => intro d e he; cases he
  | entry k v rest ih1 ih2 => intro d e he; cases he; rfl
  | element v rest ih1 ih2 =>
    intro d e he
    simp only [outline, List.head?_append] at he
    cases hq : (outline d v).head? with
    | none => rw [hq, Option.none_or] at he; exact ih2 d e he
    | some x => rw [hq, Option.some_or] at he; cases he; exact ih1 d _ hq
  | frame columns cells =>
    intro d e he
    cases columns with
    | nil => cases he
    | cons c t => cases he; rfl

/-- C192: however deep dicts and sequences are nested, the cells are the outline of the content, in reading order: each key and value in the column of its depth; what is
deeper than the one before is to its right in the same row, the next row is used otherwise.  So no two are put in the same cell, each is found in the table where it was
put, and the rest of the table is blank. -/
theorem C192_partial (i : Item) :
    (cellsOf i).map (fun c => (c.1, c.2.2)) = outline 0 i ∧ (cellsOf i).IsChain CellAfter ∧ (∀ c ∈ (cellsOf i).head?, c.2.1 = 0)
      ∧ (cellsOf i).Pairwise ReadFirst ∧ (∀ c ∈ cellsOf i, 0 ≤ c.2.1 ∧ tableAt i c.2.1 c.1 = c.2.2)
      ∧ ∀ (r : Int) (k : Nat), (∀ c ∈ cellsOf i, ¬ (c.1 = k ∧ c.2.1 = r)) → tableAt i r k = "" := by
  have h0 : NeInv ⟨[], -1, 0⟩ := ⟨fun c hc => absurd hc List.not_mem_nil, List.Pairwise.nil, (fun c hc => by cases hc), Int.le_refl _, List.IsChain.nil, fun _ => ⟨rfl, rfl⟩⟩
  obtain ⟨h1, h2⟩ := ne_fold (outline 0 i) ⟨[], -1, 0⟩ h0 (fun _ => ne_head i 0)
  have he : cellsOf i = ((outline 0 i).foldl (fun t e => place t e.1 e.2) ⟨[], -1, 0⟩).cells := by
    unfold cellsOf; rw [ne_unpack]
  refine ⟨?_, ?_, ?_, ?_, ?_, ?_⟩
  · rw [he, h2]; rfl
  · rw [he]; exact h1.chain
  · have gen : ∀ (l : List (Nat × String)) (s : Sheet), s.cells ≠ [] → (l.foldl (fun t e => place t e.1 e.2) s).cells.head? = s.cells.head? := by
      intro l
      induction l with
      | nil => intro s _; rfl
      | cons e t ih =>
        intro s hs
        rw [List.foldl_cons, ih _ (List.append_ne_nil_of_right_ne_nil _ (List.cons_ne_nil _ _))]
        show (s.cells ++ _).head? = _
        rw [List.head?_append]
        cases hq : s.cells with
        | nil => exact absurd hq hs
        | cons a b => rfl
    intro c hc
    rw [he] at hc
    have hh := ne_head i 0
    generalize outline 0 i = l at hc hh
    cases l with
    | nil => cases hc
    | cons e t =>
      have h3 := hh e rfl
      rw [List.foldl_cons, gen _ _ (List.cons_ne_nil _ _)] at hc
      have : (place ⟨[], -1, 0⟩ e.1 e.2).cells.head? = some (e.1, 0, e.2) := by
        unfold place; rw [h3]; rfl
      rw [this] at hc
      cases hc
      rfl
  · rw [he]; exact h1.order
  · intro c hc
    refine ⟨(h1.rows c (he ▸ hc)).1, ?_⟩
    have ho : (cellsOf i).Pairwise ReadFirst := by rw [he]; exact h1.order
    unfold tableAt
    have huniq : ∀ x ∈ cellsOf i, ∀ y ∈ cellsOf i, x.1 = y.1 → x.2.1 = y.2.1 → x = y := by
      clear he hc
      generalize cellsOf i = l at ho
      induction l with
      | nil => intro x hx; cases hx
      | cons a t ih =>
        rw [List.pairwise_cons] at ho
        intro x hx y hy e1 e2
        rcases List.mem_cons.1 hx with rfl | hx' <;> rcases List.mem_cons.1 hy with rfl | hy'
        · rfl
        · have := ho.1 y hy'; unfold ReadFirst at this; omega
        · have := ho.1 x hx'; unfold ReadFirst at this; omega
        · exact ih ho.2 x hx' y hy' e1 e2
    cases hf : (cellsOf i).reverse.find? (fun d => decide (d.1 = c.1 ∧ d.2.1 = c.2.1)) with
    | none =>
      have := List.find?_eq_none.1 hf c (List.mem_reverse.2 hc)
      simp at this
    | some d =>
      have h3 := List.find?_some hf
      simp only [decide_eq_true_eq] at h3
      have h4 := huniq d (List.mem_reverse.1 (List.mem_of_find?_eq_some hf)) c hc h3.1 h3.2
      rw [h4]
      rfl
  · intro r k hno
    unfold tableAt
    have : (cellsOf i).reverse.find? (fun c => decide (c.1 = k ∧ c.2.1 = r)) = none := by
      rw [List.find?_eq_none]
      intro c hc
      have := hno c (List.mem_reverse.1 hc)
      simpa using this
    rw [this]
    rfl

/-- Settings by group. -/
def ne_some : Item :=
  .entry "mode" (.entry "car" (.leaf "1") (.entry "walk" (.element (.leaf "2") (.element (.leaf "3") .ended)) .ended)) (.entry "year" (.leaf "2020") (.entry "note" .ended .ended))

example : outline 0 ne_some = [(0, "mode"), (1, "car"), (2, "1"), (1, "walk"), (2, "2"), (2, "3"), (0, "year"), (1, "2020"), (0, "note")]
    ∧ cellsOf ne_some = [(0, 0, "mode"), (1, 0, "car"), (2, 0, "1"), (1, 1, "walk"), (2, 1, "2"), (2, 2, "3"), (0, 3, "year"), (1, 3, "2020"), (0, 4, "note")]
    ∧ tableAt ne_some 2 2 = "3" ∧ tableAt ne_some 2 0 = "" := by
  refine ⟨by decide +kernel, by decide +kernel, by decide +kernel, by decide +kernel⟩

/-- C192: of a frame in a dict only the labels of the columns are written: two frames with the same columns look the same, whatever they contain. -/
theorem C192_fails_frame (k : String) (columns : List String) (x y : List (List String)) (rest : Item) :
    cellsOf (.entry k (.frame columns x) rest) = cellsOf (.entry k (.frame columns y) rest) := rfl

/-- C192: nor can a value be told from a sequence of one value, nor a sequence in a sequence from one sequence. -/
theorem C192_fails_flat (k : String) (a b c : Item) :
    cellsOf (.entry k (.element a .ended) c) = cellsOf (.entry k a c)
      ∧ cellsOf (.entry k (.element (.element a .ended) b) c) = cellsOf (.entry k (.element a b) c) := ⟨rfl, rfl⟩

end Larch.Props
