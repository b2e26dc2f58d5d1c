import Verif.Model.Lookup
import Verif.Props.PodSelect

/-!
# C163: pods that look their data up
-/

namespace Larch.Props

open Larch.PodSelect Larch.Lookup

variable {α : Type}

/-- A matrix of `nr` rows and `nc` columns. -/
def MatrixOf (M : List (List α)) (nr nc : Nat) : Prop := M.length = nr ∧ ∀ row ∈ M, row.length = nc

/-- The cell of row `r` and column `c`. -/
def CellIs (M : List (List α)) (r c : Int) (x : α) : Prop := ∃ row, CaseHas M r row ∧ CaseHas row c x

/-- Numbers from 0 to `n - 1`. -/
def NumbersBelow (n : Nat) (l : List Int) : Prop := ∀ i ∈ l, 0 ≤ i ∧ i < n

theorem lk_wrap {n : Nat} {i : Int} (h1 : 0 ≤ i) (h2 : i < n) : wrapIndex n i = some i := by
  unfold wrapIndex
  rw [if_pos h1, if_pos h2]

theorem lk_at {β : Type} (l : List β) (i : Int) (h1 : 0 ≤ i) (h2 : i < l.length) : ∃ x, l[i.toNat]? = some x ∧ CaseHas l i x := by
  have hx : l[i.toNat]? = some (l[i.toNat]'(by omega)) := List.getElem?_eq_getElem (by omega)
  exact ⟨_, hx, h1, hx⟩

theorem lk_row (M : List (List α)) (r : Int) (h1 : 0 ≤ r) (h2 : r < M.length) : ∃ row, rowAt M r = some row ∧ CaseHas M r row := by
  obtain ⟨row, hx, hc⟩ := lk_at M r h1 h2
  exact ⟨row, by rw [rowAt, lk_wrap h1 h2, Option.bind_some, hx], hc⟩

theorem lk_cell {M : List (List α)} {nr nc : Nat} (hM : MatrixOf M nr nc) (r c : Int) (h1 : 0 ≤ r) (h2 : r < nr) (h3 : 0 ≤ c) (h4 : c < nc) :
    ∃ x, cellOf M (r, c) = some x ∧ CellIs M r c x := by
  obtain ⟨row, hr, hc⟩ := lk_row M r h1 (by rw [hM.1]; exact h2)
  have hlen := hM.2 row (List.mem_of_getElem? hc.2)
  obtain ⟨x, hx, hcx⟩ := lk_at row c h3 (by rw [hlen]; exact h4)
  refine ⟨x, ?_, row, hc, hcx⟩
  rw [cellOf, hr, Option.bind_some, hlen, lk_wrap h3 h4, Option.bind_some, hx]

theorem lk_mapM {β γ : Type} (f : β → Option γ) (P : β → γ → Prop) : ∀ l : List β, (∀ a ∈ l, ∃ b, f a = some b ∧ P a b) →
    ∃ v, l.mapM f = some v ∧ List.Forall₂ P l v
  | [], _ => ⟨[], rfl, .nil⟩
  | a :: l, h => by
    obtain ⟨b, hb, hP⟩ := h a (by simp)
    obtain ⟨v, hv, hf⟩ := lk_mapM f P l (fun x hx => h x (by simp [hx]))
    exact ⟨b :: v, by rw [List.mapM_cons, hb, hv]; rfl, .cons hP hf⟩

theorem lk_pick {s : Sel} {n : Nat} {ps : List Int} (h : positions s n = some ps) (a : List Int) (ha : a.length = n) :
    ∃ v, pickIndex s a = some v ∧ List.Forall₂ (CaseHas a) ps v := by
  obtain ⟨v, hv, hf⟩ := ps_take (col := a) ps (by rw [ha]; exact ps_in_range h)
  exact ⟨v, by rw [pickIndex, ha, h, Option.bind_some, hv], hf⟩

theorem lk_mem {β : Type} {col : List β} {i : Int} {x : β} (h : CaseHas col i x) : x ∈ col := List.mem_of_getElem? h.2

theorem lk_fill {β : Type} (k : Nat) (v : List β) (h : v.length = k) : fillRows k v = some v := by
  unfold fillRows
  rw [if_pos h]

theorem lk_zip {β γ δ : Type} {P : δ → β → Prop} {Q : δ → γ → Prop} {ps : List δ} {a : List β} {b : List γ} (h1 : List.Forall₂ P ps a)
    (h2 : List.Forall₂ Q ps b) : List.Forall₂ (fun i (e : β × γ) => P i e.1 ∧ Q i e.2) ps (a.zip b) := by
  induction h1 generalizing b with
  | nil => cases h2; exact .nil
  | cons p _ ih => cases h2 with | cons q h2 => exact .cons ⟨p, q⟩ (ih h2)

theorem lk_comp {β γ δ : Type} {P : β → γ → Prop} {Q : γ → δ → Prop} {ps : List β} {a : List γ} {b : List δ} (h1 : List.Forall₂ P ps a)
    (h2 : List.Forall₂ Q a b) : List.Forall₂ (fun i x => ∃ y, P i y ∧ Q y x) ps b := by
  induction h1 generalizing b with
  | nil => cases h2; exact .nil
  | cons p _ ih => cases h2 with | cons q h2 => exact .cons ⟨_, p, q⟩ (ih h2)

/-- C163: a pod of row and column numbers reads, for every selected case and in their order, the cell in the row and the column of the case,
and it does so whenever the selector makes sense. -/
theorem C163_row_and_column (M : List (List α)) (nr nc : Nat) (hM : MatrixOf M nr nc) (ri ci : List Int) (hlen : ci.length = ri.length)
    (hr : NumbersBelow nr ri) (hc : NumbersBelow nc ci) (s : Sel) (ps : List Int) (hp : positions s ri.length = some ps) :
    Selects ri.length s ps ∧ ∃ v, loadRC M ri ci s = some v ∧
      List.Forall₂ (fun i x => ∃ r c, CaseHas ri i r ∧ CaseHas ci i c ∧ CellIs M r c x) ps v := by
  refine ⟨ps_positions hp, ?_⟩
  obtain ⟨r, hr1, hr2⟩ := lk_pick hp ri rfl
  obtain ⟨c, hc1, hc2⟩ := lk_pick hp ci hlen
  have hz := lk_zip hr2 hc2
  have hall : ∀ e ∈ r.zip c, ∃ x, cellOf M e = some x ∧ CellIs M e.1 e.2 x := by
    intro e he
    obtain ⟨h1, h2⟩ := List.of_mem_zip he
    obtain ⟨k, hk, hk'⟩ := List.getElem_of_mem h1
    have hri : e.1 ∈ ri := by
      have := (List.forall₂_iff_get.1 hr2).2 k (by rw [(List.forall₂_iff_get.1 hr2).1]; exact hk) hk
      have := lk_mem this
      simpa [hk'] using this
    obtain ⟨k, hk, hk'⟩ := List.getElem_of_mem h2
    have hci : e.2 ∈ ci := by
      have := (List.forall₂_iff_get.1 hc2).2 k (by rw [(List.forall₂_iff_get.1 hc2).1]; exact hk) hk
      have := lk_mem this
      simpa [hk'] using this
    exact lk_cell hM e.1 e.2 (hr _ hri).1 (hr _ hri).2 (hc _ hci).1 (hc _ hci).2
  obtain ⟨v, hv, hf⟩ := lk_mapM _ _ _ hall
  have hvl : v.length = ps.length := by rw [← hf.length_eq, ← hz.length_eq]
  refine ⟨v, ?_, ?_⟩
  · rw [loadRC, C120_reserved_rows s _ _ hp, Option.bind_some, hr1, Option.bind_some, hc1, Option.bind_some, pairUp,
      if_pos (by rw [← hr2.length_eq, ← hc2.length_eq]), Option.bind_some, hv, Option.bind_some, lk_fill _ _ hvl]
  · refine (lk_comp hz hf).imp ?_
    rintro i x ⟨e, ⟨h1, h2⟩, h3⟩
    exact ⟨e.1, e.2, h1, h2, h3⟩

/-- C163: a number given for the rows or the columns stands for every case. -/
theorem C163_constant (like : List Int) (k : Int) (i : Int) (x : Int) :
    (constIndex like k).length = like.length ∧ (CaseHas (constIndex like k) i x ↔ 0 ≤ i ∧ i < like.length ∧ x = k) := by
  refine ⟨by simp [constIndex], ?_⟩
  unfold CaseHas constIndex
  rw [List.getElem?_replicate]
  constructor
  · rintro ⟨h1, h2⟩
    split_ifs at h2 with h
    exact ⟨h1, by omega, (Option.some.inj h2).symm⟩
  · rintro ⟨h1, h2, rfl⟩
    exact ⟨h1, by rw [if_pos (by omega)]⟩

theorem lk_mapM_none {β γ : Type} (f : β → Option γ) (l : List β) (a : β) (ha : a ∈ l) (h : f a = none) : l.mapM f = none := by
  induction l with
  | nil => cases ha
  | cons b l ih =>
    rw [List.mapM_cons]
    rcases List.mem_cons.1 ha with rfl | ha
    · rw [h]; rfl
    · rw [ih ha]
      cases f b <;> rfl

/-- C163: a selected case whose row or column is beyond the end raises. -/
theorem C163_beyond (M : List (List α)) (nr nc : Nat) (hM : MatrixOf M nr nc) (ri ci : List Int) (hlen : ci.length = ri.length)
    (s : Sel) (ps : List Int) (hp : positions s ri.length = some ps) (i r c : Int) (hi : i ∈ ps) (hr : CaseHas ri i r) (hc : CaseHas ci i c)
    (h : nr ≤ r ∨ nc ≤ c) : loadRC M ri ci s = none := by
  obtain ⟨rs, hr1, hr2⟩ := lk_pick hp ri rfl
  obtain ⟨cs, hc1, hc2⟩ := lk_pick hp ci hlen
  have hz := lk_zip hr2 hc2
  have hmem : (r, c) ∈ rs.zip cs := by
    obtain ⟨k, hk, hk'⟩ := List.getElem_of_mem hi
    have hkz : k < (rs.zip cs).length := by rw [← hz.length_eq]; exact hk
    have := (List.forall₂_iff_get.1 hz).2 k hk hkz
    simp only [List.get_eq_getElem, hk'] at this
    have e1 : (rs.zip cs)[k].1 = r := by
      have h1 := this.1.2
      rw [hr.2] at h1
      exact (Option.some.inj h1).symm
    have e2 : (rs.zip cs)[k].2 = c := by
      have h1 := this.2.2
      rw [hc.2] at h1
      exact (Option.some.inj h1).symm
    rw [show (r, c) = (rs.zip cs)[k] from Prod.ext e1.symm e2.symm]
    exact List.getElem_mem hkz
  have hnone : cellOf M (r, c) = none := by
    unfold cellOf rowAt
    rcases h with h | h
    · have : wrapIndex M.length r = none := by
        unfold wrapIndex
        rw [if_pos (by omega), if_neg (by rw [hM.1]; omega)]
      simp only [this, Option.bind_none]
    · rcases hw : wrapIndex M.length r with _ | k
      · rfl
      · simp only [Option.bind_some]
        rcases hk : M[k.toNat]? with _ | row
        · rfl
        · have hl := hM.2 row (List.mem_of_getElem? hk)
          have : wrapIndex row.length c = none := by
            unfold wrapIndex
            rw [if_pos (by omega), if_neg (by omega)]
          simp only [Option.bind_some, this, Option.bind_none]
  rw [loadRC, C120_reserved_rows s _ _ hp, Option.bind_some, hr1, Option.bind_some, hc1, Option.bind_some, pairUp,
      if_pos (by rw [← hr2.length_eq, ← hc2.length_eq]), Option.bind_some, lk_mapM_none _ _ _ hmem hnone]
  rfl

/-- C163 fails: a negative row number, such as -1 for a case which has no row, is not refused: the case gets the cell of another row,
counted from the end. -/
theorem C163_fails_negative (M : List (List α)) (nr nc : Nat) (hM : MatrixOf M nr nc) (r c : Int) (hr : r < 0) (hr' : 0 ≤ r + nr) (hc : 0 ≤ c)
    (hc' : c < nc) : ∃ x, loadRC M [r] [c] .all = some [x] ∧ CellIs M (r + nr) c x := by
  obtain ⟨x, hx, hcell⟩ := lk_cell hM (r + nr) c hr' (by omega) hc hc'
  refine ⟨x, ?_, hcell⟩
  have : cellOf M (r, c) = some x := by
    rw [← hx]
    have e : wrapIndex M.length r = wrapIndex M.length (r + nr) := by
      rw [lk_wrap hr' (by rw [hM.1]; omega)]
      unfold wrapIndex
      rw [if_neg (by omega), hM.1, if_pos hr']
    simp only [cellOf, rowAt, e]
  have h1 : pickIndex .all [r] = some [r] := rfl
  have h2 : pickIndex .all [c] = some [c] := rfl
  rw [loadRC, h1, h2]
  simp [selLen, pairUp, this, fillRows]

/-- C163: read as data of the alternatives, every alternative has the value of the case. -/
theorem C163_as_idca (M : List (List α)) (ri ci : List Int) (nAlts : Nat) (s : Sel) (v : List α) (h : loadRC M ri ci s = some v) :
    ∃ rows, loadRCasCA M ri ci nAlts s = some rows ∧ List.Forall₂ (fun x row => row.length = nAlts ∧ ∀ y ∈ row, y = x) v rows := by
  refine ⟨v.map (List.replicate nAlts), by rw [loadRCasCA, h]; rfl, ?_⟩
  clear h
  induction v with
  | nil => exact .nil
  | cons x v ih => exact .cons ⟨by simp, fun y hy => (List.mem_replicate.1 hy).2⟩ ih

theorem lk_sqz_same (k m nAlts : Nat) (h : k = m) : ¬ sqz [k, nAlts] ≠ sqz [m, nAlts] := by rw [h]; simp

/-- C163: an idga pod of two or more cases, or of row numbers taken from the pod, reads for every selected case the whole row of the case. -/
theorem C163_rows (M : List (List α)) (nr nc : Nat) (hM : MatrixOf M nr nc) (ri : List Int) (asArray : Bool) (h1 : asArray = true → ri.length ≠ 1)
    (hr : NumbersBelow nr ri) (s : Sel) (ps : List Int) (hp : positions s ri.length = some ps) :
    Selects ri.length s ps ∧ ∃ v, loadGA M (makeRowIx asArray ri) nc s ps.length = some v ∧
      List.Forall₂ (fun i row => ∃ r, CaseHas ri i r ∧ CaseHas M r row) ps v := by
  refine ⟨ps_positions hp, ?_⟩
  have hix : makeRowIx asArray ri = .many ri := by
    unfold makeRowIx
    split
    · rename_i r
      cases asArray with
      | true => exact absurd rfl (h1 rfl)
      | false => rfl
    · rfl
  obtain ⟨rs, hr1, hr2⟩ := lk_pick hp ri rfl
  have hall : ∀ r ∈ rs, ∃ row, rowAt M r = some row ∧ CaseHas M r row := by
    intro r hmem
    obtain ⟨k, hk, hk'⟩ := List.getElem_of_mem hmem
    have := (List.forall₂_iff_get.1 hr2).2 k (by rw [(List.forall₂_iff_get.1 hr2).1]; exact hk) hk
    have hri : r ∈ ri := by simpa [hk'] using lk_mem this
    exact lk_row M r (hr r hri).1 (by rw [hM.1]; exact (hr r hri).2)
  obtain ⟨v, hv, hf⟩ := lk_mapM _ _ _ hall
  have hvl : v.length = ps.length := by rw [← hf.length_eq, ← hr2.length_eq]
  refine ⟨v, ?_, lk_comp hr2 hf⟩
  rw [hix]
  simp only [loadGA, shapeGA, List.headD_cons, List.tail_cons]
  simp only [C120_reserved_rows s _ _ hp, Option.bind_some, hr1, hv, lk_fill _ _ hvl, ne_eq, not_true_eq_false, if_false]

/-- C163 fails: with a single case, whose row number is given as an array, the pod of two or more alternatives cannot be read. -/
theorem C163_fails_single_row (M : List (List α)) (r : Int) (nc : Nat) (h : 2 ≤ nc) (s : Sel) :
    loadGA M (makeRowIx true [r]) nc s 1 = none := by
  have h1 : sqz [1, nc] = [1, nc] := by
    unfold sqz
    simp only [List.reverse_cons, List.reverse_nil, List.nil_append, List.cons_append]
    rw [List.dropWhile_cons_of_neg (by simp; omega)]
    rfl
  simp only [makeRowIx, if_true, loadGA, shapeGA, List.headD_cons, List.tail_cons]
  rcases selLen s nc with _ | m
  · rfl
  · rw [Option.bind_some, if_pos]
    rw [h1]
    intro he
    have := congrArg List.length he
    unfold sqz at this
    rw [List.length_reverse] at this
    have hle : ((([m].reverse : List Nat)).dropWhile (fun d => decide (d = 1))).length ≤ [m].reverse.length := (List.dropWhile_sublist _).length_le
    simp only [List.length_reverse, List.length_cons, List.length_nil] at this hle
    omega

/-- C163: an id0a pod of two or more alternatives gives every selected case the same stored row. -/
theorem C163_shared (row : List α) (h : row.length ≠ 1) (n : Nat) (s : Sel) (ps : List Int) (hp : positions s n = some ps) :
    ∃ v, loadShared [row] n s = some v ∧ v.length = ps.length ∧ ∀ x ∈ v, x = row := by
  refine ⟨List.replicate ps.length row, ?_, by simp, fun x hx => (List.mem_replicate.1 hx).2⟩
  simp [loadShared, C120_reserved_rows s n ps hp, h]

/-- C163 fails: with a single alternative an id0a pod cannot be read. -/
theorem C163_fails_shared_single (x : α) (n : Nat) (s : Sel) : loadShared [[x]] n s = none := by
  unfold loadShared
  cases selLen s n <;> simp

/-- C163: a stack of expressions gives every selected case, for every alternative, the value of the expression the bunch names for it, or that
of `0` when it names none. -/
theorem C163_stack (eval : String → Option (List α)) (n : Nat) (hn : ∀ e col, eval e = some col → col.length = n) (codes : List Int)
    (bunches : List (String × List (Int × String))) (name : String) (bunch : List (Int × String)) (hb : bunches.lookup name = some bunch)
    (hc : codes ≠ []) (hev : ∀ a ∈ codes, ∃ col, eval ((bunch.lookup a).getD "0") = some col) (s : Sel) (ps : List Int)
    (hp : positions s n = some ps) :
    Selects n s ps ∧ ∃ cols, loadStack eval n codes bunches name s = some cols ∧
      List.Forall₂ (fun a col => (∀ e, bunch.lookup a = some e → ∃ all, eval e = some all ∧ List.Forall₂ (CaseHas all) ps col) ∧
        (bunch.lookup a = none → ∃ all, eval "0" = some all ∧ List.Forall₂ (CaseHas all) ps col)) codes cols := by
  refine ⟨ps_positions hp, ?_⟩
  have hall : ∀ a ∈ codes, ∃ col, (eval ((bunch.lookup a).getD "0")).bind (readCol n s) = some col ∧
      ((∀ e, bunch.lookup a = some e → ∃ all, eval e = some all ∧ List.Forall₂ (CaseHas all) ps col) ∧
        (bunch.lookup a = none → ∃ all, eval "0" = some all ∧ List.Forall₂ (CaseHas all) ps col)) := by
    intro a ha
    obtain ⟨all, hall⟩ := hev a ha
    have hl := hn _ _ hall
    obtain ⟨v, hv, hf⟩ := ps_take (col := all) ps (by rw [hl]; exact ps_in_range hp)
    have hread : readCol n s all = some v := by
      rw [readCol, C120_reserved_rows s n ps hp, Option.bind_some, hp, Option.bind_some, hv, Option.bind_some, if_pos hf.length_eq.symm]
    refine ⟨v, by rw [hall, Option.bind_some, hread], ?_, ?_⟩
    · intro e he
      rw [he] at hall
      exact ⟨all, hall, hf⟩
    · intro he
      rw [he] at hall
      exact ⟨all, hall, hf⟩
  obtain ⟨cols, hcols, hf⟩ := lk_mapM _ _ _ hall
  refine ⟨cols, ?_, hf⟩
  rw [loadStack, if_neg hc, hb, Option.bind_some, bunchItems, List.mapM_map]
  exact hcols

/-- C163: a name which is no bunch raises. -/
theorem C163_stack_unknown (eval : String → Option (List α)) (n : Nat) (codes : List Int) (bunches : List (String × List (Int × String)))
    (name : String) (hb : bunches.lookup name = none) (s : Sel) : loadStack eval n codes bunches name s = none := by
  rw [loadStack, hb]
  split <;> rfl

/-- Three zones, and four trips between them. -/
def skimOf3 : List (List Nat) := [[0, 1, 2], [10, 11, 12], [20, 21, 22]]

example : MatrixOf skimOf3 3 3 ∧ NumbersBelow 3 [2, 0, 1, 1] ∧ loadRC skimOf3 [2, 0, 1, 1] [1, 1, 0, 2] (.mask [true, false, true, true]) = some [21, 10, 12] ∧
    loadRC skimOf3 [2, -1] [1, 1] .all = some [21, 21] ∧ loadRC skimOf3 [2, 3] [1, 1] .all = none :=
  ⟨⟨rfl, by decide⟩, by unfold NumbersBelow; decide, by decide, by decide, by decide⟩

example : loadGA skimOf3 (makeRowIx true [2, 0]) 3 (.index [1]) 1 = some [[0, 1, 2]] ∧ loadGA skimOf3 (makeRowIx false [2]) 3 .all 1 = some [[20, 21, 22]] :=
  ⟨by decide, by decide⟩

def stackEval : String → Option (List Nat)
  | "a" => some [1, 2]
  | "b" => some [3, 4]
  | "0" => some [0, 0]
  | _ => none

example : loadStack stackEval 2 [7, 8, 9] [("t", [(7, "a"), (9, "b")])] "t" (.index [1]) = some [[2], [0], [4]] := by decide

end Larch.Props
