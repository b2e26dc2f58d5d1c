import Verif.Props.PodCopy

/-!
# C183, continued: shapes and positions
-/

namespace Larch.Props
open Larch.PodCopy

variable {V : Type}

theorem cy_prod (q : Nat) (s : List Int) (h : ∀ d ∈ s, -1 ≤ d) :
    (s.map (fun d => if d = -1 then q else d.toNat)).prod = q ^ (s.count (-1)) * given s := by
  unfold given
  induction s with
  | nil => simp
  | cons a t ih =>
    have ih' := ih (fun d hd => h d (List.mem_cons_of_mem _ hd))
    have ha := h a List.mem_cons_self
    rw [List.map_cons, List.prod_cons, ih']
    by_cases e : a = -1
    · subst e
      simp [pow_succ]
      ring
    · have h0 : 0 ≤ a := by omega
      rw [if_neg e, List.count_cons_of_ne e, List.filter_cons_of_pos (p := fun d : Int => decide (0 ≤ d)) (by simpa using h0), List.map_cons, List.prod_cons]
      ring

/-- **C183 (shapes).**  A shape that is accepted has as many places as there are values, and the dimensions that are asked for; at most one is left open, and none is
less than -1. -/
theorem C183_shape (n : Nat) (s : List Int) (t : List Nat) (h : resolve n s = some t) :
    t.prod = n ∧ t.length = s.length ∧ s.count (-1) ≤ 1 ∧ ∀ (i : Nat) (d : Int), s[i]? = some d → d = -1 ∨ (0 ≤ d ∧ t[i]? = some d.toNat) := by
  unfold resolve at h
  split_ifs at h with h1 h2 h3 h4
  · cases h
    have hge : ∀ d ∈ s, -1 ≤ d := by
      intro d hd
      by_contra hlt
      exact h1 (List.any_eq_true.2 ⟨d, hd, by simpa using hlt⟩)
    have hno : ∀ d ∈ s, 0 ≤ d := by
      intro d hd
      have h5 := hge d hd
      have h6 : d ≠ -1 := fun e => List.count_eq_zero.1 h2 (e ▸ hd)
      omega
    refine ⟨?_, List.length_map _, by omega, ?_⟩
    · rw [← h3]
      have := cy_prod 0 s hge
      rw [h2, pow_zero, one_mul] at this
      rw [← this]
      exact congrArg List.prod (List.map_congr_left (fun d hd => by rw [if_neg (by have := hno d hd; omega)]))
    · intro i d hd
      exact Or.inr ⟨hno d (List.mem_of_getElem? hd), by rw [List.getElem?_map, hd]; rfl⟩
  · cases h
    have hge : ∀ d ∈ s, -1 ≤ d := by
      intro d hd
      by_contra hlt
      exact h1 (List.any_eq_true.2 ⟨d, hd, by simpa using hlt⟩)
    refine ⟨?_, List.length_map _, by omega, ?_⟩
    · rw [cy_prod _ s hge, h4.1, pow_one]
      exact Nat.div_mul_cancel h4.2.2
    · intro i d hd
      by_cases e : d = -1
      · exact Or.inl e
      · refine Or.inr ⟨by have := hge d (List.mem_of_getElem? hd); omega, ?_⟩
        rw [List.getElem?_map, hd]
        exact congrArg some (if_neg e)

example : resolve 12 [3, -1, 2] = some [3, 2, 2] ∧ resolve 12 [5, 2] = none ∧ resolve 12 [-2, 6] = none ∧ resolve 12 [-1, -1] = none := by decide

/-- **C183 (from the end).**  Negative row and column numbers count from the end. -/
theorem C183_pluck_from_end (p : Pod V) (f : Matrices V) (idx : String → Option (List Int)) (r c : List Int) (names : Names) (overwrite : Bool)
    (hr : ∀ i ∈ r, -(f.rows : Int) ≤ i ∧ i < f.rows) (hc : ∀ i ∈ c, -(f.cols : Int) ≤ i ∧ i < f.cols) :
    pluck p f idx (.array r) (.array c) names overwrite =
      pluck p f idx (.array (r.map (fun i => if i < 0 then i + f.rows else i))) (.array (c.map (fun i => if i < 0 then i + f.cols else i))) names overwrite := by
  have hw : ∀ (n : Nat) (i : Int), -(n : Int) ≤ i ∧ i < n → wrap n i = wrap n (if i < 0 then i + n else i) := by
    intro n i h
    by_cases h0 : i < 0
    · rw [if_pos h0]
      unfold wrap
      rw [if_neg (by omega), if_pos ⟨h.1, h0⟩, if_pos (by omega)]
    · rw [if_neg h0]
  have hone : ∀ (page : String), pluckTable f page (r, c) = pluckTable f page (r.map (fun i => if i < 0 then i + f.rows else i), c.map (fun i => if i < 0 then i + f.cols else i)) := by
    intro page
    unfold pluckTable
    simp only [List.length_map, List.zip_map]
    cases f.data.lookup page with
    | none => rfl
    | some M =>
      dsimp only
      have : List.mapM (pluckOne f M) (r.zip c) = List.mapM (pluckOne f M) ((r.zip c).map (Prod.map (fun i => if i < 0 then i + f.rows else i) (fun i => if i < 0 then i + f.cols else i))) := by
        have hz : ∀ e ∈ r.zip c, pluckOne f M e = pluckOne f M (Prod.map (fun i => if i < 0 then i + f.rows else i) (fun i => if i < 0 then i + f.cols else i) e) := by
          intro e he
          obtain ⟨h1, h2⟩ := List.of_mem_zip (show (e.1, e.2) ∈ r.zip c from he)
          unfold pluckOne
          simp only [Prod.map]
          rw [hw f.rows e.1 (hr _ h1), hw f.cols e.2 (hc _ h2)]
        generalize r.zip c = l at hz
        induction l with
        | nil => rfl
        | cons a t ih =>
          rw [List.map_cons, List.mapM_cons, List.mapM_cons, ← hz a List.mem_cons_self, ← ih (fun e he => hz e (List.mem_cons_of_mem _ he))]
      rw [this]
  have hloop : ∀ (l : List (String × String)) (p : Pod V), pluckLoop f (r, c) overwrite l p =
      pluckLoop f (r.map (fun i => if i < 0 then i + f.rows else i), c.map (fun i => if i < 0 then i + f.cols else i)) overwrite l p := by
    intro l
    induction l with
    | nil => intro p; rfl
    | cons a t ih =>
      intro p
      obtain ⟨page, new⟩ := a
      simp only [pluckLoop]
      rw [← hone]
      cases pluckTable f page (r, c) with
      | error e => rfl
      | ok l => dsimp only; cases addArray p new _ overwrite with
        | mk q o => cases o with
          | none => exact ih q
          | some e => rfl
  simp only [pluck, pairOf, indexOf, Except.bind, Except.map, hloop]

example : (∀ i ∈ ([-1, 0] : List Int), -(distances.rows : Int) ≤ i ∧ i < distances.rows) ∧ (∀ i ∈ ([0, -2] : List Int), -(distances.cols : Int) ≤ i ∧ i < distances.cols) := by
  decide

/-- **C183 (lookups).**  A page that is a lookup, or is not in the file, raises, and nothing is added. -/
theorem C183_pluck_no_page (p : Pod V) (f : Matrices V) (idx : String → Option (List Int)) (r c : List Int) (page new : String) (rest : List (String × String)) (overwrite : Bool)
    (h : page ∈ f.lookups ∨ f.data.lookup page = none) :
    pluck p f idx (.array r) (.array c) (.dict ((page, new) :: rest)) overwrite = (p, some .keyError) := by
  have : pluckTable f page (r, c) = .error .keyError := by
    unfold pluckTable
    cases hq : f.data.lookup page with
    | none => rfl
    | some M =>
      rcases h with h | h
      · simp only [if_pos h]
      · rw [hq] at h; cases h
  simp only [pluck, pairOf, indexOf, Except.bind, Except.map, Names.toDict, Option.getD_some, pluckLoop, this]

end Larch.Props
