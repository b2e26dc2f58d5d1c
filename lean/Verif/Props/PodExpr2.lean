import Verif.Props.PodExpr

/-!
# C189: expressions of another length, and slices that are not last
-/

namespace Larch.Props

open Larch.PodExpr Larch.PodExprSpec

set_option linter.unusedSectionVars false

variable {K : Type} [DecidableEq K] [Zero K] [One K]

/-- **C189.** An expression whose value has another length than the selection: one value is given to every case, anything else is refused. -/
theorem C189_lengths (p : Pod K) (hp : Whole p) (sel : Option (List Nat)) (hw : Within p sel) (f : List K → List K) (n : String)
    (hn : n ∈ p.vars.map Prod.fst) (m : Nat) (hm : (positions p sel).length = m) (r : List K)
    (hr : f ((positions p sel).map (fun i => stored p i n)) = r) :
    (∀ x, r = [x] → loadItem p true sel (.whole f (.var n)) = .ok (List.replicate m x)) ∧
    (r.length = m → loadItem p true sel (.whole f (.var n)) = .ok r) ∧
    (r.length ≠ 1 → r.length ≠ m → loadItem p true sel (.whole f (.var n)) = .error .value) := by
  have hsel : selected p sel = m := by
    rw [← hm]
    cases sel with
    | none => simp [selected, positions]
    | some s => rfl
  have h0 : loadItem p true sel (.whole f (.var n)) = fill m (.array r) := by
    simp only [loadItem, hasVar, Bool.not_true, Bool.and_false, Bool.false_and, Bool.false_eq_true, if_false, evaluate, asterize, ev]
    rw [px_fetch p hp sel hw n hn]
    simp only [Except.map, Except.bind, onAll, hr, hsel]
  rw [h0]
  refine ⟨?_, px_fill m r, ?_⟩
  · rintro x rfl
    rfl
  · intro h1 h2
    match r, h1, h2 with
    | [], _, h2 => simpa [fill] using h2
    | [x], h1, _ => exact absurd rfl h1
    | x :: y :: r, _, h2 => simpa [fill] using h2

/-- **C189.** A number is given to every case. -/
theorem C189_number (p : Pod K) (native : Bool) (sel : Option (List Nat)) (x : K) :
    loadItem p native sel (.lit x) = .ok (List.replicate (positions p sel).length x) := by
  have h : selected p sel = (positions p sel).length := by
    cases sel with
    | none => simp [selected, positions]
    | some s => rfl
  simp only [loadItem, hasVar, Bool.and_false, Bool.false_eq_true, if_false, evaluate, asterize, ev, Except.bind, fill, h]

/-- **C189.** A slice that is not the last part of the key is an error. -/
theorem C189_slice_not_last (p : Pod K) (a b : List (Part K)) (s : List Nat) (hb : b ≠ []) :
    ∃ x, getItem p (a ++ [.slice s] ++ b) = .error x := by
  have hcol : ∀ (sel : Option (List Nat)) (u v : List (Part K)), ∃ x, (u ++ [Part.slice s] ++ v).mapM (column p sel) = .error x := by
    intro sel u v
    induction u with
    | nil => exact ⟨.type, by simp only [List.nil_append, List.cons_append, List.mapM_cons, column]; rfl⟩
    | cons e r ih =>
      obtain ⟨x, hx⟩ := ih
      simp only [List.cons_append, List.mapM_cons]
      cases h : column p sel e with
      | error y => exact ⟨y, rfl⟩
      | ok w => exact ⟨x, by rw [hx]; rfl⟩
  obtain ⟨c, l, rfl⟩ : ∃ c l, b = c ++ [l] := ⟨b.dropLast, b.getLast hb, (List.dropLast_append_getLast hb).symm⟩
  unfold getItem
  rw [← List.append_assoc, List.getLast?_concat]
  cases l with
  | text e => exact (by rw [List.append_assoc _ c]; exact hcol none a (c ++ [Part.text e]))
  | other => exact (by rw [List.append_assoc _ c]; exact hcol none a (c ++ [Part.other]))
  | slice t =>
    show ∃ x, (if 2 ≤ (a ++ [Part.slice s] ++ c ++ [Part.slice t]).length then
      (a ++ [Part.slice s] ++ c ++ [Part.slice t]).dropLast.mapM (column p (some t)) else .error .type) = .error x
    rw [List.dropLast_concat]
    split
    · exact hcol (some t) a c
    · exact ⟨_, rfl⟩

example : loadItem pxPod true (some [2, 0]) (.whole (fun l => l ++ l) (.var "cost")) = .error .value ∧
    loadItem pxPod true (some [2, 0]) (.whole (fun l => l.take 1) (.var "cost")) = .ok [8, 8] := by decide

end Larch.Props
