import Verif.Model.PodSelect
import Mathlib.Data.List.Forall2

/-!
# What a selector selects
-/

namespace Larch.PodSelect

/-- The cases a selector stands for, in order, out of `n`. -/
inductive Selects (n : Nat) : Sel → List Int → Prop
  /-- all of them -/
  | all (ps : List Int) : ps.length = n → (∀ k : Nat, k < n → ps[k]? = some (k : Int)) → Selects n .all ps
  /-- from the start of the slice in steps, as long as the stop is not reached -/
  | slice (s : Slice) (ps : List Int) : s.stepOf ≠ 0 →
      (∀ (k : Nat) (c : Int), ps[k]? = some c ↔ c = s.startOf n s.stepOf + k * s.stepOf ∧
        ((0 < s.stepOf ∧ c < s.stopOf n s.stepOf) ∨ (s.stepOf < 0 ∧ s.stopOf n s.stepOf < c))) → Selects n (.slice s) ps
  /-- in increasing order, those marked -/
  | mask (m : List Bool) (ps : List Int) : m.length = n → ps.Pairwise (· < ·) →
      (∀ c : Int, c ∈ ps ↔ 0 ≤ c ∧ m[c.toNat]? = some true) → Selects n (.mask m) ps
  /-- those listed, negative numbers counted from the end -/
  | index (i ps : List Int) : List.Forall₂ (fun (j c : Int) => (c = j ∨ c = j + n) ∧ 0 ≤ c ∧ c < n ∧ (0 ≤ j → c = j)) i ps → Selects n (.index i) ps

/-- The data in a column for a case. -/
def CaseHas {β : Type} (col : List β) (c : Int) (x : β) : Prop := 0 ≤ c ∧ col[c.toNat]? = some x

/-- The columns of a service have an entry for each case, and its data of the alternatives are rectangular. -/
structure Whole {α : Type} (d : Svc α) : Prop where
  co : ∀ v c, d.co v = some c → c.length = d.n
  ca : ∀ v c, d.ca v = some c → c.length = d.n ∧ ∃ w, ∀ r ∈ c, r.length = w

end Larch.PodSelect
