import Verif.Model.Vault

/-!
# What a vault should be: the history of values of each key
-/

namespace Larch.VaultSpec

open Larch.Vault

variable {V : Type}

/-- The values given to `k` since it was last deleted, oldest first. -/
def values (k : Name) : List (Op V) → List V → List V
  | [], acc => acc
  | .set j x :: r, acc => values k r (if j = k then acc ++ [x] else acc)
  | .del j :: r, acc => values k r (if j = k then [] else acc)

/-- The key an operation is about. -/
def Op.key : Op V → Name
  | .set k _ => k
  | .del k => k

/-- Letters, digits, underscores and dots. -/
def Plain (k : Name) : Prop := ∀ c ∈ k, c.isAlphanum = true ∨ c = '_' ∨ c = '.'

/-- A pattern is found in a name: at some place each of its characters is a dot or is the character there. -/
def FoundIn (p s : Name) : Prop := ∃ a m b, s = a ++ m ++ b ∧ List.Forall₂ (fun p c => p = '.' ∨ p = c) p m

/-- No key is found in another. -/
def Apart (K : List Name) : Prop := ∀ j ∈ K, ∀ k ∈ K, j ≠ k → ¬ FoundIn j (safe k)

end Larch.VaultSpec
