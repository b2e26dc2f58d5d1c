import Verif.Model.OmxRemap
import Verif.Spec.Omx

/-!
# What a matrix file made from another one holds
-/

namespace Larch.Omx.Spec

open Larch.Omx

variable {α : Type}

/-- The positions that are meant in a dimension of length `n`. -/
def places (s : Option Sel) (n : Nat) : List Nat :=
  match s with
  | some (.at l) => l
  | _ => List.range n

/-- The positions are different ones, and all inside. -/
def Inside (s : Option Sel) (n : Nat) : Prop := (places s n).Nodup ∧ ∀ i ∈ places s n, i < n

/-- Columns of width `b` go to columns of width `a`: as many on both sides, all of them there. -/
def Match (new old : Option Sel) (a b : Nat) : Prop :=
  Inside new a ∧ Inside old b ∧ (places new a).length = (places old b).length

/-- What a named matrix of the file says about a cell; zero if there is no such matrix. -/
def cellOf [Zero α] (f : File α) (n : String) (i j : Nat) : α := ((get f.data n).map (fun m => m.cell i j)).getD 0

/-- The same for a lookup. -/
def entryOf [Zero α] (f : File α) (n : String) (i : Nat) : α := ((get f.lookup n).map (fun v => v.cell i)).getD 0

end Larch.Omx.Spec
