import Verif.Model.Omx

/-!
# What a valid matrix file is
-/

namespace Larch.Omx.Spec

open Larch.Omx

variable {α : Type}

/-- Every matrix has the shape of the file. -/
def Matrices (f : File α) : Prop := ∀ e ∈ f.data, e.2.shape = f.shape

/-- Every lookup has the length of one of the two dimensions. -/
def Lookups (f : File α) : Prop := ∀ e ∈ f.lookup, e.2.len = f.shape.1 ∨ e.2.len = f.shape.2

/-- Names are distinct within each group. -/
def Names (f : File α) : Prop := (f.data.map Prod.fst).Nodup ∧ (f.lookup.map Prod.fst).Nodup

/-- The format's requirement. -/
structure Valid (f : File α) : Prop where
  matrices : Matrices f
  lookups : Lookups f
  names : Names f

/-- Two matrices are the same array. -/
def SameMat (a b : Mat α) : Prop := a.shape = b.shape ∧ ∀ i j, i < a.shape.1 → j < a.shape.2 → a.cell i j = b.cell i j

/-- Statements that respect the shape of the file as it is: shape checks are not switched off; while there is no matrix, lookups fit the
shape that was set and the shape is not changed under existing lookups; a file that is not square is cropped only if all its lookups have
the length of the first dimension. -/
def Careful (f : File α) : Op α → Prop
  | .setShape _ => f.data ≠ [] ∨ f.lookup = []
  | .addMatrix _ m _ ign => ign = false ∧ (f.data = [] → f.lookup = [] ∨ m.shape = f.shape)
  | .addLookup _ v _ ign => ign = false ∧ (f.data = [] → v.len = f.shape.1 ∨ v.len = f.shape.2)
  | .addBlankMatrix _ _ => True
  | .addBlankLookup _ _ => f.shape ≠ (0, 0) ∨ f.lookup = []
  | .setMatrix _ _ => True
  | .setLookup _ _ => True
  | .crop _ _ => f.shape.1 = f.shape.2 ∨ ∀ e ∈ f.lookup, e.2.len = f.shape.1

/-- A history of such statements. -/
def CarefulAll [Zero α] (f : File α) : List (Op α) → Prop
  | [] => True
  | o :: l => Careful f o ∧ CarefulAll (step f o).1 l

/-! ## Imported tables -/

/-- The number of the first zone. -/
def base (oneBased : Bool) : Int := if oneBased then 1 else 0

/-- What a table of row, column and value gives for a cell: the value of the last of its rows for that cell. -/
def lastAt (off : Int) (l : List (Int × Int × α)) (i j : Nat) : Option α :=
  ((l.filter (fun e => e.1 = i + off ∧ e.2.1 = j + off)).getLast?).map (fun e => e.2.2)

/-- All rows of the table lie in the matrix. -/
def InRange (off : Int) (shape : Nat × Nat) (l : List (Int × Int × α)) : Prop :=
  ∀ e ∈ l, off ≤ e.1 ∧ e.1 < shape.1 + off ∧ off ≤ e.2.1 ∧ e.2.1 < shape.2 + off

/-- The same for a table of zone and value. -/
def lastZone (off : Int) (l : List (Int × α)) (i : Nat) : Option α :=
  ((l.filter (fun e => e.1 = i + off)).getLast?).map (fun e => e.2)

/-- `data` are the cells at `(rows[k], cols[k])` of the named matrices. -/
def Pulled (f : File α) (rows cols : List Nat) (names : List String) (data : List (String × List α)) : Prop :=
  data.map Prod.fst = names ∧
  ∀ e ∈ data, ∃ m, Omx.get f.data e.1 = some m ∧ e.2.length = rows.length ∧
    ∀ (k : Nat) (hr : k < rows.length) (hc : k < cols.length), e.2[k]? = some (m.cell rows[k] cols[k])

end Larch.Omx.Spec
