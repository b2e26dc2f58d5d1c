import Verif.Model.Dataset

/-!
# What a dataset built from a data frame should hold

Vocabulary for property C84, about the inputs and outputs only.
-/

namespace Larch.DatasetM

/-- What a user reads from a dataset: the value of variable `k` for case `c` and alternative `a` (a variable without an
alternatives dimension has the same value for all of them); `none` if there is no such variable. -/
def DS.read {κ K : Type} (ds : DS κ K) (k : String) (c : κ) (a : Label) : Option (Option K) :=
  match ds.vars.lookup k with
  | none => none
  | some ⟨_, .ca v⟩ => some (v c a)
  | some ⟨_, .co v⟩ => some (v c)

/-- A data frame as pandas makes them: distinct levels, codes that are positions among the levels, columns with one value
per row and different names, and no NaN in integer columns. -/
structure Frame.Ok {κ K : Type} (f : Frame κ K) : Prop where
  levels : f.levels.Nodup
  codes : ∀ r ∈ f.rows, r.2 < f.levels.length
  lengths : ∀ nc ∈ f.cols, nc.2.vals.length = f.rows.length
  names : (f.cols.map Prod.fst).Nodup
  ints : ∀ nc ∈ f.cols, nc.2.dtype = .int → ∀ x ∈ nc.2.vals, x ≠ none

/-- Row number `i` of the frame is for case `c` and the alternative labelled `a`. -/
def Frame.RowAt {κ K : Type} (f : Frame κ K) (i : Nat) (c : κ) (a : Label) : Prop :=
  ∃ code, f.rows[i]? = some (c, code) ∧ f.levels[code]? = some a

/-- The value of column `k` in row `i` is `x` (`none` for NaN). -/
def Frame.Value {κ K : Type} (f : Frame κ K) (i : Nat) (k : String) (x : Option K) : Prop :=
  ∃ col, (k, col) ∈ f.cols ∧ col.vals[i]? = some x

/-- The label under which an alternative is found in the dataset: its own if all labels are integers; otherwise its
number, counted from one, in the given list of names or else among the levels of the index. -/
def Frame.NewLabel {κ K : Type} (f : Frame κ K) (names : Option Names) (a b : Label) : Prop :=
  ((∀ l ∈ f.levels, ∃ i, l = .int i) ∧ b = a) ∨
  ((∃ l ∈ f.levels, ∃ s, l = .str s) ∧
    match names with
    | none => ∃ j : Nat, f.levels[j]? = some a ∧ b = .int (j + 1 : Nat)
    | some (.map _) => False
    | some (.seq l) => ∃ s, ∃ j : Nat, a = .str s ∧ l[j]? = some s ∧ (∀ i < j, l[i]? ≠ some s) ∧ b = .int (j + 1 : Nat))

end Larch.DatasetM
