import Mathlib.Data.List.Basic
/-!
# Levels of a MultiIndex

Models `larch/util/multiindex.py`: `remove_unused_level` (5-75), used by `make_dataframes`
(dataframes.pyx:3121), and `replace_levels` (78-111).

A MultiIndex is a list of levels, each with its labels and one code for every row: the place of
the row's label among the labels, or -1 for a missing label.
-/

namespace Larch.MultiIdx

/-- One level. -/
structure Level (L : Type) where
  labels : List L
  codes : List Int
  deriving DecidableEq

/-- The entries -1, 0, … which occur: `np.where(np.bincount(level_codes + 1) > 0)[0] - 1`
(multiindex.py:39); codes lie below the number of labels. -/
def occurring (n : Nat) (codes : List Int) : List Int :=
  ((List.range (n + 1)).map fun (i : Nat) => (i : Int) - 1).filter fun c => decide (c ∈ codes)

/-- `int(len(uniques) and (uniques[0] == -1))` (multiindex.py:40). -/
def hasNa (n : Nat) (codes : List Int) : Nat := if (occurring n codes).head? = some (-1) then 1 else 0

/-- `algos.unique` (multiindex.py:50): the distinct entries in order of first appearance. -/
def firsts : List Int → List Int
  | [] => []
  | c :: cs => c :: (firsts cs).filter fun d => decide (d ≠ c)

/-- `uniques[[0, na_idx[0]]] = uniques[[na_idx[0], 0]]` (multiindex.py:52-54): the first entry and
the first -1 are exchanged. -/
def naFirst (u : List Int) : List Int :=
  match u with
  | [] => []
  | c :: _ => (u.set (u.idxOf (-1)) c).set 0 (-1)

/-- An index into an array of length `n`, negative ones counting from the end. -/
def wrap (n : Nat) (i : Int) : Nat := if 0 ≤ i then i.toNat else (n + i).toNat

/-- `code_mapping[uniques] = np.arange(len(uniques)) - has_na` on zeros (multiindex.py:58-60);
`n` is the length of `code_mapping`. -/
def codeMapping (n na : Nat) (u : List Int) : List Int :=
  (u.zipIdx.map fun p => (wrap n p.1, (p.2 : Int) - na)).foldl (fun m q => m.set q.1 q.2) (List.replicate n 0)

/-- One level of `remove_unused_level` (multiindex.py:33-65). -/
def removeUnused {L : Type} (l : Level L) : Level L :=
  let n := l.labels.length
  let na := hasNa n l.codes
  if (occurring n l.codes).length = n + na then l
  else
    let u := if na = 1 then naFirst (firsts l.codes) else firsts l.codes
    let m := codeMapping (n + na) na u
    ⟨(u.drop na).filterMap fun c => l.labels[wrap n c]?, l.codes.map fun c => m.getD (wrap (n + na) c) 0⟩

/-- `remove_unused_level(multiindex, level)` (multiindex.py:5-75), `which` being the levels named. -/
def removeUnusedLevel {L : Type} (levels : List (Level L)) (which : List Nat) : List (Level L) :=
  levels.mapIdx fun n l => if n ∈ which then removeUnused l else l

/-- What `replace_levels` raises: `ValueError` for an old label which the new labels do not hold
exactly once, `TypeError` for a missing label, `ValueError` of the constructor for repeated new
labels. -/
inductive Err where
  | notOnce | missing | repeated
  deriving DecidableEq, Repr

/-- The places at which a label is found, `np.where(j == new_label_array)[0]`
(multiindex.py:101). -/
def places {L : Type} [DecidableEq L] (new : List L) (j : L) : List Nat :=
  (List.range new.length).filter fun i => decide (new[i]? = some j)

/-- `where_in_new_label_array` for all old labels (multiindex.py:98-103). -/
def whereIn {L : Type} [DecidableEq L] (old new : List L) : Except Err (List Nat) :=
  old.mapM fun j =>
    match places new j with
    | [i] => .ok i
    | _ => .error .notOnce

/-- `replace_levels` for the level concerned (multiindex.py:78-111). -/
def replaceLevel {L : Type} [DecidableEq L] (l : Level L) (new : List L) : Except Err (Level L) :=
  match whereIn l.labels new with
  | .error e => .error e
  | .ok w =>
    if (-1 : Int) ∈ l.codes then .error .missing
    else if new.Nodup then .ok ⟨new, l.codes.map fun c => (w.getD c.toNat 0 : Int)⟩
    else .error .repeated

end Larch.MultiIdx
