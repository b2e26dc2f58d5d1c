import Verif.Model.MagicNest

/-!
# Recoding frames: `complete_features_list`, `compute_alternative_codes`, lists of frames

Models the rest of `new_alternative_codes` and `_multiple_new_alternative_codes`, `larch/model/systematic_alternatives.py:76-442`,
with the same simplifications as `Verif.Model.AltCodes`.  A call that raises has result `none`.
-/

namespace Larch.AltCodes

variable {β : Type} [LinearOrder β]

/-- `use_map`, systematic_alternatives.py:399, 234: the index of a value in the given feature list; the dictionary comprehension
keeps the last index of a repeated feature, a value that is not in the list has no entry. -/
def featPos (fs : List β) (v : β) : Option Nat :=
  ((List.range fs.length).filter (fun n => decide (fs[n]? = some v))).getLast?

/-- The features used for column `i`: the entry of `complete_features_list` or the unique values of the column,
systematic_alternatives.py:389-403. -/
def feats (given : Nat → Option (List β)) (rows : List (Row β)) (i : Nat) : List β := (given i).getD (groupUniq rows i)

/-- Widths and positions of one row for the features `fs`; `none` for the `KeyError` of `use_map.__getitem__`,
systematic_alternatives.py:402, 405-410. -/
def rowGroupsWith (G padding : Nat) (fs : Nat → List β) (r : Row β) : Option (List (Nat × Nat)) :=
  (List.range G).mapM (fun i => (featPos (fs i) (r.vals i)).map (fun u => (ceilLog2 ((fs i).length + 1 + padding), u)))

/-- The code column for the features `fs` and the label offset `L`, systematic_alternatives.py:412-426. -/
def codesWith (G padding : Nat) (fs : Nat → List β) (L : Nat) (rows : List (Row β)) : Option (List Nat) :=
  (List.range rows.length).mapM (fun j =>
    (rows[j]?.bind (rowGroupsWith G padding fs)).map (fun gs => pack gs L (counter G rows j)))

/-- `new_alternative_codes(df, groupby, padding_levels, complete_features_list)` for one frame: the code column,
systematic_alternatives.py:363-442. -/
def newCodes (G padding : Nat) (given : Nat → Option (List β)) (rows : List (Row β)) : Option (List Nat) :=
  codesWith G padding (feats given rows) (labelOffset G rows) rows

/-- `sys_alts.compute_alternative_codes(test)` of the `sys_alts` made from `train`, systematic_alternatives.py:76-118: the stored
features are `_categoricals_source`, line 436. -/
def recode (G padding : Nat) (train test : List (Row β)) : Option (List Nat) :=
  newCodes G padding (fun i => some (groupUniq train i)) test

/-! ## Several frames -/

/-- The largest counter over all frames, systematic_alternatives.py:196-199. -/
def maxCounterAll (G : Nat) (frames : List (List (Row β))) : Nat := (frames.map (maxCounter G)).foldl max 0

/-- The shared label offset, systematic_alternatives.py:203. -/
def offsetAll (G : Nat) (frames : List (List (Row β))) : Nat := ceilLog2 (maxCounterAll G frames)

/-- The shared features of a column, systematic_alternatives.py:208-217. -/
def featsAll (given : Nat → Option (List β)) (frames : List (List (Row β))) (i : Nat) : List β :=
  (given i).getD (uniq (frames.flatten.map (fun r => r.vals i)))

/-- The code columns, systematic_alternatives.py:224-267. -/
def multiCodes (G padding : Nat) (given : Nat → Option (List β)) (frames : List (List (Row β))) : Option (List (List Nat)) :=
  frames.mapM (codesWith G padding (featsAll given frames) (offsetAll G frames))

/-- `altcodes = numpy.unique(x)`, systematic_alternatives.py:257, a variable of the loop over the frames that is read after it
(line 280): what is stored are the codes of the last frame. -/
def multiAltcodes (codes : List (List Nat)) : Option (List Nat) := codes.getLast?.map uniq

/-- One turn of the loop over the frames as far as the mask array is concerned, systematic_alternatives.py:243-255: the array is not
cleared between frames. -/
def maskRound (sizes : List Nat) (L : Nat) (masks : List Nat) : List Nat :=
  let m1 := if sizes.isEmpty then masks else masks.set 0 (2 ^ sizes.getD 0 0 - 1)
  let m2 := (List.range' 1 (sizes.length - 1)).foldl (maskStep sizes) m1
  (m2.map (· <<< L)).set sizes.length (2 ^ L - 1)

/-- The masks stored for `n` frames, systematic_alternatives.py:201, 241-255. -/
def multiMasks (sizes : List Nat) (L n : Nat) : List Nat :=
  (List.range n).foldl (fun m _ => maskRound sizes L m) (List.replicate (sizes.length + 1) 0)

/-! ## The name of the new column -/

/-- `f'{name}_v{number}'` -/
def versioned (name : String) (n : Nat) : String := name ++ "_v" ++ Nat.repr n

/-- `while f'{name}_v{_number}' in df1.columns: _number += 1`, systematic_alternatives.py:261-263, 424-426, started at `n`, at most
`fuel` increments (the number of columns is enough, `C111_fresh`). -/
def searchVersion (cols : List String) (name : String) : Nat → Nat → Nat
  | 0, n => n
  | fuel + 1, n => if versioned name n ∈ cols then searchVersion cols name fuel (n + 1) else n

/-- The name used for a frame with columns `cols`, systematic_alternatives.py:259-264, 422-427. -/
def pickName (cols : List String) (name : String) (overwrite : Bool) : String :=
  if name ∈ cols ∧ overwrite = false then versioned name (searchVersion cols name cols.length 2) else name

/-- The name used for a list of frames: `name` is reassigned in the loop over the frames and the last value is used for all of them,
systematic_alternatives.py:259-264, 288-289. -/
def pickNameAll (frames : List (List String)) (name : String) (overwrite : Bool) : String :=
  frames.foldl (fun n cols => pickName cols n overwrite) name

end Larch.AltCodes
