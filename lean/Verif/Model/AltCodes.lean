import Mathlib.Data.Nat.Log
import Mathlib.Data.List.Sort
import Mathlib.Data.List.Dedup

/-!
# Systematic alternative codes and bit masks

Models `larch/model/systematic_alternatives.py` and `larch/util/bitmasking.py`.

Simplifications: `numpy.int64` arithmetic is unbounded `Nat` arithmetic (no wrap-around past 63 bits);
`int(numpy.ceil(numpy.log2(n)))` is the exact ceiling logarithm (the floating `log2` is exact on powers of
two); `numpy.unique` is "distinct values in increasing order".
-/

namespace Larch.AltCodes

/-- `int(numpy.ceil(numpy.log2(n)))`, systematic_alternatives.py:387, 410; bitmasking.py:40, 54.
Only used for `n ≥ 1` (for `n = 0` numpy gives `-inf` and `int` raises; callers here never reach it). -/
def ceilLog2 (n : Nat) : Nat := Nat.clog 2 n

/-- `bitmask_shift_value`, systematic_alternatives.py:8-13: counts trailing `'0'` characters of `bin(b)`.
For `b = 0` the text is `'0b0'`, so the loop stops at the `'b'` and returns 1. -/
def bitmaskShiftValue (b : Nat) : Nat :=
  if h : b = 0 then 1
  else if b % 2 = 1 then 0
  else 1 + bitmaskShiftValue (b / 2)
termination_by b
decreasing_by omega

/-- The group part of the code, systematic_alternatives.py:412-421: starts from the first group's
position plus one, then for every further group shifts by that group's width and adds position plus one.
Each list entry is `(bitmask_sizes[i], uniqs[i][1])` for one row. With no groups: zero. -/
def packGroups : List (Nat × Nat) → Nat
  | [] => 0
  | (_, u0) :: rest => rest.foldl (fun x bu => (x <<< bu.1) + (bu.2 + 1)) (u0 + 1)

/-- The full code: `x <<= label_offset; x += s`, systematic_alternatives.py:424, 426. -/
def pack (groups : List (Nat × Nat)) (labelOffset s : Nat) : Nat :=
  (packGroups groups <<< labelOffset) + s

/-- One turn of the mask loop `masks <<= size; masks[i] = 2**size-1`,
systematic_alternatives.py:420, 422. -/
def maskStep (sizes : List Nat) (masks : List Nat) (i : Nat) : List Nat :=
  (masks.map (· <<< sizes.getD i 0)).set i (2 ^ sizes.getD i 0 - 1)

/-- The mask array, systematic_alternatives.py:385, 412-427. -/
def buildMasks (sizes : List Nat) (labelOffset : Nat) : List Nat :=
  let k := sizes.length
  let m0 := List.replicate (k + 1) 0
  let m1 := if sizes.isEmpty then m0 else m0.set 0 (2 ^ sizes.getD 0 0 - 1)
  let m2 := (List.range' 1 (k - 1)).foldl (maskStep sizes) m1
  (m2.map (· <<< labelOffset)).set k (2 ^ labelOffset - 1)

/-- Field extraction `(mask & code) >> bitmask_shift_value(mask)`,
systematic_alternatives.py:58, 68. -/
def field (mask code : Nat) : Nat := (mask &&& code) >>> bitmaskShiftValue mask

/-- The category position read back from a code, systematic_alternatives.py:57-61:
`none` is the branch `j < 0` (printed as `§`). -/
def decodeGroup (mask code : Nat) : Option Nat :=
  match field mask code with
  | 0 => none
  | j + 1 => some j

/-- The nest code of an alternative at a level (0-based), systematic_alternatives.py:552, 560, 571:
`altcode & sum(masks[:level+1])`. -/
def nestCode (masks : List Nat) (level code : Nat) : Nat :=
  code &&& (masks.take (level + 1)).sum

/-! ## The data frame level -/

/-- One row of the idca/idce frame: case id and the values in the `groupby` columns (column `i < G`). -/
structure Row (β : Type) where
  caseid : Nat
  vals : Nat → β

/-- `numpy.unique(column)`. -/
def uniq {β : Type} [LinearOrder β] (col : List β) : List β :=
  col.dedup.insertionSort (· ≤ ·)

/-- The grouping key `[caseindex, *groupby]`, systematic_alternatives.py:383. -/
def Row.key {β : Type} (G : Nat) (r : Row β) : Nat × List β :=
  (r.caseid, (List.range G).map r.vals)

/-- `s = _df.groupby([caseindex, *groupby]).cumcount() + 1` for the row at position `i`,
systematic_alternatives.py:383. -/
def counter {β : Type} [DecidableEq β] (G : Nat) (rows : List (Row β)) (i : Nat) : Nat :=
  match rows[i]? with
  | none => 0
  | some r => ((rows.take i).filter (fun q => decide (q.key G = r.key G))).length + 1

/-- `s.max()`. -/
def maxCounter {β : Type} [DecidableEq β] (G : Nat) (rows : List (Row β)) : Nat :=
  ((List.range rows.length).map (counter G rows)).foldl max 0

/-- Unique values of every `groupby` column, systematic_alternatives.py:389
(no `complete_features_list`). -/
def groupUniq {β : Type} [LinearOrder β] (rows : List (Row β)) (i : Nat) : List β :=
  uniq (rows.map (fun r => r.vals i))

/-- `bitmask_sizes`, systematic_alternatives.py:405-410. -/
def sizes {β : Type} [LinearOrder β] (G padding : Nat) (rows : List (Row β)) : List Nat :=
  (List.range G).map (fun i => ceilLog2 ((groupUniq rows i).length + 1 + padding))

/-- `label_offset`, systematic_alternatives.py:387. -/
def labelOffset {β : Type} [DecidableEq β] (G : Nat) (rows : List (Row β)) : Nat :=
  ceilLog2 (maxCounter G rows)

/-- Group positions of a row (`uniqs[i][1]`), paired with their widths. -/
def rowGroups {β : Type} [LinearOrder β] (G padding : Nat) (rows : List (Row β)) (r : Row β) :
    List (Nat × Nat) :=
  (List.range G).map (fun i =>
    (ceilLog2 ((groupUniq rows i).length + 1 + padding), (groupUniq rows i).idxOf (r.vals i)))

/-- The alternative code given to the row at position `i` by `new_alternative_codes`,
systematic_alternatives.py:381-426. -/
def altCode {β : Type} [LinearOrder β] (G padding : Nat) (rows : List (Row β)) (i : Nat) : Nat :=
  match rows[i]? with
  | none => 0
  | some r => pack (rowGroups G padding rows r) (labelOffset G rows) (counter G rows i)

/-- The masks stored in the returned `SystematicAlternatives`. -/
def altMasks {β : Type} [LinearOrder β] (G padding : Nat) (rows : List (Row β)) : List Nat :=
  buildMasks (sizes G padding rows) (labelOffset G rows)

/-! ## `larch/util/bitmasking.py` -/

/-- `shifts` in `define_masks`, bitmasking.py:16-18: reversed cumulative sum, shifted left by one,
last entry zero. -/
def maskShifts (bs : List Nat) : List Nat :=
  let c := (List.range bs.length).map (fun i => (bs.drop i).sum)   -- cumsum(bs[::-1])[::-1]
  c.tail ++ [0]

/-- `define_masks`, bitmasking.py:4-26. The empty list makes `shifts[-1] = 0` raise IndexError. -/
def defineMasks (bs : List Nat) : Except String (List Nat) :=
  if bs.isEmpty then .error "IndexError"
  else .ok ((List.range bs.length).map
    (fun b => (2 ^ bs.getD b 0 - 1) <<< (maskShifts bs).getD b 0))

end Larch.AltCodes
