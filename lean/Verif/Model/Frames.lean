import Mathlib.Algebra.Order.Field.Basic
import Mathlib.Data.List.Sort

/-!
# The `DataFrames` container (`larch/dataframes.pyx`)

Frames are lists of labelled rows.  A frame with a two-level index keeps its two lists of levels (which pandas does not shrink when rows
are selected) beside the labels of its rows; the *code* of a label is its place in the list of levels.  What a row contains is left
abstract.  Labels are integers (lines 475-521 convert or reject the others).  Column handling, data types, names, logging are left out.
-/

namespace Larch.Frames

/-- A frame with a simple index: label and content of every row. -/
abbrev Co (α : Type) := List (Int × α)

/-- A frame with a two-level index (case, alternative), and its number of columns. -/
structure MF (α : Type) where
  lev0 : List Int
  lev1 : List Int
  rows : List ((Int × Int) × α)
  cols : Nat

/-- `Index.is_monotonic_increasing`. -/
def isMono (l : List Int) : Bool := decide (l.Pairwise (· ≤ ·))

/-- Lexicographic order of two-level labels. -/
def lexLe (a b : Int × Int) : Bool := decide (a.1 < b.1) || (decide (a.1 = b.1) && decide (a.2 ≤ b.2))

/-- `MultiIndex.is_monotonic_increasing`. -/
def isMonoLex (l : List (Int × Int)) : Bool := decide (l.Pairwise (fun a b => lexLe a b = true))

/-- `sort_index()` of a frame with a simple index (the order of equal labels is left open by pandas; here stable). -/
def sortCo {α : Type} (f : Co α) : Co α := f.insertionSort (fun a b => a.1 ≤ b.1)

/-- `sort_index()` of a frame with a two-level index: rows by label; pandas rebuilds the levels in increasing order. -/
def sortMF {α : Type} (f : MF α) : MF α :=
  { lev0 := f.lev0.insertionSort (· ≤ ·), lev1 := f.lev1.insertionSort (· ≤ ·),
    rows := f.rows.insertionSort (fun a b => lexLe a.1 b.1 = true), cols := f.cols }

/-- The setters of `data_co` (1572-1573), `data_av` (1701-1702), `data_ch` (1765-1766): sort unless the index is increasing. -/
def setSorted {α : Type} (f : Co α) : Co α := if isMono (f.map Prod.fst) then f else sortCo f

/-- The setter of `data_wt` (1854-1858) keeps the order given. -/
def setWt {α : Type} (f : Co α) : Co α := f

/-- The setter of `data_ce`, 1639-1640. -/
def setCe {α : Type} (f : MF α) : MF α := if isMonoLex (f.rows.map Prod.fst) then f else sortMF f

/-- Code of a case label: `index.codes[0]`. -/
def code0 {α : Type} (f : MF α) (c : Int) : Nat := f.lev0.idxOf c

/-- Code of an alternative label: `index.codes[1]`. -/
def code1 {α : Type} (f : MF α) (a : Int) : Nat := f.lev1.idxOf a

/-- The case codes that occur, each once. -/
def usedCodes {α : Type} (f : MF α) : List Nat := (f.rows.map (fun r => code0 f r.1.1)).dedup

/-- Line 1648: `numpy.unique(codes[0], return_inverse=True)`; the new label of a code is its rank among the codes that occur. -/
def caseRank {α : Type} (f : MF α) (c : Nat) : Nat := ((usedCodes f).filter (fun d => decide (d < c))).length

/-- Lines 1648-1661: `_array_ce_reversemap[c, a]`, the last row of case position `c` and alternative position `a`; `none` for -1. -/
def reverseMap {α : Type} (f : MF α) (c a : Nat) : Option Nat :=
  (f.rows.zipIdx).foldl (fun acc r => if caseRank f (code0 f r.1.1.1) = c ∧ code1 f r.1.1.2 = a then some r.2 else acc) none

/-- `_array_ce_reversemap.shape[0]`, line 1657: largest case position plus one. -/
def ceCases {α : Type} (f : MF α) : Nat := (f.rows.map (fun r => caseRank f (code0 f r.1.1) + 1)).foldl max 0

/-- `get_dataframe_format`, lines 307-334, for a two-level index: is it idce? -/
def isIdce {α : Type} (f : MF α) : Bool :=
  decide (f.rows.length < f.lev0.length * f.lev1.length) || !isMonoLex (f.rows.map Prod.fst)

/-- What the constructor is given (a selection): one frame with a two-level index, given as `ca` or `ce`, and frames of the cases. -/
structure Args (α : Type) where
  co : Option (Co α)
  mf : Option (MF α)
  ch : Option (Co α)
  av : Option (Co α)
  wt : Option (Co α)
  computational : Bool := false

/-- The container: `ca` or `ce` according to the format found. -/
structure DF (α : Type) where
  altCodes : List Int
  co : Option (Co α)
  ca : Option (MF α)
  ce : Option (MF α)
  ch : Option (Co α)
  av : Option (Co α)
  wt : Option (Co α)

/-- `_n_cases`, lines 1443-1457 (`len(data_ca) / n_alts` truncated to an integer). -/
def nCases {α : Type} (d : DF α) : Nat :=
  match d.co, d.ca, d.ce with
  | some f, _, _ => f.length
  | none, some f, _ => f.rows.length / d.altCodes.length
  | none, none, some f => ceCases f
  | none, none, none => match d.ch, d.av, d.wt with
    | some f, _, _ => f.length
    | none, some f, _ => f.length
    | none, none, some f => f.length
    | none, none, none => 0

/-- `_df_values(frame, (n_cases, n_alts))`: raises `ValueError` unless the sizes agree (all rows have the same number of columns as there
are alternatives, so that only the number of rows matters). -/
def fits {α : Type} (d : DF α) (f : Co α) : Bool := f.length == nCases d

/-- `DataFrames.__init__`, lines 523-529 and 623-704 for frames given as such (choices with the alternatives as columns): `none` for
`ValueError`.  The availability that lines 658-660 derive from idce data is left out (`Verif/Model/FramesAv.lean` has it).  Line 1514, only if
`computational`: an idca frame is reshaped to `(n_cases, n_alts, -1)`, which numpy does whenever the number of values is a multiple of
`n_cases * n_alts`. -/
def build {α : Type} (x : Args α) : Option (DF α) :=
  let codes := match x.mf with | some f => f.lev1 | none => []
  let ca := match x.mf with | some f => if isIdce f then none else some f | none => none
  let ce := match x.mf with | some f => if isIdce f then some (setCe f) else none | none => none
  let d0 : DF α := { altCodes := codes, co := x.co.map setSorted, ca := ca, ce := ce, ch := none, av := none, wt := none }
  if (match ca with
      | some f => !x.computational || decide (nCases d0 * codes.length ≠ 0) && decide (f.rows.length * f.cols % (nCases d0 * codes.length) = 0)
      | none => true) then
    let d1 := { d0 with ch := x.ch.map setSorted }
    if (match d1.ch with | some f => fits d1 f | none => true) then
      let d2 := { d1 with wt := x.wt.map setWt }
      if (match d2.wt with | some f => fits d2 f | none => true) then
        let d3 := { d2 with av := x.av.map setSorted }
        if (match d3.av with | some f => fits d3 f | none => true) then some d3 else none
      else none
    else none
  else none

/-- `data_co`'s row for case position `i`. -/
def coRow {α : Type} (f : Co α) (i : Nat) : Option (Int × α) := f[i]?

/-- The row of `data_ca` read for case position `i` and alternative position `a` (`values.reshape(n_cases, n_alts, -1)`, line 1514). -/
def caRow {α : Type} (d : DF α) (f : MF α) (i a : Nat) : Option ((Int × Int) × α) := f.rows[i * d.altCodes.length + a]?

/-- The row of `data_ce` read for case position `i` and alternative position `a` (`_array_ce_reversemap`). -/
def ceRow {α : Type} (f : MF α) (i a : Nat) : Option ((Int × Int) × α) := (reverseMap f i a).bind (fun k => f.rows[k]?)

/-! ## Splitting -/

variable {K : Type} [Field K] [LinearOrder K]

/-- `splits/splits.sum()` then `cumsum()`, lines 3086-3091: the `s`-th cumulated share. -/
def cumShare (splits : List K) (s : Nat) : K := ((splits.take (s + 1)).map (fun x => x / splits.sum)).sum

/-- Lines 3092-3098: membership of the case at position `i` in part `s`; `u` is `uniform_seq`.  The right-hand side of `^=` is the
unchanged previous column (numpy buffers overlapping operands). -/
def member (splits : List K) (u : Nat → K) (i s : Nat) : Bool :=
  match s with
  | 0 => decide (u i < cumShare splits 0)
  | s + 1 => (decide (u i < cumShare splits (s + 1))).xor (decide (u i < cumShare splits s))

/-- Lines 3092, 3094-3095: `arange(n)/n`, possibly shuffled (`perm` is the order the shuffle produces). -/
def uniformSeq (n : Nat) (perm : Nat → Nat) (i : Nat) : K := (perm i : K) / (n : K)

/-- Lines 3107, 3123-3125: `frame.iloc[these_positions, :]`. -/
def pickCo {α : Type} (f : Co α) (m : Nat → Bool) : Co α := (f.zipIdx.filter (fun r => m r.2)).map Prod.fst

/-- Lines 3109-3113, 3117-3119: rows whose case *code* is one of the positions; levels are kept. -/
def pickMF {α : Type} (f : MF α) (n : Nat) (m : Nat → Bool) : MF α :=
  { f with rows := f.rows.filter (fun r => decide (code0 f r.1.1 < n) && m (code0 f r.1.1)) }

/-- `remove_unused_level(index, 0)`, `larch/util/multiindex.py:5-68`, on labels: the levels that occur, in order of occurrence if some did
not occur, unchanged otherwise. -/
def shrink0 {α : Type} (f : MF α) : MF α :=
  if f.lev0.all (fun c => (f.rows.map (fun r => r.1.1)).contains c) then f
  else { f with lev0 := (f.rows.map (fun r => r.1.1)).reverse.dedup.reverse }

/-- What can go wrong in `split`. -/
inductive SplitErr
  | noSplit
  | zeroDivision
  | construct
  deriving DecidableEq, Repr

/-- Lines 3077-3084: an integer asks for that many equal parts, a list gives relative sizes. -/
def shares (arg : Int ⊕ List K) : Except SplitErr (List K) :=
  match arg with
  | .inl k => if k = 0 then .error .zeroDivision else if k ≤ 1 then .error .noSplit else .ok (List.replicate k.toNat (1 / (k : K)))
  | .inr l => if l.length ≤ 1 then .error .noSplit else .ok l

/-- The frames handed to the constructor for part `s` (lines 3105-3121). -/
def partArgs {α : Type} (d : DF α) (m : Nat → Bool) : Args α :=
  { co := d.co.map (pickCo · m)
    mf := match d.ca, d.ce with
      | some f, _ => some (pickMF f (nCases d) m)
      | none, some f => some (shrink0 (pickMF f (nCases d) m))
      | none, none => none
    ch := d.ch.map (pickCo · m)
    av := d.av.map (pickCo · m)
    wt := d.wt.map (pickCo · m) }

/-- `DataFrames.split`, lines 3056-3154 (`method` only decides `perm`). -/
def split {α : Type} (d : DF α) (arg : Int ⊕ List K) (perm : Nat → Nat) : Except SplitErr (List (DF α)) :=
  match shares arg with
  | .error e => .error e
  | .ok l => (List.range l.length).mapM (fun s => match build (partArgs d (fun i => member l (uniformSeq (nCases d) perm) i s)) with
    | some p => .ok p
    | none => .error .construct)

end Larch.Frames
