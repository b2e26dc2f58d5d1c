import Verif.Model.FramesAv

/-!
# Data saved to and loaded from Feather files (`larch/dataframes.pyx`, lines 904-1190)

A frame is its column labels and its labelled rows.  The files are a record of optional contents, one for the metadata and one per component;
writing replaces a file's content and leaves the other files alone.  A file of a component other than `ce` holds a flat array, a flag that
says in which order it was flattened, and the column labels.  Data types, file names, compression and pickling are left out (they give back what
they were given), as are the names of the choice and weight variables, which are not saved.
-/

namespace Larch.Feathers

open Larch.Frames

variable {K : Type}

/-- A frame: column labels, rows with their labels. -/
structure Tab (C ι K : Type) where
  cols : List C
  rows : List (ι × List K)

/-- What a `DataFrames` holds. -/
structure Data (K : Type) where
  altCodes : List Int
  altNames : Option (List String)
  norm : K
  co : Option (Tab String Int K)
  ca : Option (Tab String (Int × Int) K)
  ce : Option (Tab String (Int × Int) K)
  ch : Option (Tab Int Int K)
  av : Option (Tab Int Int K)
  wt : Option (Tab String Int K)

/-- A file `….data_co`, `….data_ca`, …: the flat array, `metadata[b'T']`, the column labels. -/
structure SegFile (C K : Type) where
  flat : List K
  t : Bool
  cols : List C

/-- The file `….metadata`; `norm` is `WGT_NORM`. -/
structure Meta (K : Type) where
  altCodes : List Int
  altNames : Option (List String)
  caseindex : List Int
  norm : Option K

/-- The files with one base name. -/
structure Files (K : Type) where
  head : Option (Meta K)
  co : Option (SegFile String K)
  ca : Option (SegFile String K)
  ce : Option (Tab String (Int × Int) K)
  ch : Option (SegFile Int K)
  av : Option (SegFile Int K)
  wt : Option (SegFile String K)

/-- Distances in memory between neighbours along the two axes of the values of each frame (numpy's strides, in items). -/
structure Layout where
  co : Int × Int
  ca : Int × Int
  ch : Int × Int
  av : Int × Int
  wt : Int × Int

/-- Size and stride of each axis, from the first: is the stride of every axis of more than one entry the number of entries below it? -/
def fSteps : Int → List (Nat × Int) → Bool
  | _, [] => true
  | sd, (n, s) :: r => (n == 1 || s == sd) && fSteps (sd * n) r

/-- numpy's `flags['F_CONTIGUOUS']`: an array without entries always is. -/
def fContig (axes : List (Nat × Int)) : Bool := axes.any (fun x => x.1 == 0) || fSteps 1 axes

/-- `array_.reshape(-1)` (C order), line 963. -/
def flatC (rows : List (List K)) : List K := rows.flatten

/-- `array_.T.reshape(-1)` of a two-dimensional array with `v` columns, line 960. -/
def flatT (v : Nat) (rows : List (List K)) : List K := (List.range v).flatMap (fun j => rows.filterMap (fun r => r[j]?))

/-- `array_.T.reshape(-1)` of the array of shape `(n, a, v)` that line 1953 makes of the values of `data_ca`. -/
def flatT3 (n a v : Nat) (rows : List (List K)) : List K :=
  (List.range v).flatMap (fun j => (List.range a).flatMap (fun q => (List.range n).filterMap (fun c => (rows[c * a + q]?).bind (fun r => r[j]?))))

/-- Lines 955-974, for a component with a simple index: `array_` has the shape of the frame. -/
def segOut {C : Type} (strides : Int × Int) (f : Tab C Int K) : SegFile C K :=
  if fContig [(f.rows.length, strides.1), (f.cols.length, strides.2)] = true then
    ⟨flatT f.cols.length (f.rows.map Prod.snd), true, f.cols⟩
  else ⟨flatC (f.rows.map Prod.snd), false, f.cols⟩

/-- Lines 955-974 for `ca`: `array_` is the frame's values reshaped to `(n, a, -1)`, a view that steps over `a` rows along its first axis. -/
def segOutCa (strides : Int × Int) (n a : Nat) (f : Tab String (Int × Int) K) : SegFile String K :=
  if fContig [(n, a * strides.1), (a, strides.1), (f.cols.length, strides.2)] = true then
    ⟨flatT3 n a f.cols.length (f.rows.map Prod.snd), true, f.cols⟩
  else ⟨flatC (f.rows.map Prod.snd), false, f.cols⟩

/-- The levels pandas makes of labels: those that occur, increasing. -/
def levels (l : List Int) : List Int := l.dedup.insertionSort (· ≤ ·)

/-- A frame of the alternatives as the container of `Verif/Model/Frames.lean` has it. -/
def toMF (lev0 lev1 : List Int) (f : Tab String (Int × Int) K) : MF (List K) := ⟨lev0, lev1, f.rows, f.cols.length⟩

/-- The levels of a frame's own labels. -/
def ownMF (f : Tab String (Int × Int) K) : MF (List K) :=
  toMF (levels (f.rows.map (fun r => r.1.1))) (levels (f.rows.map (fun r => r.1.2))) f

/-- The container of `Verif/Model/Frames.lean`. -/
def toDF (d : Data K) : DF (List K) where
  altCodes := d.altCodes
  co := d.co.map (fun f => f.rows)
  ca := d.ca.map ownMF
  ce := d.ce.map ownMF
  ch := d.ch.map (fun f => f.rows)
  av := d.av.map (fun f => f.rows)
  wt := d.wt.map (fun f => f.rows)

variable [DecidableEq K] [Zero K] [One K]

/-- Lines 932-951: `pa.table` refuses columns of different lengths (`none`); `WGT_NORM` only if it is not 1. -/
def metaOut (d : Data K) : Option (Meta K) :=
  if d.altNames.all (fun n => n.length == d.altCodes.length) then
    some ⟨d.altCodes, d.altNames, caseIndex (toDF d), if d.norm = 1 then none else some d.norm⟩
  else none

/-- `to_feathers(filename)`, lines 904-976: the components that there are, each to its file.  (The reshape of `data_ca` is taken to succeed: it has
`n_cases * n_alts` rows.) -/
def save (lay : Layout) (d : Data K) (fs : Files K) : Option (Files K) :=
  (metaOut d).map (fun m => {
    head := some m
    co := (d.co.map (segOut lay.co)).or fs.co
    ca := (d.ca.map (segOutCa lay.ca (nCases (toDF d)) d.altCodes.length)).or fs.ca
    ce := d.ce.or fs.ce
    ch := (d.ch.map (segOut lay.ch)).or fs.ch
    av := (d.av.map (segOut lay.av)).or fs.av
    wt := (d.wt.map (segOut lay.wt)).or fs.wt })

/-- What goes wrong. -/
inductive Err where
  | fileNotFound
  | typeError
  | valueError
deriving DecidableEq

/-- `reshape(-1, v)`, line 1078. -/
def readC (v : Nat) (flat : List K) : List (List K) :=
  (List.range (flat.length / v)).map (fun i => (flat.drop (i * v)).take v)

/-- `reshape(v, -1).T`, line 1076. -/
def readT (v : Nat) (flat : List K) : List (List K) :=
  (List.range (flat.length / v)).map (fun i => (List.range v).filterMap (fun j => flat[j * (flat.length / v) + i]?))

/-- Lines 1073-1078: the array of a file; numpy cannot infer the other size if there are no columns. -/
def readArr {C : Type} (s : SegFile C K) : Except Err (List (List K)) :=
  if s.cols.length = 0 ∨ s.flat.length % s.cols.length ≠ 0 then .error .valueError
  else .ok (if s.t then readT s.cols.length s.flat else readC s.cols.length s.flat)

/-- Line 1086: `pandas.DataFrame(arr, columns=columns, index=idx)`. -/
def label {C ι : Type} (cols : List C) (idx : List ι) (arr : List (List K)) : Except Err (Tab C ι K) :=
  if arr.length = idx.length then .ok ⟨cols, idx.zip arr⟩ else .error .valueError

/-- Lines 1063-1091 for one component: absent files are passed over. -/
def segIn {C ι : Type} (idx : List ι) (s : Option (SegFile C K)) : Except Err (Option (Tab C ι K)) :=
  match s with
  | none => .ok none
  | some s => ((readArr s).bind (label s.cols idx)).map some

/-- `pandas.MultiIndex.from_product([caseindex, altcodes])`, lines 1080-1083. -/
def product (cases alts : List Int) : List (Int × Int) := cases.flatMap (fun c => alts.map (fun a => (c, a)))

/-- The arguments given to the constructor. -/
structure Given (K : Type) where
  co : Option (Tab String Int K)
  ca : Option (Tab String (Int × Int) K)
  ce : Option (Tab String (Int × Int) K)
  ch : Option (Tab Int Int K)
  av : Option (Tab Int Int K)
  wt : Option (Tab String Int K)

/-- Sorting a frame unless its labels increase (`Frames.setSorted`). -/
def sortTab {C : Type} (f : Tab C Int K) : Tab C Int K := ⟨f.cols, setSorted f.rows⟩

/-- Sorting a frame of the alternatives unless its labels increase (lines 1639-1640). -/
def sortCeTab (f : Tab String (Int × Int) K) : Tab String (Int × Int) K :=
  ⟨f.cols, if isMonoLex (f.rows.map Prod.fst) then f.rows else f.rows.insertionSort (fun a b => lexLe a.1 b.1 = true)⟩

/-- Lines 523-529: only if one of `ca`, `ce` is given it is put where its format belongs; then (line 1663) setting `ce` drops `ca`.  The frame `ca` made
by `from_product` is never short of rows. -/
def place (g : Given K) : Option (Tab String (Int × Int) K) × Option (Tab String (Int × Int) K) :=
  match g.ca, g.ce with
  | none, none => (none, none)
  | some f, none => if isMonoLex (f.rows.map Prod.fst) then (some f, none) else (none, some (sortCeTab f))
  | none, some f => if isIdce (ownMF f) then (none, some (sortCeTab f)) else (some f, none)
  | some _, some f => (none, some (sortCeTab f))

/-- `_ensure_consistent_alternative_codes`, lines 1362-1378, with codes already there. -/
def consistent (codes l : List Int) : Bool := codes == l

/-- Lines 642-647: choices that lack columns get columns of zeros. -/
def fillCh (codes : List Int) (f : Tab Int Int K) : Tab Int Int K :=
  if f.cols.length < codes.length ∧ f.cols.all (fun c => codes.contains c) then
    ⟨codes, f.rows.map (fun r => (r.1, codes.map (fun c => (r.2[f.cols.idxOf c]?).getD 0)))⟩
  else f

/-- Lines 656-659: availability from the rows of `data_ce` if none is given (`none` for pandas' `ValueError`). -/
def avOf (d : Data K) (given : Option (Tab Int Int K)) : Option (Option (Tab Int Int K)) :=
  match given, d.ce with
  | some f, _ => some (some (sortTab f))
  | none, none => some none
  | none, some f => (avFromCe (toDF d) (ownMF f)).map (fun rows => some ⟨d.altCodes, rows.map (fun r => (r.1, r.2.map (fun b => if b then 1 else 0)))⟩)

/-- Does a frame, once attached, have a row per case (`_df_values(…, (n_cases, n_alts))`, 1704, 1769, 1858), and are its columns as many as
expected? -/
def fitsTab {C : Type} (d : Data K) (width : Nat) (f : Option (Tab C Int K)) : Bool :=
  f.all (fun f => f.rows.length == nCases (toDF d) && f.cols.length == width)

/-- The constructor on what was read, lines 523-529, 590-704 (`alt_codes` and `alt_names` given).  Weights that do not fit are not cracked here (lines
650-653); they are an error. -/
def construct (codes : List Int) (names : Option (List String)) (g : Given K) : Except Err (Data K) :=
  let lev1 (f : Tab String (Int × Int) K) := levels (f.rows.map (fun r => r.1.2))
  if !(g.ca.all (fun _ => consistent codes (levels codes)) && g.ce.all (fun f => consistent codes (lev1 f))) then .error .valueError else
  let p := place g
  let d1 : Data K := ⟨codes, names, 1, g.co.map sortTab, p.1, p.2, g.ch.map (fun f => sortTab (fillCh codes f)), none, none⟩
  if !(d1.ch.all (fun f => consistent codes f.cols) && fitsTab d1 codes.length d1.ch) then .error .valueError else
  let d2 : Data K := { d1 with wt := g.wt }
  if !fitsTab d2 1 d2.wt then .error .valueError else
  match avOf d2 g.av with
  | none => .error .valueError
  | some av => if !fitsTab { d2 with av := av } codes.length av then .error .valueError else .ok { d2 with av := av }

/-- Lines 1055-1061: `float.fromhex` is given the bytes that the file holds and raises `TypeError`. -/
def normIn (m : Meta K) : Except Err K :=
  match m.norm with
  | none => .ok 1
  | some _ => .error .typeError

/-- Lines 1063-1095: the components that have files. -/
def readAll (m : Meta K) (fs : Files K) : Except Err (Given K) :=
  (segIn m.caseindex fs.co).bind (fun co => (segIn (product m.caseindex m.altCodes) fs.ca).bind (fun ca =>
    (segIn m.caseindex fs.ch).bind (fun ch => (segIn m.caseindex fs.av).bind (fun av =>
      (segIn m.caseindex fs.wt).map (fun wt => ⟨co, ca, fs.ce, ch, av, wt⟩)))))

/-- `from_feathers(filename)`, lines 1021-1100. -/
def load (fs : Files K) : Except Err (Data K) :=
  match fs.head with
  | none => .error .fileNotFound
  | some m => (normIn m).bind (fun w => (readAll m fs).bind (fun g => (construct m.altCodes m.altNames g).map (fun d => { d with norm := w })))

/-! ## `inject_feathers`, lines 1102-1190 -/

/-- `reshape(n, v)` or `reshape(v, n).T`: the number of values must be right; lines 1136-1141, 1166-1171, 1177-1182. -/
def inject2 {C : Type} (f : Tab C Int K) (s : Option (SegFile C K)) : Except Err (Tab C Int K) :=
  match s with
  | none => .error .fileNotFound
  | some s =>
    if s.flat.length = f.rows.length * f.cols.length then
      .ok ⟨f.cols, (f.rows.map Prod.fst).zip ((List.range f.rows.length).map (fun i => (List.range f.cols.length).filterMap (fun j =>
        if s.t then s.flat[j * f.rows.length + i]? else s.flat[i * f.cols.length + j]?)))⟩
    else .error .valueError

/-- `reshape(n, a, v)` or `reshape(v, a, n).T`, lines 1144-1152. -/
def inject3 (n a : Nat) (f : Tab String (Int × Int) K) (s : Option (SegFile String K)) : Except Err (Tab String (Int × Int) K) :=
  match s with
  | none => .error .fileNotFound
  | some s =>
    if s.flat.length = n * a * f.cols.length then
      .ok ⟨f.cols, (f.rows.map Prod.fst).zip ((List.range f.rows.length).map (fun i => (List.range f.cols.length).filterMap (fun j =>
        if s.t then s.flat[(j * a + i % a) * n + i / a]? else s.flat[i * f.cols.length + j]?)))⟩
    else .error .valueError

/-- Lines 1154-1160: the rows of the file in their order, whatever their labels. -/
def injectCe (f : Tab String (Int × Int) K) (s : Option (Tab String (Int × Int) K)) : Except Err (Tab String (Int × Int) K) :=
  match s with
  | none => .error .fileNotFound
  | some s =>
    if s.rows.length = f.rows.length ∧ s.cols.length = f.cols.length then
      .ok ⟨f.cols, (f.rows.map Prod.fst).zip (s.rows.map Prod.snd)⟩
    else .error .valueError

/-- Lines 1184-1190: the array of the weights has shape `(n, 1)`; an array of shape `(n,)` can be assigned to it only if `n` is 1 (numpy takes it for
one row). -/
def injectWt (f : Tab String Int K) (s : Option (SegFile String K)) : Except Err (Tab String Int K) :=
  match s with
  | none => .error .fileNotFound
  | some s =>
    if s.flat.length = f.rows.length ∧ f.rows.length = 1 then .ok ⟨f.cols, (f.rows.map Prod.fst).zip (s.flat.map (fun x => [x]))⟩
    else .error .valueError

/-- One assignment of `inject_feathers`: components that are absent are passed over; after an error the later ones are not reached. -/
def step {β : Type} (get : Data K → Option β) (f : β → Except Err β) (put : Data K → β → Data K) (s : Data K × Option Err) : Data K × Option Err :=
  match s.2, get s.1 with
  | some _, _ => s
  | none, none => s
  | none, some x => match f x with
    | .ok y => (put s.1 y, none)
    | .error e => (s.1, some e)

/-- `inject_feathers(filename)`: what the data are afterwards, and the error raised, if any. -/
def inject (d : Data K) (fs : Files K) : Data K × Option Err :=
  let n := nCases (toDF d)
  let a := d.altCodes.length
  let s1 := step Data.co (fun f => inject2 f fs.co) (fun d f => { d with co := some f }) (d, none)
  let s2 := step Data.ca (fun f => inject3 n a f fs.ca) (fun d f => { d with ca := some f }) s1
  let s3 := step Data.ce (fun f => injectCe f fs.ce) (fun d f => { d with ce := some f }) s2
  let s4 := step Data.av (fun f => inject2 f fs.av) (fun d f => { d with av := some f }) s3
  let s5 := step Data.ch (fun f => inject2 f fs.ch) (fun d f => { d with ch := some f }) s4
  step Data.wt (fun f => injectWt f fs.wt) (fun d f => { d with wt := some f }) s5

end Larch.Feathers
