import Verif.Model.FramesCe

/-!
# Choices, availability and weights given to a `DataFrames` (`larch/dataframes.pyx`, `DataFrames.__init__`)

The constructor accepts choices as a one-dimensional array of codes, a Series of codes, a Series with one row per alternative, a frame with one
column per alternative, values for the rows of an idce frame, or the name of a column; weights and availability in similar forms.  Values are
integers here: the constructor copies, compares and adds nothing else than zeros and ones, and missing values, conversions between number types
and `crack` are left out (`Verif/Model/Crack.lean` has the last).  `none` stands for an exception.
-/

namespace Larch.Choices

open Larch.Frames

/-- `data_co` as given: names of the columns, and label and values of every row. -/
structure Tab1 where
  names : List String
  rows : Co (String → Int)

/-- The frame with a two-level index, given as `ca` or `ce`. -/
structure Tab2 where
  names : List String
  mf : MF (String → Int)

/-- A frame with one column per alternative and one row per case. -/
structure Table where
  cols : List Int
  rows : Co (List Int)
  deriving DecidableEq

/-- The forms of `ch` (and `ch_as_ce`), lines 349-395 and 406-433. -/
inductive Choice
  | absent
  | array (vals : List Int)
  | series (f : Co Int)
  | tall (f : MF Int)
  | wide (t : Table)
  | named (s : String)
  | onRows (vals : List Int)

/-- The forms of `av` (and `av_as_ce`). -/
inductive Avail
  | absent
  | all
  | byName (defs : List (Int × String))
  | named (s : String)
  | tall (f : MF Int)
  | wide (t : Table)
  | onRows (vals : List Int)

/-- The forms of `wt`. -/
inductive Weight
  | absent
  | series (f : Co Int)
  | tall (f : MF Int)
  | named (s : String)

/-- The arguments of the constructor. -/
structure Args where
  codes : Option (List Int) := none
  co : Option Tab1 := none
  alts : Option Tab2 := none
  ch : Choice := .absent
  av : Avail := .absent
  wt : Weight := .absent

/-- `data_ca`, lines 523-529: the frame of alternatives if it is found to be idca. -/
def ca (x : Args) : Option Tab2 := x.alts.filter (fun t => !isIdce t.mf)

/-- `data_ce` as given, lines 523-529. -/
def ce (x : Args) : Option Tab2 := x.alts.filter (fun t => isIdce t.mf)

/-- `numpy.unique`. -/
def uniq (l : List Int) : List Int := l.dedup.insertionSort (· ≤ ·)

/-- A row of `to_categorical`, lines 175-186 with 139-173. -/
def oneHot (codes : List Int) (v : Int) : List Int := codes.map (fun c => if c = v then 1 else 0)

/-- Lines 555-560: `ch.shape[0] == _n_cases` (`_n_cases` of idca data is a fraction, of idce data without idco data zero). -/
def caseLong (x : Args) (n : Nat) : Bool :=
  match x.co, ca x with
  | some f, _ => n == f.rows.length
  | none, some t => n * t.mf.lev1.length == t.mf.rows.length
  | none, none => n == 0

/-- What `ch` has become: nothing, a frame with simple index, a frame with two-level index, a Series with two-level index. -/
inductive Stage
  | nothing
  | table (t : Table)
  | pairs (cols : List Int) (rows : List ((Int × Int) × List Int))
  | tall (f : MF Int)

/-- Lines 562-564: one-hot encoding of anything one-dimensional of the length of the cases (an empty array raises in `numpy.max`, line 165).  A
one-dimensional array or Series of another length has no `columns` (lines 645 and 649). -/
def encode (x : Args) : Option Stage :=
  match x.ch with
  | .absent => some .nothing
  | .named _ => some .nothing
  | .onRows _ => some .nothing
  | .wide t => some (.table t)
  | .array v => if caseLong x v.length && v != [] then
      some (.table ⟨uniq v, v.zipIdx.map (fun p => ((p.2 : Int), oneHot (uniq v) p.1))⟩) else none
  | .series f => if caseLong x f.length && f.map Prod.snd != [] then
      some (.table ⟨uniq (f.map Prod.snd), f.map (fun p => (p.1, oneHot (uniq (f.map Prod.snd)) p.2))⟩) else none
  | .tall f => if caseLong x f.rows.length then
      (if f.rows.map Prod.snd != [] then
        some (.pairs (uniq (f.rows.map Prod.snd)) (f.rows.map (fun p => (p.1, oneHot (uniq (f.rows.map Prod.snd)) p.2)))) else none)
      else some (.tall f)

/-- `Series.unstack().fillna(0)`. -/
def unstack (rows : List ((Int × Int) × Int)) : Option Table := (pivot rows).map (fun t => ⟨t.1, t.2⟩)

/-- A column of the frame of alternatives. -/
def column2 (t : Tab2) (s : String) : List ((Int × Int) × Int) := t.mf.rows.map (fun r => (r.1, r.2 s))

/-- Lines 566-580: choices from `ch_as_ce` and from a column of the frame of alternatives. -/
def fromAlts (x : Args) (st : Stage) : Option Stage :=
  match st with
  | .nothing =>
    match x.ch with
    | .onRows v => match ce x with
      | some t => if v.length = t.mf.rows.length then (unstack ((t.mf.rows.map Prod.fst).zip v)).map .table else none
      | none => some .nothing
    | .named s => match x.alts with
      | some t => if t.names.contains s then (unstack (column2 t s)).map .table else some .nothing
      | none => some .nothing
    | _ => some .nothing
  | st => some st

/-- Lines 600-605 with 1362-1386: the alternative codes known so far. -/
def knownCodes (x : Args) : Option (Option (List Int)) :=
  match x.codes, x.alts with
  | none, none => some none
  | some c, none => some (some c)
  | none, some t => some (some t.mf.lev1)
  | some c, some t => if c = t.mf.lev1 then some (some c) else none

/-- Lines 607-619: choices from a column of codes of `data_co`. -/
def fromCo (x : Args) (known : Option (List Int)) (st : Stage) : Stage × Option (List Int) :=
  match st with
  | .nothing =>
    match x.ch, x.co with
    | .named s, some f => if f.names.contains s then
        let codes := known.getD (uniq (f.rows.map (fun r => r.2 s)))
        (.table ⟨codes, f.rows.map (fun r => (r.1, oneHot codes (r.2 s)))⟩, some codes)
      else (.nothing, known)
    | _, _ => (.nothing, known)
  | st => (st, known)

/-- `data_co.index` after the setter. -/
def coIds (x : Args) : Option (List Int) := x.co.map (fun f => (setSorted f.rows).map Prod.fst)

/-- `data_ce` after the setter. -/
def ceSet (x : Args) : Option (MF (String → Int)) := (ce x).map (fun t => setCe t.mf)

/-- `levels[0][numpy.unique(codes[0])]`, lines 1471 and 1473. -/
def mfIds {α : Type} (f : MF α) : List Int := ((usedCodes f).insertionSort (· ≤ ·)).filterMap (fun c => f.lev0[c]?)

/-- `caseindex`, lines 1459-1477, before choices, weights and availability are set. -/
def baseIds (x : Args) : List Int :=
  match coIds x, ca x, ceSet x with
  | some l, _, _ => l
  | none, some t, _ => mfIds t.mf
  | none, none, some f => mfIds f
  | none, none, none => []

/-- `n_cases`, lines 1443-1457; `other` is the number of rows of the frame being set, which counts if there are no other data. -/
def nCases (x : Args) (nAlts other : Nat) : Nat :=
  match x.co, ca x, ceSet x with
  | some f, _, _ => f.rows.length
  | none, some t, _ => t.mf.rows.length / nAlts
  | none, none, some f => ceCases f
  | none, none, none => other

/-- `values.reshape(-1, n)` with labels, lines 634-640 and 688-692. -/
def chunks (ids : List Int) (n : Nat) (vals : List Int) : Option (Co (List Int)) :=
  if vals.length = ids.length * n then
    some (ids.zipIdx.map (fun p => (p.1, (List.range n).map (fun a => vals.getD (p.2 * n + a) 0)))) else none

/-- `_fast_check_multiindex_equality`, lines 108-123. -/
def sameIndex {α β : Type} (f : MF α) (g : MF β) : Bool :=
  (f.rows.map (fun r => (code0 f r.1.1, code1 f r.1.2)) == g.rows.map (fun r => (code0 g r.1.1, code1 g r.1.2))) &&
    (f.lev0 == g.lev0) && (f.lev1 == g.lev1)

/-- Lines 631-643: a Series with two-level index is unstacked, if its index is that of `data_ca` by reshaping. -/
def unstackTall (x : Args) (known : Option (List Int)) (f : MF Int) : Option Table :=
  if (match ca x with | some t => sameIndex t.mf f | none => false) then
    (chunks (baseIds x) (known.getD []).length (f.rows.map Prod.snd)).map (fun r => ⟨known.getD [], r⟩)
  else unstack f.rows

/-- Lines 645-649: alternatives without a column get one of zeros. -/
def addColumns (known : Option (List Int)) (cols : List Int) (rows : List (List Int)) : List Int × List (List Int) :=
  match known with
  | some k => if k.length > cols.length ∧ cols.all (fun c => k.contains c) then
      (k, rows.map (fun r => k.map (fun a => if cols.contains a then r.getD (cols.idxOf a) 0 else 0))) else (cols, rows)
  | none => (cols, rows)

/-- Line 650, `_ensure_consistent_alternative_codes(ch.columns)`. -/
def consistent (known : Option (List Int)) (cols : List Int) : Bool :=
  match known with
  | some k => decide (cols = k)
  | none => true

/-- The setter of `data_ch`, lines 1763-1769, and lines 645-657: `none` for the `ValueError` of the reshape. -/
def setCh (x : Args) (known : Option (List Int)) (t : Table) : Option Table :=
  let p := addColumns known t.cols (t.rows.map Prod.snd)
  if consistent known p.1 && decide (t.rows.length = nCases x p.1.length t.rows.length) then
    some ⟨p.1, setSorted ((t.rows.map Prod.fst).zip p.2)⟩ else none

/-- The same for a frame that still has a two-level index; its rows are labelled here by the case only. -/
def setPairs (x : Args) (known : Option (List Int)) (cols : List Int) (rows : List ((Int × Int) × List Int)) : Option Table :=
  let p := addColumns known cols (rows.map Prod.snd)
  if consistent known p.1 && decide (rows.length = nCases x p.1.length rows.length) then
    let l := (rows.map Prod.fst).zip p.2
    let l' := if isMonoLex (rows.map Prod.fst) then l else l.insertionSort (fun a b => lexLe a.1 b.1 = true)
    some ⟨p.1, l'.map (fun r => (r.1.1, r.2))⟩ else none

/-- Lines 631-657: the final step for the choices. -/
def finish (x : Args) (known : Option (List Int)) (st : Stage) : Option (Option Table) :=
  match st with
  | .nothing => some none
  | .table t => (setCh x known t).map some
  | .tall f => ((unstackTall x known f).bind (setCh x known)).map some
  | .pairs cols rows => if cols.length = 1 then
      ((unstackTall x known ⟨(rows.map (fun r => r.1.1)).dedup, (rows.map (fun r => r.1.2)).dedup, rows.map (fun r => (r.1, r.2.getD 0 0)), 1⟩).bind
        (setCh x known)).map some
    else (setPairs x known cols rows).map some

/-- `data_ch` of the new container: `none` if the constructor raises, `some none` if there are no choices. -/
def choices (x : Args) : Option (Option Table) :=
  (encode x).bind (fun st => (fromAlts x st).bind (fun st1 => (knownCodes x).bind (fun k =>
    finish x (fromCo x k st1).2 (fromCo x k st1).1)))

/-- The alternative codes when weights and availability are set: known before, or those of the choices, or none (lines 650-653). -/
def altCodes (x : Args) : Option (List Int) :=
  (choices x).bind (fun c => (knownCodes x).map (fun k => match k, c with
    | some l, _ => l
    | none, some t => t.cols
    | none, none => []))

/-- The number of rows of the choices if there are choices (`_n_cases` looks at them before weights and availability). -/
def rowsOr (ch : Option Table) (n : Nat) : Nat := (ch.map (fun t => t.rows.length)).getD n

/-- Lines 588-598 and 655-662, `data_wt`: a column of `data_co` in the order given; a column of alternatives raises (line 595 or 598 unpacks the single result of `force_crack_idca`); a Series that does not fit is replaced by the first value of every case. -/
def weights (x : Args) : Option (Option (Co Int)) :=
  (altCodes x).bind (fun codes => (choices x).bind (fun ch =>
    match x.wt with
    | .absent => some none
    | .series f => if f.length = nCases x codes.length (rowsOr ch f.length) then some (some (setWt f)) else none
    | .tall f => if f.rows.length = nCases x codes.length (rowsOr ch f.rows.length) then some (some (f.rows.map (fun r => (r.1.1, r.2))))
      else
        let firsts := (uniq (f.rows.map (fun r => r.1.1))).map (fun c => (c, ((f.rows.find? (fun r => r.1.1 == c)).map Prod.snd).getD 0))
        if firsts.length = nCases x codes.length (rowsOr ch firsts.length) then some (some firsts) else none
    | .named s =>
      match x.co, x.alts with
      | some f, a => if f.names.contains s then
            (if f.rows.length = nCases x codes.length (rowsOr ch f.rows.length) then some (some (setWt (f.rows.map (fun r => (r.1, r.2 s))))) else none)
          else (if (a.map (fun t => t.names.contains s)).getD false then none else some none)
      | none, some t => if t.names.contains s then none else some none
      | none, none => some none))

/-- `caseindex` when availability is set. -/
def ids (x : Args) (ch : Option Table) (wt : Option (Co Int)) : List Int :=
  match coIds x, ch, wt with
  | some l, _, _ => l
  | none, some t, _ => t.rows.map Prod.fst
  | none, none, some w => w.map Prod.fst
  | none, none, none => baseIds x

/-- The setter of `data_av`, lines 1698-1704: the columns are not compared with the alternatives. -/
def setAv (x : Args) (ch : Option Table) (n : Nat) (t : Table) : Option Table :=
  if t.rows.length * t.cols.length = nCases x n (rowsOr ch t.rows.length) * n then some ⟨t.cols, setSorted t.rows⟩ else none

/-- Lines 582-586 and 658-704, `data_av`, for availability given explicitly.  A Series whose index is not that of `data_ca` is unstacked without filling
(line 698); cells without a row, which would become integers in an undefined way, are treated as an exception. -/
def availability (x : Args) : Option (Option Table) :=
  (altCodes x).bind (fun codes => (choices x).bind (fun ch => (weights x).bind (fun wt =>
    match x.av with
    | .absent => some none
    | .all => if codes.length = 0 then none else
        (setAv x ch codes.length ⟨codes, (ids x ch wt).map (fun c => (c, codes.map (fun _ => 1)))⟩).map some
    | .byName defs =>
      match x.co with
      | some f => if defs.all (fun d => f.names.contains d.2 && codes.contains d.1) then
            (setAv x ch codes.length ⟨codes, (setSorted f.rows).map (fun r => (r.1, codes.map (fun a => match defs.reverse.lookup a with
              | some s => r.2 s
              | none => 0)))⟩).map some
          else none
      | none => none
    | .named s =>
      match ca x with
      | some t => if t.names.contains s then
            ((chunks (ids x ch wt) codes.length ((column2 t s).map Prod.snd)).bind (fun r => setAv x ch codes.length ⟨codes, r⟩)).map some
          else none
      | none => none
    | .tall f => if (match ca x with | some t => sameIndex t.mf f | none => false) then
          ((chunks (ids x ch wt) codes.length (f.rows.map Prod.snd)).bind (fun r => setAv x ch codes.length ⟨codes, r⟩)).map some
        else ((unstack f.rows).bind (fun t => if t.rows.length * t.cols.length = f.rows.length then setAv x ch codes.length t else none)).map some
    | .wide t => (setAv x ch codes.length t).map some
    | .onRows v => match ce x with
      | some t => if v.length = t.mf.rows.length then
          ((unstack ((t.mf.rows.map Prod.fst).zip v)).bind (fun u => setAv x ch codes.length u)).map some else none
      | none => some none)))

end Larch.Choices
