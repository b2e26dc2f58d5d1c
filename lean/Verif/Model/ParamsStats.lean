import Verif.Model.Params

/-!
# Likelihood ratios, goodness of fit, caps on the bounds, and the ordered parameter table

Model of `likelihood_ratio`, `rho_sq_null` (`larch/model/abstract_model.pyx`) and of `set_cap`, `shift_values` and `pfo`
(`larch/model/parameter_frame.pyx`).
-/

namespace Larch.Params

open Classical in
/-- `a == b` of floats: false as soon as one is NaN. -/
noncomputable def feq (a b : X) : Bool := decide (a = b) && !a.isNaN

/-- The model state seen by `likelihood_ratio`: the frame and the column `likelihood_ratio` (NaN where never written). -/
structure LR where
  frame : Frame
  col : String → X

/-- `self.pf.loc[param, 'likelihood_ratio'] = x`. -/
noncomputable def LR.write (s : LR) (p : String) (x : X) : LR := { s with col := fun n => if n = p then x else s.col n }

/-- `likelihood_ratio(param, ref_value, _current_ll=cur)` with a string, `abstract_model.pyx:1273-1289`. -/
noncomputable def ratioOne (m : Mentions) (L : List (String × X) → Except String X) (cur : X) (ref : Option X) (s : LR)
    (p : String) : LR × Except String X :=
  let f := unmangle m false s.frame
  match rowOf f.rows p with
  | none => ({ s with frame := f }, .error "KeyError")
  | some r =>
    if feq (ref.getD r.null) r.value then
      (if ref.isNone then LR.write { s with frame := f } p (.fin 0) else { s with frame := f }, .ok (.fin 0))
    else
      match setValue m f p [.value (ref.getD r.null)] with
      | (f1, some e) => ({ s with frame := f1 }, .error e)
      | (f1, none) =>
        match loglike m L f1 with
        | (f2, .error e) => ({ s with frame := f2 }, .error e)
        | (f2, .ok alt) =>
          match setValue m f2 p [.value r.value] with
          | (f3, some e) => ({ s with frame := f3 }, .error e)
          | (f3, none) =>
            (if ref.isNone then LR.write { s with frame := f3 } p (cur - alt) else { s with frame := f3 }, .ok (cur - alt))

/-- The loop of `likelihood_ratio` over names, `abstract_model.pyx:1268-1271,1291-1293`; `acc` is the series of results
(NaN at first), written at the label. -/
noncomputable def ratioLoop (m : Mentions) (L : List (String × X) → Except String X) (cur : X) (ref : Option X)
    (includeHeld : Bool) : List String → LR → (String → X) → LR × Except String (String → X)
  | [], s, acc => (s, .ok acc)
  | p :: ps, s, acc =>
    let f := unmangle m false s.frame
    match rowOf f.rows p with
    | none => ({ s with frame := f }, .error "KeyError")
    | some r =>
      if r.holdfast = some 0 || includeHeld then
        match ratioOne m L cur ref { s with frame := f } p with
        | (s1, .error e) => (s1, .error e)
        | (s1, .ok x) => ratioLoop m L cur ref includeHeld ps s1 (fun n => if n = p then x else acc n)
      else ratioLoop m L cur ref includeHeld ps { s with frame := f } acc

/-- `likelihood_ratio(param, ref_value)` with one name, `abstract_model.pyx:1239-1289`. -/
noncomputable def likelihoodRatio (m : Mentions) (L : List (String × X) → Except String X) (s : LR) (p : String)
    (ref : Option X) : LR × Except String X :=
  match loglike m L s.frame with
  | (f, .error e) => ({ s with frame := f }, .error e)
  | (f, .ok cur) => ratioOne m L cur ref { s with frame := f } p

/-- `likelihood_ratio(param, ref_value, include_holdfast)` with no name (`none`: all of the index) or a list of names,
`abstract_model.pyx:1239-1293`. -/
noncomputable def likelihoodRatios (m : Mentions) (L : List (String × X) → Except String X) (s : LR)
    (ps : Option (List String)) (ref : Option X) (includeHeld : Bool) : LR × Except String (List (String × X)) :=
  match loglike m L s.frame with
  | (f, .error e) => ({ s with frame := f }, .error e)
  | (f, .ok cur) =>
    let f1 := unmangle m false f
    let idx := ps.getD f1.names
    match ratioLoop m L cur ref includeHeld idx { s with frame := f1 } (fun _ => .nan) with
    | (s1, .error e) => (s1, .error e)
    | (s1, .ok res) => (s1, .ok (idx.map (fun p => (p, res p))))

/-- `rho_sq_null(use_cache=…, adj=…)` at the current values, `abstract_model.pyx:742-765`. -/
noncomputable def rhoSqNull (m : Mentions) (L : List (String × X) → Except String X) (f : Frame) (useCache adj : Bool) :
    Frame × Except String X :=
  let k : X := if adj then .fin ((f.rows.filter Row.free).length : ℝ) else .fin 0
  match loglike m L f with
  | (f1, .error e) => (f1, .error e)
  | (f1, .ok ll) =>
    match loglikeNull m L f1 useCache with
    | (f2, .error e) => (f2, .error e)
    | (f2, .ok nl) => (f2, .ok (.fin 1 - (ll - k) / nl))

/-- `a <= b` of floats. -/
def fle : X → X → Prop
  | .nan, _ => False
  | _, .nan => False
  | .ninf, _ => True
  | _, .pinf => True
  | .fin a, .fin b => a ≤ b
  | _, _ => False

open Classical in
/-- `numpy.maximum` (NaN if either is NaN). -/
noncomputable def fmax (a b : X) : X := if a.isNaN || b.isNaN then .nan else if fle a b then b else a

open Classical in
/-- `numpy.minimum`. -/
noncomputable def fmin (a b : X) : X := if a.isNaN || b.isNaN then .nan else if fle a b then a else b

/-- `Series.fillna`. -/
def fillna (a b : X) : X := if a.isNaN then b else a

open Classical in
/-- `set_cap(cap)` on one row, `parameter_frame.pyx:622-627`.  The second `numpy.where` uses the same (already computed)
series `minimum <= maximum`. -/
noncomputable def capRow (cap : X) (r : Row) : Row :=
  let lo := fmax r.min (-cap)
  let hi := fmin r.max cap
  let lo1 := if fle lo hi then lo else r.min
  let hi1 := if fle lo hi then hi else r.max
  { r with min := fillna lo1 (-cap), max := fillna hi1 cap }

/-- `set_cap(cap)`, `parameter_frame.pyx:611-628`. -/
noncomputable def setCap (m : Mentions) (f : Frame) (cap : X) : Frame :=
  let f1 := unmangle m false f
  { f1 with rows := f1.rows.map (capRow cap) }

/-- `shift_values(shifts)`, `parameter_frame.pyx:633-635`: `shifts` of the length of the index. -/
noncomputable def shiftValues (m : Mentions) (f : Frame) (shifts : List X) : Frame × Option String :=
  let f1 := unmangle m false f
  setValues m f1 (.arr (List.zipWith (· + ·) (f1.rows.map Row.value) shifts)) true []

/-- The loop over the patterns of one category, `parameter_frame.pyx:666-669`.  `paramset` is a set (a list without
repetition here), `matchp pattern name` is `re.match(pattern, name) is not None`, `srt` is `sorted`. -/
def catLoop (srt : List String → List String) (matchp : String → String → Bool) :
    List String → List String → List String → List String × List String
  | [], acc, ps => (acc, ps)
  | pat :: pats, acc, ps =>
    let acc' := acc ++ srt (ps.filter (matchp pat))
    catLoop srt matchp pats acc' (ps.filter (fun n => n ∉ acc'))

/-- The loop over the categories, `parameter_frame.pyx:663-670`: the entries of `out` and what is left of `paramset`. -/
def ordLoop (srt : List String → List String) (matchp : String → String → Bool) :
    List (String × List String) → List String → List (String × List String) × List String
  | [], ps => ([], ps)
  | (c, pats) :: rest, ps =>
    let r := catLoop srt matchp pats [] ps
    let q := ordLoop srt matchp rest r.2
    ((c, r.1) :: q.1, q.2)

/-- The (category, parameter) pairs of the ordered frame, `parameter_frame.pyx:660-677`. -/
def pfoTuples (srt : List String → List String) (matchp : String → String → Bool) (ordering : List (String × List String))
    (names : List String) : List (String × String) :=
  let o := ordLoop srt matchp ordering names
  let out := if o.2 = [] then o.1 else o.1 ++ [("Other", srt o.2)]
  out.flatMap (fun cp => cp.2.map (fun p => (cp.1, p)))

/-- `pfo()`, `parameter_frame.pyx:656-685`: without ordering the frame itself (no category), else the rows re-indexed by the
pairs. -/
noncomputable def pfo (srt : List String → List String) (matchp : String → String → Bool) (m : Mentions)
    (ordering : List (String × List String)) (f : Frame) : List (Option String × String × Option Row) :=
  let f1 := unmangle m false f
  if ordering = [] then f1.rows.map (fun r => (none, r.name, some r))
  else (pfoTuples srt matchp ordering f1.names).map (fun cp => (some cp.1, cp.2, rowOf f1.rows cp.2))

end Larch.Params
