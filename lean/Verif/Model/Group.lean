import Verif.Model.Params

/-!
# Model groups

Model of `larch/model/model_group.py` (`ModelGroup`).  Members are abstract choice models: a parameter frame
(`Verif.Model.Params`), the names their specification mentions, and functions giving log likelihood and gradient
at the current values.  Simplifications: the members are distinct objects; a group inserted into a group after construction
(`insert`, `__setitem__`) is not modelled; change notifications (`_check_if_frame_values_changed`) are not modelled, because
every evaluation re-reads the frame; only `persist=0`.
-/

namespace Larch.Group

open Larch.Params

/-- A member model.  `ll` and `dll` are what `loglike()` and `loglike2().dll` compute from the names and current values
(`dll` gives the entry for each name; the Series is indexed by the member's frame, `numba/model.py`, `controller.pyx`). -/
structure Member where
  mentions : Mentions
  frame : Frame
  ll : List (String × X) → Except String X
  dll : List (String × X) → Except String (String → X)
  nCases : Nat
  weight : ℝ

/-- A `ModelGroup`: its own frame and the list `_k_models`. -/
structure MGroup where
  frame : Frame
  members : List Member

/-- An element of the list given to the constructor. -/
inductive Item where
  | model (m : Member)
  | group (g : MGroup)

/-- `__init__`, `model_group.py:14-38`: members of groups are taken over one by one; the frame starts as given (empty by
default) and mangled. -/
def init (frame : Frame) (items : List Item) : MGroup :=
  { frame := { frame with mangled := true }
    members := items.flatMap (fun i => match i with | .model m => [m] | .group g => g.members) }

/-- `n_cases`, `model_group.py:64-67`. -/
def nCases (g : MGroup) : Nat := (g.members.map Member.nCases).sum

/-- `total_weight`, `model_group.py:69-77`. -/
def totalWeight (g : MGroup) : ℝ := (g.members.map Member.weight).sum

/-- `k.pf`: the member's frame, unmangled on access, `parameter_frame.pyx:189-195`. -/
noncomputable def Member.unmangled (k : Member) : Member := { k with frame := unmangle k.mentions false k.frame }

/-- A specification that mentions nothing: the base class scan only sorts, `parameter_frame.pyx:123-124`. -/
def noMentions : Mentions := ⟨[], [], []⟩

/-- The rows imported from one member, `model_group.py:82-86` (the concatenation leaves `best` missing when the group has
that column and the member does not). -/
def importRows (rows : List Row) (k : Member) : List Row :=
  rows ++ k.frame.rows.filter (fun r => r.name ∉ rows.map Row.name)

/-- `k.set_values(**vals)` for one member, `model_group.py:147-150`. -/
noncomputable def push (vals : List (String × X)) (k : Member) : Member :=
  { k with frame := (setValues k.mentions k.frame .none true vals).1 }

/-- `_frame_values_have_changed` given that the group is in sync (`self.pf` adds nothing), `model_group.py:142-153`. -/
noncomputable def propagate (g : MGroup) : MGroup := { g with members := g.members.map (push g.frame.values) }

/-- `super().unmangle`, `parameter_frame.pyx:167-170`. -/
noncomputable def sortOwn (f : Frame) : Frame := unmangle noMentions false f

/-- `unmangle()` without force, `model_group.py:79-101`.  Whenever rows are imported from a member the code calls
`_frame_values_have_changed`, which re-enters `unmangle` before it propagates; the innermost call therefore sees all
imports, and the repeated propagation of the same values changes nothing more: modelled as all imports, then one
propagation if there was an import. -/
noncomputable def unmangleGroup (g : MGroup) : MGroup :=
  let ms := g.members.map Member.unmangled
  let f := sortOwn g.frame
  let rows := ms.foldl importRows f.rows
  let g' : MGroup := ⟨{ f with rows := rows }, ms⟩
  if rows.length = f.rows.length then g' else propagate g'

/-- `set_values` of the group, `model_group.py:103-140`: first on the group's own frame, as it is, then (unless that raised)
`_frame_values_have_changed`, which reads `self.pf`. -/
noncomputable def setGroup (g : MGroup) (a : Arg) (respect : Bool) (kw : List (String × X)) : MGroup × Option String :=
  match setValues noMentions g.frame a respect kw with
  | (f, some e) => ({ g with frame := f }, some e)
  | (f, none) => (propagate (unmangleGroup { g with frame := f }), none)

/-- `__prep_for_compute`, `model_group.py:155-164`. -/
noncomputable def prep (g : MGroup) (x : Option Arg) : MGroup × Option String :=
  let g1 := unmangleGroup g
  match x with
  | none => (propagate (unmangleGroup g1), none)
  | some a =>
    match setGroup g1 a true [] with
    | (g2, some e) => (g2, some e)
    | (g2, none) => (propagate (unmangleGroup g2), none)

/-- The list comprehension `[m.loglike() for m in …]`: members in turn, stopping at the first exception;
`model_group.py:228`, `282`.  Each member records its own best. -/
noncomputable def runMembers : List Member → List Member × Except String (List X)
  | [] => ([], .ok [])
  | k :: ks =>
    match Params.loglike k.mentions k.ll k.frame with
    | (f, .error e) => ({ k with frame := f } :: ks, .error e)
    | (f, .ok l) =>
      match runMembers ks with
      | (ks', .error e) => ({ k with frame := f } :: ks', .error e)
      | (ks', .ok ls) => ({ k with frame := f } :: ks', .ok (l :: ls))

/-- Python's `sum`. -/
noncomputable def pySum (l : List X) : X := l.foldl (· + ·) (.fin 0)

/-- The keyword arguments of `loglike` and `loglike2` that the group refuses unless they have their default,
`model_group.py:211-224`. -/
structure Opts where
  start : Int := 0
  stop : Int := -1
  step : Int := 1
  leaveOut : Int := -1
  keepOnly : Int := -1
  subsample : Int := -1
  probabilityOnly : Bool := false

/-- The refusals, in order. -/
def Opts.refused (o : Opts) : Bool :=
  o.start != 0 || o.stop != -1 || o.step != 1 || o.leaveOut != -1 || o.keepOnly != -1 || o.subsample != -1 || o.probabilityOnly

/-- `loglike(x)`, `model_group.py:175-242`. -/
noncomputable def loglike (g : MGroup) (x : Option Arg) (o : Opts) : MGroup × Except String X :=
  if o.refused then (g, .error "NotImplementedError")
  else
    match prep g x with
    | (g1, some e) => (g1, .error e)
    | (g1, none) =>
      match runMembers g1.members with
      | (ms, .error e) => ({ g1 with members := ms }, .error e)
      | (ms, .ok ls) => (⟨checkIfBest g1.frame (pySum ls), ms⟩, .ok (pySum ls))

/-- A pandas Series with an index of names. -/
abbrev Series := List (String × X)

/-- Value at a label, or none; NaN counts as missing in `Series.add(…, fill_value=0)`. -/
def present (s : Series) (n : String) : Option X :=
  match s.lookup n with
  | some .nan => none
  | o => o

/-- One entry of `a.add(b, fill_value=0)`. -/
noncomputable def fillAdd : Option X → Option X → X
  | none, none => .nan
  | some a, none => a + .fin 0
  | none, some b => .fin 0 + b
  | some a, some b => a + b

/-- pandas `a.add(b, fill_value=0)`: outer join of the labels, missing values (including NaN) filled by 0 unless missing
on both sides, `model_group.py:285`.  The order of the labels is not modelled (the caller selects by label). -/
noncomputable def addFill (a b : Series) : Series :=
  (a.map Prod.fst ++ (b.map Prod.fst).filter (fun n => n ∉ a.map Prod.fst)).map
    (fun n => (n, fillAdd (present a n) (present b n)))

/-- `dll[self.pf.index]`: select by label, KeyError if one is missing. -/
def select (s : Series) : List String → Except String Series
  | [] => .ok []
  | n :: ns =>
    match s.lookup n, select s ns with
    | none, _ => .error "KeyError"
    | some _, .error e => .error e
    | some v, .ok r => .ok ((n, v) :: r)

/-- `loglike2()` of one member: value and gradient Series at the current values. -/
noncomputable def Member.loglike2 (k : Member) : Except String (X × Series) :=
  match k.ll (unmangle k.mentions false k.frame).values, k.dll (unmangle k.mentions false k.frame).values with
  | .ok l, .ok d => .ok (l, (unmangle k.mentions false k.frame).names.map (fun n => (n, d n)))
  | .error e, _ => .error e
  | _, .error e => .error e

/-- `[m.loglike2() for m in …]`, results only. -/
noncomputable def parts2 : List Member → Except String (List (X × Series))
  | [] => .ok []
  | k :: ks =>
    match k.loglike2, parts2 ks with
    | .error e, _ => .error e
    | .ok _, .error e => .error e
    | .ok p, .ok ps => .ok (p :: ps)

/-- The result of `loglike2(x)`, `model_group.py:245-297` (the change of state is that of `loglike`). -/
noncomputable def loglike2 (g : MGroup) (x : Option Arg) (o : Opts) : Except String (X × Series) :=
  if o.refused then .error "NotImplementedError"
  else
    match prep g x with
    | (_, some e) => .error e
    | (g1, none) =>
      match parts2 g1.members with
      | .error e => .error e
      | .ok [] => .error "IndexError"
      | .ok (p :: ps) =>
        match select (ps.foldl (fun acc q => addFill acc q.2) p.2) g1.frame.names with
        | .error e => .error e
        | .ok d => .ok (pySum ((p :: ps).map Prod.fst), d)

end Larch.Group
