import Mathlib.Data.List.Basic

/-!
# Choice, availability and weight specifications (`larch/model/controller.pyx:1075-1262`, `larch/model/model.py:656-714`)

The attributes of a model that say which data define choices, availability and weights, the request built from them, and - for a model
that reads its data from a `DataTree` or `Dataset` - the reuse of data loaded earlier (`larch/numba/model.py:917-925, 985-1010,
1150-1156`).  A mapping is its list of entries.  The utility part of the request is left out.
-/

namespace Larch.Setters

abbrev Dict := List (Int × String)

/-- The attributes; `none` is Python's `None`. -/
structure Attrs where
  chCa : Option String := none
  chCoVars : Option Dict := none
  chCoCode : Option String := none
  chAny : Bool := false
  avVar : Option String := none
  avCoVars : Option Dict := none
  avAny : Bool := false
  wt : Option String := none
deriving DecidableEq

inductive Choice where
  | ca (v : String)
  | coVars (d : Dict)
  | coCode (v : String)
  | any
deriving DecidableEq

inductive Avail where
  | ca (v : String)
  | coVars (d : Dict)
  | any
deriving DecidableEq

/-- The part of `required_data()` that depends on these attributes. -/
structure Request where
  choice : Option Choice
  avail : Option Avail
  weight : Option String
deriving DecidableEq

/-- Python truth value of a string attribute / of a mapping attribute. -/
def truthyS : Option String → Option String
  | some v => if v = "" then none else some v
  | none => none
def truthyD : Option Dict → Option Dict
  | some d => if d = [] then none else some d
  | none => none

/-- `required_data`, `larch/model/model.py:690-709`. -/
def Attrs.request (a : Attrs) : Request where
  choice :=
    match truthyS a.chCa with
    | some v => some (.ca v)
    | none =>
      match truthyD a.chCoVars with
      | some d => some (.coVars d)
      | none =>
        match truthyS a.chCoCode with
        | some v => some (.coCode v)
        | none => if a.chAny then some .any else none
  avail :=
    match truthyS a.avVar with
    | some v => some (.ca v)
    | none =>
      match truthyD a.avCoVars with
      | some d => some (.coVars d)
      | none => if a.avAny then some .any else none
  weight := truthyS a.wt

/-- The model: attributes, and the request with which the data now in use were loaded (`none`: no data loaded, `_dataset is None`). -/
structure St where
  a : Attrs := {}
  loaded : Option Request := none

/-- `mangle` (`larch/numba/model.py:917-925`) drops the loaded data. -/
def St.mangle (s : St) : St := { s with loaded := none }

/-- The statements. -/
inductive Op where
  | choiceCaVar (x : Option String)
  | choiceCoVars (x : Option Dict)
  | delChoiceCoVars
  | choiceCoCode (x : Option String)
  | delChoiceCoCode
  | choiceAny (x : Bool)
  | delChoiceAny
  | availCaVar (x : Option String)
  | availCoVars (x : Dict)
  | availAny (x : Bool)
  | weight (x : Option String)
  /-- an edit of the dictionary in place: `model.choice_co_vars[..] = ..` -/
  | editChoiceCoVars (x : Dict)
  /-- any other statement that mangles the model, e.g. an assignment to `utility_ca` -/
  | other
  /-- an evaluation -/
  | eval
deriving DecidableEq

def St.mangleIf (s : St) (c : Bool) : St := if c then s.mangle else s

/-- The setters and deleters, `controller.pyx:1080-1090, 1105-1119, 1121-1123, 1133-1147, 1149-1153, 1162-1170, 1172-1174, 1181-1183,
1190-1198 (and 1208-1216), 1238-1247, 1258-1262`; evaluation, `numba/model.py:1150-1153`. -/
def St.step (s : St) : Op → St
  | .choiceCaVar x =>
    let s := s.mangleIf (s.a.chCa ≠ x)
    let s := { s with a := { s.a with chCa := x } }
    match x with
    | some _ => { s with a := { s.a with chCoVars := none, chCoCode := none, chAny := false } }
    | none => s
  | .choiceCoVars (some d) =>
    let s := s.mangleIf (s.a.chCoVars ≠ some d)
    { s with a := { s.a with chCoVars := some d, chCa := none, chCoCode := none, chAny := false } }
  | .choiceCoVars none =>
    let s := s.mangleIf (s.a.chCoVars ≠ none)
    { s with a := { s.a with chCoVars := none } }
  | .delChoiceCoVars => { s with a := { s.a with chCoVars := none } }
  | .choiceCoCode (some v) =>
    let s := s.mangleIf (s.a.chCoCode ≠ some v)
    { s with a := { s.a with chCoCode := some v, chCoVars := none, chCa := none, chAny := false } }
  | .choiceCoCode none =>
    let s := s.mangleIf (s.a.chCoCode ≠ none)
    { s with a := { s.a with chCoCode := none } }
  | .delChoiceCoCode =>
    let s := s.mangleIf (s.a.chCoCode ≠ none)
    { s with a := { s.a with chCoCode := none } }
  | .choiceAny true => { s with a := { s.a with chAny := true, chCoCode := none, chCoVars := none, chCa := none } }
  | .choiceAny false => { s with a := { s.a with chAny := false } }
  | .delChoiceAny => { s with a := { s.a with chAny := false } }
  | .availCaVar x =>
    let s := s.mangleIf (s.a.avVar ≠ x)
    { s with a := { s.a with avVar := x, avCoVars := none, avAny := false } }
  | .availCoVars d =>
    let s := s.mangleIf (s.a.avCoVars ≠ some d)
    { s with a := { s.a with avCoVars := some d, avVar := none, avAny := false } }
  | .availAny _ => { s with a := { s.a with avAny := true, avCoVars := none, avVar := none } }
  | .weight x => { s with a := { s.a with wt := x } }
  | .editChoiceCoVars d => { s with a := { s.a with chCoVars := s.a.chCoVars.map (fun _ => d) } }
  | .other => s.mangle
  | .eval => match s.loaded with
    | some _ => s
    | none => { s with loaded := some s.a.request }

def run (ops : List Op) : St := ops.foldl St.step {}

end Larch.Setters
