import Verif.Model.Graph

/-!
# Nesting trees from ActivitySim settings (`larch/util/activitysim/general.py`)
-/

namespace Larch.Graph

/-- The `NESTS` settings (a YAML mapping): a string under `alternatives`, or a mapping with `name`, `coefficient` (its text;
`none` when the key is missing) and `alternatives`. -/
inductive Cfg where
  | alt (name : String)
  | nest (name : String) (coef : Option String) (kids : List Cfg)

/-- `d[k] = v` for a dictionary in insertion order. -/
def dset (d : List (String × Int)) (k : String) (v : Int) : List (String × Int) :=
  if k ∈ d.map Prod.fst then d.map (fun e => if e.1 = k then (k, v) else e) else d ++ [(k, v)]

/-- `d[k]`; `none` for `KeyError`. -/
def dget (d : List (String × Int)) (k : String) : Option Int := (d.find? (fun e => e.1 == k)).map Prod.snd

/-- The two variables `make_nest` works on: `tree` and `nest_names_to_codes`. -/
structure Bld where
  g : G
  names : List (String × Int)

mutual
/-- `make_nest(cfg, parent_code)`, `larch/util/activitysim/general.py:327-345`; `none` when it raises (a `KeyError`, or a
`TypeError` when the settings are a string). -/
def makeNest (s : Bld) (parent : Int) : Cfg → Option Bld
  | .alt _ => none
  | .nest nm coef kids =>
    if nm = "root" then makeKids s nm kids
    else
      match dget s.names nm with
      | none =>
        match coef with
        | none => none
        | some c =>
          match newNode s.g none { parent := some parent, param := some c } with
          | (_, none) => none
          | (g, some n) => makeKids { g := g, names := dset s.names nm n } nm kids
      | some code => makeKids { s with g := addEdge s.g parent code } nm kids

/-- The loop over `cfg["alternatives"]`, `general.py:341-345`; `own` is `cfg["name"]`. -/
def makeKids (s : Bld) (own : String) : List Cfg → Option Bld
  | [] => some s
  | k :: rest =>
    match dget s.names own with
    | none => none
    | some o =>
      match k with
      | .alt a =>
        match dget s.names a with
        | none => none
        | some c => makeKids { s with g := addEdge s.g o c } own rest
      | .nest nm coef kids =>
        match makeNest s o (.nest nm coef kids) with
        | none => none
        | some s' => makeKids s' own rest
end

/-- `tree` and `nest_names_to_codes` before `make_nest` is called, `general.py:321-325`. -/
def startBld (alts : List (String × Int)) : Bld :=
  { g := (alts.map Prod.snd).foldl (fun g c => (addNode g c {}).1) (new 0)
    names := dset alts "root" 0 }

/-- `construct_nesting_tree(alternatives, nesting_settings)` for a mapping of alternatives, `general.py:295-349`; `none` when it
raises. -/
def construct (alts : List (String × Int)) (cfg : Cfg) : Option G := (makeNest (startBld alts) 0 cfg).map Bld.g

/-- The mapping made from a sequence of names, `general.py:316-319`: `dict(zip(names, arange(1, n+1)))` (a repeated name keeps its
place and gets the later code). -/
def numberNames (names : List String) : List (String × Int) :=
  (names.zipIdx 1).foldl (fun d e => dset d e.1 e.2) []

end Larch.Graph
