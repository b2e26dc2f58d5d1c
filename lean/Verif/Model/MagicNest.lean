import Verif.Model.AltCodes
import Verif.Model.Graph

/-!
# Nests built from systematic alternative codes

Models `magic_nesting` and `magic_ogev_nesting`, `larch/model/systematic_alternatives.py:446-598`.

Simplifications: codes are unbounded natural numbers (as in `Verif.Model.AltCodes`); the Python `set` of nest codes of a level is
walked in the order of first occurrence (the graph depends on that order only through the order of its edge list, and no theorem
below mentions it); the `name` attribute of the new nodes is dropped; `mu_parameters` is the list of names after the default has
been filled in (lines 539-540); the closing `model.mangle()` is not modelled.  A call that raises has result `none` (the real graph
is then left half-edited).
-/

namespace Larch.AltCodes

open Larch.Graph

/-- The attributes of a `SystematicAlternatives` object that the nesting functions read,
systematic_alternatives.py:16-33: `len(groupby)`, `masks`, `altcodes`, `padding_levels`. -/
structure SysAlts where
  groups : Nat
  masks : List Nat
  altcodes : List Nat
  padding : Nat

/-- The object returned by `new_alternative_codes` beside the recoded frame, systematic_alternatives.py:376-442. -/
def sysAlts {β : Type} [LinearOrder β] (G padding : Nat) (rows : List (Row β)) : SysAlts :=
  { groups := G
    masks := altMasks G padding rows
    altcodes := uniq ((List.range rows.length).map (altCode G padding rows))
    padding := padding }

/-- `int(numpy.sum(masks[:level+1]))`, systematic_alternatives.py:543. -/
def SysAlts.levelMask (sa : SysAlts) (l : Nat) : Nat := (sa.masks.take (l + 1)).sum

/-- `mask_1 = 1 << bitmask_shift_value(level_mask)`, systematic_alternatives.py:544. -/
def SysAlts.levelOne (sa : SysAlts) (l : Nat) : Nat := 1 <<< bitmaskShiftValue (sa.levelMask l)

/-- `code & mask` and `(code + mask_1*(each_t+1)) & mask` for `each_t in range(t)`: the codes computed at
systematic_alternatives.py:551-554 (nests of a level), 563-566 (parents of a nest), 575-579 (parents of an alternative). -/
def shifted (code one mask t : Nat) : List Nat :=
  (code &&& mask) :: (List.range t).map (fun k => (code + one * (k + 1)) &&& mask)

/-- `unique_level_nest_codes`, systematic_alternatives.py:551-554. -/
def SysAlts.levelNests (sa : SysAlts) (l t : Nat) : List Nat :=
  (sa.altcodes.flatMap (fun a => shifted a (sa.levelOne l) (sa.levelMask l) t)).dedup

/-- The parents given to a code from the nests of the previous level: `prev_level_mask`, `prev_mask_1`, `prev_t`;
systematic_alternatives.py:534-536 (initial values), 563-566, 568-570, 575-579.  `l` is the level the code belongs to
(`len(groupby)` for the alternatives); with no previous level the three values are still zero. -/
def SysAlts.parents (sa : SysAlts) (coverage : List Nat) (l code : Nat) : List Nat :=
  match l with
  | 0 => shifted code 0 0 0
  | l + 1 => shifted code (sa.levelOne l) (sa.levelMask l) (coverage.getD l 0 - 1)

/-- The calls made for one level, systematic_alternatives.py:542-570; `none` for the `ValueError` of line 549 and for the
`IndexError`s of `ogev_coverage[level]` and `mu_parameters[level]`. -/
def SysAlts.levelOps (sa : SysAlts) (root : Int) (coverage : List Nat) (mu : List String) (l : Nat) : Option (List Op) :=
  coverage[l]?.bind fun c =>
    if sa.padding < c - 1 then none
    else mu[l]?.map fun m =>
      (sa.levelNests l (c - 1)).map (fun (n : Nat) => Op.addNode (n : Int) { param := some m }) ++
      (sa.levelNests l (c - 1)).flatMap (fun (n : Nat) =>
        if l = 0 then [Op.addEdge root (n : Int) false none]
        else (sa.parents coverage l n).map (fun (p : Nat) => Op.addEdge (p : Int) (n : Int) false none))

/-- The calls made for the elemental alternatives, systematic_alternatives.py:572-579. -/
def SysAlts.altOps (sa : SysAlts) (coverage : List Nat) : List Op :=
  sa.altcodes.flatMap (fun (a : Nat) =>
    (sa.parents coverage sa.groups a).map (fun (p : Nat) => Op.addEdge (p : Int) (a : Int) false none))

/-- All calls on `model.graph`, in order; the arguments do not depend on the graph except for its root. -/
def SysAlts.nestOps (sa : SysAlts) (root : Int) (coverage : List Nat) (mu : List String) : Option (List Op) :=
  ((List.range sa.groups).mapM (sa.levelOps root coverage mu)).map fun ls => ls.flatten ++ sa.altOps coverage

/-- `magic_ogev_nesting(model, ogev_coverage, sys_alts, mu_parameters)`, systematic_alternatives.py:488-590:
the graph of the model afterwards. -/
def SysAlts.ogevNesting (sa : SysAlts) (g : G) (coverage : List Nat) (mu : List String) : Option G :=
  (sa.nestOps g.root coverage mu).map (run g)

/-- `magic_nesting(model, sys_alts, mu_parameters)`, systematic_alternatives.py:446-484. -/
def SysAlts.nesting (sa : SysAlts) (g : G) (mu : List String) : Option G :=
  sa.ogevNesting g ((List.range sa.groups).map (fun _ => 1)) mu

end Larch.AltCodes
