import Verif.Model.Cdap
import Mathlib.Data.List.Sort
import Mathlib.Order.Lattice
import Mathlib.Algebra.Order.Ring.Int

/-!
# Households and persons of the activity pattern model (`larch/util/activitysim/cdap.py`)

`cdap_split_data`, `cdap_dataframes` and the sizes that `cdap_model` asks for.  Every cell is a text (a list of characters); the columns of
the wide tables are pairs of rank and name (`f"p{i[1]}_{i[0]}"`, `cdap.py:230`).  Reading of files and the assignment of ranks (ActivitySim)
are not modelled.
-/

namespace Larch.CdapData

open Larch.Cdap

/-- A row of the table of persons: household, `cdap_rank`, and the other columns. -/
structure Person where
  hh : Int
  rank : Int
  val : String → List Char

/-- `households.hhsize.clip(1, 5)`, `cdap.py:219`. -/
def sizeClass (s : Int) : Int := max 1 (min s 5)

/-- The distinct values, sorted. -/
def distinct (l : List Int) : List Int := l.dedup.insertionSort (· ≤ ·)

/-- `values[values.cdap_rank <= 5]`, `cdap.py:217`. -/
def firstFive (ps : List Person) : List Person := ps.filter (fun p => p.rank ≤ 5)

/-- `households.groupby(...)`: the households of a class. -/
def partFor (hhs : List (Int × Int)) (c : Int) : List Int := (hhs.filter (fun h => sizeClass h.2 = c)).map Prod.fst

/-- `pd.merge(values, hhs_part.household_id, on="household_id")`: a row for each person and each household with that number. -/
def merged (ps : List Person) (ids : List Int) : List Person :=
  (firstFive ps).flatMap (fun p => (ids.filter (fun i => i = p.hh)).map (fun _ => p))

/-- A table with one row per household: `cell i rank col`, `none` for missing; `choice i col` for the columns `override_choice` and
`model_choice` without a rank. -/
structure Table where
  ids : List Int
  cell : Nat → Option Int → String → Option (List Char)

/-- Exceptions. -/
inductive Fault where
  | value
  | key
deriving DecidableEq

/-- For a single person: `.set_index("household_id")`, `cdap.py:221-223`; columns have no rank. -/
def narrow (m : List Person) : Table :=
  ⟨m.map (·.hh), fun i r col => if r.isNone then (m[i]?).map (fun p => p.val col) else none⟩

/-- The person of a household with a rank. -/
def personOf (m : List Person) (id rank : Int) : Option Person := m.find? (fun p => p.hh = id && p.rank = rank)

/-- `v[[f"p{p}_{agglom}" for p in range(1, hhsize + 1)]].sum(1)`: the texts of ranks 1 to `n` one after the other, `cdap.py:231-232`.  What the sum
is if some are missing is not modelled (`none`). -/
def joinedText (m : List Person) (id : Int) (col : String) : Nat → Option (List Char)
  | 0 => some []
  | n + 1 => (joinedText m id col n).bind (fun t => (personOf m id (n + 1)).map (fun p => t ++ p.val col))

/-- The index entries are unique (else `unstack` raises). -/
def noTwice (m : List Person) : Bool := decide ((m.map (fun p => (p.hh, p.rank))).Nodup)

/-- Every rank up to the size has a column, `cdap.py:232`. -/
def ranksThere (m : List Person) (c : Int) : Bool := (List.range' 1 c.toNat).all (fun k => m.any (fun p => p.rank = k))

/-- For two and more: `.set_index(["household_id", "cdap_rank"]).unstack()` and the two joined columns, `cdap.py:225-232`. -/
def spread (m : List Person) (c : Int) : Except Fault Table :=
  if !noTwice m then .error .value
  else if !ranksThere m c then .error .key
  else
    let ids := distinct (m.map (·.hh))
    .ok ⟨ids, fun i r col => (ids[i]?).bind (fun id =>
      r.elim (if col = "override_choice" ∨ col = "model_choice" then joinedText m id col c.toNat else none)
        (fun k => (personOf m id k).map (fun p => p.val col)))⟩

/-- The table of one class. -/
def tableFor (hhs : List (Int × Int)) (ps : List Person) (c : Int) : Except Fault Table :=
  let m := merged ps (partFor hhs c)
  if c = 1 then .ok (narrow m) else spread m c

/-- `cdap_split_data(households, values)` where the persons have ranks, `cdap.py:213-234`. -/
def splitData (hhs : List (Int × Int)) (ps : List Person) : Except Fault (List (Int × Table)) :=
  (distinct (hhs.map (fun h => sizeClass h.2))).mapM (fun c => (tableFor hhs ps c).map (fun t => (c, t)))

/-- The character of an activity. -/
def actChar : Act → Char
  | .M => 'M'
  | .N => 'N'
  | .H => 'H'

/-- `override_choice.map(alts)`, `cdap.py:247`. -/
def codeOf (c : Int) (text : Option (List Char)) : Option Nat :=
  text.bind (fun t => ((alternatives c.toNat).find? (fun e => e.1.map actChar = t)).map Prod.snd)

/-- The container of a class, `cdap.py:242-248`: data, codes of the alternatives, chosen codes. -/
structure Container where
  data : Table
  codes : List Nat
  choice : Nat → Option Nat

/-- `cdap_dataframes(households, values)`, `cdap.py:237-249`. -/
def dataframes (hhs : List (Int × Int)) (ps : List Person) : Except Fault (List (Int × Container)) :=
  (splitData hhs ps).map (fun d => d.map (fun e =>
    (e.1, ⟨e.2, (alternatives e.1.toNat).map Prod.snd, fun i => codeOf e.1 (e.2.cell i none "override_choice")⟩)))

/-- `cdap_dfs[1]` and `cdap_dfs[s]` for 2 to 5, `cdap.py:373, 381-383`: the containers of the models. -/
def modelData (dfs : List (Int × Container)) : Except Fault (List Container) :=
  [1, 2, 3, 4, 5].mapM (fun s => (dfs.lookup s).elim (.error .key) .ok)

end Larch.CdapData
