import Verif.Model.ParamsStats
import Verif.Model.Request

/-!
# The joint table of several models

Model of `joint_parameter_summary` and `joint_parameter_indexing` (`larch/util/summary.py`).  A cell is blank, the dividing line or a number (the
formatting of numbers, and of the values and t statistics by `parameter_summary`, is left out).  Columns with the same label always have the
same content, because `.loc[…, (title, …)] = …` writes into all of them; so a cell is addressed by the labels of its row and column.
-/

namespace Larch.Joint

open Larch.Params

/-- What the table asks a model for. -/
structure Mod where
  title : String
  /-- the rows of `parameter_summary('df')`: name, `Value`, and `t Stat` if there is such a column -/
  params : List (String × X × Option X)
  /-- `most_recent_estimation_result.loglike`, if there was an estimation -/
  recent : Option X
  /-- `_cached_loglike_null`, zero if not known -/
  cNull : X
  /-- `_cached_loglike_nil` -/
  cNil : X
  /-- `loglike()` at the parameters' present values; `none` if it raises -/
  now : Option X

inductive Cell where
  | blank
  | line
  | num (x : X)

/-- A label: category and parameter, or title and subhead. -/
abbrev Key := String × String

structure Table where
  rows : List Key
  cell : Key → Key → Cell

/-- `joint_parameter_names`, `summary.py:5-10`. -/
def names (models : List Mod) : List String := Request.keysOf (models.flatMap (fun m => m.params.map Prod.fst))

/-- `joint_parameter_indexing`, `summary.py:13-33`: the same loops as `pfo`. -/
def index (srt : List String → List String) (matchp : String → String → Bool) (ordering : List (String × List String))
    (models : List Mod) : List Key := pfoTuples srt matchp ordering (names models)

/-- `summary.loc[r, h] = c`: a row that is not there yet is added (its other cells are NaN, and blank at the end). -/
def put (t : Table) (r h : Key) (c : Cell) : Table :=
  ⟨if r ∈ t.rows then t.rows else t.rows ++ [r], fun r' h' => if r' = r ∧ h' = h then c else t.cell r' h'⟩

/-- `summary.loc[(slice(None), p), h] = c`, for the rows `idx` of parameters. -/
def putParam (idx : List Key) (t : Table) (p : String) (h : Key) (c : Cell) : Table :=
  ⟨t.rows, fun r' h' => if r' ∈ idx ∧ r'.2 = p ∧ h' = h then c else t.cell r' h'⟩

/-- `try: x = …; except: pass; else: summary.loc[r, h] = x`. -/
def tryPut (t : Table) (r h : Key) (o : Option X) : Table := o.elim t (fun x => put t r h (.num x))

/-- One parameter, `summary.py:85-96`. -/
def paramOne (idx : List Key) (tStats : Bool) (title : String) (t : Table) (e : String × X × Option X) : Table :=
  let t1 := putParam idx t e.1 (title, "Param") (.num e.2.1)
  if tStats then e.2.2.elim t1 (fun s => putParam idx t1 e.1 (title, "t-Stat") (.num s)) else t1

/-- One model, `summary.py:81-96`. -/
def paramStep (idx : List Key) (tStats : Bool) (t : Table) (m : Mod) : Table := m.params.foldl (paramOne idx tStats m.title) t

/-- `summary.loc[('----', '----'), :] = "----"`, `summary.py:98-99`. -/
def rule (t : Table) : Table :=
  ⟨if ("----", "----") ∈ t.rows then t.rows else t.rows ++ [("----", "----")],
    fun r' h' => if r' = ("----", "----") then .line else t.cell r' h'⟩

open Classical in
/-- `loglike_null(-1)`: the cached value, or `ValueError`, `abstract_model.pyx:731-734`. -/
noncomputable def cached (x : X) : Option X := if x ≠ .fin 0 then some x else none

/-- The log likelihoods of one model, `summary.py:103-133`. -/
noncomputable def llStep (bases : List Mod) (t : Table) (m : Mod) : Table :=
  bases.foldl (fun t b => tryPut t ("Log Likelihood", b.title) (m.title, "Param") b.recent)
    (tryPut (tryPut (tryPut t ("Log Likelihood", "Converged") (m.title, "Param") m.recent)
      ("Log Likelihood", "Null") (m.title, "Param") (cached m.cNull))
      ("Log Likelihood", "Nil") (m.title, "Param") (cached m.cNil))

/-- `comp_ll[title]` after the loop of log likelihoods (for at least one model): the last base of that title with a result. -/
def compLL (loglike : Bool) (bases : List Mod) (title : String) : Option X :=
  if loglike then ((bases.reverse.find? (fun b => b.title == title && b.recent.isSome)).bind Mod.recent) else none

/-- `1 - ll / ref`. -/
noncomputable def rho (ll ref : Option X) : Option X := ll.bind fun a => ref.map fun b => .fin 1 - a / b

/-- The rho squared of one model, `summary.py:135-160`; `rho_sq_null(use_cache=-1)` evaluates the log likelihood now. -/
noncomputable def rhoStep (loglike : Bool) (bases : List Mod) (t : Table) (m : Mod) : Table :=
  bases.foldl (fun t b => tryPut t ("Rho Squared", "vs " ++ b.title) (m.title, "Param") (rho m.recent (compLL loglike bases b.title)))
    (tryPut (tryPut t ("Rho Squared", "vs Null") (m.title, "Param") (rho m.now (cached m.cNull)))
      ("Rho Squared", "vs Nil") (m.title, "Param") (rho m.now (cached m.cNil)))

/-- `joint_parameter_summary(models, ordering, t_stats, loglike, rhosq, bases)`, `summary.py:36-162`. -/
noncomputable def joint (srt : List String → List String) (matchp : String → String → Bool) (ordering : List (String × List String))
    (tStats loglike rhosq : Bool) (bases models : List Mod) : Table :=
  let idx := index srt matchp ordering models
  let t0 := models.foldl (paramStep idx tStats) ⟨idx, fun _ _ => .blank⟩
  let t1 := if loglike || rhosq then rule t0 else t0
  let t2 := if loglike then models.foldl (llStep bases) t1 else t1
  if rhosq then models.foldl (rhoStep loglike bases) t2 else t2

end Larch.Joint
