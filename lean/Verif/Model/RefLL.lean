import Verif.Model.Shared
import Verif.Model.Compiled

/-!
# Reference log likelihoods

Model of `loglike_nil`, `rho_sq_nil`, `loglike_constants_only` (`larch/model/abstract_model.pyx:767-848`) with the loading of data they do
(`Verif.Model.Shared`) and the compiled multinomial kernel (`Verif.Model.Compiled`).  The optimizer that `loglike_constants_only` runs is a
parameter: a function that is given the log likelihood of the constants and returns the value at which it stops.
-/

namespace Larch.RefLL

open Larch.Kernel Larch.Compiled Larch.Weights Larch.Shared

/-- A case of the reference model: choices, availability and weight; no explanatory data is requested (`model.py:653-708` for an empty
utility, `dataframes.pyx:3329-3348`), the new `DataFrames` is neither idca nor idce. -/
noncomputable def refCase (av : Nat → Nat → Bool) (w : W ℝ) (i : Nat) : Case where
  ch := w.ch i
  av := av i
  wt := caseWt w i
  co := fun _ => .fin 0
  ca := fun _ _ => .fin 0
  ce := none

/-- `ll += …` over the cases, then `ll *= dfs._weight_normalization`, `larch/model/mnl.pyx:574-648` (the cases are summed in order; the threads of
the program sum them in groups). -/
noncomputable def totalLL (M : Terms) (θ : Nat → ℝ) (av : Nat → Nat → Bool) (w : W ℝ) : X :=
  ((List.range w.nCases).foldl (fun ll i => ll + (mnlCase w.nAlts M (fun _ => false) θ (refCase av w i)).ll) (.fin 0)) * .fin w.norm

/-- `Model()`: no utility, no nests. -/
def nilTerms : Terms := ⟨[], none, [], []⟩

/-- `for j in altcodes[1:]: utility_co[j] = P(str(j))`, `abstract_model.pyx:837-839`: a parameter for each alternative but the first.  The
order of the parameters in the frame has no effect; here the parameter of alternative `j` is number `j - 1`. -/
def constantTerms (n : Nat) : Terms := ⟨[], none, [], (List.range' 1 (n - 1)).map (fun j => ⟨j, 1, j - 1, none⟩)⟩

/-- The model whose reference values are computed: its `dataframes` is object `cur` of the world, with availability `av`; `hasCo` tells whether
that has idco data. -/
structure Mod where
  world : World ℝ
  cur : Nat
  av : Nat → Nat → Bool
  hasCo : Bool
  cachedNil : X
  cachedConst : X

/-- What object `k` holds. -/
def heldBy (s : World ℝ) (k : Nat) : Option (W ℝ) := (s.objs[k]?).map s.view

/-- Loading a reference model from `self.dataframes`: names neither choices nor weights, and rescales the weights (the default of
`load_data`). -/
noncomputable def Mod.loadRef (m : Mod) : Mod := { m with world := m.world.load m.cur ⟨none, none⟩ true }

/-- The data of the reference model. -/
noncomputable def Mod.refData (m : Mod) : Option (W ℝ) := heldBy m.loadRef.world m.world.objs.length

open Classical in
/-- `loglike_nil`, `abstract_model.pyx:767-800`, with `use_cache` true or false; `none` for the `TypeError` of a model without data. -/
noncomputable def Mod.loglikeNil (m : Mod) (useCache : Bool) : Mod × Option X :=
  if m.cachedNil ≠ .fin 0 ∧ useCache = true then (m, some m.cachedNil)
  else
    match m.refData with
    | none => (m, none)
    | some w => ({ m.loadRef with cachedNil := totalLL nilTerms (fun _ => 0) m.av w }, some (totalLL nilTerms (fun _ => 0) m.av w))

/-- The model's own log likelihood, given how it depends on choices and weights. -/
noncomputable def Mod.loglike (m : Mod) (L : W ℝ → X) : Option X := (heldBy m.world m.cur).map L

/-- `rho_sq_nil`, `abstract_model.pyx:802-825`: `k` is 0, or the number of free parameters for `adj=True`. -/
noncomputable def Mod.rhoSqNil (m : Mod) (L : W ℝ → X) (k : ℝ) (useCache : Bool) : Mod × Option X :=
  match m.loglike L with
  | none => (m, none)
  | some ll => ((m.loglikeNil useCache).1, (m.loglikeNil useCache).2.map (fun nl => .fin 1 - (ll - .fin k) / nl))

/-- What goes wrong in `loglike_constants_only`. -/
inductive CErr
  /-- `AttributeError`: `columnize` of no data (`util/dataframe.py:158`), or a model without data. -/
  | attribute
  deriving DecidableEq

open Classical in
/-- `loglike_constants_only`, `abstract_model.pyx:828-848`; the data request has an entry for idco data (without names, constants need none), which
`make_dataframes` looks for in the source (`dataframes.pyx:3340-3346`). -/
noncomputable def Mod.loglikeConstants (maxim : ((Nat → ℝ) → X) → X) (m : Mod) : Mod × Except CErr X :=
  if m.cachedConst ≠ .fin 0 then (m, .ok m.cachedConst)
  else if m.hasCo = false then (m, .error .attribute)
  else
    match m.refData with
    | none => (m, .error .attribute)
    | some w =>
      ({ m.loadRef with cachedConst := maxim (fun θ => totalLL (constantTerms w.nAlts) θ m.av w) },
        .ok (maxim (fun θ => totalLL (constantTerms w.nAlts) θ m.av w)))

end Larch.RefLL
