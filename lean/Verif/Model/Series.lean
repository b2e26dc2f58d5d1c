import Verif.Model.Linear
import Mathlib.Analysis.SpecialFunctions.Sqrt
/-!
# Polynomial and Fourier terms, and normalization

Models `larch/util/common_functions.py`: `polynomial` (15-35), `fourier_series` (38-46),
`fourier_expansion_names` (49-69), `fourier_expansion` (72-107), `normalize` (110-134).

Data references are token lists, as in `Verif.Model.Linear`; `z + X(d) * P(s)` uses the operators
modelled there.
-/

namespace Larch.Series

open Larch.Py Larch.Linear

/-- `z = z + X(d) * P(s)`. -/
noncomputable def addTerm (fm : Fmt) (z : Except Exc Obj) (d : List Tok) (s : String) : Except Exc Obj :=
  match z with
  | .error e => .error e
  | .ok a =>
    match mul fm (.dat d) (.par s) with
    | .error e => .error e
    | .ok t => add fm a t

open Classical in
/-- The text of one power (common_functions.py:26-29). -/
noncomputable def powData (x : List Tok) (pwr : Num) : List Tok :=
  if pwr.val = 1 then x else .lp :: (x ++ .rp :: .op .pow :: pwr.toks)

/-- The text of one function (common_functions.py:33). -/
def funData (x : List Tok) (f : String) : List Tok := .name f :: .lp :: (x ++ [.rp])

/-- `polynomial(x, p, powers, funs)` (common_functions.py:15-35); the dictionaries in their order. -/
noncomputable def polynomial (fm : Fmt) (x : List Tok) (p : String) (powers : List (Num × String))
    (funs : List (String × String)) : Except Exc Obj :=
  let z := powers.foldl (fun z q => addTerm fm z (powData x q.1) (p ++ q.2)) (.ok (.func []))
  funs.foldl (fun z q => addTerm fm z (funData x q.1) (p ++ q.2)) z

/-- The default powers (common_functions.py:18-22). -/
noncomputable def defaultPowers : List (Num × String) :=
  [(⟨false, "1", 1⟩, ""), (⟨false, "2", 2⟩, "_Squared"), (⟨false, "3", 3⟩, "_Cubed")]

/-- `'cos' if i % 2 else 'sin'` (common_functions.py:43). -/
def fourierFun (i : Nat) : String := if i % 2 ≠ 0 then "cos" else "sin"

/-- `((i // 2) + 1) * 2` (common_functions.py:44). -/
def fourierMult (i : Nat) : Nat := (i / 2 + 1) * 2

/-- `f'{func}({x}*{mult}*pi)` (common_functions.py:45). -/
def fourierData (x : List Tok) (i : Nat) : List Tok :=
  .name (fourierFun i) :: .lp :: (x ++ [.op .mul, .num (toString (fourierMult i)) (fourierMult i), .op .mul, .name "pi", .rp])

/-- `f'{func}_{mult}π{p}'` (common_functions.py:45). -/
def fourierParam (p : String) (i : Nat) : String :=
  fourierFun i ++ "_" ++ toString (fourierMult i) ++ "π" ++ p

/-- `fourier_series(x, p, length)` (common_functions.py:38-46). -/
noncomputable def fourierSeries (fm : Fmt) (x : List Tok) (p : String) (length : Nat) : Except Exc Obj :=
  (List.range length).foldl (fun z i => addTerm fm z (fourierData x i) (fourierParam p i)) (.ok (.func []))

/-- `fourier_expansion_names(basename, length)` (common_functions.py:49-69), written out a second
time there. -/
def expansionNames (base : List Tok) (length : Nat) : List (List Tok) :=
  (List.range length).map fun i =>
    let func := if i % 2 ≠ 0 then "cos" else "sin"
    let mult := (i / 2 + 1) * 2
    .name func :: .lp :: (base ++ [.op .mul, .num (toString mult) (mult : ℝ), .op .mul, .name "pi", .rp])

/-- One row of `fourier_expansion` (common_functions.py:100-103): `numpy.cos` or `numpy.sin` of
`s * mult * numpy.pi`. -/
noncomputable def expansionRow (sin cos : ℝ → ℝ) (pi : ℝ) (s : ℝ) (length : Nat) : List ℝ :=
  (List.range length).map fun i =>
    (if i % 2 ≠ 0 then cos else sin) (s * ((i / 2 + 1) * 2 : Nat) * pi)

/-- The entries which are not NaN. -/
def present (x : List (Option ℝ)) : List ℝ := x.filterMap id

/-- `numpy.nanmean`. -/
noncomputable def nanmean (x : List (Option ℝ)) : ℝ := (present x).sum / (present x).length

/-- `numpy.nanstd`: the root of the mean squared distance from the mean. -/
noncomputable def nanstd (x : List (Option ℝ)) : ℝ :=
  Real.sqrt (((present x).map fun v => (v - nanmean x) ^ 2).sum / (present x).length)

open Classical in
/-- `normalize(x, std_div)` (common_functions.py:110-134).  `none` stands for NaN, and in the
result for anything which is not a finite number (division by zero). -/
noncomputable def normalize (x : List (Option ℝ)) (stdDiv : ℝ) : List (Option ℝ) :=
  let m := nanmean x
  let s := nanstd x * stdDiv
  x.map fun v => v.bind fun a => if s = 0 then none else some ((a - m) / s)

end Larch.Series
