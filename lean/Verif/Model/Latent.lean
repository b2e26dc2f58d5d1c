import Verif.Model.Params
import Mathlib.Analysis.SpecialFunctions.Log.Basic

/-!
# Latent class models

Model of `larch/model/latentclass.py` (`LatentClassModel`) and of the two routines it uses to turn probabilities into log
likelihood and gradient, `loglike_from_probability` (`larch/model/mnl.pyx:279-384`) and `d_loglike_from_d_probability`
(`larch/model/nl.pyx:211-319`).  Numbers are exact reals here; `log` of a non-positive number is the only place where an
infinity could arise and the theorems assume it away.
-/

namespace Larch.Latent

/-- What one class model reports for the requested cases: its key in `k_models`, the width of its probability array, the
probabilities `[case, alternative]` and their derivatives `[case, alternative, parameter]`. -/
structure ClassOut where
  key : String
  width : Nat
  pr : Nat → Nat → ℝ
  dpr : Nat → Nat → Nat → ℝ

/-- What the class membership model reports: the column labels, probabilities `[case, column]` and derivatives. -/
structure Membership where
  cols : List String
  pr : Nat → Nat → ℝ
  dpr : Nat → Nat → Nat → ℝ

/-- A case range, `latentclass.py:151-165`: IndexError or the resolved `stop` and the number of rows. -/
def rangeRows (nCases start stop step : Int) : Except String (Int × Int) :=
  if start ≥ nCases then .error "IndexError: start_case >= n_cases"
  else
    let stop := if stop = -1 then nCases else stop
    if start > stop then .error "IndexError: start_case > stop_case"
    else if step ≤ 0 then .error "IndexError: non-positive step_case"
    else .ok (stop, (stop - start) / step + (if (stop - start) % step ≠ 0 then 1 else 0))

/-- The column of `k_pr[:, :n_alts]` that is added to column `a` of `p`: numpy broadcasts an array of width 1, and refuses
any other difference. -/
def column (nAlts : Nat) (w : Nat) (a : Nat) : Option Nat :=
  if min w nAlts = nAlts then some a else if min w nAlts = 1 then some 0 else none

/-- `probability`, the loop over classes, `latentclass.py:170-184` and `214-226`; `nAlts` is `self.dataframes.n_alts` in the first
copy of the code and `self._k_membership.data_as_loaded.n_alts` (the number of alternatives of the MEMBERSHIP model) in
the second. -/
noncomputable def probability (nAlts : Nat) (km : Membership) :
    List ClassOut → (Nat → Nat → ℝ) → Except String (Nat → Nat → ℝ)
  | [], p => .ok p
  | k :: ks, p =>
    if k.key ∉ km.cols then .error "KeyError"
    else if column nAlts k.width 0 = none then .error "ValueError: broadcast"
    else probability nAlts km ks
      (fun c a => p c a + k.pr c ((column nAlts k.width a).getD 0) * km.pr c (km.cols.idxOf k.key))

/-- `d_probability`, the loop over classes, `latentclass.py:268-287`, `315-334`. -/
noncomputable def dProbability (nAlts : Nat) (km : Membership) :
    List ClassOut → (Nat → Nat → Nat → ℝ) → Except String (Nat → Nat → Nat → ℝ)
  | [], p => .ok p
  | k :: ks, p =>
    if k.key ∉ km.cols then .error "KeyError"
    else if column nAlts k.width 0 = none then .error "ValueError: broadcast"
    else
      let p1 := fun c a i => p c a i + k.dpr c ((column nAlts k.width a).getD 0) i * km.pr c (km.cols.idxOf k.key)
      dProbability nAlts km ks
        (fun c a i => p1 c a i + k.pr c ((column nAlts k.width a).getD 0) * km.dpr c (km.cols.idxOf k.key) i)

/-- `_mnl_log_likelihood_from_probability_stride`, `mnl.pyx:279-294`. -/
noncomputable def caseLL (nAlts : Nat) (p ch : Nat → ℝ) : ℝ :=
  (List.range nAlts).foldl (fun ll i => if ch i ≠ 0 then ll + Real.log (p i) * ch i else ll) 0

/-- `loglike_from_probability`, `mnl.pyx:327-395`; `wt` is `none` without weights. -/
noncomputable def loglike (nRows nAlts : Nat) (p ch : Nat → Nat → ℝ) (wt : Option (Nat → ℝ)) : ℝ :=
  (List.range nRows).foldl (fun ll c => ll + match wt with
    | none => caseLL nAlts (p c) (ch c)
    | some w => caseLL nAlts (p c) (ch c) * w c) 0

/-- The arrays of `_nl_d_loglike_from_d_probability`: `buf` is the one buffer passed both as `d_LL` and as `dLL_temp`
(`nl.pyx:305` and `311`), `cum` the gradient, `bhhh` the matrix. -/
structure GradState where
  buf : Nat → ℝ
  cum : Nat → ℝ
  bhhh : Nat → Nat → ℝ

/-- One turn of the parameter loop, `nl.pyx:242-247`: the statements in order, on the shared buffer. -/
noncomputable def gradParam (dpa : Nat → ℝ) (pa cha wt : ℝ) (s : GradState) (i : Nat) : GradState :=
  let t := dpa i * (cha / pa)
  let buf1 := Function.update s.buf i (t / cha)
  let t2 := t * wt
  let buf2 := Function.update buf1 i (buf1 i + t2)
  { s with buf := buf2, cum := Function.update s.cum i (s.cum i + t2) }

/-- The BHHH loops, `nl.pyx:249-252`. -/
noncomputable def bhhhLoop (nParams : Nat) (cha wt : ℝ) (s : GradState) : GradState :=
  { s with bhhh := fun v v2 =>
      if v < nParams ∧ v2 < nParams then s.bhhh v v2 + s.buf v * s.buf v2 * cha * wt else s.bhhh v v2 }

/-- One turn of the alternative loop, `nl.pyx:232-255`. -/
noncomputable def gradAlt (nParams : Nat) (dp : Nat → Nat → ℝ) (p ch : Nat → ℝ) (wt : ℝ) (s : GradState) (a : Nat) :
    GradState :=
  if ch a = 0 then s
  else if 0 < p a then bhhhLoop nParams (ch a) wt ((List.range nParams).foldl (gradParam (dp a) (p a) (ch a) wt) s)
  else s

/-- `_nl_d_loglike_from_d_probability` for one case, `nl.pyx:229-257`. -/
noncomputable def gradCase (nParams nAlts : Nat) (dp : Nat → Nat → ℝ) (p ch : Nat → ℝ) (wt : ℝ) (s : GradState) : GradState :=
  (List.range nAlts).foldl (gradAlt nParams dp p ch wt) { s with buf := fun i => if i < nParams then 0 else s.buf i }

/-- `d_loglike_from_d_probability`, `nl.pyx:260-319`. -/
noncomputable def gradient (nRows nParams nAlts : Nat) (dp : Nat → Nat → Nat → ℝ) (p ch : Nat → Nat → ℝ)
    (wt : Option (Nat → ℝ)) : GradState :=
  (List.range nRows).foldl (fun s c => gradCase nParams nAlts (dp c) (p c) (ch c) (wt.elim 1 (fun w => w c)) s)
    ⟨fun _ => 0, fun _ => 0, fun _ _ => 0⟩

/-! ## Sharing of the parameter frame

pandas frames are objects; the models hold references to them.  The heap maps addresses to rows. -/

/-- The heap of frames and the address each model holds, in the order latent class model, membership model, classes. -/
structure Heap where
  frames : Nat → List Params.Row
  next : Nat
  ref : List Nat

/-- `joined = concat(frames)` without duplicated labels, first one kept, `latentclass.py:30-31`. -/
def joinFrames : List (List Params.Row) → List Params.Row
  | fs => fs.flatten.foldl (fun acc r => if r.name ∈ acc.map Params.Row.name then acc else acc ++ [r]) []

open Classical in
/-- `set_frame`, `parameter_frame.pyx:172-187`: a frame equal to the present one is NOT installed. -/
noncomputable def setFrame (h : Heap) (new : Nat) (addr : Nat) : Nat :=
  if h.frames addr = h.frames new then addr else new

open Classical in
/-- `sync_frames`, `latentclass.py:13-33`. -/
noncomputable def syncFrames (h : Heap) : Heap :=
  match h.ref with
  | [] => h
  | a :: rest =>
    if ∀ b ∈ rest, b = a then h
    else
      let joined := joinFrames (h.ref.map h.frames)
      let h1 : Heap := { h with frames := Function.update h.frames h.next joined, next := h.next + 1 }
      { h1 with ref := h.ref.map (setFrame h1 h.next) }

/-- Writing values into the frame a model holds (`set_values` of that model), seen by every model that holds the same
object. -/
def write (h : Heap) (addr : Nat) (f : List Params.Row → List Params.Row) : Heap :=
  { h with frames := Function.update h.frames addr (f (h.frames addr)) }

/-- `__prep_for_compute(x)`, `latentclass.py:128-131`: the values are set on the MEMBERSHIP model (second reference). -/
def prep (h : Heap) (f : List Params.Row → List Params.Row) : Heap :=
  match h.ref with
  | _ :: km :: _ => write h km f
  | _ => h

/-- The parameters model number `i` (0 the latent class model, 1 membership, then the classes) sees. -/
def sees (h : Heap) (i : Nat) : Option (List Params.Row) := h.ref[i]?.map h.frames

/-- A constituent model scans its specification after a change (`_ensure_names`, `parameter_frame.pyx:110-121`): when a name is
missing the frame is replaced by a NEW object with the additional rows. -/
def rescan (h : Heap) (i : Nat) (extra : List Params.Row) : Heap :=
  match h.ref[i]? with
  | none => h
  | some a =>
    match extra.filter (fun r => r.name ∉ (h.frames a).map Params.Row.name) with
    | [] => h
    | new => { frames := Function.update h.frames h.next (h.frames a ++ new), next := h.next + 1, ref := h.ref.set i h.next }

/-- The flags: `cython` is the attribute of the compiled base class, `python` the attribute of the same name that
`LatentClassModel` itself assigns (the base class attribute is a private C member, `parameter_frame.pxd:11-13`, so the
assignment in `__init__` creates another one). -/
structure Flags where
  cython : Bool
  python : Bool

/-- `mangle`, `latentclass.py:652-656`: sets only the flag of the base class. -/
def mangleFlags (fl : Flags) : Flags := { fl with cython := true }

/-- `unmangle(force)`, `latentclass.py:658-668`: the base class sorts and resets its flag; the resynchronisation depends on the
other flag.  The member scans (`k.unmangle`) are not repeated here, see `rescan`. -/
noncomputable def unmangle (force : Bool) (fl : Flags) (h : Heap) : Flags × Heap :=
  let fl1 := { fl with cython := false }
  if fl1.python || force then ({ fl1 with python := false }, syncFrames h) else (fl1, h)

end Larch.Latent
