import Mathlib.Order.Defs.LinearOrder
import Mathlib.Data.List.Basic

/-!
# Which parameter values the data works with (`larch/model/parameter_frame.pyx:59-101, 439-460`, `larch/model/controller.pyx`)

A `DataFrames` attached to a model keeps a copy of the values and holdfast flags (`_read_in_model_parameters`), which is renewed at every evaluation of the model and when
`_check_if_frame_values_changed` finds that values changed.  What the setters do to the frame is not described here (`Larch.Params` does): a setter is any function of frames.
Simplification: the copy is kept by parameter name (the code keeps it by position, see `Larch.Slots`); values are numbers, `none` being NaN.
-/

namespace Larch.Notify

variable {K : Type} [DecidableEq K]

/-- A row of the parameter frame, or of the copy. -/
structure Row (K : Type) where
  name : String
  value : Option K
  hold : Bool
  deriving DecidableEq

/-- The model: `_frame`, `_prior_frame_values` (name and value), `_batch_update_lock_level`, and the copy in the data attached to it. -/
structure State (K : Type) where
  frame : List (Row K)
  prior : Option (List (String × Option K))
  lock : Nat
  used : List (Row K)

/-- `self._frame['value'].copy()`. -/
def snapshot (f : List (Row K)) : List (String × Option K) := f.map (fun r => (r.name, r.value))

/-- Equality of numbers: NaN is not equal to itself. -/
def sameNumber (a b : Option K) : Bool :=
  match a, b with
  | some x, some y => decide (x = y)
  | _, _ => false

/-- `numpy.array_equal` of the values, and of the indexes (lines 89-94). -/
def arrayEqual (p q : List (String × Option K)) : Bool :=
  (decide (p.length = q.length) && (p.zip q).all (fun e => sameNumber e.1.2 e.2.2)) && decide (p.map Prod.fst = q.map Prod.fst)

/-- `_check_if_frame_values_changed`, lines 78-99, with `_frame_values_have_changed` of `controller.pyx:276-283`. -/
def check (s : State K) : State K :=
  if 0 < s.lock then s
  else if s.prior.any (fun p => arrayEqual p (snapshot s.frame)) then s
  else { s with used := s.frame, prior := some (snapshot s.frame) }

/-- What happens to a model with data. -/
inductive Op (K : Type)
  /-- A setter (`set_value`, `set_values`, `lock_value`, `lock_values`, `set_cap`): the frame changes, then line 387, 424, 447, 609 or 628. -/
  | setter (g : List (Row K) → List (Row K))
  /-- The frame is written to directly (`m.pf.loc[...] = ...`), or by code without the check. -/
  | silent (g : List (Row K) → List (Row K))
  /-- `with m.batch_update():` begins, lines 454-455. -/
  | enter
  /-- It ends (458-460), without or with an exception: with one, the check that follows the `finally` clause is not reached. -/
  | leave (raised : Bool)
  /-- An evaluation, `controller.pyx:843-847`: the values given are set, then all are read. -/
  | evaluate (g : List (Row K) → List (Row K))
  /-- New data is attached, `controller.pyx:520-530`. -/
  | attach

/-- One operation. -/
def step (s : State K) : Op K → State K
  | .setter g => check { s with frame := g s.frame }
  | .silent g => { s with frame := g s.frame }
  | .enter => { s with lock := s.lock + 1 }
  | .leave raised => if raised then { s with lock := s.lock - 1 } else check { s with lock := s.lock - 1 }
  | .evaluate g => let s' := check { s with frame := g s.frame }; { s' with used := s'.frame }
  | .attach => { s with used := s.frame }

/-- A history. -/
def run (s : State K) (ops : List (Op K)) : State K := ops.foldl step s

/-- A new model (`__init__`, lines 59-76) to which data is attached. -/
def start (f : List (Row K)) : State K := ⟨f, some (snapshot f), 0, f⟩

end Larch.Notify
