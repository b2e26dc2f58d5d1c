import Verif.Model.Persist

/-!
# The stored matrices of a model, and locking several values

Models the dictionary `_matrixes` of a model (`larch/model/parameter_frame.pyx:76, 688-722`, written in
`larch/model/abstract_model.pyx:1167-1199`) and `lock_values` (`parameter_frame.pyx:426-447`).  What a calculation computes is given as a
function of two parameter names (C46, C103, C113 treat the numbers); the arrays kept have no names, these are put on when they are read.
Not modelled: exceptions within `calculate_parameter_covariance`, the columns of the frame it writes (C113), `set_value` with unknown names (C53).
-/

namespace Larch.Matrices

open Larch.Params Larch.Persist

variable {α : Type}

/-- The keys of `_matrixes`. -/
inductive Key where
  | hessian
  | covariance
  | robust
  | constrained
  | unconstrained
deriving DecidableEq

/-- What one call of `calculate_parameter_covariance` computes: Hessian, covariance, robust covariance, and the covariance adjusted for
constraints when there are any; `preserve` is `preserve_hessian`. -/
structure Calc (α : Type) where
  hess : String → String → α
  cov : String → String → α
  rob : String → String → α
  con : Option (String → String → α)
  preserve : Bool

/-- A model: what its specification mentions, its frame, and the arrays kept. -/
structure St (α : Type) where
  m : Mentions
  f : Frame
  mats : Key → Option (List (List α))

/-- The square array of a function. -/
def square (names : List String) (g : String → String → α) : List (List α) := names.map (fun a => names.map (fun b => g a b))

/-- `self._matrixes[key] = array`. -/
def put (mats : Key → Option (List (List α))) (k : Key) (x : List (List α)) : Key → Option (List (List α)) := fun j => if j = k then some x else mats j

/-- The writes of `calculate_parameter_covariance`, `abstract_model.pyx:1167-1199`. -/
def store (names : List String) (c : Calc α) (mats : Key → Option (List (List α))) : Key → Option (List (List α)) :=
  let m1 := if c.preserve then put mats .hessian (square names c.hess) else mats
  let m2 := put (put m1 .covariance (square names c.cov)) .robust (square names c.rob)
  match c.con with
  | none => m2
  | some s => put (put m2 .unconstrained (square names c.cov)) .covariance (square names s)

/-- The things done with a model: its utilities are edited, the frame is looked at, values are set, unused parameters are removed
(`larch/model/model.py:761-786`), the covariance is calculated (which unmangles first). -/
inductive Op (α : Type) where
  | edit (m : Mentions)
  | look
  | values (a : Arg) (kw : List (String × X))
  | removeUnused
  | compute (c : Calc α)

noncomputable def step (s : St α) : Op α → St α
  | .edit m => { s with m := m, f := mangle s.f }
  | .look => { s with f := unmangle s.m false s.f }
  | .values a kw => { s with f := (setValues s.m s.f a true kw).1 }
  | .removeUnused => { s with f := removeUnused s.m s.f }
  | .compute c => { s with f := unmangle s.m false s.f, mats := store (unmangle s.m false s.f).names c s.mats }

noncomputable def run (s : St α) (ops : List (Op α)) : St α := ops.foldl step s

/-- A new model. -/
def fresh (m : Mentions) : St α := ⟨m, ⟨[], false, true, .ninf, .fin 0⟩, fun _ => none⟩

/-- A frame of numbers with the same labels for rows and columns. -/
structure Square (α : Type) where
  labels : List String
  cells : List (List α)

/-- The properties `hessian_matrix`, `covariance_matrix`, `robust_covariance_matrix`, `constrained_covariance_matrix`,
`parameter_frame.pyx:688-722`: `None`, or the array with the names of the frame (not unmangled); pandas raises `ValueError` when the sizes differ. -/
def readMat (s : St α) (k : Key) : Option (Except String (Square α)) :=
  match s.mats k with
  | none => none
  | some x => if x.length = s.f.names.length then some (.ok ⟨s.f.names, x⟩) else some (.error "ValueError")

/-! ## `lock_values` -/

/-- A value to lock at: a number, or `'null'`. -/
inductive LockTo where
  | num (x : X)
  | null

/-- `lock_value`, `parameter_frame.pyx:416-424`. -/
noncomputable def lockTo (m : Mentions) (f : Frame) (n : String) : LockTo → Frame × Option String
  | .num x => lockValue m f n x
  | .null => lockNull m f n

/-- The loop over the keyword arguments, `parameter_frame.pyx:445-446`. -/
noncomputable def lockNamed (m : Mentions) : Frame → List (String × LockTo) → Frame × Option String
  | f, [] => (f, none)
  | f, (n, v) :: rest =>
    match lockTo m f n v with
    | (f1, some e) => (f1, some e)
    | (f1, none) => lockNamed m f1 rest

/-- The loop over the positional arguments, `parameter_frame.pyx:442-444`: `get_value` reads the frame as it is. -/
noncomputable def lockCurrent (m : Mentions) : Frame → List String → Frame × Option String
  | f, [] => (f, none)
  | f, n :: rest =>
    match rowOf f.rows n with
    | none => (f, some "KeyError")
    | some r =>
      match lockValue m f n r.value with
      | (f1, some e) => (f1, some e)
      | (f1, none) => lockCurrent m f1 rest

/-- `lock_values(*names, **kwargs)`, `parameter_frame.pyx:426-447`. -/
noncomputable def lockValues (m : Mentions) (f : Frame) (names : List String) (kw : List (String × LockTo)) : Frame × Option String :=
  match lockCurrent m f names with
  | (f1, some e) => (f1, some e)
  | (f1, none) => lockNamed m f1 kw

end Larch.Matrices
