import Verif.Model.Weights

/-!
# Loading data: which arrays are shared

Model of `load_data` with a `DataFrames` as its source (`larch/model/controller.pyx:557-597`, `larch/dataframes.pyx:3280-3466`) as far as
choices and weights go, with the arrays as objects in memory.  The setters of `data_ch` and `data_wt` keep the frame they are given when it has
the right type (`dataframes.pyx:51-64, 1769-1774, 1853-1858`) and `_array_ch`, `_array_wt` are views of it (`93-105`), so that a frame handed on
by `make_dataframes` is one array with two owners; `autoscale_weights` and its like write into the array (`2966-2988`).
Not modelled: frames that are not sorted by case (the setter of `data_ch` then makes a sorted copy, `1771-1772`), and the other data.
-/

namespace Larch.Shared

open Larch.Weights

variable {K : Type} [Field K] [LinearOrder K]

/-- A `DataFrames`: the addresses of its choice and weight arrays, and `_weight_normalization`. -/
structure Obj (K : Type) where
  nCases : Nat
  nAlts : Nat
  ch : Nat
  wt : Option Nat
  norm : K

/-- Memory: choice arrays and weight arrays by address (addresses from `next` on are unused), and the `DataFrames` objects. -/
structure World (K : Type) where
  chs : Nat → Nat → Nat → K
  wts : Nat → Nat → K
  next : Nat
  objs : List (Obj K)

/-- What an object holds. -/
def World.view (s : World K) (o : Obj K) : W K := ⟨o.nCases, o.nAlts, s.chs o.ch, o.wt.map s.wts, o.norm⟩

/-- Writing the weights: into the array there is; a `data_wt` that was set on the way (`dataframes.pyx:2898-2903, 2958-2963`) is a new array. -/
def putWt (s : World K) (o : Obj K) (w : W K) : World K × Option Nat := match o.wt, w.wt with
  | some r, some x => ({ s with wts := fun q => if q = r then x else s.wts q }, some r)
  | none, some x => ({ s with wts := fun q => if q = s.next then x else s.wts q, next := s.next + 1 }, some s.next)
  | r, none => (s, r)

/-- Writing back what an operation on object `k` did: the arrays in place, the normalization in the object. -/
def World.put (s : World K) (k : Nat) (o : Obj K) (w : W K) : World K :=
  let s1 : World K := { s with chs := fun q => if q = o.ch then w.ch else s.chs q }
  let p := putWt s1 o w
  { p.1 with objs := p.1.objs.set k { o with wt := p.2, norm := w.norm } }

/-- `scale_weights`, `autoscale_weights`, `unscale_weights` called on object `k`. -/
def World.call (s : World K) (k : Nat) (c : Call K) : World K := match s.objs[k]? with
  | none => s
  | some o => s.put k o (Weights.call (s.view o) c)

/-- What a request says about choices and weights: the values of a named expression that could be evaluated on the source
(`columnize`, a new array), or nothing. -/
structure Named (K : Type) where
  ch : Option (Nat → Nat → K)
  wt : Option (Nat → K)

/-- The array of choices, `dataframes.pyx:3350-3388`: evaluated, or the source's own. -/
def loadCh (s : World K) (o : Obj K) (r : Named K) : World K × Nat := match r.ch with
  | some x => ({ s with chs := fun q => if q = s.next then x else s.chs q, next := s.next + 1 }, s.next)
  | none => (s, o.ch)

/-- The array of weights and their normalization, `dataframes.pyx:3390-3408`. -/
def loadWt (s : World K) (o : Obj K) (r : Named K) : World K × Option Nat × K := match r.wt, o.wt with
  | some x, _ => ({ s with wts := fun q => if q = s.next then x else s.wts q, next := s.next + 1 }, some s.next, 1)
  | none, some a => (s, some a, o.norm)
  | none, none => (s, none, 1)

/-- `make_dataframes`: a new object with these arrays, appended. -/
def World.make (s : World K) (o : Obj K) (r : Named K) : World K :=
  let p := loadCh s o r
  let q := loadWt p.1 o r
  { q.1 with objs := q.1.objs ++ [⟨o.nCases, o.nAlts, p.2, q.2.1, q.2.2⟩] }

/-- Whether the newest object has weights, `self.dataframes.data_wt is not None`. -/
def World.weighted (s : World K) (k : Nat) : Bool := match s.objs[k]? with
  | none => false
  | some o => o.wt.isSome

/-- `load_data(autoscale_weights=…)` from object `k` as the source, `controller.pyx:589-597`. -/
def World.load (s : World K) (k : Nat) (r : Named K) (autoscale : Bool) : World K := match s.objs[k]? with
  | none => s
  | some o =>
    let t := s.make o r
    if autoscale && t.weighted s.objs.length then t.call s.objs.length .autoscale else t

/-- The things that happen to data. -/
inductive Op (K : Type)
  | load (k : Nat) (r : Named K) (autoscale : Bool)
  | call (k : Nat) (c : Call K)

/-- One of them. -/
def World.step (s : World K) : Op K → World K
  | .load k r a => s.load k r a
  | .call k c => s.call k c

end Larch.Shared
