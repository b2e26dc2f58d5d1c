import Mathlib.Data.List.Basic

/-!
# Lists of pods (`larch/data_services/podlist.py`) and the data service that holds them (`larch/data_services/service.py`)

A pod is a store of named arrays of one shape, whose first dimension is the cases.  Only what the lists look at is kept: the identifier, the
kind of data, the shape, and whether the pod can be broadcast over the alternatives (`as_idca`).
-/

namespace Larch.Pods

/-- The shape of a pod (`Pod.shape`, `larch/data_services/pod.py`, 99-102): a tuple with at least one entry, kept as all entries but the last,
`shape[:-1]`, and the last, `shape[-1]`.  The value `-1` as last entry stands for a dimension not known yet. -/
structure Shape where
  lead : List Int
  last : Int
deriving DecidableEq, Repr

/-- `shape[0]` (`Pod.n_cases`, `pod.py`, 108-111). -/
def Shape.first (s : Shape) : Int := s.lead.head?.getD s.last

/-- The kinds of pods that `DataService.add_pod` tells apart (`service.py`, 95, 110, 117, 124). -/
inductive Kind | co | ca | ce | other
deriving DecidableEq, Repr

structure Pod where
  ident : String
  kind : Kind
  shape : Shape
  /-- The pod has a method `as_idca` (`h5/h5pod/idco.py`, 347-349; `h5/h5pod/idrc.py`, 109-111). -/
  broadcasts : Bool
  /-- The names of the data items in the pod (`Pod.names`, `pod.py`, 113-115). -/
  names : List String
deriving DecidableEq, Repr

/-- `Pod.as_idca` (`h5/h5pod/idco.py`, 347-349 and 436-480): the same data with one more dimension, not known yet. -/
def Pod.asCA (p : Pod) : Pod :=
  { ident := p.ident ++ "_as_idca", kind := Kind.ca, shape := ⟨p.shape.lead ++ [p.shape.last], -1⟩, broadcasts := true, names := p.names }

/-- A `Pods`, or with `nAlts` a `PodsCA` (`podlist.py`, 14-24 and 556-560). -/
structure PodList where
  nAlts : Option Int
  items : List Pod

/-- `Pods.shape` (`podlist.py`, 50-57): of the first pod whose last dimension is known, else of the first pod. -/
def rawShape (l : List Pod) : Option Shape :=
  ((l.find? (fun p => p.shape.last != -1)).or l.head?).map Pod.shape

/-- `PodsCA.shape` (`podlist.py`, 562-567): a second entry `-1` is replaced by the number of alternatives. -/
def fillAlts (n : Int) (s : Shape) : Shape :=
  match s.lead with
  | [] => s
  | [a] => if s.last = -1 then ⟨[a], n⟩ else s
  | a :: b :: r => if b = -1 then ⟨a :: n :: r, s.last⟩ else s

def fillWith (nAlts : Option Int) (s : Shape) : Shape :=
  match nAlts with
  | none => s
  | some n => fillAlts n s

/-- The property `shape` of the list. -/
def PodList.shape (l : PodList) : Option Shape := (rawShape l.items).map (fillWith l.nAlts)

/-- The comparison of `Pods.__check_shape` (`podlist.py`, 74-78). -/
def fits (own new : Shape) : Bool :=
  own == new || (own.lead == new.lead && (own.last == -1 || new.last == -1))

/-- `Pods.__check_shape` (`podlist.py`, 71-81): true if nothing is raised. -/
def PodList.check (l : PodList) (p : Pod) : Bool :=
  match l.shape with
  | none => true
  | some s => fits s p.shape

/-- Where `list.insert` of Python puts the element. -/
def insertPos (len : Nat) (i : Int) : Nat :=
  if i < 0 then (len + i).toNat else min i.toNat len

/-- The position an index of Python means, if there is one. -/
def indexPos (len : Nat) (i : Int) : Option Nat :=
  if 0 ≤ i then (if i < len then some i.toNat else none)
  else if 0 ≤ len + i then some (len + i).toNat else none

/-- `Pods.insert` (`podlist.py`, 44-48); also `append`, which inserts at the end. -/
def PodList.insert (l : PodList) (i : Int) (p : Pod) : Option PodList :=
  if l.check p then some { l with items := l.items.insertIdx (insertPos l.items.length i) p } else none

def PodList.append (l : PodList) (p : Pod) : Option PodList := l.insert l.items.length p

/-- `Pods.__setitem__` (`podlist.py`, 38-42). -/
def PodList.setItem (l : PodList) (i : Int) (p : Pod) : Option PodList :=
  if l.check p then (indexPos l.items.length i).map (fun k => { l with items := l.items.set k p }) else none

/-- `Pods.__delitem__` (`podlist.py`, 26-27). -/
def PodList.delItem (l : PodList) (i : Int) : Option PodList :=
  (indexPos l.items.length i).map (fun k => { l with items := l.items.eraseIdx k })

/-- The calls a user can make on the list.  (`clear`, `pop`, `extend` of `MutableSequence` are made of these.) -/
inductive Op
  | insert (i : Int) (p : Pod)
  | set (i : Int) (p : Pod)
  | del (i : Int)

/-- One call: if it raises, the list is as before. -/
def PodList.step (l : PodList) (o : Op) : PodList :=
  match o with
  | .insert i p => (l.insert i p).getD l
  | .set i p => (l.setItem i p).getD l
  | .del i => (l.delItem i).getD l

def PodList.run (l : PodList) (os : List Op) : PodList := os.foldl PodList.step l

/-- `DataService` (`service.py`, 29-41). -/
structure Service where
  nCases : Option Int
  altids : List Int
  idco : PodList
  idca : PodList
  idce : PodList
  library : List (String × Pod)

/-- The number of alternatives given to the list of `idca` pods (`service.py`, 36). -/
def startAlts (altids : Option (List Int)) : Int :=
  match altids with
  | none => -1
  | some a => (a.length : Int)

/-- `DataService.__init__` without pods (`service.py`, 31-39). -/
def Service.new (altids : Option (List Int)) : Service :=
  { nCases := none, altids := altids.getD [], idco := ⟨none, []⟩, idca := ⟨some (startAlts altids), []⟩, idce := ⟨none, []⟩, library := [] }

/-- `DataService.n_alts` (`service.py`, 89-92). -/
def Service.nAlts (s : Service) : Int := s.altids.length

/-- The test of the number of cases in `add_pod` (`service.py`, 96-100, 111-115, 118-122): false if it raises. -/
def Service.admits (s : Service) (n : Int) : Bool :=
  match s.nCases with
  | none => true
  | some m => m == n

/-- `_cleanup_trailing_dims` (`service.py`, 131-134) for one pod.  (The last entry of the shape of the list is the same whether or not some of
the pods have been given theirs.) -/
def closeDim (own : Option Shape) (p : Pod) : Pod :=
  if p.shape.last = -1 then { p with shape := ⟨p.shape.lead, (own.map Shape.last).getD (-1)⟩ } else p

def PodList.cleanup (l : PodList) : PodList := { l with items := l.items.map (closeDim l.shape) }

/-- A dictionary entry is replaced in place or added (`service.py`, 127). -/
def putEntry (lib : List (String × Pod)) (k : String) (p : Pod) : List (String × Pod) :=
  if lib.any (fun e => e.1 == k) then lib.map (fun e => if e.1 == k then (k, p) else e) else lib ++ [(k, p)]

/-- The end of `add_pod` (`service.py`, 127-129). -/
def Service.finish (s : Service) (p : Pod) : Service :=
  { s with library := putEntry s.library p.ident p, idca := s.idca.cleanup }

/-- The result of a call: the service afterwards, and whether the call returned (`true`) or raised. -/
abbrev Outcome := Service × Bool

/-- Lines 102-108: into the list of the data of the alternatives, if wanted. -/
def Service.broadcast (s : Service) (p : Pod) (broadcastable : Bool) : Outcome :=
  if broadcastable && p.broadcasts then
    match s.idca.append p.asCA with
    | none => (s, false)
    | some ca => (({ s with idca := ca } : Service).finish p, true)
  else (s.finish p, true)

/-- Lines 101-108. -/
def Service.addCO (s : Service) (p : Pod) (broadcastable : Bool) : Outcome :=
  match s.idco.append p with
  | none => (s, false)
  | some co => ({ s with idco := co } : Service).broadcast p broadcastable

/-- Line 116. -/
def Service.addCA (s : Service) (p : Pod) : Outcome :=
  match s.idca.append p with
  | none => (s, false)
  | some ca => (({ s with idca := ca } : Service).finish p, true)

/-- Line 123. -/
def Service.addCE (s : Service) (p : Pod) : Outcome :=
  match s.idce.append p with
  | none => (s, false)
  | some ce => (({ s with idce := ce } : Service).finish p, true)

/-- Lines 95-125: by the kind of pod, with the number of cases noted. -/
def Service.place (s : Service) (p : Pod) (broadcastable : Bool) : Outcome :=
  match p.kind with
  | .co => ({ s with nCases := some p.shape.first } : Service).addCO p broadcastable
  | .ca => ({ s with nCases := some p.shape.first } : Service).addCA p
  | .ce => ({ s with nCases := some p.shape.first } : Service).addCE p
  | .other => (s, false)

/-- `DataService.add_pod` (`service.py`, 94-129).  (For an unknown kind the number of cases is not looked at, but the call raises all the same.) -/
def Service.addPod (s : Service) (p : Pod) (broadcastable : Bool) : Outcome :=
  if s.admits p.shape.first then s.place p broadcastable else (s, false)

/-- `DataService.set_alternatives` (`service.py`, 136-140), with `altids`. -/
def Service.setAlternatives (s : Service) (altids : List Int) : Service := { s with altids := altids }

/-- Lines 595-601: the loop over the library, up to the first pod that is refused. -/
def pullAll (ca : PodList) : List (String × Pod) → PodList × Bool
  | [] => (ca, true)
  | e :: r =>
    if e.2.broadcasts then
      match ca.append e.2.asCA with
      | none => (ca, false)
      | some ca' => pullAll ca' r
    else pullAll ca r

/-- `DataService.idca_reset` (`service.py`, 591-601). -/
def Service.idcaReset (s : Service) (pull : Bool) : Outcome :=
  if pull then ({ s with idca := (pullAll ⟨some s.nAlts, []⟩ s.library).1 }, (pullAll ⟨some s.nAlts, []⟩ s.library).2)
  else ({ s with idca := ⟨some s.nAlts, []⟩ }, true)

/-- Calls on the service. -/
inductive SOp
  | add (p : Pod) (broadcastable : Bool)
  | alternatives (altids : List Int)
  | reset (pull : Bool)

def Service.step (s : Service) (o : SOp) : Service :=
  match o with
  | .add p b => (s.addPod p b).1
  | .alternatives a => s.setAlternatives a
  | .reset b => (s.idcaReset b).1

def Service.run (s : Service) (os : List SOp) : Service := os.foldl Service.step s

end Larch.Pods
