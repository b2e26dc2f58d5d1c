import Verif.Model.Omx

/-!
# Matrix files made from other matrix files (`larch/omx.py`)

`change_cols`, `import_omx`, `change_atom_type` and `get_reverse_lookup`.  A slicer is the list of the positions it picks (`None` and
`slice(None)`: all); boolean arrays and negative positions are not modelled, and a list that repeats a position or leaves the array is
refused (`tables.Leaf._fancy_selection`).  Assignment to a selection follows numpy's rule for shapes: the source has the width of the
selection, or width one.  Types of cells are not modelled except for the function that `change_atom_type` applies to each cell.
-/

namespace Larch.Omx

variable {α : Type}

/-- A slicer: everything, or these positions. -/
inductive Sel where
  | all
  | at (l : List Nat)

/-- The positions that a slicer picks from a dimension of length `n`; `none` if it is refused. -/
def Sel.pick (s : Sel) (n : Nat) : Option (List Nat) :=
  match s with
  | .all => some (List.range n)
  | .at l => if l.Nodup ∧ ∀ i ∈ l, i < n then some l else none

/-- `slice(None) if slicer is None else slicer`, `omx.py:1000-1003`. -/
def Sel.orAll (s : Option Sel) : Sel := s.getD .all

/-- numpy: `w` entries can be assigned to `n` places. -/
def castable (w n : Nat) : Bool := w == n || w == 1

/-- numpy: the entry that is assigned to place `k`. -/
def castFrom (w k : Nat) : Nat := if w = 1 then 0 else k

/-- `n[:, new] = old[:, oldcols]`, `omx.py:1012`. -/
def writeCols (t m : Mat α) (new old : Sel) : Option (Mat α) :=
  (new.pick t.shape.2).bind (fun nc => (old.pick m.shape.2).bind (fun oc =>
    if castable m.shape.1 t.shape.1 && castable oc.length nc.length then
      some ⟨t.shape, fun r c =>
        if c ∈ nc then m.cell (castFrom m.shape.1 r) (oc.getD (castFrom oc.length (nc.idxOf c)) 0) else t.cell r c⟩
    else none))

/-- `n[new] = old[oldcols]`, `omx.py:1017`. -/
def writeAt (t v : Vec α) (new old : Sel) : Option (Vec α) :=
  (new.pick t.len).bind (fun nc => (old.pick v.len).bind (fun oc =>
    if castable oc.length nc.length then
      some ⟨t.len, fun c => if c ∈ nc then v.cell (oc.getD (castFrom oc.length (nc.idxOf c)) 0) else t.cell c⟩
    else none))

/-- A node gets new contents. -/
def refill {β : Type} (g : List (String × β)) (name : String) (v : β) : List (String × β) :=
  g.map (fun e => if e.1 = name then (name, v) else e)

/-- The loop over the matrices, `omx.py:1009-1012`. -/
def remapData [Zero α] (oth : File α) (shape : Nat × Nat) (new old : Sel) : List String → File α → File α × Bool
  | [], f => (f, true)
  | n :: r, f =>
    match get oth.data n with
    | none => (f, false)
    | some m =>
      let a := addBlankMatrix f n (some shape)
      if a.2 then
        match (get a.1.data n).bind (fun t => writeCols t m new old) with
        | none => (a.1, false)
        | some t => remapData oth shape new old r { a.1 with data := refill a.1.data n t }
      else a

/-- The loop over the lookups of the rows, `omx.py:1013-1014`. -/
def copyLookups (oth : File α) : List String → File α → File α × Bool
  | [], f => (f, true)
  | n :: r, f =>
    match get oth.lookup n with
    | none => (f, false)
    | some v =>
      let a := addLookup f n v false false
      if a.2 then copyLookups oth r a.1 else a

/-- The loop over the lookups of the columns, `omx.py:1015-1017`. -/
def remapLookups [Zero α] (oth : File α) (len : Nat) (new old : Sel) : List String → File α → File α × Bool
  | [], f => (f, true)
  | n :: r, f =>
    match get oth.lookup n with
    | none => (f, false)
    | some v =>
      let a := addBlankLookup f n (some len)
      if a.2 then
        match (get a.1.lookup n).bind (fun t => writeAt t v new old) with
        | none => (a.1, false)
        | some t => remapLookups oth len new old r { a.1 with lookup := refill a.1.lookup n t }
      else a

/-- `OMX.change_cols(newfile, otherfile, datanames, lookuprownames, lookupcolnames, newshape, newslicecols, oldslicecols)`,
`omx.py:980-1019`: `f` is what the new file holds when it is opened. -/
def changeCols [Zero α] (f oth : File α) (data rows cols : List String) (shape : Nat × Nat) (new old : Option Sel) : File α × Bool :=
  if old.isNone && new.isNone then (f, false)
  else
    let a := setShape f shape
    if a.2 then
      let b := remapData oth shape (Sel.orAll new) (Sel.orAll old) data a.1
      if b.2 then
        let c := copyLookups oth rows b.1
        if c.2 then remapLookups oth shape.2 (Sel.orAll new) (Sel.orAll old) cols c.1 else c
      else b
    else a

/-- `array[rows, cols]`; `None` for one of two slicers is refused. -/
def Mat.slice (m : Mat α) (rs cs : Option Sel) : Option (Mat α) :=
  if rs.isNone && cs.isNone then some m
  else
    rs.bind (fun r => cs.bind (fun c => (r.pick m.shape.1).bind (fun ri => (c.pick m.shape.2).map (fun ci =>
      ⟨(ri.length, ci.length), fun i j => m.cell (ri.getD i 0) (ci.getD j 0)⟩))))

/-- The loop over the tables, `omx.py:974-978`. -/
def importTables (oth : File α) (rs cs : Option Sel) : List String → File α → File α × Bool
  | [], f => (f, true)
  | n :: r, f =>
    match (get oth.data n).bind (fun m => m.slice rs cs) with
    | none => (f, false)
    | some m =>
      let a := addMatrix f n m false false
      if a.2 then importTables oth rs cs r a.1 else a

/-- `import_omx(otherfile, tablenames, rowslicer, colslicer)`, `omx.py:970-978`; no list of names is `'*'`. -/
def importOmx (f oth : File α) (names : Option (List String)) (rs cs : Option Sel) : File α × Bool :=
  importTables oth rs cs (names.getD (oth.data.map Prod.fst)) f

/-- `name + "_temp_atom"`, `omx.py:421, 433`. -/
def tempName (name : String) : String := name ++ "_temp_atom"

/-- `neww._f_rename(name, overwrite=True)` with the contents `v`. -/
def rename {β : Type} (g : List (String × β)) (name : String) (v : β) : List (String × β) :=
  put (g.filter (fun e => e.1 != tempName name)) name v

/-- `change_atom_type` for matrices, `omx.py:418-429`: `conv` makes a cell of the new type, `keeps` tells whether the new array stays
(`require_smaller` is off, or it takes less space).  Rows of the new array from `shape[0]` on are zeros.  The new array is taken to have
the columns of the old one (it has not if an array with the temporary name was there before). -/
def retypeMatrix [Zero α] (f : File α) (name : String) (conv : α → α) (keeps : Bool) : File α × Bool :=
  match get f.data name with
  | none => (f, true)
  | some m =>
    let a := addBlankMatrix f (tempName name) none
    if a.2 then
      match get a.1.data (tempName name) with
      | none => (a.1, false)
      | some t =>
        if keeps then
          ({ a.1 with data := rename a.1.data name ⟨t.shape, fun i j => if i < a.1.shape.1 then conv (m.cell i j) else t.cell i j⟩ }, true)
        else ({ a.1 with data := a.1.data.filter (fun e => e.1 != tempName name) }, true)
    else a

/-- `change_atom_type` for lookups, `omx.py:430-441`. -/
def retypeLookup [Zero α] (f : File α) (name : String) (conv : α → α) (keeps : Bool) : File α × Bool :=
  match get f.lookup name with
  | none => (f, true)
  | some v =>
    let a := addBlankLookup f (tempName name) none
    if a.2 then
      match get a.1.lookup (tempName name) with
      | none => (a.1, false)
      | some t =>
        if keeps then
          ({ a.1 with lookup := rename a.1.lookup name ⟨t.len, fun i => if i < a.1.shape.1 then conv (v.cell i) else t.cell i⟩ }, true)
        else ({ a.1 with lookup := a.1.lookup.filter (fun e => e.1 != tempName name) }, true)
    else a

/-- `change_atom_type(name, atom, matrix, lookup)`, `omx.py:413-441`. -/
def retype [Zero α] (f : File α) (name : String) (conv : α → α) (matrix lookup keepsM keepsL : Bool) : File α × Bool :=
  let a := if matrix then retypeMatrix f name conv keepsM else (f, true)
  if a.2 then (if lookup then retypeLookup a.1 name conv keepsL else a) else a

/-- `omx.rlookup[name]`, `omx.py:443-447`: `dict(enumerate(labels))`. -/
def reverseLookup (f : File α) (name : String) : Option (List (Nat × α)) :=
  (get f.lookup name).map (fun v => (List.range v.len).map (fun i => (i, v.cell i)))

end Larch.Omx
