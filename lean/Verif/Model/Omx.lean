import Mathlib.Data.List.Basic
import Mathlib.Algebra.Group.Defs

/-!
# Matrix files (`larch/omx.py`)

An OMX file as its `SHAPE` attribute and two groups of named arrays.  Two-dimensional matrices only; atoms, compression and the file system
are not modelled.  Every operation gives the file afterwards and whether it returned normally (`false`: an exception); what was written
before the exception stays.  Loops over the names of a group run over the names present at the start (`omx.py:204, 207` remove and create
nodes while looping).
-/

namespace Larch.Omx

variable {α : Type}

/-- A matrix: its shape and its cells. -/
structure Mat (α : Type) where
  shape : Nat × Nat
  cell : Nat → Nat → α

/-- A lookup. -/
structure Vec (α : Type) where
  len : Nat
  cell : Nat → α

/-- The file: attribute `SHAPE`, groups `/data` and `/lookup`. -/
structure File (α : Type) where
  attr : Nat × Nat
  data : List (String × Mat α)
  lookup : List (String × Vec α)

/-- `name in group._v_children`. -/
def has {β : Type} (g : List (String × β)) (name : String) : Bool := g.any (fun e => e.1 == name)

/-- `group._v_children[name]`. -/
def get {β : Type} (g : List (String × β)) (name : String) : Option β := (g.find? (fun e => e.1 == name)).map Prod.snd

/-- `remove_node` (if there) and `create_carray`. -/
def put {β : Type} (g : List (String × β)) (name : String) (v : β) : List (String × β) := g.filter (fun e => e.1 != name) ++ [(name, v)]

/-- The `shape` property, `omx.py:157-175`; reading it may repair the attribute. -/
def File.shape (f : File α) : Nat × Nat :=
  if f.attr = (0, 0) then
    match f.data with
    | [] => (0, 0)
    | e :: _ => e.2.shape
  else f.attr

/-- The file after reading `shape`. -/
def File.read (f : File α) : File α := { f with attr := f.shape }

/-- The `shape` setter, `omx.py:177-186`. -/
def setShape (f : File α) (x : Nat × Nat) : File α × Bool :=
  if f.data.isEmpty then ({ f with attr := x }, true)
  else if x.1 ≠ f.shape.1 ∧ x.2 ≠ f.shape.2 then (f.read, false)
  else (f.read, true)

/-- `add_matrix`, `omx.py:312-357`, for a two-dimensional array. -/
def addMatrix (f : File α) (name : String) (m : Mat α) (overwrite ignoreShape : Bool) : File α × Bool :=
  let f := if !ignoreShape && !f.data.isEmpty then f.read else f
  if !ignoreShape && !f.data.isEmpty && m.shape != f.shape then (f, false)
  else
    let f := if f.data.isEmpty then { f with attr := m.shape } else f
    if has f.data name && !overwrite then (f, false)
    else ({ f with data := put f.data name m }, true)

/-- `add_lookup`, `omx.py:359-401`. -/
def addLookup (f : File α) (name : String) (v : Vec α) (overwrite ignoreShape : Bool) : File α × Bool :=
  let f := if !ignoreShape && !f.data.isEmpty then f.read else f
  if !ignoreShape && !f.data.isEmpty && (v.len != f.shape.1 && v.len != f.shape.2) then (f, false)
  else if f.data.isEmpty && f.shape == (0, 0) then (f, false)
  else if has f.lookup name && !overwrite then (f, false)
  else ({ f with lookup := put f.lookup name v }, true)

/-- `add_blank_matrix`, `omx.py:268-310`; `shape` given or not. -/
def addBlankMatrix [Zero α] (f : File α) (name : String) (shape : Option (Nat × Nat)) : File α × Bool :=
  if has f.data name then (f, true)
  else if f.shape = (0, 0) then (f.read, false)
  else
    match shape with
    | some x => if x ≠ f.shape then (f.read, false) else ({ f.read with data := put f.data name ⟨x, fun _ _ => 0⟩ }, true)
    | none => ({ f.read with data := put f.data name ⟨f.shape, fun _ _ => 0⟩ }, true)

/-- `add_blank_lookup`, `omx.py:218-266`. -/
def addBlankLookup [Zero α] (f : File α) (name : String) (len : Option Nat) : File α × Bool :=
  if has f.lookup name then (f, true)
  else if f.shape = (0, 0) ∧ len = none then (f.read, false)
  else
    match len with
    | some n =>
      if n ≠ f.shape.1 ∧ n ≠ f.shape.2 then
        if f.shape.1 = 0 ∧ f.shape.2 = 0 then
          let r := setShape f.read (n, n)
          if r.2 then ({ r.1 with lookup := put r.1.lookup name ⟨n, fun _ => 0⟩ }, true) else r
        else (f.read, false)
      else ({ f.read with lookup := put f.lookup name ⟨n, fun _ => 0⟩ }, true)
    | none =>
      if f.shape.1 ≠ f.shape.2 then (f.read, false)
      else ({ f.read with lookup := put f.lookup name ⟨f.shape.1, fun _ => 0⟩ }, true)

/-- `omx[name] = array`, `omx.py:739-755`, for two dimensions. -/
def setMatrix (f : File α) (name : String) (m : Mat α) : File α × Bool :=
  if m.shape.1 = f.shape.1 ∧ m.shape.2 = f.shape.2 then addMatrix f.read name m false false else (f.read, false)

/-- `omx[name] = array`, `omx.py:744-748`, for one dimension. -/
def setLookup (f : File α) (name : String) (v : Vec α) : File α × Bool :=
  if v.len = f.shape.1 ∨ v.len = f.shape.2 then addLookup f.read name v false false else (f.read, false)

/-- `omx[name]`, `omx.py:727-737`: a matrix or a lookup. -/
def getItem (f : File α) (name : String) : Option (Mat α ⊕ Vec α) :=
  if has f.data name then
    if has f.lookup name then none else (get f.data name).map Sum.inl
  else (get f.lookup name).map Sum.inr

/-- `array[:s0, :s1]` (shorter arrays are not extended). -/
def Mat.crop (m : Mat α) (s0 s1 : Nat) : Mat α := ⟨(min s0 m.shape.1, min s1 m.shape.2), m.cell⟩

/-- `array[:s]`. -/
def Vec.crop (v : Vec α) (s : Nat) : Vec α := ⟨min s v.len, v.cell⟩

/-- The loop over the matrices in `crop`, `omx.py:204-206`. -/
def cropData (s0 s1 : Nat) : List (String × Mat α) → File α → File α
  | [], f => f
  | e :: r, f => cropData s0 s1 r (addMatrix f e.1 (e.2.crop s0 s1) true true).1

/-- The loop over the lookups in `crop`, `omx.py:207-213`: a lookup that does not have the length of the first dimension has its
`shape[1]` looked at, which it has not (`IndexError`). -/
def cropLookup (start0 s0 : Nat) : List (String × Vec α) → File α → File α × Bool
  | [], f => (f, true)
  | e :: r, f =>
    if e.2.len = start0 then cropLookup start0 s0 r (addLookup f e.1 (e.2.crop s0) true true).1
    else (f, false)

/-- `crop(s0, s1)`, `omx.py:188-216`. -/
def crop (f : File α) (s0 s1 : Nat) : File α × Bool :=
  let st := f.shape
  let f := f.read
  if st.1 = s0 ∧ st.2 = s1 then (f, true)
  else if s0 > st.1 then (f, false)
  else if s1 > st.2 then (f, false)
  else if s0 ≠ s1 ∧ st.1 = st.2 then (f, false)
  else
    let g := cropData s0 s1 f.data f
    let r := cropLookup st.1 s0 f.lookup g
    if r.2 then ({ r.1 with attr := (s0, s1) }, true) else r

/-- Statements on a file. -/
inductive Op (α : Type) where
  | setShape (x : Nat × Nat)
  | addMatrix (name : String) (m : Mat α) (overwrite ignoreShape : Bool)
  | addLookup (name : String) (v : Vec α) (overwrite ignoreShape : Bool)
  | addBlankMatrix (name : String) (shape : Option (Nat × Nat))
  | addBlankLookup (name : String) (len : Option Nat)
  | setMatrix (name : String) (m : Mat α)
  | setLookup (name : String) (v : Vec α)
  | crop (s0 s1 : Nat)

/-- One statement. -/
def step [Zero α] (f : File α) : Op α → File α × Bool
  | .setShape x => Omx.setShape f x
  | .addMatrix n m o i => Omx.addMatrix f n m o i
  | .addLookup n v o i => Omx.addLookup f n v o i
  | .addBlankMatrix n s => Omx.addBlankMatrix f n s
  | .addBlankLookup n l => Omx.addBlankLookup f n l
  | .setMatrix n m => Omx.setMatrix f n m
  | .setLookup n v => Omx.setLookup f n v
  | .crop a b => Omx.crop f a b

/-- A history: exceptions are caught by the user, who goes on. -/
def run [Zero α] (f : File α) (l : List (Op α)) : File α := l.foldl (fun f o => (step f o).1) f

/-- A new file. -/
def empty : File α := ⟨(0, 0), [], []⟩

/-- `FromDataFrame`, `omx.py:1041-1059`: the columns of a frame of `n` rows as lookups; `none` if a call raises. -/
def fromColumns (n : Nat) : List (String × (Nat → α)) → File α → Option (File α)
  | [], f => some f
  | e :: r, f =>
    let a := addLookup f e.1 ⟨n, e.2⟩ false false
    if a.2 then fromColumns n r a.1 else none

/-- `FromDataFrame(frame)`. -/
def fromDataFrame (n : Nat) (cols : List (String × (Nat → α))) : Option (File α) := fromColumns n cols (setShape empty (n, n)).1

/-! ## Importing tables -/

/-- `array[r, c] = values` for index arrays, row by row; `none` for an index out of range (negative indices are not modelled: they are taken
to be out of range). -/
def assign (m : Mat α) : List (Int × Int × α) → Option (Mat α)
  | [] => some m
  | (r, c, v) :: rest =>
    if 0 ≤ r ∧ r < m.shape.1 ∧ 0 ≤ c ∧ c < m.shape.2 then
      assign ⟨m.shape, fun i j => if i = r.toNat ∧ j = c.toNat then v else m.cell i j⟩ rest
    else none

/-- `r = chunk.iloc[:, 0].values - offset` and the same for `c`, `omx.py:617-618, 684-685`. -/
def shifted (oneBased : Bool) (chunk : List (Int × Int × α)) : List (Int × Int × α) :=
  let offset : Int := if oneBased then 1 else 0
  chunk.map (fun e => (e.1 - offset, e.2.1 - offset, e.2.2))

/-- The loop over the chunks for one column, `omx.py:615-628`. -/
def importChunks (oneBased : Bool) : List (List (Int × Int × α)) → Mat α → Option (Mat α)
  | [], m => some m
  | c :: r, m => (assign m (shifted oneBased c)).bind (importChunks oneBased r)

/-- `import_datatable` for one column of the table, `omx.py:574-638`: the matrix is created if it does not exist. -/
def importDatatable [Zero α] (f : File α) (name : String) (oneBased : Bool) (chunks : List (List (Int × Int × α))) : Option (File α) :=
  let a := addBlankMatrix f name none
  if a.2 then
    (get a.1.data name).bind (fun m =>
      (importChunks oneBased chunks m).map (fun m' => { a.1 with data := a.1.data.map (fun e => if e.1 = name then (name, m') else e) }))
  else none

/-- `import_datatable_3d` for one column, `omx.py:640-706`: the cells are collected in an array of zeros, which replaces the contents. -/
def importDatatable3d [Zero α] (f : File α) (name : String) (oneBased : Bool) (chunks : List (List (Int × Int × α))) : Option (File α) :=
  (importChunks oneBased chunks ⟨f.shape, fun _ _ => 0⟩).bind (fun t =>
    let a := addBlankMatrix f.read name (some f.shape)
    if a.2 then
      (get a.1.data name).bind (fun m =>
        if m.shape = t.shape then some { a.1 with data := a.1.data.map (fun e => if e.1 = name then (name, t) else e) } else none)
    else none)

/-- The assignment of one chunk to a lookup by zone numbers, `omx.py:563`: `lookup[chunk[zone_ix].values - zone_ix1] = chunk[col].values`. -/
def assignAt (v : Vec α) (ix1 : Int) : List (Int × α) → Option (Vec α)
  | [] => some v
  | (z, x) :: r =>
    if 0 ≤ z - ix1 ∧ z - ix1 < v.len then assignAt ⟨v.len, fun i => if i = (z - ix1).toNat then x else v.cell i⟩ ix1 r else none

/-- The assignment of one chunk without zone numbers, `omx.py:565`: `lookup[start_ix:start_ix + len(chunk)] = chunk[col].values` with
`start_ix = 0` throughout (`omx.py:550`; it is never advanced).  `none` if the slice is shorter than the chunk. -/
def assignFront (v : Vec α) (chunk : List α) : Option (Vec α) :=
  if chunk.length ≤ v.len then some ⟨v.len, fun i => (chunk[i]?).getD (v.cell i)⟩ else none

/-- `import_datatable_as_lookups` without zone numbers, for one column, `omx.py:490-572`: the contents of the lookup. -/
def lookupsByOrder [Zero α] (nRows : Nat) (chunks : List (List α)) : Option (Vec α) :=
  chunks.foldlM (fun v c => assignFront v c) ⟨nRows, fun _ => 0⟩

/-- The same with zone numbers (and without the rows of `drop_zone`). -/
def lookupsByZone [Zero α] (nRows : Nat) (ix1 : Int) (drop : Option Int) (chunks : List (List (Int × α))) : Option (Vec α) :=
  chunks.foldlM (fun v c => assignAt v ix1 (c.filter (fun e => drop != some e.1))) ⟨nRows, fun _ => 0⟩

/-! ## Reading cells into a frame -/

/-- What is given for row or column indexes; a Series carries its own index labels. -/
inductive Idx (β : Type) where
  | int (i : Nat)
  | array (l : List Nat)
  | list (l : List Nat)
  | series (l : List Nat) (labels : List β)

/-- The index of the result. -/
inductive Label (β : Type) where
  | one (l : β)
  | rc (r c : Nat)

/-- The argument `index`. -/
inductive IndexArg (β : Type) where
  | none
  | rc
  | given (labels : List β)

/-- The positions; `n` for an integer that is broadcast, `omx.py:873-876`. -/
def Idx.positions {β : Type} (n : Nat) : Idx β → List Nat
  | .int i => List.replicate n i
  | .array l => l
  | .list l => l
  | .series l _ => l

/-- The length an integer is broadcast to. -/
def Idx.size {β : Type} : Idx β → Nat
  | .int _ => 1
  | .array l => l.length
  | .list l => l.length
  | .series l _ => l.length

/-- The `index` attribute, `omx.py:883-893`: missing on an array (also the array made of an integer), the index of a Series, a method of a
list (which cannot become an index: the outer `none`). -/
def Idx.attr {β : Type} : Idx β → Option (Option (List β))
  | .int _ => some none
  | .array _ => some none
  | .list _ => none
  | .series _ l => some (some l)

/-- `self[mat][row_indexes, col_indexes]`, `omx.py:878-881`. -/
def cells (f : File α) (name : String) (rows cols : List Nat) : Option (List α) :=
  match getItem f name with
  | some (.inl m) =>
    if rows.length = cols.length ∧ (∀ r ∈ rows, r < m.shape.1) ∧ (∀ c ∈ cols, c < m.shape.2) then
      some (List.zipWith m.cell rows cols)
    else none
  | _ => none

/-- The columns of the result, in order; the first failure raises. -/
def columns (f : File α) (rows cols : List Nat) : List String → Option (List (String × List α))
  | [] => some []
  | n :: ns => (cells f n rows cols).bind (fun c => (columns f rows cols ns).map ((n, c) :: ·))

/-- `get_rc_dataframe` with a sequence of names, `omx.py:833-916`: index labels and columns.  With `index='rc'` the names of the index
columns are never set (`omx.py:895-908` runs only if `index is None`), and `set_index` raises.  Without names `mat_names[0]` raises.  Names are taken to be
distinct (they are the keys of a dict). -/
def getRc {β : Type} (f : File α) (row col : Idx β) (names : List String) (index : IndexArg β) :
    Option (List (Label β) × List (String × List α)) :=
  let n := match row with | .int _ => col.size | r => r.size
  let rows := row.positions n
  let cols := col.positions n
  if names = [] then none else
  (columns f rows cols names).bind (fun data =>
    match index with
    | .rc => none
    | .given labels => if labels.length = rows.length then some (labels.map Label.one, data) else none
    | .none =>
      (row.attr).bind (fun a =>
        match a with
        | some labels => if labels.length = rows.length then some (labels.map Label.one, data) else none
        | none =>
          (col.attr).bind (fun b =>
            match b with
            | some labels => if labels.length = rows.length then some (labels.map Label.one, data) else none
            | none => some (List.zipWith Label.rc rows cols, data))))

/-- `df.join(data)`: every row of `df`, once for every row of `data` with its label (all are matched here). -/
def join {β γ δ : Type} [DecidableEq β] (left : List (β × γ)) (right : List (β × δ)) : List (β × γ × δ) :=
  left.flatMap (fun l => (right.filter (fun r => r.1 = l.1)).map (fun r => (l.1, l.2, r.2)))

/-- `join_rc_dataframe(df, rowidx, colidx, [name])`, `omx.py:918-968`, for one matrix: each row of the frame is a label, its other columns,
and its row and column position. -/
def joinRc {β γ : Type} [DecidableEq β] (f : File α) (df : List (β × γ × Nat × Nat)) (name : String) : Option (List (β × γ × α)) :=
  (getRc f (.series (df.map (fun e => e.2.2.1)) (df.map Prod.fst)) (.series (df.map (fun e => e.2.2.2)) (df.map Prod.fst)) [name]
    (.given (df.map Prod.fst))).bind (fun r =>
      match r.2 with
      | [(_, col)] => some (join (df.map (fun e => (e.1, e.2.1))) ((df.map Prod.fst).zip col))
      | _ => none)

end Larch.Omx
