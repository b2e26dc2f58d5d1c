import Verif.Model.Linear
import Verif.Model.Graph

/-!
# Printed utility functions

Model of the texts larch writes for linear functions: `repr` of components and functions and `__code__`
(`larch/model/linear.pyx`), the tables of utility functions of a model (`larch/model/model.py`) and the text that
`specification_hash` digests (`larch/model/controller.pyx`).

A text is a list of tokens (`Larch.Py.Tok`); white space, line breaks and markup are left out.  `P.a`, `P('a b')`, `X.c`
and `X('c/d')` are single tokens; the characters of these four forms are modelled separately (`refText`).
-/

namespace Larch.Display

open Larch.Py Larch.Linear

/-- How the leaves are written: `repr` of a parameter reference and of a data reference (`linear.pyx:70-74, 259-263`), the text
of a non-negative number. -/
structure Names where
  par : String → String
  dat : List Tok → String
  num : ℝ → String

/-- `" + ".join(ts)`. -/
def joinPlus : List (List Tok) → List Tok
  | [] => []
  | t :: ts => t ++ ts.flatMap (fun u => .op .add :: u)

open Classical in
/-- `float(self.data) == 1`, false when `float` raises; `linear.pyx:443-446, 458-461, 648-652, 687-691`. -/
noncomputable def dataIsOne (c : Comp) : Bool := decide (floatOf c.data = some 1)

/-- `f"{scale} * {data!r}"`. -/
noncomputable def scaledTail (N : Names) (c : Comp) : List Tok :=
  .op .mul :: (numToks N.num c.scale ++ [.op .mul, .name (N.dat c.data)])

open Classical in
/-- What `LinearComponent_C.__repr__` and `_str_exponentiate` write after the parameter, `linear.pyx:442-452, 457-467`. -/
noncomputable def compTail (N : Names) (c : Comp) : List Tok :=
  if c.scale = 1 then if dataIsOne c then [] else [.op .mul, .name (N.dat c.data)] else scaledTail N c

/-- `LinearComponent_C.__repr__`, `linear.pyx:441-454`. -/
noncomputable def compToks (N : Names) (c : Comp) : List Tok := .name (N.par c.param) :: compTail N c

/-- `LinearComponent_C._str_exponentiate`, `linear.pyx:456-469`. -/
noncomputable def expToks (N : Names) (c : Comp) : List Tok := [.name "exp", .lp, .name (N.par c.param), .rp] ++ compTail N c

/-- `LinearFunction_C.__repr__` of a function with terms, `linear.pyx:1168-1174`; the line breaks of long functions are white
space. -/
noncomputable def funcToks (N : Names) (l : List Comp) : List Tok := joinPlus (l.map (compToks N))

/-- `LinearFunction_C.__code__`, `linear.pyx:1155-1156`. -/
noncomputable def codeToks (N : Names) (l : List Comp) : List Tok := joinPlus (l.map (fun c => .lp :: (compToks N c ++ [.rp])))

/-- The text of a whole function: `<Empty LinearFunction_C>` for the empty one, `linear.pyx:1175`. -/
noncomputable def reprToks (N : Names) (l : List Comp) : List Tok :=
  if l.isEmpty then [.name "<Empty LinearFunction_C>"] else funcToks N l

/-- `LinearFunction_C(x)` for what an expression evaluates to, `linear.pyx:772-782`: a component iterates as its one-term
function (609-610), a parameter or data reference is a string and iterates as its characters. -/
def toFunction : Obj → Except Exc (List Comp)
  | .func l => .ok l
  | .comp c => .ok [c]
  | _ => .error .typeError

/-- `utility_co[k] = x`, `linear.pyx:1416-1430`. -/
noncomputable def coValue (fm : Fmt) : Obj → Except Exc (List Comp)
  | .par s =>
    match mul fm (.par s) (.dat one) with
    | .ok o => toFunction o
    | .error e => .error e
  | o => toFunction o

/-! ## The characters of a reference -/

/-- `[_A-Za-z]` -/
def startChar (c : Char) : Bool := c == '_' || ('a' ≤ c && c ≤ 'z') || ('A' ≤ c && c ≤ 'Z')

/-- `[_a-zA-Z0-9]` -/
def identChar (c : Char) : Bool := startChar c || ('0' ≤ c && c ≤ '9')

/-- `_re.match("[_A-Za-z][_a-zA-Z0-9]*$", s)`; the trailing `$` also matches before a final line break, `linear.pyx:71, 260`. -/
def identMatch (s : List Char) : Bool :=
  match s with
  | [] => false
  | c :: cs => startChar c && (cs.all identChar || (cs.dropLast.all identChar && cs.getLast? == some '\n'))

/-- `ParameterRef_C.__repr__` (prefix `P`) and `DataRef_C.__repr__` (prefix `X`), `linear.pyx:70-74, 259-263`; `kw` is
`keyword.iskeyword`. -/
def refText (kw : List Char → Bool) (pre : Char) (s : List Char) : List Char :=
  if identMatch s && !kw s then pre :: '.' :: s else pre :: '(' :: '\'' :: (s ++ ['\'', ')'])

/-! ## The tables of utility functions -/

/-- What a formula of a model consists of: `utility_ca`, the `utility_co` of the alternative, `quantity_ca`,
`quantity_scale`. -/
structure Formula where
  ca : List Comp
  co : List Comp
  quantity : List Comp
  qscale : Option String

/-- The variables of the loops in `_utility_functions_as_frame`: `line`, `op` (true: `+`, false: blank) and the rows written. -/
structure St where
  line : Nat
  plus : Bool
  rows : List (Nat × List Tok)

/-- `tf.loc[(a, line), :] = f"{op} {ts}"; op = '+'; line += 1`, e.g. `model.py:600-602`. -/
def St.put (s : St) (ts : List Tok) : St :=
  ⟨s.line + 1, true, s.rows ++ [(s.line, (if s.plus then .op .add :: ts else ts))]⟩

/-- The rows of the terms of a function, `model.py:599-602, 604-607, 617-620, 630-633, 643-646`. -/
def putTerms (s : St) (ts : List (List Tok)) : St := ts.foldl St.put s

/-- The row that opens the quantity function, `model.py:609-614, 635-640`: `str(q)` is the bare name. -/
def quantityHead : Option String → List Tok
  | some q => [.name q, .op .mul, .name "log", .lp]
  | none => [.name "log", .lp]

/-- `op = ' '` after the opening row, `model.py:615, 641`. -/
def St.blank (s : St) : St := { s with plus := false }

/-- `tf.loc[(a, line), :] = ")"`, `model.py:621-623, 647-649`. -/
def St.close (s : St) : St := ⟨s.line + 1, true, s.rows ++ [(s.line, [.rp])]⟩

/-- The rows of the quantity function, `model.py:608-623, 634-649`. -/
noncomputable def putQuantity (N : Names) (s : St) (f : Formula) : St :=
  if f.quantity.isEmpty then s
  else (putTerms (s.put (quantityHead f.qscale)).blank (f.quantity.map (expToks N))).close

/-- The rows of one alternative (or of `'*'`, with `co` empty), `model.py:597-623, 627-649`. -/
noncomputable def rowsOf (N : Names) (f : Formula) : List (Nat × List Tok) :=
  (putQuantity N (putTerms (putTerms ⟨1, false, []⟩ (f.ca.map (compToks N))) (f.co.map (compToks N))) f).rows

/-- The model's functions. -/
structure Spec where
  ca : List Comp
  co : List (Int × List Comp)
  quantity : List Comp
  qscale : Option String

/-- `self.utility_co[a]` if `a in self.utility_co`, else nothing. -/
def Spec.coOf (m : Spec) (a : Int) : List Comp := ((m.co.find? (fun kv => kv.1 == a)).map Prod.snd).getD []

/-- The formula of an alternative. -/
def Spec.formula (m : Spec) (a : Int) : Formula := ⟨m.ca, m.coOf a, m.quantity, m.qscale⟩

/-- `subset is None or a in subset`, `model.py:594`. -/
def inSubset : Option (List Int) → Int → Bool
  | none, _ => true
  | some s, a => s.contains a

/-- The formula of a row label; `none` stands for `'*'`. -/
def Spec.formulaAt (m : Spec) : Option Int → Formula
  | some c => m.formula c
  | none => ⟨m.ca, [], m.quantity, m.qscale⟩

/-- The alternatives of the table: `none` stands for `'*'`, `model.py:580-596, 625-627`; `known` are the codes of the attached
data, if any. -/
def Spec.alts (m : Spec) (known : Option (List Int)) (subset : Option (List Int)) : List (Option Int) :=
  if m.co.isEmpty then [none]
  else
    ((known.getD (m.co.map Prod.fst)).filter (inSubset subset)).map some

/-- `_utility_functions_as_frame`, `model.py:555-651`: the rows, labelled with the alternative and the line. -/
noncomputable def frame (N : Names) (m : Spec) (known : Option (List Int)) (subset : Option (List Int)) :
    List ((Option Int × Nat) × List Tok) :=
  (m.alts known subset).flatMap fun a =>
    (rowsOf N (m.formulaAt a)).map (fun r => ((a, r.1), r.2))

/-! ## The HTML table -/

open Classical in
/-- What `LinearComponent_C.__xml__` writes for the scale, `linear.pyx:693-705, 654-669`. -/
noncomputable def xmlScale (N : Names) (c : Comp) : List Tok :=
  if c.scale = 1 then [] else .op .mul :: numToks N.num c.scale

/-- `data_tail` and the data, `linear.pyx:686-691, 706-707`. -/
noncomputable def xmlData (N : Names) (c : Comp) : List Tok := if dataIsOne c then [] else [.op .mul, .name (N.dat c.data)]

/-- `LinearComponent_C.__xml__`, `linear.pyx:623-708`, with parameters shown by name: with `exponentiate_parameter` the scale is
written inside the parentheses. -/
noncomputable def xmlToks (N : Names) (exponentiate : Bool) (c : Comp) : List Tok :=
  if exponentiate then [.name "exp", .lp, .name (N.par c.param)] ++ xmlScale N c ++ [.rp] ++ xmlData N c
  else .name (N.par c.param) :: (xmlScale N c ++ xmlData N c)

/-- `LinearFunction_C.__xml__(linebreaks=True)`, `linear.pyx:1177-1207`: with a `lineprefix` the first line gets a `+`, too. -/
noncomputable def xmlFunc (N : Names) (exponentiate pref : Bool) (l : List Comp) : List Tok :=
  (if pref then [.op .add] else []) ++ joinPlus (l.map (xmlToks N exponentiate))

/-- A part ` + function` of the cell; nothing for an empty function, `model.py:501-512, 536-539`. -/
noncomputable def xmlPart (N : Names) (l : List Comp) : List Tok := if l.isEmpty then [] else .op .add :: xmlFunc N false false l

/-- The quantity part, `model.py:513-526, 540-552`; here the scale parameter is written with `repr`. -/
noncomputable def xmlQuantity (N : Names) (f : Formula) : List Tok :=
  if f.quantity.isEmpty then []
  else .op .add :: (quantityHead (f.qscale.map N.par) ++ xmlFunc N true true f.quantity ++ [.rp])

/-- One cell of `utility_functions`, `model.py:495-526, 532-552`. -/
noncomputable def xmlCell (N : Names) (f : Formula) : List Tok := xmlPart N f.ca ++ xmlPart N f.co ++ xmlQuantity N f

/-! ## The digest of the specification -/

/-- The attributes that `specification_hash` digests besides the utility functions and the tree, as their `repr` texts,
`controller.pyx:205-213`. -/
abbrev OtherReprs := List (List Tok)

/-- `repr(self.utility_co)`: the dictionary in insertion order, `linear.pyx:1454-1455`. -/
noncomputable def coRepr (N : Names) (key : Int → Tok) (co : List (Int × List Comp)) : List Tok :=
  co.flatMap (fun kv => key kv.1 :: reprToks N kv.2)

/-- `repr(self.graph.nodes[i])`: the attributes of the node (not its code), `controller.pyx:215-216`.  Of the attributes only
`parameter` is kept. -/
def nodeChunks (node : Option String → List Tok) (g : Graph.G) : List (List Tok) := g.nodes.map (fun n => node (g.nparam n))

/-- `repr(self.graph.edges[i])`: the attributes of the edge (not its ends), `controller.pyx:217-218`; networkx lists the edges by
their upper end, in the order of the nodes. -/
def edgeChunks (edge : Bool → Option String → List Tok) (g : Graph.G) : List (List Tok) :=
  (g.nodes.flatMap (fun n => g.outEdges n)).map (fun e => edge e.implied e.param)

/-- What is digested, `controller.pyx:202-218`: `h.update` appends. -/
noncomputable def digestInput (N : Names) (key : Int → Tok) (node : Option String → List Tok)
    (edge : Bool → Option String → List Tok) (m : Spec) (other : OtherReprs) (g : Graph.G) : List Tok :=
  reprToks N m.ca ++ coRepr N key m.co ++ reprToks N m.quantity ++ other.flatten ++ (nodeChunks node g).flatten ++
    (edgeChunks edge g).flatten

/-- `specification_hash`, `controller.pyx:185-219`: `H` is the digest function. -/
noncomputable def specificationHash (H : List Tok → String) (N : Names) (key : Int → Tok) (node : Option String → List Tok)
    (edge : Bool → Option String → List Tok) (m : Spec) (other : OtherReprs) (g : Graph.G) : String :=
  H (digestInput N key node edge m other g)

end Larch.Display
