import Verif.Model.PMath

/-!
# Linear functions

Model of the operators of `larch/model/linear.pyx`: `ParameterRef_C`, `DataRef_C`, `LinearComponent_C`,
`LinearFunction_C` and of `_ParameterOp` (`larch/model/linear_math.py`).  Cython (0.29) calls a class's operator method for
both operand orders, with the operands in source order; Python asks the left operand's class first, then (if that returned
`NotImplemented` and the classes differ) the right one's.

Data references are strings; they are modelled as token lists (no white space).  Names are identifiers.
-/

namespace Larch.Linear

open Larch.Py

/-- A Python number, with the text `str` gives for its absolute value. -/
structure Num where
  neg : Bool
  txt : String
  abs : ℝ

def Num.val (n : Num) : ℝ := if n.neg then -n.abs else n.abs

/-- `str(n)`. -/
def Num.toks (n : Num) : List Tok := if n.neg then [.op .sub, .num n.txt n.abs] else [.num n.txt n.abs]

/-- The objects a utility expression is built from. -/
inductive Obj where
  | num (n : Num)
  | par (s : String)
  | dat (d : List Tok)
  | comp (c : Comp)
  | func (l : List Comp)
  | pm (e : PM)

inductive Exc where
  | notImplementedError
  | typeError
  | attributeError
  | zeroDivision
deriving DecidableEq

/-- What an operator method returns: `none` is `NotImplemented`. -/
abbrev Slot := Option (Except Exc Obj)

def ok (o : Obj) : Slot := some (.ok o)
def err (e : Exc) : Slot := some (.error e)

/-- Which literals `parenthize` leaves bare (`bareU`: no non-word character, or matching the numeric pattern; `bareS`: with a
sign, matching the signed pattern).  The theorems hold for every choice. -/
structure Fmt where
  bareU : String → Bool
  bareS : String → Bool

/-- `parenthize`, `larch/util/naming.py:45-66`. -/
def parenthize (fm : Fmt) (signs : Bool) : List Tok → List Tok
  | [] => []
  | [.name s] => [.name s]
  | [.num t v] => if fm.bareU t then [.num t v] else [.lp, .num t v, .rp]
  | [.op .sub, .num t v] => if !signs && fm.bareS t then [.op .sub, .num t v] else [.lp, .op .sub, .num t v, .rp]
  | [.op .add, .num t v] => if !signs && fm.bareS t then [.op .add, .num t v] else [.lp, .op .add, .num t v, .rp]
  | ts => .lp :: (ts ++ [.rp])

/-- `DataRef_C("{}op{}".format(parenthize(self), parenthize(other, True)))`, e.g. `linear.pyx:291, 306, 332, 358`. -/
def dbin (fm : Fmt) (o : BOp) (a b : List Tok) : List Tok := parenthize fm false a ++ .op o :: parenthize fm true b

/-- `DataRef_C("-{}".format(parenthize(self, True)))`, `linear.pyx:393-394`. -/
def dneg (fm : Fmt) (a : List Tok) : List Tok := .op .sub :: parenthize fm true a

/-- `DataRef_C("~{}".format(parenthize(self, True)))`, `linear.pyx:390-391`. -/
def dinv (fm : Fmt) (a : List Tok) : List Tok := .tilde :: parenthize fm true a

/-- Comparison of a data reference with a literal text. -/
def isTxt (t : String) : List Tok → Bool
  | [.num t' _] => t' == t
  | _ => false

/-- `self == "0" or self == "0.0"`. -/
def isZero (d : List Tok) : Bool := isTxt "0" d || isTxt "0.0" d

/-- `self == "1" or self == "1.0"`. -/
def isOne (d : List Tok) : Bool := isTxt "1" d || isTxt "1.0" d

/-- The string `"1"`. -/
def one : List Tok := [.num "1" 1]

/-- `self[:8] == 'boolean(' and self[-1:]==')'`, `linear.pyx:320, 323`. -/
def isBool (d : List Tok) : Bool :=
  (match d with
   | .name s :: .lp :: _ => s == "boolean"
   | _ => false) &&
  (match d.getLast? with
   | some .rp => true
   | _ => false)

/-- Split at the last `==` that is followed by something. -/
def splitEq : List Tok → Option (List Tok × List Tok)
  | [] => none
  | t :: ts =>
    match splitEq ts with
    | some (a, b) => some (t :: a, b)
    | none => if t.isEqeq && !ts.isEmpty then some ([], ts) else none

/-- `_boolmatch`, `linear.pyx:18`: the groups of `^boolean\((.+)==(.+)\)$`. -/
def boolmatch (d : List Tok) : Option (List Tok × List Tok) :=
  if isBool d then
    match splitEq ((d.drop 2).dropLast) with
    | some (a, b) => if a.isEmpty then none else some (a, b)
    | none => none
  else none

open Classical in
/-- The simplifications for products of booleans, `linear.pyx:320-331`. -/
noncomputable def shortcut (a b : List Tok) : Option (List Tok) :=
  if a = b ∧ isBool a then some a
  else
    match boolmatch a, boolmatch b with
    | some (a1, a2), some (b1, b2) => if a1 = b1 ∧ a2 ≠ b2 then some [.num "0" 0] else none
    | _, _ => none

/-- `DataRef_C * DataRef_C`, `linear.pyx:311-332`. -/
noncomputable def dmul (fm : Fmt) (a b : List Tok) : List Tok :=
  if isOne a then b
  else if isOne b then a
  else
    match shortcut a b with
    | some r => r
    | none => dbin fm .mul a b

/-! ## Conversions to parameter arithmetic -/

/-- `float(data)`. -/
def floatOf : List Tok → Option ℝ
  | [.num _ v] => some v
  | [.op .sub, .num _ v] => some (-v)
  | [.op .add, .num _ v] => some v
  | _ => none

open Classical in
/-- `LinearComponent_C.as_pmath`, `linear.pyx:740-756`. -/
noncomputable def Comp.asPmath (c : Comp) : Except Exc PM :=
  if isTxt "1" c.data then
    if c.scale = 1 then .ok (.noop c.param) else .ok (.bin .mul (.ref c.param) (.num c.scale))
  else
    match floatOf c.data with
    | some v => if v * c.scale = 1 then .ok (.noop c.param) else .ok (.bin .mul (.ref c.param) (.num (v * c.scale)))
    | none => .error .notImplementedError

/-- The rest of `LinearFunction_C.as_pmath`: `x = ParameterAdd(x, i.as_pmath())`. -/
noncomputable def addAll (x : PM) : List Comp → Except Exc PM
  | [] => .ok x
  | c :: cs =>
    match c.asPmath with
    | .ok y => addAll (.bin .add x y) cs
    | .error e => .error e

/-- `LinearFunction_C.as_pmath`, `linear.pyx:1318-1331`; the integer 0 for an empty function. -/
noncomputable def funcPmath (l : List Comp) : Except Exc PM :=
  if l.all (fun c => isTxt "1" c.data) then
    match l with
    | [] => .ok (.num 0)
    | c :: cs =>
      match c.asPmath with
      | .ok x => addAll x cs
      | .error e => .error e
  else .error .notImplementedError

/-! ## Components and functions -/

/-- `LinearComponent_C(param=str(p))`. -/
def ofPar (s : String) : Comp := ⟨s, one, 1⟩

/-- `-component`, `linear.pyx:438-439`. -/
noncomputable def Comp.neg (c : Comp) : Comp := ⟨c.param, c.data, -c.scale⟩

open Classical in
/-- `component + component`, `linear.pyx:475-480`. -/
noncomputable def compAddComp (c d : Comp) : Obj :=
  if isZero d.data || decide (d.scale = 0) then .comp c
  else if isZero c.data || decide (c.scale = 0) then .comp d
  else .func [c, d]

open Classical in
/-- `function + component`, `linear.pyx:931-935`. -/
noncomputable def funcAddComp (l : List Comp) (d : Comp) : Obj :=
  if isZero d.data || decide (d.scale = 0) then .func l else .func (l ++ [d])

/-- Using `as_pmath` on one side, `NotImplementedError` when it is not possible. -/
noncomputable def withPm (r : Except Exc PM) (k : PM → PM) : Slot :=
  match r with
  | .ok e => ok (.pm (k e))
  | .error _ => err .notImplementedError

/-! ## Addition -/

open Classical in
/-- `ParameterRef_C.__add__`, `linear.pyx:91-108`. -/
noncomputable def parAdd : Obj → Obj → Slot
  | .par s, .num n => if n.val = 0 then ok (.par s) else ok (.pm (.bin .add (.ref s) (.num n.val)))
  | .par s, .par t => ok (compAddComp (ofPar s) (ofPar t))
  | .par s, .comp c => ok (compAddComp (ofPar s) c)
  | .par s, .func l => ok (.func (ofPar s :: l))
  | .num n, .par s => if n.val = 0 then ok (.par s) else ok (.pm (.bin .add (.num n.val) (.ref s)))
  | .comp c, .par s => ok (compAddComp c (ofPar s))
  | .func l, .par s => ok (funcAddComp l (ofPar s))
  | _, _ => none

/-- `DataRef_C.__add__` on two data references or a data reference and a number, `linear.pyx:281-291`; the operand texts.
Note the format string with a single place at line 288. -/
def datAddToks (fm : Fmt) (a b : List Tok) : List Tok :=
  if isTxt "00" a then [.num "0" 0, .op .add] ++ parenthize fm false a
  else if isTxt "00" b then parenthize fm false a ++ [.op .add, .num "0" 0]
  else dbin fm .add a b

open Classical in
/-- `DataRef_C.__add__`, `linear.pyx:280-302`. -/
noncomputable def datAdd (fm : Fmt) : Obj → Obj → Slot
  | .dat a, .dat b =>
    if isZero a then ok (.dat b) else if isZero b then ok (.dat a) else ok (.dat (datAddToks fm a b))
  | .dat a, .num n =>
    if isZero a then ok (.num n) else if n.val = 0 then ok (.dat a) else
      ok (.dat (if isTxt "00" a then [.num "0" 0, .op .add] ++ parenthize fm false a else dbin fm .add a n.toks))
  | .num n, .dat b =>
    if n.val = 0 then ok (.dat b) else if isZero b then ok (.num n) else
      ok (.dat (if isTxt "00" b then parenthize fm false n.toks ++ [.op .add, .num "0" 0] else dbin fm .add n.toks b))
  | .dat a, .par s => ok (compAddComp ⟨"_", a, 1⟩ (ofPar s))
  | .par _, .dat _ => err .typeError
  | _, _ => none

open Classical in
/-- `LinearComponent_C.__add__`, `linear.pyx:471-507`. -/
noncomputable def compAdd : Obj → Obj → Slot
  | .comp c, .num n => if n.val = 0 then ok (.comp c) else withPm c.asPmath (fun e => .bin .add e (.num n.val))
  | .comp c, .comp d => ok (compAddComp c d)
  | .comp c, .func l => ok (.func (c :: l))
  | .comp c, .par s => ok (compAddComp c (ofPar s))
  | .comp c, .dat d => ok (compAddComp c ⟨"_", d, 1⟩)
  | .comp c, .pm e => withPm c.asPmath (fun x => .bin .add x e)
  | .num n, .comp d => if n.val = 0 then ok (.comp d) else err .attributeError
  | .par s, .comp d => ok (compAddComp (ofPar s) d)
  | .dat a, .comp d => ok (compAddComp ⟨"_", a, 1⟩ d)
  | .func l, .comp d => ok (funcAddComp l d)
  | .pm _, .comp _ => err .attributeError
  | _, _ => none

open Classical in
/-- `LinearFunction_C.__add__`, `linear.pyx:923-949`. -/
noncomputable def funcAdd : Obj → Obj → Slot
  | .func l, .num n => if n.val = 0 then ok (.func l) else withPm (funcPmath l) (fun e => .bin .add e (.num n.val))
  | .func l, .func m => ok (.func (l ++ m))
  | .func l, .par s => ok (funcAddComp l (ofPar s))
  | .func l, .comp d => ok (funcAddComp l d)
  | .func l, .pm e => withPm (funcPmath l) (fun x => .bin .add x e)
  | .num n, .func l => if n.val = 0 then ok (.func l) else withPm (funcPmath l) (fun e => .bin .add (.num n.val) e)
  | .pm e, .func l => withPm (funcPmath l) (fun x => .bin .add e x)
  | _, _ => err .notImplementedError

/-- The operator methods of `_ParameterOp`, `linear_math.py:57-135`. -/
noncomputable def pmOp (o : POp) : Obj → Obj → Slot
  | .pm e, .par s => ok (.pm (.bin o e (.ref s)))
  | .pm e, .pm f => ok (.pm (.bin o e f))
  | .pm e, .num n => ok (.pm (.bin o e (.num n.val)))
  | .pm e, .comp c => withPm c.asPmath (fun x => .bin o e x)
  | .pm e, .func l => withPm (funcPmath l) (fun x => .bin o e x)
  | .par s, .pm e => ok (.pm (.bin o (.ref s) e))
  | .num n, .pm e => ok (.pm (.bin o (.num n.val) e))
  | .comp c, .pm e => withPm c.asPmath (fun x => .bin o x e)
  | .func l, .pm e => withPm (funcPmath l) (fun x => .bin o x e)
  | _, _ => err .notImplementedError

/-- The classes. -/
inductive Kind where
  | num | par | dat | comp | func | pm
deriving DecidableEq

def Obj.kind : Obj → Kind
  | .num _ => .num
  | .par _ => .par
  | .dat _ => .dat
  | .comp _ => .comp
  | .func _ => .func
  | .pm _ => .pm

/-- Python's dispatch of a binary operator; for two plain numbers (no larch object involved) the model raises. -/
def dispatch (slot : Kind → Obj → Obj → Slot) (a b : Obj) : Except Exc Obj :=
  match slot a.kind a b with
  | some r => r
  | none =>
    if a.kind = b.kind then .error .typeError
    else
      match slot b.kind a b with
      | some r => r
      | none => .error .typeError

noncomputable def addSlot (fm : Fmt) : Kind → Obj → Obj → Slot
  | .num => fun _ _ => none
  | .par => parAdd
  | .dat => datAdd fm
  | .comp => compAdd
  | .func => funcAdd
  | .pm => pmOp .add

/-- `a + b`. -/
noncomputable def add (fm : Fmt) (a b : Obj) : Except Exc Obj := dispatch (addSlot fm) a b

/-! ## Subtraction -/

open Classical in
/-- `ParameterRef_C.__sub__`, `linear.pyx:110-127`. -/
noncomputable def parSub : Obj → Obj → Slot
  | .par s, .num n => if n.val = 0 then ok (.par s) else ok (.pm (.bin .sub (.ref s) (.num n.val)))
  | .par s, .par t => ok (.func [ofPar s, (ofPar t).neg])
  | .par s, .comp c => ok (.func [ofPar s, c.neg])
  | .par s, .func l => ok (.func (ofPar s :: l.map Comp.neg))
  | .num n, .par s => if n.val = 0 then ok (.par s) else ok (.pm (.bin .sub (.num n.val) (.ref s)))
  | .comp c, .par s => ok (.func [c, (ofPar s).neg])
  | .func l, .par s => ok (.func (l ++ [(ofPar s).neg]))
  | _, _ => none

/-- `DataRef_C.__sub__`, `linear.pyx:304-309`. -/
noncomputable def datSub (fm : Fmt) : Obj → Obj → Slot
  | .dat a, .dat b => ok (.dat (dbin fm .sub a b))
  | .dat a, .num n => ok (.dat (dbin fm .sub a n.toks))
  | .num n, .dat b => ok (.dat (dbin fm .sub n.toks b))
  | .dat a, .par s => ok (.func [⟨"_", a, 1⟩, (ofPar s).neg])
  | _, _ => none

open Classical in
/-- `LinearComponent_C.__sub__`, `linear.pyx:509-526` (the branch for data references tests for parameters and is never taken;
data references end in `as_pmath() - other`, which raises). -/
noncomputable def compSub : Obj → Obj → Slot
  | .comp c, .num n => if n.val = 0 then ok (.comp c) else withPm c.asPmath (fun e => .bin .sub e (.num n.val))
  | .comp c, .comp d => ok (.func [c, d.neg])
  | .comp c, .func l => ok (.func (c :: l.map Comp.neg))
  | .comp c, .par s => ok (.func [c, (ofPar s).neg])
  | .comp c, .pm e => withPm c.asPmath (fun x => .bin .sub x e)
  | _, _ => err .notImplementedError

open Classical in
/-- `LinearFunction_C.__sub__`, `linear.pyx:973-998`. -/
noncomputable def funcSub : Obj → Obj → Slot
  | .func l, .num n => if n.val = 0 then ok (.func l) else withPm (funcPmath l) (fun e => .bin .sub e (.num n.val))
  | .func l, .func m => ok (.func (l ++ m.map Comp.neg))
  | .func l, .par s => ok (.func (l ++ [(ofPar s).neg]))
  | .func l, .comp d => ok (.func (l ++ [d.neg]))
  | .func l, .pm e => withPm (funcPmath l) (fun x => .bin .sub x e)
  | .num n, .func l => withPm (funcPmath l) (fun e => .bin .sub (.num n.val) e)
  | .pm e, .func l => withPm (funcPmath l) (fun x => .bin .sub e x)
  | _, _ => err .notImplementedError

noncomputable def subSlot (fm : Fmt) : Kind → Obj → Obj → Slot
  | .num => fun _ _ => none
  | .par => parSub
  | .dat => datSub fm
  | .comp => compSub
  | .func => funcSub
  | .pm => pmOp .sub

/-- `a - b`. -/
noncomputable def sub (fm : Fmt) (a b : Obj) : Except Exc Obj := dispatch (subSlot fm) a b

/-! ## Multiplication -/

/-- `component * data`, `linear.pyx:536-541`. -/
noncomputable def compMulDat (fm : Fmt) (c : Comp) (d : List Tok) : Comp := ⟨c.param, dmul fm c.data d, c.scale⟩

/-- `component * component`, `linear.pyx:542-559`. -/
noncomputable def compMulComp (fm : Fmt) (c d : Comp) : Slot :=
  if c.param = "_" then ok (.comp ⟨d.param, dmul fm c.data d.data, c.scale * d.scale⟩)
  else if d.param = "_" then ok (.comp ⟨c.param, dmul fm c.data d.data, c.scale * d.scale⟩)
  else
    match c.asPmath, d.asPmath with
    | .ok x, .ok y => ok (.pm (.bin .mul x y))
    | _, _ => err .notImplementedError

/-- `ParameterRef_C.__mul__`, `linear.pyx:129-156`.  The last case keeps the component itself as operand. -/
noncomputable def parMul : Obj → Obj → Slot
  | .par s, .dat d => ok (.comp ⟨s, d, 1⟩)
  | .par s, .num n => ok (.comp ⟨s, one, n.val⟩)
  | .par s, .par t =>
    if s = "_" then ok (.par t) else if t = "_" then ok (.par s) else ok (.pm (.bin .mul (.ref s) (.ref t)))
  | .par s, .comp c =>
    if s = "_" then ok (.comp c)
    else if c.param = "_" then ok (.comp ⟨s, c.data, c.scale⟩)
    else ok (.pm (.bin .mul (.ref s) (.lin c)))
  | .dat d, .par s => ok (.comp ⟨s, d, 1⟩)
  | .num n, .par s => ok (.comp ⟨s, one, n.val⟩)
  | _, _ => none

open Classical in
/-- `DataRef_C.__mul__`, `linear.pyx:311-354`; number times data is `P(_) * number * data`. -/
noncomputable def datMul (fm : Fmt) : Obj → Obj → Slot
  | .dat a, .dat b => ok (.dat (dmul fm a b))
  | .dat a, .num n => if isOne a then ok (.num n) else if n.val = 1 then ok (.dat a) else ok (.comp ⟨"_", dmul fm one a, n.val⟩)
  | .dat a, .par s => ok (.comp ⟨s, a, 1⟩)
  | .dat a, .comp c => ok (.comp ⟨c.param, dmul fm a c.data, c.scale⟩)
  | .dat a, .func l => ok (.func (l.map (fun c => ⟨c.param, dmul fm a c.data, c.scale⟩)))
  | .num n, .dat b => if n.val = 1 then ok (.dat b) else if isOne b then ok (.num n) else ok (.comp ⟨"_", dmul fm one b, n.val⟩)
  | .par s, .dat b => ok (.comp ⟨s, b, 1⟩)
  | .comp c, .dat b => ok (.comp ⟨c.param, dmul fm c.data b, 1⟩)
  | .func l, .dat b => ok (.func (l.map (fun c => compMulDat fm c b)))
  | _, _ => none

/-- `LinearComponent_C.__mul__`, `linear.pyx:528-579`. -/
noncomputable def compMul (fm : Fmt) : Obj → Obj → Slot
  | .comp c, .num n => ok (.comp ⟨c.param, c.data, c.scale * n.val⟩)
  | .comp c, .dat d => ok (.comp (compMulDat fm c d))
  | .comp c, .comp d => compMulComp fm c d
  | .comp c, .par s =>
    if s = "_" then ok (.comp c)
    else if c.param = "_" then ok (.comp ⟨s, c.data, c.scale⟩)
    else withPm c.asPmath (fun e => .bin .mul e (.ref s))
  | .comp c, .func l =>
    match c.asPmath, funcPmath l with
    | .ok x, .ok y => ok (.pm (.bin .mul x y))
    | _, _ => err .notImplementedError
  | .comp c, .pm e => withPm c.asPmath (fun x => .bin .mul x e)
  | .num n, .comp d => ok (.comp ⟨d.param, d.data, d.scale * n.val⟩)
  | _, _ => err .notImplementedError

/-- `sum(products)`: starts with the integer 0. -/
noncomputable def sumObjs (fm : Fmt) (acc : Obj) : List (Except Exc Obj) → Except Exc Obj
  | [] => .ok acc
  | r :: rs =>
    match r with
    | .error e => .error e
    | .ok o =>
      match add fm acc o with
      | .ok acc' => sumObjs fm acc' rs
      | .error e => .error e

/-- The integer zero. -/
def zeroNum : Num := ⟨false, "0", 0⟩

/-- `component * component` as an expression. -/
noncomputable def compTimes (fm : Fmt) (c d : Comp) : Except Exc Obj := (compMulComp fm c d).getD (.error .typeError)

/-- `LinearFunction_C([...])` of products `component * other` that are components, `linear.pyx:1046-1052`; appending parameter
arithmetic raises `TypeError`, a `NotImplementedError` becomes `NotImplemented`. -/
noncomputable def mulEach (l : List Comp) (f : Comp → Slot) : Slot :=
  match l with
  | [] => ok (.func [])
  | c :: cs =>
    match f c with
    | some (.ok (.comp d)) =>
      match mulEach cs f with
      | some (.ok (.func ds)) => ok (.func (d :: ds))
      | r => r
    | some (.ok _) => err .typeError
    | _ => none

/-- `LinearFunction_C.__mul__`, `linear.pyx:1000-1052`. -/
noncomputable def funcMul (fm : Fmt) : Obj → Obj → Slot
  | .func l, .num n => ok (.func (l.map (fun c => ⟨c.param, c.data, c.scale * n.val⟩)))
  | .func l, .par s =>
    if s = "_" then ok (.func l)
    else if l.all (fun c => c.param = "_") then ok (.func (l.map (fun c => ⟨s, c.data, c.scale⟩)))
    else withPm (funcPmath l) (fun e => .bin .mul e (.ref s))
  | .func l, .pm e => withPm (funcPmath l) (fun x => .bin .mul x e)
  | .func l, .func m =>
    some (sumObjs fm (.num zeroNum) (l.flatMap (fun c => m.map (fun d => compTimes fm c d))))
  | .num n, .func l => ok (.func (l.map (fun c => ⟨c.param, c.data, c.scale * n.val⟩)))
  | .par s, .func l =>
    if s = "_" then ok (.func l)
    else if l.all (fun c => c.param = "_") then ok (.func (l.map (fun c => ⟨s, c.data, c.scale⟩)))
    else withPm (funcPmath l) (fun e => .bin .mul (.ref s) e)
  | .pm e, .func l => withPm (funcPmath l) (fun x => .bin .mul e x)
  | .func l, .dat d => mulEach l (fun c => ok (.comp (compMulDat fm c d)))
  | .func l, .comp d => mulEach l (fun c => compMulComp fm c d)
  | _, _ => none

noncomputable def mulSlot (fm : Fmt) : Kind → Obj → Obj → Slot
  | .num => fun _ _ => none
  | .par => parMul
  | .dat => datMul fm
  | .comp => compMul fm
  | .func => funcMul fm
  | .pm => pmOp .mul

/-- `a * b`. -/
noncomputable def mul (fm : Fmt) (a b : Obj) : Except Exc Obj := dispatch (mulSlot fm) a b

/-! ## Division -/

open Classical in
/-- `ParameterRef_C.__truediv__`, `linear.pyx:158-169`. -/
noncomputable def parDiv (fm : Fmt) : Obj → Obj → Slot
  | .par s, .par t => ok (.pm (.bin .div (.ref s) (.ref t)))
  | .par s, .num n => if n.val = 0 then err .zeroDivision else ok (.comp ⟨s, one, 1 / n.val⟩)
  | .par s, .dat d => ok (.comp ⟨s, dbin fm .div one d, 1⟩)
  | _, _ => none

/-- `DataRef_C.__truediv__`, `linear.pyx:356-361`. -/
noncomputable def datDiv (fm : Fmt) : Obj → Obj → Slot
  | .dat a, .dat b => ok (.dat (dbin fm .div a b))
  | .dat a, .num n => ok (.dat (dbin fm .div a n.toks))
  | .num n, .dat b => ok (.dat (dbin fm .div n.toks b))
  | .par s, .dat b => ok (.comp ⟨s, dbin fm .div one b, 1⟩)
  | _, _ => none

open Classical in
/-- `LinearComponent_C.__truediv__`, `linear.pyx:581-607`. -/
noncomputable def compDiv (fm : Fmt) : Obj → Obj → Slot
  | .comp c, .num n => if n.val = 0 then err .zeroDivision else ok (.comp ⟨c.param, c.data, c.scale / n.val⟩)
  | .comp c, .dat d => ok (.comp ⟨c.param, dbin fm .div c.data d, c.scale⟩)
  | .comp c, .comp d =>
    match c.asPmath, d.asPmath with
    | .ok x, .ok y => ok (.pm (.bin .div x y))
    | _, _ => err .notImplementedError
  | .comp c, .par s => withPm c.asPmath (fun e => .bin .div e (.ref s))
  | .comp c, .pm e => withPm c.asPmath (fun x => .bin .div x e)
  | .comp c, .func l =>
    match c.asPmath, funcPmath l with
    | .ok x, .ok y => ok (.pm (.bin .div x y))
    | _, _ => err .notImplementedError
  | _, _ => err .notImplementedError

/-- `LinearFunction_C.__truediv__`, `linear.pyx:1054-1060`. -/
noncomputable def funcDiv : Obj → Obj → Slot
  | .func l, .par s => withPm (funcPmath l) (fun e => .bin .div e (.ref s))
  | .func l, .pm e => withPm (funcPmath l) (fun x => .bin .div x e)
  | .func l, .num n => withPm (funcPmath l) (fun e => .bin .div e (.num n.val))
  | .par s, .func l => withPm (funcPmath l) (fun e => .bin .div (.ref s) e)
  | .pm e, .func l => withPm (funcPmath l) (fun x => .bin .div e x)
  | .num n, .func l => withPm (funcPmath l) (fun e => .bin .div (.num n.val) e)
  | _, _ => none

noncomputable def divSlot (fm : Fmt) : Kind → Obj → Obj → Slot
  | .num => fun _ _ => none
  | .par => parDiv fm
  | .dat => datDiv fm
  | .comp => compDiv fm
  | .func => funcDiv
  | .pm => pmOp .div

/-- `a / b`. -/
noncomputable def div (fm : Fmt) (a b : Obj) : Except Exc Obj := dispatch (divSlot fm) a b

/-! ## Unary minus, removal of terms -/

/-- `-a`: data references, components and functions have it, parameters and parameter arithmetic do not,
`linear.pyx:393, 438, 970`. -/
noncomputable def neg (fm : Fmt) : Obj → Except Exc Obj
  | .dat d => .ok (.dat (dneg fm d))
  | .comp c => .ok (.comp c.neg)
  | .func l => .ok (.func (l.map Comp.neg))
  | .num n => .ok (.num { n with neg := !n.neg })
  | _ => .error .typeError

/-- The loop of `remove_data` / `remove_param`, `linear.pyx:861-903`: `i` counts down from the length; `p` tells which terms go. -/
def removeLoop (p : Comp → Bool) : Nat → List Comp → List Comp
  | 0, l => l
  | i + 1, l =>
    match l[i]? with
    | some c => if p c then removeLoop p i (l.eraseIdx i) else removeLoop p i l
    | none => l

open Classical in
/-- `remove_data(d)`; comparison of a `DataRef_C` with a string or data reference. -/
noncomputable def removeData (d : List Tok) (l : List Comp) : List Comp := removeLoop (fun c => decide (c.data = d)) l.length l

/-- `remove_param(p)`. -/
def removeParam (s : String) (l : List Comp) : List Comp := removeLoop (fun c => c.param == s) l.length l

end Larch.Linear
