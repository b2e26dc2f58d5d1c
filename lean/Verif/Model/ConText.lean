import Verif.Model.Constraints

/-!
# Constraints given as text

Model of `asfloat`, `interpret_contraint` (`larch/model/constraints.py:525-585`), of the text form of `OrderingBound`
(`constraints.py:205-217`) and of what a list of constraints does with text (`constraints.py:393-401, 459-466, 482-494`).  A text is a
list of characters.  Python's `re.match` is modelled by a backtracking matcher that lists all matches in the order in which Python
tries them; the patterns contain only characters, classes of characters (repeated or not), sequence, alternative and (not nested)
groups.  Parameters of the model: the classes `\s`, `\d`, `\w`, and `float`, which gives a real number or raises `ValueError`
(texts such as `1e999` that give an infinity are left out).
-/

namespace Larch.ConText

abbrev Text := List Char

/-- The classes `\s`, `\d`, `\w` of Python's `re`. -/
structure Cls where
  sp : Char → Bool
  dg : Char → Bool
  wd : Char → Bool

/-- Regular expressions. -/
inductive Re where
  | star (p : Char → Bool)
  | plus (p : Char → Bool)
  | opt (p : Char → Bool)
  | str (t : Text)
  | seq (a b : Re)
  | alt (a b : Re)
  | grp (a : Re)

infixr:65 " ;; " => Re.seq

/-- All ways to read a (possibly empty) run of the class, longest first: consumed text and rest. -/
def runs (p : Char → Bool) : Text → List (Text × Text)
  | [] => [([], [])]
  | c :: s => (if p c then (runs p s).map (fun q => (c :: q.1, q.2)) else []) ++ [([], c :: s)]

/-- At most one character. -/
def runOpt (p : Char → Bool) : Text → List (Text × Text)
  | [] => [([], [])]
  | c :: s => (if p c then [([c], s)] else []) ++ [([], c :: s)]

/-- At least one character. -/
def runPlus (p : Char → Bool) (s : Text) : List (Text × Text) := (runs p s).filter (fun q => !q.1.isEmpty)

/-- The given text. -/
def runStr : Text → Text → List (Text × Text)
  | [], s => [([], s)]
  | _ :: _, [] => []
  | c :: t, d :: s => if c = d then (runStr t s).map (fun q => (c :: q.1, q.2)) else []

/-- A match: the text consumed, the groups, the rest. -/
structure Hit where
  used : Text
  groups : List Text
  rest : Text

/-- A hit without groups. -/
def plain (q : Text × Text) : Hit := ⟨q.1, [], q.2⟩

/-- All matches at the beginning of a text, in the order in which Python's matcher finds them. -/
def Re.hits : Re → Text → List Hit
  | .star p, s => (runs p s).map plain
  | .plus p, s => (runPlus p s).map plain
  | .opt p, s => (runOpt p s).map plain
  | .str t, s => (runStr t s).map plain
  | .seq a b, s => (a.hits s).flatMap (fun h => (b.hits h.rest).map (fun j => ⟨h.used ++ j.used, h.groups ++ j.groups, j.rest⟩))
  | .alt a b, s => a.hits s ++ b.hits s
  | .grp a, s => (a.hits s).map (fun h => ⟨h.used, [h.used], h.rest⟩)

/-- `re.match("^…$", c)`: the groups of the first match that uses all of the text.  (`$` also matches before a final newline; every
pattern here ends in `\s*`, which reads the newline first.) -/
def Re.fullMatch (r : Re) (c : Text) : Option (List Text) := ((r.hits c).find? (fun h => h.rest.isEmpty)).map Hit.groups

/-- `[-+]`. -/
def isSign (c : Char) : Bool := c == '-' || c == '+'
/-- `\.`. -/
def isDot (c : Char) : Bool := c == '.'
/-- `[eE]`. -/
def isExp (c : Char) : Bool := c == 'e' || c == 'E'
/-- `[\w#:\*&^%\$!@]`, `constraints.py:533`. -/
def isTok (k : Cls) (c : Char) : Bool := k.wd c || "#:*&^%$!@".toList.contains c

/-- `numbr`, `constraints.py:532`. -/
def numbr (k : Cls) : Re :=
  .star k.sp ;;
    .grp (.alt (.opt isSign ;; .star k.dg ;; .opt isDot ;; .star k.dg ;; .opt isExp ;; .opt isSign ;; .star k.dg)
      (.plus k.dg ;; .str ['/'] ;; .plus k.dg)) ;; .star k.sp

/-- `token`, `constraints.py:533`. -/
def token (k : Cls) : Re := .star k.sp ;; .grp (.plus (isTok k)) ;; .star k.sp

/-- `(<=|<)`. -/
def less : Re := .grp (.alt (.str ['<', '=']) (.str ['<']))

/-- `(>=|>)`. -/
def more : Re := .grp (.alt (.str ['>', '=']) (.str ['>']))

/-- `token/token`. -/
def ratio (k : Cls) : Re := token k ;; .str ['/'] ;; token k

/-- Exceptions. -/
inductive CErr where
  | value
  | zeroDivision
  | type
deriving DecidableEq

/-- A constraint. -/
inductive Constraint where
  | fixed (f : Con.Fixed)
  | ordering (o : Con.Ordering)
  | ratio (r : Con.Ratio)

/-- `x.split("/")[0]`. -/
def beforeSlash (x : Text) : Text := x.takeWhile (· != '/')
/-- `x.split("/")[1]`. -/
def afterSlash (x : Text) : Text := ((x.dropWhile (· != '/')).tail).takeWhile (· != '/')

/-- `float(x)`. -/
def pyFloat (flt : Text → Option ℝ) (x : Text) : Except CErr ℝ := (flt x).elim (.error .value) .ok

/-- Python's division of floats. -/
noncomputable def pyDiv (x y : ℝ) : Except CErr ℝ := open Classical in if y = 0 then .error .zeroDivision else .ok (x / y)

/-- `asfloat`, `constraints.py:525-529`. -/
noncomputable def asfloat (flt : Text → Option ℝ) (x : Text) : Except CErr ℝ :=
  if x.contains '/' then (pyFloat flt (beforeSlash x)).bind fun a => (pyFloat flt (afterSlash x)).bind fun b => pyDiv a b
  else pyFloat flt x

/-- `rx.group(i)`. -/
def group (g : List Text) (i : Nat) : Text := g.getD (i - 1) []

/-- A parameter's name. -/
def name (t : Text) : String := String.ofList t

/-- `FixedBound(p, minimum=…)`. -/
def fixedMin (p : Text) (x : ℝ) : Constraint := .fixed ⟨name p, some (.fin x), none⟩
/-- `FixedBound(p, maximum=…)`. -/
def fixedMax (p : Text) (x : ℝ) : Constraint := .fixed ⟨name p, none, some (.fin x)⟩
/-- `FixedBound(p, minimum=…, maximum=…)`. -/
def fixedBoth (p : Text) (x y : ℝ) : Constraint := .fixed ⟨name p, some (.fin x), some (.fin y)⟩
/-- `OrderingBound(p_less, p_more)`. -/
def order (p q : Text) : Constraint := .ordering ⟨name p, name q⟩
/-- `RatioBound(p, q, min_ratio=…)`. -/
def ratioMin (p q : Text) (x : ℝ) : Constraint := .ratio ⟨name p, name q, some x, none⟩
/-- `RatioBound(p, q, max_ratio=…)`. -/
def ratioMax (p q : Text) (x : ℝ) : Constraint := .ratio ⟨name p, name q, none, some x⟩
/-- `RatioBound(p, q, min_ratio=…, max_ratio=…)`. -/
def ratioBoth (p q : Text) (x y : ℝ) : Constraint := .ratio ⟨name p, name q, some x, some y⟩

/-- A pattern and what is made of its groups. -/
abbrev Rule := Re × (List Text → Except CErr Constraint)

/-- `n_2w`, `constraints.py:535-538`. -/
noncomputable def ruleN2w (k : Cls) (flt : Text → Option ℝ) : Rule :=
  (numbr k ;; less ;; token k ;; less ;; numbr k, fun g =>
    (asfloat flt (group g 1)).bind fun x => (asfloat flt (group g 5)).map fun y => fixedBoth (group g 3) x y)

/-- `le_n`, `constraints.py:540-543`. -/
noncomputable def ruleLeN (k : Cls) (flt : Text → Option ℝ) : Rule :=
  (token k ;; less ;; numbr k, fun g => (asfloat flt (group g 3)).map fun x => fixedMax (group g 1) x)

/-- `ge_n`, `constraints.py:545-548`. -/
noncomputable def ruleGeN (k : Cls) (flt : Text → Option ℝ) : Rule :=
  (token k ;; more ;; numbr k, fun g => (asfloat flt (group g 3)).map fun x => fixedMin (group g 1) x)

/-- `n_le`, `constraints.py:550-553`. -/
noncomputable def ruleNLe (k : Cls) (flt : Text → Option ℝ) : Rule :=
  (numbr k ;; less ;; token k, fun g => (asfloat flt (group g 1)).map fun x => fixedMin (group g 3) x)

/-- `n_ge`, `constraints.py:555-558`. -/
noncomputable def ruleNGe (k : Cls) (flt : Text → Option ℝ) : Rule :=
  (numbr k ;; more ;; token k, fun g => (asfloat flt (group g 1)).map fun x => fixedMax (group g 3) x)

/-- `le`, `constraints.py:560-563`. -/
def ruleLe (k : Cls) : Rule := (token k ;; less ;; token k, fun g => .ok (order (group g 1) (group g 3)))

/-- `ge`, `constraints.py:565-568`. -/
def ruleGe (k : Cls) : Rule := (token k ;; more ;; token k, fun g => .ok (order (group g 3) (group g 1)))

/-- `r_le`, `constraints.py:570-573`. -/
noncomputable def ruleRLe (k : Cls) (flt : Text → Option ℝ) : Rule :=
  (ratio k ;; less ;; numbr k, fun g => (asfloat flt (group g 4)).map fun x => ratioMax (group g 1) (group g 2) x)

/-- `r_ge`, `constraints.py:575-578`. -/
noncomputable def ruleRGe (k : Cls) (flt : Text → Option ℝ) : Rule :=
  (ratio k ;; more ;; numbr k, fun g => (asfloat flt (group g 4)).map fun x => ratioMin (group g 1) (group g 2) x)

/-- `r_2w`, `constraints.py:580-583`. -/
noncomputable def ruleR2w (k : Cls) (flt : Text → Option ℝ) : Rule :=
  (numbr k ;; less ;; ratio k ;; less ;; numbr k, fun g =>
    (asfloat flt (group g 1)).bind fun x => (asfloat flt (group g 6)).map fun y => ratioBoth (group g 3) (group g 4) x y)

/-- The patterns in the order of the code. -/
noncomputable def rules (k : Cls) (flt : Text → Option ℝ) : List Rule :=
  [ruleN2w k flt, ruleLeN k flt, ruleGeN k flt, ruleNLe k flt, ruleNGe k flt, ruleLe k, ruleGe k, ruleRLe k flt, ruleRGe k flt,
    ruleR2w k flt]

/-- `rx = re.match(…)`, `if rx: return …`, and so on; at the end `raise ValueError`. -/
def tryRules : List Rule → Text → Except CErr Constraint
  | [], _ => .error .value
  | r :: rs, c => (r.1.fullMatch c).elim (tryRules rs c) r.2

/-- `interpret_contraint`, `constraints.py:531-585`. -/
noncomputable def interpret (k : Cls) (flt : Text → Option ℝ) (c : Text) : Except CErr Constraint := tryRules (rules k flt) c

/-! ## The text form of `OrderingBound` -/

/-- `c.split(sign, 1)` for a sign that occurs in the text; `none` if it does not occur. -/
def cut (sign : Text) : Text → Option (Text × Text)
  | [] => none
  | c :: s => if sign.isPrefixOf (c :: s) then some ([], (c :: s).drop sign.length) else (cut sign s).map (fun q => (c :: q.1, q.2))

/-- `_.strip()`. -/
def strip (k : Cls) (t : Text) : Text := ((t.dropWhile k.sp).reverse.dropWhile k.sp).reverse

/-- The two sides, in the given order. -/
def sides (k : Cls) (q : Text × Text) : Constraint := order (strip k q.1) (strip k q.2)

/-- `OrderingBound(text)`, `constraints.py:206-217`. -/
def orderingText (k : Cls) (c : Text) : Except CErr Constraint :=
  ((cut ['<', '='] c).map (sides k) |>.orElse fun _ => (cut ['<'] c).map (sides k) |>.orElse fun _ =>
    (cut ['>', '='] c).map (fun q => sides k q.swap) |>.orElse fun _ => (cut ['>'] c).map (fun q => sides k q.swap)).elim
      (.error .value) .ok

/-! ## Text in a list of constraints -/

/-- An item given to a list of constraints. -/
inductive Item where
  | text (t : Text)
  | con (c : Constraint)

/-- The conversion in `insert` (so `append`) and item assignment, `constraints.py:460-463, 483-486`. -/
noncomputable def itemInsert (k : Cls) (flt : Text → Option ℝ) : Item → Except CErr Constraint
  | .text t => interpret k flt t
  | .con c => .ok c

/-- The check in `ParametricConstraintList(init)` and in assigning to `model.constraints`, `constraints.py:396-401`. -/
def itemInit : Item → Except CErr Constraint
  | .text _ => .error .type
  | .con c => .ok c

end Larch.ConText
