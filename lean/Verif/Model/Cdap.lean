import Verif.Model.Linear
import Mathlib.Data.List.Dedup

/-!
# Coordinated daily activity patterns (`larch/util/activitysim/cdap.py`)

The name of an alternative is a string of letters M, N, H, one per person: here a list of activities.  Expressions are token lists
(`Model/Linear`), so the regular expression `\btoken\b` matches a name token that is equal to the token.  `interaction_ptypes` is a
list of characters.  A coefficient name is given by its parts between underscores.
-/

namespace Larch.Cdap

open Larch.Py Larch.Linear

/-- `basic_patterns = ["M", "N", "H"]`, `cdap.py:36`. -/
inductive Act where
  | M | N | H
deriving DecidableEq

def Act.letter : Act → String
  | .M => "M"
  | .N => "N"
  | .H => "H"

/-- `itertools.product(basic_patterns, repeat=n)`, `cdap.py:37-39`: the last position changes fastest. -/
def products : Nat → List (List Act)
  | 0 => [[]]
  | n + 1 => [Act.M, .N, .H].flatMap (fun a => (products n).map (fun l => a :: l))

/-- `generate_alternatives(n_persons)`, `cdap.py:22-41`: codes `np.arange(1, len + 1)`. -/
def alternatives (n : Nat) : List (List Act × Nat) :=
  (products n).zip (List.range' 1 (products n).length)

/-- `re.sub(fr"\b{i}\b", f"{prefix}_{i}", ...)` on one token, `cdap.py:63`. -/
def renameTok (pre i : String) : Tok → Tok
  | .name s => if s = i then .name (pre ++ "_" ++ i) else .name s
  | t => t

/-- `apply_replacements(expression, prefix, tokens)`, `cdap.py:44-64`. -/
def applyReplacements (e : List Tok) (pre : String) (tokens : List String) : List Tok :=
  tokens.foldl (fun e i => e.map (renameTok pre i)) e

/-- A row of the person spec: `Expression`, and the cells of the columns M, N and H (`none`: missing). -/
structure PRow where
  expr : List Tok
  coef : Act → Option String

/-- `f"p{pnum}"`. -/
def pre (k : Nat) : String := "p" ++ toString k

/-- `model.utility_co[c] += term` adds the term at the end of the function, `larch/model/linear.pyx:953-965`; the list of such
statements executed, on utility functions given by code. -/
def run (u : Nat → List Comp) (events : List (Nat × Comp)) : Nat → List Comp :=
  events.foldl (fun u e => Function.update u e.1 (u e.1 ++ [e.2])) u

/-- `cdap_base_utility_by_person`, `cdap.py:89-111`, with the alternatives of `generate_alternatives`; `X(...) * P(...)` is the
component with scale 1 (`linear.pyx:129-156`). -/
def baseEvents (n : Nat) (spec : List PRow) (tokens : List String) : List (Nat × Comp) :=
  if n = 1 then
    spec.flatMap (fun r => [(Act.M, 1), (Act.N, 2), (Act.H, 3)].flatMap (fun a =>
      (r.coef a.1).toList.map (fun c => (a.2, (⟨c, r.expr, 1⟩ : Comp)))))
  else
    (List.range' 1 n).flatMap (fun pnum => spec.flatMap (fun r => (alternatives n).flatMap (fun a =>
      (a.1[pnum - 1]?.bind r.coef).toList.map (fun c =>
        (a.2, (⟨c, applyReplacements r.expr (pre pnum) tokens, 1⟩ : Comp))))))

/-- `interact_pattern(n_persons, select_persons, tag)`, `cdap.py:114-136`: per person the letter required, or none for `.`. -/
def interactPattern (n : Nat) (sel : List Nat) (tag : Act) : List (Option Act) :=
  (List.range' 1 n).map (fun p => if p ∈ sel then some tag else none)

/-- `pattern.match(name)`: the pattern matches at the start. -/
def matches_ : List (Option Act) → List Act → Bool
  | [], _ => true
  | _ :: _, [] => false
  | none :: ps, _ :: as => matches_ ps as
  | some t :: ps, a :: as => t = a && matches_ ps as

/-- `itertools.combinations(l, k)`. -/
def combos : Nat → List Nat → List (List Nat)
  | 0, _ => [[]]
  | _ + 1, [] => []
  | k + 1, x :: xs => (combos k xs).map (fun c => x :: c) ++ combos (k + 1) xs

/-- A row of the interaction table. -/
structure IRow where
  activity : Act
  card : Nat
  ptypes : List Char
  coefficient : String

/-- The literal `{t}`. -/
def typeTok (t : Char) : Tok :=
  if t.isDigit then .num (String.singleton t) ((t.toNat - 48 : Nat) : ℝ) else .name (String.singleton t)

/-- The variable `p{p}_ptype`. -/
def ptypeVar (p : Nat) : String := pre p ++ "_ptype"

/-- `f"(p{p}_ptype == {t})"`. -/
def typeTest (x : Nat × Char) : List Tok := [.lp, .name (ptypeVar x.1), .eqeq, typeTok x.2, .rp]

/-- `"&".join(...)`. -/
def joinAnd : List (Nat × Char) → List Tok
  | [] => []
  | x :: xs => typeTest x ++ (xs.flatMap (fun y => .op .and :: typeTest y))

/-- The pairs tested: `zip(combo, row.interaction_ptypes)` without wildcards, `cdap.py:166-170, 197-201`. -/
def tests (combo : List Nat) (ptypes : List Char) : List (Nat × Char) :=
  (combo.zip ptypes).filter (fun x => x.2 ≠ '*')

/-- `"coef_[HMN]_.*"` is found in the name with these parts, `cdap.py:143-146`. -/
def searchable : List String → Bool
  | a :: b :: c :: rest => ("coef".toList.isSuffixOf a.toList && (b == "H" || b == "M" || b == "N")) || searchable (b :: c :: rest)
  | _ => false

/-- The assignments to `interact_coef_map` made for one coefficient, `cdap.py:146-152`. -/
def mapEntries (parts : List String) : List ((String × String) × String) :=
  if searchable parts then
    match parts with
    | _ :: act :: js => js.flatMap (fun j => ((act, j), "_".intercalate parts) ::
        (if j.toList.all (fun ch => ch == 'x') then [((act, ""), "_".intercalate parts)] else []))
    | _ => []
  else []

/-- `interact_coef_map`, as the assignments in order. -/
def coefMap (coefs : List (List String)) : List ((String × String) × String) := coefs.flatMap mapEntries

/-- Lookup in the dictionary: the last assignment to the key. -/
def mapGet (m : List ((String × String) × String)) (k : String × String) : Option String :=
  (m.reverse.find? (fun e => e.1 = k)).map Prod.snd

/-- The parameter used for a row: the map's, or the row's own, `cdap.py:172-184, 205-211`. -/
def rowCoef (m : List ((String × String) × String)) (r : IRow) : String :=
  (mapGet m (r.activity.letter, String.ofList r.ptypes)).getD r.coefficient

/-- The term of a row for a list of persons: `X(expression) * P(...)`, or `P(...)` when there is no expression
(added as the component with data 1, `linear.pyx:954-955`). -/
def rowTerm (m : List ((String × String) × String)) (r : IRow) (combo : List Nat) : Comp :=
  if tests combo r.ptypes = [] then ofPar (rowCoef m r) else ⟨rowCoef m r, joinAnd (tests combo r.ptypes), 1⟩

/-- Group keys in the order of `groupby(["cardinality", "activity"])`: sorted, each once (letters H < M < N). -/
def groupKeys (rows : List IRow) : List (Nat × Act) :=
  let ord : Nat × Act → Nat := fun k => 3 * k.1 + (match k.2 with
    | .H => 0
    | .M => 1
    | .N => 2)
  ((rows.map (fun r : IRow => (r.card, r.activity))).dedup).mergeSort (fun a b => decide (ord a ≤ ord b))

/-- `cdap_interaction_utility`, `cdap.py:139-215`, with the alternatives of `generate_alternatives`. -/
def interactEvents (n : Nat) (rows : List IRow) (coefs : List (List String)) : List (Nat × Comp) :=
  let m := coefMap coefs
  (groupKeys rows).flatMap (fun k =>
    let group := rows.filter (fun r => r.card = k.1 ∧ r.activity = k.2)
    if k.1 > n then []
    else if k.1 = n then
      -- `this_altnum = alts[activity * n_persons]`; the name is always there
      match (alternatives n).find? (fun a => a.1 = List.replicate n k.2) with
      | none => []
      | some a => group.map (fun r => (a.2, rowTerm m r (List.range' 1 n)))
    else
      (combos k.1 (List.range' 1 n)).flatMap (fun combo =>
        (alternatives n).flatMap (fun a =>
          if matches_ (interactPattern n combo k.2) a.1 then
            group.flatMap (fun r => if tests combo r.ptypes = [] then [] else [(a.2, rowTerm m r combo)])
          else [])))

end Larch.Cdap
