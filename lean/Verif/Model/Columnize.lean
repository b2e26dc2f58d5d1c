import Mathlib.Data.List.Basic

/-!
# Data expressions on frames: `columnize` (`larch/util/dataframe.py:106-310`)

The rewriting of names, token by token, and evaluation of what results.  Python is modelled as a grammar of expressions over tokens (`Parses`, with its levels of
precedence as a parameter; comprehensions, lambdas, comparisons chains and slices are left out) and an evaluation in a given semantics `Sem` of operators,
attributes and calls.  `untokenize` after `tokenize` gives the same tokens.  Not modelled: `inplace`, `dtype`, the name of the resulting series, the texts of errors.
Lists of names are C85.
-/

namespace Larch.Columnize

inductive Tok where
  | name (s : String)
  | str (s : String)
  | num (s : String)
  | op (s : String)
deriving DecidableEq

inductive Expr where
  | name (s : String)
  | str (s : String)
  | num (s : String)
  | attr (e : Expr) (s : String)
  | index (e i : Expr)
  | call (f a : Expr)
  | noArgs
  | arg (e rest : Expr)
  | kwarg (s : String) (e rest : Expr)
  | un (o : String) (e : Expr)
  | bin (o : String) (a b : Expr)
deriving DecidableEq

/-- A frame: names of its columns and of the levels of its index. -/
structure Frame where
  cols : List String
  levels : List String

/-- What a name token becomes, `dataframe.py:222-247`. -/
def rewriteTok (F : Frame) : Tok → List Tok
  | .name n =>
    if n ∈ F.cols then [.name "df", .op "[", .str n, .op "]"]
    else if n ∈ F.levels then [.name "df", .op ".", .name "index", .op ".", .name "get_level_values", .op "(", .str n, .op ")", .op ".", .name "values"]
    else [.name n]
  | t => [t]

def rewrite (F : Frame) (ts : List Tok) : List Tok := ts.flatMap (rewriteTok F)

/-- Python's grammar of expressions: `prec o` is the level of an operator of two arguments, `unary o` of a prefix; `top` is that of atoms with
attributes, indexes and calls. -/
structure Grammar where
  prec : String → Option Nat
  unary : String → Option Nat
  top : Nat

/-- A class of phrases: an expression of some level, or the arguments of a call. -/
inductive Cat where
  | expr (level : Nat)
  | args

inductive Parses (G : Grammar) : Cat → List Tok → Expr → Prop
  | name (s) : Parses G (.expr G.top) [.name s] (.name s)
  | str (s) : Parses G (.expr G.top) [.str s] (.str s)
  | num (s) : Parses G (.expr G.top) [.num s] (.num s)
  | paren {ts e} : Parses G (.expr 0) ts e → Parses G (.expr G.top) ([.op "("] ++ ts ++ [.op ")"]) e
  | attr {ts e s} : Parses G (.expr G.top) ts e → Parses G (.expr G.top) (ts ++ [.op ".", .name s]) (.attr e s)
  | index {ts us e i} : Parses G (.expr G.top) ts e → Parses G (.expr 0) us i → Parses G (.expr G.top) (ts ++ [.op "["] ++ us ++ [.op "]"]) (.index e i)
  | call {ts us f a} : Parses G (.expr G.top) ts f → Parses G .args us a → Parses G (.expr G.top) (ts ++ [.op "("] ++ us ++ [.op ")"]) (.call f a)
  | noArgs : Parses G .args [] .noArgs
  | lastArg {ts e} : Parses G (.expr 0) ts e → Parses G .args ts (.arg e .noArgs)
  | arg {ts us e rest} : Parses G (.expr 0) ts e → Parses G .args us rest → Parses G .args (ts ++ [.op ","] ++ us) (.arg e rest)
  | lastKwarg {ts e s} : Parses G (.expr 0) ts e → Parses G .args ([.name s, .op "="] ++ ts) (.kwarg s e .noArgs)
  | kwarg {ts us e rest s} : Parses G (.expr 0) ts e → Parses G .args us rest → Parses G .args ([.name s, .op "="] ++ ts ++ [.op ","] ++ us) (.kwarg s e rest)
  | un {k o ts e} : G.unary o = some k → Parses G (.expr k) ts e → Parses G (.expr k) ([.op o] ++ ts) (.un o e)
  | bin {k o ts us a b} : G.prec o = some k → Parses G (.expr k) ts a → Parses G (.expr (k + 1)) us b → Parses G (.expr k) (ts ++ [.op o] ++ us) (.bin o a b)
  | up {k ts e} : Parses G (.expr (k + 1)) ts e → Parses G (.expr k) ts e

inductive Err where
  | name
  | other
deriving DecidableEq

/-- What Python does with values; `glob` are the values of the names which are visible where the expression is evaluated, and `series` is
`pandas.Series(value, index=df.index)`, the same for a series of the frame. -/
structure Sem (V : Type) where
  glob : String → V
  str : String → V
  num : String → V
  attr : V → String → Except Err V
  index : V → V → Except Err V
  call : V → V → Except Err V
  noArgs : V
  arg : V → V → V
  kwarg : String → V → V → V
  un : String → V → Except Err V
  bin : String → V → V → Except Err V
  series : Frame → V → V

variable {V : Type}

/-- Evaluation, left to right, names being looked up by `env`. -/
def ev (S : Sem V) (env : String → Except Err V) : Expr → Except Err V
  | .name s => env s
  | .str s => .ok (S.str s)
  | .num s => .ok (S.num s)
  | .attr e s => (ev S env e).bind (fun v => S.attr v s)
  | .index e i => (ev S env e).bind (fun v => (ev S env i).bind (fun w => S.index v w))
  | .call f a => (ev S env f).bind (fun v => (ev S env a).bind (fun w => S.call v w))
  | .noArgs => .ok S.noArgs
  | .arg e rest => (ev S env e).bind (fun v => (ev S env rest).bind (fun w => .ok (S.arg v w)))
  | .kwarg s e rest => (ev S env e).bind (fun v => (ev S env rest).bind (fun w => .ok (S.kwarg s v w)))
  | .un o e => (ev S env e).bind (fun v => S.un o v)
  | .bin o a b => (ev S env a).bind (fun v => (ev S env b).bind (fun w => S.bin o v w))

/-- The functions meant for expressions, `dataframe.py:267-268`. -/
def functions : List String := ["log", "exp", "log1p", "absolute", "fabs", "sqrt", "isnan", "isfinite", "logaddexp", "fmin", "fmax", "nan_to_num",
  "sin", "cos", "pi", "piece", "normalize", "boolean", "hard_sigmoid", "inXd"]

/-- The other names visible where `eval` is called without namespaces, `dataframe.py:273`: variables of `columnize`, of its module, and some builtins
(there are more of the latter). -/
def internals : List String := ["name", "inplace", "dtype", "debug", "backing", "datanames", "LinearFunction", "tokenize", "untokenize", "NAME", "OP", "STRING",
  "NUMBER", "asterize", "DOT", "COLON", "COMMA", "OBRAC", "CBRAC", "OPAR", "CPAR", "EQUAL", "BytesIO", "recommand", "name_encode", "reader", "g", "from_df", "toknum",
  "tokval", "_", "ret", "j", "pandas", "numpy", "platform", "colors", "seaborn", "compute", "columnize", "abs", "all", "any", "bool", "filter", "float", "format",
  "hash", "id", "input", "int", "len", "map", "max", "min", "next", "object", "pow", "range", "round", "set", "slice", "sum", "type", "vars", "zip"]

/-- The lookup of names when the rewritten expression is evaluated; `df` is the frame. -/
def scope (S : Sem V) (df : V) (n : String) : Except Err V :=
  if n = "df" then .ok df
  else if n ∈ functions then .ok (S.glob n)
  else if n ∈ internals then .ok (S.glob n)
  else .error .name

/-- What pandas does with a frame. -/
structure Data (S : Sem V) (F : Frame) (df : V) (col level : String → V) where
  cols : ∀ n ∈ F.cols, S.index df (S.str n) = .ok (col n)
  levels : ∀ n ∈ F.levels, ∃ ix g l, S.attr df "index" = .ok ix ∧ S.attr ix "get_level_values" = .ok g ∧ S.call g (S.arg (S.str n) S.noArgs) = .ok l ∧
    S.attr l "values" = .ok (level n)
  series : ∀ n ∈ F.cols, S.series F (col n) = col n

/-- The rewritten expression: names replaced by what is put for them, attributes and keywords as they are (see `Parses` and C169). -/
def subst (F : Frame) : Expr → Expr
  | .name n =>
    if n ∈ F.cols then .index (.name "df") (.str n)
    else if n ∈ F.levels then .attr (.call (.attr (.attr (.name "df") "index") "get_level_values") (.arg (.str n) .noArgs)) "values"
    else .name n
  | .str s => .str s
  | .num s => .num s
  | .attr e s => .attr (subst F e) s
  | .index e i => .index (subst F e) (subst F i)
  | .call f a => .call (subst F f) (subst F a)
  | .noArgs => .noArgs
  | .arg e rest => .arg (subst F e) (subst F rest)
  | .kwarg s e rest => .kwarg s (subst F e) (subst F rest)
  | .un o e => .un o (subst F e)
  | .bin o a b => .bin o (subst F a) (subst F b)

/-- `columnize(df, text, inplace=False)`, `dataframe.py:186-310`, for a text whose tokens are those of `e`: a column of that name is
returned as it is; otherwise the rewritten expression is evaluated.  `parsed` is what Python's parser makes of the rewritten tokens. -/
def columnize (S : Sem V) (F : Frame) (df : V) (text : String) (parsed : Option Expr) : Except Err V :=
  if text ∈ F.cols then S.index df (S.str text)
  else
    match parsed with
    | none => .error .other
    | some e => (ev S (scope S df) e).bind (fun v => .ok (S.series F v))

/-- `columnize_with_joinable_backing_2`, `dataframe.py:113-125`: after a `NameError` the expression is evaluated with the columns of both frames. -/
def backed (first second : Except Err V) : Except Err V :=
  match first with
  | .error .name => second
  | r => r

end Larch.Columnize
