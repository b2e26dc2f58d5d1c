/-!
# Where the log goes (`larch/log/normal.py:1-53`, the same in `verbose.py`)

`log_to_console` and `log_to_file` on the logger "Larch", and which handlers write a message (the rule of Python's `logging`).  The handlers are those
made by these two functions; `F` are names of files and `abs` is `os.path.abspath`, which the handler applies to the name it is given.  `root` is the
level of the root logger, used if the logger has none (0).  Propagation of messages to handlers of the root logger is not modelled.
-/

namespace Larch.LogSetup

variable {F : Type} [DecidableEq F]

/-- A handler: for the console, or for the file of that `baseFilename`. -/
structure Handler (F : Type) where
  file : Option F
  level : Nat
  deriving DecidableEq

/-- The logger: its own level and its handlers. -/
structure Logger (F : Type) where
  level : Nat
  handlers : List (Handler F)

/-- `getEffectiveLevel()`. -/
def effective (root : Nat) (l : Logger F) : Nat := if l.level = 0 then root else l.level

/-- `log_to_console(level)`, lines 14-33. -/
def toConsole (root dflt : Nat) (l : Logger F) (level : Option Nat) : Logger F :=
  if l.handlers.any (fun h => h.file.isNone) then l
  else ⟨if level.getD dflt < effective root l then level.getD dflt else l.level, l.handlers ++ [⟨none, level.getD dflt⟩]⟩

/-- `log_to_file(filename, level)`, lines 36-53. -/
def toFile (abs : F → F) (dflt : Nat) (l : Logger F) (filename : F) (level : Option Nat) : Logger F :=
  if l.handlers.any (fun h => decide (h.file = some filename)) then l
  else ⟨l.level, l.handlers ++ [⟨some (abs filename), level.getD dflt⟩]⟩

/-- A call of either. -/
inductive Call (F : Type) where
  | console (level : Option Nat)
  | file (name : F) (level : Option Nat)

def call (abs : F → F) (root dflt : Nat) (l : Logger F) : Call F → Logger F
  | .console v => toConsole root dflt l v
  | .file f v => toFile abs dflt l f v

/-- Calls one after the other, from a new logger. -/
def setup (abs : F → F) (root dflt : Nat) (cs : List (Call F)) : Logger F := cs.foldl (call abs root dflt) ⟨0, []⟩

/-- The places a message of a level is written to, one entry for each time. -/
def written (root : Nat) (l : Logger F) (level : Nat) : List (Option F) :=
  if effective root l ≤ level then (l.handlers.filter (fun h => decide (h.level ≤ level))).map (·.file) else []

end Larch.LogSetup
