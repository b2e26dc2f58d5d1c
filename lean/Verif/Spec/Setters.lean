import Verif.Model.Setters

/-!
# What the specification attributes should mean: one slot, holding what was assigned last
-/

namespace Larch.Setters

/-- The choice definition that a sequence of statements intends: a definition replaces the one in force; removing one kind only
matters if that kind is in force. -/
def intendChoice (c : Option Choice) : Op → Option Choice
  | .choiceCaVar (some v) => some (.ca v)
  | .choiceCaVar none => match c with | some (.ca _) => none | _ => c
  | .choiceCoVars (some d) => some (.coVars d)
  | .choiceCoVars none => match c with | some (.coVars _) => none | _ => c
  | .delChoiceCoVars => match c with | some (.coVars _) => none | _ => c
  | .choiceCoCode (some v) => some (.coCode v)
  | .choiceCoCode none => match c with | some (.coCode _) => none | _ => c
  | .delChoiceCoCode => match c with | some (.coCode _) => none | _ => c
  | .choiceAny true => some .any
  | .choiceAny false => match c with | some .any => none | _ => c
  | .delChoiceAny => match c with | some .any => none | _ => c
  | .editChoiceCoVars d => match c with | some (.coVars _) => some (.coVars d) | _ => c
  | _ => c

/-- The same for availability. -/
def intendAvail (c : Option Avail) : Op → Option Avail
  | .availCaVar (some v) => some (.ca v)
  | .availCaVar none => match c with | some (.ca _) => none | _ => c
  | .availCoVars d => some (.coVars d)
  | .availAny true => some .any
  | .availAny false => match c with | some .any => none | _ => c
  | _ => c

/-- A definition that says nothing: an empty name or mapping. -/
def Choice.empty : Choice → Bool
  | .ca v => v = ""
  | .coVars d => d = []
  | .coCode v => v = ""
  | .any => false

def Avail.empty : Avail → Bool
  | .ca v => v = ""
  | .coVars d => d = []
  | .any => false

end Larch.Setters
