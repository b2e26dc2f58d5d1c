import Verif.Model.PodLoad

/-!
# What a data item or an expression stands for
-/

namespace Larch.Pods

variable {L O A : Type}

/-- The pod has an item of that name. -/
def Holds (p : Store A) (n : String) : Prop := n ∈ p.items.map Prod.fst

/-- The item `n` of the first pod that has one is `a`. -/
def Item (ps : List (Store A)) (n : String) (a : A) : Prop :=
  ∃ pre p post, ps = pre ++ p :: post ∧ (∀ q ∈ pre, ¬ Holds q n) ∧ p.items.lookup n = some a

def Unheld (ps : List (Store A)) (n : String) : Prop := ∀ p ∈ ps, ¬ Holds p n

/-- The value of an expression over the data of the pods. -/
inductive Means (lg : Lang L O A) (ps : List (Store A)) : Expr L O → A → Prop
  | lit (l : L) : Means lg ps (.lit l) (lg.lit l)
  | item {n : String} {a : A} : Item ps n a → Means lg ps (.name n) a
  | global {n : String} {a : A} : Unheld ps n → lg.const n = some a → Means lg ps (.name n) a
  | op {o : O} {e f : Expr L O} {x y z : A} : Means lg ps e x → Means lg ps f y → lg.op o x y = some z → Means lg ps (.op o e f) z
  | call {f : String} {e : Expr L O} {g : A → Option A} {x y : A} :
      Unheld ps f → lg.fn f = some g → Means lg ps e x → g x = some y → Means lg ps (.call f e) y

/-- What a requested name stands for: an item of that name, else the value of it as an expression. -/
def Denotes (sx : Syn L O) (lg : Lang L O A) (ps : List (Store A)) (s : String) (a : A) : Prop :=
  Item ps s a ∨ (Unheld ps s ∧ ∃ e, sx.parse s = some e ∧ Means lg ps e a)

/-- The pods now (`qs`) and when the array was loaded (`ps`): the pods with a mask in the pattern are as they were; the others may have other
data, but have not lost names. -/
def ChangedOutside (pattern : Nat) (ps qs : List (Store A)) : Prop :=
  List.Forall₂ (fun p q => p.mask = q.mask ∧ (p.mask &&& pattern ≠ 0 → p = q) ∧ ∀ n, Holds p n → Holds q n) ps qs

end Larch.Pods
