import Verif.Model.ConstraintList

/-!
# What constraint lists should satisfy
-/

namespace Larch.ConList

/-- No two constraints in the list of model `m` are equal. -/
def Distinct (s : St) (m : Nat) : Prop := ((s.mdls m).cs.map (fun i => (s.objs i).item)).Nodup

/-- The parameters of constraint `i` exist in model `m`. -/
def Known (s : St) (m i : Nat) : Prop := ∀ p ∈ (s.objs i).item.params, p ∈ (s.mdls m).names

/-- Constraint `i` refers to the positions that its parameters have in model `m`. -/
def Refers (s : St) (m i : Nat) : Prop :=
  ∃ ps, (s.objs i).link = some ps ∧ ps.map (fun k => (s.mdls m).names[k]?) = (s.objs i).item.params.map some

/-- No model other than `m` holds constraint `i`. -/
def Exclusive (s : St) (m i : Nat) : Prop := ∀ m', m' ≠ m → i ∉ (s.mdls m').cs

/-- A statement that uses the list as intended: constraints about existing parameters, not shared with another model, put at an
existing place, and no change of the order of parameters that a constraint refers to. -/
def Polite (s : St) : Op → Prop
  | .assign m ids => ∀ i ∈ ids, Known s m i ∧ Exclusive s m i
  | .assignFrom m m' => m' = m ∨ (s.mdls m').cs = []
  | .iadd m ids => ∀ i ∈ ids, Known s m i ∧ Exclusive s m i
  | .insert m k i => 0 ≤ k ∧ k ≤ (s.mdls m).cs.length ∧ Known s m i ∧ Exclusive s m i
  | .append m i => Known s m i ∧ Exclusive s m i
  | .setitem m _ i => Known s m i ∧ Exclusive s m i
  | .delitem _ _ => True
  | .reverse _ => True
  | .frame m names => ∀ i ∈ (s.mdls m).cs, ∀ p ∈ (s.objs i).item.params, ∀ k : Nat, (s.mdls m).names[k]? = some p → names[k]? = some p
  | .rescale _ => True

def PoliteRun : St → List Op → Prop
  | _, [] => True
  | s, o :: ops => Polite s o ∧ PoliteRun (s.step o).1 ops

end Larch.ConList
