import Verif.Model.Group

/-! # What a model group promises -/

namespace Larch.Spec

open Larch.Params Larch.Group

/-- The value a frame gives to a name. -/
def HasValue (f : Frame) (n : String) (v : X) : Prop := ∃ r, rowOf f.rows n = some r ∧ r.value = v

/-- The parameter is held fast in this frame. -/
def Held (f : Frame) (n : String) : Prop := ∃ r, rowOf f.rows n = some r ∧ r.holdfast ≠ some 0

/-- Every parameter of every member exists in the group, and has the group's value unless the member holds it fast. -/
def Shared (g : MGroup) : Prop :=
  ∀ k ∈ g.members, ∀ n ∈ k.frame.names, n ∈ g.frame.names ∧
    (¬ Held k.frame n → ∀ v, HasValue g.frame n v → HasValue k.frame n v)

/-- Parameter names are unique in every frame (pandas index built by the API, C20). -/
def Unique (g : MGroup) : Prop := g.frame.names.Nodup ∧ ∀ k ∈ g.members, k.frame.names.Nodup

end Larch.Spec
