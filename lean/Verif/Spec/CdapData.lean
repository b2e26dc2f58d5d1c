import Verif.Model.CdapData
import Verif.Spec.Cdap

/-!
# What the tables of households hold
-/

namespace Larch.CdapData.Spec

open Larch.CdapData

/-- A survey: no household and no rank in a household twice, ranks from 1, in every household someone with each rank up to its size (or up
to five), nobody with a rank above its size. -/
structure Survey (hhs : List (Int × Int)) (ps : List Person) : Prop where
  households : (hhs.map Prod.fst).Nodup
  ranks : (ps.map (fun p => (p.hh, p.rank))).Nodup
  from_one : ∀ p ∈ ps, 1 ≤ p.rank
  complete : ∀ h ∈ hhs, ∀ k : Int, 1 ≤ k → k ≤ max 1 (min h.2 5) → ∃ p ∈ ps, p.hh = h.1 ∧ p.rank = k
  sized : ∀ h ∈ hhs, ∀ p ∈ ps, p.hh = h.1 → p.rank ≤ max 1 h.2

/-- The household has the size for the table of `c` persons (households of more than five are taken as five). -/
def SizeIs (hhs : List (Int × Int)) (id c : Int) : Prop := ∃ s, (id, s) ∈ hhs ∧ max 1 (min s 5) = c

end Larch.CdapData.Spec
