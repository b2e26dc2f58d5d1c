import Verif.Spec.Graph
import Verif.Model.Nesting

/-!
# What nesting settings say
-/

namespace Larch.Graph

def Cfg.name : Cfg → String
  | .alt a => a
  | .nest n _ _ => n

mutual
/-- Who is listed directly under whom: pairs (nest, listed name), from top to bottom. -/
def Cfg.links : Cfg → List (String × String)
  | .alt _ => []
  | .nest n _ kids => kidLinks n kids

def kidLinks (own : String) : List Cfg → List (String × String)
  | [] => []
  | k :: rest => (own, k.name) :: (k.links ++ kidLinks own rest)
end

mutual
/-- The nests in the settings with their coefficients, the top one included. -/
def Cfg.nests : Cfg → List (String × Option String)
  | .alt _ => []
  | .nest n c kids => (n, c) :: kidNests kids

def kidNests : List Cfg → List (String × Option String)
  | [] => []
  | k :: rest => k.nests ++ kidNests rest
end

mutual
/-- The names that are listed as plain strings. -/
def Cfg.leaves : Cfg → List String
  | .alt a => [a]
  | .nest _ _ kids => kidLeaves kids

def kidLeaves : List Cfg → List String
  | [] => []
  | k :: rest => k.leaves ++ kidLeaves rest
end

/-- Well-formed alternatives and settings: alternatives have different names and codes, none is called `root` or has code 0; the
top of the settings is called `root`; below it the nests have different names, which are neither `root` nor names of
alternatives, and have coefficients; only alternatives are listed as strings.  (An alternative may be listed several times, or
not at all.) -/
structure Sensible (alts : List (String × Int)) (cfg : Cfg) : Prop where
  altNames : (alts.map Prod.fst).Nodup
  altCodes : (alts.map Prod.snd).Nodup
  noRoot : "root" ∉ alts.map Prod.fst
  noZero : (0 : Int) ∉ alts.map Prod.snd
  top : cfg.name = "root"
  isNest : ∀ a, cfg ≠ .alt a
  nestNames : (cfg.nests.map Prod.fst).Nodup
  nestNew : ∀ n ∈ cfg.nests, n.1 ∉ alts.map Prod.fst
  coefs : ∀ n ∈ cfg.nests, n.1 ≠ "root" → n.2 ≠ none
  leaves : ∀ a ∈ cfg.leaves, a ∈ alts.map Prod.fst

end Larch.Graph
