import Verif.Spec.Choice

/-!
# Specification: network GEV (cross-nested) logit

The textbook model on a directed acyclic graph, over real numbers and independent of the kernels.  Nodes are numbered so that
every child has a smaller number than its parents; nodes `0 .. nAlts-1` are the alternatives, `nNodes - 1` is the root.  A child
with several parents is allocated to them by positive shares.
-/

namespace Larch.Spec

open scoped BigOperators
open Classical Larch.Kernel

/-- Shape of a network with the shares and the availability of the alternatives. -/
structure Net where
  nAlts : Nat
  nNodes : Nat
  /-- `child p c`: `c` is directly below `p`. -/
  child : Nat → Nat → Prop
  /-- share of node `c` allocated to parent `p` -/
  share : Nat → Nat → ℝ
  /-- availability of the alternatives -/
  av : Nat → Prop

namespace Net

/-- A nest is available when some child is. -/
def avail (S : Net) (n : Nat) : Prop :=
  if n < S.nAlts then S.av n else ∃ c : Fin n, S.child n c ∧ avail S c
termination_by n
decreasing_by exact c.2

/-- Systematic value of a node: the utility of an alternative, the logsum
`mu * log (∑ exp ((log share + value child) / mu))` over the available children of a nest. -/
noncomputable def value (S : Net) (mu u : Nat → ℝ) (n : Nat) : ℝ :=
  if n < S.nAlts then u n
  else mu n * Real.log (∑ c : Fin n, if S.child n c ∧ S.avail c then
    Real.exp ((Real.log (S.share n c) + value S mu u c) / mu n) else 0)
termination_by n
decreasing_by exact c.2

/-- Denominator of the conditional probabilities inside nest `n`. -/
noncomputable def denom (S : Net) (mu u : Nat → ℝ) (n : Nat) : ℝ :=
  ∑ c : Fin n, if S.child n c ∧ S.avail c then Real.exp ((Real.log (S.share n c) + S.value mu u c) / mu n) else 0

/-- Conditional probability of child `c` given nest `p`. -/
noncomputable def cond (S : Net) (mu u : Nat → ℝ) (p c : Nat) : ℝ :=
  Real.exp ((Real.log (S.share p c) + S.value mu u c) / mu p) / S.denom mu u p

/-- Probability of a node: 1 for the root, otherwise the sum over the parents of their probability times the conditional
probability (0 when unavailable). -/
noncomputable def prob (S : Net) (mu u : Nat → ℝ) (n : Nat) : ℝ :=
  if n + 1 = S.nNodes then 1
  else if S.avail n then
    ∑ k : Fin (S.nNodes - (n + 1)),
      if S.child (n + 1 + k) n then prob S mu u (n + 1 + k) * S.cond mu u (n + 1 + k) n else 0
  else 0
termination_by S.nNodes - n
decreasing_by have := k.2; omega

/-- Log likelihood of one case. -/
noncomputable def loglike (S : Net) (mu u ch : Nat → ℝ) (wt : ℝ) : ℝ :=
  wt * ∑ a ∈ Finset.range S.nAlts, ch a * Real.log (S.prob mu u a)

end Net

/-- Number of parents of a node. -/
noncomputable def nParents (T : Tree) (c : Nat) : Nat := ((Finset.range T.nNodes).filter (fun p => (p, c) ∈ T.edges)).card

/-- The network denoted by tree arrays: a node with several parents is shared equally among them. -/
noncomputable def netOf (T : Tree) (av : Nat → Bool) : Net where
  nAlts := T.nAlts
  nNodes := T.nNodes
  child p c := (p, c) ∈ T.edges
  share _ c := 1 / nParents T c
  av a := av a = true

/-- Well-formed arrays of an acyclic network (nodes may have several parents): as `Tree.WF` without the single-parent
condition. -/
structure Network (T : Tree) : Prop where
  root : T.nAlts < T.nNodes
  edge : ∀ e ∈ T.edges, e.2 < e.1 ∧ T.nAlts ≤ e.1 ∧ e.1 < T.nNodes
  sorted : T.edges.Pairwise (fun a b => a.1 ≤ b.1)
  nodup : T.edges.Nodup
  covered : ∀ n, n + 1 < T.nNodes → ∃ p, (p, n) ∈ T.edges
  slots : ∀ k, T.nAlts + k < T.nNodes → T.start k + T.len k ≤ T.edges.length ∧
    (T.edges.drop (T.start k)).take (T.len k) = T.edges.filter (fun e => e.1 = T.nAlts + k)

/-- In this case the alternatives `A` are offered, with data `x`: for dense data the available ones, for sparse data those
that are available and have a row (at most one row per alternative).  Data of other alternatives is unconstrained. -/
structure Offers (nAlts : Nat) (M : Terms) (C : Case) (A : Nat → Bool) (x : Nat → Nat → ℝ) : Prop where
  dense : C.ce = none → ∀ a < nAlts, A a = C.av a ∧ (A a = true → ∀ t ∈ M.q ++ M.ca, C.ca a t.data = .fin (x a t.data))
  sparse : ∀ rows, C.ce = some rows → (rows.map Prod.fst).Nodup ∧ ∀ a < nAlts,
    (A a = true ↔ C.av a = true ∧ ∃ row, (a, row) ∈ rows) ∧
    ∀ row, (a, row) ∈ rows → A a = true → ∀ t ∈ M.q ++ M.ca, row t.data = .fin (x a t.data)
  co : ∀ t ∈ M.co, t.alt < nAlts ∧ (C.av t.alt = true → ∀ d, t.data = some d → ∃ r, C.co d = .fin r)

/-- Sizes of offered alternatives are positive (vacuous without quantity terms). -/
def Sizes (nAlts : Nat) (M : Terms) (θ : Nat → ℝ) (A : Nat → Bool) (x : Nat → Nat → ℝ) : Prop :=
  M.q ≠ [] → ∀ a < nAlts, A a = true → 0 < size θ M.q (x a)

/-- A nest has at most one parent (alternatives may belong to several nests). -/
def SingleNests (T : Tree) : Prop := ∀ p q c, (p, c) ∈ T.edges → (q, c) ∈ T.edges → T.nAlts ≤ c → p = q

/-- A case of a network logit model: an acyclic network, positive logsum parameters, and the alternatives `A` offered with
data `x` and positive sizes. -/
structure NetworkCase (T : Tree) (M : Terms) (θ : Nat → ℝ) (C : Case) (A : Nat → Bool) (x : Nat → Nat → ℝ) : Prop where
  net : Network T
  mu : ∀ n, T.nAlts ≤ n → n < T.nNodes → 0 < muN T θ n
  offers : Offers T.nAlts M C A x
  sizes : Sizes T.nAlts M θ A x

/-- Probability of node `n` in the network logit model of the case. -/
noncomputable def netProb (T : Tree) (M : Terms) (θ : Nat → ℝ) (C : Case) (A : Nat → Bool) (x : Nat → Nat → ℝ) (n : Nat) : ℝ :=
  (netOf T A).prob (muN T θ) (utility M θ (coReal C) x) n

/-- Logsum of the model: the value of the root. -/
noncomputable def netLogsum (T : Tree) (M : Terms) (θ : Nat → ℝ) (C : Case) (A : Nat → Bool) (x : Nat → Nat → ℝ) : ℝ :=
  (netOf T A).value (muN T θ) (utility M θ (coReal C) x) (T.nNodes - 1)

/-- Log likelihood of the case. -/
noncomputable def netLoglike (T : Tree) (M : Terms) (θ : Nat → ℝ) (C : Case) (A : Nat → Bool) (x : Nat → Nat → ℝ) : ℝ :=
  (netOf T A).loglike (muN T θ) (utility M θ (coReal C) x) C.ch C.wt

end Larch.Spec
