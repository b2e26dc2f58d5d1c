import Verif.Model.Kernel

/-!
# The compiled (Cython) kernels for one case

Model of the utility assembly of `larch/dataframes.pyx` lines 2354-2465 and 2468-2553, of the multinomial logit
kernel `larch/model/mnl.pyx` lines 80-163, 279-294, 400-458, of the nested/network logit kernel `larch/model/nl.pyx`
lines 50-257, 322-391 and of `larch/model/tree.py` lines 910-957 (`_get_simple_mu_and_alpha`), for one case.  The loops
over cases, threads and storage are modelled in `Verif.Model.Cases`.

Values are `Larch.X` (`cdivision=True` gives IEEE division); the inputs (`Terms`, `Case`, `Tree`) are the types used for
the numba kernel, so that both engines can be run on the same case.
-/

namespace Larch.Compiled

open Function Larch Larch.Kernel

noncomputable instance : DecidableEq X := fun _ _ => Classical.propDecidable _

/-! ## Utility assembly (`larch/dataframes.pyx`) -/

/-- `_array_ce_reversemap[c, j]`, `larch/dataframes.pyx:1657-1661`: rows are entered in storage order, a later row
replaces an earlier one; `none` stands for `-1`. -/
def reverseMap (rows : List (Nat × (Nat → X))) : Nat → Option (Nat → X) :=
  rows.foldl (fun m r => update m r.1 (some r.2)) (fun _ => none)

/-- The data row used for alternative `j`: `array_ce[row]` when there is sparse data and the row exists, `none` when it
does not, `array_ca[c, j]` otherwise.  `larch/dataframes.pyx:2398-2411`. -/
def rowOf (C : Case) (j : Nat) : Option (Nat → X) :=
  match C.ce with
  | some rows => reverseMap rows j
  | none => some (C.ca j)

/-- First quantity loop, `larch/dataframes.pyx:2407-2415`; the stored parameter value is `exp(theta)`
(`2261-2263`), the holdfast flag of the term is that of its parameter (`2266`). -/
noncomputable def qAdd (θ : Nat → ℝ) (hold : Nat → Bool) (sc : ℝ) (row : Nat → X) (j : Nat) (s : UState) (t : CaTerm) :
    UState :=
  let temp := row t.data * (X.exp (.fin (θ t.param)) * .fin t.scale)
  { U := addAt s.U j temp
    dU := if hold t.param then s.dU else addAt2 s.dU j t.param (temp * .fin sc) }

/-- Second quantity loop, `larch/dataframes.pyx:2417-2419`. -/
noncomputable def qDiv (hold : Nat → Bool) (j : Nat) (U : Arr) (dU : Arr2) (t : CaTerm) : Arr2 :=
  if hold t.param then dU else set2 dU j t.param (dU j t.param / U j)

/-- `model_quantity_scale_param_value`, `larch/dataframes.pyx:2268-2273`. -/
def scaleValue (θ : Nat → ℝ) : Option Nat → ℝ
  | some s => θ s
  | none => 1

/-- The quantity part for alternative `j`, `larch/dataframes.pyx:2406-2429`. -/
noncomputable def quantity (θ : Nat → ℝ) (hold : Nat → Bool) (M : Terms) (row : Nat → X) (j : Nat) (s : UState) : UState :=
  if M.q.isEmpty then s
  else
    let sc := scaleValue θ M.qScale
    let s1 := M.q.foldl (qAdd θ hold sc row j) s
    let dU2 := M.q.foldl (qDiv hold j s1.U) s1.dU
    let temp := X.log (s1.U j)
    { U := update s1.U j (temp * .fin sc)
      dU := match M.qScale with
        | some p => if hold p then dU2 else addAt2 dU2 j p temp
        | none => dU2 }

/-- The utility_ca loop for alternative `j`, `larch/dataframes.pyx:2431-2439`. -/
noncomputable def caAdd (θ : Nat → ℝ) (hold : Nat → Bool) (row : Nat → X) (j : Nat) (s : UState) (t : CaTerm) : UState :=
  let temp := row t.data * .fin t.scale
  { U := addAt s.U j (temp * .fin (θ t.param))
    dU := if hold t.param then s.dU else addAt2 s.dU j t.param temp }

/-- One alternative of the first loop, `larch/dataframes.pyx:2396-2441`. -/
noncomputable def altStep (θ : Nat → ℝ) (hold : Nat → Bool) (M : Terms) (C : Case) (s : UState) (j : Nat) : UState :=
  if C.av j then
    match rowOf C j with
    | some row => M.ca.foldl (caAdd θ hold row j) (quantity θ hold M row j s)
    | none => { s with U := update s.U j .ninf }
  else { s with U := update s.U j .ninf }

/-- The utility_co loop, `larch/dataframes.pyx:2443-2455`. -/
noncomputable def coAdd (θ : Nat → ℝ) (hold : Nat → Bool) (C : Case) (s : UState) (t : CoTerm) : UState :=
  if C.av t.alt then
    match t.data with
    | none =>
      { U := addAt s.U t.alt (.fin (θ t.param) * .fin t.scale)
        dU := if hold t.param then s.dU else addAt2 s.dU t.alt t.param (.fin t.scale) }
    | some d =>
      let temp := C.co d * .fin t.scale
      { U := addAt s.U t.alt (temp * .fin (θ t.param))
        dU := if hold t.param then s.dU else addAt2 s.dU t.alt t.param temp }
  else s

/-- The largest utility (at least 0), `larch/dataframes.pyx:2457-2460`. -/
noncomputable def maxU (nAlts : Nat) (U : Arr) : X :=
  (List.range nAlts).foldl (fun m j => if X.gt (U j) m then U j else m) 0

/-- The overflow guard: "Keep exp(U) from generating overflow", `larch/dataframes.pyx:2457-2463`. -/
noncomputable def guardU (nAlts : Nat) (U : Arr) : Arr :=
  if X.gt (maxU nAlts U) (.fin 500) then
    (List.range nAlts).foldl (fun V j => update V j (V j - maxU nAlts U)) U
  else U

/-- Utilities and gradients before the overflow guard, `larch/dataframes.pyx:2390-2455`. -/
noncomputable def rawUtility (θ : Nat → ℝ) (hold : Nat → Bool) (nAlts : Nat) (M : Terms) (C : Case) : UState :=
  M.co.foldl (coAdd θ hold C)
    ((List.range nAlts).foldl (altStep θ hold M C) { U := fun _ => 0, dU := fun _ _ => 0 })

/-- `_compute_d_utility_onecase`, `larch/dataframes.pyx:2354-2463`; `_compute_utility_onecase` (`2468-2553`) is the same
computation without `dU`. -/
noncomputable def assemble (θ : Nat → ℝ) (hold : Nat → Bool) (nAlts : Nat) (M : Terms) (C : Case) : UState :=
  let s := rawUtility θ hold nAlts M C
  { s with U := guardU nAlts s.U }

/-! ## Multinomial logit (`larch/model/mnl.pyx`) -/

/-- The smallest utility that is not taken for `-inf`, `larch/model/mnl.pyx:92`. -/
noncomputable def tiny : ℝ := -(3402823 * 10 ^ 32)

/-- `exp_utility[i]`, `larch/model/mnl.pyx:91-96`. -/
noncomputable def expU (U : Arr) : Arr := fun i => if X.gt (.fin tiny) (U i) then 0 else X.exp (U i)

/-- `sum_expU`, `larch/model/mnl.pyx:91-96` (nothing is added for an alternative below the threshold). -/
noncomputable def sumExpU (nAlts : Nat) (U : Arr) : X :=
  (List.range nAlts).foldl (fun s i => if X.gt (.fin tiny) (U i) then s else s + X.exp (U i)) 0

/-- `_mnl_probability_from_utility`, `larch/model/mnl.pyx:80-107`. -/
noncomputable def mnlProb (nAlts : Nat) (U : Arr) : Arr := fun i =>
  if sumExpU nAlts U = 0 then 0 else expU U i / sumExpU nAlts U

/-- `_mnl_logsum_from_utility`, `larch/model/mnl.pyx:110-130`. -/
noncomputable def mnlLogsum (nAlts : Nat) (U : Arr) : X :=
  let s := (List.range nAlts).foldl (fun s i => if X.gt (U i) (.fin tiny) then s + X.exp (U i) else s) 0
  if s = 0 then .ninf else X.log s

/-- `_mnl_logsum_from_utility_MU`, `larch/model/mnl.pyx:132-163`. -/
noncomputable def mnlLogsumMu (nAlts : Nat) (U : Arr) (mu : ℝ) : X :=
  if mu = 0 then (List.range nAlts).foldl (fun m i => if X.gt (U i) m then U i else m) .ninf
  else
    let s := (List.range nAlts).foldl (fun s i => if X.gt (U i) (.fin tiny) then s + X.exp (U i / .fin mu) else s) 0
    if s = 0 then .ninf else X.log s * .fin mu

/-- `logsums()` for a multinomial logit model, one case: `larch/model/controller.pyx:943-951` and
`larch/model/mnl.pyx:730-749`; `mu = none` is an absent `logsum_parameter`. -/
noncomputable def mnlLogsums (θ : Nat → ℝ) (hold : Nat → Bool) (nAlts : Nat) (M : Terms) (C : Case) (mu : Option Nat) : X :=
  let U := (assemble θ hold nAlts M C).U
  let m := match mu with
    | some s => θ s
    | none => 1
  if m = 1 then mnlLogsum nAlts U else mnlLogsumMu nAlts U m

/-- `_mnl_log_likelihood_from_probability_stride`, `larch/model/mnl.pyx:279-294`. -/
noncomputable def caseLL (n : Nat) (P : Arr) (ch : Nat → ℝ) : X :=
  (List.range n).foldl (fun ll i => if ch i ≠ 0 then ll + X.log (P i) * .fin (ch i) else ll) 0

/-- Outputs of the gradient loop: the case gradient and the BHHH contribution.  The running totals `d_loglike_cum` and
`bhhh_cum` receive the same terms; they are modelled starting from zero for the case. -/
structure Grad where
  dll : Arr
  bhhh : Arr2

/-- The loop over `i` and `v` for chosen alternative `a`, `larch/model/mnl.pyx:437-446`: (`dLL_temp`, `d_loglike`). -/
noncomputable def mnlInner (nAlts : Nat) (a : Nat) (thisCh : ℝ) (P : Arr) (dU : Arr2) (dll : Arr) : Arr × Arr :=
  (List.range nAlts).foldl (fun st i =>
    let t := (if i = a then (1 : X) else 0) - P i
    if t = 0 then st
    else (fun v => st.1 v + dU i v * t, fun v => st.2 v + dU i v * t * .fin thisCh))
    (fun _ => 0, dll)

/-- `_mnl_d_log_likelihood_from_d_utility`, `larch/model/mnl.pyx:400-458` (the caller also skips zero weights,
`larch/model/mnl.pyx:604`). -/
noncomputable def mnlGrad (nAlts : Nat) (ch : Nat → ℝ) (wt : ℝ) (P : Arr) (dU : Arr2) : Grad :=
  if wt = 0 then ⟨fun _ => 0, fun _ _ => 0⟩
  else (List.range nAlts).foldl (fun g a =>
    let thisCh := ch a * wt
    if thisCh = 0 then g
    else
      let r := mnlInner nAlts a thisCh P dU g.dll
      { dll := r.2, bhhh := fun v v2 => g.bhhh v v2 + r.1 v * r.1 v2 * .fin thisCh })
    ⟨fun _ => 0, fun _ _ => 0⟩

/-- Results for one case. -/
structure Result where
  utility : Arr
  probability : Arr
  dprobability : Arr2
  ll : X
  dll : Arr
  bhhh : Arr2

/-- One case of `mnl_d_log_likelihood_from_dataframes_all_rows`, `larch/model/mnl.pyx:567-625`.  (The multinomial kernel
does not compute `dprobability`; the field is zero here.) -/
noncomputable def mnlCase (nAlts : Nat) (M : Terms) (hold : Nat → Bool) (θ : Nat → ℝ) (C : Case) : Result :=
  let s := assemble θ hold nAlts M C
  let P := mnlProb nAlts s.U
  let g := mnlGrad nAlts C.ch C.wt P s.dU
  { utility := s.U, probability := P, dprobability := fun _ _ => 0, ll := caseLL nAlts P C.ch * .fin C.wt,
    dll := g.dll, bhhh := g.bhhh }

/-! ## Nested and network logit (`larch/model/nl.pyx`) -/

/-- `model_mu_param_values[n]`, `larch/model/tree.py:927-931`: the value of the node's parameter, 1 without one.
Alternatives are taken to have no parameter. -/
def muOf (T : Tree) (θ : Nat → ℝ) (n : Nat) : ℝ :=
  if n < T.nAlts then 1
  else match T.muSlot (n - T.nAlts) with
    | some s => θ s
    | none => 1

/-- `model_mu_param_slots[n]`, `larch/model/tree.py:932` with `larch/model/parameter_frame.pyx:506-515`: no slot for a
parameter held fast. -/
def slotOf (T : Tree) (hold : Nat → Bool) (n : Nat) : Option Nat :=
  if n < T.nAlts then none
  else match T.muSlot (n - T.nAlts) with
    | some s => if hold s then none else some s
    | none => none

/-- `edge_alpha_values[e]`, `larch/model/tree.py:948-950`: one over the number of parents of the child. -/
noncomputable def alpha (T : Tree) (e : Nat × Nat) : ℝ := 1 / (T.edges.filter (fun x => x.2 = e.2)).length

/-- `edge_logalpha_values[e]`, `larch/model/tree_struct.pyx:18`. -/
noncomputable def logalpha (T : Tree) (e : Nat × Nat) : ℝ := Real.log (alpha T e)

/-- The edges out of node `n`: `first_edge_for_up[n] + k for k in range(n_edges_for_up[n])`, `larch/model/nl.pyx:79-81`. -/
def outEdges (T : Tree) (n : Nat) : List (Nat × Nat) :=
  (List.range (T.len (n - T.nAlts))).map (fun k => T.edges.getD (T.start (n - T.nAlts) + k) (0, 0))

/-- `z`, `larch/model/nl.pyx:84`, `99`. -/
noncomputable def zOf (T : Tree) (mu : ℝ) (U : Arr) (e : Nat × Nat) : X := (.fin (logalpha T e) + U e.2) / .fin mu

/-- Search for the shifter, `larch/model/nl.pyx:79-87`; it starts at `-1e100` with no position. -/
noncomputable def shiftStep (T : Tree) (mu : ℝ) (U : Arr) (s : X × Option Nat) (e : Nat × Nat) : X × Option Nat :=
  if X.gt (U e.2) .ninf then
    if 0 < alpha T e then
      if X.gt (zOf T mu U e) s.1 then (zOf T mu U e, some e.2) else s
    else s
  else s

/-- Accumulation, `larch/model/nl.pyx:91-100`. -/
noncomputable def expStep (T : Tree) (up : Nat) (mu : ℝ) (sh : X × Option Nat) (U : Arr) (e : Nat × Nat) : Arr :=
  if X.gt (U e.2) .ninf then
    if 0 < alpha T e then
      if sh.2 = some e.2 then addAt U up 1
      else addAt U up (X.exp (zOf T mu U e - sh.1))
    else U
  else U

/-- One nest of `_nl_utility_upstream_v2`, `larch/model/nl.pyx:70-102`. -/
noncomputable def nestStep (T : Tree) (θ : Nat → ℝ) (U : Arr) (up : Nat) : Arr :=
  let mu := muOf T θ up
  let U0 := update U up 0
  let sh := (outEdges T up).foldl (shiftStep T mu U0) (.fin (-(10 ^ 100)), none)
  let U1 := (outEdges T up).foldl (expStep T up mu sh) U0
  update U1 up ((X.log (U1 up) + sh.1) * .fin mu)

/-- `_nl_utility_upstream_v2`, `larch/model/nl.pyx:50-102`. -/
noncomputable def upPass (T : Tree) (θ : Nat → ℝ) (U : Arr) : Arr :=
  (List.range' T.nAlts (T.nNodes - T.nAlts)).foldl (nestStep T θ) U

/-- `conditional_logprobability[edge]`, `larch/model/nl.pyx:108-141`; an array over edges, each entry depending on its edge
only. -/
noncomputable def condLog (T : Tree) (θ : Nat → ℝ) (U : Arr) (e : Nat × Nat) : X :=
  let mu := muOf T θ e.1
  let x : X :=
    if U e.1 = .ninf then .ninf
    else if mu ≠ 0 then (U e.2 - U e.1) / .fin mu
    else if U e.2 = U e.1 ∧ U e.2 ≠ .nan then 0
    else .ninf
  if alpha T e ≠ 1 then x + .fin (logalpha T e) / .fin mu else x

/-- `_nl_total_probability_from_conditional_logprobability`, `larch/model/nl.pyx:370-391`. -/
noncomputable def probPass (T : Tree) (cl : Nat × Nat → X) : Arr :=
  T.edges.reverse.foldl (fun P e => if P e.1 ≠ 0 then addAt P e.2 (X.exp (cl e) * P e.1) else P)
    (update (fun _ => 0) (T.nNodes - 1) 1)

/-- The child's own entry, `larch/model/nl.pyx:355-358`. -/
noncomputable def dUOwn (T : Tree) (θ : Nat → ℝ) (hold : Nat → Bool) (U : Arr) (dU : Arr2) (c : Nat) : Arr2 :=
  if T.nAlts ≤ c then
    match slotOf T hold c with
    | some s => set2 dU c s ((dU c s + U c) / .fin (muOf T θ c))
    | none => dU
  else dU

/-- The parent's entry, `larch/model/nl.pyx:360-364`. -/
noncomputable def dUMu (T : Tree) (θ : Nat → ℝ) (hold : Nat → Bool) (U : Arr) (cp : X) (dU : Arr2) (e : Nat × Nat) : Arr2 :=
  match slotOf T hold e.1 with
  | some s =>
    if alpha T e = 1 then addAt2 dU e.1 s (-(cp * U e.2))
    else addAt2 dU e.1 s (-(cp * (U e.2 + .fin (muOf T θ e.2) * .fin (logalpha T e))))
  | none => dU

/-- One edge of `_nl_d_utility_upstream_v2`, `larch/model/nl.pyx:347-367`. -/
noncomputable def dUStep (T : Tree) (θ : Nat → ℝ) (hold : Nat → Bool) (U : Arr) (cl : Nat × Nat → X) (dU : Arr2)
    (e : Nat × Nat) : Arr2 :=
  if X.gt (cl e) .ninf then
    let cp := X.exp (cl e)
    let d2 := dUMu T θ hold U cp (dUOwn T θ hold U dU e.2) e
    update d2 e.1 (fun p => d2 e.1 p + cp * d2 e.2 p)
  else dU

/-- `_nl_d_utility_upstream_v2`, `larch/model/nl.pyx:322-367`: the nests' rows are cleared first. -/
noncomputable def dUPass (T : Tree) (θ : Nat → ℝ) (hold : Nat → Bool) (U : Arr) (cl : Nat × Nat → X) (dU : Arr2) : Arr2 :=
  T.edges.foldl (dUStep T θ hold U cl) (fun n p => if T.nAlts ≤ n ∧ n < T.nNodes then 0 else dU n p)

/-- `scratch[param]` for one edge, `larch/model/nl.pyx:187-207`. -/
noncomputable def scratch (T : Tree) (θ : Nat → ℝ) (hold : Nat → Bool) (U P : Arr) (dU : Arr2) (e : Nat × Nat) (p : Nat) : X :=
  let mu := muOf T θ e.1
  let s0 := dU e.2 p - dU e.1 p
  if mu ≠ 0 then
    let s1 := if slotOf T hold e.1 = some p then
        (if alpha T e ≠ 1 then s0 + (U e.1 - U e.2) / .fin mu - .fin (logalpha T e) / .fin mu
         else s0 + (U e.1 - U e.2) / .fin mu)
      else s0
    s1 * (P e.1 / .fin mu)
  else s0 * 0

/-- `_nl_d_probability_from_d_utility`, `larch/model/nl.pyx:146-208`.  (The choice array it accumulates upward is not
used: the test is `if True or array_ch[child]`.) -/
noncomputable def dPPass (T : Tree) (θ : Nat → ℝ) (hold : Nat → Bool) (U P : Arr) (cl : Nat × Nat → X) (dU : Arr2) : Arr2 :=
  T.edges.reverse.foldl (fun dP e =>
    update dP e.2 (fun p => dP e.2 p + (scratch T θ hold U P dU e p + dP e.1 p) * X.exp (cl e))) (fun _ _ => 0)

/-- `_nl_d_loglike_from_d_probability`, `larch/model/nl.pyx:211-257`. -/
noncomputable def nlGrad (n : Nat) (ch : Nat → ℝ) (wt : ℝ) (P : Arr) (dP : Arr2) : Grad :=
  (List.range n).foldl (fun g a =>
    if ch a = 0 then g
    else if X.gt (P a) 0 then
      let t : Arr := fun p => dP a p * (.fin (ch a) / P a)
      let d : Arr := fun p => t p / .fin (ch a)
      { dll := fun p => g.dll p + t p * .fin wt
        bhhh := fun p q => g.bhhh p q + d p * d q * .fin (ch a) * .fin wt }
    else g) ⟨fun _ => 0, fun _ _ => 0⟩

/-- One case of `nl_d_log_likelihood_from_dataframes_all_rows`, `larch/model/nl.pyx:524-640`, with choices given for the
alternatives (`choice_width == n_alts`); the utility array is zeroed beyond the alternatives (`larch/dataframes.pyx:2391`). -/
noncomputable def nlCase (T : Tree) (M : Terms) (hold : Nat → Bool) (θ : Nat → ℝ) (C : Case) : Result :=
  let s := assemble θ hold T.nAlts M C
  let U := upPass T θ s.U
  let cl := condLog T θ U
  let P := probPass T cl
  let dU := dUPass T θ hold U cl s.dU
  let dP := dPPass T θ hold U P cl dU
  let g := if C.wt = 0 then ⟨fun _ => 0, fun _ _ => 0⟩ else nlGrad T.nAlts C.ch C.wt P dP
  { utility := U, probability := P, dprobability := dP, ll := caseLL T.nAlts P C.ch * .fin C.wt,
    dll := g.dll, bhhh := g.bhhh }

/-- `logsums()` for a nested or network logit model, one case: the utility of the last node,
`larch/model/controller.pyx:952-953`. -/
noncomputable def nlLogsum (T : Tree) (M : Terms) (hold : Nat → Bool) (θ : Nat → ℝ) (C : Case) : X :=
  (nlCase T M hold θ C).utility (T.nNodes - 1)

end Larch.Compiled
