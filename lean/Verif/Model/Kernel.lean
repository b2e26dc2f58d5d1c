import Verif.Model.Ext
import Mathlib.Logic.Function.Basic

/-!
# The numba kernel for one case

Model of `larch/numba/model.py` lines 54-231 (utility assembly), 263-500 (`_numba_utility_to_loglike`),
516-655 (`_numba_master`) and of `larch/numba/cascading.py` lines 5-15, for one case (the gufunc runs the
kernel independently on every case).

Arrays are functions from index to value; an array write is `Function.update`.  Loops are folds over the
same index sequence as the source.  Values are `Larch.X` (see `Verif.Model.Ext`).
-/

namespace Larch.Kernel

open Function

/-- An array of floats indexed by node slot. -/
abbrev Arr := Nat → X
/-- A two dimensional float array `[slot, param]`. -/
abbrev Arr2 := Nat → Nat → X

/-- `a[i] += v` -/
noncomputable def addAt (a : Arr) (i : Nat) (v : X) : Arr := update a i (a i + v)

/-- `a[i, p] = v` -/
noncomputable def set2 (a : Arr2) (i p : Nat) (v : X) : Arr2 := update a i (update (a i) p v)

/-- `a[i, p] += v` -/
noncomputable def addAt2 (a : Arr2) (i p : Nat) (v : X) : Arr2 := set2 a i p (a i p + v)

/-- A utility_co term: the four parallel `model_utility_co_*` arrays, `larch/numba/model.py:56-59`;
`data = none` stands for the code's `-1`. -/
structure CoTerm where
  alt : Nat
  scale : ℝ
  param : Nat
  data : Option Nat

/-- A utility_ca or quantity_ca term: the three parallel arrays of `larch/numba/model.py:86-88` and
`178-180`. -/
structure CaTerm where
  scale : ℝ
  param : Nat
  data : Nat

/-- The model specification arrays passed to the kernel (`larch/numba/model.py:516-540`): quantity terms,
quantity scale slot (`none` for a negative slot), utility_ca terms, utility_co terms. -/
structure Terms where
  q : List CaTerm
  qScale : Option Nat
  ca : List CaTerm
  co : List CoTerm

/-- The nesting-tree arrays passed to the kernel: `edgeslots` columns 0 and 1 (`larch/numba/model.py:286-287`),
`mu_slots`, `start_slots`, `len_slots` (`267-269`).  `none` models a negative mu slot.  `start` is a natural
number: the code's `-1` only occurs together with `len = 0`, when it is never read. -/
structure Tree where
  nAlts : Nat
  nNodes : Nat
  edges : List (Nat × Nat)
  muSlot : Nat → Option Nat
  start : Nat → Nat
  len : Nat → Nat

/-- Well-formed tree arrays (what `NestingTree.edge_slot_arrays` and `node_slot_arrays`,
`larch/model/tree.py:440-463, 877-908`, produce for a nesting *tree*; see C15): children have smaller slots
than parents, edges are grouped by ascending parent slot, every node except the last (the root) is the child
end of exactly one edge, and `start`/`len` delimit the out-edges of each nest. -/
structure Tree.WF (T : Tree) : Prop where
  root : T.nAlts < T.nNodes
  edge : ∀ e ∈ T.edges, e.2 < e.1 ∧ T.nAlts ≤ e.1 ∧ e.1 < T.nNodes
  sorted : T.edges.Pairwise (fun a b => a.1 ≤ b.1)
  oneParent : (T.edges.map Prod.snd).Nodup
  covered : ∀ n, n + 1 < T.nNodes → ∃ p, (p, n) ∈ T.edges
  slots : ∀ k, T.nAlts + k < T.nNodes → T.start k + T.len k ≤ T.edges.length ∧
    (T.edges.drop (T.start k)).take (T.len k) = T.edges.filter (fun e => e.1 = T.nAlts + k)

/-- The data of one case: `array_ch` and `array_av` restricted to alternatives (cascaded below), weight,
idco values, dense idca values, and - when the data is sparse (`array_ce_data.shape[0] > 0`) - the rows of
this case in storage order as (alternative index, values).  `larch/numba/model.py:537-549`. -/
structure Case where
  ch : Nat → ℝ
  av : Nat → Bool
  wt : ℝ
  co : Nat → X
  ca : Nat → Nat → X
  ce : Option (List (Nat × (Nat → X)))

/-- Utility and its gradient, the two output arrays of the utility assembly functions. -/
structure UState where
  U : Arr
  dU : Arr2

/-! ## Utility assembly -/

/-- Body of the loop of `utility_from_data_co`, `larch/numba/model.py:67-80`. -/
noncomputable def coStep (θ : Nat → ℝ) (hold : Nat → Bool) (av : Nat → Bool) (co : Nat → X)
    (s : UState) (t : CoTerm) : UState :=
  if av t.alt then
    match t.data with
    | none =>
      { U := addAt s.U t.alt (.fin (θ t.param) * .fin t.scale)
        dU := if hold t.param then s.dU else addAt2 s.dU t.alt t.param (.fin t.scale) }
    | some d =>
      let temp := co d * .fin t.scale
      { U := addAt s.U t.alt (temp * .fin (θ t.param))
        dU := if hold t.param then s.dU else addAt2 s.dU t.alt t.param temp }
  else s

/-- `utility_from_data_co`, `larch/numba/model.py:54-80`. -/
noncomputable def utilityCo (θ : Nat → ℝ) (hold : Nat → Bool) (av : Nat → Bool) (co : Nat → X)
    (terms : List CoTerm) (s : UState) : UState :=
  terms.foldl (coStep θ hold av co) s

/-- Inner loop body of `utility_from_data_ca` for alternative slot `j` with data row `row`,
`larch/numba/model.py:201-206` (sparse) and `220-228` (dense; `row >= 0` never holds there). -/
noncomputable def caStep (θ : Nat → ℝ) (hold : Nat → Bool) (row : Nat → X) (j : Nat)
    (s : UState) (t : CaTerm) : UState :=
  let temp := row t.data * .fin t.scale
  { U := addAt s.U j (temp * .fin (θ t.param))
    dU := if hold t.param then s.dU else addAt2 s.dU j t.param temp }

/-- The `while array_ce_indices[row] > j` (or `while n_alts > j`) loop: write `v` to slots `j .. stop-1`
and advance `j`.  `larch/numba/model.py:112-115, 137-140, 196-199, 208-211`. -/
noncomputable def skipTo (v : X) (stop : Nat) (st : UState × Nat) : UState × Nat :=
  ({ st.1 with U := (List.range' st.2 (stop - st.2)).foldl (fun U k => update U k v) st.1.U },
   max st.2 stop)

/-- The sparse (idce) row loop shared by `quantity_from_data_ca` (`larch/numba/model.py:110-140`) and
`utility_from_data_ca` (`194-211`): `v` is the filler for skipped alternatives, `body row j` handles one row. -/
noncomputable def sparseLoop (v : X) (nAlts : Nat) (body : (Nat → X) → Nat → UState → UState)
    (rows : List (Nat × (Nat → X))) (s : UState) : UState :=
  let st := rows.foldl (fun st r =>
    let st' := skipTo v r.1 st
    (body r.2 st'.2 st'.1, st'.2 + 1)) (s, 0)
  (skipTo v nAlts st).1

/-- The dense loop shared by both functions (`larch/numba/model.py:143-174`, `214-230`). -/
noncomputable def denseLoop (nAlts : Nat) (av : Nat → Bool) (ca : Nat → Nat → X)
    (body : (Nat → X) → Nat → UState → UState) (s : UState) : UState :=
  (List.range nAlts).foldl (fun s j =>
    if av j then body (ca j) j s else { s with U := update s.U j .ninf }) s

/-- `utility_from_data_ca`, `larch/numba/model.py:176-230`. -/
noncomputable def utilityCa (θ : Nat → ℝ) (hold : Nat → Bool) (nAlts : Nat) (C : Case)
    (terms : List CaTerm) (s : UState) : UState :=
  match C.ce with
  | some rows => sparseLoop .ninf nAlts (fun row j s => terms.foldl (caStep θ hold row j) s) rows s
  | none => denseLoop nAlts C.av C.ca (fun row j s => terms.foldl (caStep θ hold row j) s) s

/-- `scale_param_value`, `larch/numba/model.py:102-107`. -/
def qScaleValue (θ : Nat → ℝ) : Option Nat → ℝ
  | some s => θ s
  | none => 1

/-- First inner loop of the quantity computation (accumulate sizes), `larch/numba/model.py:117-125`,
`150-161`. -/
noncomputable def qStep (θ : Nat → ℝ) (hold : Nat → Bool) (sc : ℝ) (row : Nat → X) (j : Nat)
    (s : UState) (t : CaTerm) : UState :=
  let temp := row t.data * .fin t.scale * X.exp (.fin (θ t.param))
  { U := addAt s.U j temp
    dU := if hold t.param then s.dU else addAt2 s.dU j t.param (temp * .fin sc) }

/-- Second inner loop (divide by total size), `larch/numba/model.py:127-129`, `163-165`. -/
noncomputable def qDivStep (hold : Nat → Bool) (j : Nat) (U : Arr) (dU : Arr2) (t : CaTerm) : Arr2 :=
  if hold t.param then dU else set2 dU j t.param (dU j t.param / U j)

/-- The quantity computation for one alternative, `larch/numba/model.py:116-134`, `149-170`. -/
noncomputable def qBody (θ : Nat → ℝ) (hold : Nat → Bool) (terms : List CaTerm) (qScale : Option Nat)
    (row : Nat → X) (j : Nat) (s : UState) : UState :=
  if terms.isEmpty then s
  else
    let sc := qScaleValue θ qScale
    let s1 := terms.foldl (qStep θ hold sc row j) s
    let dU2 := terms.foldl (qDivStep hold j s1.U) s1.dU
    let tempsize := X.log (s1.U j)
    { U := update s1.U j (tempsize * .fin sc)
      dU := match qScale with
        | some p => if hold p then dU2 else addAt2 dU2 j p tempsize
        | none => dU2 }

/-- `quantity_from_data_ca`, `larch/numba/model.py:84-174`. -/
noncomputable def quantityCa (θ : Nat → ℝ) (hold : Nat → Bool) (nAlts : Nat) (C : Case)
    (M : Terms) (s : UState) : UState :=
  match C.ce with
  | some rows => sparseLoop 0 nAlts (qBody θ hold M.q M.qScale) rows s
  | none => denseLoop nAlts C.av C.ca (qBody θ hold M.q M.qScale) s

/-- The utility assembly part of `_numba_master` (`larch/numba/model.py:573-631`): zero the arrays, then
quantity, utility_ca, utility_co.  This is what `only_utility == 1` returns. -/
noncomputable def assemble (θ : Nat → ℝ) (hold : Nat → Bool) (nAlts : Nat) (M : Terms) (C : Case) :
    UState :=
  utilityCo θ hold C.av C.co M.co
    (utilityCa θ hold nAlts C M.ca
      (quantityCa θ hold nAlts C M { U := fun _ => 0, dU := fun _ _ => 0 }))

/-! ## From utilities to log likelihood -/

/-- `mu_up`, `larch/numba/model.py:306-309`; `k` is the nest index `up - n_alts`. -/
def muOf (T : Tree) (θ : Nat → ℝ) (k : Nat) : ℝ :=
  match T.muSlot k with
  | none => 1
  | some s => θ s

/-- The child slots visited for nest `k`: `dnslots[start_slots[k] + n] for n in range(len_slots[k])`,
`larch/numba/model.py:311-314`.  (An out-of-range index reads slot 0; excluded by `Tree.WF`.) -/
def childSlots (T : Tree) (k : Nat) : List Nat :=
  (List.range (T.len k)).map (fun n => (T.edges.getD (T.start k + n) (0, 0)).2)

/-- Search for the largest scaled utility, `larch/numba/model.py:312-319`. -/
noncomputable def shiftStep (U : Arr) (mu : ℝ) (s : X × Option Nat) (dn : Nat) : X × Option Nat :=
  if X.gt (U dn) .ninf then
    let z := U dn / .fin mu
    if X.gt z s.1 then (z, some dn) else s
  else s

/-- Accumulation of shifted exponentials into `utility[up]`, `larch/numba/model.py:326-333`. -/
noncomputable def expStep (up : Nat) (mu : ℝ) (sh : X × Option Nat) (U : Arr) (dn : Nat) : Arr :=
  if X.gt (U dn) .ninf then
    if sh.2 = some dn then addAt U up 1
    else addAt U up (X.exp (U dn / .fin mu - sh.1))
  else U

/-- The `mu_up` is zero branch, `larch/numba/model.py:341-346`. -/
noncomputable def maxStep (up : Nat) (U : Arr) (dn : Nat) : Arr :=
  if X.gt (U dn) (U up) then update U up (U dn) else U

/-- One iteration of the upward pass, `larch/numba/model.py:302-346`. -/
noncomputable def nestStep (T : Tree) (θ : Nat → ℝ) (U : Arr) (up : Nat) : Arr :=
  let k := up - T.nAlts
  let mu := muOf T θ k
  let cs := childSlots T k
  if mu ≠ 0 then
    let sh := cs.foldl (shiftStep U mu) (.ninf, none)
    let U1 := cs.foldl (expStep up mu sh) U
    update U1 up ((X.log (U1 up) + sh.1) * .fin mu)
  else cs.foldl (maxStep up) U

/-- The upward pass over all nests, `larch/numba/model.py:302-346`; the result is what
`only_utility == 2` returns. -/
noncomputable def upPass (T : Tree) (θ : Nat → ℝ) (U : Arr) : Arr :=
  (List.range' T.nAlts (T.nNodes - T.nAlts)).foldl (nestStep T θ) U

/-- Value written to `logprob[dn]` for an edge, `larch/numba/model.py:377-386`. -/
noncomputable def edgeLogprob (T : Tree) (θ : Nat → ℝ) (U : Arr) (e : Nat × Nat) : X :=
  if X.isNinf (U e.1) then .ninf
  else (U e.2 - U e.1) / .fin (muOf T θ (e.1 - T.nAlts))

/-- One iteration of the log-probability loop, `larch/numba/model.py:376-388`. -/
noncomputable def logprobStep (T : Tree) (θ : Nat → ℝ) (U : Arr) (ch : Nat → ℝ) (wt : ℝ)
    (s : Arr × X) (e : Nat × Nat) : Arr × X :=
  let lp := update s.1 e.2 (edgeLogprob T θ U e)
  (lp, if ch e.2 ≠ 0 then s.2 + lp e.2 * .fin (ch e.2) * .fin wt else s.2)

/-- Log-probability loop; `lp0` is the previous content of the work array. -/
noncomputable def logprobPass (T : Tree) (θ : Nat → ℝ) (U : Arr) (ch : Nat → ℝ) (wt : ℝ) (lp0 : Arr) :
    Arr × X :=
  T.edges.foldl (logprobStep T θ U ch wt) (lp0, 0)

/-- `conditional_probability`, `larch/numba/model.py:393-396`. -/
noncomputable def condOf (nNodes : Nat) (av : Nat → Bool) (lp : Arr) : Arr :=
  fun i => if i < nNodes ∧ av i then X.exp (lp i) else lp i

/-- Downward probability pass, `larch/numba/model.py:399-406` (edges in reverse); `pr0` is the previous
content of the work array. -/
noncomputable def probPass (T : Tree) (av : Nat → Bool) (cond : Arr) (pr0 : Arr) : Arr :=
  T.edges.reverse.foldl (fun P e =>
    if av e.2 then update P e.2 (P e.1 * cond e.2) else update P e.2 0)
    (update pr0 (T.nNodes - 1) 1)

/-- First part of the edge step: the child nest's own logsum-parameter entry,
`larch/numba/model.py:418-422`. -/
noncomputable def dUtilOwn (T : Tree) (θ : Nat → ℝ) (U : Arr) (dU : Arr2) (dn : Nat) : Arr2 :=
  if T.nAlts ≤ dn then
    match T.muSlot (dn - T.nAlts) with
    | some s => set2 (addAt2 dU dn s (U dn)) dn s (addAt2 dU dn s (U dn) dn s / .fin (θ s))
    | none => dU
  else dU

/-- Second part: the parent's logsum-parameter entry, `larch/numba/model.py:423-426`. -/
noncomputable def dUtilMu (T : Tree) (U cond : Arr) (dU : Arr2) (e : Nat × Nat) : Arr2 :=
  match T.muSlot (e.1 - T.nAlts) with
  | some s => addAt2 dU e.1 s (-(cond e.2 * U e.2))
  | none => dU

/-- One edge of the utility-gradient pass, `larch/numba/model.py:413-427`. -/
noncomputable def dUtilStep (T : Tree) (θ : Nat → ℝ) (av : Nat → Bool) (U cond : Arr)
    (dU : Arr2) (e : Nat × Nat) : Arr2 :=
  if av e.2 then
    let dU2 := dUtilMu T U cond (dUtilOwn T θ U dU e.2) e
    update dU2 e.1 (fun p => dU2 e.1 p + cond e.2 * dU2 e.2 p)
  else dU

/-- The utility-gradient pass, `larch/numba/model.py:412-427`. -/
noncomputable def dUtilPass (T : Tree) (θ : Nat → ℝ) (av : Nat → Bool) (U cond : Arr) (dU : Arr2) : Arr2 :=
  T.edges.foldl (dUtilStep T θ av U cond) dU

/-- `scratch_` for one edge and parameter, `larch/numba/model.py:459-474`. -/
noncomputable def dProbScratch (T : Tree) (θ : Nat → ℝ) (U P : Arr) (dU dP : Arr2) (e : Nat × Nat)
    (p : Nat) : X :=
  let k := e.1 - T.nAlts
  let mu := muOf T θ k
  (if mu ≠ 0 then
    let s0 := dU e.2 p - dU e.1 p
    let s1 := if T.muSlot k = some p then s0 + (U e.1 - U e.2) / .fin mu else s0
    s1 * (P e.1 / .fin mu)
   else 0) + dP e.1 p

/-- The probability-gradient pass, `larch/numba/model.py:455-475`. -/
noncomputable def dProbPass (T : Tree) (θ : Nat → ℝ) (ch : Nat → ℝ) (U cond P : Arr) (dU : Arr2) : Arr2 :=
  T.edges.reverse.foldl (fun dP e =>
    if ch e.2 ≠ 0 then
      update dP e.2 (fun p => dP e.2 p + dProbScratch T θ U P dU dP e p * cond e.2)
    else dP) (fun _ _ => 0)

/-- The floor applied to a positive probability, `larch/numba/model.py:491-492`. -/
noncomputable def floorProb (P : X) : X :=
  if X.gt (.fin (1 / 10 ^ 250)) P then .fin (1 / 10 ^ 250) else P

/-- One alternative of the likelihood-gradient loop (`d_loglike` and `bhhh`),
`larch/numba/model.py:481-499`. -/
noncomputable def dLoglikeStep (ch : Nat → ℝ) (wt : ℝ) (P : Arr) (dP : Arr2)
    (s : Arr × Arr2) (a : Nat) : Arr × Arr2 :=
  if ch a = 0 then s
  else if X.gt (P a) 0 then
    let tot := floorProb (P a)
    let temp : Arr := fun p => dP a p * (.fin (ch a) / tot)
    let g : Arr := fun p => temp p / .fin (ch a)
    (fun p => s.1 p + temp p * .fin wt,
     fun p q => s.2 p q + g p * g q * .fin (ch a) * .fin wt)
  else s

/-- Likelihood-gradient loop over alternatives, starting from zeroed outputs
(`larch/numba/model.py:410, 478, 481-499`). -/
noncomputable def dLoglikePass (nAlts : Nat) (ch : Nat → ℝ) (wt : ℝ) (P : Arr) (dP : Arr2) : Arr × Arr2 :=
  (List.range nAlts).foldl (dLoglikeStep ch wt P dP) (fun _ => 0, fun _ _ => 0)

/-! ## Cascades and the whole kernel -/

/-- `cascade_or` for one case, `larch/numba/cascading.py:5-9`; start from the alternatives' availability
with nests zero (`87-93`). -/
def cascadeOr (T : Tree) (av : Nat → Bool) : Nat → Bool :=
  T.edges.foldl (fun a e => update a e.1 (a e.1 || a e.2)) (fun i => if i < T.nAlts then av i else false)

/-- `cascade_sum` for one case, `larch/numba/cascading.py:11-15`, `116-123`. -/
noncomputable def cascadeSum (T : Tree) (ch : Nat → ℝ) : Nat → ℝ :=
  T.edges.foldl (fun a e => update a e.1 (a e.1 + a e.2)) (fun i => if i < T.nAlts then ch i else 0)

/-- Previous contents of the work arrays `logprob` and `probability`. -/
structure Work where
  logprob : Arr
  probability : Arr

/-- Outputs of the kernel for one case (`larch/numba/model.py:557-562`). -/
structure Out where
  utility : Arr
  logprob : Arr
  probability : Arr
  bhhh : Arr2
  dLoglike : Arr
  loglike : X

/-- `_numba_utility_to_loglike` with all return flags on, `larch/numba/model.py:263-500`.  With fewer
flags the code returns the same prefix of this computation. -/
noncomputable def toLoglike (T : Tree) (θ : Nat → ℝ) (ch : Nat → ℝ) (av : Nat → Bool) (wt : ℝ)
    (s : UState) (W : Work) : Out :=
  let U := upPass T θ s.U
  let lp := logprobPass T θ U ch wt W.logprob
  let cond := condOf T.nNodes av lp.1
  let P := probPass T av cond W.probability
  let dU := dUtilPass T θ av U cond s.dU
  let dP := dProbPass T θ ch U cond P dU
  let g := dLoglikePass T.nAlts ch wt P dP
  { utility := U, logprob := cond, probability := P, bhhh := g.2, dLoglike := g.1, loglike := lp.2 }

/-- One case evaluated end to end: cascades (`larch/numba/cascading.py`) then `_numba_master`
(`larch/numba/model.py:516-655`). -/
noncomputable def runCase (T : Tree) (M : Terms) (hold : Nat → Bool) (θ : Nat → ℝ) (C : Case) (W : Work) :
    Out :=
  let av := cascadeOr T C.av
  let ch := cascadeSum T C.ch
  toLoglike T θ ch av C.wt (assemble θ hold T.nAlts M { C with av := av }) W

end Larch.Kernel
