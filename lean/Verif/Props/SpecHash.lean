import Verif.Props.Display

/-!
# C117: the specification hash
-/

namespace Larch.Props

open Larch.Py Larch.Linear Larch.Display

/-- A function that reading back recovers. -/
structure Recoverable (N : Names) (ns : String → Option Obj) (l : List Comp) : Prop where
  names : Namespace N ns l
  scale : ∀ c ∈ l, c.scale ≠ 0
  nonzero : ∀ c ∈ l, c.data ≠ [.num "0" 0] ∧ c.data ≠ [.num "0.0" 0]
  lits : ∀ c ∈ l, LitOk c.data
  unit : ∀ c ∈ l, floatOf c.data = some 1 → c.data = one

theorem funcToks_inj {N : Names} {ns : String → Option Obj} {l l' : List Comp} (hl : l ≠ []) (hl' : l' ≠ [])
    (h : Recoverable N ns l) (h' : Recoverable N ns l') (he : funcToks N l = funcToks N l') : l = l' := by
  let fm : Fmt := ⟨fun _ => false, fun _ => false⟩
  let txt : ℝ → String := fun _ => ""
  obtain ⟨o, h1, h2, _⟩ := C115_reads_back_partial fm N ns txt l hl h.names (fun c hc => ⟨h.scale c hc, h.nonzero c hc⟩) h.lits h.unit
    _ (.inl rfl)
  obtain ⟨o', h1', h2', _⟩ := C115_reads_back_partial fm N ns txt l' hl' h'.names (fun c hc => ⟨h'.scale c hc, h'.nonzero c hc⟩)
    h'.lits h'.unit _ (.inl rfl)
  rw [← he] at h1'
  have := C115_evaluation_unique fm ns txt _ o o' h1 h1'
  subst this
  rw [h2] at h2'
  exact Except.ok.inj h2'

theorem funcToks_ne_empty {N : Names} {l : List Comp} (hl : l ≠ []) (hN : ∀ s, N.par s ≠ "<Empty LinearFunction_C>") :
    funcToks N l ≠ [.name "<Empty LinearFunction_C>"] := by
  cases l with
  | nil => exact absurd rfl hl
  | cons c l =>
    intro h
    simp [funcToks, joinPlus, compToks] at h
    exact hN _ h.1

theorem reprToks_inj {N : Names} {ns : String → Option Obj} {l l' : List Comp} (hN : ∀ s, N.par s ≠ "<Empty LinearFunction_C>")
    (h : Recoverable N ns l) (h' : Recoverable N ns l') (he : reprToks N l = reprToks N l') : l = l' := by
  unfold reprToks at he
  cases l with
  | nil =>
    cases l' with
    | nil => rfl
    | cons c' l' => exact absurd he.symm (funcToks_ne_empty (by simp) hN)
  | cons c l =>
    cases l' with
    | nil => exact absurd he (funcToks_ne_empty (by simp) hN)
    | cons c' l' => exact funcToks_inj (by simp) (by simp) h h' he

/-- **C117.** A change of `utility_ca` — any term added, removed, moved or altered in its parameter, data or scale — changes what
`specification_hash` digests. -/
theorem C117_utility_ca_partial (N : Names) (ns : String → Option Obj) (key : Int → Tok) (node : Option String → List Tok)
    (edge : Bool → Option String → List Tok) (m : Spec) (l : List Comp) (other : OtherReprs) (g : Graph.G)
    (hN : ∀ s, N.par s ≠ "<Empty LinearFunction_C>") (h : Recoverable N ns m.ca) (h' : Recoverable N ns l) (hne : m.ca ≠ l) :
    digestInput N key node edge m other g ≠ digestInput N key node edge { m with ca := l } other g := by
  intro he
  unfold digestInput at he
  simp only [List.append_assoc] at he
  exact hne (reprToks_inj hN h h' (List.append_cancel_right he))

/-- The same for `quantity_ca`. -/
theorem C117_quantity_partial (N : Names) (ns : String → Option Obj) (key : Int → Tok) (node : Option String → List Tok)
    (edge : Bool → Option String → List Tok) (m : Spec) (l : List Comp) (other : OtherReprs) (g : Graph.G)
    (hN : ∀ s, N.par s ≠ "<Empty LinearFunction_C>") (h : Recoverable N ns m.quantity) (h' : Recoverable N ns l)
    (hne : m.quantity ≠ l) :
    digestInput N key node edge m other g ≠ digestInput N key node edge { m with quantity := l } other g := by
  intro he
  unfold digestInput at he
  simp only [List.append_assoc] at he
  have h1 := List.append_cancel_left (List.append_cancel_left he)
  exact hne (reprToks_inj hN h h' (List.append_cancel_right h1))

/-- The same for the utility of one alternative. -/
theorem C117_utility_co_partial (N : Names) (ns : String → Option Obj) (key : Int → Tok) (node : Option String → List Tok)
    (edge : Bool → Option String → List Tok) (m : Spec) (pre post : List (Int × List Comp)) (a : Int) (l l' : List Comp)
    (hm : m.co = pre ++ (a, l) :: post) (other : OtherReprs) (g : Graph.G)
    (hN : ∀ s, N.par s ≠ "<Empty LinearFunction_C>") (h : Recoverable N ns l) (h' : Recoverable N ns l') (hne : l ≠ l') :
    digestInput N key node edge m other g ≠ digestInput N key node edge { m with co := pre ++ (a, l') :: post } other g := by
  intro he
  unfold digestInput at he
  simp only [List.append_assoc, coRepr, hm, List.flatMap_append, List.flatMap_cons, List.cons_append] at he
  have h1 := List.append_cancel_left (List.append_cancel_left he)
  have h2 := (List.cons.inj h1).2
  exact hne (reprToks_inj hN h h' (List.append_cancel_right h2))

/-- Setting the parameter of a nest to another one changes what is digested (when the two parameters print differently, with
texts of the same number of tokens as names do). -/
theorem C117_nest_parameter_partial (N : Names) (key : Int → Tok) (node : Option String → List Tok)
    (edge : Bool → Option String → List Tok) (m : Spec) (other : OtherReprs) (g g' : Graph.G)
    (hlen : ∀ s t, (node s).length = (node t).length) (hinj : ∀ s t, node s = node t → s = t) (hn : g'.nodes = g.nodes)
    (hne : ∃ n ∈ g.nodes, g.nparam n ≠ g'.nparam n) :
    digestInput N key node edge m other g ≠ digestInput N key node edge m other g' := by
  intro he
  unfold digestInput at he
  simp only [List.append_assoc] at he
  have h1 := List.append_cancel_left (List.append_cancel_left (List.append_cancel_left (List.append_cancel_left he)))
  have key2 : ∀ (l : List Int) (r r' : List Tok),
      (l.map (fun n => node (g.nparam n))).flatten ++ r = (l.map (fun n => node (g'.nparam n))).flatten ++ r' →
      ∀ n ∈ l, node (g.nparam n) = node (g'.nparam n) := by
    intro l
    induction l with
    | nil => intro r r' _ n hn; simp at hn
    | cons a l ih =>
      intro r r' h n hn
      simp only [List.map_cons, List.flatten_cons, List.append_assoc] at h
      obtain ⟨h2, h3⟩ := List.append_inj h (hlen _ _)
      rcases List.mem_cons.1 hn with rfl | hn
      · exact h2
      · exact ih _ _ h3 n hn
  obtain ⟨n, hn1, hn2⟩ := hne
  unfold nodeChunks at h1
  rw [hn] at h1
  exact hn2 (hinj _ _ (key2 g.nodes _ _ h1 n hn1))

/-! ## The tree is not in the hash -/

/-- Four alternatives, and a nest with the parameter `mu` over the given ones. -/
def hashTree (children : List Int) : Graph.G :=
  (Graph.newNode ((([1, 2, 3, 4] : List Int).foldl (fun g a => (Graph.addNode g a {}).1) (Graph.new 0))) (some 5)
    { children := children, param := some "mu" }).1

/-- Moving alternatives from one nest to another does not change the hash, whatever the digest function: the attributes of the
nodes and edges are digested, not which nodes the edges connect.  Here the nest holds the alternatives 1 and 2, or 3 and 4. -/
theorem C117_fails_nests (H : List Tok → String) (N : Names) (key : Int → Tok) (node : Option String → List Tok)
    (edge : Bool → Option String → List Tok) (m : Spec) (other : OtherReprs) :
    specificationHash H N key node edge m other (hashTree [1, 2]) = specificationHash H N key node edge m other (hashTree [3, 4]) ∧
    ((hashTree [1, 2]).outEdges 5).map (fun e => e.v) = [1, 2] ∧ ((hashTree [3, 4]).outEdges 5).map (fun e => e.v) = [3, 4] := by
  refine ⟨?_, by decide +kernel, by decide +kernel⟩
  have h1 : (hashTree [1, 2]).nodes.map (fun n => (hashTree [1, 2]).nparam n) =
      (hashTree [3, 4]).nodes.map (fun n => (hashTree [3, 4]).nparam n) := by decide +kernel
  have h2 : ((hashTree [1, 2]).nodes.flatMap (fun n => (hashTree [1, 2]).outEdges n)).map (fun e => (e.implied, e.param)) =
      ((hashTree [3, 4]).nodes.flatMap (fun n => (hashTree [3, 4]).outEdges n)).map (fun e => (e.implied, e.param)) := by
    decide +kernel
  have h3 : nodeChunks node (hashTree [1, 2]) = nodeChunks node (hashTree [3, 4]) := by
    have := congrArg (List.map node) h1
    simpa [nodeChunks, Function.comp_def] using this
  have h4 : edgeChunks edge (hashTree [1, 2]) = edgeChunks edge (hashTree [3, 4]) := by
    have := congrArg (List.map (fun x : Bool × Option String => edge x.1 x.2)) h2
    simpa only [edgeChunks, List.map_map, Function.comp_def] using this
  unfold specificationHash digestInput
  rw [h3, h4]

/-- Nor are the alternatives' codes in it. -/
theorem C117_fails_codes (H : List Tok → String) (N : Names) (key : Int → Tok) (node : Option String → List Tok)
    (edge : Bool → Option String → List Tok) (m : Spec) (other : OtherReprs) :
    let tree (codes : List Int) := codes.foldl (fun g a => (Graph.addNode g a {}).1) (Graph.new 0)
    specificationHash H N key node edge m other (tree [1, 2]) = specificationHash H N key node edge m other (tree [7, 8]) ∧
    (tree [1, 2]).nodes ≠ (tree [7, 8]).nodes := by
  intro tree
  refine ⟨?_, by decide +kernel⟩
  have h1 : (tree [1, 2]).nodes.map (fun n => (tree [1, 2]).nparam n) =
      (tree [7, 8]).nodes.map (fun n => (tree [7, 8]).nparam n) := by decide +kernel
  have h2 : ((tree [1, 2]).nodes.flatMap (fun n => (tree [1, 2]).outEdges n)).map (fun e => (e.implied, e.param)) =
      ((tree [7, 8]).nodes.flatMap (fun n => (tree [7, 8]).outEdges n)).map (fun e => (e.implied, e.param)) := by
    decide +kernel
  have h3 : nodeChunks node (tree [1, 2]) = nodeChunks node (tree [7, 8]) := by
    have := congrArg (List.map node) h1
    simpa only [nodeChunks, List.map_map, Function.comp_def] using this
  have h4 : edgeChunks edge (tree [1, 2]) = edgeChunks edge (tree [7, 8]) := by
    have := congrArg (List.map (fun x : Bool × Option String => edge x.1 x.2)) h2
    simpa only [edgeChunks, List.map_map, Function.comp_def] using this
  unfold specificationHash digestInput
  rw [h3, h4]

/-- Giving the same utility functions in another order gives another text to digest. -/
theorem C117_fails_order (N : Names) (key : Int → Tok) (node : Option String → List Tok)
    (edge : Bool → Option String → List Tok) (ca q : List Comp) (other : OtherReprs) (g : Graph.G) (a b : Int)
    (l l' : List Comp) (hk : key a ≠ key b) :
    digestInput N key node edge ⟨ca, [(a, l), (b, l')], q, none⟩ other g ≠
      digestInput N key node edge ⟨ca, [(b, l'), (a, l)], q, none⟩ other g ∧
    ∀ c, a ≠ b → Spec.coOf ⟨ca, [(a, l), (b, l')], q, none⟩ c = Spec.coOf ⟨ca, [(b, l'), (a, l)], q, none⟩ c := by
  constructor
  · intro he
    unfold digestInput at he
    simp only [List.append_assoc, coRepr, List.flatMap_cons, List.cons_append] at he
    exact hk (List.cons.inj (List.append_cancel_left he)).1
  · intro c hab
    unfold Spec.coOf
    by_cases h1 : a = c
    · subst h1
      simp [Ne.symm hab]
    · by_cases h2 : b = c
      · subst h2; simp [hab]
      · simp [h1, h2]

theorem demo_recoverable : Recoverable demoNames demoNs demoFunc ∧ Recoverable demoNames demoNs (demoFunc.take 2) := by
  have h : Recoverable demoNames demoNs demoFunc := by
    refine ⟨demo_namespace, ?_, ?_, ?_, ?_⟩ <;> intro c hc <;>
      simp only [demoFunc, List.mem_cons, List.not_mem_nil, or_false] at hc <;>
      rcases hc with rfl | rfl | rfl <;> simp [ofPar, one, LitOk, floatOf]
  have hs : ∀ c ∈ demoFunc.take 2, c ∈ demoFunc := fun c hc => List.mem_of_mem_take hc
  exact ⟨h, ⟨fun c hc => h.names.par c (hs c hc), fun c hc => h.names.dat c (hs c hc)⟩, fun c hc => h.scale c (hs c hc),
    fun c hc => h.nonzero c (hs c hc), fun c hc => h.lits c (hs c hc), fun c hc => h.unit c (hs c hc)⟩

example (key : Int → Tok) (node : Option String → List Tok) (edge : Bool → Option String → List Tok) (g : Graph.G) :
    digestInput demoNames key node edge ⟨demoFunc, [], [], none⟩ [] g ≠
      digestInput demoNames key node edge ⟨demoFunc.take 2, [], [], none⟩ [] g :=
  C117_utility_ca_partial demoNames demoNs key node edge ⟨demoFunc, [], [], none⟩ (demoFunc.take 2) [] g
    (fun s h => by
      have := congrArg (fun t : String => t.toList.head?) h
      simp [demoNames] at this)
    demo_recoverable.1 demo_recoverable.2 (by simp [demoFunc])

end Larch.Props
