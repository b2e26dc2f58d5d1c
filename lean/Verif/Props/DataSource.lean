import Verif.Model.DataSource

/-!
# C131: an evaluation uses the data assigned last (numba engine)
-/

namespace Larch.Props

open Larch.DataSource

/-- Histories with data trees only: each tree has the alternatives `A`, and no tree is edited in place while it is the model's (`t`). -/
def TreesOnly (A : List Int) : Option Nat → List Op → Prop
  | _, [] => True
  | _, .setTree t :: ops => TreesOnly A t ops
  | t, .editTree i T :: ops => t ≠ some i ∧ T.alts = A ∧ TreesOnly A t ops
  | _, .setFrames _ :: _ => False
  | _, .setDataset _ :: _ => False
  | t, .delDataset :: ops => TreesOnly A t ops
  | t, .readDataset :: ops => TreesOnly A t ops
  | t, .editSpec _ :: ops => TreesOnly A t ops
  | t, .evaluate _ :: ops => TreesOnly A t ops

/-- The tree assigned last. -/
def lastTree (t : Option Nat) : List Op → Option Nat
  | [] => t
  | .setTree u :: ops => lastTree u ops
  | _ :: ops => lastTree t ops

/-- The specification made last. -/
def lastSpec (n : Nat) : List Op → Nat
  | [] => n
  | .editSpec m :: ops => lastSpec m ops
  | _ :: ops => lastSpec n ops

/-- What is in tree `i`. -/
def lastContent (i : Nat) (T : Tree) : List Op → Tree
  | [] => T
  | .editTree k U :: ops => lastContent i (if i = k then U else T) ops
  | _ :: ops => lastContent i T ops

/-- What an evaluation should use, given the data, the specification and whether choices are needed. -/
def shouldUse (E : Env) (T : Option Tree) (spec : Nat) (allow : Bool) : Except Err Used :=
  match T with
  | none => .error .missing
  | some T =>
    if E.treeHas T spec = false then .error .key
    else if E.specCh spec = false ∧ allow = false then .error .missing
    else .ok ⟨T.data, T.cases, spec, T.alts, false, ⟨T.alts, spec⟩⟩

/-- Nothing is held that does not belong to the tree and the specification. -/
structure DsGood (E : Env) (A : List Int) (s : St) : Prop where
  frames : s.frames = none
  alts : ∀ i, (s.trees i).alts = A
  graph : s.graph = none ∨ s.graph = some A
  dataset : ∀ d, s.dataset = some d → s.graph = some A ∧ ∃ i, s.tree = some i ∧ d = ⟨s.trees i, s.spec⟩ ∧ E.treeHas (s.trees i) s.spec = true ∧
    s.arrays = some ⟨(s.trees i).data, (s.trees i).cases, s.spec, A, false⟩
  arrays : s.dataset = none → s.arrays = none
  fixed : ∀ p, s.fixed = some p → p = ⟨A, s.spec⟩ ∧ ∃ i, s.tree = some i
  work : ∀ w, s.work = some w → ∃ i, s.tree = some i ∧ w = ((s.trees i).cases, A.length + 1)

/-- The user's part of the state. -/
def DsSame (s t : St) : Prop := t.trees = s.trees ∧ t.spec = s.spec ∧ t.tree = s.tree

theorem DsSame.trans {a b c : St} (h : DsSame a b) (k : DsSame b c) : DsSame a c :=
  ⟨k.1.trans h.1, k.2.1.trans h.2.1, k.2.2.trans h.2.2⟩

theorem ds_mangle {E : Env} {A : List Int} {s : St} (hf : s.frames = none) (ha : ∀ i, (s.trees i).alts = A) (hg : s.graph = none ∨ s.graph = some A) :
    DsGood E A (mangle s) := by
  refine ⟨hf, ha, hg, ?_, ?_, ?_, ?_⟩ <;> simp [mangle]

theorem ds_getGraph {E : Env} {A : List Int} {s : St} (h : DsGood E A s) :
    DsGood E A (getGraph E s) ∧ DsSame s (getGraph E s) ∧ (s.tree ≠ none → (getGraph E s).graph = some A) ∧
    (s.tree = none → getGraph E s = s) ∧ (s.graph ≠ none → getGraph E s = s) ∧ (s.dataset = none → (getGraph E s).dataset = none) := by
  obtain ⟨trees, spec, mangled, tree, frames, graph, dataset, arrays, fixed, work⟩ := s
  obtain rfl : frames = none := h.frames
  have ha : ∀ i, (trees i).alts = A := h.alts
  rcases (h.graph : graph = none ∨ graph = some A) with rfl | rfl
  · cases tree with
    | none => exact ⟨h, ⟨rfl, rfl, rfl⟩, fun h => absurd rfl h, fun _ => rfl, fun h => absurd rfl h, fun h => h⟩
    | some i =>
      exact ⟨ds_mangle (s := ⟨trees, spec, mangled, some i, none, some (trees i).alts, dataset, arrays, fixed, work⟩) rfl ha (Or.inr (by rw [ha i])), ⟨rfl, rfl, rfl⟩,
        fun _ => congrArg some (ha i), fun h => absurd h (by simp), fun h => absurd rfl h, fun _ => rfl⟩
  · exact ⟨h, ⟨rfl, rfl, rfl⟩, fun _ => rfl, fun _ => rfl, fun _ => rfl, fun h => h⟩

theorem ds_unset {E : Env} {A : List Int} {s : St} (h : DsGood E A s) (b : Bool) : DsGood E A { s with mangled := b } :=
  ⟨h.frames, h.alts, h.graph, h.dataset, h.arrays, h.fixed, h.work⟩

theorem ds_super {E : Env} {A : List Int} {s : St} (h : DsGood E A s) :
    ∃ t, superUnmangle E s = (t, none) ∧ DsGood E A t ∧ DsSame s t ∧ t.mangled = false ∧ (s.graph ≠ none → t = { s with mangled := false }) := by
  unfold superUnmangle
  obtain ⟨g1, g2, g3, g4, g5, g6⟩ := ds_getGraph h
  cases hm : s.mangled with
  | true =>
    have hs : sufficient E (getGraph E s) = true := by unfold sufficient; rw [g1.frames]; rfl
    rw [if_pos rfl, if_pos hs]
    exact ⟨_, rfl, ds_unset g1 false, g2, rfl, fun hg => by rw [g5 hg]⟩
  | false =>
    rw [if_neg (by simp)]
    refine ⟨s, rfl, h, ⟨rfl, rfl, rfl⟩, hm, fun _ => ?_⟩
    cases s; simp_all

/-- The data set and the arrays of tree `i`. -/
def dsLoaded (A : List Int) (i : Nat) (s : St) : Prop :=
  s.graph = some A ∧ s.mangled = false ∧ s.dataset = some ⟨s.trees i, s.spec⟩ ∧ s.arrays = some ⟨(s.trees i).data, (s.trees i).cases, s.spec, A, false⟩

theorem ds_reflowTree {E : Env} {A : List Int} {s : St} {i : Nat} (h : DsGood E A s) (ht : s.tree = some i) (hg : s.graph = some A)
    (hh : E.treeHas (s.trees i) s.spec = true) :
    ∃ t, reflowTree E s (s.trees i) = (t, none) ∧ DsGood E A t ∧ DsSame s t ∧ dsLoaded A i t := by
  obtain ⟨trees, spec, mangled, tree, frames, graph, dataset, arrays, fixed, work⟩ := s
  obtain rfl : frames = none := h.frames
  obtain rfl : tree = some i := ht
  obtain rfl : graph = some A := hg
  have ha : ∀ i, (trees i).alts = A := h.alts
  have hfit : fits (trees i).alts A = true := by unfold fits; rw [ha i]; simp
  refine ⟨⟨trees, spec, false, some i, none, some A, some ⟨trees i, spec⟩, some ⟨(trees i).data, (trees i).cases, spec, A, false⟩, fixed,
    work.map (fun _ => ((trees i).cases, A.length + 1))⟩, ?_, ?_, ⟨rfl, rfl, rfl⟩, ⟨rfl, rfl, rfl, rfl⟩⟩
  · unfold reflowTree
    rw [if_pos hh]
    have hsu : superUnmangle E ⟨trees, spec, mangled, some i, none, some A, some ⟨trees i, spec⟩, none, fixed, work⟩
        = (⟨trees, spec, false, some i, none, some A, some ⟨trees i, spec⟩, none, fixed, work⟩, none) := by
      cases mangled <;> rfl
    show Out.andThen (superUnmangle E ⟨trees, spec, mangled, some i, none, some A, some ⟨trees i, spec⟩, none, fixed, work⟩) _ = _
    rw [hsu]
    show (if fits (trees i).alts A = true then _ else _) = _
    rw [if_pos hfit]
    cases work <;> rfl
  · refine ⟨rfl, ha, Or.inr rfl, ?_, ?_, h.fixed, ?_⟩
    · intro d hd
      simp only [Option.some.injEq] at hd
      exact ⟨rfl, i, rfl, hd.symm, hh, rfl⟩
    · intro e; simp at e
    · intro x hx
      cases work with
      | none => simp at hx
      | some w =>
        simp only [Option.map_some, Option.some.injEq] at hx
        exact ⟨i, rfl, hx.symm⟩

theorem ds_reflow {E : Env} {A : List Int} {s : St} (h : DsGood E A s) (hd : s.dataset = none) :
    ∃ t e, reflow E s = (t, e) ∧ DsGood E A t ∧ DsSame s t ∧
      (∀ i, s.tree = some i → (if E.treeHas (s.trees i) s.spec = true then e = none ∧ dsLoaded A i t else e = some .key ∧ t.dataset = none)) ∧
      (s.tree = none → t = s) := by
  obtain ⟨g1, g2, g3, g4, g5, g6⟩ := ds_getGraph h
  unfold reflow
  cases ht : s.tree with
  | none =>
    rw [g4 ht]
    by_cases hg : s.graph = none
    · rw [if_pos hg]
      exact ⟨s, _, rfl, h, ⟨rfl, rfl, rfl⟩, fun i e => by simp at e, fun _ => rfl⟩
    · rw [if_neg hg]
      unfold reflowData
      rw [ht, h.frames]
      exact ⟨s, _, rfl, h, ⟨rfl, rfl, rfl⟩, fun i e => by simp at e, fun _ => rfl⟩
  | some i =>
    have hg := g3 (by simp [ht])
    rw [if_neg (by simp [hg])]
    have ht' : (getGraph E s).tree = some i := by rw [g2.2.2, ht]
    unfold reflowData
    rw [ht', g1.frames]
    have htr : (getGraph E s).trees i = s.trees i := by rw [g2.1]
    by_cases hh : E.treeHas (s.trees i) s.spec = true
    · obtain ⟨t, e1, e2, e3, e4⟩ := ds_reflowTree g1 ht' hg (by rw [htr, g2.2.1]; exact hh)
      refine ⟨t, none, e1, e2, g2.trans e3, ?_, fun e => by simp at e⟩
      intro k hk
      simp only [Option.some.injEq] at hk
      subst hk
      rw [if_pos hh]
      exact ⟨rfl, e4⟩
    · refine ⟨getGraph E s, some .key, ?_, g1, g2, ?_, fun e => by simp at e⟩
      · show reflowTree E (getGraph E s) ((getGraph E s).trees i) = _
        unfold reflowTree
        rw [if_neg (by rw [htr, g2.2.1]; exact hh)]
      · intro k hk
        simp only [Option.some.injEq] at hk
        subst hk
        rw [if_neg hh]
        exact ⟨rfl, g6 hd⟩

/-- The data set is loaded by the two steps at the beginning of `unmangle`, and by reading `model.dataset`. -/
theorem ds_read {E : Env} {A : List Int} {s : St} (h : DsGood E A s) :
    ∃ t e, readDataset E s = (t, e) ∧ DsGood E A t ∧ DsSame s t ∧
      (∀ i, s.tree = some i → (if E.treeHas (s.trees i) s.spec = true then e = none ∧ t.dataset = some ⟨s.trees i, s.spec⟩ ∧ t.graph = some A else e = some .key)) := by
  obtain ⟨u, u1, u2, u3, u4, u5⟩ := ds_super h
  unfold readDataset
  rw [u1]
  unfold Out.andThen
  simp only
  by_cases hd : u.dataset = none
  · rw [if_pos hd]
    obtain ⟨t, e, r1, r2, r3, r4, r5⟩ := ds_reflow u2 hd
    refine ⟨t, e, r1, r2, u3.trans r3, ?_⟩
    intro i hi
    have := r4 i (by rw [u3.2.2, hi])
    rw [u3.1, u3.2.1] at this
    by_cases hh : E.treeHas (s.trees i) s.spec = true
    · rw [if_pos hh] at this ⊢
      refine ⟨this.1, ?_, this.2.1⟩
      have := this.2.2.2.1
      rw [this, (u3.trans r3).1, (u3.trans r3).2.1]
    · rw [if_neg hh] at this ⊢
      exact this.1
  · rw [if_neg hd]
    refine ⟨u, none, rfl, u2, u3, ?_⟩
    intro i hi
    obtain ⟨d, hd'⟩ := Option.ne_none_iff_exists'.mp hd
    obtain ⟨k0, k, k1, k2, k3, k4⟩ := u2.dataset d hd'
    rw [u3.2.2, hi] at k1
    simp only [Option.some.injEq] at k1
    subst k1
    rw [u3.1, u3.2.1] at k3
    rw [if_pos k3, hd', k2, u3.1, u3.2.1]
    exact ⟨rfl, rfl, k0⟩

theorem ds_read_loaded {E : Env} {A : List Int} {s : St} (h : DsGood E A s) {d : DS} (hd : s.dataset = some d) :
    readDataset E s = ({ s with mangled := false }, none) := by
  obtain ⟨u, u1, _, _, _, u5⟩ := ds_super h
  have hu := u5 (by rw [(h.dataset d hd).1]; simp)
  subst hu
  unfold readDataset
  rw [u1]
  show (if s.dataset = none then _ else _) = _
  rw [if_neg (by simp [hd])]

theorem ds_rebuildWork {E : Env} {A : List Int} {s : St} {i : Nat} (h : DsGood E A s) (ht : s.tree = some i) (hg : s.graph = some A) :
    rebuildWork E s = { s with work := some ((s.trees i).cases, A.length + 1) } ∧ DsGood E A (rebuildWork E s) := by
  have hn : nCases E s = some (s.trees i).cases := by
    unfold nCases
    cases hd : s.dataset with
    | none => rw [h.frames, ht]
    | some d =>
      obtain ⟨_, k, k1, k2, _⟩ := h.dataset d hd
      rw [ht] at k1
      simp only [Option.some.injEq] at k1
      subst k1
      simp [k2]
  have e : rebuildWork E s = { s with work := some ((s.trees i).cases, A.length + 1) } := by
    unfold rebuildWork
    rw [hn, hg]; rfl
  refine ⟨e, ?_⟩
  rw [e]
  refine ⟨h.frames, h.alts, h.graph, h.dataset, h.arrays, h.fixed, ?_⟩
  intro w hw
  simp only [Option.some.injEq] at hw
  exact ⟨i, ht, hw.symm⟩

theorem ds_rebuildFixed {E : Env} {A : List Int} {s : St} {d : DS} (h : DsGood E A s) (hd : s.dataset = some d) :
    rebuildFixed E s = ({ s with mangled := false, fixed := some ⟨A, s.spec⟩ }, none) ∧ DsGood E A { s with mangled := false, fixed := some ⟨A, s.spec⟩ } := by
  obtain ⟨k0, k, k1, k2, _⟩ := h.dataset d hd
  constructor
  · unfold rebuildFixed
    rw [ds_read_loaded h hd]
    show ({ s with mangled := false, fixed := (provider E { s with mangled := false }).map (fun a => (⟨a, s.spec⟩ : Pos)) }, none) = _
    have : provider E { s with mangled := false } = some A := by
      unfold provider
      simp [hd, k2, h.alts]
    rw [this]; rfl
  · refine ⟨h.frames, h.alts, h.graph, h.dataset, h.arrays, ?_, h.work⟩
    intro p hp
    simp only [Option.some.injEq] at hp
    exact ⟨hp.symm, k, k1⟩

theorem ds_unmangle {E : Env} {A : List Int} {s : St} {i : Nat} (h : DsGood E A s) (ht : s.tree = some i) :
    ∃ t e, unmangle E s = (t, e) ∧ DsGood E A t ∧ DsSame s t ∧
      (if E.treeHas (s.trees i) s.spec = true then e = none ∧ t.dataset = some ⟨s.trees i, s.spec⟩ ∧ t.fixed = some ⟨A, s.spec⟩ else e = some .key) := by
  obtain ⟨u, e, u1, u2, u3, u4⟩ := ds_read h
  have hu : unmangle E s = Out.andThen (u, e) (fun s => if s.fixed = none then Out.andThen (rebuildFixed E s) (fun s => (rebuildWork E s, none)) else (s, none)) := by
    rw [← u1]; rfl
  rw [hu]
  have := u4 i ht
  by_cases hh : E.treeHas (s.trees i) s.spec = true
  · rw [if_pos hh] at this
    obtain ⟨rfl, hd, hg⟩ := this
    simp only [hh, if_true]
    show ∃ t e, (if u.fixed = none then _ else _) = _ ∧ _
    by_cases hf : u.fixed = none
    · rw [if_pos hf]
      obtain ⟨r1, r2⟩ := ds_rebuildFixed u2 hd
      rw [r1]
      obtain ⟨w1, w2⟩ := ds_rebuildWork r2 (by rw [← ht, ← u3.2.2]) (by exact hg)
      refine ⟨_, none, rfl, w2, ?_, rfl, ?_, ?_⟩
      · rw [w1]; exact u3
      · rw [w1]; exact hd
      · rw [w1]; show some (⟨A, u.spec⟩ : Pos) = _; rw [u3.2.1]
    · rw [if_neg hf]
      obtain ⟨p, hp⟩ := Option.ne_none_iff_exists'.mp hf
      refine ⟨u, none, rfl, u2, u3, rfl, hd, ?_⟩
      rw [hp, (u2.fixed p hp).1, u3.2.1]
  · rw [if_neg hh] at this
    subst this
    simp only [hh]
    exact ⟨u, _, rfl, u2, u3, rfl⟩

theorem ds_prepare {E : Env} {A : List Int} {s : St} (h : DsGood E A s) (allow : Bool) :
    DsGood E A (prepare E allow s).1 ∧ DsSame s (prepare E allow s).1 ∧ outcome E allow s = shouldUse E (s.tree.map s.trees) s.spec allow := by
  have hout : outcome E allow s = (match (prepare E allow s).2 with | some e => .error e | none => use (prepare E allow s).1) := rfl
  rw [hout]
  cases ht : s.tree with
  | none =>
    have e : prepare E allow s = (s, some .missing) := by unfold prepare; rw [if_pos ⟨h.frames, ht⟩]
    rw [e]
    exact ⟨h, ⟨rfl, rfl, rfl⟩, rfl⟩
  | some i =>
    obtain ⟨u, e, u1, u2, u3, u4⟩ := ds_unmangle h ht
    have hp : prepare E allow s = Out.andThen (Out.andThen (u, e) (checkCh E allow)) (ensureWork E) := by
      unfold prepare; rw [if_neg (by simp [ht]), u1]
    by_cases hh : E.treeHas (s.trees i) s.spec = true
    · rw [if_pos hh] at u4
      obtain ⟨rfl, hd, hf⟩ := u4
      have hc : checkCh E allow u = if E.specCh s.spec || allow then ({ u with mangled := false }, none) else ({ u with mangled := false }, some .missing) := by
        unfold checkCh
        split
        · rename_i j hj
          rw [u2.frames] at hj
          simp at hj
        · rw [ds_read_loaded u2 hd]
          show (if u.dataset.all _ || allow then _ else _) = _
          have ha : u.dataset.all (fun d => E.specCh d.spec) = E.specCh s.spec := by rw [hd]; rfl
          rw [ha]
      by_cases hs : (E.specCh s.spec || allow) = true
      · rw [if_pos hs] at hc
        have hp2 : prepare E allow s = ensureWork E { u with mangled := false } := by
          rw [hp]
          show Out.andThen (checkCh E allow u) (ensureWork E) = _
          rw [hc]; rfl
        obtain ⟨k0, k, k1, k2, k3, k4⟩ := u2.dataset _ hd
        have hk : k = i := by rw [u3.2.2, ht] at k1; simpa using k1.symm
        subst hk
        have hu := ds_unset u2 false
        obtain ⟨w1, w2⟩ := ds_rebuildWork hu (by exact k1) (by exact k0)
        have fin : ∀ t : St, prepare E allow s = (t, none) → t.fixed = u.fixed → t.arrays = u.arrays → t.work = some ((u.trees k).cases, A.length + 1) →
            (match (prepare E allow s).2 with | some e => Except.error e | none => use (prepare E allow s).1) = shouldUse E ((some k).map s.trees) s.spec allow := by
          intro t e1 e2 e3 e4
          rw [e1]
          show use t = _
          unfold use
          rw [e2, e3, e4, hf, k4]
          simp only [if_true]
          unfold shouldUse
          simp only [Option.map_some]
          rw [if_neg (by simp [hh]), if_neg (by rcases Bool.or_eq_true_iff.mp hs with e | e <;> simp [e]), h.alts, u3.1, u3.2.1]
        cases hw : u.work with
        | none =>
          have e1 : prepare E allow s = (rebuildWork E { u with mangled := false }, none) := by
            rw [hp2]; unfold ensureWork; rw [if_pos hw]
          refine ⟨by rw [e1]; exact w2, by rw [e1, w1]; exact u3, fin _ e1 (by rw [w1]) (by rw [w1]) (by rw [w1])⟩
        | some w =>
          have e1 : prepare E allow s = ({ u with mangled := false }, none) := by
            rw [hp2]; unfold ensureWork; rw [if_neg (by simp [hw])]
          obtain ⟨q, q1, q2⟩ := u2.work w hw
          have hq : q = k := by rw [k1] at q1; simpa using q1.symm
          subst hq
          refine ⟨by rw [e1]; exact hu, by rw [e1]; exact u3, fin _ e1 rfl rfl (by rw [← q2]; exact hw)⟩
      · rw [if_neg hs] at hc
        have hp2 : prepare E allow s = ({ u with mangled := false }, some .missing) := by
          rw [hp]
          show Out.andThen (checkCh E allow u) (ensureWork E) = _
          rw [hc]; rfl
        rw [hp2]
        refine ⟨ds_unset u2 false, u3, ?_⟩
        unfold shouldUse
        simp only [Option.map_some]
        rw [if_neg (by simp [hh]), if_pos (by simpa using hs)]
    · rw [if_neg hh] at u4
      subst u4
      have hp2 : prepare E allow s = (u, some .key) := hp
      rw [hp2]
      refine ⟨u2, u3, ?_⟩
      unfold shouldUse
      simp only [Option.map_some]
      rw [if_pos (by simpa using hh)]

theorem ds_run {E : Env} {A : List Int} (ops : List Op) : ∀ s : St, DsGood E A s → TreesOnly A s.tree ops →
    DsGood E A (run E s ops) ∧ (run E s ops).tree = lastTree s.tree ops ∧ (run E s ops).spec = lastSpec s.spec ops ∧
    ∀ i, (run E s ops).trees i = lastContent i (s.trees i) ops := by
  induction ops with
  | nil => exact fun s h _ => ⟨h, rfl, rfl, fun _ => rfl⟩
  | cons o ops ih =>
    intro s h ho
    have quiet : ∀ t : St, DsGood E A t → DsSame s t → TreesOnly A s.tree ops →
        DsGood E A (run E t ops) ∧ (run E t ops).tree = lastTree s.tree ops ∧ (run E t ops).spec = lastSpec s.spec ops ∧
        ∀ i, (run E t ops).trees i = lastContent i (s.trees i) ops := by
      intro t g e k
      have := ih t g (by rw [e.2.2]; exact k)
      rw [e.1, e.2.1, e.2.2] at this
      exact this
    cases o with
    | setFrames j => exact ho.elim
    | setDataset d => exact ho.elim
    | setTree t =>
      show DsGood E A (run E (setTree s t) ops) ∧ (run E (setTree s t) ops).tree = lastTree t ops ∧ (run E (setTree s t) ops).spec = lastSpec s.spec ops ∧
        ∀ i, (run E (setTree s t) ops).trees i = lastContent i (s.trees i) ops
      unfold setTree
      by_cases e : t = s.tree
      · rw [if_pos e]
        subst e
        exact ih s h ho
      · rw [if_neg e]
        exact ih (mangle { s with tree := t }) (ds_mangle h.frames h.alts h.graph) ho
    | delDataset =>
      refine quiet (delDataset s) ⟨h.frames, h.alts, h.graph, ?_, fun _ => rfl, h.fixed, h.work⟩ ⟨rfl, rfl, rfl⟩ ho
      intro d hd
      simp [delDataset] at hd
    | readDataset =>
      obtain ⟨t, e, r1, r2, r3, _⟩ := ds_read h
      have : step E s .readDataset = t := by show (readDataset E s).1 = t; rw [r1]
      show DsGood E A (run E (step E s .readDataset) ops) ∧ _
      rw [this]
      have q := quiet t r2 r3 ho
      refine ⟨q.1, ?_, ?_, ?_⟩
      · show (run E (step E s .readDataset) ops).tree = _; rw [this]; exact q.2.1
      · show (run E (step E s .readDataset) ops).spec = _; rw [this]; exact q.2.2.1
      · show ∀ i, (run E (step E s .readDataset) ops).trees i = _; rw [this]; exact q.2.2.2
    | editSpec n => exact ih (mangle { s with spec := n }) (ds_mangle h.frames h.alts h.graph) ho
    | evaluate allow =>
      obtain ⟨r1, r2, _⟩ := ds_prepare h allow
      exact quiet _ r1 r2 ho
    | editTree i T =>
      obtain ⟨h1, h2, h3⟩ := ho
      have key : ∀ k, s.tree = some k → (if k = i then T else s.trees k) = s.trees k := by
        intro k hk
        rw [if_neg]
        rintro rfl
        exact h1 hk
      have g : DsGood E A { s with trees := fun k => if k = i then T else s.trees k } := by
        refine ⟨h.frames, ?_, h.graph, ?_, h.arrays, h.fixed, ?_⟩
        · intro k
          show (if k = i then T else s.trees k).alts = A
          split
          · exact h2
          · exact h.alts k
        · intro d hd
          obtain ⟨k0, k, k1, k2, k3, k4⟩ := h.dataset d hd
          refine ⟨k0, k, k1, ?_, ?_, ?_⟩
          · show d = ⟨if k = i then T else s.trees k, s.spec⟩; rw [key k k1]; exact k2
          · show E.treeHas (if k = i then T else s.trees k) s.spec = true; rw [key k k1]; exact k3
          · show s.arrays = some ⟨(if k = i then T else s.trees k).data, (if k = i then T else s.trees k).cases, s.spec, A, false⟩; rw [key k k1]; exact k4
        · intro w hw
          obtain ⟨k, k1, k2⟩ := h.work w hw
          refine ⟨k, k1, ?_⟩
          show w = ((if k = i then T else s.trees k).cases, A.length + 1)
          rw [key k k1]; exact k2
      exact ih _ g h3

/-- **C131.**  After any history of assigning data trees with the same alternatives, editing the specification, deleting and reading the prepared data,
evaluating (with whatever exceptions) and editing other trees, an evaluation uses the contents of the tree assigned last with the present specification,
and fails exactly if that tree lacks something asked for, or there is none. -/
theorem C131_trees (E : Env) (A : List Int) (trees : Nat → Tree) (hA : ∀ i, (trees i).alts = A) (spec : Nat) (ops : List Op) (h : TreesOnly A none ops)
    (allow : Bool) :
    outcome E allow (run E (new trees spec) ops)
      = shouldUse E ((lastTree none ops).map (fun i => lastContent i (trees i) ops)) (lastSpec spec ops) allow := by
  have h0 : DsGood E A (new trees spec) := by refine ⟨rfl, hA, Or.inl rfl, ?_, fun _ => rfl, ?_, ?_⟩ <;> simp [new]
  obtain ⟨r1, r2, r3, r4⟩ := ds_run ops (new trees spec) h0 h
  rw [(ds_prepare r1 allow).2.2, r2, r3]
  congr 1
  have : (run E (new trees spec) ops).trees = fun i => lastContent i (trees i) ops := funext r4
  rw [this]; rfl

/-! ## Concrete models -/

/-- Every tree has everything, and choices are asked for. -/
def dsEnv : Env where
  treeHas := fun _ _ => true
  frmHas := fun F n => F.data != 9 || n == 0
  specCh := fun _ => true
  frms := fun j => ⟨[1, 2], j + 1, 100 + j, j != 5⟩

/-- Trees 0 to 3 with two alternatives, the others with three; tree `i` has `i + 5` cases. -/
def dsTrees (i : Nat) : Tree := ⟨if i < 4 then [1, 2] else if i < 8 then [3, 4] else [1, 2, 3], i + 5, i⟩

example : TreesOnly [1, 2] none [.setTree (some 0), .evaluate false, .editTree 1 ⟨[1, 2], 7, 70⟩, .setTree (some 1), .editSpec 3, .evaluate true, .delDataset] :=
  ⟨by simp, rfl, trivial⟩

example : outcome dsEnv false (run dsEnv (new (fun i => ⟨[1, 2], i + 5, i⟩) 0)
    [.setTree (some 0), .evaluate false, .editTree 1 ⟨[1, 2], 7, 70⟩, .setTree (some 1), .editSpec 3, .evaluate true, .delDataset])
    = .ok ⟨70, 7, 3, [1, 2], false, ⟨[1, 2], 3⟩⟩ := by decide

/-- **C131 fails.**  A model that has been evaluated keeps the nesting graph made of its first data: with a tree of as many other alternatives, the evaluation
is made with the old ones; with a tree of more alternatives, it raises. -/
theorem C131_fails_alternatives :
    (outcome dsEnv false (run dsEnv (new dsTrees 0) [.setTree (some 0), .evaluate false, .setTree (some 4)])
        = .ok ⟨4, 9, 0, [1, 2], false, ⟨[3, 4], 0⟩⟩ ∧
      shouldUse dsEnv (some (dsTrees 4)) 0 false = .ok ⟨4, 9, 0, [3, 4], false, ⟨[3, 4], 0⟩⟩) ∧
    (outcome dsEnv false (run dsEnv (new dsTrees 0) [.setTree (some 0), .evaluate false, .setTree (some 8)]) = .error .value ∧
      outcome dsEnv false (run dsEnv (new dsTrees 0) [.setTree (some 8)]) = .ok ⟨8, 13, 0, [1, 2, 3], false, ⟨[1, 2, 3], 0⟩⟩) := by
  decide

/-- **C131 fails.**  A tree that was edited is not loaded again when it is assigned again. -/
theorem C131_fails_same_tree :
    outcome dsEnv false (run dsEnv (new dsTrees 0) [.setTree (some 0), .evaluate false, .editTree 0 ⟨[1, 2], 20, 30⟩, .setTree (some 0)])
      = .ok ⟨0, 5, 0, [1, 2], false, ⟨[1, 2], 0⟩⟩ ∧
    shouldUse dsEnv (some ⟨[1, 2], 20, 30⟩) 0 false = .ok ⟨30, 20, 0, [1, 2], false, ⟨[1, 2], 0⟩⟩ := by
  decide

/-- **C131 fails.**  Whatever the state of a model with a graph (any model evaluated before), a prepared data set assigned to it makes evaluations raise. -/
theorem C131_fails_dataset (E : Env) (s : St) (d : DS) (allow : Bool) (hg : s.graph ≠ none) :
    ∃ e, outcome E allow (setDataset s d) = .error e := by
  obtain ⟨trees, spec, mangled, tree, frames, graph, dataset, arrays, fixed, work⟩ := s
  obtain ⟨g, rfl⟩ := Option.ne_none_iff_exists'.mp (hg : graph ≠ none)
  have hsup : ∀ (m : Bool) (dd : DS) (f : Option Pos) (w : Option (Nat × Nat)), ∃ b e, superUnmangle E ⟨trees, spec, m, tree, frames, some g, some dd, none, f, w⟩
      = (⟨trees, spec, b, tree, frames, some g, some dd, none, f, w⟩, e) := by
    intro m dd f w
    unfold superUnmangle
    have : getGraph E ⟨trees, spec, m, tree, frames, some g, some dd, none, f, w⟩ = ⟨trees, spec, m, tree, frames, some g, some dd, none, f, w⟩ := rfl
    rw [this]
    split
    · split
      · exact ⟨_, _, rfl⟩
      · exact ⟨_, _, rfl⟩
    · exact ⟨_, _, rfl⟩
  have hread : ∀ (m : Bool) (f : Option Pos) (w : Option (Nat × Nat)), ∃ b e, readDataset E ⟨trees, spec, m, tree, frames, some g, some d, none, f, w⟩
      = (⟨trees, spec, b, tree, frames, some g, some d, none, f, w⟩, e) := by
    intro m f w
    obtain ⟨b, e, hb⟩ := hsup m d f w
    unfold readDataset
    rw [hb]
    cases e with
    | some e => exact ⟨b, some e, rfl⟩
    | none => exact ⟨b, none, rfl⟩
  have hun : ∀ m f w, ∃ t e, unmangle E ⟨trees, spec, m, tree, frames, some g, some d, none, f, w⟩ = (t, e) ∧ t.arrays = none ∧
      ∃ b f w, t = ⟨trees, spec, b, tree, frames, some g, some d, none, f, w⟩ := by
    intro m f w
    obtain ⟨b, e, hb⟩ := hread m f w
    have hu : unmangle E ⟨trees, spec, m, tree, frames, some g, some d, none, f, w⟩
        = Out.andThen (readDataset E ⟨trees, spec, m, tree, frames, some g, some d, none, f, w⟩)
          (fun s => if s.fixed = none then Out.andThen (rebuildFixed E s) (fun s => (rebuildWork E s, none)) else (s, none)) := rfl
    rw [hu, hb]
    cases e with
    | some e => exact ⟨_, some e, rfl, rfl, b, f, w, rfl⟩
    | none =>
      show ∃ t e, (if f = none then _ else _) = _ ∧ _
      by_cases hf : f = none
      · rw [if_pos hf]
        obtain ⟨b2, e2, hb2⟩ := hread b f w
        unfold rebuildFixed
        rw [hb2]
        cases e2 with
        | some e2 => exact ⟨_, some e2, rfl, rfl, b2, f, w, rfl⟩
        | none => exact ⟨_, none, rfl, rfl, b2, _, _, rfl⟩
      · rw [if_neg hf]
        exact ⟨_, none, rfl, rfl, b, f, w, rfl⟩
  have hout : ∀ s' : St, outcome E allow s' = (match (prepare E allow s').2 with | some e => .error e | none => use (prepare E allow s').1) := fun _ => rfl
  have huse : ∀ t : St, t.arrays = none → ∃ e, use t = .error e := by
    intro t ht
    unfold use
    rw [ht]
    cases t.fixed with
    | none => exact ⟨_, rfl⟩
    | some p => exact ⟨_, rfl⟩
  have fin : ∀ o : Out, o.1.arrays = none → ∃ e, (match o.2 with | some e => Except.error e | none => use o.1) = .error e := by
    intro o ho
    obtain ⟨t, e⟩ := o
    cases e with
    | some e => exact ⟨e, rfl⟩
    | none => exact huse t ho
  rw [hout]
  apply fin
  show (prepare E allow ⟨trees, spec, mangled, tree, frames, some g, some d, none, fixed, work⟩).1.arrays = none
  unfold prepare
  split
  · rfl
  obtain ⟨t, e, ht, ha, b, f, w, hs⟩ := hun mangled fixed work
  rw [ht]
  cases e with
  | some e => exact ha
  | none =>
    show (Out.andThen (checkCh E allow t) (ensureWork E)).1.arrays = none
    have hc : (checkCh E allow t).1.arrays = none := by
      rw [hs]
      unfold checkCh
      cases frames with
      | some j =>
        show (if (E.frms j).hasCh = true then _ else _ : Out).1.arrays = none
        split
        · rfl
        · split
          · rfl
          · rfl
      | none =>
        obtain ⟨b3, e3, h3⟩ := hread b f w
        show (Out.andThen (readDataset E _) _).1.arrays = none
        rw [h3]
        cases e3 with
        | some e3 => rfl
        | none =>
          show (if _ then _ else _ : Out).1.arrays = none
          split <;> rfl
    unfold Out.andThen
    cases h2 : (checkCh E allow t).2 with
    | some e => exact hc
    | none =>
      show (if _ then rebuildWork E (checkCh E allow t).1 else (checkCh E allow t).1).arrays = none
      split
      · exact hc
      · exact hc

/-- **C131 fails.**  `DataFrames` assigned to a model with a data tree are not used: with as many cases the tree's data are, with another number the
evaluation raises. -/
theorem C131_fails_frames :
    (∃ u, outcome dsEnv false (run dsEnv (new dsTrees 0) [.setTree (some 0), .evaluate false, .setFrames 4]) = .ok u ∧ u.data = 0 ∧ (dsEnv.frms 4).data = 104) ∧
    outcome dsEnv false (run dsEnv (new dsTrees 0) [.setTree (some 0), .evaluate false, .setFrames 1]) = .error .value ∧
    (∃ u, outcome dsEnv false (run dsEnv (new dsTrees 0) [.setFrames 1]) = .ok u ∧ u.data = 101) := by
  refine ⟨⟨⟨0, 5, 0, [1, 2], false, ⟨[1, 2], 0⟩⟩, by decide, rfl, rfl⟩, by decide, ⟨⟨101, 2, 0, [1, 2], false, ⟨[1, 2], 0⟩⟩, by decide, rfl⟩⟩

/-- **C131 fails.**  A data tree assigned to a model that had `DataFrames` is used only if the old `DataFrames` are complete too: without choices in them,
the log likelihood cannot be computed. -/
theorem C131_fails_old_frames :
    outcome dsEnv false (run dsEnv (new dsTrees 0) [.setFrames 5, .setTree (some 0)]) = .error .missing ∧
    (∃ u, outcome dsEnv true (run dsEnv (new dsTrees 0) [.setFrames 5, .setTree (some 0)]) = .ok u ∧ u.data = 0 ∧ u.blank = true) ∧
    (∃ u, outcome dsEnv false (run dsEnv (new dsTrees 0) [.setTree (some 0)]) = .ok u ∧ u.data = 0) := by
  refine ⟨by decide, ⟨⟨0, 5, 0, [1, 2], true, ⟨[1, 2], 0⟩⟩, by decide, rfl, rfl⟩, ⟨⟨0, 5, 0, [1, 2], false, ⟨[1, 2], 0⟩⟩, by decide, rfl⟩⟩

end Larch.Props
