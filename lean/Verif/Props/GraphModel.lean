import Verif.Model.GraphModel
import Verif.Props.GraphSlots

/-!
# C55-C58: the graph inside a model
-/

namespace Larch.Props

open Larch.Graph

/-! ## C55: cached orders are current -/

/-- Everything stored agrees with the graph. -/
structure Fresh (s : S) : Prop where
  topo : ∀ l, s.topo = some l → Graph.topo s.g = some l
  nests : ∀ l, s.nests = some l → Graph.nests s.g = some l
  elem : ∀ l, s.elem = some l → elementals s.g = some l
  std : ∀ l, s.std = some l → standardSort s.g = some l
  smap : ∀ l, s.smap = some l → standardSort s.g = some l
  succ : ∀ c l, s.succ c = some l → (standardSort s.g).bind (fun std => successorSlots s.g std c) = some l
  pred : ∀ c l, s.pred c = some l → (standardSort s.g).bind (fun std => predecessorSlots s.g std c) = some l

theorem fresh_clear (g : G) (t : Nat) : Fresh { g := g, touches := t } := by
  constructor <;> simp

theorem readTopo_spec {s : S} (h : Fresh s) :
    s.readTopo.1 = Graph.topo s.g ∧ Fresh s.readTopo.2 ∧ s.readTopo.2.g = s.g := by
  unfold S.readTopo
  cases hc : s.topo with
  | some l => exact ⟨(h.topo l hc).symm, h, rfl⟩
  | none =>
    simp only
    cases ht : Graph.topo s.g with
    | none => exact ⟨rfl, h, rfl⟩
    | some l =>
      refine ⟨rfl, ⟨?_, h.nests, h.elem, h.std, h.smap, h.succ, h.pred⟩, rfl⟩
      intro l' hl'
      rw [← hl']; exact ht

theorem readNests_spec {s : S} (h : Fresh s) :
    s.readNests.1 = Graph.nests s.g ∧ Fresh s.readNests.2 ∧ s.readNests.2.g = s.g := by
  unfold S.readNests
  cases hc : s.nests with
  | some l => exact ⟨(h.nests l hc).symm, h, rfl⟩
  | none =>
    simp only
    obtain ⟨h1, h2, h3⟩ := readTopo_spec h
    rcases hr : s.readTopo with ⟨_ | l, s'⟩
    · rw [hr] at h1 h2 h3
      simp only at h1 h2 h3
      refine ⟨?_, h2, h3⟩
      simp [Graph.nests, ← h1]
    · rw [hr] at h1 h2 h3
      simp only at h1 h2 h3
      have hv : Graph.nests s.g = some (l.filter (fun n => s'.g.outDeg n ≠ 0)) := by
        simp [Graph.nests, ← h1, h3]
      refine ⟨hv.symm, ⟨h2.topo, ?_, h2.elem, h2.std, h2.smap, h2.succ, h2.pred⟩, h3⟩
      intro l' hl'
      simp only [h3]
      rw [hv]; exact hl'

theorem readElem_spec {s : S} (h : Fresh s) :
    s.readElem.1 = elementals s.g ∧ Fresh s.readElem.2 ∧ s.readElem.2.g = s.g := by
  unfold S.readElem
  cases hc : s.elem with
  | some l => exact ⟨(h.elem l hc).symm, h, rfl⟩
  | none =>
    simp only
    cases ht : elementals s.g with
    | none => exact ⟨rfl, h, rfl⟩
    | some l =>
      refine ⟨rfl, ⟨h.topo, h.nests, ?_, h.std, h.smap, h.succ, h.pred⟩, rfl⟩
      intro l' hl'
      rw [← hl']; exact ht

theorem readStd_spec {s : S} (h : Fresh s) :
    s.readStd.1 = standardSort s.g ∧ Fresh s.readStd.2 ∧ s.readStd.2.g = s.g := by
  unfold S.readStd
  cases hc : s.std with
  | some l => exact ⟨(h.std l hc).symm, h, rfl⟩
  | none =>
    simp only
    obtain ⟨h1, h2, h3⟩ := readElem_spec h
    rcases hr : s.readElem with ⟨_ | a, s'⟩
    · rw [hr] at h1 h2 h3
      simp only at h1 h2 h3
      refine ⟨?_, h2, h3⟩
      simp [standardSort, ← h1]
    · rw [hr] at h1 h2 h3
      simp only at h1 h2 h3
      obtain ⟨k1, k2, k3⟩ := readNests_spec h2
      simp only
      rcases hn : s'.readNests with ⟨_ | b, s''⟩
      · rw [hn] at k1 k2 k3
        simp only at k1 k2 k3
        rw [h3] at k1
        refine ⟨?_, k2, k3.trans h3⟩
        simp [standardSort, ← h1, ← k1]
      · rw [hn] at k1 k2 k3
        simp only at k1 k2 k3
        rw [h3] at k1
        have hv : standardSort s.g = some (a ++ b) := by simp [standardSort, ← h1, ← k1]
        refine ⟨hv.symm, ⟨k2.topo, k2.nests, k2.elem, ?_, k2.smap, k2.succ, k2.pred⟩, k3.trans h3⟩
        intro l' hl'
        simp only [k3, h3]
        rw [hv]; exact hl'

theorem readMap_spec {s : S} (h : Fresh s) :
    s.readMap.1 = standardSort s.g ∧ Fresh s.readMap.2 ∧ s.readMap.2.g = s.g := by
  unfold S.readMap
  cases hc : s.smap with
  | some l => exact ⟨(h.smap l hc).symm, h, rfl⟩
  | none =>
    simp only
    obtain ⟨h1, h2, h3⟩ := readStd_spec h
    rcases hr : s.readStd with ⟨_ | a, s'⟩
    · rw [hr] at h1 h2 h3
      exact ⟨h1, h2, h3⟩
    · rw [hr] at h1 h2 h3
      simp only at h1 h2 h3
      refine ⟨h1, ⟨h2.topo, h2.nests, h2.elem, h2.std, ?_, h2.succ, h2.pred⟩, h3⟩
      intro l' hl'
      simp only [h3]
      rw [← h1]; exact hl'

theorem readSucc_spec {s : S} (h : Fresh s) (c : Int) :
    (s.readSucc c).1 = (standardSort s.g).bind (fun std => successorSlots s.g std c) ∧ Fresh (s.readSucc c).2 ∧
      (s.readSucc c).2.g = s.g := by
  unfold S.readSucc
  cases hc : s.succ c with
  | some l => exact ⟨(h.succ c l hc).symm, h, rfl⟩
  | none =>
    simp only
    obtain ⟨h1, h2, h3⟩ := readMap_spec h
    rcases hr : s.readMap with ⟨_ | std, s'⟩
    · rw [hr] at h1 h2 h3
      simp only at h1 h2 h3
      exact ⟨by simp [← h1], h2, h3⟩
    · rw [hr] at h1 h2 h3
      simp only at h1 h2 h3
      simp only
      cases hs : successorSlots s'.g std c with
      | none =>
        refine ⟨?_, h2, h3⟩
        rw [← h1, Option.bind_some, ← h3, hs]
      | some l =>
        have hv : (standardSort s.g).bind (fun std => successorSlots s.g std c) = some l := by
          rw [← h1, Option.bind_some, ← h3, hs]
        refine ⟨hv.symm, ⟨h2.topo, h2.nests, h2.elem, h2.std, h2.smap, ?_, h2.pred⟩, h3⟩
        intro d l' hl'
        by_cases hd : d = c
        · subst hd
          simp only [Function.update_self, Option.some.injEq] at hl'
          simp only [h3]
          rw [hv, hl']
        · simp only [Function.update_of_ne hd] at hl'
          exact h2.succ d l' hl'

theorem readPred_spec {s : S} (h : Fresh s) (c : Int) :
    (s.readPred c).1 = (standardSort s.g).bind (fun std => predecessorSlots s.g std c) ∧ Fresh (s.readPred c).2 ∧
      (s.readPred c).2.g = s.g := by
  unfold S.readPred
  cases hc : s.pred c with
  | some l => exact ⟨(h.pred c l hc).symm, h, rfl⟩
  | none =>
    simp only
    obtain ⟨h1, h2, h3⟩ := readMap_spec h
    rcases hr : s.readMap with ⟨_ | std, s'⟩
    · rw [hr] at h1 h2 h3
      simp only at h1 h2 h3
      exact ⟨by simp [← h1], h2, h3⟩
    · rw [hr] at h1 h2 h3
      simp only at h1 h2 h3
      simp only
      cases hs : predecessorSlots s'.g std c with
      | none =>
        refine ⟨?_, h2, h3⟩
        rw [← h1, Option.bind_some, ← h3, hs]
      | some l =>
        have hv : (standardSort s.g).bind (fun std => predecessorSlots s.g std c) = some l := by
          rw [← h1, Option.bind_some, ← h3, hs]
        refine ⟨hv.symm, ⟨h2.topo, h2.nests, h2.elem, h2.std, h2.smap, h2.succ, ?_⟩, h3⟩
        intro d l' hl'
        by_cases hd : d = c
        · subst hd
          simp only [Function.update_self, Option.some.injEq] at hl'
          simp only [h3]
          rw [hv, hl']
        · simp only [Function.update_of_ne hd] at hl'
          exact h2.pred d l' hl'

/-- Calls that the caches can follow: no `suggest_elemental_order`, no inherited bulk method, and no call that raises after it has
changed the graph (`add_node` with a wrong `phi_parameters`). -/
def Careful (s : S) : Call → Prop
  | .edit (.suggest _) => False
  | .edit o => (step s.g o).2 = true → (step s.g o).1 = s.g
  | .addEdgesFrom _ => False
  | _ => True

def CarefulRun : S → List Call → Prop
  | _, [] => True
  | s, c :: cs => Careful s c ∧ CarefulRun (s.call c) cs

theorem fresh_call {s : S} (h : Fresh s) (c : Call) (hc : Careful s c) : Fresh (s.call c) := by
  cases c with
  | topo => exact (readTopo_spec h).2.1
  | nests => exact (readNests_spec h).2.1
  | elem => exact (readElem_spec h).2.1
  | std => exact (readStd_spec h).2.1
  | succ c => exact (readSucc_spec h c).2.1
  | pred c => exact (readPred_spec h c).2.1
  | addEdgesFrom es => exact absurd hc id
  | edit o =>
    have key : (∀ l, o ≠ .suggest l) → ((step s.g o).2 = true → (step s.g o).1 = s.g) → Fresh (s.edit o) := by
      intro hns hr
      have he : s.edit o = if (step s.g o).2 then { s with g := (step s.g o).1 } else { s.clear with g := (step s.g o).1 } := by
        cases o with
        | suggest l => exact absurd rfl (hns l)
        | _ => rfl
      rw [he]
      split
      · rename_i hh
        rw [hr hh]; exact h
      · exact fresh_clear _ _
    cases o with
    | suggest l => exact absurd hc id
    | addEdge u v i p => exact key (by simp) hc
    | removeEdge u v => exact key (by simp) hc
    | addNode c a => exact key (by simp) hc
    | newNode c a => exact key (by simp) hc
    | removeNode n => exact key (by simp) hc
    | setRoot x => exact key (by simp) hc

/-- C55: after any history of such calls, in any interleaving with reads, what the tree reports as its orders and slots is what they
are for the graph as it is now.  (Missing for the full C55: `C55_fails_*`.) -/
theorem C55_orders_current_partial (r : Int) (cs : List Call) (h : CarefulRun { g := new r } cs) :
    let s := S.run { g := new r } cs
    s.readTopo.1 = Graph.topo s.g ∧ s.readElem.1 = elementals s.g ∧ s.readStd.1 = standardSort s.g ∧
      (∀ c, (s.readSucc c).1 = (standardSort s.g).bind (fun std => successorSlots s.g std c)) ∧
      (∀ c, (s.readPred c).1 = (standardSort s.g).bind (fun std => predecessorSlots s.g std c)) := by
  have key : ∀ s : S, Fresh s → CarefulRun s cs → Fresh (S.run s cs) := by
    clear h
    induction cs with
    | nil => intro s hs _; exact hs
    | cons c t ih => intro s hs hc; exact ih (s.call c) (fresh_call hs c hc.1) hc.2
  have hf := key _ (fresh_clear (new r) 0) h
  exact ⟨(readTopo_spec hf).1, (readElem_spec hf).1, (readStd_spec hf).1, fun c => (readSucc_spec hf c).1,
    fun c => (readPred_spec hf c).1⟩

/-- C55, the owning model: a call that changes the graph and does not raise tells the model to rebuild its arrays (except
`suggest_elemental_order`). -/
theorem C55_model_told (s : S) (o : Op) (h1 : ∀ l, o ≠ .suggest l) (h2 : (step s.g o).2 = false) :
    (s.call (.edit o)).touches = s.touches + 1 ∧ (s.call (.edit o)).g = (step s.g o).1 := by
  have he : s.edit o = if (step s.g o).2 then { s with g := (step s.g o).1 } else { s.clear with g := (step s.g o).1 } := by
    cases o with
    | suggest l => exact absurd rfl (h1 l)
    | _ => rfl
  simp [S.call, he, h2, S.clear]

example : CarefulRun { g := new 0 } [.edit (.addNode 1 {}), .std, .edit (.addNode 2 {}), .edit (.removeEdge 5 5), .succ 0,
      .edit (.newNode none { children := [2] }), .std, .pred 2] ∧
    (S.run { g := new 0 } [.edit (.addNode 1 {}), .std, .edit (.addNode 2 {}), .edit (.removeEdge 5 5), .succ 0,
      .edit (.newNode none { children := [2] }), .std, .pred 2]).readStd.1 = some [1, 2, 3, 0] := by
  refine ⟨?_, by decide +kernel⟩
  simp only [CarefulRun, Careful, and_true, true_and]
  refine ⟨fun h => ?_, fun h => ?_, fun _ => rfl, fun h => ?_⟩ <;> exact absurd h (by decide +kernel)

/-- C55 fails: `suggest_elemental_order` after the orders were read has no effect on them (and does not tell the model). -/
theorem C55_fails_suggest :
    ∃ cs, let s := S.run { g := new 0 } cs
      s.readStd.1 = some [1, 2, 0] ∧ standardSort s.g = some [2, 1, 0] ∧
        s.touches = (S.run { g := new 0 } cs.dropLast).touches :=
  ⟨[.edit (.addNode 1 {}), .edit (.addNode 2 {}), .std, .edit (.suggest [2, 1])], by decide +kernel⟩

/-- C55 fails: `add_node` that raises about `phi_parameters` has already added the node; the stored order does not have it, and the
model is not told. -/
theorem C55_fails_after_exception :
    ∃ cs, let s := S.run { g := new 0 } cs
      s.readStd.1 = some [1, 0] ∧ standardSort s.g = some [1, 2, 0] ∧
        s.touches = (S.run { g := new 0 } cs.dropLast).touches :=
  ⟨[.edit (.addNode 1 {}), .std, .edit (.addNode 2 { phi := [(7, "x")] })], by decide +kernel⟩

/-- C55 fails: the inherited `add_edges_from` leaves the stored order as it was. -/
theorem C55_fails_bulk :
    ∃ cs, let s := S.run { g := new 0 } cs
      s.readStd.1 = some [1, 2, 0] ∧ standardSort s.g = some [2, 1, 0] ∧
        s.touches = (S.run { g := new 0 } cs.dropLast).touches :=
  ⟨[.edit (.addNode 1 {}), .edit (.addNode 2 {}), .std, .addEdgesFrom [(1, 2)]], by decide +kernel⟩

end Larch.Props
