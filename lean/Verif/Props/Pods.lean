import Verif.Spec.Pods

/-!
# C118: the pods of a data service fit together
-/

namespace Larch.Props

open Larch.Pods

theorem pd_raw_some {l : List Pod} (h : l ≠ []) : ∃ p ∈ l, rawShape l = some p.shape ∧ (p.shape.last = -1 → ∀ q ∈ l, q.shape.last = -1) := by
  unfold rawShape
  cases hf : l.find? (fun p => p.shape.last != -1) with
  | some p =>
    refine ⟨p, List.mem_of_find?_eq_some hf, by simp, fun hp => ?_⟩
    have := List.find?_some hf
    simp [hp] at this
  | none =>
    cases l with
    | nil => exact absurd rfl h
    | cons a r =>
      refine ⟨a, by simp, by simp, fun _ q hq => ?_⟩
      have := List.find?_eq_none.1 hf q hq
      simpa using this

theorem pd_fill_lead {n : Option Int} {s : Shape} (h : ∀ d ∈ s.lead, 0 ≤ d) : (fillWith n s).lead = s.lead := by
  cases n with
  | none => rfl
  | some n =>
    obtain ⟨lead, last⟩ := s
    simp only [fillWith, fillAlts]
    match lead, h with
    | [], _ => rfl
    | [a], _ => dsimp only; split <;> rfl
    | a :: b :: r, h =>
      have hb : b ≠ -1 := by
        have := h b (by simp)
        omega
      simp [hb]

theorem pd_fill_known {n : Option Int} {s : Shape} (h : ∀ d ∈ s.lead, 0 ≤ d) (hl : s.last ≠ -1) : fillWith n s = s := by
  cases n with
  | none => rfl
  | some n =>
    obtain ⟨lead, last⟩ := s
    simp only [fillWith, fillAlts]
    match lead, h with
    | [], _ => rfl
    | [a], _ => simp_all
    | a :: b :: r, h =>
      have hb : b ≠ -1 := by
        have := h b (by simp)
        omega
      simp [hb]

theorem pd_shape_nil {l : PodList} (h : l.items = []) : l.shape = none := by
  simp [PodList.shape, rawShape, h]

/-- The shape of a list: a member has it, up to the filled in number of alternatives. -/
theorem pd_shape_some {l : PodList} (hw : ∀ p ∈ l.items, Proper p.shape) (h : l.items ≠ []) :
    ∃ p ∈ l.items, ∃ s, l.shape = some s ∧ s = fillWith l.nAlts p.shape ∧ s.lead = p.shape.lead ∧ (p.shape.last ≠ -1 → s = p.shape)
      ∧ (p.shape.last = -1 → ∀ q ∈ l.items, q.shape.last = -1) := by
  obtain ⟨p, hp, hr, ho⟩ := pd_raw_some h
  refine ⟨p, hp, fillWith l.nAlts p.shape, by simp [PodList.shape, hr], rfl, pd_fill_lead (hw p hp).lead, fun hk => pd_fill_known (hw p hp).lead hk, ho⟩

theorem pd_fits {s t : Shape} : fits s t = true ↔ Agree s t := by
  obtain ⟨a, b⟩ := s
  obtain ⟨c, d⟩ := t
  simp [fits, Agree]
  tauto

/-- A pod that passes the check agrees with all pods held. -/
theorem pd_check_agree {l : PodList} {p : Pod} (hw : ∀ p ∈ l.items, Proper p.shape) (ha : AllAgree l.items) (h : l.check p = true) :
    ∀ q ∈ l.items, Agree q.shape p.shape := by
  intro q hq
  have hne : l.items ≠ [] := List.ne_nil_of_mem hq
  obtain ⟨m, hm, s, hs, _, hlead, hknown, hopen⟩ := pd_shape_some hw hne
  unfold PodList.check at h
  rw [hs] at h
  have hf := pd_fits.1 h
  have hqm := ha q hq m hm
  refine ⟨by rw [hqm.1, ← hlead, hf.1], ?_⟩
  by_cases hk : m.shape.last = -1
  · exact Or.inr (Or.inl (hopen hk q hq))
  · rw [hknown hk] at hf
    rcases hqm.2 with h1 | h1 | h1
    · rw [h1]; exact hf.2
    · exact Or.inr (Or.inl h1)
    · exact absurd h1 hk

theorem pd_agree_symm {s t : Shape} (h : Agree s t) : Agree t s :=
  ⟨h.1.symm, by rcases h.2 with h | h | h <;> simp [h]⟩

theorem pd_agree_refl (s : Shape) : Agree s s := ⟨rfl, Or.inl rfl⟩

theorem pd_agree_cons {l : List Pod} {p : Pod} (ha : AllAgree l) (h : ∀ q ∈ l, Agree q.shape p.shape) : AllAgree (p :: l) := by
  intro a ha' b hb'
  rcases List.mem_cons.1 ha' with h1 | h1 <;> rcases List.mem_cons.1 hb' with h2 | h2
  · rw [h1, h2]; exact pd_agree_refl _
  · rw [h1]; exact pd_agree_symm (h b h2)
  · rw [h2]; exact h a h1
  · exact ha a h1 b h2

theorem pd_agree_sub {l m : List Pod} (ha : AllAgree l) (h : ∀ p ∈ m, p ∈ l) : AllAgree m :=
  fun a hm b hb => ha a (h a hm) b (h b hb)

theorem pd_insert_mem {l : PodList} {i : Int} {p : Pod} {l' : PodList} (h : l.insert i p = some l') :
    l.check p = true ∧ l'.nAlts = l.nAlts ∧ ∀ q, q ∈ l'.items ↔ q = p ∨ q ∈ l.items := by
  unfold PodList.insert at h
  split at h
  · rename_i hc
    refine ⟨hc, ?_⟩
    cases h
    refine ⟨rfl, fun q => ?_⟩
    dsimp only
    have hpos : insertPos l.items.length i ≤ l.items.length := by
      unfold insertPos; split <;> omega
    rw [List.mem_insertIdx hpos]
  · cases h

theorem pd_set_mem {l : PodList} {i : Int} {p : Pod} {l' : PodList} (h : l.setItem i p = some l') :
    l.check p = true ∧ l'.nAlts = l.nAlts ∧ ∀ q ∈ l'.items, q = p ∨ q ∈ l.items := by
  unfold PodList.setItem at h
  split at h
  · rename_i hc
    refine ⟨hc, ?_⟩
    obtain ⟨k, _, rfl⟩ := Option.map_eq_some_iff.1 h
    exact ⟨rfl, fun q hq => (List.mem_or_eq_of_mem_set hq).symm⟩
  · cases h

theorem pd_del_mem {l : PodList} {i : Int} {l' : PodList} (h : l.delItem i = some l') :
    l'.nAlts = l.nAlts ∧ ∀ q ∈ l'.items, q ∈ l.items := by
  unfold PodList.delItem at h
  obtain ⟨k, _, rfl⟩ := Option.map_eq_some_iff.1 h
  exact ⟨rfl, fun q hq => List.mem_of_mem_eraseIdx hq⟩

/-- What is kept about a list. -/
def PdGood (l : PodList) : Prop := (∀ p ∈ l.items, Proper p.shape) ∧ AllAgree l.items

theorem pd_good_insert {l : PodList} {i : Int} {p : Pod} {l' : PodList} (hg : PdGood l) (hp : Proper p.shape) (h : l.insert i p = some l') : PdGood l' := by
  obtain ⟨hc, _, hm⟩ := pd_insert_mem h
  refine ⟨fun q hq => ?_, pd_agree_sub (pd_agree_cons hg.2 (pd_check_agree hg.1 hg.2 hc)) (fun q hq => ?_)⟩
  · rcases (hm q).1 hq with rfl | h1
    · exact hp
    · exact hg.1 q h1
  · exact List.mem_cons.2 ((hm q).1 hq)

theorem pd_good_step {l : PodList} {o : Op} (hg : PdGood l) (hp : ∀ p ∈ o.pods, Proper p.shape) : PdGood (l.step o) := by
  cases o with
  | insert i p =>
    simp only [PodList.step]
    cases h : l.insert i p with
    | none => exact hg
    | some l' => exact pd_good_insert hg (hp p (by simp [Op.pods])) h
  | set i p =>
    simp only [PodList.step]
    cases h : l.setItem i p with
    | none => exact hg
    | some l' =>
      obtain ⟨hc, _, hm⟩ := pd_set_mem h
      refine ⟨fun q hq => ?_, pd_agree_sub (pd_agree_cons hg.2 (pd_check_agree hg.1 hg.2 hc)) (fun q hq => List.mem_cons.2 (hm q hq))⟩
      rcases hm q hq with rfl | h1
      · exact hp q (by simp [Op.pods])
      · exact hg.1 q h1
  | del i =>
    simp only [PodList.step]
    cases h : l.delItem i with
    | none => exact hg
    | some l' =>
      obtain ⟨_, hm⟩ := pd_del_mem h
      exact ⟨fun q hq => hg.1 q (hm q hq), pd_agree_sub hg.2 hm⟩

theorem pd_good_run (os : List Op) : ∀ {l : PodList}, PdGood l → (∀ o ∈ os, ∀ p ∈ o.pods, Proper p.shape) → PdGood (l.run os) := by
  induction os with
  | nil => intro l hg _; exact hg
  | cons o os ih =>
    intro l hg hp
    exact ih (pd_good_step hg (hp o (by simp))) (fun o' ho' => hp o' (by simp [ho']))

/-- **C118.**  After any calls on a list of pods — of case data, or of data of the alternatives, whatever the number of alternatives — the
shapes of all pods in it agree. -/
theorem C118_pods_agree (nAlts : Option Int) (os : List Op) (hp : ∀ o ∈ os, ∀ p ∈ o.pods, Proper p.shape) :
    AllAgree ((PodList.mk nAlts []).run os).items :=
  (pd_good_run os ⟨by simp, by simp [AllAgree]⟩ hp).2

/-- **C118.**  After any calls on a plain list, a pod is accepted exactly if it agrees with every pod in the list, and then it is in the list
with the others. -/
theorem C118_accepted_iff (os : List Op) (hp : ∀ o ∈ os, ∀ p ∈ o.pods, Proper p.shape) (i : Int) (p : Pod) :
    (((PodList.mk none []).run os).insert i p).isSome = true ↔ ∀ q ∈ ((PodList.mk none []).run os).items, Agree q.shape p.shape := by
  have hg : PdGood ((PodList.mk none []).run os) := pd_good_run os ⟨by simp, by simp [AllAgree]⟩ hp
  have hn : ((PodList.mk none []).run os).nAlts = none := by
    have : ∀ (os : List Op) (l : PodList), (l.run os).nAlts = l.nAlts := by
      intro os
      induction os with
      | nil => intro l; rfl
      | cons o os ih =>
        intro l
        show ((l.step o).run os).nAlts = _
        rw [ih]
        cases o with
        | insert i p =>
          simp only [PodList.step]
          cases h : l.insert i p with
          | none => rfl
          | some l' => exact (pd_insert_mem h).2.1
        | set i p =>
          simp only [PodList.step]
          cases h : l.setItem i p with
          | none => rfl
          | some l' => exact (pd_set_mem h).2.1
        | del i =>
          simp only [PodList.step]
          cases h : l.delItem i with
          | none => rfl
          | some l' => exact (pd_del_mem h).1
    exact this os _
  generalize ((PodList.mk none []).run os) = l at hg hn
  constructor
  · intro h
    obtain ⟨l', h'⟩ := Option.isSome_iff_exists.1 h
    exact pd_check_agree hg.1 hg.2 (pd_insert_mem h').1
  · intro h
    have hc : l.check p = true := by
      by_cases hne : l.items = []
      · simp [PodList.check, pd_shape_nil hne]
      · obtain ⟨m, hm, s, hs, hsf, _⟩ := pd_shape_some hg.1 hne
        unfold PodList.check
        rw [hs, hsf, hn]
        exact pd_fits.2 (h m hm)
    simp [PodList.insert, hc]

/-- **C118.**  An accepted pod is in the list, and no other pod is lost. -/
theorem C118_accepted_in (l l' : PodList) (i : Int) (p : Pod) (h : l.insert i p = some l') (q : Pod) :
    q ∈ l'.items ↔ q = p ∨ q ∈ l.items := (pd_insert_mem h).2.2 q

/-- **C118.**  An appended pod is the last: it does not take precedence over those already there. -/
theorem C118_appended_last (l l' : PodList) (p : Pod) (h : l.append p = some l') : l'.items = l.items ++ [p] := by
  unfold PodList.append PodList.insert at h
  split at h
  · cases h
    have : insertPos l.items.length (l.items.length : Int) = l.items.length := by
      unfold insertPos; split <;> omega
    rw [this]
    simp
  · cases h

/-! ## The service -/

theorem pd_fill_last {n : Option Int} {s : Shape} : (fillWith n s).last = s.last ∨ ∃ k, n = some k ∧ (fillWith n s).last = k := by
  cases n with
  | none => exact Or.inl rfl
  | some n =>
    obtain ⟨lead, last⟩ := s
    simp only [fillWith, fillAlts]
    match lead with
    | [] => exact Or.inl rfl
    | [a] => dsimp only; split <;> simp
    | a :: b :: r => dsimp only; split <;> simp

theorem pd_ca_proper {p : Pod} (hp : ProperPod p) (hb : p.broadcasts = true) : Proper p.asCA.shape := by
  refine ⟨fun d hd => ?_, Or.inl rfl, fun h => ?_⟩
  · rcases List.mem_append.1 hd with h | h
    · exact hp.shape.lead d h
    · rw [List.mem_singleton.1 h]; exact hp.known hb
  · simp [Pod.asCA] at h

theorem pd_ca_first (p : Pod) : p.asCA.shape.first = p.shape.first := by
  obtain ⟨i, k, ⟨lead, last⟩, b, nm⟩ := p
  cases lead <;> rfl

/-- All that is kept about a list of a service with `n` cases. -/
def PdFor (n : Int) (l : PodList) : Prop :=
  PdGood l ∧ (∀ p ∈ l.items, p.shape.first = n) ∧ (∀ k, l.nAlts = some k → k = -1 ∨ 0 ≤ k)

theorem pd_for_append {n : Int} {l l' : PodList} {p : Pod} (hg : PdFor n l) (hp : Proper p.shape) (hn : p.shape.first = n)
    (h : l.append p = some l') : PdFor n l' := by
  obtain ⟨_, ha, hm⟩ := pd_insert_mem h
  refine ⟨pd_good_insert hg.1 hp h, fun q hq => ?_, fun k hk => hg.2.2 k (by rw [← ha, hk])⟩
  rcases (hm q).1 hq with rfl | h1
  · exact hn
  · exact hg.2.1 q h1

theorem pd_for_cleanup {n : Int} {l : PodList} (hg : PdFor n l) : PdFor n l.cleanup := by
  by_cases hne : l.items = []
  · have : l.cleanup = l := by
      obtain ⟨a, b⟩ := l
      simp only at hne
      simp [PodList.cleanup, hne]
    rw [this]; exact hg
  · obtain ⟨m, hm, s, hs, hsf, hlead, hknown, hopen⟩ := pd_shape_some hg.1.1 hne
    have hclose : ∀ q : Pod, closeDim l.shape q = if q.shape.last = -1 then { q with shape := ⟨q.shape.lead, s.last⟩ } else q := by
      intro q
      unfold closeDim
      rw [hs]
      rfl
    have hslast : s.last = -1 ∨ 0 ≤ s.last := by
      rw [hsf]
      rcases @pd_fill_last l.nAlts m.shape with h | ⟨k, h1, h2⟩
      · rw [h]; exact (hg.1.1 m hm).last
      · rw [h2]; exact hg.2.2 k h1
    have hmem : ∀ q ∈ l.cleanup.items, ∃ p ∈ l.items, q.shape.lead = p.shape.lead ∧
        ((p.shape.last = -1 ∧ q.shape.last = s.last) ∨ (p.shape.last ≠ -1 ∧ q.shape.last = p.shape.last)) := by
      intro q hq
      obtain ⟨p, hp, rfl⟩ := List.mem_map.1 hq
      refine ⟨p, hp, ?_, ?_⟩
      · rw [hclose]; split <;> rfl
      · rw [hclose]
        split
        · rename_i h; exact Or.inl ⟨h, rfl⟩
        · rename_i h; exact Or.inr ⟨h, rfl⟩
    refine ⟨⟨fun q hq => ?_, fun a ha b hb => ?_⟩, fun q hq => ?_, hg.2.2⟩
    · obtain ⟨p, hp, h1, h2⟩ := hmem q hq
      refine ⟨?_, ?_, ?_⟩
      · rw [h1]; exact (hg.1.1 p hp).lead
      · rcases h2 with ⟨_, h2⟩ | ⟨_, h2⟩
        · rw [h2]; exact hslast
        · rw [h2]; exact (hg.1.1 p hp).last
      · intro h
        have := (hg.1.1 p hp).cases (by rw [← h1, h])
        rcases h2 with ⟨h3, h2⟩ | ⟨_, h2⟩
        · omega
        · rw [h2]; exact this
    · obtain ⟨p, hp, h1, h2⟩ := hmem a ha
      obtain ⟨p', hp', h1', h2'⟩ := hmem b hb
      have hpp := hg.1.2 p hp p' hp'
      refine ⟨by rw [h1, h1', hpp.1], ?_⟩
      have hkn : ∀ r ∈ l.items, r.shape.last ≠ -1 → r.shape.last = s.last := by
        intro r hr hrl
        have hrm := hg.1.2 r hr m hm
        by_cases hk : m.shape.last = -1
        · exact absurd (hopen hk r hr) hrl
        · rw [hknown hk]
          rcases hrm.2 with h | h | h
          · exact h
          · exact absurd h hrl
          · exact absurd h hk
      have ha' : a.shape.last = s.last := by
        rcases h2 with ⟨_, h⟩ | ⟨h3, h⟩
        · exact h
        · rw [h, hkn p hp h3]
      have hb' : b.shape.last = s.last := by
        rcases h2' with ⟨_, h⟩ | ⟨h3, h⟩
        · exact h
        · rw [h, hkn p' hp' h3]
      exact Or.inl (by rw [ha', hb'])
    · obtain ⟨p, hp, h1, h2⟩ := hmem q hq
      have hpf := hg.2.1 p hp
      rw [← hpf]
      unfold Shape.first
      rw [h1]
      cases hl : p.shape.lead with
      | cons a r => simp
      | nil =>
        have := (hg.1.1 p hp).cases hl
        rcases h2 with ⟨h3, _⟩ | ⟨_, h2⟩
        · omega
        · simp [h2]

/-- All that is kept about a service. -/
structure PdSvc (s : Service) : Prop where
  none : s.nCases = none → s.idco.items = [] ∧ s.idca.items = [] ∧ s.idce.items = [] ∧ s.library = []
  lists : ∃ n, (∀ m, s.nCases = some m → m = n) ∧ PdFor n s.idco ∧ PdFor n s.idca ∧ PdFor n s.idce ∧ (∀ e ∈ s.library, ProperPod e.2 ∧ e.2.shape.first = n)

theorem pd_put_mem {lib : List (String × Pod)} {k : String} {p : Pod} {e : String × Pod} (h : e ∈ putEntry lib k p) : e = (k, p) ∨ e ∈ lib := by
  unfold putEntry at h
  split at h
  · obtain ⟨e', he', h'⟩ := List.mem_map.1 h
    split at h'
    · exact Or.inl h'.symm
    · exact Or.inr (h' ▸ he')
  · rcases List.mem_append.1 h with h | h
    · exact Or.inr h
    · exact Or.inl (List.mem_singleton.1 h)

/-- A service with `n` cases noted. -/
structure PdAt (n : Int) (s : Service) : Prop where
  cases : s.nCases = some n
  idco : PdFor n s.idco
  idca : PdFor n s.idca
  idce : PdFor n s.idce
  library : ∀ e ∈ s.library, ProperPod e.2 ∧ e.2.shape.first = n

theorem pd_at_svc {n : Int} {s : Service} (h : PdAt n s) : PdSvc s :=
  ⟨fun h' => (by rw [h.cases] at h'; cases h'), n, fun m hm => (by rw [h.cases] at hm; exact (Option.some.inj hm).symm), h.idco, h.idca, h.idce, h.library⟩

theorem pd_at_finish {n : Int} {s : Service} {p : Pod} (h : PdAt n s) (hp : ProperPod p) (hn : p.shape.first = n) : PdAt n (s.finish p) := by
  refine ⟨h.cases, h.idco, pd_for_cleanup h.idca, h.idce, fun e he => ?_⟩
  rcases pd_put_mem he with rfl | he
  · exact ⟨hp, hn⟩
  · exact h.library e he

theorem pd_at_place {n : Int} {s : Service} {p : Pod} {b : Bool} (h : PdAt n { s with nCases := some p.shape.first }) (hs : PdSvc s)
    (hp : ProperPod p) (hn : p.shape.first = n) : PdSvc (s.place p b).1 := by
  unfold Service.place
  cases hk : p.kind with
  | other => exact hs
  | ca =>
    simp only
    unfold Service.addCA
    split
    · exact pd_at_svc h
    · rename_i ca hca
      exact pd_at_svc (pd_at_finish ⟨h.cases, h.idco, pd_for_append h.idca hp.shape hn hca, h.idce, h.library⟩ hp hn)
  | ce =>
    simp only
    unfold Service.addCE
    split
    · exact pd_at_svc h
    · rename_i ca hca
      exact pd_at_svc (pd_at_finish ⟨h.cases, h.idco, h.idca, pd_for_append h.idce hp.shape hn hca, h.library⟩ hp hn)
  | co =>
    simp only
    unfold Service.addCO
    split
    · exact pd_at_svc h
    · rename_i co hco
      have h' : PdAt n ({ ({ s with nCases := some p.shape.first } : Service) with idco := co } : Service) :=
        ⟨h.cases, pd_for_append h.idco hp.shape hn hco, h.idca, h.idce, h.library⟩
      generalize ({ ({ s with nCases := some p.shape.first } : Service) with idco := co } : Service) = s' at h'
      unfold Service.broadcast
      split
      · rename_i hb
        have hb' : p.broadcasts = true := by
          simp only [Bool.and_eq_true] at hb
          exact hb.2
        split
        · exact pd_at_svc h'
        · rename_i ca hca
          exact pd_at_svc (pd_at_finish ⟨h'.cases, h'.idco, pd_for_append h'.idca (pd_ca_proper hp hb') (by rw [pd_ca_first, hn]) hca, h'.idce, h'.library⟩ hp hn)
      · exact pd_at_svc (pd_at_finish h' hp hn)

theorem pd_for_nil {n m : Int} {l : PodList} (h : PdFor n l) (hl : l.items = []) : PdFor m l :=
  ⟨h.1, by simp [hl], h.2.2⟩

theorem pd_svc_add {s : Service} {p : Pod} {b : Bool} (hs : PdSvc s) (hp : ProperPod p) : PdSvc (s.addPod p b).1 := by
  unfold Service.addPod
  split
  · rename_i had
    refine pd_at_place (n := p.shape.first) ?_ hs hp rfl
    obtain ⟨n, h1, h2, h3, h4, h5⟩ := hs.lists
    cases hc : s.nCases with
    | none =>
      obtain ⟨e1, e2, e3, e4⟩ := hs.none hc
      exact ⟨rfl, pd_for_nil h2 e1, pd_for_nil h3 e2, pd_for_nil h4 e3, by simp [e4]⟩
    | some m =>
      have hm : m = p.shape.first := by
        simpa [Service.admits, hc] using had
      have : n = p.shape.first := by rw [← hm]; exact (h1 m hc).symm
      subst this
      exact ⟨rfl, h2, h3, h4, h5⟩
  · exact hs

theorem pd_pull {n : Int} (lib : List (String × Pod)) : ∀ {ca : PodList}, PdFor n ca → (∀ e ∈ lib, ProperPod e.2 ∧ e.2.shape.first = n) →
    PdFor n (pullAll ca lib).1 := by
  induction lib with
  | nil => intro ca h _; exact h
  | cons e r ih =>
    intro ca h hl
    have he := hl e (by simp)
    have hr : ∀ e ∈ r, ProperPod e.2 ∧ e.2.shape.first = n := fun e' he' => hl e' (by simp [he'])
    unfold pullAll
    split
    · rename_i hb
      split
      · exact h
      · rename_i ca' hca
        exact ih (pd_for_append h (pd_ca_proper he.1 hb) (by rw [pd_ca_first, he.2]) hca) hr
    · exact ih h hr

theorem pd_svc_reset {s : Service} {b : Bool} (hs : PdSvc s) : PdSvc (s.idcaReset b).1 := by
  obtain ⟨n, h1, h2, h3, h4, h5⟩ := hs.lists
  have h0 : PdFor n ⟨some s.nAlts, []⟩ := by
    refine ⟨⟨by simp, by simp [AllAgree]⟩, by simp, fun k hk => ?_⟩
    right
    have : k = s.nAlts := (Option.some.inj hk).symm
    rw [this]
    simp [Service.nAlts]
  unfold Service.idcaReset
  split
  · refine ⟨fun h => ?_, n, h1, h2, pd_pull _ h0 h5, h4, h5⟩
    obtain ⟨e1, e2, e3, e4⟩ := hs.none h
    exact ⟨e1, by simp [e4, pullAll], e3, e4⟩
  · refine ⟨fun h => ?_, n, h1, h2, h0, h4, h5⟩
    obtain ⟨e1, e2, e3, e4⟩ := hs.none h
    exact ⟨e1, rfl, e3, e4⟩

theorem pd_svc_new (a : Option (List Int)) : PdSvc (Service.new a) := by
  refine ⟨fun _ => ⟨rfl, rfl, rfl, rfl⟩, 0, fun m hm => by simp [Service.new] at hm, ?_, ?_, ?_, by simp [Service.new]⟩
  · exact ⟨⟨by simp [Service.new], by simp [Service.new, AllAgree]⟩, by simp [Service.new], by simp [Service.new]⟩
  · refine ⟨⟨by simp [Service.new], by simp [Service.new, AllAgree]⟩, by simp [Service.new], fun k hk => ?_⟩
    have : k = startAlts a := (Option.some.inj hk).symm
    rw [this]
    cases a with
    | none => exact Or.inl rfl
    | some a => right; simp [startAlts]
  · exact ⟨⟨by simp [Service.new], by simp [Service.new, AllAgree]⟩, by simp [Service.new], by simp [Service.new]⟩

theorem pd_svc_run (os : List SOp) : ∀ {s : Service}, PdSvc s → (∀ o ∈ os, ∀ p ∈ o.pods, ProperPod p) → PdSvc (s.run os) := by
  induction os with
  | nil => intro s hs _; exact hs
  | cons o os ih =>
    intro s hs hp
    show PdSvc ((s.step o).run os)
    refine ih ?_ (fun o' ho' => hp o' (by simp [ho']))
    cases o with
    | add p b => exact pd_svc_add hs (hp (SOp.add p b) (by simp) p (by simp [SOp.pods]))
    | alternatives a => exact ⟨hs.none, hs.lists⟩
    | reset b => exact pd_svc_reset hs

/-- **C118.**  After any calls on a data service, also such that raise, all pods in its lists are for the number of cases the service reports,
and the pods of a list agree. -/
theorem C118_service_cases (a : Option (List Int)) (os : List SOp) (hp : ∀ o ∈ os, ∀ p ∈ o.pods, ProperPod p) :
    (∀ p, p ∈ ((Service.new a).run os).idco.items ∨ p ∈ ((Service.new a).run os).idca.items ∨ p ∈ ((Service.new a).run os).idce.items →
      ((Service.new a).run os).nCases = some p.shape.first) ∧
    AllAgree ((Service.new a).run os).idco.items ∧ AllAgree ((Service.new a).run os).idca.items ∧ AllAgree ((Service.new a).run os).idce.items := by
  have hs := pd_svc_run os (pd_svc_new a) hp
  generalize (Service.new a).run os = s at hs
  obtain ⟨n, h1, h2, h3, h4, h5⟩ := hs.lists
  refine ⟨fun p hmem => ?_, h2.1.2, h3.1.2, h4.1.2⟩
  have hn : p.shape.first = n := by
    rcases hmem with h | h | h
    · exact h2.2.1 p h
    · exact h3.2.1 p h
    · exact h4.2.1 p h
  cases hc : s.nCases with
  | none =>
    obtain ⟨e1, e2, e3, _⟩ := hs.none hc
    simp [e1, e2, e3] at hmem
  | some m => rw [h1 m hc, hn]

/-- **C118.**  A pod for another number of cases is refused and changes nothing. -/
theorem C118_other_cases_refused (s : Service) (p : Pod) (b : Bool) (n : Int) (hn : s.nCases = some n) (hp : p.shape.first ≠ n) :
    s.addPod p b = (s, false) := by
  have : s.admits p.shape.first = false := by
    simp only [Service.admits, hn, beq_eq_false_iff_ne]
    exact fun h => hp h.symm
  simp [Service.addPod, this]

/-- **C118.**  A pod that is accepted is found under its identifier, and is in the list of its kind behind the pods that were there. -/
theorem C118_added_pod_found (s : Service) (p : Pod) (b : Bool) (h : (s.addPod p b).2 = true) :
    (s.addPod p b).1.library.lookup p.ident = some p ∧
    (p.kind = Kind.co → (s.addPod p b).1.idco.items = s.idco.items ++ [p]) ∧
    (p.kind = Kind.ce → (s.addPod p b).1.idce.items = s.idce.items ++ [p]) ∧
    (p.kind = Kind.ca → (s.addPod p b).1.idca.items.map Pod.ident = s.idca.items.map Pod.ident ++ [p.ident]) ∧
    (p.kind = Kind.co → b = true → p.broadcasts = true → (s.addPod p b).1.idca.items.map Pod.ident = s.idca.items.map Pod.ident ++ [p.ident ++ "_as_idca"]) := by
  have hlook : ∀ lib : List (String × Pod), (putEntry lib p.ident p).lookup p.ident = some p := by
    intro lib
    unfold putEntry
    split
    · rename_i hany
      induction lib with
      | nil => simp at hany
      | cons e r ih =>
        by_cases he : e.1 = p.ident
        · simp [he]
        · have h1 : (p.ident == e.1) = false := by simp [Ne.symm he]
          have h2 : (e.1 == p.ident) = false := by simp [he]
          obtain ⟨k, v⟩ := e
          simp only at h1 h2 he
          simp only [List.map_cons, h2, Bool.false_eq_true, if_false, List.lookup_cons, h1]
          apply ih
          simpa [he] using hany
    · rename_i hany
      induction lib with
      | nil => simp
      | cons e r ih =>
        obtain ⟨k, v⟩ := e
        have he : ¬ k = p.ident := by
          intro hk; exact hany (by simp [hk])
        have h1 : (p.ident == k) = false := by simp [Ne.symm he]
        simp only [List.cons_append, List.lookup_cons, h1]
        apply ih
        intro hr
        exact hany (by simp only [List.any_cons, hr, Bool.or_true])
  have hclean : ∀ l : PodList, l.cleanup.items.map Pod.ident = l.items.map Pod.ident := by
    intro l
    simp only [PodList.cleanup, List.map_map]
    apply List.map_congr_left
    intro q _
    simp only [Function.comp, closeDim]
    split <;> rfl
  unfold Service.addPod at h ⊢
  split at h
  swap
  · cases h
  · rename_i had
    simp only [had, if_true]
    unfold Service.place at h ⊢
    cases hk : p.kind with
    | other => simp [hk] at h
    | ca =>
      simp only [hk] at h ⊢
      unfold Service.addCA at h ⊢
      cases hca : s.idca.append p with
      | none => simp [hca] at h
      | some ca =>
        simp only [hca]
        refine ⟨hlook _, by simp, by simp, fun _ => ?_, by simp⟩
        show ca.cleanup.items.map Pod.ident = _
        rw [hclean, C118_appended_last _ _ _ hca]
        simp
    | ce =>
      simp only [hk] at h ⊢
      unfold Service.addCE at h ⊢
      cases hca : s.idce.append p with
      | none => simp [hca] at h
      | some ca =>
        simp only [hca]
        exact ⟨hlook _, by simp, fun _ => C118_appended_last _ _ _ hca, by simp, by simp⟩
    | co =>
      simp only [hk] at h ⊢
      unfold Service.addCO at h ⊢
      cases hco : s.idco.append p with
      | none => simp [hco] at h
      | some co =>
        simp only [hco] at h ⊢
        have hco' := C118_appended_last _ _ _ hco
        unfold Service.broadcast at h ⊢
        by_cases hb : (b && p.broadcasts) = true
        · simp only [hb, if_true] at h ⊢
          cases hca : s.idca.append p.asCA with
          | none => simp [hca] at h
          | some ca =>
            simp only [hca]
            refine ⟨hlook _, fun _ => hco', by simp, by simp, fun _ _ _ => ?_⟩
            show ca.cleanup.items.map Pod.ident = _
            rw [hclean, C118_appended_last _ _ _ hca]
            simp [Pod.asCA]
        · simp only [hb] at h ⊢
          refine ⟨hlook _, fun _ => hco', by simp, by simp, fun _ h1 h2 => ?_⟩
          simp [h1, h2] at hb

theorem pd_pull_idents (lib : List (String × Pod)) : ∀ {ca : PodList}, (pullAll ca lib).2 = true →
    (pullAll ca lib).1.items.map Pod.names = ca.items.map Pod.names ++ (lib.filter (fun e => e.2.broadcasts)).map (fun e => e.2.names) := by
  induction lib with
  | nil => intro ca _; simp [pullAll]
  | cons e r ih =>
    intro ca h
    unfold pullAll at h ⊢
    by_cases hb : e.2.broadcasts = true
    · simp only [hb, if_true] at h ⊢
      cases hca : ca.append e.2.asCA with
      | none => simp [hca] at h
      | some ca' =>
        simp only [hca] at h ⊢
        rw [ih h, C118_appended_last _ _ _ hca]
        simp [hb, Pod.asCA]
    · simp only [hb] at h ⊢
      rw [if_neg (by simp)] at h ⊢
      rw [ih h]
      simp [hb]

/-- **C118.**  After `idca_reset(pull_idco=True)` the data of the alternatives are exactly those of the pods in the library that can be broadcast,
in the order of the library. -/
theorem C118_reset_pulls (s : Service) (h : (s.idcaReset true).2 = true) :
    (s.idcaReset true).1.idca.items.map Pod.names = (s.library.filter (fun e => e.2.broadcasts)).map (fun e => e.2.names) := by
  have := pd_pull_idents s.library (ca := ⟨some s.nAlts, []⟩) (by simpa [Service.idcaReset] using h)
  simpa [Service.idcaReset] using this

example : ∃ s : Service, (s.idcaReset true).2 = true ∧ (s.idcaReset true).1.idca.items.length = 2 :=
  ⟨(Service.new (some [1, 2])).run [.add ⟨"x", .co, ⟨[], 5⟩, true, ["u"]⟩ true, .add ⟨"y", .co, ⟨[], 5⟩, true, ["v"]⟩ true], by decide, by decide⟩

/-! ## Where the code falls short -/

/-- **C118, violated.**  The call raises, but the pod is in the service: case data of two dimensions added after data of the alternatives. -/
theorem C118_fails_refused_pod_stays :
    ∃ (os : List SOp) (p : Pod), (∀ o ∈ os, ∀ q ∈ o.pods, ProperPod q) ∧ ProperPod p ∧
      (((Service.new none).run os).addPod p true).2 = false ∧
      p ∉ ((Service.new none).run os).idco.items ∧ p ∈ (((Service.new none).run os).addPod p true).1.idco.items := by
  refine ⟨[.add ⟨"ca", .ca, ⟨[5], 4⟩, false, ["u"]⟩ true], ⟨"co", .co, ⟨[5], 2⟩, true, ["u"]⟩, ?_, ?_, by decide, by decide, by decide⟩
  · intro o ho q hq
    rw [List.mem_singleton.1 ho] at hq
    rw [List.mem_singleton.1 hq]
    exact ⟨⟨by simp, by simp, by simp⟩, by simp⟩
  · exact ⟨⟨by simp, by simp, by simp⟩, by simp⟩

/-- **C118, violated.**  The service has three alternatives, yet its data of the alternatives are still of unknown width: `set_alternatives` does
not tell the list of pods. -/
theorem C118_fails_set_alternatives_not_passed_on :
    ∃ (s : Service), s = (Service.new none).run [.alternatives [1, 2, 3], .add ⟨"co", .co, ⟨[], 5⟩, true, ["u"]⟩ true] ∧
      s.nAlts = 3 ∧ s.idca.shape = some ⟨[5], -1⟩ :=
  ⟨_, rfl, by decide, by decide⟩

/-- **C118, violated.**  Two pods of the same identifier are both in use, but only the second is found under it, and `idca_reset` drops the first
from the data of the alternatives. -/
theorem C118_fails_same_identifier :
    ∃ (p q : Pod) (s : Service), s = (Service.new (some [1, 2])).run [.add p true, .add q true] ∧ p ≠ q ∧
      s.idco.items = [p, q] ∧ s.idca.items.length = 2 ∧ s.library.lookup p.ident = some q ∧ (s.idcaReset true).1.idca.items.length = 1 :=
  ⟨⟨"x", .co, ⟨[], 5⟩, true, ["u"]⟩, ⟨"x", .co, ⟨[], 5⟩, true, ["v"]⟩, _, rfl, by decide, by decide, by decide, by decide, by decide⟩

/-- The hypotheses of C118 are met: a service with case data, data of the alternatives of the same cases, and a pod refused. -/
example : ∃ (os : List SOp), (∀ o ∈ os, ∀ p ∈ o.pods, ProperPod p) ∧ ((Service.new (some [1, 2, 3, 4])).run os).nCases = some 5 ∧
    (((Service.new (some [1, 2, 3, 4])).run os).idca.items.map (fun p => p.shape)) = [⟨[5], 4⟩, ⟨[5], 4⟩] ∧
    (((Service.new (some [1, 2, 3, 4])).run os).idco.items.map (fun p => p.shape)) = [⟨[], 5⟩] := by
  refine ⟨[.add ⟨"co", .co, ⟨[], 5⟩, true, ["u"]⟩ true, .add ⟨"ca", .ca, ⟨[5], 4⟩, false, ["u"]⟩ true, .add ⟨"bad", .ca, ⟨[6], 4⟩, false, ["u"]⟩ true], ?_, by decide, by decide, by decide⟩
  intro o ho q hq
  simp only [List.mem_cons, List.not_mem_nil, or_false] at ho
  rcases ho with rfl | rfl | rfl <;> rw [List.mem_singleton.1 hq] <;> exact ⟨⟨by simp, by simp, by simp⟩, by simp⟩

example : ∃ os : List Op, (∀ o ∈ os, ∀ p ∈ o.pods, Proper p.shape) ∧ ((PodList.mk none []).run os).items.length = 2 := by
  refine ⟨[.insert 0 ⟨"a", .co, ⟨[], 5⟩, true, ["u"]⟩, .insert 0 ⟨"b", .co, ⟨[], 5⟩, true, ["u"]⟩, .insert 0 ⟨"c", .co, ⟨[], 6⟩, true, ["u"]⟩, .set 1 ⟨"d", .co, ⟨[], 5⟩, true, ["u"]⟩], ?_, by decide⟩
  intro o ho q hq
  simp only [List.mem_cons, List.not_mem_nil, or_false] at ho
  rcases ho with rfl | rfl | rfl | rfl <;> rw [List.mem_singleton.1 hq] <;> exact ⟨by simp, by simp, by simp⟩

end Larch.Props
