import Verif.Model.PodVars
import Mathlib.Data.List.Nodup
import Mathlib.Data.List.Perm.Basic
import Mathlib.Data.List.Lookmap
import Mathlib.Tactic

/-!
# C174: the variables of a pod
-/

namespace Larch.Props

open Larch.PodVars

variable {V : Type}

/-- Every node of the pod has this shape. -/
def AllShaped (p : PodVars.Pod V) (s : List Nat) : Prop := ∀ e ∈ p.nodes, e.2.shape = s

/-- The pod is in order: its names are distinct, none is reserved, and there is one shape that all its arrays have, which is also
the one noted in the file. -/
structure InGoodOrder (p : PodVars.Pod V) : Prop where
  distinct : (nodeNames p).Nodup
  visible : ∀ n ∈ nodeNames p, n ∉ reservedNames
  shaped : ∃ s, AllShaped p s ∧ (p.marked = none ∨ p.marked = some s)

/-- The call does not rename anything to a reserved name. -/
def NoHiding : Call V → Prop
  | .rename fs => ∀ f ∈ fs, ∀ n, n ∉ reservedNames → f n ∉ reservedNames
  | _ => True

theorem pv_fixName (n : String) (h : n ∉ reservedNames) : fixName n ∉ reservedNames := by
  intro hc
  apply h
  have key : ∀ (l L : List Char), '|' ∉ L → l.map (fun c => if c = '/' then '|' else c) = L → l = L := by
    intro l
    induction l with
    | nil => intro L _ h; simpa using h
    | cons a t ih =>
      intro L hL h
      cases L with
      | nil => simp at h
      | cons b u =>
        simp only [List.map_cons, List.cons.injEq] at h
        have hb : ¬ a = '/' := by
          intro ha
          rw [if_pos ha] at h
          exact hL (by rw [← h.1]; simp)
        rw [if_neg hb] at h
        rw [h.1, ih u (fun hm => hL (by simp [hm])) h.2]
  have eq : ∀ m : String, '|' ∉ m.toList → fixName n = m → n = m := by
    intro m hm he
    have h1 : n.toList.map (fun c => if c = '/' then '|' else c) = m.toList := by
      rw [← he]; simp [fixName]
    have := key _ _ hm h1
    exact String.toList_inj.mp this
  simp only [reservedNames, List.mem_cons, List.not_mem_nil, or_false] at hc ⊢
  rcases hc with hc | hc
  · exact Or.inl (eq _ (by decide) hc)
  · exact Or.inr (eq _ (by decide) hc)

theorem pv_look_nodes (p : PodVars.Pod V) : (look p).1.nodes = p.nodes := by
  unfold look
  split
  · rfl
  · split
    · rfl
    · split <;> rfl

theorem pv_look_marked (p : PodVars.Pod V) (s : List Nat) (h : AllShaped p s) (hm : p.marked = none ∨ p.marked = some s) :
    (look p).1.marked = none ∧ (look p).2 = none ∧ names p = [] ∨ (look p).1.marked = some s ∧ (look p).2 = some s := by
  unfold look
  rcases hm with hm | hm
  · rw [hm]
    by_cases hn : names p = []
    · rw [if_pos hn]; left; exact ⟨hm, rfl, hn⟩
    · rw [if_neg hn]
      cases hh : p.nodes.head? with
      | none =>
        exfalso
        apply hn
        rw [List.head?_eq_none_iff] at hh
        simp [names, nodeNames, hh]
      | some e =>
        right
        have : e.2.shape = s := h e (List.mem_of_head? hh)
        simp [this]
  · rw [hm]; right; exact ⟨hm, rfl⟩

theorem pv_names_nil (p : PodVars.Pod V) (hv : ∀ n ∈ nodeNames p, n ∉ reservedNames) (h : names p = []) : p.nodes = [] := by
  unfold names at h
  rw [List.filter_eq_self.mpr (by simpa using hv)] at h
  simpa [nodeNames] using h

theorem pv_look_good (p : PodVars.Pod V) (h : InGoodOrder p) : InGoodOrder (look p).1 := by
  obtain ⟨hd, hv, s, hs, hm⟩ := h
  have hn : nodeNames (look p).1 = nodeNames p := by simp [nodeNames, pv_look_nodes]
  refine ⟨by rw [hn]; exact hd, by rw [hn]; exact hv, s, ?_, ?_⟩
  · intro e he; rw [pv_look_nodes] at he; exact hs e he
  · rcases pv_look_marked p s hs hm with h | h
    · exact Or.inl h.1
    · exact Or.inr h.1

theorem pv_drop_good (p : PodVars.Pod V) (n : String) (h : InGoodOrder p) : InGoodOrder (dropNode p n) := by
  obtain ⟨hd, hv, s, hs, hm⟩ := h
  have hsub : (dropNode p n).nodes.Sublist p.nodes := List.filter_sublist
  refine ⟨hd.sublist (hsub.map _), fun m hm' => hv m ((hsub.map _).subset hm'), s, fun e he => hs e (hsub.subset he), hm⟩

theorem pv_create_good (valid : String → Bool) (p : PodVars.Pod V) (n : String) (a : Arr V) (h : InGoodOrder p) (hn : n ∉ reservedNames)
    (s : List Nat) (hs : AllShaped p s) (hm : p.marked = none ∨ p.marked = some s) (ha : a.shape = s) : InGoodOrder (create valid p n a).1 := by
  unfold create
  split
  · exact h
  · split
    · exact h
    · rename_i hnn
      split
      · exact h
      · refine ⟨?_, ?_, s, ?_, hm⟩
        · simp only [nodeNames, List.map_append, List.map_cons, List.map_nil]
          exact List.nodup_append.mpr ⟨h.distinct, by simp, by
            intro x hx y hy hxy
            simp at hy
            exact hnn (by rw [← hy, ← hxy]; exact hx)⟩
        · intro m hm'
          simp only [nodeNames, List.map_append, List.map_cons, List.map_nil, List.mem_append, List.mem_singleton] at hm'
          rcases hm' with h1 | h1
          · exact h.visible m h1
          · rw [h1]; exact hn
        · intro e he
          simp only [List.mem_append, List.mem_singleton] at he
          rcases he with h1 | h1
          · exact hs e h1
          · rw [h1]; exact ha

theorem pv_fitted_shape (s : List Nat) (a b : Arr V) (h : fitted (some s) a = some b) : b.shape = s ∧ b.data = a.data ∧ b.storable = a.storable := by
  simp only [fitted] at h
  split at h
  · rename_i h1
    simp only [Option.some.injEq] at h
    subst h; exact ⟨h1.symm, rfl, rfl⟩
  · split at h
    · rename_i h1
      simp only [Option.some.injEq] at h
      subst h; exact ⟨h1.symm, rfl, rfl⟩
    · simp at h

theorem pv_add_good (valid : String → Bool) (p : PodVars.Pod V) (n : String) (a : Arr V) (o : Bool) (h : InGoodOrder p) :
    InGoodOrder (addArray valid p n a o).1 := by
  unfold addArray
  split
  · exact h
  · rename_i hn
    cases hf : fitted (look p).2 a with
    | none => exact pv_look_good p h
    | some b =>
      simp only
      have hg := pv_look_good p h
      have hcl : InGoodOrder (cleared (look p).1 (fixName n) o) := by
        unfold cleared; split
        · exact pv_drop_good _ _ hg
        · exact hg
      have hsub : (cleared (look p).1 (fixName n) o).nodes ⊆ p.nodes := by
        intro e he
        unfold cleared at he
        split at he
        · have := List.mem_of_mem_filter he
          rw [pv_look_nodes] at this; exact this
        · rw [pv_look_nodes] at he; exact he
      have hmk : (cleared (look p).1 (fixName n) o).marked = (look p).1.marked := by
        unfold cleared; split <;> rfl
      obtain ⟨s, hs, hm⟩ := h.shaped
      rcases pv_look_marked p s hs hm with ⟨h1, h2, h3⟩ | ⟨h1, h2⟩
      · have hnil := pv_names_nil p h.visible h3
        refine pv_create_good valid _ _ b hcl (pv_fixName n hn) b.shape ?_ (Or.inl (by rw [hmk]; exact h1)) rfl
        intro e he
        have := hsub he
        rw [hnil] at this
        simp at this
      · rw [h2] at hf
        exact pv_create_good valid _ _ b hcl (pv_fixName n hn) s (fun e he => hs e (hsub he)) (Or.inr (by rw [hmk]; exact h1))
          (pv_fitted_shape s a b hf).1

theorem pv_renameNode_perm (valid : String → Bool) (p : PodVars.Pod V) (old new : String) (hd : (nodeNames p).Nodup) :
    ((renameNode valid p old new).2 ≠ none ∧ (renameNode valid p old new).1 = p) ∨
      ((renameNode valid p old new).2 = none ∧ old ∈ nodeNames p ∧ new ∉ nodeNames p ∧ valid new = true ∧
        (renameNode valid p old new).1.marked = p.marked ∧
        (renameNode valid p old new).1.nodes.Perm (p.nodes.map (fun e => (if e.1 = old then new else e.1, e.2)))) := by
  unfold renameNode
  cases hl : p.nodes.lookup old with
  | none => left; simp
  | some a =>
    simp only
    split
    · left; simp
    · rename_i hnn
      split
      · left; simp
      · rename_i hv
        right
        have hmem : (old, a) ∈ p.nodes := by
          have : ∀ (l : List (String × Arr V)), l.lookup old = some a → (old, a) ∈ l := by
            intro l
            induction l with
            | nil => simp
            | cons e t ih =>
              obtain ⟨k, b⟩ := e
              intro h
              rw [List.lookup_cons] at h
              by_cases hk : old = k
              · subst hk; simp at h; simp [h]
              · have hk' : (old == k) = false := by simpa using hk
                rw [hk'] at h
                exact List.mem_cons_of_mem _ (ih h)
          exact this _ hl
        refine ⟨rfl, List.mem_map.mpr ⟨_, hmem, rfl⟩, hnn, by simpa using hv, rfl, ?_⟩
        simp only
        have : ∀ (l : List (String × Arr V)), (l.map Prod.fst).Nodup → (old, a) ∈ l →
            (l.filter (fun e => e.1 ≠ old) ++ [(new, a)]).Perm (l.map (fun e => (if e.1 = old then new else e.1, e.2))) := by
          intro l
          induction l with
          | nil => simp
          | cons e t ih =>
            obtain ⟨k, b⟩ := e
            intro hnd hm
            simp only [List.map_cons, List.nodup_cons] at hnd
            by_cases hk : k = old
            · subst hk
              have hb : b = a := by
                rcases List.mem_cons.mp hm with h | h
                · simpa using h.symm
                · exact absurd (List.mem_map.mpr ⟨_, h, rfl⟩) hnd.1
              subst hb
              have hf : t.filter (fun e => e.1 ≠ k) = t := by
                rw [List.filter_eq_self]
                intro e he
                have : e.1 ≠ k := fun h => hnd.1 (List.mem_map.mpr ⟨e, he, h⟩)
                simpa using this
              have hmp : t.map (fun e => (if e.1 = k then new else e.1, e.2)) = t := by
                conv_rhs => rw [← List.map_id t]
                apply List.map_congr_left
                intro e he
                have : e.1 ≠ k := fun h => hnd.1 (List.mem_map.mpr ⟨e, he, h⟩)
                simp [this]
              simp only [List.map_cons, if_true, hmp]
              rw [List.filter_cons_of_neg (by simp), hf]
              exact List.perm_append_singleton _ _
            · have hm' : (old, a) ∈ t := by
                rcases List.mem_cons.mp hm with h | h
                · simp at h; exact absurd h.1.symm hk
                · exact h
              rw [List.filter_cons_of_pos (by simpa using hk)]
              simp only [List.map_cons, if_neg hk, List.cons_append]
              exact (ih hnd.2 hm').cons _
        exact this _ hd hmem

/-- The name a node has after the names in `done` have been replaced. -/
def renamed (f : String → String) (done : List String) (n : String) : String := if n ∈ done then f n else n

theorem pv_names_perm (p : PodVars.Pod V) (q : PodVars.Pod V) (g : String → String) (h : q.nodes.Perm (p.nodes.map (fun e => (g e.1, e.2)))) :
    (nodeNames q).Perm ((nodeNames p).map g) := by
  have := h.map Prod.fst
  simpa [nodeNames, List.map_map, Function.comp_def] using this

theorem pv_nodup_step (l : List String) (old new : String) (hd : l.Nodup) (hn : new ∉ l) :
    (l.map (fun n => if n = old then new else n)).Nodup := by
  apply List.Nodup.map_on _ hd
  intro x hx y hy h
  by_cases h1 : x = old <;> by_cases h2 : y = old
  · rw [h1, h2]
  · rw [if_pos h1, if_neg h2] at h; exact absurd (h ▸ hy) hn
  · rw [if_neg h1, if_pos h2] at h; exact absurd (h ▸ hx) hn
  · rwa [if_neg h1, if_neg h2] at h

theorem pv_renameAll (valid : String → Bool) (f : String → String) (ns : List String) (p : PodVars.Pod V) (hd : (nodeNames p).Nodup)
    (hns : ns.Nodup) (hsub : ∀ n ∈ ns, n ∈ nodeNames p) :
    ∃ done, done <+: ns ∧ ((renameAll valid f ns p).2 = none → done = ns) ∧ (renameAll valid f ns p).1.marked = p.marked ∧
      (nodeNames (renameAll valid f ns p).1).Nodup ∧
      (renameAll valid f ns p).1.nodes.Perm (p.nodes.map (fun e => (renamed f done e.1, e.2))) := by
  induction ns generalizing p with
  | nil => exact ⟨[], List.prefix_rfl, fun _ => rfl, rfl, hd, by simp [renamed, renameAll]⟩
  | cons n r ih =>
    rw [List.nodup_cons] at hns
    simp only [renameAll]
    by_cases hfn : f n = n
    · rw [if_pos hfn]
      obtain ⟨done, h1, h2, h3, h4, h5⟩ := ih p hd hns.2 (fun m hm => hsub m (by simp [hm]))
      refine ⟨n :: done, by simpa using h1, fun h => by rw [h2 h], h3, h4, ?_⟩
      have : p.nodes.map (fun e => (renamed f (n :: done) e.1, e.2)) = p.nodes.map (fun e => (renamed f done e.1, e.2)) := by
        apply List.map_congr_left
        intro e _
        simp only [renamed, List.mem_cons]
        by_cases he : e.1 = n
        · simp [he, hfn]
        · simp [he]
      rw [this]; exact h5
    · rw [if_neg hfn]
      rcases pv_renameNode_perm valid p n (f n) hd with ⟨h1, h2⟩ | ⟨h1, hold, hnew, hval, hmk, hperm⟩
      · cases he : (renameNode valid p n (f n)).2 with
        | none => exact absurd he h1
        | some e =>
          simp only
          rw [h2]
          exact ⟨[], List.nil_prefix, by simp, rfl, hd, by simp [renamed]⟩
      · rw [h1]
        simp only
        have hnm := pv_names_perm p _ (fun m => if m = n then f n else m) hperm
        have hd1 : (nodeNames (renameNode valid p n (f n)).1).Nodup := hnm.nodup_iff.mpr (pv_nodup_step _ n (f n) hd hnew)
        have hr : ∀ m ∈ r, m ∈ nodeNames p ∧ m ≠ n := fun m hm => ⟨hsub m (by simp [hm]), fun h => hns.1 (h ▸ hm)⟩
        obtain ⟨done, g1, g2, g3, g4, g5⟩ := ih (renameNode valid p n (f n)).1 hd1 hns.2 (by
          intro m hm
          rw [hnm.mem_iff]
          exact List.mem_map.mpr ⟨m, (hr m hm).1, by simp [(hr m hm).2]⟩)
        refine ⟨n :: done, by simpa using g1, fun h => by rw [g2 h], by rw [g3, hmk], g4, ?_⟩
        refine g5.trans ((hperm.map (fun e => (renamed f done e.1, e.2))).trans ?_)
        rw [List.map_map]
        apply List.Perm.of_eq
        apply List.map_congr_left
        intro e he
        have hfnd : f n ∉ done := fun h => hnew (hr _ (g1.subset h)).1
        by_cases hen : e.1 = n
        · simp [renamed, hen, hfnd]
        · simp [renamed, hen]

theorem pv_renameAll_ok (valid : String → Bool) (f : String → String) (ns : List String) (p : PodVars.Pod V) (hd : (nodeNames p).Nodup)
    (hns : ns.Nodup) (hsub : ∀ n ∈ ns, n ∈ nodeNames p) (hfree : ∀ n ∈ ns, f n ≠ n → f n ∉ nodeNames p ∧ valid (f n) = true)
    (hinj : ∀ n ∈ ns, ∀ m ∈ ns, f n = f m → n = m) : (renameAll valid f ns p).2 = none := by
  induction ns generalizing p with
  | nil => rfl
  | cons n r ih =>
    rw [List.nodup_cons] at hns
    simp only [renameAll]
    by_cases hfn : f n = n
    · rw [if_pos hfn]
      exact ih p hd hns.2 (fun m hm => hsub m (by simp [hm])) (fun m hm => hfree m (by simp [hm]))
        (fun a ha b hb => hinj a (by simp [ha]) b (by simp [hb]))
    · rw [if_neg hfn]
      obtain ⟨hnew, hval⟩ := hfree n (by simp) hfn
      rcases pv_renameNode_perm valid p n (f n) hd with ⟨h1, h2⟩ | ⟨h1, hold, _, _, hmk, hperm⟩
      · exfalso
        apply h1
        have hmem := hsub n (by simp)
        unfold renameNode
        cases hl : p.nodes.lookup n with
        | none =>
          rw [List.lookup_eq_none_iff] at hl
          obtain ⟨e, he, hen⟩ := List.mem_map.mp hmem
          have := hl e he
          simp [hen] at this
        | some a => simp [hnew, hval]
      · rw [h1]
        simp only
        have hnm := pv_names_perm p _ (fun m => if m = n then f n else m) hperm
        have hd1 : (nodeNames (renameNode valid p n (f n)).1).Nodup := hnm.nodup_iff.mpr (pv_nodup_step _ n (f n) hd hnew)
        have hr : ∀ m ∈ r, m ∈ nodeNames p ∧ m ≠ n := fun m hm => ⟨hsub m (by simp [hm]), fun h => hns.1 (h ▸ hm)⟩
        refine ih (renameNode valid p n (f n)).1 hd1 hns.2 ?_ ?_ (fun a ha b hb => hinj a (by simp [ha]) b (by simp [hb]))
        · intro m hm
          rw [hnm.mem_iff]
          exact List.mem_map.mpr ⟨m, (hr m hm).1, by simp [(hr m hm).2]⟩
        · intro m hm hfm
          refine ⟨?_, (hfree m (by simp [hm]) hfm).2⟩
          rw [hnm.mem_iff, List.mem_map]
          rintro ⟨x, hx, hxe⟩
          by_cases hxn : x = n
          · rw [if_pos hxn] at hxe
            exact (hr m hm).2 (hinj n (by simp) m (by simp [hm]) hxe).symm
          · rw [if_neg hxn] at hxe
            exact (hfree m (by simp [hm]) hfm).1 (hxe ▸ hx)

theorem pv_names_all (p : PodVars.Pod V) (hv : ∀ n ∈ nodeNames p, n ∉ reservedNames) : names p = nodeNames p :=
  List.filter_eq_self.mpr (by simpa using hv)

theorem pv_renamed_good (f : String → String) (done : List String) (p q : PodVars.Pod V) (h : InGoodOrder p)
    (hf : ∀ n, n ∉ reservedNames → f n ∉ reservedNames) (hd : (nodeNames q).Nodup) (hm : q.marked = p.marked)
    (hp : q.nodes.Perm (p.nodes.map (fun e => (renamed f done e.1, e.2)))) : InGoodOrder q := by
  obtain ⟨_, hv, s, hs, hmk⟩ := h
  refine ⟨hd, ?_, s, ?_, by rw [hm]; exact hmk⟩
  · intro m hmm
    rw [(pv_names_perm p q _ hp).mem_iff] at hmm
    obtain ⟨x, hx, hxe⟩ := List.mem_map.mp hmm
    rw [← hxe]
    unfold renamed
    split
    · exact hf x (hv x hx)
    · exact hv x hx
  · intro e he
    rw [hp.mem_iff] at he
    obtain ⟨x, hx, hxe⟩ := List.mem_map.mp he
    rw [← hxe]
    exact hs x hx

theorem pv_renameAll_good (valid : String → Bool) (f : String → String) (p : PodVars.Pod V) (h : InGoodOrder p)
    (hf : ∀ n, n ∉ reservedNames → f n ∉ reservedNames) : InGoodOrder (renameAll valid f (names p) p).1 := by
  rw [pv_names_all p h.visible]
  obtain ⟨done, _, _, h3, h4, h5⟩ := pv_renameAll valid f (nodeNames p) p h.distinct h.distinct (fun _ hn => hn)
  exact pv_renamed_good f done p _ h hf h4 h3 h5

theorem pv_renameVars_good (valid : String → Bool) (fs : List (String → String)) (p : PodVars.Pod V) (h : InGoodOrder p)
    (hf : ∀ f ∈ fs, ∀ n, n ∉ reservedNames → f n ∉ reservedNames) : InGoodOrder (renameVars valid fs p).1 := by
  induction fs generalizing p with
  | nil => exact h
  | cons f r ih =>
    simp only [renameVars]
    have hg := pv_renameAll_good valid f p h (hf f (by simp))
    cases (renameAll valid f (names p) p).2 with
    | some e => exact hg
    | none => exact ih _ hg (fun g hgm => hf g (by simp [hgm]))

/-! ## C174, part 1: one shape -/

/-- **C174**: after any history of calls, whatever they raised, all variables of a pod have one shape and distinct names, and the shape the
pod gives is theirs. -/
theorem C174_one_shape (valid : String → Bool) (zeros : List Nat → Arr V) (cs : List (Call V))
    (hcs : ∀ c ∈ cs, NoHiding c) : InGoodOrder (run valid zeros empty cs) := by
  have : ∀ p : PodVars.Pod V, InGoodOrder p → InGoodOrder (run valid zeros p cs) := by
    induction cs with
    | nil => intro p h; exact h
    | cons c r ih =>
      intro p h
      refine ih (fun d hd => hcs d (by simp [hd])) _ ?_
      cases c with
      | shape => exact pv_look_good p h
      | add n a o => exact pv_add_good valid p n a o h
      | blank n s o =>
        have hl := pv_look_good p h
        simp only [step, addBlank]
        split
        · exact h
        · split
          · exact hl
          · exact pv_add_good valid _ n _ o hl
          · exact pv_add_good valid _ n _ o hl
          · split
            · exact hl
            · exact pv_add_good valid _ n _ o hl
      | expr ev n m =>
        have hl := pv_look_good p h
        simp only [step, addExpression]
        split
        · exact hl
        · split
          · exact hl
          · unfold settle
            split
            · exact pv_add_good valid _ n _ _ hl
            · exact pv_add_good valid _ n _ _ hl
      | delete n =>
        simp only [step, deleteArray]
        split
        · exact h
        · exact pv_drop_good p n h
      | rename fs => exact pv_renameVars_good valid fs p h (hcs (.rename fs) (by simp))
  refine this empty ⟨by simp [nodeNames, empty], by simp [nodeNames, empty], [], by simp [AllShaped, empty], Or.inl rfl⟩

/-- The shape given by a pod in good order is that of each variable. -/
theorem C174_shape_given (p : PodVars.Pod V) (h : InGoodOrder p) (s : List Nat) (hs : (look p).2 = some s) : AllShaped p s := by
  obtain ⟨s', h1, h2⟩ := h.shaped
  rcases pv_look_marked p s' h1 h2 with h3 | h3
  · rw [h3.2.1] at hs; simp at hs
  · rw [h3.2] at hs
    simp only [Option.some.injEq] at hs
    exact hs ▸ h1

/-! ## C174, part 2: adding -/

theorem pv_lookup_filter (l : List (String × Arr V)) (n m : String) (h : m ≠ n) : (l.filter (fun e => e.1 ≠ n)).lookup m = l.lookup m := by
  induction l with
  | nil => rfl
  | cons e t ih =>
    obtain ⟨k, b⟩ := e
    by_cases hk : k = n
    · rw [List.filter_cons_of_neg (by simp [hk]), List.lookup_cons]
      have : (m == k) = false := by simpa [hk] using h
      rw [this]; exact ih
    · rw [List.filter_cons_of_pos (by simpa using hk), List.lookup_cons, List.lookup_cons, ih]

theorem pv_lookup_append (l : List (String × Arr V)) (n m : String) (a : Arr V) :
    (l ++ [(n, a)]).lookup m = (l.lookup m).or (if m = n then some a else none) := by
  induction l with
  | nil =>
    rw [List.nil_append, List.lookup_cons]
    by_cases h : m = n
    · simp [h]
    · have : (m == n) = false := by simpa using h
      simp [this, h]
  | cons e t ih =>
    obtain ⟨k, b⟩ := e
    rw [List.cons_append, List.lookup_cons, List.lookup_cons, ih]
    cases (m == k) <;> simp

theorem pv_lookup_none (l : List (String × Arr V)) (n : String) (h : n ∉ l.map Prod.fst) : l.lookup n = none := by
  rw [List.lookup_eq_none_iff]
  intro e he
  have : n ≠ e.1 := fun hn => h (List.mem_map.mpr ⟨e, he, hn.symm⟩)
  simpa using this

/-- **C174**: when an array is added, the variable is there with the contents given, in the shape of the pod if that is known and in the
shape given otherwise; and no other variable has changed. -/
theorem C174_added (valid : String → Bool) (p : PodVars.Pod V) (n : String) (a : Arr V) (o : Bool) (h : (addArray valid p n a o).2 = none) :
    (∃ b, (addArray valid p n a o).1.nodes.lookup (fixName n) = some b ∧ b.data = a.data ∧ b.shape = ((look p).2).getD a.shape) ∧
      ∀ m, m ≠ fixName n → (addArray valid p n a o).1.nodes.lookup m = p.nodes.lookup m := by
  unfold addArray at h ⊢
  split at h
  · simp at h
  · rename_i hn
    rw [if_neg hn]
    cases hf : fitted (look p).2 a with
    | none => rw [hf] at h; simp at h
    | some b =>
      rw [hf] at h
      simp only at h ⊢
      have hb : b.data = a.data ∧ b.shape = ((look p).2).getD a.shape := by
        cases hk : (look p).2 with
        | none => rw [hk] at hf; simp only [fitted, Option.some.injEq] at hf; subst hf; exact ⟨rfl, rfl⟩
        | some s => rw [hk] at hf; have := pv_fitted_shape s a b hf; exact ⟨this.2.1, this.1⟩
      have hcl : ∀ m, m ≠ fixName n → (cleared (look p).1 (fixName n) o).nodes.lookup m = p.nodes.lookup m := by
        intro m hm
        unfold cleared
        split
        · simp only [dropNode]
          rw [pv_lookup_filter _ _ _ hm, pv_look_nodes]
        · rw [pv_look_nodes]
      generalize cleared (look p).1 (fixName n) o = q at h hcl ⊢
      unfold create at h ⊢
      split at h
      · simp at h
      · rename_i h1
        rw [if_neg h1]
        split at h
        · simp at h
        · rename_i h2
          rw [if_neg h2]
          split at h
          · simp at h
          · rename_i h3
            rw [if_neg h3]
            simp only
            refine ⟨⟨b, ?_, hb⟩, ?_⟩
            · rw [pv_lookup_append, pv_lookup_none _ _ h2]; simp
            · intro m hm
              rw [pv_lookup_append, hcl m hm]; simp [hm]

/-- **C174**: what is never taken: a reserved name, an array that does not fit, and, without `overwrite`, a name that is in use; the data of
the pod are then as before. -/
theorem C174_refused (valid : String → Bool) (p : PodVars.Pod V) (n : String) (a : Arr V) (o : Bool) :
    (n ∈ reservedNames → (addArray valid p n a o).2 = some .reserved ∧ (addArray valid p n a o).1 = p) ∧
      (n ∉ reservedNames → fitted (look p).2 a = none →
        (addArray valid p n a o).2 = some .incompatibleShape ∧ (addArray valid p n a o).1.nodes = p.nodes) ∧
      (n ∉ reservedNames → fixName n ∈ nodeNames p → valid (fixName n) = true → o = false → fitted (look p).2 a ≠ none →
        (addArray valid p n a o).2 = some .nodeError ∧ (addArray valid p n a o).1.nodes = p.nodes) := by
  refine ⟨?_, ?_, ?_⟩
  · intro h; simp [addArray, h]
  · intro h hf; simp [addArray, h, hf, pv_look_nodes]
  · intro h hm hv ho hf
    cases hb : fitted (look p).2 a with
    | none => exact absurd hb hf
    | some b =>
      have : fixName n ∈ nodeNames (look p).1 := by simpa [nodeNames, pv_look_nodes] using hm
      simp [addArray, h, hb, ho, cleared, create, hv, this, pv_look_nodes]

/-- **C174**: an array that can be stored and fits is always taken under a legal name with `overwrite`. -/
theorem C174_overwrites (valid : String → Bool) (p : PodVars.Pod V) (n : String) (a : Arr V) (hn : n ∉ reservedNames)
    (hv : valid (fixName n) = true) (hs : fitted (look p).2 a ≠ none) (hst : a.storable = true) : (addArray valid p n a true).2 = none := by
  have : fixName n ∉ nodeNames (cleared (look p).1 (fixName n) true) := by
    simp [cleared, dropNode, nodeNames]
  cases hb : fitted (look p).2 a with
  | none => exact absurd hb hs
  | some b =>
    have hbs : b.storable = true := by
      cases hk : (look p).2 with
      | none => rw [hk] at hb; simp only [fitted, Option.some.injEq] at hb; rw [← hb]; exact hst
      | some s => rw [hk] at hb; rw [(pv_fitted_shape s a b hb).2.2]; exact hst
    simp [addArray, hn, hb, create, hv, hbs, this]

/-- **C174**: an array fits a pod of known shape exactly when it has that shape, or has it once all its dimensions of size
one are dropped. -/
theorem C174_fits (s : List Nat) (a : Arr V) :
    (a.shape = s → fitted (some s) a = some a) ∧
      (a.shape.filter (fun d => d ≠ 1) = s → fitted (some s) a = some { a with shape := s }) ∧
      (a.shape ≠ s → a.shape.filter (fun d => d ≠ 1) ≠ s → fitted (some s) a = none) := by
  refine ⟨?_, ?_, ?_⟩
  · intro h; simp [fitted, h]
  · intro h
    simp only [fitted]
    by_cases hs : s = a.shape
    · rw [if_pos hs]
      obtain ⟨sh, d, st⟩ := a
      simp only at hs
      rw [hs]
    · have : s = (squeeze a).shape := h.symm
      rw [if_neg hs, if_pos this]
      simp only [squeeze, h]
  · intro h1 h2
    simp only [fitted]
    rw [if_neg (fun h : s = a.shape => h1 h.symm), if_neg (fun h : s = (squeeze a).shape => h2 h.symm)]

/-- **C174**: without `overwrite` nothing is ever lost: whatever is raised, every variable that was there has the values it had. -/
theorem C174_nothing_lost (valid : String → Bool) (p : PodVars.Pod V) (n : String) (a : Arr V) (m : String) (b : Arr V)
    (h : p.nodes.lookup m = some b) : (addArray valid p n a false).1.nodes.lookup m = some b := by
  unfold addArray
  split
  · exact h
  · cases fitted (look p).2 a with
    | none => simp only; rw [pv_look_nodes]; exact h
    | some c =>
      have hc : cleared (look p).1 (fixName n) false = (look p).1 := rfl
      have hl : (look p).1.nodes.lookup m = some b := by rw [pv_look_nodes]; exact h
      simp only [hc, create]
      split
      · exact hl
      · split
        · exact hl
        · split
          · exact hl
          · simp only
            rw [pv_lookup_append, hl]; rfl

theorem pv_look_look (p : PodVars.Pod V) : (look (look p).1).2 = (look p).2 := by
  unfold look
  cases hm : p.marked with
  | some s => simp only; rw [hm]
  | none =>
    by_cases hn : names p = []
    · simp only [if_pos hn]
      rw [hm]
    · simp only [if_neg hn]
      cases hh : p.nodes.head? with
      | none => simp only; rw [hm]; simp [hn, hh]
      | some e => rfl

theorem pv_evaluated (s : List Nat) (d : V) (h : 1 ∉ s) : (evaluated s d).shape.filter (fun k => k ≠ 1) = s := by
  simp only [evaluated, List.filter_append]
  rw [List.filter_eq_self.mpr (by
    intro x hx
    have : x ≠ 1 := fun hx1 => h (hx1 ▸ hx)
    simpa using this)]
  simp

/-- **C174**: in a pod without dimensions of size one, an expression is evaluated on the variables as they were, also when it replaces one of
them; with `overwrite='ignore'` a variable that exists is left alone, and without `overwrite` it is an error. -/
theorem C174_expression (valid : String → Bool) (ev : List (String × Arr V) → Except Exc V) (p : PodVars.Pod V) (n : String)
    (d : V) (s : List Nat) (hev : ev p.nodes = .ok d) (hn : n ∉ reservedNames) (hv : valid (fixName n) = true) (hs : (look p).2 = some s)
    (h1 : 1 ∉ s) :
    ((addExpression valid ev p n .replace).2 = none ∧
        (addExpression valid ev p n .replace).1.nodes.lookup (fixName n) = some { shape := s, data := d, storable := true } ∧
        ∀ m, m ≠ fixName n → (addExpression valid ev p n .replace).1.nodes.lookup m = p.nodes.lookup m) ∧
      (fixName n ∈ nodeNames p → (addExpression valid ev p n .ignore).2 = none ∧ (addExpression valid ev p n .ignore).1.nodes = p.nodes) ∧
      (fixName n ∈ nodeNames p → (addExpression valid ev p n .raise).2 = some .nodeError ∧
        (addExpression valid ev p n .raise).1.nodes = p.nodes) := by
  have hl : (look (look p).1).2 = some s := by rw [pv_look_look, hs]
  have hfit' := (C174_fits s (evaluated s d)).2.1 (pv_evaluated s d h1)
  have hfit : fitted (look (look p).1).2 (evaluated s d) ≠ none := by rw [hl, hfit']; simp
  refine ⟨?_, ?_, ?_⟩
  · have h2 := C174_overwrites valid (look p).1 n (evaluated s d) hn hv hfit rfl
    obtain ⟨⟨b, hb, hbd, hbs⟩, ho⟩ := C174_added valid (look p).1 n (evaluated s d) true h2
    have h3 : addExpression valid ev p n .replace = addArray valid (look p).1 n (evaluated s d) true := by
      simp [addExpression, hev, settle, hs]
    rw [h3]
    refine ⟨h2, ?_, fun m hm => by rw [ho m hm, pv_look_nodes]⟩
    have h4 : fixName n ∉ nodeNames (cleared (look (look p).1).1 (fixName n) true) := by simp [cleared, dropNode, nodeNames]
    have h5 : addArray valid (look p).1 n (evaluated s d) true =
        ({ cleared (look (look p).1).1 (fixName n) true with
            nodes := (cleared (look (look p).1).1 (fixName n) true).nodes ++ [(fixName n, { evaluated s d with shape := s })] }, none) := by
      simp only [addArray, if_neg hn, hl, hfit', create, hv, if_neg h4]
      simp [evaluated]
    rw [h5]
    simp only
    rw [pv_lookup_append, pv_lookup_none _ _ h4]
    simp [evaluated]
  · intro hm
    have h2 := (C174_refused valid (look p).1 n (evaluated s d) false).2.2 hn (by simpa [nodeNames, pv_look_nodes] using hm) hv rfl hfit
    have : addExpression valid ev p n .ignore = ((addArray valid (look p).1 n (evaluated s d) false).1, none) := by
      simp [addExpression, hev, settle, h2.1, hs]
    rw [this]
    exact ⟨rfl, by simp only; rw [h2.2, pv_look_nodes]⟩
  · intro hm
    have h2 := (C174_refused valid (look p).1 n (evaluated s d) false).2.2 hn (by simpa [nodeNames, pv_look_nodes] using hm) hv rfl hfit
    have : addExpression valid ev p n .raise = addArray valid (look p).1 n (evaluated s d) false := by
      simp [addExpression, hev, settle, hs]
    rw [this]
    exact ⟨h2.1, by rw [h2.2, pv_look_nodes]⟩

/-- **C174**: a blank variable is there afterwards, with zeros, in the shape of the pod or else in the shape asked for; a shape asked for that is
not the shape of the pod is refused. -/
theorem C174_blank (valid : String → Bool) (zeros : List Nat → Arr V) (hz : ∀ s, (zeros s).shape = s) (p : PodVars.Pod V) (n : String)
    (shape : Option (List Nat)) (o : Bool) (h : (addBlank valid zeros p n shape o).2 = none) :
    ∃ s b, (look p).2.or shape = some s ∧ (shape = none ∨ shape = some s) ∧
      (addBlank valid zeros p n shape o).1.nodes.lookup (fixName n) = some b ∧ b.shape = s ∧ b.data = (zeros s).data ∧
      ∀ m, m ≠ fixName n → (addBlank valid zeros p n shape o).1.nodes.lookup m = p.nodes.lookup m := by
  unfold addBlank at h ⊢
  split at h
  · simp at h
  · rename_i hn
    rw [if_neg hn]
    have key : ∀ s, ((look p).2 = none ∨ (look p).2 = some s) → (addArray valid (look p).1 n (zeros s) o).2 = none →
        ∃ b, (addArray valid (look p).1 n (zeros s) o).1.nodes.lookup (fixName n) = some b ∧ b.shape = s ∧ b.data = (zeros s).data ∧
          ∀ m, m ≠ fixName n → (addArray valid (look p).1 n (zeros s) o).1.nodes.lookup m = p.nodes.lookup m := by
      intro s hs h
      obtain ⟨⟨b, hb, hbd, hbs⟩, ho⟩ := C174_added valid (look p).1 n (zeros s) o h
      refine ⟨b, hb, ?_, hbd, fun m hm => by rw [ho m hm, pv_look_nodes]⟩
      rw [hbs, pv_look_look]
      rcases hs with hs | hs <;> rw [hs]
      · exact hz s
      · rfl
    cases hk : (look p).2 with
    | none =>
      rw [hk] at h
      cases shape with
      | none => simp at h
      | some s =>
        obtain ⟨b, hb⟩ := key s (Or.inl hk) h
        exact ⟨s, b, rfl, Or.inr rfl, hb⟩
    | some k =>
      rw [hk] at h
      cases shape with
      | none =>
        obtain ⟨b, hb⟩ := key k (Or.inr hk) h
        exact ⟨k, b, rfl, Or.inl rfl, hb⟩
      | some s =>
        simp only at h ⊢
        by_cases hks : k = s
        · subst hks
          simp only [ne_eq, not_true_eq_false, if_false] at h ⊢
          obtain ⟨b, hb⟩ := key k (Or.inr hk) h
          exact ⟨k, b, rfl, Or.inr rfl, hb⟩
        · simp [hks] at h

/-! ## C174, part 3: renaming -/

/-- **C174**: a renaming that raises nothing does what it says: each array is found under the name that all patterns, one after
the other, give for its old name, and there is nothing else. -/
theorem C174_renamed (valid : String → Bool) (fs : List (String → String)) (p : PodVars.Pod V) (h : InGoodOrder p)
    (hf : ∀ f ∈ fs, ∀ n, n ∉ reservedNames → f n ∉ reservedNames) (hok : (renameVars valid fs p).2 = none) :
    (renameVars valid fs p).1.nodes.Perm (p.nodes.map (fun e => (fs.foldl (fun n f => f n) e.1, e.2))) := by
  induction fs generalizing p with
  | nil => simp [renameVars]
  | cons f r ih =>
    simp only [renameVars] at hok ⊢
    obtain ⟨done, h1, h2, h3, h4, h5⟩ := pv_renameAll valid f (nodeNames p) p h.distinct h.distinct (fun _ hn => hn)
    have hg := pv_renameAll_good valid f p h (hf f (by simp))
    rw [pv_names_all p h.visible] at hok hg ⊢
    cases he : (renameAll valid f (nodeNames p) p).2 with
    | some e => rw [he] at hok; simp at hok
    | none =>
      rw [he] at hok
      simp only at hok ⊢
      rw [h2 he] at h5
      refine (ih _ hg (fun g hgm => hf g (by simp [hgm])) hok).trans ((h5.map _).trans ?_)
      rw [List.map_map]
      apply List.Perm.of_eq
      apply List.map_congr_left
      intro e he
      have : e.1 ∈ nodeNames p := List.mem_map.mpr ⟨e, he, rfl⟩
      simp [renamed, this]

/-- **C174**: a pattern is applied without complaint when the names it gives are distinct, legal, and none is in use. -/
theorem C174_rename_accepted (valid : String → Bool) (f : String → String) (p : PodVars.Pod V) (h : InGoodOrder p)
    (hfree : ∀ n ∈ nodeNames p, f n ≠ n → f n ∉ nodeNames p ∧ valid (f n) = true)
    (hinj : ∀ n ∈ nodeNames p, ∀ m ∈ nodeNames p, f n = f m → n = m) : (renameVars valid [f] p).2 = none := by
  have := pv_renameAll_ok valid f (nodeNames p) p h.distinct h.distinct (fun _ hn => hn) hfree hinj
  simp only [renameVars]
  rw [pv_names_all p h.visible, this]

/-- **C174**: whatever a renaming raises, no array is lost, merged or changed. -/
theorem C174_rename_keeps (valid : String → Bool) (fs : List (String → String)) (p : PodVars.Pod V) (h : (nodeNames p).Nodup) :
    ((renameVars valid fs p).1.nodes.map Prod.snd).Perm (p.nodes.map Prod.snd) ∧ (nodeNames (renameVars valid fs p).1).Nodup := by
  induction fs generalizing p with
  | nil => exact ⟨List.Perm.refl _, h⟩
  | cons f r ih =>
    simp only [renameVars]
    have hsub : ∀ n ∈ names p, n ∈ nodeNames p := fun n hn => List.mem_of_mem_filter hn
    obtain ⟨done, h1, h2, h3, h4, h5⟩ := pv_renameAll valid f (names p) p h (h.filter _) hsub
    have h6 : ((renameAll valid f (names p) p).1.nodes.map Prod.snd).Perm (p.nodes.map Prod.snd) := by
      have := h5.map Prod.snd
      simpa [List.map_map, Function.comp_def] using this
    cases (renameAll valid f (names p) p).2 with
    | some e => exact ⟨h6, h4⟩
    | none => exact ⟨(ih _ h4).1.trans h6, (ih _ h4).2⟩

/-! ## Cases -/

/-- A pod of two variables of three cases. -/
def twoVars : PodVars.Pod (List Nat) :=
  { nodes := [("time", ⟨[3], [10, 20, 30], true⟩), ("cost", ⟨[3], [1, 2, 3], true⟩)], marked := none }

/-- Exchanging two names. -/
def exchange (n : String) : String := if n = "time" then "cost" else if n = "cost" then "time" else n

/-- Both variables become `x`. -/
def toX (_ : String) : String := "x"

example : InGoodOrder twoVars :=
  ⟨by decide, by decide, [3], by intro e he; fin_cases he <;> rfl, Or.inl rfl⟩

/-- A history with a blank, a refused column, a renaming and a deletion. -/
example : run (fun _ => true) (fun s => ⟨s, [0], true⟩) (empty : PodVars.Pod (List Nat))
    [.add "a/b" ⟨[3], [1, 2, 3], true⟩ false, .blank "z" none false, .add "c" ⟨[3, 1], [4, 5, 6], true⟩ false, .add "d" ⟨[4], [], true⟩ false,
      .rename [fun n => "p_" ++ n], .delete "p_z"] =
    { nodes := [("p_a|b", ⟨[3], [1, 2, 3], true⟩), ("p_c", ⟨[3], [4, 5, 6], true⟩)], marked := some [3] } := by decide +kernel

/-- Doubling a variable in place. -/
def twice (l : List (String × Arr (List Nat))) : Except Exc (List Nat) :=
  match l.lookup "time" with
  | some a => .ok (a.data.map (2 * ·))
  | none => .error .other

example : (addExpression (fun _ => true) twice twoVars "time" .replace).1.nodes =
    [("cost", ⟨[3], [1, 2, 3], true⟩), ("time", ⟨[3], [20, 40, 60], true⟩)] := by decide +kernel

example : (renameVars (fun _ => true) [fun n => "p_" ++ n] twoVars).1.nodes =
    [("p_time", ⟨[3], [10, 20, 30], true⟩), ("p_cost", ⟨[3], [1, 2, 3], true⟩)] := by decide +kernel

/-- **C174, where the code falls short**: two names cannot be exchanged, although the names asked for are distinct; and when two names become
one, the first is renamed before the second is refused. -/
theorem C174_fails_exchange :
    (renameVars (fun _ => true) [exchange] twoVars).2 = some .nodeError ∧
      (renameVars (fun _ => true) [toX] twoVars).2 = some .nodeError ∧
      names (renameVars (fun _ => true) [toX] twoVars).1 = ["cost", "x"] := by decide +kernel

/-- **C174, where the code falls short**: a variable can be renamed to a reserved name; it is then listed nowhere, cannot be deleted, and
the pod takes arrays of another shape and gives a shape that none of its variables has. -/
theorem C174_fails_hidden :
    let p := (renameVars (fun _ => true) [fun _ => "_VAULT_"] ⟨[("time", ⟨[3], [10, 20, 30], true⟩)], none⟩).1
    let q := (addArray (fun _ => true) p "cost" ⟨[2], [1, 2], true⟩ false).1
    names p = [] ∧ (deleteArray p "_VAULT_").2 = some .reserved ∧ (addArray (fun _ => true) p "cost" ⟨[2], [1, 2], true⟩ false).2 = none ∧
      names q = ["cost"] ∧ (look q).2 = some [3] := by decide +kernel

/-- **C174, where the code falls short**: with `overwrite`, the old array is deleted before the new one is tried: when that cannot be
stored, both are gone.  This is so for every pod and every variable of it. -/
theorem C174_fails_overwrite_loses (valid : String → Bool) (p : PodVars.Pod V) (n : String) (a : Arr V) (hn : n ∉ reservedNames)
    (hv : valid (fixName n) = true) (hs : (look p).2 = some a.shape) (hst : a.storable = false) :
    (addArray valid p n a true).2 = some .cannotStore ∧ (addArray valid p n a true).1.nodes.lookup (fixName n) = none := by
  have h1 : fixName n ∉ nodeNames (cleared (look p).1 (fixName n) true) := by
    simp [cleared, dropNode, nodeNames]
  have h2 : addArray valid p n a true = (cleared (look p).1 (fixName n) true, some .cannotStore) := by
    simp [addArray, hn, hs, fitted, create, hv, hst, h1]
  rw [h2]
  exact ⟨rfl, pv_lookup_none _ _ h1⟩

example : (addArray (fun _ => true) twoVars "time" ⟨[3], [7], false⟩ true).1.nodes = [("cost", ⟨[3], [1, 2, 3], true⟩)] := by decide +kernel

/-- **C174, where the code falls short**: a column of `n` rows is taken by a pod of `n` cases, unless there is one case. -/
theorem C174_fails_one_case (n : Nat) (d : V) (st : Bool) : (fitted (some [n]) ⟨[n, 1], d, st⟩).isSome = true ↔ n ≠ 1 := by
  by_cases h : n = 1
  · subst h; simp [fitted, squeeze]
  · simp [fitted, squeeze, h]

/-- **C174, where the code falls short**: in a pod with a dimension of size one (one case, or one alternative) `add_expression` never works. -/
theorem C174_fails_expression (valid : String → Bool) (ev : List (String × Arr V) → Except Exc V) (p : PodVars.Pod V) (n : String) (m : Mode)
    (d : V) (s : List Nat) (hev : ev p.nodes = .ok d) (hn : n ∉ reservedNames) (hs : (look p).2 = some s) (h1 : 1 ∈ s) :
    (addExpression valid ev p n m).2 = some .incompatibleShape ∧ (addExpression valid ev p n m).1.nodes = p.nodes := by
  have hl : (look (look p).1).2 = some s := by rw [pv_look_look, hs]
  have hne : (evaluated s d).shape.filter (fun k => k ≠ 1) ≠ s := by
    intro h
    rw [← h] at h1
    simpa using List.of_mem_filter h1
  have hf : fitted (look (look p).1).2 (evaluated s d) = none := by
    rw [hl]
    exact (C174_fits s (evaluated s d)).2.2 (by simp [evaluated]) hne
  have h2 := (C174_refused valid (look p).1 n (evaluated s d) (decide (m = .replace))).2.1 hn hf
  have : addExpression valid ev p n m = addArray valid (look p).1 n (evaluated s d) (decide (m = .replace)) := by
    simp [addExpression, hev, settle, hs, h2.1]
  rw [this]
  exact ⟨h2.1, by rw [h2.2, pv_look_nodes]⟩

/-- **C174, where the code falls short**: an array without its dimension of size one is not taken by a pod that has it. -/
theorem C174_fails_flat (n : Nat) (d : V) (st : Bool) : fitted (some [n, 1]) ⟨[n], d, st⟩ = none := by
  by_cases h : n = 1
  · subst h; simp [fitted, squeeze]
  · simp [fitted, squeeze, h]

/-- **C174, where the code falls short**: asking for the shape changes what the pod accepts: emptied, a pod that has been asked takes only
arrays of the old shape, one that has not takes any. -/
theorem C174_fails_looking :
    let add : Call (List Nat) := .add "a" ⟨[3], [1, 2, 3], true⟩ false
    let p := run (fun _ => true) (fun s => ⟨s, [0], true⟩) empty [add, .delete "a"]
    let q := run (fun _ => true) (fun s => ⟨s, [0], true⟩) empty [add, .shape, .delete "a"]
    p.nodes = q.nodes ∧ (addArray (fun _ => true) p "b" ⟨[2], [4, 5], true⟩ false).2 = none ∧
      (addArray (fun _ => true) q "b" ⟨[2], [4, 5], true⟩ false).2 = some .incompatibleShape := by decide +kernel

end Larch.Props
