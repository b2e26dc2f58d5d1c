import Verif.Spec.Shared
import Verif.Props.Weights

/-!
# C124: loading data into a model and the data it was loaded from
-/

namespace Larch.Props

open Larch.Weights Larch.Spec Larch.Shared

section
variable {K : Type} [Field K] [LinearOrder K]

theorem sh_extract_wt (w : W K) (h : (extract w).wt = none) : w.wt = none := by
  rcases extract_spec w with ⟨he, _⟩ | ⟨i0, _, _, hE⟩
  · rwa [he] at h
  · obtain ⟨x, hx⟩ := hE.isSome.mpr (ensureWt_some w)
    rw [hx] at h; simp at h

theorem sh_rescale_wt (w : W K) (x : Nat → K) (l : K) (hx : w.wt = some x) : (rescale w x l).1.wt ≠ none := by
  unfold rescale; split_ifs
  · rw [hx]; simp
  · simp

/-- No call takes the weights away. -/
theorem sh_call_wt (w : W K) (c : Call K) (h : (Weights.call w c).wt = none) : w.wt = none := by
  cases c with
  | scale s =>
    apply sh_extract_wt
    by_contra hc
    obtain ⟨x, hx⟩ := Option.ne_none_iff_exists'.mp hc
    have h' : (scaleWeights w s).1.wt = none := h
    rw [scaleWeights_some s hx] at h'
    exact sh_rescale_wt _ _ _ hx h'
  | autoscale =>
    apply sh_extract_wt
    by_contra hc
    obtain ⟨x, hx⟩ := Option.ne_none_iff_exists'.mp hc
    have h' : (autoscaleWeights w).1.wt = none := h
    rw [autoscaleWeights_some hx] at h'
    split_ifs at h'
    · rw [hx] at h'; simp at h'
    · exact sh_rescale_wt _ _ _ hx h'
  | unscale =>
    by_contra hc
    obtain ⟨x, hx⟩ := Option.ne_none_iff_exists'.mp hc
    have h' : (unscaleWeights w).1.wt = none := h
    unfold unscaleWeights at h'
    rw [hx] at h'
    dsimp only at h'
    split_ifs at h' <;> simp at h'

theorem sh_rescale_shape (w : W K) (x : Nat → K) (l : K) :
    (rescale w x l).1.nCases = w.nCases ∧ (rescale w x l).1.nAlts = w.nAlts := by
  unfold rescale; split_ifs <;> exact ⟨rfl, rfl⟩

theorem sh_extract_shape (w : W K) : (extract w).nCases = w.nCases ∧ (extract w).nAlts = w.nAlts := by
  rcases extract_spec w with ⟨he, _⟩ | ⟨i0, _, _, hE⟩
  · rw [he]; exact ⟨rfl, rfl⟩
  · exact ⟨hE.nCases.trans (ensureWt_nCases w), hE.nAlts.trans (ensureWt_nAlts w)⟩

theorem sh_call_shape (w : W K) (c : Call K) : (Weights.call w c).nCases = w.nCases ∧ (Weights.call w c).nAlts = w.nAlts := by
  have he := sh_extract_shape w
  cases c with
  | scale s =>
    show (scaleWeights w s).1.nCases = _ ∧ (scaleWeights w s).1.nAlts = _
    cases hw : (extract w).wt with
    | none => rw [scaleWeights_none s hw]; split_ifs <;> exact he
    | some x => rw [scaleWeights_some s hw, (sh_rescale_shape _ _ _).1, (sh_rescale_shape _ _ _).2]; exact he
  | autoscale =>
    show (autoscaleWeights w).1.nCases = _ ∧ (autoscaleWeights w).1.nAlts = _
    cases hw : (extract w).wt with
    | none => rw [autoscaleWeights_none hw]; exact he
    | some x =>
      rw [autoscaleWeights_some hw]
      split_ifs
      · exact he
      · rw [(sh_rescale_shape _ _ _).1, (sh_rescale_shape _ _ _).2]; exact he
  | unscale =>
    show (unscaleWeights w).1.nCases = _ ∧ (unscaleWeights w).1.nAlts = _
    unfold unscaleWeights
    cases w.wt with
    | none => exact ⟨rfl, rfl⟩
    | some x => dsimp only; split_ifs <;> exact ⟨rfl, rfl⟩

/-- The object that `put` writes. -/
def sh_new (s : World K) (o : Obj K) (w : W K) : Obj K :=
  { o with wt := (putWt { s with chs := fun q => if q = o.ch then w.ch else s.chs q } o w).2, norm := w.norm }

theorem sh_put_objs (s : World K) (k : Nat) (o : Obj K) (w : W K) : (s.put k o w).objs = s.objs.set k (sh_new s o w) := by
  unfold World.put sh_new putWt
  cases o.wt <;> cases w.wt <;> rfl

theorem sh_put_chs (s : World K) (k : Nat) (o : Obj K) (w : W K) :
    (s.put k o w).chs = fun q => if q = o.ch then w.ch else s.chs q := by
  unfold World.put putWt
  cases o.wt <;> cases w.wt <;> rfl

theorem sh_put_next (s : World K) (k : Nat) (o : Obj K) (w : W K) : s.next ≤ (s.put k o w).next := by
  unfold World.put putWt
  cases o.wt <;> cases w.wt <;> simp

/-- Arrays in use that `o` does not own are not written. -/
theorem sh_put_wts (s : World K) (k : Nat) (o : Obj K) (w : W K) (r : Nat) (hr : r < s.next) (ho : o.wt ≠ some r) :
    (s.put k o w).wts r = s.wts r := by
  unfold World.put putWt
  cases h : o.wt with
  | none =>
    cases w.wt with
    | none => rfl
    | some x => dsimp only; rw [if_neg (by omega)]
  | some a =>
    cases w.wt with
    | none => rfl
    | some x => dsimp only; rw [if_neg (by rintro rfl; exact ho h)]

/-- After the write the object holds what was written. -/
theorem sh_put_self (s : World K) (k : Nat) (o : Obj K) (w : W K) (hk : s.objs[k]? = some o) (h1 : w.nCases = o.nCases)
    (h2 : w.nAlts = o.nAlts) (h3 : w.wt = none → o.wt = none) : held (s.put k o w) k = some w := by
  have hlt : k < s.objs.length := (List.getElem?_eq_some_iff.mp hk).1
  unfold held
  rw [sh_put_objs, List.getElem?_set_self hlt, Option.map_some]
  congr 1
  unfold World.view
  rw [sh_put_chs]
  obtain ⟨n, a, ch, wt, norm⟩ := w
  dsimp only at h1 h2 h3
  subst h1 h2
  simp only [sh_new, if_true]
  congr 1
  unfold World.put putWt
  cases h : o.wt with
  | none => cases wt <;> simp
  | some r =>
    cases wt with
    | none => rw [h3 rfl] at h; simp at h
    | some x => simp

theorem sh_put_other (s : World K) (k l : Nat) (o p : Obj K) (w : W K) (hl : s.objs[l]? = some p) (hkl : k ≠ l) (hch : p.ch ≠ o.ch)
    (hu : ∀ r, p.wt = some r → r < s.next) (hwt : ∀ r, p.wt = some r → o.wt ≠ some r) :
    held (s.put k o w) l = held s l := by
  unfold held
  rw [sh_put_objs, List.getElem?_set_ne hkl, hl, Option.map_some, Option.map_some]
  congr 1
  unfold World.view
  rw [sh_put_chs]
  simp only [if_neg hch]
  congr 1
  cases hp : p.wt with
  | none => rfl
  | some r => simp only [Option.map_some, Option.some.injEq]; exact sh_put_wts s k o w r (hu r hp) (hwt r hp)

theorem sh_call_eq (s : World K) (k : Nat) (o : Obj K) (c : Call K) (hk : s.objs[k]? = some o) :
    s.call k c = s.put k o (Weights.call (s.view o) c) := by unfold World.call; rw [hk]

theorem sh_call_self (s : World K) (k : Nat) (c : Call K) (o : Obj K) (hk : s.objs[k]? = some o) :
    held (s.call k c) k = some (Weights.call (s.view o) c) := by
  rw [sh_call_eq s k o c hk]
  refine sh_put_self s k o _ hk (sh_call_shape _ c).1 (sh_call_shape _ c).2 (fun h => ?_)
  have := sh_call_wt _ c h
  simpa [World.view] using this

theorem sh_new_ch (s : World K) (o : Obj K) (w : W K) : (sh_new s o w).ch = o.ch := rfl

theorem sh_new_wt (s : World K) (o : Obj K) (w : W K) (r : Nat) (h : (sh_new s o w).wt = some r) :
    o.wt = some r ∨ (o.wt = none ∧ r = s.next ∧ w.wt.isSome = true) := by
  unfold sh_new putWt at h
  cases ho : o.wt with
  | none =>
    rw [ho] at h
    cases hw : w.wt with
    | none => rw [hw] at h; simp at h
    | some x => rw [hw] at h; simp at h; exact Or.inr ⟨rfl, h.symm, rfl⟩
  | some a =>
    rw [ho] at h
    cases hw : w.wt with
    | none => rw [hw] at h; simp at h; exact Or.inl (by rw [h])
    | some x => rw [hw] at h; simp at h; exact Or.inl (by rw [h])

theorem sh_put_next' (s : World K) (k : Nat) (o : Obj K) (w : W K) (h : o.wt = none) (hw : w.wt.isSome = true) :
    (s.put k o w).next = s.next + 1 := by
  unfold World.put putWt
  obtain ⟨x, hx⟩ := Option.isSome_iff_exists.mp hw
  rw [h, hx]

theorem sh_put_own (s : World K) (h : OwnArrays s) (k : Nat) (o : Obj K) (w : W K) (hk : s.objs[k]? = some o) :
    OwnArrays (s.put k o w) := by
  have hn := sh_put_next s k o w
  have hlt : k < s.objs.length := (List.getElem?_eq_some_iff.mp hk).1
  have hmem : o ∈ s.objs := List.mem_of_getElem? hk
  have hget : ∀ l q, (s.put k o w).objs[l]? = some q → (l = k ∧ q = sh_new s o w) ∨ (l ≠ k ∧ s.objs[l]? = some q) := by
    intro l q hq
    rw [sh_put_objs] at hq
    by_cases hl : l = k
    · subst hl; rw [List.getElem?_set_self hlt] at hq
      exact Or.inl ⟨rfl, (Option.some.inj hq).symm⟩
    · rw [List.getElem?_set_ne (fun e => hl e.symm)] at hq
      exact Or.inr ⟨hl, hq⟩
  have hnew : ∀ r, (sh_new s o w).wt = some r → r < (s.put k o w).next := by
    intro r hr
    rcases sh_new_wt s o w r hr with h1 | ⟨h1, h2, h3⟩
    · exact lt_of_lt_of_le (h.wtUsed o hmem r h1) hn
    · rw [sh_put_next' s k o w h1 h3]; omega
  refine ⟨?_, ?_, ?_, ?_⟩
  · intro q hq
    obtain ⟨l, hl⟩ := List.mem_iff_getElem?.mp hq
    rcases hget l q hl with ⟨_, rfl⟩ | ⟨_, h2⟩
    · exact lt_of_lt_of_le (h.chUsed o hmem) hn
    · exact lt_of_lt_of_le (h.chUsed q (List.mem_of_getElem? h2)) hn
  · intro q hq r hr
    obtain ⟨l, hl⟩ := List.mem_iff_getElem?.mp hq
    rcases hget l q hl with ⟨_, rfl⟩ | ⟨_, h2⟩
    · exact hnew r hr
    · exact lt_of_lt_of_le (h.wtUsed q (List.mem_of_getElem? h2) r hr) hn
  · intro a b p q ha hb hab
    rcases hget a p ha with ⟨e1, rfl⟩ | ⟨e1, h1⟩ <;> rcases hget b q hb with ⟨e2, rfl⟩ | ⟨e2, h2⟩
    · exact absurd (e1.trans e2.symm) hab
    · exact h.ch k b o q hk h2 (fun e => e2 e.symm)
    · exact h.ch a k p o h1 hk e1
    · exact h.ch a b p q h1 h2 hab
  · intro a b p q ha hb hab r hr hr'
    rcases hget a p ha with ⟨e1, rfl⟩ | ⟨e1, h1⟩ <;> rcases hget b q hb with ⟨e2, rfl⟩ | ⟨e2, h2⟩
    · exact absurd (e1.trans e2.symm) hab
    · rcases sh_new_wt s o w r hr with h3 | ⟨_, h3, _⟩
      · exact h.wt k b o q hk h2 (fun e => e2 e.symm) r h3 hr'
      · have := h.wtUsed q (List.mem_of_getElem? h2) r hr'; omega
    · rcases sh_new_wt s o w r hr' with h3 | ⟨_, h3, _⟩
      · exact h.wt a k p o h1 hk e1 r hr h3
      · have := h.wtUsed p (List.mem_of_getElem? h1) r hr; omega
    · exact h.wt a b p q h1 h2 hab r hr hr'

theorem sh_call_own (s : World K) (h : OwnArrays s) (k : Nat) (c : Call K) : OwnArrays (s.call k c) := by
  cases hk : s.objs[k]? with
  | none => unfold World.call; rw [hk]; exact h
  | some o => rw [sh_call_eq s k o c hk]; exact sh_put_own s h k o _ hk

/-- With one owner for every array a call changes only the object it is made on. -/
theorem sh_call_other (s : World K) (h : OwnArrays s) (k l : Nat) (c : Call K) (hkl : k ≠ l) : held (s.call k c) l = held s l := by
  cases hk : s.objs[k]? with
  | none => unfold World.call; rw [hk]
  | some o =>
    rw [sh_call_eq s k o c hk]
    cases hl : s.objs[l]? with
    | none =>
      unfold held
      rw [sh_put_objs, List.getElem?_set_ne hkl, hl]
      rfl
    | some p =>
      exact sh_put_other s k l o p _ hl hkl (h.ch l k p o hl hk (fun e => hkl e.symm))
        (fun r hr => h.wtUsed p (List.mem_of_getElem? hl) r hr) (fun r hr => h.wt l k p o hl hk (fun e => hkl e.symm) r hr)

/-- The arrays of `make`: what was in memory is still there. -/
theorem sh_make (s : World K) (o : Obj K) (r : Named K) :
    (∃ n : Obj K, (s.make o r).objs = s.objs ++ [n] ∧ n.nCases = o.nCases ∧ n.nAlts = o.nAlts) ∧
    (∀ q < s.next, (s.make o r).chs q = s.chs q ∧ (s.make o r).wts q = s.wts q) ∧ s.next ≤ (s.make o r).next := by
  unfold World.make loadCh loadWt
  cases r.ch <;> cases r.wt <;> cases o.wt <;>
    refine ⟨⟨_, rfl, rfl, rfl⟩, fun q hq => ⟨?_, ?_⟩, ?_⟩ <;> (try rfl) <;> (try (simp <;> omega))

theorem sh_make_held (s : World K) (o : Obj K) (r : Named K) (h1 : ∀ o ∈ s.objs, o.ch < s.next)
    (h2 : ∀ o ∈ s.objs, ∀ r, o.wt = some r → r < s.next) (l : Nat) (hl : l < s.objs.length) : held (s.make o r) l = held s l := by
  obtain ⟨⟨n, hn, _, _⟩, hq, _⟩ := sh_make s o r
  unfold held
  rw [hn, List.getElem?_append_left hl]
  cases hp : s.objs[l]? with
  | none => rfl
  | some p =>
    have hm := List.mem_of_getElem? hp
    simp only [Option.map_some, Option.some.injEq]
    unfold World.view
    rw [(hq _ (h1 p hm)).1]
    congr 1
    cases hw : p.wt with
    | none => rfl
    | some x => simp only [Option.map_some, Option.some.injEq]; exact (hq _ (h2 p hm x hw)).2

theorem sh_make_own (s : World K) (h : OwnArrays s) (o : Obj K) (r : Named K) (hc : r.ch.isSome = true) (hw : r.wt.isSome = true) :
    OwnArrays (s.make o r) := by
  obtain ⟨x, hx⟩ := Option.isSome_iff_exists.mp hc
  obtain ⟨y, hy⟩ := Option.isSome_iff_exists.mp hw
  have hobjs : (s.make o r).objs = s.objs ++ [⟨o.nCases, o.nAlts, s.next, some (s.next + 1), 1⟩] := by
    unfold World.make loadCh loadWt; rw [hx, hy]
  have hnext : (s.make o r).next = s.next + 2 := by unfold World.make loadCh loadWt; rw [hx, hy]
  have hget : ∀ l q, (s.make o r).objs[l]? = some q →
      s.objs[l]? = some q ∨ (l = s.objs.length ∧ q = ⟨o.nCases, o.nAlts, s.next, some (s.next + 1), 1⟩) := by
    intro l q hq
    rw [hobjs, List.getElem?_append] at hq
    split_ifs at hq with hl
    · exact Or.inl hq
    · rw [List.getElem?_singleton] at hq
      split_ifs at hq with he
      exact Or.inr ⟨by omega, (Option.some.inj hq).symm⟩
  refine ⟨?_, ?_, ?_, ?_⟩
  · intro q hq
    obtain ⟨l, hl⟩ := List.mem_iff_getElem?.mp hq
    rw [hnext]
    rcases hget l q hl with h1 | ⟨_, rfl⟩
    · have := h.chUsed q (List.mem_of_getElem? h1); omega
    · dsimp only; omega
  · intro q hq r' hr
    obtain ⟨l, hl⟩ := List.mem_iff_getElem?.mp hq
    rw [hnext]
    rcases hget l q hl with h1 | ⟨_, rfl⟩
    · have := h.wtUsed q (List.mem_of_getElem? h1) r' hr; omega
    · have : s.next + 1 = r' := by simpa using hr
      omega
  · intro a b p q ha hb hab
    rcases hget a p ha with h1 | ⟨e1, rfl⟩ <;> rcases hget b q hb with h2 | ⟨e2, rfl⟩
    · exact h.ch a b p q h1 h2 hab
    · have := h.chUsed p (List.mem_of_getElem? h1); dsimp only; omega
    · have := h.chUsed q (List.mem_of_getElem? h2); dsimp only; omega
    · omega
  · intro a b p q ha hb hab r' hr hr'
    rcases hget a p ha with h1 | ⟨e1, rfl⟩ <;> rcases hget b q hb with h2 | ⟨e2, rfl⟩
    · exact h.wt a b p q h1 h2 hab r' hr hr'
    · have := h.wtUsed p (List.mem_of_getElem? h1) r' hr
      have : s.next + 1 = r' := by simpa using hr'
      omega
    · have := h.wtUsed q (List.mem_of_getElem? h2) r' hr'
      have : s.next + 1 = r' := by simpa using hr
      omega
    · omega

theorem sh_load_some (s : World K) (k : Nat) (r : Named K) (a : Bool) (o : Obj K) (hk : s.objs[k]? = some o) :
    s.load k r a = if a && (s.make o r).weighted s.objs.length then (s.make o r).call s.objs.length .autoscale else s.make o r := by
  unfold World.load; rw [hk]

variable [IsStrictOrderedRing K]

/-- One step leaves the counts of every object alone. -/
theorem sh_step (s : World K) (h : OwnArrays s) (op : Op K) (hop : NamesBoth op) (l : Nat) (w : W K) (hl : held s l = some w)
    (hw : NonnegChoices w) :
    OwnArrays (s.step op) ∧ ∃ w', held (s.step op) l = some w' ∧ NonnegChoices w' ∧ SameCounts w' w := by
  have hrefl : SameCounts w w := ⟨rfl, rfl, fun _ _ _ _ => rfl⟩
  cases op with
  | call k c =>
    refine ⟨sh_call_own s h k c, ?_⟩
    by_cases hkl : k = l
    · subst hkl
      cases hk : s.objs[k]? with
      | none => unfold held at hl; rw [hk] at hl; simp at hl
      | some o =>
        have hv : s.view o = w := by unfold held at hl; rw [hk] at hl; simpa using hl
        refine ⟨_, sh_call_self s k c o hk, ?_⟩
        rw [hv]
        obtain ⟨a1, a2, a3, a4⟩ := call_keeps w hw c
        exact ⟨a3, a1, a2, a4⟩
    · exact ⟨w, by show held (s.call k c) l = _; rw [sh_call_other s h k l c hkl, hl], hw, hrefl⟩
  | load k r a =>
    show OwnArrays (s.load k r a) ∧ ∃ w', held (s.load k r a) l = some w' ∧ _
    cases hk : s.objs[k]? with
    | none =>
      have : s.load k r a = s := by unfold World.load; rw [hk]
      rw [this]; exact ⟨h, w, hl, hw, hrefl⟩
    | some o =>
      have hm := sh_make_own s h o r hop.1 hop.2
      have hll : l < s.objs.length := by
        by_contra hc
        unfold held at hl
        rw [List.getElem?_eq_none (by omega)] at hl; simp at hl
      have hh := sh_make_held s o r h.chUsed h.wtUsed l hll
      rw [sh_load_some s k r a o hk]
      split_ifs
      · refine ⟨sh_call_own _ hm _ _, w, ?_, hw, hrefl⟩
        rw [sh_call_other _ hm _ _ _ (by omega), hh, hl]
      · exact ⟨hm, w, by rw [hh, hl], hw, hrefl⟩

/-- **C124 (named choices and weights).** As long as every model that loads data names the choices and the weights it wants, loading data
into models and rescaling the weights of any of them, in any order, leaves every other object alone: the choice of each alternative in each
case goes on counting with the same weight, in the source and in every model. -/
theorem C124_named (s : World K) (h : OwnArrays s) (ops : List (Op K)) (hops : ∀ op ∈ ops, NamesBoth op) (l : Nat) (w : W K)
    (hl : held s l = some w) (hw : NonnegChoices w) :
    ∃ w', held (ops.foldl World.step s) l = some w' ∧ SameCounts w' w := by
  induction ops generalizing s w with
  | nil => exact ⟨w, hl, rfl, rfl, fun _ _ _ _ => rfl⟩
  | cons op rest ih =>
    obtain ⟨h1, w1, hl1, hw1, hs1⟩ := sh_step s h op (hops op (by simp)) l w hl hw
    obtain ⟨w2, hl2, hs2⟩ := ih (s.step op) h1 (fun o ho => hops o (by simp [ho])) w1 hl1 hw1
    refine ⟨w2, hl2, hs2.1.trans hs1.1, hs2.2.1.trans hs1.2.1, fun i hi j hj => ?_⟩
    rw [hs2.2.2 i (by rw [hs1.1]; exact hi) j (by rw [hs1.2.1]; exact hj), hs1.2.2 i hi j hj]

/-- What `make` gives the new object when nothing is named. -/
theorem sh_make_shared (s : World K) (o : Obj K) :
    ∃ n : Obj K, (s.make o ⟨none, none⟩).objs = s.objs ++ [n] ∧ n.nCases = o.nCases ∧ n.nAlts = o.nAlts ∧ n.ch = o.ch ∧ n.wt = o.wt ∧
      n.norm = (if o.wt.isSome then o.norm else 1) ∧ (s.make o ⟨none, none⟩).chs = s.chs ∧ (s.make o ⟨none, none⟩).wts = s.wts := by
  unfold World.make loadCh loadWt
  cases ho : o.wt with
  | none => exact ⟨_, rfl, rfl, rfl, rfl, rfl, rfl, rfl, rfl⟩
  | some r => exact ⟨_, rfl, rfl, rfl, rfl, rfl, rfl, rfl, rfl⟩

/-- The sharing case in one statement: the new object sees what the source sees, and the source sees afterwards what was written. -/
theorem sh_shared (s : World K) (k : Nat) (o : Obj K) (hk : s.objs[k]? = some o) (x : Nat) (hx : o.wt = some x) :
    let t := s.load k ⟨none, none⟩ true
    let w' := (autoscaleWeights (s.view o)).1
    held t s.objs.length = some w' ∧ held t k = some { w' with norm := o.norm } := by
  obtain ⟨n, hn, n1, n2, n3, n4, n5, n6, n7⟩ := sh_make_shared s o
  set m := s.make o ⟨none, none⟩ with hm
  have hget : m.objs[s.objs.length]? = some n := by rw [hn]; simp
  have hklt : k < s.objs.length := (List.getElem?_eq_some_iff.mp hk).1
  have hview : m.view n = s.view o := by
    unfold World.view; rw [n6, n7, n1, n2, n3, n4, n5, hx]; rfl
  have hwtd : m.weighted s.objs.length = true := by unfold World.weighted; rw [hget]; simp [n4, hx]
  have ht : s.load k ⟨none, none⟩ true = m.put s.objs.length n (autoscaleWeights (s.view o)).1 := by
    rw [sh_load_some s k _ _ o hk, ← hm, hwtd]
    simp only [Bool.and_self, if_true]
    rw [sh_call_eq m _ n _ hget, hview]; rfl
  have hsh := sh_call_shape (s.view o) .autoscale
  have hwn : (autoscaleWeights (s.view o)).1.wt ≠ none := by
    intro hc
    have := sh_call_wt (s.view o) .autoscale hc
    simp [World.view, hx] at this
  obtain ⟨y, hy⟩ := Option.ne_none_iff_exists'.mp hwn
  intro t w'
  show held (s.load k ⟨none, none⟩ true) _ = _ ∧ held (s.load k ⟨none, none⟩ true) k = _
  rw [ht]
  refine ⟨?_, ?_⟩
  · exact sh_put_self m _ n _ hget (hsh.1.trans n1.symm) (hsh.2.trans n2.symm) (fun hc => absurd hc hwn)
  · have hkm : m.objs[k]? = some o := by rw [hn, List.getElem?_append_left hklt, hk]
    unfold held
    rw [sh_put_objs, List.getElem?_set_ne (by omega), hkm, Option.map_some]
    congr 1
    show W.mk o.nCases o.nAlts ((m.put s.objs.length n (autoscaleWeights (s.view o)).1).chs o.ch)
      (o.wt.map (m.put s.objs.length n (autoscaleWeights (s.view o)).1).wts) o.norm = _
    rw [sh_put_chs]
    simp only [n3, if_true]
    have hw' : (m.put s.objs.length n (autoscaleWeights (s.view o)).1).wts = fun q => if q = x then y else m.wts q := by
      unfold World.put putWt; rw [n4, hx, hy]
    rw [hw', hx]
    have e1 : w'.nCases = o.nCases := hsh.1
    have e2 : w'.nAlts = o.nAlts := hsh.2
    have e3 : w'.wt = some y := hy
    show W.mk o.nCases o.nAlts w'.ch _ o.norm = _
    rw [← e1, ← e2]
    simp [e3]

/-- **C124 (a loaded model counts like its source).** A model that names neither choices nor weights gets those of the source: every choice
counts as it counted in the source before. -/
theorem C124_loaded_counts (s : World K) (k : Nat) (o : Obj K) (hk : s.objs[k]? = some o) (x : Nat) (hx : o.wt = some x)
    (hw : NonnegChoices (s.view o)) :
    ∃ w', held (s.load k ⟨none, none⟩ true) s.objs.length = some w' ∧ SameCounts w' (s.view o) := by
  refine ⟨_, (sh_shared s k o hk x hx).1, ?_⟩
  obtain ⟨a, b, _, d⟩ := call_keeps (s.view o) hw .autoscale
  exact ⟨a, b, d⟩

theorem sh_autoscale (w : W K) (wt : Nat → K) (hwt : w.wt = some wt) (ht : ∀ i < w.nCases, choiceTotal w i = 1) (hn : 0 < w.nCases)
    (hl : wtSum w wt / w.nCases ≠ 0) :
    (autoscaleWeights w).1 = { w with wt := some (fun i => wt i / (wtSum w wt / w.nCases)), norm := w.norm * (wtSum w wt / w.nCases) } := by
  have hex := extract_same w ht
  rw [autoscaleWeights_some (by rw [hex]; exact hwt), hex, if_neg (by omega)]
  unfold rescale
  rw [if_neg (fun h => hl h.1)]

/-- **C124 (weights that average one).** When the weights of the source average one and its choices add up to one in each case - as after
`autoscale_weights` - a model that names neither changes nothing in the source and holds the same. -/
theorem C124_balanced (s : World K) (k : Nat) (o : Obj K) (hk : s.objs[k]? = some o) (x : Nat) (hx : o.wt = some x)
    (ht : ∀ i < o.nCases, choiceTotal (s.view o) i = 1) (hn : 0 < o.nCases)
    (havg : (∑ i ∈ Finset.range o.nCases, s.wts x i) / o.nCases = 1) :
    held (s.load k ⟨none, none⟩ true) k = held s k ∧ held (s.load k ⟨none, none⟩ true) s.objs.length = held s k := by
  have hv : (s.view o).wt = some (s.wts x) := by simp [World.view, hx]
  have hl : wtSum (s.view o) (s.wts x) / ((s.view o).nCases : K) = 1 := havg
  have ha := sh_autoscale (s.view o) (s.wts x) hv ht hn (by rw [hl]; exact one_ne_zero)
  rw [hl] at ha
  have hsame : (autoscaleWeights (s.view o)).1 = s.view o := by
    rw [ha]; simp only [div_one, mul_one]; rw [← hv]
  obtain ⟨h1, h2⟩ := sh_shared s k o hk x hx
  have hh : held s k = some (s.view o) := by unfold held; rw [hk]; rfl
  rw [hh]
  refine ⟨?_, ?_⟩
  · rw [h2, hsame]; rfl
  · rw [h1, hsame]

/-- **C124 (fails: the source is rescaled).** Whenever the weights of the source do not average one, a model that does not name its weights
changes the source: all its weights are divided by their average, and its normalization is not adjusted; the choices count with a different
weight from then on (for this source, and for every model loaded from it). -/
theorem C124_fails_source_rescaled (s : World K) (k : Nat) (o : Obj K) (hk : s.objs[k]? = some o) (x : Nat) (hx : o.wt = some x)
    (ht : ∀ i < o.nCases, choiceTotal (s.view o) i = 1) (hn : 0 < o.nCases)
    (havg : (∑ i ∈ Finset.range o.nCases, s.wts x i) / o.nCases ≠ 0) :
    ∃ w', held (s.load k ⟨none, none⟩ true) k = some w' ∧ ∀ i < o.nCases, ∀ j < o.nAlts,
      contribution w' i j = contribution (s.view o) i j / ((∑ i ∈ Finset.range o.nCases, s.wts x i) / o.nCases) := by
  have hv : (s.view o).wt = some (s.wts x) := by simp [World.view, hx]
  have ha := sh_autoscale (s.view o) (s.wts x) hv ht hn havg
  refine ⟨_, (sh_shared s k o hk x hx).2, fun i hi j hj => ?_⟩
  rw [ha]
  simp only [contribution, caseWt, hv]
  show s.chs o.ch i j * (s.wts x i / _) * o.norm = s.chs o.ch i j * s.wts x i * o.norm / _
  rw [mul_div_assoc', div_mul_eq_mul_div]
  rfl

end

/-- Two cases, two alternatives, weights 1 and 3, in one `DataFrames`. -/
def sh_demo : World ℚ where
  chs := fun q i j => if q = 0 ∧ i < 2 ∧ j = 0 then 1 else 0
  wts := fun q i => if q = 0 then (if i = 0 then 1 else 3) else 0
  next := 1
  objs := [⟨2, 2, 0, some 0, 1⟩]

/-- Unlike a fresh source, whose weights are those of the file: two models loaded one after the other from the same `DataFrames` count
differently - the first choice of the first case with weight 1 in the first model and 1/2 in the second. -/
theorem C124_fails_second_model :
    let s1 := sh_demo.load 0 ⟨none, none⟩ true
    let s2 := s1.load 0 ⟨none, none⟩ true
    (held s1 1).map (fun w => contribution w 0 0) = some 1 ∧ (held s2 2).map (fun w => contribution w 0 0) = some (1 / 2) ∧
    (held sh_demo 0).map (fun w => contribution w 0 0) = some 1 ∧ (held s2 0).map (fun w => contribution w 0 0) = some (1 / 2) := by
  decide +kernel

/-- The same when only the choices are named. -/
theorem C124_fails_named_choices :
    (held (sh_demo.load 0 ⟨some (fun _ j => if j = 1 then 1 else 0), none⟩ true) 0).map (fun w => contribution w 1 0) = some (3 / 2) ∧
    (held sh_demo 0).map (fun w => contribution w 1 0) = some 3 := by decide +kernel

/-- `C124_named` applies: a source and two models that name choices and weights, with rescaling in between. -/
example : ∃ w', held ([Op.load 0 ⟨some (fun _ j => if j = 0 then 1 else 0), some (fun i => if i = 0 then 1 else 3)⟩ true,
      .call 0 .autoscale, .load 1 ⟨some (fun _ _ => 1), some (fun _ => 2)⟩ true, .call 1 (.scale 5)].foldl World.step sh_demo) 0 = some w' ∧
    contribution w' 1 0 = 3 := by
  have hown : OwnArrays sh_demo := by
    refine ⟨by decide, by decide, ?_, ?_⟩
    · intro k l o p hk hl hkl
      have h1 : k < 1 := (List.getElem?_eq_some_iff.mp hk).1
      have h2 : l < 1 := (List.getElem?_eq_some_iff.mp hl).1
      omega
    · intro k l o p hk hl hkl
      have h1 : k < 1 := (List.getElem?_eq_some_iff.mp hk).1
      have h2 : l < 1 := (List.getElem?_eq_some_iff.mp hl).1
      omega
  obtain ⟨w', h1, h2⟩ := C124_named sh_demo hown [Op.load 0 ⟨some (fun _ j => if j = 0 then 1 else 0), some (fun i => if i = 0 then 1 else 3)⟩ true,
      .call 0 .autoscale, .load 1 ⟨some (fun _ _ => 1), some (fun _ => 2)⟩ true, .call 1 (.scale 5)]
    (by intro op hop; simp only [List.mem_cons, List.not_mem_nil, or_false] at hop; rcases hop with rfl | rfl | rfl | rfl <;> simp [NamesBoth])
    0 _ rfl (by intro i _ j _; simp only [World.view, sh_demo]; split_ifs <;> norm_num)
  refine ⟨w', h1, ?_⟩
  rw [h2.2.2 1 (by decide) 0 (by decide)]
  decide +kernel

/-- Weights 1/2 and 3/2 average one: `C124_balanced` applies. -/
def sh_even : World ℚ := { sh_demo with wts := fun q i => if q = 0 then (if i = 0 then 1 / 2 else 3 / 2) else 0 }

example : held (sh_even.load 0 ⟨none, none⟩ true) 0 = held sh_even 0 :=
  (C124_balanced sh_even 0 _ rfl 0 rfl (by intro i hi; have : i = 0 ∨ i = 1 := by simp only [sh_even, sh_demo] at hi; omega
                                           rcases this with rfl | rfl <;> decide +kernel)
    (by decide) (by decide +kernel)).1

end Larch.Props
