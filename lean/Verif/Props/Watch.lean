import Verif.Spec.Watch

/-!
# C42, C54: changes reach the model
-/

namespace Larch.Props

open Larch.Watch

variable {τ : Type}

/-! ## C42: TouchNotify -/

/-- Every statement other than item and attribute assignment calls the callback exactly once when it succeeds.  Missing for the
full claim: the two assignments (`C42_fails_assignment`). -/
theorem C42_touch_partial (s s' : Dict) (op : DictOp) (h : s.step op = some s') (h1 : ∀ k v, op ≠ .setitem k v)
    (h2 : ∀ k v, op ≠ .setattr k v) : s'.touches = s.touches + 1 := by
  cases op <;> simp only [Dict.step] at h
  case setitem k v => exact absurd rfl (h1 k v)
  case setattr k v => exact absurd rfl (h2 k v)
  all_goals first
    | (split at h <;> first | (cases h; rfl) | (cases h))
    | (cases h; rfl)

/-- Item and attribute assignment never call it, although they change the container. -/
theorem C42_fails_assignment (s : Dict) (k v : String) :
    (∃ s', s.step (.setitem k v) = some s' ∧ s'.touches = s.touches ∧ s'.data = put s.data k v) ∧
    (∃ s', s.step (.setattr k v) = some s' ∧ s'.touches = s.touches ∧ s'.attrs = put s.attrs k v) :=
  ⟨⟨_, rfl, rfl, rfl⟩, ⟨_, rfl, rfl, rfl⟩⟩

/-- A statement that raises leaves the container and the callback alone (there is no new state). -/
theorem C42_raise (s : Dict) (op : DictOp) :
    s.step op = none ↔ (∃ k, (op = .delitem k ∨ op = .pop k) ∧ has s.data k = false) ∨ (∃ k, op = .delattr k ∧ has s.attrs k = false) ∨
      (op = .popitem ∧ s.data = []) := by
  cases op <;> simp [Dict.step]

/-- A history of assignments alone is never reported, however long. -/
theorem C42_fails_history (s : Dict) (kvs : List (String × String)) :
    ∃ s', (kvs.foldlM (fun (s : Dict) e => s.step (.setitem e.1 e.2)) s) = some s' ∧ s'.touches = s.touches ∧
      s'.data = kvs.foldl (fun d e => put d e.1 e.2) s.data := by
  induction kvs generalizing s with
  | nil => exact ⟨s, rfl, rfl, rfl⟩
  | cons e r ih =>
    obtain ⟨s', h1, h2, h3⟩ := ih { s with data := put s.data e.1 e.2 }
    exact ⟨s', by simpa [List.foldlM_cons, Dict.step] using h1, h2, h3⟩

example : (Dict.step ⟨[("a", "b")], [], 3⟩ (.update [("a", "c"), ("d", "e")])) = some ⟨[("a", "c"), ("d", "e")], [], 4⟩ := by
  simp [Dict.step, put, Dict.touch]

/-! ## C54 -/

@[simp] theorem upd_same {α : Type} (f : Nat → α) (i : Nat) (x : α) : upd f i x i = x := by simp [upd]

theorem upd_ne {α : Type} (f : Nat → α) {i j : Nat} (x : α) (h : j ≠ i) : upd f i x j = f j := by simp [upd, h]

/-- The terms a mapping of alternatives to objects stands for. -/
def sem (s : St τ) (co : Nat → Option Nat) : Nat → List τ := fun k => match co k with | some i => (s.fns i).terms | none => []

/-- The relation kept between objects and values. -/
structure Rel (n : Nat) (s : St τ) (v : Val τ) : Prop where
  next : n ≤ s.next
  ca : ∀ m < n, (s.mdls m).ca = m ∧ (s.fns m).inst = some m ∧ (s.fns m).terms = v.ca m
  range : ∀ m < n, ∀ k i, (s.mdls m).co k = some i → n ≤ i ∧ i < s.next
  inj : ∀ m < n, ∀ m' < n, ∀ k k' i, (s.mdls m).co k = some i → (s.mdls m').co k' = some i → m = m' ∧ k = k'
  co : ∀ m < n, sem s (s.mdls m).co = v.co m
  fresh : ∀ m < n, (s.mdls m).mangled = true ∨ (s.mdls m).snap = ⟨v.ca m, v.co m⟩

theorem current_of {n : Nat} {s : St τ} {v : Val τ} (h : Rel n s v) {m : Nat} (hm : m < n) : s.current m = ⟨v.ca m, v.co m⟩ := by
  have h1 := h.co m hm
  unfold St.current
  rw [(h.ca m hm).1, (h.ca m hm).2.2]
  congr 1

/-- A change confined to model `m`, which is mangled by it. -/
theorem rel_change {n : Nat} {s s' : St τ} {v v' : Val τ} (h : Rel n s v) {m : Nat} (hm : m < n)
    (h1 : s.next ≤ s'.next) (h2 : ∀ m', m' ≠ m → s'.mdls m' = s.mdls m') (h3 : (s'.mdls m).ca = m)
    (h4 : (s'.mdls m).mangled = true ∨ (s'.mdls m).snap = ⟨v'.ca m, v'.co m⟩)
    (h5 : ∀ m', m' < n → m' ≠ m → s'.fns m' = s.fns m')
    (h6 : ∀ m', m' < n → m' ≠ m → ∀ k i, (s.mdls m').co k = some i → (s'.fns i).terms = (s.fns i).terms)
    (h7 : (s'.fns m).inst = some m) (h8 : (s'.fns m).terms = v'.ca m) (h9 : sem s' (s'.mdls m).co = v'.co m)
    (h10 : ∀ k i, (s'.mdls m).co k = some i → n ≤ i ∧ i < s'.next)
    (h11 : ∀ k k' i, (s'.mdls m).co k = some i → (s'.mdls m).co k' = some i → k = k')
    (h12 : ∀ m', m' < n → m' ≠ m → ∀ k k' i, (s.mdls m').co k = some i → (s'.mdls m).co k' ≠ some i)
    (h13 : ∀ m', m' ≠ m → v'.ca m' = v.ca m' ∧ v'.co m' = v.co m') : Rel n s' v' where
  next := Nat.le_trans h.next h1
  ca := by
    intro m' hm'
    by_cases e : m' = m
    · subst e; exact ⟨h3, h7, h8⟩
    · rw [h2 m' e, h5 m' hm' e, (h13 m' e).1]; exact h.ca m' hm'
  range := by
    intro m' hm' k i hi
    by_cases e : m' = m
    · subst e; exact h10 k i hi
    · rw [h2 m' e] at hi
      have := h.range m' hm' k i hi
      exact ⟨this.1, Nat.lt_of_lt_of_le this.2 h1⟩
  inj := by
    intro a ha b hb k k' i hk hk'
    by_cases ea : a = m
    · subst ea
      by_cases eb : b = a
      · subst eb; exact ⟨rfl, h11 k k' i hk hk'⟩
      · rw [h2 b eb] at hk'
        exact absurd hk (h12 b hb eb k' k i hk')
    · rw [h2 a ea] at hk
      by_cases eb : b = m
      · subst eb
        exact absurd hk' (h12 a ha ea k k' i hk)
      · rw [h2 b eb] at hk'
        exact h.inj a ha b hb k k' i hk hk'
  co := by
    intro m' hm'
    by_cases e : m' = m
    · subst e; exact h9
    · rw [h2 m' e, (h13 m' e).2, ← h.co m' hm']
      funext k
      unfold sem
      cases hk : (s.mdls m').co k with
      | none => rfl
      | some i => exact h6 m' hm' e k i hk
  fresh := by
    intro m' hm'
    by_cases e : m' = m
    · subst e; exact h4
    · rw [h2 m' e, (h13 m' e).1, (h13 m' e).2]; exact h.fresh m' hm'

@[simp] theorem mangle_fns (s : St τ) (m : Nat) : (s.mangle m).fns = s.fns := rfl
@[simp] theorem mangle_next (s : St τ) (m : Nat) : (s.mangle m).next = s.next := rfl
@[simp] theorem mangle_mdls (s : St τ) (m m' : Nat) : (s.mangle m).mdls m' = if m' = m then { s.mdls m with mangled := true } else s.mdls m' := rfl
@[simp] theorem setTerms_next (s : St τ) (i : Nat) (ts : List τ) : (s.setTerms i ts).next = s.next := rfl
@[simp] theorem setTerms_mdls (s : St τ) (i : Nat) (ts : List τ) : (s.setTerms i ts).mdls = s.mdls := rfl
@[simp] theorem setTerms_fns (s : St τ) (i j : Nat) (ts : List τ) : (s.setTerms i ts).fns j = if j = i then { s.fns i with terms := ts } else s.fns j := rfl
@[simp] theorem setInst_next (s : St τ) (i m : Nat) : (s.setInst i m).next = s.next := rfl
@[simp] theorem setInst_mdls (s : St τ) (i m : Nat) : (s.setInst i m).mdls = s.mdls := rfl
@[simp] theorem setInst_fns (s : St τ) (i j m : Nat) : (s.setInst i m).fns j = if j = i then { s.fns i with inst := some m } else s.fns j := rfl

theorem owned_ge {n : Nat} {s : St τ} {v : Val τ} (h : Rel n s v) {m m' : Nat} (hm : m < n) (hm' : m' < n) {k i : Nat}
    (hk : (s.mdls m).co k = some i) : i ≠ m' := by
  have := h.range m hm k i hk
  omega

/-- Changing the terms of `utility_ca`. -/
theorem rel_ca {n : Nat} {s : St τ} {v : Val τ} (h : Rel n s v) {m : Nat} (hm : m < n) (ts : List τ) :
    Rel n ((s.setTerms m ts).mangle m) { v with ca := upd v.ca m ts } := by
  refine rel_change h hm (by simp) (by intro m' e; simp [e]) (by simp [(h.ca m hm).1]) (by simp) ?_ ?_ ?_ ?_ ?_ ?_ ?_ ?_ ?_
  · intro m' _ e; simp [e]
  · intro m' hm' e k i hi; simp [owned_ge h hm' hm hi]
  · simp [(h.ca m hm).2.1]
  · simp
  · rw [← h.co m hm]
    funext k
    simp only [sem, mangle_mdls, if_true, setTerms_mdls, mangle_fns]
    cases hk : (s.mdls m).co k with
    | none => rfl
    | some i => simp [owned_ge h hm hm hk]
  · intro k i hi; simp at hi; exact h.range m hm k i hi
  · intro k k' i hk hk'
    simp at hk hk'
    exact (h.inj m hm m hm k k' i hk hk').2
  · intro m' hm' e k k' i hk hk'
    simp at hk'
    exact e (h.inj m' hm' m hm k k' i hk hk').1
  · intro m' e; exact ⟨upd_ne _ _ e, rfl⟩

/-- Setting the instance of a function of model `m` changes nothing. -/
theorem rel_setInst {n : Nat} {s : St τ} {v : Val τ} (h : Rel n s v) {m k i : Nat} (hm : m < n) (hk : (s.mdls m).co k = some i) :
    Rel n (s.setInst i m) v where
  next := h.next
  ca := by
    intro m' hm'
    have : m' ≠ i := fun e => owned_ge h hm hm' hk e.symm
    simp only [setInst_mdls, setInst_fns, if_neg this]
    exact h.ca m' hm'
  range := h.range
  inj := h.inj
  co := by
    intro m' hm'
    rw [← h.co m' hm']
    funext k
    simp only [sem, setInst_mdls]
    cases (s.mdls m').co k with
    | none => rfl
    | some j => simp only [setInst_fns]; split <;> simp_all
  fresh := h.fresh

/-- A missing entry read: an empty function appears, nothing else changes. -/
theorem rel_create {n : Nat} {s : St τ} {v : Val τ} (h : Rel n s v) {m k : Nat} (hm : m < n) (hk : (s.mdls m).co k = none) :
    Rel n (s.resolve (.co m k)).1 v ∧ ((s.resolve (.co m k)).1.mdls m).co k = some (s.resolve (.co m k)).2 ∧
      ((s.resolve (.co m k)).1.fns (s.resolve (.co m k)).2).inst = some m ∧
      ((s.resolve (.co m k)).1.fns (s.resolve (.co m k)).2).terms = v.co m k := by
  have hv : v.co m k = [] := by rw [← h.co m hm]; simp [sem, hk]
  have hlt : ∀ m' < n, ∀ k i, (s.mdls m').co k = some i → i ≠ s.next := by
    intro m' hm' k i hi
    have := (h.range m' hm' k i hi).2
    omega
  have hn := h.next
  simp only [St.resolve, hk, St.alloc]
  refine ⟨?_, by simp, by simp, by simp [hv]⟩
  refine rel_change h hm (by simp) ?_ ?_ ?_ ?_ ?_ ?_ ?_ ?_ ?_ ?_ ?_ ?_
  · intro m' e; simp [upd_ne _ _ e]
  · simp [(h.ca m hm).1]
  · simpa using h.fresh m hm
  · intro m' hm' e
    exact upd_ne _ _ (by omega)
  · intro m' hm' e k' i hi
    show (upd s.fns s.next _ i).terms = _
    rw [upd_ne _ _ (hlt m' hm' k' i hi)]
  · show (upd s.fns s.next _ m).inst = _
    rw [upd_ne _ _ (by omega)]; exact (h.ca m hm).2.1
  · show (upd s.fns s.next _ m).terms = _
    rw [upd_ne _ _ (by omega)]; exact (h.ca m hm).2.2
  · rw [← h.co m hm]
    funext k'
    simp only [sem, upd_same]
    by_cases e : k' = k
    · subst e; simp [hk]
    · rw [upd_ne _ _ e]
      cases hk' : (s.mdls m).co k' with
      | none => rfl
      | some i => simp only; rw [upd_ne _ _ (hlt m hm k' i hk')]
  · intro k' i hi
    simp only [upd_same] at hi
    by_cases e : k' = k
    · subst e; simp at hi; subst hi; exact ⟨hn, by simp⟩
    · rw [upd_ne _ _ e] at hi
      have := h.range m hm k' i hi
      exact ⟨this.1, Nat.lt_succ_of_lt this.2⟩
  · intro k1 k2 i hk1 hk2
    simp only [upd_same] at hk1 hk2
    by_cases e1 : k1 = k
    · by_cases e2 : k2 = k
      · rw [e1, e2]
      · subst e1; simp at hk1; subst hk1
        rw [upd_ne _ _ e2] at hk2
        exact absurd rfl (hlt m hm k2 _ hk2)
    · rw [upd_ne _ _ e1] at hk1
      by_cases e2 : k2 = k
      · subst e2; simp at hk2; subst hk2
        exact absurd rfl (hlt m hm k1 _ hk1)
      · rw [upd_ne _ _ e2] at hk2
        exact (h.inj m hm m hm k1 k2 i hk1 hk2).2
  · intro m' hm' e k1 k2 i hk1 hk2
    simp only [upd_same] at hk2
    by_cases e2 : k2 = k
    · subst e2; simp at hk2; subst hk2
      exact absurd rfl (hlt m' hm' k1 _ hk1)
    · rw [upd_ne _ _ e2] at hk2
      exact e (h.inj m' hm' m hm k1 k2 i hk1 hk2).1
  · intro m' e; exact ⟨rfl, rfl⟩

/-- Reading `m.utility_co[k]` gives the object that holds the terms of `k`, reporting to `m`. -/
theorem rel_resolve {n : Nat} {s : St τ} {v : Val τ} (h : Rel n s v) {m : Nat} (k : Nat) (hm : m < n) :
    Rel n (s.resolve (.co m k)).1 v ∧ ((s.resolve (.co m k)).1.mdls m).co k = some (s.resolve (.co m k)).2 ∧
      ((s.resolve (.co m k)).1.fns (s.resolve (.co m k)).2).inst = some m ∧
      ((s.resolve (.co m k)).1.fns (s.resolve (.co m k)).2).terms = v.co m k := by
  cases hk : (s.mdls m).co k with
  | none => exact rel_create h hm hk
  | some i =>
    have hv : v.co m k = (s.fns i).terms := by rw [← h.co m hm]; simp [sem, hk]
    simp only [St.resolve, hk]
    exact ⟨rel_setInst h hm hk, by simpa using hk, by simp, by simp [hv]⟩

/-- Changing the terms of an alternative's function. -/
theorem rel_co {n : Nat} {s : St τ} {v : Val τ} (h : Rel n s v) {m k i : Nat} (hm : m < n) (hk : (s.mdls m).co k = some i) (ts : List τ) :
    Rel n ((s.setTerms i ts).mangle m) { v with co := upd v.co m (upd (v.co m) k ts) } := by
  have hne : ∀ m' < n, m' ≠ i := fun m' hm' e => owned_ge h hm hm' hk e.symm
  refine rel_change h hm (by simp) (by intro m' e; simp [e]) (by simp [(h.ca m hm).1]) (by simp) ?_ ?_ ?_ ?_ ?_ ?_ ?_ ?_ ?_
  · intro m' hm' e; simp [hne m' hm']
  · intro m' hm' e k' j hj
    have : j ≠ i := by
      intro ej
      subst ej
      exact e (h.inj m' hm' m hm k' k j hj hk).1
    simp [this]
  · simp [hne m hm, (h.ca m hm).2.1]
  · simp [hne m hm, (h.ca m hm).2.2]
  · funext k'
    simp only [sem, mangle_mdls, if_true, setTerms_mdls, mangle_fns, upd_same]
    by_cases e : k' = k
    · subst e; simp [hk]
    · rw [upd_ne _ _ e, ← h.co m hm]
      unfold sem
      cases hk' : (s.mdls m).co k' with
      | none => rfl
      | some j =>
        have : j ≠ i := by
          intro ej
          subst ej
          exact e (h.inj m hm m hm k' k j hk' hk).2
        simp [this]
  · intro k i hi; simp at hi; exact h.range m hm k i hi
  · intro k k' i hk hk'
    simp at hk hk'
    exact (h.inj m hm m hm k k' i hk hk').2
  · intro m' hm' e k k' i hk hk'
    simp at hk'
    exact e (h.inj m' hm' m hm k k' i hk hk').1
  · intro m' e; exact ⟨rfl, upd_ne _ _ e⟩

/-- Giving model `m` a new mapping, of its own objects or new ones. -/
theorem rel_map {n : Nat} {s s1 : St τ} {v : Val τ} (h : Rel n s v) {m : Nat} (hm : m < n) (co : Nat → Option Nat) (f : Nat → List τ)
    (h1 : s.next ≤ s1.next) (h2 : s1.mdls = s.mdls) (h3 : ∀ i < s.next, s1.fns i = s.fns i)
    (h4 : ∀ k i, co k = some i → (n ≤ i ∧ i < s1.next)) (h5 : ∀ k k' i, co k = some i → co k' = some i → k = k')
    (h6 : ∀ k i, co k = some i → s.next ≤ i ∨ ∃ k', (s.mdls m).co k' = some i) (h7 : sem s1 co = f) :
    Rel n (s1.setCoMap m co) { v with co := upd v.co m f } := by
  have hn := h.next
  have e1 : ∀ m', (s1.setCoMap m co).mdls m' = if m' = m then { s.mdls m with co := co, mangled := true } else s.mdls m' := by
    intro m'
    unfold St.setCoMap
    rw [mangle_mdls]
    by_cases e : m' = m
    · subst e; simp [h2]
    · rw [if_neg e, if_neg e]
      show upd s1.mdls m _ m' = _
      rw [upd_ne _ _ e, h2]
  have e2 : (s1.setCoMap m co).fns = s1.fns := rfl
  have e3 : (s1.setCoMap m co).next = s1.next := rfl
  refine rel_change h hm (by rw [e3]; exact h1) (by intro m' e; rw [e1, if_neg e]) (by rw [e1]; simp [(h.ca m hm).1])
    (by rw [e1]; simp) ?_ ?_ ?_ ?_ ?_ ?_ ?_ ?_ ?_
  · intro m' hm' e; rw [e2]; exact h3 m' (by omega)
  · intro m' hm' e k i hi; rw [e2, h3 i (h.range m' hm' k i hi).2]
  · rw [e2, h3 m (by omega)]; exact (h.ca m hm).2.1
  · rw [e2, h3 m (by omega)]; exact (h.ca m hm).2.2
  · rw [e1, if_pos rfl, ← h7]
    simp only [upd_same]
    rfl
  · intro k i hi; rw [e1] at hi; simp at hi; rw [e3]; exact h4 k i hi
  · intro k k' i hk hk'; rw [e1] at hk hk'; simp at hk hk'; exact h5 k k' i hk hk'
  · intro m' hm' e k k' i hk hk'
    rw [e1] at hk'; simp at hk'
    rcases h6 k' i hk' with h8 | ⟨k2, h8⟩
    · have := (h.range m' hm' k i hk).2; omega
    · exact e (h.inj m' hm' m hm k k2 i hk h8).1
  · intro m' e; exact ⟨rfl, upd_ne _ _ e⟩

theorem allocAll_spec (kvs : List (Nat × List τ)) : ∀ (s : St τ) (co : Nat → Option Nat),
    (∀ k i, co k = some i → i < s.next) → (∀ k k' i, co k = some i → co k' = some i → k = k') →
    s.next ≤ (allocAll s co kvs).1.next ∧ (allocAll s co kvs).1.mdls = s.mdls ∧
    (∀ i < s.next, (allocAll s co kvs).1.fns i = s.fns i) ∧
    (∀ k i, (allocAll s co kvs).2 k = some i → (s.next ≤ i ∨ co k = some i) ∧ i < (allocAll s co kvs).1.next) ∧
    (∀ k k' i, (allocAll s co kvs).2 k = some i → (allocAll s co kvs).2 k' = some i → k = k') ∧
    sem (allocAll s co kvs).1 (allocAll s co kvs).2 = kvs.foldl (fun f e => upd f e.1 e.2) (sem s co) := by
  induction kvs with
  | nil =>
    intro s co h1 h2
    exact ⟨Nat.le_refl _, rfl, fun _ _ => rfl, fun k i hi => ⟨Or.inr hi, h1 k i hi⟩, h2, rfl⟩
  | cons e r ih =>
    obtain ⟨k0, ts⟩ := e
    intro s co h1 h2
    have hlt : ∀ k i, upd co k0 (some s.next) k = some i → (k = k0 ∧ i = s.next) ∨ (k ≠ k0 ∧ co k = some i) := by
      intro k i hi
      by_cases e : k = k0
      · subst e; simp at hi; exact Or.inl ⟨rfl, hi.symm⟩
      · rw [upd_ne _ _ e] at hi; exact Or.inr ⟨e, hi⟩
    have := ih (s.alloc ts none).1 (upd co k0 (some s.next)) (by
      intro k i hi
      show i < s.next + 1
      rcases hlt k i hi with ⟨_, rfl⟩ | ⟨_, h⟩
      · omega
      · have := h1 k i h; omega) (by
      intro k k' i hk hk'
      rcases hlt k i hk with ⟨rfl, rfl⟩ | ⟨e, h⟩
      · rcases hlt k' _ hk' with ⟨rfl, _⟩ | ⟨_, h'⟩
        · rfl
        · have := h1 k' _ h'; omega
      · rcases hlt k' i hk' with ⟨rfl, rfl⟩ | ⟨_, h'⟩
        · have := h1 k _ h; omega
        · exact h2 k k' i h h')
    obtain ⟨a1, a2, a3, a4, a5, a6⟩ := this
    have hn : (s.alloc ts none).1.next = s.next + 1 := rfl
    rw [hn] at a1
    have ha : allocAll s co ((k0, ts) :: r) = allocAll (s.alloc ts none).1 (upd co k0 (some s.next)) r := rfl
    rw [ha]
    refine ⟨by omega, a2, ?_, ?_, a5, ?_⟩
    · intro i hi
      rw [a3 i (by rw [hn]; omega)]
      exact upd_ne _ _ (by omega)
    · intro k i hi
      obtain ⟨b1, b2⟩ := a4 k i hi
      refine ⟨?_, b2⟩
      rcases b1 with b1 | b1
      · left; rw [hn] at b1; omega
      · rcases hlt k i b1 with ⟨_, rfl⟩ | ⟨_, h⟩
        · left; omega
        · right; exact h
    · rw [a6, List.foldl_cons]
      congr 1
      funext k
      by_cases e : k = k0
      · subst e; simp [sem, St.alloc]
      · simp only [sem, upd_ne _ _ e]
        cases hk : co k with
        | none => rfl
        | some i =>
          have := h1 k i hk
          show (upd s.fns s.next _ i).terms = _
          rw [upd_ne _ _ (by omega)]

theorem notifies_of {e : Edit τ} (h : ∀ gone, e ≠ .remove gone) : e.notifies = true := by
  cases e <;> first | rfl | exact absurd rfl (h _)

theorem rel_step {n : Nat} {s : St τ} {v : Val τ} (h : Rel n s v) (st : Stmt τ) (hp : Plain n st) : Rel n (s.step st) (v.step st) := by
  cases st with
  | setCa m ts =>
    have hm : m < n := hp
    simp only [St.step, (h.ca m hm).1, (h.ca m hm).2.1, St.tryMangle]
    exact rel_ca h hm ts
  | delCa m =>
    have hm : m < n := hp
    have e : (s.setTerms m []).setInst m m = s.setTerms m [] := by
      unfold St.setInst
      have : upd (s.setTerms m []).fns m { (s.setTerms m []).fns m with inst := some m } = (s.setTerms m []).fns := by
        funext j
        unfold upd
        split
        · rename_i e; subst e; simp [(h.ca j hm).2.1]
        · rfl
      rw [this]
    simp only [St.step, (h.ca m hm).1]
    rw [e]
    exact rel_ca h hm []
  | edit p e =>
    cases p with
    | ca m =>
      obtain ⟨hm, hn⟩ : m < n ∧ ∀ gone, e ≠ .remove gone := hp
      replace hn := notifies_of hn
      simp only [St.step, St.resolve, (h.ca m hm).1, (h.ca m hm).2.1, (h.ca m hm).2.2, hn, if_true, Val.step, after]
      cases he : e.terms (v.ca m) with
      | none =>
        simp only [Option.getD_none]
        have : upd v.ca m (v.ca m) = v.ca := by funext j; unfold upd; split <;> simp_all
        rw [this]; exact h
      | some ts => exact rel_ca h hm ts
    | co m k =>
      obtain ⟨hm, hn⟩ : m < n ∧ ∀ gone, e ≠ .remove gone := hp
      replace hn := notifies_of hn
      obtain ⟨r1, r2, r3, r4⟩ := rel_resolve h k hm
      simp only [St.step, Val.step, after]
      generalize s.resolve (.co m k) = q at r1 r2 r3 r4
      obtain ⟨s1, i⟩ := q
      simp only at r1 r2 r3 r4 ⊢
      rw [r4, r3]
      simp only [hn, if_true]
      cases he : e.terms (v.co m k) with
      | none =>
        simp only [Option.getD_none]
        have : upd v.co m (upd (v.co m) k (v.co m k)) = v.co := by
          funext a b; simp only [upd]; split
          · rename_i e; subst e; unfold upd; split
            · rename_i e; rw [e]
            · rfl
          · rfl
        rw [this]; exact r1
      | some ts => exact rel_co r1 hm r2 ts
    | obj i => exact absurd hp (by simp [Plain])
  | setCo m k r =>
    cases r with
    | path p => exact absurd hp (by simp [Plain])
    | fresh ts =>
      have hm : m < n := hp
      have hn := h.next
      simp only [St.step, Val.step]
      have hl : ∀ k' i, upd (s.mdls m).co k (some s.next) k' = some i → (k' = k ∧ i = s.next) ∨ (k' ≠ k ∧ (s.mdls m).co k' = some i) := by
        intro k' i hi
        by_cases e : k' = k
        · subst e; simp at hi; exact Or.inl ⟨rfl, hi.symm⟩
        · rw [upd_ne _ _ e] at hi; exact Or.inr ⟨e, hi⟩
      refine rel_map (s1 := (s.alloc ts none).1.setInst s.next m) h hm _ _ (by simp [St.alloc]) rfl ?_ ?_ ?_ ?_ ?_
      · intro i hi
        have : i ≠ s.next := by omega
        simp only [setInst_fns, if_neg this]
        exact upd_ne _ _ this
      · intro k' i hi
        show n ≤ i ∧ i < s.next + 1
        rcases hl k' i hi with ⟨_, rfl⟩ | ⟨_, h'⟩
        · omega
        · have := h.range m hm k' i h'; omega
      · intro k1 k2 i hk1 hk2
        rcases hl k1 i hk1 with ⟨rfl, rfl⟩ | ⟨_, h1⟩
        · rcases hl k2 _ hk2 with ⟨rfl, _⟩ | ⟨_, h2⟩
          · rfl
          · have := (h.range m hm k2 _ h2).2; omega
        · rcases hl k2 _ hk2 with ⟨rfl, rfl⟩ | ⟨_, h2⟩
          · have := (h.range m hm k1 _ h1).2; omega
          · exact (h.inj m hm m hm k1 k2 i h1 h2).2
      · intro k' i hi
        rcases hl k' i hi with ⟨_, rfl⟩ | ⟨_, h'⟩
        · left; omega
        · right; exact ⟨k', h'⟩
      · funext k'
        by_cases e : k' = k
        · subst e; simp [sem, St.alloc]
        · rw [upd_ne _ _ e, ← h.co m hm]
          show sem _ (upd (s.mdls m).co k (some s.next)) k' = _
          simp only [sem, upd_ne _ _ e]
          cases hk : (s.mdls m).co k' with
          | none => rfl
          | some i =>
            have : i ≠ s.next := by have := (h.range m hm k' i hk).2; omega
            simp only [setInst_fns, if_neg this]
            show (upd s.fns s.next _ i).terms = _
            rw [upd_ne _ _ this]
  | delCo m k =>
    have hm : m < n := hp
    simp only [St.step, Val.step]
    cases hk : (s.mdls m).co k with
    | none =>
      have : upd v.co m (upd (v.co m) k []) = v.co := by
        have hv : v.co m k = [] := by rw [← h.co m hm]; simp [sem, hk]
        funext a b; simp only [upd]; split
        · rename_i e; subst e; unfold upd; split
          · rename_i e; rw [e, hv]
          · rfl
        · rfl
      simp only
      rw [this]; exact h
    | some i =>
      have hl : ∀ k' j, upd (s.mdls m).co k none k' = some j → k' ≠ k ∧ (s.mdls m).co k' = some j := by
        intro k' j hj
        by_cases e : k' = k
        · subst e; simp at hj
        · rw [upd_ne _ _ e] at hj; exact ⟨e, hj⟩
      refine rel_map (s1 := s) h hm _ _ (Nat.le_refl _) rfl (fun _ _ => rfl) ?_ ?_ ?_ ?_
      · intro k' j hj; exact h.range m hm k' j (hl k' j hj).2
      · intro k1 k2 j h1 h2; exact (h.inj m hm m hm k1 k2 j (hl _ _ h1).2 (hl _ _ h2).2).2
      · intro k' j hj; right; exact ⟨k', (hl k' j hj).2⟩
      · funext k'
        by_cases e : k' = k
        · subst e; simp [sem]
        · rw [upd_ne _ _ e, ← h.co m hm]; simp only [sem, upd_ne _ _ e]
  | setCoAll m kvs =>
    have hm : m < n := hp
    obtain ⟨a1, a2, a3, a4, a5, a6⟩ := allocAll_spec kvs s (fun _ => none) (by simp) (by simp)
    simp only [St.step, Val.step]
    refine rel_map (s1 := (allocAll s (fun _ => none) kvs).1) h hm _ _ a1 a2 a3 ?_ a5 ?_ ?_
    · intro k i hi
      obtain ⟨b1, b2⟩ := a4 k i hi
      have := h.next
      simp at b1
      omega
    · intro k i hi
      obtain ⟨b1, b2⟩ := a4 k i hi
      simp at b1
      exact Or.inl b1
    · rw [a6]; rfl
  | new ts =>
    have hn := h.next
    simp only [St.step, Val.step, St.alloc]
    refine ⟨by simp; omega, ?_, ?_, h.inj, ?_, h.fresh⟩
    · intro m hm
      show (s.mdls m).ca = m ∧ (upd s.fns s.next _ m).inst = _ ∧ (upd s.fns s.next _ m).terms = _
      rw [upd_ne _ _ (by omega)]; exact h.ca m hm
    · intro m hm k i hi
      have := h.range m hm k i hi
      exact ⟨this.1, by simp; omega⟩
    · intro m hm
      rw [← h.co m hm]
      funext k
      simp only [sem]
      cases hk : (s.mdls m).co k with
      | none => rfl
      | some i =>
        have := (h.range m hm k i hk).2
        simp only
        rw [upd_ne _ _ (by omega)]
  | eval m =>
    have hm : m < n := hp
    simp only [St.step, Val.step]
    split
    · rw [current_of h hm]
      have e : ∀ m', ((upd s.mdls m { s.mdls m with mangled := false, snap := ⟨v.ca m, v.co m⟩ }) m').ca = (s.mdls m').ca ∧
          ((upd s.mdls m { s.mdls m with mangled := false, snap := ⟨v.ca m, v.co m⟩ }) m').co = (s.mdls m').co := by
        intro m'
        by_cases e : m' = m
        · subst e; simp
        · rw [upd_ne _ _ e]; exact ⟨rfl, rfl⟩
      refine ⟨h.next, ?_, ?_, ?_, ?_, ?_⟩
      · intro m' hm'; simp only; rw [(e m').1]; exact h.ca m' hm'
      · intro m' hm' k i; simp only; rw [(e m').2]; exact h.range m' hm' k i
      · intro a ha b hb k k' i; simp only; rw [(e a).2, (e b).2]; exact h.inj a ha b hb k k' i
      · intro m' hm'; simp only; rw [(e m').2, ← h.co m' hm']; rfl
      · intro m' hm'
        by_cases e : m' = m
        · subst e; right; simp
        · simp only [upd_ne _ _ e]; exact h.fresh m' hm'
    · exact h

theorem rel_init (n : Nat) : Rel n (St.init n : St τ) ⟨fun _ => [], fun _ _ => []⟩ where
  next := Nat.le_refl _
  ca := by intro m _; exact ⟨rfl, rfl, rfl⟩
  range := by intro m _ k i hi; simp [St.init] at hi
  inj := by intro m _ m' _ k k' i hi; simp [St.init] at hi
  co := by intro m _; rfl
  fresh := by intro m _; left; rfl

/-- After any sequence of such statements on any number of models, an evaluation of a model uses exactly the utility functions
those statements describe: every change is seen, and none reaches another attribute or model.  Missing for the full claim:
`remove_data`/`remove_param`, functions assigned to more than one place, and functions reached through `values()`/`items()`
(`C54_fails_…`). -/
theorem C54_evaluation_current_partial (n : Nat) (l : List (Stmt τ)) (hl : ∀ st ∈ l, Plain n st) (m : Nat) (hm : m < n) :
    ((St.init n : St τ).run l).used m =
      ⟨((⟨fun _ => [], fun _ _ => []⟩ : Val τ).run l).ca m, ((⟨fun _ => [], fun _ _ => []⟩ : Val τ).run l).co m⟩ := by
  have key : ∀ (l : List (Stmt τ)) (s : St τ) (v : Val τ), (∀ st ∈ l, Plain n st) → Rel n s v → Rel n (s.run l) (v.run l) := by
    intro l
    induction l with
    | nil => intro s v _ h; exact h
    | cons st r ih =>
      intro s v hl h
      exact ih _ _ (fun x hx => hl x (by simp [hx])) (rel_step h st (hl st (by simp)))
  have h := key l _ _ hl (rel_init n)
  generalize (St.init n : St τ).run l = s at h
  generalize (⟨fun _ => [], fun _ _ => []⟩ : Val τ).run l = v at h
  have h' := rel_step h (.eval m) hm
  simp only [St.used]
  rcases h'.fresh m hm with h1 | h1
  · exfalso
    simp only [St.step] at h1
    split at h1
    · simp at h1
    · contradiction
  · simpa [Val.step] using h1

/-- After `remove_data`/`remove_param` on an evaluated model the next evaluation still uses the removed terms. -/
theorem C54_fails_remove (ts : List τ) (gone : τ → Bool) :
    ((St.init 1 : St τ).run [.setCa 0 ts, .eval 0, .edit (.ca 0) (.remove gone)]).used 0 = ⟨ts, fun _ => []⟩ ∧
    ((St.init 1 : St τ).run [.setCa 0 ts, .eval 0, .edit (.ca 0) (.remove gone)]).current 0 = ⟨ts.filter (fun t => !gone t), fun _ => []⟩ := by
  constructor <;> rfl

/-- A function assigned to an alternative of two models tells only the model it was assigned to last. -/
theorem C54_fails_shared (ts : List τ) (t : τ) :
    let s := (St.init 2 : St τ).run [.new ts, .setCo 0 5 (.path (.obj 2)), .setCo 1 5 (.path (.obj 2)), .eval 0, .eval 1, .edit (.co 1 5) (.append t)]
    (s.used 0).co 5 = ts ∧ (s.current 0).co 5 = ts ++ [t] ∧ (s.used 1).co 5 = ts ++ [t] := by
  refine ⟨rfl, rfl, rfl⟩

/-- A function assigned to two alternatives is one object: changing one changes the other. -/
theorem C54_fails_alias (ts : List τ) (t : τ) :
    let s := (St.init 1 : St τ).run [.setCo 0 1 (.fresh ts), .setCo 0 2 (.path (.co 0 1)), .edit (.co 0 1) (.append t)]
    (s.used 0).co 1 = ts ++ [t] ∧ (s.used 0).co 2 = ts ++ [t] := by
  refine ⟨rfl, rfl⟩

/-- The functions of a newly assigned mapping do not report to the model until they are read by `[]`; here object 1 is the one
`m.utility_co.values()` gives. -/
theorem C54_fails_values (ts : List τ) (t : τ) :
    let s := (St.init 1 : St τ).run [.setCoAll 0 [(7, ts)], .eval 0, .edit (.obj 1) (.append t)]
    (s.mdls 0).co 7 = some 1 ∧ (s.used 0).co 7 = ts ∧ (s.current 0).co 7 = ts ++ [t] := by
  refine ⟨rfl, rfl, rfl⟩

/-- Two models, several alternatives, interleaved evaluations. -/
example : ∀ st ∈ ([.setCa 0 [1, 2], .setCo 1 3 (.fresh [4]), .eval 0, .edit (.co 1 3) (.append 5), .edit (.co 0 9) (.extend [6, 7]),
    .setCoAll 0 [(1, [8]), (2, [9])], .edit (.ca 0) (.delitem (-1)), .delCo 1 3, .eval 1] : List (Stmt Nat)), Plain 2 st := by
  simp [Plain]

example : (((St.init 2 : St Nat).run [.setCa 0 [1, 2], .eval 0, .edit (.ca 0) (.delitem (-1))]).used 0).ca = [1] := by rfl

end Larch.Props
