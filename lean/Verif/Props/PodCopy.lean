import Verif.Model.PodCopy
import Mathlib.Data.List.Nodup
import Mathlib.Algebra.BigOperators.Group.List.Basic
import Mathlib.Tactic

/-!
# C183: pods made from pods
-/

namespace Larch.Props

open Larch.PodCopy

set_option linter.unusedSectionVars false

variable {V : Type}

/-- The pod has this variable. -/
def HasVar (p : Pod V) (n : String) (v : Var V) : Prop := p.vars.lookup n = some v

/-- The name passes the filter: no pattern to skip matches it, and one to keep does, if any is given. -/
def Passes (hit : String → String → Bool) (skip keep : List String) (n : String) : Prop :=
  (∀ s ∈ skip, hit s n = false) ∧ (keep = [] ∨ ∃ k ∈ keep, hit k n = true)

theorem cy_passes (hit : String → String → Bool) (skip keep : List String) (n : String) :
    keeps hit skip keep n = true ↔ Passes hit skip keep n := by
  unfold keeps Passes
  simp [List.any_eq_false]

theorem cy_store_ok (p : Pod V) (n : String) (v : Var V) (hz : 0 ∉ v.shape) (hn : n ∉ p.vars.map Prod.fst) :
    store p n v = (⟨some v.shape, p.vars ++ [(n, v)]⟩, none) := by
  unfold store
  rw [if_neg hz, if_neg hn]

theorem cy_add_ok (p : Pod V) (n : String) (v : Var V) (hz : 0 ∉ v.shape) (hn : n ∉ p.vars.map Prod.fst)
    (hs : p.shape = none ∨ p.shape = some v.shape) :
    addArray p n v false = (⟨some v.shape, p.vars ++ [(n, v)]⟩, none) := by
  have hf : fitTo p v = some v := by
    unfold fitTo
    rcases hs with h | h
    · rw [h]
    · rw [h]
      exact if_pos rfl
  unfold addArray
  rw [hf]
  exact cy_store_ok p n v hz hn

theorem cy_add_prefix (p : Pod V) (n : String) (v : Var V) : p.vars <+: (addArray p n v false).1.vars := by
  unfold addArray
  cases fitTo p v with
  | none => exact List.prefix_refl _
  | some w =>
    show p.vars <+: (store p n w).1.vars
    unfold store
    split_ifs
    · exact List.prefix_refl _
    · exact List.prefix_refl _
    · exact List.prefix_append _ _

theorem cy_transfer_prefix (change : Var V → Option (Var V)) (l : List (String × Var V)) :
    ∀ (p : Pod V), p.vars <+: (transfer change l p).1.vars := by
  induction l with
  | nil => exact fun p => List.prefix_refl _
  | cons x r ih =>
    intro p
    obtain ⟨n, v⟩ := x
    simp only [transfer]
    cases change v with
    | none => exact List.prefix_refl _
    | some w =>
      have ha := cy_add_prefix p n w
      rcases h : addArray p n w false with ⟨q, e⟩
      simp only [h]
      rw [h] at ha
      cases e with
      | none => exact ha.trans (ih q)
      | some e => exact ha

theorem cy_copy_prefix (names : Names) (source : String) (l : List (String × Var V)) :
    ∀ (p : Pod V), p.vars <+: (copyLoop names source l p).1.vars := by
  induction l with
  | nil => exact fun p => List.prefix_refl _
  | cons x r ih =>
    intro p
    obtain ⟨n, v⟩ := x
    simp only [copyLoop]
    cases copiedAs names p n with
    | none => exact ih p
    | some w =>
      have ha := cy_add_prefix p w (copyOf source v)
      rcases h : addArray p w (copyOf source v) false with ⟨q, e⟩
      simp only [h]
      rw [h] at ha
      cases e with
      | none => exact ha.trans (ih q)
      | some e => exact ha

/-- **C183.**  Making a pod in a file that has one, and copying into a pod, never changes the variables that are there, whatever happens. -/
theorem C183_never_overwrites (hit : String → String → Bool) (p into : Pod V) (dim : Option Nat) (s : List Int) (skip keep : List String)
    (names : Names) (source : Option String) (file : String) :
    into.vars <+: (fatten hit p dim skip keep into).1.vars ∧ into.vars <+: (flatten hit p skip keep into).1.vars ∧
      into.vars <+: (reshapeTo hit p s skip keep into).1.vars ∧ into.vars <+: (copyExternal into p names source file).1.vars := by
  refine ⟨?_, cy_transfer_prefix _ _ _, cy_transfer_prefix _ _ _, cy_copy_prefix _ _ _ _⟩
  cases dim with
  | none => exact List.prefix_refl _
  | some d => exact cy_transfer_prefix _ _ _

theorem cy_transfer (change : Var V → Option (Var V)) (f : Var V → Var V) (s : List Nat) (hz : 0 ∉ s) (l : List (String × Var V)) :
    ∀ (p : Pod V), (∀ x ∈ l, change x.2 = some (f x.2) ∧ (f x.2).shape = s) → (l.map Prod.fst).Nodup →
      (∀ x ∈ l, x.1 ∉ p.vars.map Prod.fst) → (p.shape = none ∨ p.shape = some s) →
      transfer change l p = (⟨if l = [] then p.shape else some s, p.vars ++ l.map (fun x => (x.1, f x.2))⟩, none) := by
  induction l with
  | nil => intro p _ _ _ _; simp [transfer]
  | cons x r ih =>
    intro p hc hnd hnew hs
    obtain ⟨n, v⟩ := x
    obtain ⟨h1, h2⟩ := hc (n, v) (by simp)
    have ha := cy_add_ok p n (f v) (by rw [h2]; exact hz) (hnew (n, v) (by simp)) (by rw [h2]; exact hs)
    have hnd' := List.nodup_cons.1 (by simpa using hnd : (n :: r.map Prod.fst).Nodup)
    have := ih ⟨some (f v).shape, p.vars ++ [(n, f v)]⟩ (fun y hy => hc y (by simp [hy])) hnd'.2
      (fun y hy hm => by
        simp only [List.map_append, List.mem_append, List.map_cons, List.map_nil, List.mem_singleton] at hm
        rcases hm with hm | hm
        · exact hnew y (by simp [hy]) hm
        · exact hnd'.1 (hm ▸ List.mem_map_of_mem hy))
      (Or.inr (by rw [h2]))
    simp only [transfer, h1, ha, this]
    rw [h2]
    simp

theorem cy_lookup_map (l : List (String × Var V)) (f : Var V → Var V) (q : String → Bool) (n : String) :
    ((l.filter (fun x => q x.1)).map (fun x => (x.1, f x.2))).lookup n = if q n then (l.lookup n).map f else none := by
  induction l with
  | nil => simp
  | cons x r ih =>
    obtain ⟨m, v⟩ := x
    by_cases hq : q m = true
    · simp only [List.filter_cons, hq, if_true, List.map_cons, List.lookup_cons]
      by_cases hm : n = m
      · subst hm
        simp [hq]
      · rw [show (n == m) = false by simpa using hm]
        exact ih
    · simp only [List.filter_cons, hq, List.lookup_cons]
      by_cases hm : n = m
      · subst hm
        simp only [Bool.false_eq_true, if_false, ih, hq]
      · rw [show (n == m) = false by simpa using hm]
        exact ih

theorem cy_lookup_append (a b : List (String × Var V)) (n : String) :
    (a ++ b).lookup n = (a.lookup n).or (b.lookup n) := by
  induction a with
  | nil => simp
  | cons x r ih =>
    obtain ⟨m, v⟩ := x
    simp only [List.cons_append, List.lookup_cons]
    cases n == m
    · exact ih
    · simp

theorem cy_lookup_none (l : List (String × Var V)) (n : String) (h : n ∉ l.map Prod.fst) : l.lookup n = none := by
  induction l with
  | nil => rfl
  | cons x r ih =>
    obtain ⟨m, v⟩ := x
    simp only [List.map_cons, List.mem_cons, not_or] at h
    simp only [List.lookup_cons, show (n == m) = false by simpa using h.1]
    exact ih h.2

theorem cy_lookup_mem (l : List (String × Var V)) (n : String) (v : Var V) (h : l.lookup n = some v) : (n, v) ∈ l := by
  induction l with
  | nil => cases h
  | cons x r ih =>
    obtain ⟨m, w⟩ := x
    rw [List.lookup_cons] at h
    by_cases hm : n = m
    · subst hm
      simp at h
      simp [h]
    · rw [show (n == m) = false by simpa using hm] at h
      exact List.mem_cons_of_mem _ (ih h)

/-- What the three methods do, for a change that gives all arrays the shape `s`. -/
theorem cy_made (hit : String → String → Bool) (change : Var V → Option (Var V)) (f : Var V → Var V) (s : List Nat) (p into : Pod V)
    (skip keep : List String) (hz : 0 ∉ s) (hnd : (p.vars.map Prod.fst).Nodup) (hc : ∀ x ∈ p.vars, change x.2 = some (f x.2) ∧ (f x.2).shape = s)
    (hnew : ∀ (n : String), Passes hit skip keep n → n ∈ p.vars.map Prod.fst → n ∉ into.vars.map Prod.fst)
    (hs : into.shape = none ∨ into.shape = some s) :
    (transfer change (chosen hit skip keep p) into).2 = none ∧
      (∀ (n : String) (v : Var V), HasVar p n v → Passes hit skip keep n →
        HasVar (transfer change (chosen hit skip keep p) into).1 n (f v)) ∧
      (∀ (n : String), n ∈ (transfer change (chosen hit skip keep p) into).1.vars.map Prod.fst ↔
        n ∈ into.vars.map Prod.fst ∨ (n ∈ p.vars.map Prod.fst ∧ Passes hit skip keep n)) := by
  have hsub : ∀ x ∈ chosen hit skip keep p, x ∈ p.vars ∧ Passes hit skip keep x.1 := fun x hx => by
    have := List.mem_filter.1 hx
    exact ⟨this.1, (cy_passes hit skip keep x.1).1 this.2⟩
  have ht := cy_transfer change f s hz (chosen hit skip keep p) into (fun x hx => hc x (hsub x hx).1)
    (hnd.sublist ((List.filter_sublist (l := p.vars)).map Prod.fst))
    (fun x hx => hnew x.1 (hsub x hx).2 (List.mem_map_of_mem (hsub x hx).1)) hs
  rw [ht]
  refine ⟨rfl, fun n v hv hp => ?_, fun n => ?_⟩
  · show (into.vars ++ (chosen hit skip keep p).map (fun x => (x.1, f x.2))).lookup n = some (f v)
    have hm : n ∈ p.vars.map Prod.fst := List.mem_map_of_mem (cy_lookup_mem _ _ _ hv)
    rw [cy_lookup_append, cy_lookup_none _ _ (hnew n hp hm)]
    unfold chosen
    rw [cy_lookup_map p.vars f (keeps hit skip keep) n, if_pos ((cy_passes hit skip keep n).2 hp)]
    exact (congrArg (Option.map f) hv).trans rfl
  · show n ∈ (into.vars ++ (chosen hit skip keep p).map (fun x => (x.1, f x.2))).map Prod.fst ↔ _
    simp only [List.map_append, List.mem_append, List.map_map]
    refine or_congr Iff.rfl ⟨fun h => ?_, fun h => ?_⟩
    · obtain ⟨x, hx, rfl⟩ := List.mem_map.1 h
      exact ⟨List.mem_map.2 ⟨x, (hsub x hx).1, rfl⟩, (hsub x hx).2⟩
    · obtain ⟨x, hx, rfl⟩ := List.mem_map.1 h.1
      exact List.mem_map.2 ⟨x, List.mem_filter.2 ⟨hx, (cy_passes hit skip keep x.1).2 h.2⟩, rfl⟩

theorem cy_fat_length (d : Nat) (l : List V) : (l.flatMap (fun x => List.replicate d x)).length = l.length * d := by
  induction l with
  | nil => simp
  | cons x r ih => simp [List.flatMap_cons, ih]; ring

theorem cy_fat_at (d : Nat) (l : List V) : ∀ (i j : Nat), j < d → (l.flatMap (fun x => List.replicate d x))[i * d + j]? = l[i]? := by
  induction l with
  | nil => intro i j _; simp
  | cons x r ih =>
    intro i j hj
    rw [List.flatMap_cons]
    cases i with
    | zero =>
      rw [List.getElem?_append_left (by simpa using hj)]
      simp [hj]
    | succ i =>
      rw [List.getElem?_append_right (by simp; nlinarith)]
      rw [List.length_replicate, show (i + 1) * d + j - d = i * d + j by rw [Nat.succ_mul]; omega, ih i j hj]
      simp

/-- The pod has arrays of `n` cases, each with its values, under different names. -/
def PerCase (p : Pod V) (n : Nat) : Prop :=
  (p.vars.map Prod.fst).Nodup ∧ ∀ x ∈ p.vars, x.2.shape = [n] ∧ x.2.data.length = n

/-- The pod has arrays of `n` cases by `d` alternatives. -/
def PerAlt (p : Pod V) (n d : Nat) : Prop :=
  (p.vars.map Prod.fst).Nodup ∧ ∀ x ∈ p.vars, x.2.shape = [n, d] ∧ x.2.data.length = n * d

/-- The pod to be written can take arrays of this shape under the names that are kept. -/
def Ready (hit : String → String → Bool) (skip keep : List String) (p into : Pod V) (s : List Nat) : Prop :=
  (into.shape = none ∨ into.shape = some s) ∧
    ∀ (n : String), Passes hit skip keep n → n ∈ p.vars.map Prod.fst → n ∉ into.vars.map Prod.fst

/-- **C183.**  `fatten` gives each variable that is kept, with title and dictionary, for all alternatives: for case `i` and each alternative `j` the
value of case `i`.  The others are not in the new pod. -/
theorem C183_fatten (hit : String → String → Bool) (p into : Pod V) (n d : Nat) (skip keep : List String) (hn : 0 < n) (hd : 0 < d)
    (hp : PerCase p n) (hr : Ready hit skip keep p into [n, d]) :
    (fatten hit p (some d) skip keep into).2 = none ∧
      (∀ (name : String) (v : Var V), HasVar p name v → Passes hit skip keep name →
        ∃ w, HasVar (fatten hit p (some d) skip keep into).1 name w ∧ w.shape = [n, d] ∧ w.title = v.title ∧ w.dict = v.dict ∧
          w.data.length = n * d ∧ ∀ (i j : Nat), j < d → w.data[i * d + j]? = v.data[i]?) ∧
      (∀ (name : String), name ∈ (fatten hit p (some d) skip keep into).1.vars.map Prod.fst ↔
        name ∈ into.vars.map Prod.fst ∨ (name ∈ p.vars.map Prod.fst ∧ Passes hit skip keep name)) := by
  obtain ⟨h1, h2, h3⟩ := cy_made hit (fun v => some (fat d v)) (fat d) [n, d] p into skip keep (by simp; omega) hp.1
    (fun x hx => ⟨rfl, by simp [fat, (hp.2 x hx).1]⟩) hr.2 hr.1
  refine ⟨h1, fun name v hv hpass => ⟨fat d v, h2 name v hv hpass, ?_, rfl, rfl, ?_, fun i j hj => cy_fat_at d v.data i j hj⟩, h3⟩
  · show v.shape ++ [d] = [n, d]
    rw [(hp.2 (name, v) (cy_lookup_mem _ _ _ hv)).1]
    rfl
  · show (v.data.flatMap _).length = _
    rw [cy_fat_length, (hp.2 _ (cy_lookup_mem _ _ _ hv)).2]

/-- **C183.**  `flatten` puts the values of the alternatives of a case, then those of the next, one after the other. -/
theorem C183_flatten (hit : String → String → Bool) (p into : Pod V) (n d : Nat) (skip keep : List String) (hn : 0 < n) (hd : 0 < d)
    (hp : PerAlt p n d) (hr : Ready hit skip keep p into [n * d]) :
    (flatten hit p skip keep into).2 = none ∧
      (∀ (name : String) (v : Var V), HasVar p name v → Passes hit skip keep name →
        HasVar (flatten hit p skip keep into).1 name ⟨[n * d], v.data, v.title, v.dict, none⟩) ∧
      (∀ (name : String), name ∈ (flatten hit p skip keep into).1.vars.map Prod.fst ↔
        name ∈ into.vars.map Prod.fst ∨ (name ∈ p.vars.map Prod.fst ∧ Passes hit skip keep name)) := by
  have hnd : n * d ≠ 0 := Nat.mul_ne_zero (by omega) (by omega)
  obtain ⟨h1, h2, h3⟩ := cy_made hit (fun v => some (flat v)) flat [n * d] p into skip keep (by simp; omega) hp.1
    (fun x hx => ⟨rfl, by simp [flat, (hp.2 x hx).2]⟩) hr.2 hr.1
  refine ⟨h1, fun name v hv hpass => ?_, h3⟩
  have := h2 name v hv hpass
  rw [show flat v = ⟨[n * d], v.data, v.title, v.dict, none⟩ by simp [flat, (hp.2 _ (cy_lookup_mem _ _ _ hv)).2]] at this
  exact this

theorem cy_resolve (a b : Nat) : resolve (a * b) [(a : Int), (b : Int)] = some [a, b] := by
  have h1 : ¬ ((a : Int) < -1) := by omega
  have h2 : ¬ ((b : Int) < -1) := by omega
  have h3 : ((a : Int) == -1) = false := by simp
  have h4 : ((b : Int) == -1) = false := by simp
  simp [resolve, given, h1, h2, h3, h4]

theorem cy_resolve_first (a b : Nat) (hb : 0 < b) : resolve (a * b) [-1, (b : Int)] = some [a, b] := by
  have h2 : ¬ ((b : Int) < -1) := by omega
  have h4 : ((b : Int) == -1) = false := by simp
  have h5 : ¬ ((b : Int) = -1) := by omega
  have h6 : b ≠ 0 := by omega
  simp [resolve, given, h2, h4, h5, h6, Nat.mul_div_cancel _ hb]

theorem cy_resolve_second (a b : Nat) (ha : 0 < a) : resolve (a * b) [(a : Int), -1] = some [a, b] := by
  have h2 : ¬ ((a : Int) < -1) := by omega
  have h4 : ((a : Int) == -1) = false := by simp
  have h5 : ¬ ((a : Int) = -1) := by omega
  have h6 : a ≠ 0 := by omega
  simp [resolve, given, h2, h4, h5, h6, Nat.mul_div_cancel_left _ ha]

/-- **C183.**  `reshape_to` a number of cases and of alternatives, one of which may be left out (-1), gives each variable the value number `i * b + j` for
case `i` and alternative `j`. -/
theorem C183_reshape (hit : String → String → Bool) (p into : Pod V) (a b : Nat) (s : List Int) (skip keep : List String) (ha : 0 < a) (hb : 0 < b)
    (hs : s = [(a : Int), (b : Int)] ∨ s = [-1, (b : Int)] ∨ s = [(a : Int), -1])
    (hp : PerCase p (a * b)) (hr : Ready hit skip keep p into [a, b]) :
    (reshapeTo hit p s skip keep into).2 = none ∧
      (∀ (name : String) (v : Var V), HasVar p name v → Passes hit skip keep name →
        HasVar (reshapeTo hit p s skip keep into).1 name ⟨[a, b], v.data, v.title, v.dict, none⟩) ∧
      (∀ (name : String), name ∈ (reshapeTo hit p s skip keep into).1.vars.map Prod.fst ↔
        name ∈ into.vars.map Prod.fst ∨ (name ∈ p.vars.map Prod.fst ∧ Passes hit skip keep name)) := by
  have hres : resolve (a * b) s = some [a, b] := by
    rcases hs with rfl | rfl | rfl
    · exact cy_resolve a b
    · exact cy_resolve_first a b hb
    · exact cy_resolve_second a b ha
  exact cy_made hit (reshape s) (fun v => ⟨[a, b], v.data, v.title, v.dict, none⟩) [a, b] p into skip keep (by simp; omega) hp.1
    (fun x hx => ⟨by unfold reshape; rw [(hp.2 x hx).2, hres]; rfl, rfl⟩) hr.2 hr.1

/-- **C183.**  Flattened, the reshaped pod has the values it was made from. -/
theorem C183_reshape_flatten (hit : String → String → Bool) (p : Pod V) (a b : Nat) (ha : 0 < a) (hb : 0 < b) (hp : PerCase p (a * b))
    (name : String) (v : Var V) (hv : HasVar p name v) (hnew : v.source = none) :
    ∃ q r : Pod V, reshapeTo hit p [(a : Int), (b : Int)] [] [] ⟨none, []⟩ = (q, none) ∧ flatten hit q [] [] ⟨none, []⟩ = (r, none) ∧
      HasVar r name v := by
  have hall : chosen hit [] [] p = p.vars := by
    unfold chosen
    exact List.filter_eq_self.2 (fun x _ => by simp [keeps])
  have hz : 0 ∉ [a, b] := by simp; omega
  have h1 := cy_transfer (reshape [(a : Int), (b : Int)]) (fun v : Var V => ⟨[a, b], v.data, v.title, v.dict, none⟩) [a, b] hz p.vars ⟨none, []⟩
    (fun x hx => ⟨by unfold reshape; rw [(hp.2 x hx).2, cy_resolve a b]; rfl, rfl⟩) hp.1 (by simp) (Or.inl rfl)
  obtain ⟨q, hq⟩ : ∃ q, q = (⟨if p.vars = [] then none else some [a, b], p.vars.map (fun x => (x.1, ⟨[a, b], x.2.data, x.2.title, x.2.dict, none⟩))⟩ : Pod V) :=
    ⟨_, rfl⟩
  have hqv : HasVar q name ⟨[a, b], v.data, v.title, v.dict, none⟩ := by
    rw [hq]
    have := cy_lookup_map p.vars (fun v : Var V => ⟨[a, b], v.data, v.title, v.dict, none⟩) (fun _ => true) name
    rw [List.filter_eq_self.2 (fun _ _ => rfl)] at this
    exact this.trans (by rw [if_pos rfl]; exact (congrArg (Option.map _) hv).trans rfl)
  have hqa : PerAlt q a b := by
    rw [hq]
    refine ⟨by simpa [Function.comp_def] using hp.1, fun x hx => ?_⟩
    obtain ⟨y, hy, rfl⟩ := List.mem_map.1 hx
    exact ⟨rfl, (hp.2 y hy).2⟩
  obtain ⟨h2, h3, -⟩ := C183_flatten hit q ⟨none, []⟩ a b [] [] ha hb hqa ⟨Or.inl rfl, by simp⟩
  refine ⟨q, (flatten hit q [] [] ⟨none, []⟩).1, ?_, Prod.ext rfl h2, ?_⟩
  · unfold reshapeTo
    rw [hall, h1, hq]
    rfl
  · have := h3 name _ hqv ⟨by simp, Or.inl rfl⟩
    have hvs := hp.2 _ (cy_lookup_mem _ _ _ hv)
    obtain ⟨sh, da, ti, di, so⟩ := v
    simp only at hvs hnew
    rw [hvs.1, hnew]
    exact this

/-- **C183.**  What cannot be done raises and writes nothing: `fatten` without a number of alternatives, and `reshape_to` when the number of values is not that
of the shape. -/
theorem C183_refused (hit : String → String → Bool) (p into : Pod V) (skip keep : List String) (s : List Int) (n : Nat) (name : String)
    (hp : PerCase p n) (hin : name ∈ p.vars.map Prod.fst) (hpass : Passes hit skip keep name) (hbad : resolve n s = none) :
    fatten hit p none skip keep into = (into, some .typeError) ∧ reshapeTo hit p s skip keep into = (into, some .valueError) := by
  refine ⟨rfl, ?_⟩
  unfold reshapeTo
  obtain ⟨x, hx, rfl⟩ := List.mem_map.1 hin
  have hmem : x ∈ chosen hit skip keep p := List.mem_filter.2 ⟨hx, (cy_passes hit skip keep x.1).2 hpass⟩
  cases hc : chosen hit skip keep p with
  | nil => rw [hc] at hmem; cases hmem
  | cons y r =>
    obtain ⟨m, v⟩ := y
    have hy : (m, v) ∈ p.vars := (List.mem_filter.1 (by rw [← hc.symm] at *; simp : (m, v) ∈ chosen hit skip keep p)).1
    have : reshape s v = none := by
      unfold reshape
      rw [(hp.2 _ hy).2, hbad]
      rfl
    simp only [transfer, this]

/-! ## Copying -/

/-- The name asked for: all columns under their names; one; those of a list; or those of a dict under the names it gives. -/
def AsksFor : Names → String → String → Prop
  | .all, col, new => new = col
  | .one n, col, new => col = n ∧ new = n
  | .list l, col, new => col ∈ l ∧ new = col
  | .dict l, col, new => l.lookup col = some new

theorem cy_lookup_self (l : List String) (c : String) : (l.map (fun n => (n, n))).lookup c = if c ∈ l then some c else none := by
  induction l with
  | nil => simp
  | cons x r ih =>
    simp only [List.map_cons, List.lookup_cons]
    by_cases h : c = x
    · subst h
      simp
    · rw [show (c == x) = false by simpa using h, ih]
      simp [h]

theorem cy_copiedAs (names : Names) (p : Pod V) (col new : String) :
    copiedAs names p col = some new ↔ AsksFor names col new ∧ new ∉ p.vars.map Prod.fst := by
  unfold copiedAs
  cases names with
  | all =>
    simp only [Names.toDict, AsksFor]
    constructor
    · intro h
      split_ifs at h with hc
      cases h
      exact ⟨rfl, hc⟩
    · rintro ⟨rfl, h⟩
      rw [if_neg h]
  | one n =>
    simp only [Names.toDict, AsksFor, List.lookup_cons, List.lookup_nil]
    by_cases hc : col = n
    · subst hc
      simp only [beq_self_eq_true, Option.bind_some]
      constructor
      · intro h
        split_ifs at h with hh
        cases h
        exact ⟨⟨trivial, rfl⟩, hh⟩
      · rintro ⟨⟨-, rfl⟩, h⟩
        rw [if_neg h]
    · rw [show (col == n) = false by simpa using hc]
      simp [hc]
  | list l =>
    simp only [Names.toDict, AsksFor, cy_lookup_self]
    by_cases hc : col ∈ l
    · simp only [hc, if_true, Option.bind_some]
      constructor
      · intro h
        split_ifs at h with hh
        cases h
        exact ⟨⟨trivial, rfl⟩, hh⟩
      · rintro ⟨⟨-, rfl⟩, h⟩
        rw [if_neg h]
    · simp [hc]
  | dict l =>
    simp only [Names.toDict, AsksFor]
    cases l.lookup col with
    | none => simp
    | some m =>
      simp only [Option.bind_some, Option.some.injEq]
      constructor
      · intro h
        split_ifs at h with hh
        cases h
        exact ⟨rfl, hh⟩
      · rintro ⟨rfl, h⟩
        rw [if_neg h]

theorem cy_asks_functional (names : Names) (col a b : String) (ha : AsksFor names col a) (hb : AsksFor names col b) : a = b := by
  cases names with
  | all => exact ha.trans hb.symm
  | one n => exact ha.2.trans hb.2.symm
  | list l => exact ha.2.trans hb.2.symm
  | dict l => exact Option.some.inj (ha.symm.trans hb)

theorem cy_copyLoop (names : Names) (source : String) (s : List Nat) (hz : 0 ∉ s) (l : List (String × Var V)) :
    ∀ (p : Pod V), (∀ x ∈ l, x.2.shape = s) → (l.map Prod.fst).Nodup →
      (∀ (x y : String × Var V) (a : String), x ∈ l → y ∈ l → AsksFor names x.1 a → AsksFor names y.1 a → x.1 = y.1) →
      (p.shape = none ∨ p.shape = some s) →
      (copyLoop names source l p).2 = none ∧
        ∀ (new : String), new ∉ p.vars.map Prod.fst →
          (∀ x ∈ l, AsksFor names x.1 new → HasVar (copyLoop names source l p).1 new (copyOf source x.2)) ∧
          ((∀ x ∈ l, ¬ AsksFor names x.1 new) → new ∉ (copyLoop names source l p).1.vars.map Prod.fst) := by
  induction l with
  | nil => intro p _ _ _ _; exact ⟨rfl, fun new hnew => ⟨by simp, fun _ => hnew⟩⟩
  | cons x r ih =>
    intro p hsh hnd hinj hs
    obtain ⟨col, v⟩ := x
    have hnd' := List.nodup_cons.1 (by simpa using hnd : (col :: r.map Prod.fst).Nodup)
    have hsh' : ∀ y ∈ r, y.2.shape = s := fun y hy => hsh y (by simp [hy])
    have hinj' : ∀ (x y : String × Var V) (a : String), x ∈ r → y ∈ r → AsksFor names x.1 a → AsksFor names y.1 a → x.1 = y.1 :=
      fun x y a hx hy => hinj x y a (by simp [hx]) (by simp [hy])
    cases hc : copiedAs names p col with
    | none =>
      simp only [copyLoop, hc]
      obtain ⟨h1, h2⟩ := ih p hsh' hnd'.2 hinj' hs
      refine ⟨h1, fun new hnew => ⟨fun y hy ha => ?_, fun h => (h2 new hnew).2 (fun y hy => h y (by simp [hy]))⟩⟩
      rcases List.mem_cons.1 hy with rfl | hy
      · have := (cy_copiedAs names p col new).2 ⟨ha, hnew⟩
        rw [hc] at this
        cases this
      · exact (h2 new hnew).1 y hy ha
    | some w =>
      obtain ⟨hw, hwn⟩ := (cy_copiedAs names p col w).1 hc
      have hv : v.shape = s := hsh (col, v) (by simp)
      have hadd := cy_add_ok p w (copyOf source v) (by show 0 ∉ v.shape; rw [hv]; exact hz) hwn (by show _ ∨ _ = some v.shape; rw [hv]; exact hs)
      simp only [copyLoop, hc, hadd]
      obtain ⟨h1, h2⟩ := ih ⟨some (copyOf source v).shape, p.vars ++ [(w, copyOf source v)]⟩ hsh' hnd'.2 hinj' (Or.inr (congrArg some hv))
      refine ⟨h1, fun new hnew => ?_⟩
      by_cases hnw : new = w
      · subst hnw
        have hpre := cy_copy_prefix names source r ⟨some (copyOf source v).shape, p.vars ++ [(new, copyOf source v)]⟩
        refine ⟨fun y hy ha => ?_, fun h => absurd hw (h (col, v) (by simp))⟩
        have heq : y = (col, v) := by
          rcases List.mem_cons.1 hy with h | h
          · exact h
          · have := hinj y (col, v) new (by simp [h]) (by simp) ha hw
            exact absurd (List.mem_map.2 ⟨y, h, this⟩) hnd'.1
        obtain ⟨t, ht⟩ := hpre
        unfold HasVar
        rw [← ht, cy_lookup_append, cy_lookup_append, cy_lookup_none _ _ hnew, heq]
        simp [List.lookup_cons]
      · have hnew' : new ∉ (p.vars ++ [(w, copyOf source v)]).map Prod.fst := by
          simp only [List.map_append, List.mem_append, List.map_cons, List.map_nil, List.mem_singleton, not_or]
          exact ⟨hnew, hnw⟩
        refine ⟨fun y hy ha => ?_, fun h => (h2 new hnew').2 (fun y hy => h y (by simp [hy]))⟩
        rcases List.mem_cons.1 hy with rfl | hy
        · exact absurd (cy_asks_functional names col new w ha hw) hnw
        · exact (h2 new hnew').1 y hy ha

/-- **C183.**  `copy_external_data` from a pod with as many cases: each column asked for is there afterwards, under the name asked for, with its values and
its dictionary, and with the source; if there was no variable of that name.  Nothing else is new. -/
theorem C183_copy (p other : Pod V) (n : Nat) (names : Names) (source : Option String) (file : String) (hn : 0 < n)
    (ho : PerCase other n) (hs : p.shape = none ∨ p.shape = some [n])
    (hinj : ∀ (a b new : String), a ∈ other.vars.map Prod.fst → b ∈ other.vars.map Prod.fst → AsksFor names a new → AsksFor names b new → a = b) :
    (copyExternal p other names source file).2 = none ∧
      (∀ (col new : String) (v : Var V), HasVar other col v → AsksFor names col new → new ∉ p.vars.map Prod.fst →
        HasVar (copyExternal p other names source file).1 new ⟨[n], v.data, none, v.dict, some (source.getD file)⟩) ∧
      (∀ (new : String), new ∉ p.vars.map Prod.fst → (∀ (col : String), col ∈ other.vars.map Prod.fst → ¬ AsksFor names col new) →
        new ∉ (copyExternal p other names source file).1.vars.map Prod.fst) := by
  obtain ⟨h1, h2⟩ := cy_copyLoop names (source.getD file) [n] (by simp; omega) other.vars p (fun x hx => (ho.2 x hx).1) ho.1
    (fun x y a hx hy => hinj x.1 y.1 a (List.mem_map_of_mem hx) (List.mem_map_of_mem hy)) hs
  refine ⟨h1, fun col new v hv ha hnew => ?_, fun new hnew h => (h2 new hnew).2 (fun x hx => h x.1 (List.mem_map_of_mem hx))⟩
  have hm := cy_lookup_mem _ _ _ hv
  have := (h2 new hnew).1 (col, v) hm ha
  rw [show copyOf (source.getD file) v = ⟨[n], v.data, none, v.dict, some (source.getD file)⟩ by
    unfold copyOf
    rw [(ho.2 _ hm).1]] at this
  exact this

/-- **C183.**  With another number of cases nothing is copied, and it raises if there is anything to be copied. -/
theorem C183_copy_other_size (p other : Pod V) (n m : Nat) (names : Names) (source : Option String) (file : String) (hm : m ≠ n) (h1 : m ≠ 1)
    (ho : PerCase other m) (hs : p.shape = some [n]) :
    copyExternal p other names source file = (p, if other.vars.any (fun x => (copiedAs names p x.1).isSome) then some .incompatibleShape else none) := by
  unfold copyExternal
  have hall := ho.2
  clear ho
  generalize other.vars = l at hall
  induction l with
  | nil => rfl
  | cons x r ih =>
    obtain ⟨col, v⟩ := x
    simp only [copyLoop]
    cases hc : copiedAs names p col with
    | none =>
      simp only [List.any_cons, hc, Option.isSome_none, Bool.false_or]
      exact ih (fun y hy => hall y (by simp [hy]))
    | some w =>
      have hv : v.shape = [m] := (hall (col, v) (by simp)).1
      have : addArray p w (copyOf (source.getD file) v) false = (p, some .incompatibleShape) := by
        have hf : fitTo p (copyOf (source.getD file) v) = none := by
          unfold fitTo
          rw [hs]
          show (if [n] = v.shape then _ else if [n] = squeeze v.shape then _ else none) = none
          rw [hv, if_neg (by simp; omega), if_neg (by simp [squeeze, h1]; omega)]
        unfold addArray
        rw [hf]
      simp [this, hc]

/-! ## Plucking values out of matrices -/

/-- The table is in the file, its name is not that of a lookup, and it has a value in each cell. -/
def TableIn (f : Matrices V) (page : String) (cell : Nat → Nat → V) : Prop :=
  page ∉ f.lookups ∧ ∃ M, f.data.lookup page = some M ∧ ∀ (i j : Nat), i < f.rows → j < f.cols → (M[i]?).bind (fun row => row[j]?) = some (cell i j)

/-- The tables asked for, with the names of the new variables: all of them, one, those of a list, or those of a dict. -/
def PagesAre (f : Matrices V) : Names → List (String × String) → Prop
  | .all, l => l = f.data.map (fun x => (x.1, x.1))
  | .one n, l => l = [(n, n)]
  | .list ns, l => l = ns.map (fun n => (n, n))
  | .dict m, l => l = m

/-- Zero-based positions in a dimension of a size. -/
def Positions (l : List Int) (n : Nat) : Prop := ∀ i ∈ l, 0 ≤ i ∧ i < n

theorem cy_mapM {α β : Type} (f : α → Option β) (g : α → β) (l : List α) (h : ∀ x ∈ l, f x = some (g x)) : l.mapM f = some (l.map g) := by
  induction l with
  | nil => rfl
  | cons x r ih =>
    rw [List.mapM_cons, h x (by simp), ih (fun y hy => h y (by simp [hy]))]
    rfl

theorem cy_pluckTable (f : Matrices V) (page : String) (cell : Nat → Nat → V) (r c : List Int) (hl : r.length = c.length)
    (hr : Positions r f.rows) (hc : Positions c f.cols) (ht : TableIn f page cell) :
    pluckTable f page (r, c) = .ok ((r.zip c).map (fun e => cell e.1.toNat e.2.toNat)) := by
  obtain ⟨hnl, M, hM, hcell⟩ := ht
  unfold pluckTable
  rw [hM]
  simp only [hnl, if_false, hl, ne_eq, not_true_eq_false]
  rw [cy_mapM (pluckOne f M) (fun e => cell e.1.toNat e.2.toNat) (r.zip c) (fun e he => by
    obtain ⟨h1, h2⟩ := List.of_mem_zip (show (e.1, e.2) ∈ r.zip c from he)
    have hr1 := hr _ h1
    have hc1 := hc _ h2
    unfold pluckOne wrap
    rw [if_pos hr1, if_pos hc1]
    exact hcell _ _ (by omega) (by omega))]

/-- What the loop does. -/
theorem cy_pluckLoop (f : Matrices V) (r c : List Int) (hl : r.length = c.length) (hne : r ≠ []) (hr : Positions r f.rows) (hc : Positions c f.cols)
    (cell : String → Nat → Nat → V) (overwrite : Bool) (l : List (String × String)) :
    ∀ (p : Pod V), (∀ x ∈ l, TableIn f x.1 (cell x.1)) → (l.map Prod.snd).Nodup → (overwrite = false → ∀ x ∈ l, x.2 ∉ p.vars.map Prod.fst) →
      (p.shape = none ∨ p.shape = some [r.length]) →
      (pluckLoop f (r, c) overwrite l p).2 = none ∧
        (∀ x ∈ l, HasVar (pluckLoop f (r, c) overwrite l p).1 x.2
          { shape := [r.length], data := (r.zip c).map (fun e => cell x.1 e.1.toNat e.2.toNat), source := some f.file }) ∧
        ∀ (n : String), n ∉ l.map Prod.snd → (pluckLoop f (r, c) overwrite l p).1.vars.lookup n = p.vars.lookup n := by
  induction l with
  | nil => intro p _ _ _ _; exact ⟨rfl, by simp, fun n _ => rfl⟩
  | cons x t ih =>
    intro p ht hnd hnew hs
    obtain ⟨page, new⟩ := x
    have hnd' := List.nodup_cons.1 (by simpa using hnd : (new :: t.map Prod.snd).Nodup)
    have hpl := cy_pluckTable f page (cell page) r c hl hr hc (ht (page, new) (by simp))
    have hlen : ((r.zip c).map (fun e => cell page e.1.toNat e.2.toNat)).length = r.length := by simp [hl]
    obtain ⟨w, hw⟩ : ∃ w : Var V, w = { shape := [r.length], data := (r.zip c).map (fun e => cell page e.1.toNat e.2.toNat), source := some f.file } := ⟨_, rfl⟩
    have hz : 0 ∉ w.shape := by
      rw [hw]
      have : r.length ≠ 0 := by simpa using hne
      simp; omega
    obtain ⟨q, hq, hqs, hqn, hqo⟩ : ∃ q : Pod V, addArray p new w overwrite = (q, none) ∧ q.shape = some [r.length] ∧ HasVar q new w ∧
        ∀ (n : String), n ≠ new → (q.vars.lookup n = p.vars.lookup n ∧ (n ∈ q.vars.map Prod.fst → n ∈ p.vars.map Prod.fst)) := by
      have hfit : fitTo p w = some w := by
        unfold fitTo
        rcases hs with h | h
        · rw [h]
        · rw [h, hw]; exact if_pos rfl
      cases overwrite with
      | false =>
        have hn := hnew rfl (page, new) (by simp)
        refine ⟨_, cy_add_ok p new w hz hn (by rw [hw]; exact hs), by rw [hw], ?_, fun n hne => ?_⟩
        · unfold HasVar
          rw [cy_lookup_append, cy_lookup_none _ _ hn]
          simp [List.lookup_cons]
        · refine ⟨?_, fun h => ?_⟩
          · rw [cy_lookup_append]
            simp [List.lookup_cons, show (n == new) = false by simpa using hne]
          · simpa [hne] using h
      | true =>
        have hn : new ∉ (deleteArray p new).vars.map Prod.fst := by
          intro h
          obtain ⟨y, hy, hy2⟩ := List.mem_map.1 h
          have := (List.mem_filter.1 hy).2
          simp [hy2] at this
        have hdl : ∀ (n : String), n ≠ new → (deleteArray p new).vars.lookup n = p.vars.lookup n := fun n hne => by
          have := cy_lookup_map p.vars id (fun m => m != new) n
          simp only [id_eq, Option.map_id'] at this
          rw [show ((p.vars.filter (fun x => x.1 != new)).map (fun x => (x.1, x.2))) = (deleteArray p new).vars by simp [deleteArray]] at this
          rw [this, if_pos (by simpa using hne)]
          simp
        refine ⟨⟨some w.shape, (deleteArray p new).vars ++ [(new, w)]⟩, ?_, by rw [hw], ?_, fun n hne => ⟨?_, fun h => ?_⟩⟩
        · unfold addArray
          rw [hfit]
          exact cy_store_ok (deleteArray p new) new w hz hn
        · unfold HasVar
          rw [cy_lookup_append, cy_lookup_none _ _ hn]
          simp [List.lookup_cons]
        · rw [cy_lookup_append, hdl n hne]
          simp [List.lookup_cons, show (n == new) = false by simpa using hne]
        · simp only [List.map_append, List.mem_append, List.map_cons, List.map_nil, List.mem_singleton, hne, or_false] at h
          obtain ⟨y, hy, hy2⟩ := List.mem_map.1 h
          exact List.mem_map.2 ⟨y, (List.mem_filter.1 hy).1, hy2⟩
    have hstep : pluckLoop f (r, c) overwrite ((page, new) :: t) p = pluckLoop f (r, c) overwrite t q := by
      simp only [pluckLoop, hpl, hlen]
      rw [← hw, hq]
    rw [hstep]
    obtain ⟨h1, h2, h3⟩ := ih q (fun y hy => ht y (by simp [hy])) hnd'.2
      (fun ho y hy hm => by
        have hne : y.2 ≠ new := fun h => hnd'.1 (h ▸ List.mem_map_of_mem hy)
        exact hnew ho y (by simp [hy]) ((hqo y.2 hne).2 hm))
      (Or.inr hqs)
    refine ⟨h1, fun y hy => ?_, fun n hn => ?_⟩
    · rcases List.mem_cons.1 hy with rfl | hy
      · unfold HasVar
        rw [h3 _ hnd'.1, ← hw]
        exact hqn
      · exact h2 y hy
    · simp only [List.map_cons, List.mem_cons, not_or] at hn
      rw [h3 n hn.2, (hqo n hn.1).1]

/-- **C183.**  `pluck_from_omx` with index arrays (given, or in the pod) gives the new variables the values of the tables at the row and column of each case,
with the file as source; other variables are as before. -/
theorem C183_pluck (p : Pod V) (f : Matrices V) (idx : String → Option (List Int)) (ri ci : Index) (r c : List Int) (names : Names)
    (pages : List (String × String)) (overwrite : Bool) (cell : String → Nat → Nat → V)
    (hri : ri = .array r ∨ ∃ n, ri = .name n ∧ idx n = some r)
    (hci : ci = .array c ∨ (∃ n, ci = .name n ∧ idx n = some c) ∨ ∃ i, ci = .number i ∧ c = List.replicate r.length i)
    (hl : r.length = c.length) (hne : r ≠ []) (hr : Positions r f.rows) (hc : Positions c f.cols)
    (hnames : PagesAre f names pages)
    (ht : ∀ x ∈ pages, TableIn f x.1 (cell x.1)) (hnd : (pages.map Prod.snd).Nodup)
    (hnew : overwrite = false → ∀ x ∈ pages, x.2 ∉ p.vars.map Prod.fst) (hs : p.shape = none ∨ p.shape = some [r.length]) :
    (pluck p f idx ri ci names overwrite).2 = none ∧
      (∀ x ∈ pages, ∃ w, HasVar (pluck p f idx ri ci names overwrite).1 x.2 w ∧ w.shape = [r.length] ∧ w.source = some f.file ∧
        ∀ (k i j : Nat), r[k]? = some (i : Int) → c[k]? = some (j : Int) → w.data[k]? = some (cell x.1 i j)) ∧
      ∀ (n : String), n ∉ pages.map Prod.snd → (pluck p f idx ri ci names overwrite).1.vars.lookup n = p.vars.lookup n := by
  have hpair : pairOf idx ri ci = .ok (r, c) := by
    rcases hri with rfl | ⟨n, rfl, hn⟩ <;> rcases hci with rfl | ⟨m, rfl, hm⟩ | ⟨i, rfl, rfl⟩
    · rfl
    · simp only [pairOf, indexOf, hm, Except.bind, Except.map]
    · rfl
    · simp only [pairOf, indexOf, hn, Except.bind, Except.map]
    · simp only [pairOf, indexOf, hn, hm, Except.bind, Except.map]
    · simp only [pairOf, indexOf, hn, Except.map]
  have hp : names.toDict.getD (f.data.map (fun x => (x.1, x.1))) = pages := by
    cases names <;> exact Eq.symm hnames
  unfold pluck
  rw [hpair]
  simp only [hp]
  obtain ⟨h1, h2, h3⟩ := cy_pluckLoop f r c hl hne hr hc cell overwrite pages p ht hnd hnew hs
  refine ⟨h1, fun x hx => ⟨_, h2 x hx, rfl, rfl, fun k i j hi hj => ?_⟩, h3⟩
  have : (r.zip c)[k]? = some ((i : Int), (j : Int)) := List.getElem?_zip_eq_some.2 ⟨hi, hj⟩
  simp [List.getElem?_map, this]

/-- **C183.**  Without `overwrite` a variable of a name in the pod is not touched: the plucking stops there with an exception. -/
theorem C183_pluck_taken (p : Pod V) (f : Matrices V) (idx : String → Option (List Int)) (r c : List Int) (page new : String) (rest : List (String × String))
    (cell : Nat → Nat → V) (hl : r.length = c.length) (hne : r ≠ []) (hr : Positions r f.rows) (hc : Positions c f.cols) (ht : TableIn f page cell)
    (hs : p.shape = some [r.length]) (hin : new ∈ p.vars.map Prod.fst) :
    pluck p f idx (.array r) (.array c) (.dict ((page, new) :: rest)) false = (p, some .nodeError) := by
  have hlen : ((r.zip c).map (fun e => cell e.1.toNat e.2.toNat)).length = r.length := by simp [hl]
  have h0 : r.length ≠ 0 := by simpa using hne
  simp only [pluck, pairOf, indexOf, Except.bind, Except.map, Names.toDict, Option.getD_some, pluckLoop, cy_pluckTable f page cell r c hl hr hc ht, hlen,
    addArray, fitTo, hs, if_true, store]
  simp [hin, h0, Ne.symm h0]

/-! ## Examples, and where the code falls short -/

/-- Two cases and three variables. -/
def smallPod : Pod Int := ⟨some [2], [("income", { shape := [2], data := [40, 70], title := some "Income" }), ("age", { shape := [2], data := [30, 50] }),
  ("age2", { shape := [2], data := [900, 2500], dict := some "squares" })]⟩

/-- A pattern matches the names it begins. -/
def begins (pat n : String) : Bool := pat.toList.isPrefixOf n.toList

example : PerCase smallPod 2 ∧ Ready begins ["age"] [] smallPod ⟨none, []⟩ [2, 3] ∧
    fatten begins smallPod (some 3) ["age"] [] ⟨none, []⟩ =
      (⟨some [2, 3], [("income", { shape := [2, 3], data := [40, 40, 40, 70, 70, 70], title := some "Income" })]⟩, none) :=
  ⟨⟨by decide, by decide⟩, ⟨Or.inl rfl, by simp⟩, by decide +kernel⟩

example : (reshapeTo begins smallPod [-1, 2] [] ["age"] ⟨none, []⟩).1.vars.map (fun x => (x.1, x.2.shape, x.2.data)) =
    [("age", [1, 2], [30, 50]), ("age2", [1, 2], [900, 2500])] ∧ resolve 2 [3, -1] = none ∧ resolve 2 [-1, -1] = none := by decide +kernel

example : (copyExternal (⟨some [2], [("age", { shape := [2], data := [1, 1] })]⟩ : Pod Int) smallPod (.dict [("age", "years"), ("age2", "age")]) none "small.h5").1.vars =
    [("age", { shape := [2], data := [1, 1] }), ("years", { shape := [2], data := [30, 50], source := some "small.h5" })] := by decide +kernel

/-- A file with one table. -/
def distances : Matrices Int := ⟨2, 2, [("dist", [[0, 5], [7, 0]])], [], "d.omx"⟩

example : TableIn distances "dist" (fun i j => if i = j then 0 else if i = 0 then 5 else 7) ∧ Positions [1, 0] distances.rows ∧
    (pluck smallPod distances (fun _ => none) (.array [1, 0]) (.array [0, 0]) .all false).1.vars.lookup "dist" =
      some { shape := [2], data := [7, 0], source := some "d.omx" } ∧
    pluck smallPod distances (fun _ => none) (.array [1, 0]) (.number 1) (.list ["dist"]) false =
      pluck smallPod distances (fun _ => none) (.array [1, 0]) (.array [1, 1]) (.one "dist") false := by
  refine ⟨⟨by decide, _, rfl, fun i j hi hj => ?_⟩, by unfold Positions; decide, by decide +kernel, by decide +kernel⟩
  have hi' : i = 0 ∨ i = 1 := by simp [distances] at hi; omega
  have hj' : j = 0 ∨ j = 1 := by simp [distances] at hj; omega
  rcases hi' with rfl | rfl <;> rcases hj' with rfl | rfl <;> decide

/-- **C183, violated.**  A single number is taken for the columns, and not for the rows: that it raises is not what the message about the types of the arguments
says. -/
theorem C183_fails_row_number : (pluck smallPod distances (fun _ => none) (.number 1) (.array [1, 0]) .all false).2 = some .notImplemented ∧
    (pluck smallPod distances (fun _ => none) (.array [1, 0]) (.number 1) .all false).2 = none := by decide +kernel

/-- **C183, violated.**  Two columns to be copied under one name: the second is silently left out. -/
theorem C183_fails_same_name : copyExternal ⟨some [2], []⟩ smallPod (.dict [("income", "x"), ("age", "x")]) none "small.h5" =
    (⟨some [2], [("x", { shape := [2], data := [40, 70], source := some "small.h5" })]⟩, none) := by decide +kernel

/-- **C183, violated.**  Columns that the other pod does not have are silently left out. -/
theorem C183_fails_no_such_column : copyExternal ⟨some [2], []⟩ smallPod (.list ["income", "wealth"]) none "small.h5" =
    copyExternal ⟨some [2], []⟩ smallPod (.list ["income"]) none "small.h5" := by decide +kernel

end Larch.Props
