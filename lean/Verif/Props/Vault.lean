import Verif.Spec.Vault
import Mathlib.Data.List.Nodup

/-!
# C168: the vault is a mapping with history
-/

namespace Larch.Props

open Larch.Vault Larch.VaultSpec

variable {V : Type}

theorem vt_matchHere (p s : Name) (hs : ∀ c ∈ s, c ≠ '\n') : matchHere p s = true ↔ ∃ m b, s = m ++ b ∧ List.Forall₂ (fun p c => p = '.' ∨ p = c) p m := by
  induction p generalizing s with
  | nil => simp [matchHere]
  | cons a p ih =>
    cases s with
    | nil =>
      simp only [matchHere, Bool.false_eq_true, false_iff, not_exists, not_and]
      intro m b h1 h2
      cases h2
      simp at h1
    | cons c s =>
      have hc : c ≠ '\n' := hs c (by simp)
      have h1 : matches1 a c = true ↔ (a = '.' ∨ a = c) := by
        unfold matches1
        split_ifs with h
        · simp [hc, h]
        · simp [h]
      rw [matchHere, Bool.and_eq_true, h1, ih s (fun d hd => hs d (by simp [hd]))]
      constructor
      · rintro ⟨h, m, b, rfl, hf⟩
        exact ⟨c :: m, b, rfl, List.Forall₂.cons h hf⟩
      · rintro ⟨m, b, h2, hf⟩
        cases hf with
        | cons h hf =>
          simp only [List.cons_append, List.cons.injEq] at h2
          obtain ⟨rfl, rfl⟩ := h2
          exact ⟨h, _, b, rfl, hf⟩

theorem vt_search (p : Name) : ∀ (s : Name), (∀ c ∈ s, c ≠ '\n') → (search p s = true ↔ FoundIn p s)
  | [], hs => by
    rw [search, vt_matchHere p [] hs]
    constructor
    · rintro ⟨m, b, h, hf⟩
      exact ⟨[], m, b, h, hf⟩
    · rintro ⟨a, m, b, h, hf⟩
      have : a = [] := by
        cases a with
        | nil => rfl
        | cons c a => simp at h
      subst this
      exact ⟨m, b, h, hf⟩
  | c :: s, hs => by
    rw [search, Bool.or_eq_true, vt_matchHere p (c :: s) hs, vt_search p s (fun d hd => hs d (by simp [hd]))]
    constructor
    · rintro (⟨m, b, h, hf⟩ | ⟨a, m, b, h, hf⟩)
      · exact ⟨[], m, b, h, hf⟩
      · exact ⟨c :: a, m, b, by rw [h]; rfl, hf⟩
    · rintro ⟨a, m, b, h, hf⟩
      cases a with
      | nil => exact Or.inl ⟨m, b, h, hf⟩
      | cons d a =>
        simp only [List.cons_append, List.cons.injEq] at h
        exact Or.inr ⟨a, m, b, h.2, hf⟩

theorem vt_self (k : Name) : FoundIn k (safe k) := by
  refine ⟨[], safe k, [], by simp, ?_⟩
  unfold safe
  induction k with
  | nil => exact List.Forall₂.nil
  | cons c k ih =>
    refine List.Forall₂.cons ?_ ih
    by_cases h : c = '.'
    · exact Or.inl h
    · right; simp [h]

theorem vt_line (k : Name) (hk : Plain k) : ∀ c ∈ safe k, c ≠ '\n' := by
  intro c hc
  unfold safe at hc
  obtain ⟨d, hd, rfl⟩ := List.mem_map.1 hc
  split_ifs with h
  · decide
  · rintro rfl
    rcases hk _ hd with h1 | h1 | h1
    · revert h1; decide
    · revert h1; decide
    · revert h1; decide

theorem vt_lookup_map (v : Node V) (n : Name) (g : List V → List V) (j : Name) :
    (v.map (fun e => if e.1 = n then (e.1, g e.2) else e)).lookup j = if j = n then (v.lookup j).map g else v.lookup j := by
  induction v with
  | nil => simp
  | cons e v ih =>
    obtain ⟨a, l⟩ := e
    by_cases ha : a = n
    · subst ha
      by_cases hj : j = a
      · subst hj; simp
      · have hb : (j == a) = false := by simpa using hj
        simp only [List.map_cons, if_true, List.lookup_cons, hb]
        rw [ih]
    · simp only [List.map_cons, ha, if_false, List.lookup_cons]
      rw [ih]
      by_cases hj : j = a
      · subst hj
        simp [ha]
      · have hb : (j == a) = false := by simpa using hj
        simp [hb]

theorem vt_set (v : Node V) (k : Name) (x : V) (n : Name) :
    (setItem v k x).lookup n = if n = safe k then some ((v.lookup n).getD [] ++ [x]) else v.lookup n := by
  unfold setItem contains
  rcases h : v.lookup (safe k) with _ | l
  · simp only [Option.isSome_none, Bool.false_eq_true, if_false]
    rw [List.lookup_append]
    by_cases hn : n = safe k
    · subst hn; simp [h]
    · have hb : (n == safe k) = false := by simpa using hn
      simp [hn, List.lookup_cons, hb]
  · simp only [Option.isSome_some, if_true]
    rw [vt_lookup_map v (safe k) (fun l => l ++ [x]) n]
    by_cases hn : n = safe k
    · subst hn; simp [h]
    · simp [hn]

theorem vt_wipe (v : Node V) (p n : Name) : (wipe v p).lookup n = if search p n = true then none else v.lookup n := by
  unfold wipe
  induction v with
  | nil => simp
  | cons e v ih =>
    obtain ⟨a, l⟩ := e
    by_cases ha : search p a = true
    · rw [List.filter_cons_of_neg (by simp [ha]), ih]
      by_cases hn : n = a
      · subst hn; simp [ha]
      · have hb : (n == a) = false := by simpa using hn
        simp [List.lookup_cons, hb]
    · rw [List.filter_cons_of_pos (by simpa using ha), List.lookup_cons, List.lookup_cons]
      by_cases hn : n = a
      · subst hn; simp [ha]
      · have hb : (n == a) = false := by simpa using hn
        simp only [hb]
        exact ih

theorem vt_entry (l : List V) (i : Nat) : entry l (-(i + 1 : Nat)) = match l.reverse[i]? with
    | some x => .ok x
    | none => .error "IndexError" := by
  unfold entry
  have h0 : (-((i + 1 : Nat) : Int)) < 0 := by omega
  simp only [if_pos h0]
  by_cases hi : i < l.length
  · rw [List.getElem?_reverse hi]
    have h1 : ¬ (-((i + 1 : Nat) : Int) + (l.length : Int) < 0) := by omega
    have : (-((i + 1 : Nat) : Int) + (l.length : Int)).toNat = l.length - 1 - i := by omega
    rw [if_neg h1, this]
    cases l[l.length - 1 - i]? <;> rfl
  · have h1 : -((i + 1 : Nat) : Int) + (l.length : Int) < 0 := by omega
    rw [if_pos h1, List.getElem?_eq_none (by simpa using hi)]

/-- C168: what was put in last is read, and the earlier values remain behind it. -/
theorem C168_set_get (v : Node V) (k : Name) (x : V) : getItem (setItem v k x) k = .ok x ∧ contains (setItem v k x) k = true ∧
    ∀ i : Nat, contains v k = true → older (setItem v k x) k (-(i + 2 : Nat)) = older v k (-(i + 1 : Nat)) := by
  have h := vt_set v k x (safe k)
  rw [if_pos rfl] at h
  refine ⟨?_, by rw [contains, h]; rfl, ?_⟩
  · unfold getItem older
    rw [h]
    exact (vt_entry _ 0).trans (by simp)
  · intro i hc
    unfold older
    rw [h]
    unfold contains at hc
    rcases hl : v.lookup (safe k) with _ | l
    · rw [hl] at hc; simp at hc
    · simp only [Option.getD_some]
      have e2 := vt_entry l i
      have e1 := vt_entry (l ++ [x]) (i + 1)
      rw [List.reverse_append] at e1
      simp only [List.reverse_singleton, List.singleton_append, List.getElem?_cons_succ] at e1
      exact e1.trans e2.symm

/-- C168: keys that differ in more than dots and underscores do not disturb one another when put in. -/
theorem C168_set_other (v : Node V) (j k : Name) (x : V) (i : Int) (h : safe j ≠ safe k) :
    older (setItem v k x) j i = older v j i ∧ contains (setItem v k x) j = contains v j := by
  unfold older contains
  rw [vt_set, if_neg h]
  exact ⟨rfl, rfl⟩

/-- C168: a key that is deleted is gone. -/
theorem C168_del (v : Node V) (k : Name) (hk : Plain k) : contains (delItem v k) k = false ∧ getItem (delItem v k) k = .error "KeyError" := by
  have h : (delItem v k).lookup (safe k) = none := by
    rw [delItem, vt_wipe, if_pos ((vt_search k _ (vt_line k hk)).2 (vt_self k))]
  exact ⟨by rw [contains, h]; rfl, by rw [getItem, older, h]⟩

theorem vt_run (ops : List (Op V)) (K : List Name) (hp : ∀ k ∈ K, Plain k) (ha : Apart K) (hops : ∀ o ∈ ops, Op.key o ∈ K) (k : Name) (hk : k ∈ K) :
    ∀ (v : Node V) (acc : List V), (v.lookup (safe k)).getD [] = acc → (∀ l, v.lookup (safe k) = some l → l ≠ []) →
      ((ops.foldl step v).lookup (safe k)).getD [] = values k ops acc ∧ (∀ l, (ops.foldl step v).lookup (safe k) = some l → l ≠ []) := by
  induction ops with
  | nil => exact fun v acc h1 h2 => ⟨h1, h2⟩
  | cons o ops ih =>
    have ih' := ih (fun o ho => hops o (by simp [ho]))
    intro v acc h1 h2
    have hj := hops o (by simp)
    cases o with
    | set j x =>
      simp only [Op.key] at hj
      rw [List.foldl_cons, values]
      apply ih'
      · show ((setItem v j x).lookup (safe k)).getD [] = _
        rw [vt_set]
        by_cases hjk : j = k
        · subst hjk; simp [h1]
        · have hne : safe k ≠ safe j := fun h => ha j hj k hk hjk (by rw [h]; exact vt_self j)
          simp [hne, hjk, h1]
      · intro l hl
        change (setItem v j x).lookup (safe k) = some l at hl
        rw [vt_set] at hl
        split_ifs at hl with hh
        · simp only [Option.some.injEq] at hl; subst hl; simp
        · exact h2 l hl
    | del j =>
      simp only [Op.key] at hj
      rw [List.foldl_cons, values]
      apply ih'
      · show ((wipe v j).lookup (safe k)).getD [] = _
        rw [vt_wipe]
        by_cases hjk : j = k
        · subst hjk
          simp [(vt_search j _ (vt_line j (hp j hj))).2 (vt_self j)]
        · have : ¬ (search j (safe k) = true) := fun h => ha j hj k hk hjk ((vt_search j _ (vt_line k (hp k hk))).1 h)
          simp [this, hjk, h1]
      · intro l hl
        change (wipe v j).lookup (safe k) = some l at hl
        rw [vt_wipe] at hl
        split_ifs at hl with hh
        exact h2 l hl

/-- C168: in every history with keys of which none is found in another, a key is there when it has values since it was last deleted; the last of
them is read, and `_get_item_or_older(key, -i)` reads the earlier ones. -/
theorem C168_history (ops : List (Op V)) (K : List Name) (hp : ∀ k ∈ K, Plain k) (ha : Apart K) (hops : ∀ o ∈ ops, Op.key o ∈ K) (k : Name) (hk : k ∈ K) :
    (contains (run ops) k = true ↔ values k ops [] ≠ []) ∧
      (∀ x, (values k ops []).getLast? = some x → getItem (run ops) k = .ok x) ∧
      (∀ (i : Nat) x, (values k ops []).reverse[i]? = some x → older (run ops) k (-(i + 1 : Nat)) = .ok x) ∧
      (values k ops [] = [] → getItem (run ops) k = .error "KeyError") := by
  obtain ⟨h1, h2⟩ := vt_run ops K hp ha hops k hk [] [] (by simp) (by simp)
  change ((run ops).lookup (safe k)).getD [] = _ at h1
  change ∀ l, (run ops).lookup (safe k) = some l → l ≠ [] at h2
  rcases hl : (run ops).lookup (safe k) with _ | l
  · rw [hl] at h1
    simp only [Option.getD_none] at h1
    rw [← h1]
    refine ⟨by simp [contains, hl], by simp, by simp, fun _ => by rw [getItem, older, hl]⟩
  · have hne := h2 l hl
    rw [hl] at h1
    simp only [Option.getD_some] at h1
    rw [← h1]
    have hold : ∀ (i : Nat) x, l.reverse[i]? = some x → older (run ops) k (-(i + 1 : Nat)) = .ok x := by
      intro i x hx
      unfold older
      rw [hl]
      exact (vt_entry l i).trans (by rw [hx])
    refine ⟨by simp [contains, hl, hne], ?_, hold, fun h => absurd h hne⟩
    intro x hx
    have := hold 0 x (by rw [← List.head?_eq_getElem?, List.head?_reverse]; exact hx)
    exact this

theorem vt_keys_set (v : Node V) (k : Name) (x : V) : keys (setItem v k x) = if contains v k = true then keys v else keys v ++ [safe k] := by
  unfold setItem keys
  split_ifs with h
  · rw [List.map_map]
    apply List.map_congr_left
    intro e _
    simp only [Function.comp]
    split <;> rfl
  · simp

theorem vt_contains (v : Node V) (k : Name) : contains v k = true ↔ safe k ∈ keys v := by
  unfold contains keys
  constructor
  · intro h
    by_contra hc
    rw [List.lookup_eq_none_iff.2 (fun e he => by
      simp only [bne_iff_ne, ne_eq]
      rintro h2
      exact hc (List.mem_map.2 ⟨e, he, h2.symm⟩))] at h
    simp at h
  · intro h
    by_contra hc
    have hn : v.lookup (safe k) = none := by
      rcases hh : v.lookup (safe k) with _ | l
      · rfl
      · rw [hh] at hc; simp at hc
    obtain ⟨e, he, h2⟩ := List.mem_map.1 h
    have := List.lookup_eq_none_iff.1 hn e he
    simp [h2] at this

theorem vt_nodup (ops : List (Op V)) : (keys (run ops)).Nodup := by
  unfold run
  suffices h : ∀ v : Node V, (keys v).Nodup → (keys (ops.foldl step v)).Nodup from h [] List.nodup_nil
  induction ops with
  | nil => exact fun v h => h
  | cons o ops ih =>
    intro v h
    apply ih
    cases o with
    | set k x =>
      show (keys (setItem v k x)).Nodup
      rw [vt_keys_set]
      split_ifs with hc
      · exact h
      · rw [vt_contains] at hc
        exact List.Nodup.append h (by simp) (by simpa using hc)
    | del k => exact List.Nodup.sublist (List.Sublist.map _ List.filter_sublist) h

/-- C168: `len` counts each key once, and `in` agrees with `keys()`. -/
theorem C168_keys (ops : List (Op V)) : (keys (run ops)).Nodup ∧ len (run ops) = (keys (run ops)).length ∧
    ∀ k : Name, contains (run ops) k = true ↔ safe k ∈ keys (run ops) :=
  ⟨vt_nodup ops, by simp [len, keys], fun k => vt_contains _ k⟩

theorem vt_safe_plain (k : Name) (hk : Plain k) : Plain (safe k) ∧ safe (safe k) = safe k := by
  refine ⟨?_, ?_⟩
  · intro c hc
    unfold safe at hc
    obtain ⟨d, hd, rfl⟩ := List.mem_map.1 hc
    split_ifs with h
    · right; left; rfl
    · exact hk d hd
  · unfold safe
    rw [List.map_map]
    apply List.map_congr_left
    intro c _
    simp only [Function.comp]
    split_ifs with h1 h2 <;> simp_all

/-- C168: `clear()` ends, and leaves nothing. -/
theorem C168_clear (v : Node V) (hv : ∀ e ∈ v, Plain e.1 ∧ safe e.1 = e.1) (n : Nat) (hn : v.length ≤ n) : clear n v = some [] := by
  induction n generalizing v with
  | zero =>
    have : v = [] := by cases v with
      | nil => rfl
      | cons e v => simp at hn
    subst this
    rfl
  | succ n ih =>
    cases v with
    | nil => rfl
    | cons e r =>
      rw [clear]
      apply ih
      · intro e' he'
        unfold delItem wipe at he'
        exact hv e' (List.mem_of_mem_filter he')
      · obtain ⟨h1, h2⟩ := hv e (by simp)
        have : search e.1 e.1 = true := by
          have h3 := (vt_search e.1 _ (vt_line e.1 h1)).2 (vt_self e.1)
          rw [h2] at h3
          exact h3
        unfold delItem wipe
        rw [List.filter_cons_of_neg (by simp [this])]
        have := List.length_filter_le (fun e' : Name × List V => !search e.1 e'.1) r
        simp only [List.length_cons] at hn
        omega

/-- C168 fails: keys that differ in dots and underscores only are one key. -/
theorem C168_fails_dots (x y : V) : getItem (run [.set "a.b".toList x, .set "a_b".toList y]) "a.b".toList = .ok y ∧ len (run [.set "a.b".toList x, .set "a_b".toList y]) = 1 :=
  ⟨rfl, rfl⟩

/-- C168 fails: iterating gives keys that were not put in. -/
theorem C168_fails_names (x : V) : keys (run [.set "a.b".toList x]) = ["a_b".toList] := rfl

/-- C168 fails: deleting a key deletes every key it is found in, whatever values they have. -/
theorem C168_fails_delete (x y : V) : contains (run [.set "time".toList x, .set "timestamp".toList y, .del "time".toList]) "timestamp".toList = false := by rfl

/-- C168 fails: deleting a key that is not there raises nothing, and may delete others. -/
theorem C168_fails_missing (x : V) : contains (run [.set "time".toList x]) "tim".toList = false ∧ run [.set "time".toList x, .del "tim".toList] = [] := ⟨rfl, rfl⟩

/-- C168 fails: so does `pop`. -/
theorem C168_fails_pop (x y : V) : pop (run [.set "time".toList x, .set "timestamp".toList y]) "time".toList = (.ok x, []) := rfl

example : Apart ["cost".toList, "time".toList] ∧ Plain "cost".toList ∧ Plain "time".toList := by
  refine ⟨?_, by unfold Plain; decide, by unfold Plain; decide⟩
  intro j hj k hk hne h
  rw [← vt_search j _ (vt_line k (by simp at hk; rcases hk with rfl | rfl <;> (unfold Plain; decide)))] at h
  simp at hj hk
  rcases hj with rfl | rfl <;> rcases hk with rfl | rfl <;> first | exact hne rfl | (revert h; decide)

example : values "a".toList [.set "a".toList 1, .set "b".toList 5, .set "a".toList 2, .del "b".toList] [] = [1, 2] := by decide

end Larch.Props
