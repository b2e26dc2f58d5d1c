import Verif.Model.StrDict
import Verif.Props.Watched

/-! # C204: dictionaries of strings -/

namespace Larch.Props

open Larch.Watched (entry write erase writeAll)
open Larch.StrDict

variable {O : Type} [DecidableEq O] (str : O → O)

/-- All keys and values are texts. -/
def SdTexts (d : List (O × O)) : Prop := ∀ k v, entry d k = some v → str k = k ∧ str v = v

/-- Keys are distinct. -/
def SdKeys (d : List (O × O)) : Prop := (d.map (·.1)).Nodup

theorem sd_keys_write (d : List (O × O)) (h : SdKeys d) (k v : O) : SdKeys (write d k v) := by
  unfold SdKeys at *
  rw [(C203_order d k v).1]
  split
  · exact h
  · rename_i hk
    rw [List.nodup_append]
    refine ⟨h, by simp, fun a ha b hb e => hk ?_⟩
    rw [List.mem_singleton] at hb
    rw [← hb, ← e]
    exact ha

theorem sd_keys_erase (d : List (O × O)) (h : SdKeys d) (k : O) : SdKeys (erase d k) := by
  unfold SdKeys at *
  rw [(C203_order d k k).2]
  exact h.sublist List.filter_sublist

theorem sd_keys_all (items d : List (O × O)) (h : SdKeys d) : SdKeys (writeAll d items) := by
  induction items generalizing d with
  | nil => exact h
  | cons e r ih => exact ih _ (sd_keys_write d h e.1 e.2)

theorem sd_keys_call (d : List (O × O)) (h : SdKeys d) (c : Call O) : SdKeys (call str d c).2 := by
  cases c with
  | contains k => exact h
  | getitem k => simp only [call]; cases entry d (str k) <;> exact h
  | setitem k v => exact sd_keys_write d h _ _
  | setdefault k v =>
    simp only [call]
    cases entry d (str k) with
    | none => exact sd_keys_write d h _ _
    | some u => exact h
  | get k => simp only [call]; cases entry d k <;> exact h
  | delitem k =>
    simp only [call]
    cases entry d k with
    | none => exact h
    | some u => exact sd_keys_erase d h k
  | pop k =>
    simp only [call]
    cases entry d k with
    | none => exact h
    | some u => exact sd_keys_erase d h k
  | update items => exact sd_keys_all items d h

/-- **C204, set and get.** What is set under a key is found, as a text, under every key of the same text, and all else is as before. -/
theorem C204_set (d : List (O × O)) (k v j : O) :
    ((call str (call str d (.setitem k v)).2 (.contains j)).1 = if str j = str k then .bool true else (call str d (.contains j)).1) ∧
      ((call str (call str d (.setitem k v)).2 (.getitem j)).1 = if str j = str k then .value (str v) else (call str d (.getitem j)).1) := by
  have he : entry (call str d (.setitem k v)).2 (str j) = if str j = str k then some (str v) else entry d (str j) := wd_write d (str k) (str v) (str j)
  constructor
  · show Result.bool (entry (call str d (.setitem k v)).2 (str j)).isSome = _
    rw [he]
    split <;> rfl
  · have : ∀ e : List (O × O), (call str e (.getitem j)).1 = (entry e (str j)).elim .keyError .value := fun e => by
      simp only [call]
      cases entry e (str j) <;> rfl
    rw [this, this, he]
    by_cases hj : str j = str k
    · rw [if_pos hj, if_pos hj]
      rfl
    · rw [if_neg hj, if_neg hj]

/-- **C204, default.** `setdefault` gives what is there under the text of the key, or sets and gives the text of the default. -/
theorem C204_setdefault (d : List (O × O)) (k v : O) :
    ((call str d (.contains k)).1 = .bool true → (call str d (.setdefault k v)).1 = (call str d (.getitem k)).1 ∧ (call str d (.setdefault k v)).2 = d) ∧
      ((call str d (.contains k)).1 = .bool false → (call str d (.setdefault k v)).1 = .value (str v) ∧
        (call str d (.setdefault k v)).2 = (call str d (.setitem k v)).2) := by
  simp only [call]
  cases h : entry d (str k) with
  | none => simp
  | some u => simp

/-- The call of a plain dictionary that a call comes to. -/
def sdPlain : Call O → Larch.Watched.Call O O
  | .contains k => .get (str k) k
  | .getitem k => .getitem (str k)
  | .setitem k v => .setitem (str k) (str v)
  | .setdefault k v => .setdefault (str k) (str v)
  | .get k => .get k k
  | .delitem k => .delitem k
  | .pop k => .pop k
  | .update items => .update items

/-- **C204, content.** Every call leaves what the call of a plain dictionary would with the texts: of keys and values for setting, the key for looking,
and nothing for `get`, deletion, `pop` and `update`. -/
theorem C204_plain (d : List (O × O)) (c : Call O) : entry (call str d c).2 = wdPlain (entry d) (sdPlain str c) := by
  have hh : entry (call str d c).2 = entry (Larch.Watched.call (fun _ => false) ⟨d, []⟩ (sdPlain str c)).2.entries := by
    cases c with
    | contains k => rfl
    | getitem k => simp only [call, sdPlain, Larch.Watched.call]; cases entry d (str k) <;> rfl
    | setitem k v => rfl
    | setdefault k v => simp only [call, sdPlain, Larch.Watched.call]; cases entry d (str k) <;> rfl
    | get k => simp only [call, sdPlain, Larch.Watched.call]; cases entry d k <;> rfl
    | delitem k => simp only [call, sdPlain, Larch.Watched.call]; cases entry d k <;> rfl
    | pop k => simp only [call, sdPlain, Larch.Watched.call]; cases entry d k <;> rfl
    | update items => rfl
  rw [hh]
  exact (C203_plain (fun _ => false) ⟨d, []⟩ (sdPlain str c)).1

example : entry (call (fun n : Nat => n + 100) [(101, 7)] (.delitem 101)).2 101 = none := by
  rw [C204_plain]
  rfl

/-- The calls that make texts of what they are given, or only look. -/
def SdMakes : Call O → Prop
  | .update _ => False
  | _ => True

/-- **C204, texts only.** From an empty dictionary any calls other than `update` leave texts only, and keys stay distinct whatever is called. -/
theorem C204_texts (hs : ∀ x, str (str x) = str x) (cs : List (Call O)) :
    SdKeys (calls str [] cs) ∧ ((∀ c ∈ cs, SdMakes c) → SdTexts str (calls str [] cs)) := by
  have gen : ∀ (cs : List (Call O)) (d : List (O × O)), SdKeys d → SdKeys (calls str d cs) := by
    intro cs
    induction cs with
    | nil => exact fun d h => h
    | cons c r ih => exact fun d h => ih _ (sd_keys_call str d h c)
  have wr : ∀ (d : List (O × O)), SdTexts str d → ∀ k v, SdTexts str (write d (str k) (str v)) := by
    intro d h k v x y hxy
    rw [wd_write] at hxy
    split at hxy
    · rename_i e
      cases hxy
      rw [e]
      exact ⟨hs _, hs _⟩
    · exact h x y hxy
  have er : ∀ (d : List (O × O)), SdTexts str d → ∀ k, SdTexts str (erase d k) := by
    intro d h k x y hxy
    rw [wd_erase] at hxy
    split at hxy
    · cases hxy
    · exact h x y hxy
  have one : ∀ (d : List (O × O)), SdTexts str d → ∀ c, SdMakes c → SdTexts str (call str d c).2 := by
    intro d h c hc
    cases c with
    | contains k => exact h
    | getitem k => simp only [call]; cases entry d (str k) <;> exact h
    | setitem k v => exact wr d h k v
    | setdefault k v =>
      simp only [call]
      cases entry d (str k) with
      | none => exact wr d h k v
      | some u => exact h
    | get k => simp only [call]; cases entry d k <;> exact h
    | delitem k =>
      simp only [call]
      cases entry d k with
      | none => exact h
      | some u => exact er d h k
    | pop k =>
      simp only [call]
      cases entry d k with
      | none => exact h
      | some u => exact er d h k
    | update items => exact hc.elim
  have gen2 : ∀ (cs : List (Call O)) (d : List (O × O)), SdTexts str d → (∀ c ∈ cs, SdMakes c) → SdTexts str (calls str d cs) := by
    intro cs
    induction cs with
    | nil => exact fun d h _ => h
    | cons c r ih => exact fun d h hc => ih _ (one d h c (hc c (by simp))) (fun c hm => hc c (List.mem_cons_of_mem _ hm))
  exact ⟨gen cs [] List.nodup_nil, gen2 cs [] (fun k v h => by simp [entry] at h)⟩

theorem sd_fresh (d r : List (O × O)) (h : SdKeys (d ++ r)) : writeAll d r = d ++ r := by
  induction r generalizing d with
  | nil => simp [writeAll]
  | cons e r ih =>
    have hw : write d e.1 e.2 = d ++ [e] := by
      unfold write
      rw [if_neg]
      intro hc
      obtain ⟨a, ha, hk⟩ := List.any_eq_true.1 hc
      unfold SdKeys at h
      rw [List.map_append, List.nodup_append] at h
      exact h.2.2 a.1 (List.mem_map.2 ⟨a, ha, rfl⟩) e.1 (by simp) (by simpa using hk)
    have : writeAll d (e :: r) = writeAll (write d e.1 e.2) r := rfl
    rw [this, hw, ih _ (by simpa using h)]
    simp

/-- **C204, copies.** After any calls on a dictionary made of any items a copy has the same entries in the same order. -/
theorem C204_copy (items : List (O × O)) (cs : List (Call O)) : copy (calls str (make items) cs) = calls str (make items) cs := by
  have gen : ∀ (cs : List (Call O)) (d : List (O × O)), SdKeys d → SdKeys (calls str d cs) := by
    intro cs
    induction cs with
    | nil => exact fun d h => h
    | cons c r ih => exact fun d h => ih _ (sd_keys_call str d h c)
  have := sd_fresh [] (calls str (make items) cs) (gen cs _ (sd_keys_all items [] List.nodup_nil))
  simpa [copy, make] using this

/-- Numbers from 100 on are texts; the text of a smaller number is 100 more. -/
def sdStr (n : Nat) : Nat := if n < 100 then n + 100 else n

example : SdTexts sdStr (calls sdStr [] [.setitem 1 2, .setdefault 3 4, .getitem 1]) :=
  (C204_texts sdStr (fun x => by unfold sdStr; split <;> (try split) <;> omega) _).2 (by
    intro c hc
    simp only [List.mem_cons, List.not_mem_nil, or_false] at hc
    rcases hc with rfl | rfl | rfl <;> trivial)

/-- **C204, what goes wrong.** What is not a text is kept as it is when given at the start or by `update`, and then is not found under its own key by
square brackets or `in` (unless its text is a key too), only by `get`; and what has been set under a key that is not a text cannot be deleted, taken out
or read by `get` under that key. -/
theorem C204_fails (d : List (O × O)) (k v : O) (hk : str k ≠ k) :
    (entry d (str k) = none → ∀ e, (e = make [(k, v)] ∨ e = (call str d (.update [(k, v)])).2) →
        (call str e (.contains k)).1 = .bool false ∧ (call str e (.getitem k)).1 = .keyError ∧ (call str e (.get k)).1 = .value v) ∧
      (entry d k = none → (call str (call str d (.setitem k v)).2 (.getitem k)).1 = .value (str v) ∧
        (call str (call str d (.setitem k v)).2 (.delitem k)).1 = .keyError ∧ (call str (call str d (.setitem k v)).2 (.pop k)).1 = .keyError ∧
        (call str (call str d (.setitem k v)).2 (.get k)).1 = .nothing) := by
  constructor
  · intro h e he
    have hw : entry e (str k) = none ∧ entry e k = some v := by
      rcases he with rfl | rfl
      · show entry (write [] k v) (str k) = none ∧ entry (write [] k v) k = some v
        rw [wd_write, wd_write, if_neg hk, if_pos rfl]
        exact ⟨rfl, rfl⟩
      · show entry (write d k v) (str k) = none ∧ entry (write d k v) k = some v
        rw [wd_write, wd_write, if_neg hk, if_pos rfl]
        exact ⟨h, rfl⟩
    simp [call, hw.1, hw.2]
  · intro h
    have h1 : entry (write d (str k) (str v)) k = none := by
      rw [wd_write, if_neg (fun e => hk e.symm)]
      exact h
    have h2 : entry (write d (str k) (str v)) (str k) = some (str v) := by rw [wd_write, if_pos rfl]
    simp [call, h1, h2]

example : sdStr 1 ≠ 1 ∧ entry ([] : List (Nat × Nat)) (sdStr 1) = none := by decide

end Larch.Props
