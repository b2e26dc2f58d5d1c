import Verif.Model.Watched

/-! # C203: a dictionary that tells of reads and changes -/

namespace Larch.Props

open Larch.Watched

variable {K V : Type} [DecidableEq K]

/-- What someone who hears only the notifications takes the dictionary to hold, starting from what it held. -/
def wdHeard (m : K → Option V) : Note K V → K → Option V
  | .read _ => m
  | .wrote k v => fun x => if x = k then some v else m x
  | .deleted k => fun x => if x = k then none else m x

/-- What a plain dictionary holds after a call. -/
def wdPlain (m : K → Option V) : Call K V → K → Option V
  | .getitem _ => m
  | .setitem k v => fun x => if x = k then some v else m x
  | .delitem k => fun x => if x = k then none else m x
  | .get _ _ => m
  | .setdefault k v => fun x => if x = k then some ((m k).getD v) else m x
  | .pop k => fun x => if x = k then none else m x
  | .popOr k _ => fun x => if x = k then none else m x
  | .update items => fun x => ((items.reverse.find? (fun e => decide (e.1 = x))).map (·.2)).or (m x)
  | .copy => m

/-- What a plain dictionary gives; a copy is left out. -/
def wdGives (m : K → Option V) : Call K V → Result V
  | .getitem k => match m k with | some v => .value v | none => .keyError
  | .setitem _ _ => .nothing
  | .delitem k => match m k with | some _ => .nothing | none => .keyError
  | .get k v => .value ((m k).getD v)
  | .setdefault k v => .value ((m k).getD v)
  | .pop k => match m k with | some v => .value v | none => .keyError
  | .popOr k v => .value ((m k).getD v)
  | .update _ => .nothing
  | .copy => .nothing

theorem wd_write (d : List (K × V)) (k : K) (v : V) (x : K) : entry (write d k v) x = if x = k then some v else entry d x := by
  unfold write entry
  split
  · rename_i h
    induction d with
    | nil => cases h
    | cons e r ih =>
      by_cases he : e.1 = k
      · by_cases hx : x = k
        · subst hx; simp [he]
        · have h1 : ¬ k = x := fun e => hx e.symm
          by_cases hr : r.any (fun e => decide (e.1 = k)) = true
          · have := ih hr
            simp [he, hx, h1] at this ⊢
            exact this
          · have hmap : r.map (fun e => if e.1 = k then (k, v) else e) = r := by
              rw [List.map_congr_left (g := id), List.map_id]
              intro a ha
              have : ¬ a.1 = k := fun e => hr (List.any_eq_true.2 ⟨a, ha, by simpa using e⟩)
              simp [this]
            rw [List.map_cons, hmap]
            simp [he, hx, h1]
      · have hr : r.any (fun e => decide (e.1 = k)) = true := by simpa [he] using h
        have := ih hr
        by_cases hx : e.1 = x
        · have : ¬ x = k := fun e2 => he (hx.trans e2)
          simp [he, hx, this]
        · rw [List.map_cons, if_neg he, List.find?_cons_of_neg (by simpa using hx), List.find?_cons_of_neg (by simpa using hx)]
          exact this
  · rename_i h
    rw [List.find?_append]
    by_cases hx : x = k
    · subst hx
      have : d.find? (fun e => decide (e.1 = x)) = none := by
        rw [List.find?_eq_none]
        intro a ha hc
        exact h (List.any_eq_true.2 ⟨a, ha, hc⟩)
      simp [this]
    · have h1 : ¬ k = x := fun e => hx e.symm
      simp [hx, h1]

theorem wd_erase (d : List (K × V)) (k : K) (x : K) : entry (erase d k) x = if x = k then none else entry d x := by
  unfold erase entry
  induction d with
  | nil => simp
  | cons e r ih =>
    by_cases he : e.1 = k
    · rw [List.filter_cons_of_neg (by simpa using he), ih]
      by_cases hx : x = k
      · simp [hx]
      · have : ¬ e.1 = x := fun e2 => hx (e2.symm.trans he)
        simp [hx, this]
    · rw [List.filter_cons_of_pos (by simpa using he)]
      by_cases hx : e.1 = x
      · have : ¬ x = k := fun e2 => he (hx.trans e2)
        simp [hx, this]
      · rw [List.find?_cons_of_neg (by simpa using hx), List.find?_cons_of_neg (by simpa using hx)]
        exact ih

theorem wd_writeAll (items d : List (K × V)) (x : K) :
    entry (writeAll d items) x = ((items.reverse.find? (fun e => decide (e.1 = x))).map (·.2)).or (entry d x) := by
  induction items generalizing d with
  | nil => simp [writeAll]
  | cons e r ih =>
    have : writeAll d (e :: r) = writeAll (write d e.1 e.2) r := rfl
    rw [this, ih, wd_write, List.reverse_cons, List.find?_append]
    cases hf : r.reverse.find? (fun e => decide (e.1 = x)) with
    | some u => simp
    | none =>
      by_cases hx : x = e.1
      · simp [hx]
      · have : ¬ e.1 = x := fun e2 => hx e2.symm
        simp [hx, this]

theorem wd_tell (raises : Note K V → Bool) (d : List (K × V)) (l : List (Note K V)) (n : Note K V) (r : Result V) :
    (tell raises d l n r).2.entries = d ∧ (tell raises d l n r).2.log = l ++ [n] ∧ ((tell raises d l n r).1 = r ∨ (tell raises d l n r).1 = .callbackRaised) := by
  unfold tell
  refine ⟨rfl, rfl, ?_⟩
  cases raises n <;> simp

/-- **C203, it is a dictionary.** Every call leaves what it would leave of a plain dictionary, and gives the same unless a callback raises (or a copy is
asked for). -/
theorem C203_plain (raises : Note K V → Bool) (s : State K V) (c : Call K V) :
    entry (call raises s c).2.entries = wdPlain (entry s.entries) c ∧
      (c = .copy ∨ (call raises s c).1 = wdGives (entry s.entries) c ∨ (call raises s c).1 = .callbackRaised) := by
  cases c with
  | getitem k =>
    simp only [call, wdPlain, wdGives]
    cases h : entry s.entries k with
    | none => exact ⟨rfl, Or.inr (Or.inl rfl)⟩
    | some v => exact ⟨rfl, Or.inr (wd_tell raises s.entries s.log (.read k) (.value v)).2.2⟩
  | setitem k v =>
    refine ⟨?_, Or.inr (wd_tell raises (write s.entries k v) s.log (.wrote k v) .nothing).2.2⟩
    funext x
    exact wd_write s.entries k v x
  | delitem k =>
    simp only [call, wdPlain, wdGives]
    cases h : entry s.entries k with
    | none =>
      refine ⟨?_, Or.inr (Or.inl rfl)⟩
      funext x
      by_cases hx : x = k
      · simp [hx, h]
      · simp [hx]
    | some v =>
      refine ⟨?_, Or.inr (wd_tell raises (erase s.entries k) s.log (.deleted k) .nothing).2.2⟩
      funext x
      exact wd_erase s.entries k x
  | get k v => exact ⟨rfl, Or.inr (Or.inl rfl)⟩
  | setdefault k v =>
    simp only [call, wdPlain, wdGives]
    cases h : entry s.entries k with
    | none =>
      refine ⟨?_, Or.inr (Or.inl rfl)⟩
      funext x
      simpa using wd_write s.entries k v x
    | some u =>
      refine ⟨?_, Or.inr (Or.inl rfl)⟩
      funext x
      by_cases hx : x = k
      · simp [hx, h]
      · simp [hx]
  | pop k =>
    simp only [call, wdPlain, wdGives]
    cases h : entry s.entries k with
    | none =>
      refine ⟨?_, Or.inr (Or.inl rfl)⟩
      funext x
      by_cases hx : x = k
      · simp [hx, h]
      · simp [hx]
    | some v =>
      refine ⟨?_, Or.inr (Or.inl rfl)⟩
      funext x
      exact wd_erase s.entries k x
  | popOr k v =>
    simp only [call, wdPlain, wdGives]
    cases h : entry s.entries k with
    | none =>
      refine ⟨?_, Or.inr (Or.inl rfl)⟩
      funext x
      by_cases hx : x = k
      · simp [hx, h]
      · simp [hx]
    | some v =>
      refine ⟨?_, Or.inr (Or.inl rfl)⟩
      funext x
      exact wd_erase s.entries k x
  | update items =>
    refine ⟨?_, Or.inr (Or.inl rfl)⟩
    funext x
    exact wd_writeAll items s.entries x
  | copy => exact ⟨rfl, Or.inl rfl⟩

/-- The calls that are told of: by square brackets. -/
def WdTold : Call K V → Prop
  | .getitem _ => True
  | .setitem _ _ => True
  | .delitem _ => True
  | _ => False

/-- What should be heard of a call by square brackets: nothing if the key is not there. -/
def wdShould (m : K → Option V) : Call K V → List (Note K V)
  | .getitem k => if (m k).isSome then [.read k] else []
  | .setitem k v => [.wrote k v]
  | .delitem k => if (m k).isSome then [.deleted k] else []
  | _ => []

/-- **C203, one notification per call.** A call by square brackets that succeeds is told of once, with its key and value, after the change; one that fails
is not told of; if the callback raises the change stays. -/
theorem C203_once (raises : Note K V → Bool) (s : State K V) (c : Call K V) (hc : WdTold c) :
    (call raises s c).2.log = s.log ++ wdShould (entry s.entries) c ∧
      ((call raises s c).1 = .callbackRaised ↔ ∃ n ∈ wdShould (entry s.entries) c, raises n = true) := by
  have ht : ∀ (d : List (K × V)) (n : Note K V) (r : Result V), r ≠ .callbackRaised →
      ((tell raises d s.log n r).1 = .callbackRaised ↔ ∃ m ∈ [n], raises m = true) := by
    intro d n r hr
    unfold tell
    cases h : raises n <;> simp [h, hr]
  cases c with
  | getitem k =>
    simp only [call, wdShould]
    cases h : entry s.entries k with
    | none => simp
    | some v => exact ⟨rfl, ht _ _ _ (by simp)⟩
  | setitem k v => exact ⟨rfl, ht _ _ _ (by simp)⟩
  | delitem k =>
    simp only [call, wdShould]
    cases h : entry s.entries k with
    | none => simp
    | some v => exact ⟨rfl, ht _ _ _ (by simp)⟩
  | get k v => exact hc.elim
  | setdefault k v => exact hc.elim
  | pop k => exact hc.elim
  | popOr k v => exact hc.elim
  | update items => exact hc.elim
  | copy => exact hc.elim

example : (call (fun _ => false) (make [("a", 1)]) (.delitem "a")).2.log.length = 1 := by
  rw [(C203_once (fun _ => false) (make [("a", 1)]) (.delitem "a") trivial).1]
  decide

/-- **C203, hearing is enough.** After any calls by square brackets, whatever callbacks raise, who knows the initial content and has heard the
notifications knows the content. -/
theorem C203_heard (raises : Note K V → Bool) (items : List (K × V)) (cs : List (Call K V)) (hcs : ∀ c ∈ cs, WdTold c) :
    entry (calls raises (make items) cs).entries =
      (calls raises (make items) cs).log.foldl wdHeard (fun x => (items.reverse.find? (fun e => decide (e.1 = x))).map (·.2)) := by
  have gen : ∀ (cs : List (Call K V)) (s : State K V) (m : K → Option V), (∀ c ∈ cs, WdTold c) → entry s.entries = s.log.foldl wdHeard m →
      entry (calls raises s cs).entries = (calls raises s cs).log.foldl wdHeard m := by
    intro cs
    induction cs with
    | nil => intro s m _ h; exact h
    | cons c r ih =>
      intro s m hc h
      have hr : calls raises s (c :: r) = calls raises (call raises s c).2 r := rfl
      rw [hr]
      refine ih _ _ (fun c hm => hc c (List.mem_cons_of_mem _ hm)) ?_
      have hw := hc c (by simp)
      rw [(C203_once raises s c hw).1, List.foldl_append, ← h, (C203_plain raises s c).1]
      cases c with
      | getitem k =>
        simp only [wdShould, wdPlain]
        split <;> rfl
      | setitem k v => rfl
      | delitem k =>
        simp only [wdShould, wdPlain]
        split
        · rfl
        · rename_i hk
          funext x
          by_cases hx : x = k
          · subst hx
            simp at hk
            simp [hk]
          · simp [hx]
      | get k v => exact hw.elim
      | setdefault k v => exact hw.elim
      | pop k => exact hw.elim
      | popOr k v => exact hw.elim
      | update items => exact hw.elim
      | copy => exact hw.elim
  refine gen cs (make items) _ hcs ?_
  funext x
  show entry (writeAll [] items) x = _
  rw [wd_writeAll]
  simp [entry, make]

example : ∀ c ∈ ([.setitem "b" 2, .delitem "a", .getitem "b"] : List (Call String Nat)), WdTold c := by
  intro c hc
  simp only [List.mem_cons, List.not_mem_nil, or_false] at hc
  rcases hc with rfl | rfl | rfl <;> trivial

/-- **C203, order.** Keys stay distinct, and a key written again keeps its place. -/
theorem C203_order (d : List (K × V)) (k : K) (v : V) :
    (write d k v).map (·.1) = (if k ∈ d.map (·.1) then d.map (·.1) else d.map (·.1) ++ [k]) ∧
      (erase d k).map (·.1) = (d.map (·.1)).filter (fun x => !decide (x = k)) := by
  constructor
  · unfold write
    by_cases h : k ∈ d.map (·.1)
    · have : d.any (fun e => decide (e.1 = k)) = true := by
        obtain ⟨a, ha, hk⟩ := List.mem_map.1 h
        exact List.any_eq_true.2 ⟨a, ha, by simpa using hk⟩
      rw [if_pos this, if_pos h, List.map_map]
      refine List.map_congr_left (fun a _ => ?_)
      by_cases ha : a.1 = k <;> simp [ha]
    · have : ¬ d.any (fun e => decide (e.1 = k)) = true := by
        intro hc
        obtain ⟨a, ha, hk⟩ := List.any_eq_true.1 hc
        exact h (List.mem_map.2 ⟨a, ha, by simpa using hk⟩)
      rw [if_neg this, if_neg h, List.map_append]
      rfl
  · unfold erase
    rw [List.filter_map]
    rfl

/-- **C203, what goes wrong.** Other calls that read or change are not told of, so that who has heard everything is wrong about the content as soon as
one of them changes something; a copy is refused. -/
theorem C203_fails_unheard (raises : Note K V → Bool) (s : State K V) (c : Call K V) (hc : ¬ WdTold c) :
    (call raises s c).2.log = s.log ∧
      (∀ m : K → Option V, entry s.entries = s.log.foldl wdHeard m → wdPlain (entry s.entries) c ≠ entry s.entries →
        entry (call raises s c).2.entries ≠ (call raises s c).2.log.foldl wdHeard m) ∧
      (c = .copy → (call raises s c).1 = .typeError) := by
  have hl : (call raises s c).2.log = s.log := by
    cases c with
    | getitem k => exact absurd trivial hc
    | setitem k v => exact absurd trivial hc
    | delitem k => exact absurd trivial hc
    | get k v => rfl
    | setdefault k v => simp only [call]; cases entry s.entries k <;> rfl
    | pop k => simp only [call]; cases entry s.entries k <;> rfl
    | popOr k v => simp only [call]; cases entry s.entries k <;> rfl
    | update items => rfl
    | copy => rfl
  refine ⟨hl, fun m hm hne => ?_, fun e => by rw [e]; rfl⟩
  rw [hl, ← hm, (C203_plain raises s c).1]
  exact hne

example : wdPlain (entry (make [("a", 1)]).entries) (.pop "a") ≠ entry (make [("a", 1)]).entries := by
  intro h
  exact absurd (congrFun h "a") (by decide)

end Larch.Props
