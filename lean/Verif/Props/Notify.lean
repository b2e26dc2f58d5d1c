import Verif.Model.Notify
import Mathlib.Data.Rat.Defs
import Mathlib.Algebra.Order.Field.Rat

/-!
# C188: the data works with the values of the parameter frame
-/

set_option linter.unusedSectionVars false

namespace Larch.Props

open Larch.Notify

variable {K : Type} [DecidableEq K]

/-- The data has the values of the frame. -/
def InUse (s : State K) : Prop := s.used.map (fun r => (r.name, r.value)) = s.frame.map (fun r => (r.name, r.value))

/-- A history of setters, batches that end without exceptions, and evaluations outside of batches; `n` is the number of batches open before it. -/
def Orderly : Nat → List (Op K) → Prop
  | _, [] => True
  | n, .setter _ :: ops => Orderly n ops
  | n, .enter :: ops => Orderly (n + 1) ops
  | n, .leave raised :: ops => raised = false ∧ 0 < n ∧ Orderly (n - 1) ops
  | n, .evaluate _ :: ops => n = 0 ∧ Orderly n ops
  | n, .attach :: ops => n = 0 ∧ Orderly n ops
  | _, .silent _ :: _ => False

/-- The number of batches open after a history. -/
def openAfter (n : Nat) (ops : List (Op K)) : Nat :=
  ops.foldl (fun k o => match o with
    | .enter => k + 1
    | .leave _ => k - 1
    | _ => k) n

theorem nt_arrayEqual {p q : List (String × Option K)} (h : arrayEqual p q = true) : p = q := by
  unfold arrayEqual at h
  rw [Bool.and_eq_true, Bool.and_eq_true, decide_eq_true_eq, decide_eq_true_eq] at h
  obtain ⟨⟨h1, h2⟩, h3⟩ := h
  induction p generalizing q with
  | nil => cases q with
    | nil => rfl
    | cons e q => simp at h1
  | cons d p ih =>
    cases q with
    | nil => simp at h1
    | cons e q =>
      rw [List.zip_cons_cons, List.all_cons, Bool.and_eq_true] at h2
      rw [List.map_cons, List.map_cons, List.cons.injEq] at h3
      rw [ih (q := q) h3.2 (by simpa using h1) h2.2]
      congr 1
      refine Prod.ext h3.1 ?_
      have h4 := h2.1
      unfold sameNumber at h4
      cases hd : d.2 with
      | none => rw [hd] at h4; simp at h4
      | some x =>
        cases he : e.2 with
        | none => rw [hd, he] at h4; simp at h4
        | some y => rw [hd, he] at h4; simpa using h4

/-- What holds between operations. -/
structure NtInv (s : State K) : Prop where
  prior : s.prior = some (snapshot s.used)
  here : s.lock = 0 → InUse s

theorem nt_check {s : State K} (hp : s.prior = some (snapshot s.used)) : NtInv (check s) ∧ (check s).lock = s.lock := by
  unfold check
  by_cases hl : 0 < s.lock
  · rw [if_pos hl]
    exact ⟨⟨hp, fun h => absurd h (by omega)⟩, rfl⟩
  · rw [if_neg hl]
    by_cases hc : s.prior.any (fun p => arrayEqual p (snapshot s.frame)) = true
    · rw [if_pos hc]
      refine ⟨⟨hp, fun _ => ?_⟩, rfl⟩
      rw [hp, Option.any_some] at hc
      exact nt_arrayEqual hc
    · rw [if_neg hc]
      exact ⟨⟨rfl, fun _ => rfl⟩, rfl⟩

theorem nt_step {s : State K} (hi : NtInv s) (o : Op K) (ops : List (Op K)) (ho : Orderly s.lock (o :: ops)) :
    NtInv (step s o) ∧ Orderly (step s o).lock ops ∧ (step s o).lock = openAfter s.lock [o] := by
  cases o with
  | setter g =>
    obtain ⟨h1, h2⟩ := nt_check (s := { s with frame := g s.frame }) hi.prior
    exact ⟨h1, by show Orderly (check _).lock ops; rw [h2]; exact ho, h2⟩
  | silent g => exact absurd ho (by simp [Orderly])
  | enter => exact ⟨⟨hi.prior, fun h => absurd h (Nat.succ_ne_zero _)⟩, ho, rfl⟩
  | leave raised =>
    obtain ⟨rfl, h0, ho⟩ := ho
    obtain ⟨h1, h2⟩ := nt_check (s := { s with lock := s.lock - 1 }) hi.prior
    refine ⟨?_, ?_, ?_⟩
    · exact h1
    · show Orderly (check { s with lock := s.lock - 1 }).lock ops; rw [h2]; exact ho
    · exact h2
  | evaluate g =>
    obtain ⟨h0, ho⟩ := ho
    obtain ⟨h1, h2⟩ := nt_check (s := { s with frame := g s.frame }) hi.prior
    have h3 : (check { s with frame := g s.frame }).lock = 0 := h2.trans h0
    have h4 := h1.here h3
    refine ⟨⟨?_, fun _ => rfl⟩, ?_, h2⟩
    · show (check { s with frame := g s.frame }).prior = some (snapshot (check { s with frame := g s.frame }).frame)
      rw [h1.prior]
      exact congrArg some h4
    · show Orderly (check { s with frame := g s.frame }).lock ops
      rw [h2]; exact ho
  | attach =>
    obtain ⟨h0, ho⟩ := ho
    refine ⟨⟨?_, fun _ => rfl⟩, ho, rfl⟩
    show s.prior = some (snapshot s.frame)
    rw [hi.prior]
    exact congrArg some (hi.here h0)

theorem nt_run (ops : List (Op K)) : ∀ s : State K, NtInv s → Orderly s.lock ops → NtInv (run s ops) ∧ (run s ops).lock = openAfter s.lock ops := by
  induction ops with
  | nil => intro s hi _; exact ⟨hi, rfl⟩
  | cons o ops ih =>
    intro s hi ho
    obtain ⟨h1, h2, h3⟩ := nt_step hi o ops ho
    obtain ⟨h4, h5⟩ := ih _ h1 h2
    refine ⟨h4, ?_⟩
    show (run (step s o) ops).lock = _
    rw [h5, h3]; rfl

/-- **C188 (after every orderly history).** Whatever setters have been used, in or out of batches, and whatever has been evaluated outside of batches: when no batch is
open the data has the values of the frame. -/
theorem C188_in_use (f : List (Row K)) (ops : List (Op K)) (h : Orderly 0 ops) (hb : openAfter 0 ops = 0) : InUse (run (start f) ops) := by
  obtain ⟨h1, h2⟩ := nt_run ops (start f) ⟨rfl, fun _ => rfl⟩ h
  exact h1.here (h2.trans hb)

/-- **C188 (in a batch).** While a batch is open, setters do not reach the data. -/
theorem C188_batch (s : State K) (hl : 0 < s.lock) (gs : List (List (Row K) → List (Row K))) : (run s (gs.map Op.setter)).used = s.used := by
  have key : ∀ s : State K, 0 < s.lock → (run s (gs.map Op.setter)).used = s.used ∧ (run s (gs.map Op.setter)).lock = s.lock := by
    induction gs with
    | nil => intro s _; exact ⟨rfl, rfl⟩
    | cons g gs ih =>
      intro s hl
      have e : step s (.setter g) = { s with frame := g s.frame } := if_pos hl
      have := ih { s with frame := g s.frame } hl
      show (run (step s (.setter g)) (gs.map Op.setter)).used = _ ∧ (run (step s (.setter g)) (gs.map Op.setter)).lock = _
      rw [e]; exact this
  exact (key s hl).1

/-- **C188 (evaluations).** An evaluation always uses the values and flags of the frame, whatever happened before. -/
theorem C188_evaluate (s : State K) (g : List (Row K) → List (Row K)) : (step s (.evaluate g)).used = (step s (.evaluate g)).frame ∧
    (step s (.evaluate g)).frame = g s.frame := by
  refine ⟨rfl, ?_⟩
  show (check { s with frame := g s.frame }).frame = _
  unfold check
  split
  · rfl
  · split <;> rfl

/-- Sets the value of the parameter `a`. -/
def toValue (v : Int) (f : List (Row Int)) : List (Row Int) := f.map (fun r => if r.name = "a" then { r with value := some v } else r)

/-- Two parameters. -/
def twoRows : List (Row Int) := [⟨"a", some 0, false⟩, ⟨"b", some 7, false⟩]

example : Orderly 0 [.setter (toValue 5), .enter, .setter (toValue 6), .enter, .setter (toValue 1), .leave false, .leave false, .evaluate (toValue 3)] ∧
    openAfter 0 [.setter (toValue 5), .enter, .setter (toValue 6), .enter, .setter (toValue 1), .leave false, .leave false, .evaluate (toValue 3)] = 0 ∧
    (run (start twoRows) [.enter, .setter (toValue 6)]).used = twoRows ∧
    (run (start twoRows) [.enter, .setter (toValue 6), .leave false]).used = [⟨"a", some 6, false⟩, ⟨"b", some 7, false⟩] := by
  refine ⟨by simp [Orderly], rfl, by decide +kernel, by decide +kernel⟩

/-- **C188 fails for an evaluation in a batch**: a value that is changed, used in an evaluation, and set back is not noticed at the end of the batch; the data keeps the value
of the evaluation. -/
theorem C188_fails_evaluate_in_batch :
    (run (start twoRows) [.enter, .setter (toValue 5), .evaluate id, .setter (toValue 0), .leave false]).frame = twoRows ∧
    (run (start twoRows) [.enter, .setter (toValue 5), .evaluate id, .setter (toValue 0), .leave false]).used = toValue 5 twoRows := by decide +kernel

/-- **C188 fails for new data attached in a batch**, for the same reason. -/
theorem C188_fails_attach_in_batch :
    (run (start twoRows) [.enter, .setter (toValue 5), .attach, .setter (toValue 0), .leave false]).used = toValue 5 twoRows ∧
    (run (start twoRows) [.enter, .setter (toValue 5), .attach, .setter (toValue 0), .leave false]).frame = twoRows := by decide +kernel

/-- **C188 fails for exceptions**: when a batch is left by an exception, its changes do not reach the data, although they are in the frame. -/
theorem C188_fails_exception : (run (start twoRows) [.enter, .setter (toValue 5), .leave true]).frame = toValue 5 twoRows ∧
    (run (start twoRows) [.enter, .setter (toValue 5), .leave true]).used = twoRows ∧ (run (start twoRows) [.enter, .setter (toValue 5), .leave true]).lock = 0 := by decide +kernel

/-- **C188 fails for holdfast flags**: a setter that changes flags only is not noticed (if no value is NaN). -/
theorem C188_fails_holdfast (f : List (Row K)) (g : List (Row K) → List (Row K)) (hn : ∀ r ∈ f, r.value ≠ none) (hg : snapshot (g f) = snapshot f) :
    (run (start f) [.setter g]).used = f ∧ (run (start f) [.setter g]).frame = g f := by
  have heq : arrayEqual (snapshot f) (snapshot (g f)) = true := by
    rw [hg]
    unfold arrayEqual
    have : ((snapshot f).zip (snapshot f)).all (fun e => sameNumber e.1.2 e.2.2) = true := by
      clear hg
      induction f with
      | nil => rfl
      | cons r f ih =>
        show (((r.name, r.value) :: snapshot f).zip ((r.name, r.value) :: snapshot f)).all _ = true
        rw [List.zip_cons_cons, List.all_cons, ih (fun q hq => hn q (List.mem_cons_of_mem _ hq)), Bool.and_true]
        cases h : r.value with
        | none => exact absurd h (hn r List.mem_cons_self)
        | some x => simp [sameNumber]
    simp [this]
  have e : step (start f) (.setter g) = { start f with frame := g f } := by
    show check { start f with frame := g f } = _
    unfold check
    rw [if_neg (by simp [start])]
    exact if_pos (by simpa [start] using heq)
  show (step (start f) (.setter g)).used = f ∧ (step (start f) (.setter g)).frame = g f
  rw [e]; exact ⟨rfl, rfl⟩

example : (∀ r ∈ twoRows, r.value ≠ none) ∧ snapshot (twoRows.map (fun r => { r with hold := true })) = snapshot twoRows := by decide +kernel

/-- **C188 fails for direct edits**: one that is used by new data and undone with a setter is not noticed. -/
theorem C188_fails_direct : (run (start twoRows) [.silent (toValue 5), .attach, .setter (toValue 0)]).used = toValue 5 twoRows ∧
    (run (start twoRows) [.silent (toValue 5), .attach, .setter (toValue 0)]).frame = twoRows := by decide +kernel

end Larch.Props
