import Verif.Model.RateLimit
import Mathlib.Tactic.Linarith
import Mathlib.Tactic.Ring
import Mathlib.Tactic.NormNum
import Mathlib.Tactic.Push
/-!
# C152: rate limiters

`BlockingRateLimiter` lets `next` return at most once per interval, however many threads use it and
however they are scheduled, and never locks up; `NonBlockingRateLimiter` does so within one thread.
-/

namespace Larch.Props

open Larch.RateLimit

/-! ## Specification -/

/-- Among times listed newest first, any later one is at least `interval` after any earlier one. -/
def Spaced (interval : ℚ) (times : List ℚ) : Prop :=
  times.Pairwise fun later earlier => earlier + interval ≤ later

/-! ## The blocking limiter -/

/-- How many threads have been granted a yield and are about to return. -/
structure BInv (interval start : ℚ) (s : Blocking) (leavers : List Nat) : Prop where
  clock : start ≤ s.now
  spaced : Spaced interval s.grants
  next : ∀ g ∈ s.grants, g + interval ≤ s.nextYield
  past : ∀ g ∈ s.grants, start ≤ g ∧ g ≤ s.now
  stamp : ∀ i t, s.pc i = .stamped t → s.nextYield ≤ t ∧ t ≤ s.now ∧ start ≤ t
  sleep : ∀ i w, s.pc i = .asleep w → w = s.nextYield
  hold : ∀ i, (s.pc i = .holds ∨ (∃ w, s.pc i = .asleep w) ∨ ∃ t, s.pc i = .stamped t) ↔ s.holder = some i
  leave : ∀ i, (∃ t, s.pc i = .leaving t) ↔ i ∈ leavers
  nodup : leavers.Nodup
  count : s.yields.length + leavers.length = s.grants.length

theorem rt_move_self (pc : Nat → Pc) (i : Nat) (p : Pc) : move pc i p i = p := by simp [move]

theorem rt_move_ne (pc : Nat → Pc) (i j : Nat) (p : Pc) (h : j ≠ i) : move pc i p j = pc j := by simp [move, h]

theorem rt_inv_init (interval start : ℚ) : BInv interval start (blockingInit start) [] := by
  refine ⟨le_refl _, List.Pairwise.nil, fun g hg => (by cases hg), fun g hg => (by cases hg), ?_, ?_, ?_, ?_, List.nodup_nil, rfl⟩
  all_goals simp [blockingInit]

theorem rt_inv_step (interval start : ℚ) (hint : 0 ≤ interval) (s u : Blocking) (L : List Nat) (hi : BInv interval start s L)
    (h : BStep interval s u) : ∃ L', BInv interval start u L' := by
  obtain ⟨clock, spaced, next, past, stamp, sleep, hold, leave, nodup, count⟩ := hi
  cases h with
  | tick d hd =>
    refine ⟨L, by simpa using by linarith, spaced, next, fun g hg => ⟨(past g hg).1, by have := (past g hg).2; simp only; linarith⟩,
      fun i t ht => ?_, sleep, hold, leave, nodup, count⟩
    obtain ⟨h1, h2, h3⟩ := stamp i t ht
    exact ⟨h1, by simp only; linarith, h3⟩
  | call i h =>
    have ho : ∀ j, j ≠ i → move s.pc i .wants j = s.pc j := fun j hj => rt_move_ne _ _ _ _ hj
    refine ⟨L, clock, spaced, next, past, ?_, ?_, ?_, ?_, nodup, count⟩
    all_goals intro j
    · intro t ht
      by_cases hj : j = i
      · subst hj; simp [move] at ht
      · exact stamp j t (by rw [← ho j hj]; exact ht)
    · intro t ht
      by_cases hj : j = i
      · subst hj; simp [move] at ht
      · exact sleep j t (by rw [← ho j hj]; exact ht)
    · by_cases hj : j = i
      · subst hj
        have := hold j
        simp only [h, reduceCtorEq, exists_false, or_self, false_iff] at this
        simpa [move] using this
      · simp only [ho j hj]; exact hold j
    · by_cases hj : j = i
      · subst hj
        have := leave j
        simp only [h, reduceCtorEq, exists_false, false_iff] at this
        simpa [move] using this
      · simp only [ho j hj]; exact leave j
  | acquire i h hl =>
    have ho : ∀ j, j ≠ i → move s.pc i .holds j = s.pc j := fun j hj => rt_move_ne _ _ _ _ hj
    refine ⟨L, clock, spaced, next, past, ?_, ?_, ?_, ?_, nodup, count⟩
    all_goals intro j
    · intro t ht
      by_cases hj : j = i
      · subst hj; simp [move] at ht
      · exact stamp j t (by rw [← ho j hj]; exact ht)
    · intro t ht
      by_cases hj : j = i
      · subst hj; simp [move] at ht
      · exact sleep j t (by rw [← ho j hj]; exact ht)
    · by_cases hj : j = i
      · subst hj; simp [move]
      · simp only [ho j hj]
        rw [hold j, hl]
        simp [Ne.symm hj]
    · by_cases hj : j = i
      · subst hj
        have := leave j
        simp only [h, reduceCtorEq, exists_false, false_iff] at this
        simpa [move] using this
      · simp only [ho j hj]; exact leave j
  | early i h ht' =>
    have hhold : s.holder = some i := (hold i).1 (Or.inl h)
    have ho : ∀ j, j ≠ i → move s.pc i (.asleep (s.now + (s.nextYield - s.now))) j = s.pc j := fun j hj => rt_move_ne _ _ _ _ hj
    refine ⟨L, clock, spaced, next, past, ?_, ?_, ?_, ?_, nodup, count⟩
    all_goals intro j
    · intro t ht
      by_cases hj : j = i
      · subst hj; simp [move] at ht
      · exact stamp j t (by rw [← ho j hj]; exact ht)
    · intro t ht
      by_cases hj : j = i
      · subst hj
        simp only [move, if_true, Pc.asleep.injEq] at ht
        rw [← ht]; simp
      · exact sleep j t (by rw [← ho j hj]; exact ht)
    · by_cases hj : j = i
      · subst hj; simp [move, hhold]
      · simp only [ho j hj]; exact hold j
    · by_cases hj : j = i
      · subst hj
        have := leave j
        simp only [h, reduceCtorEq, exists_false, false_iff] at this
        simpa [move] using this
      · simp only [ho j hj]; exact leave j
  | onTime i h ht' =>
    have hhold : s.holder = some i := (hold i).1 (Or.inl h)
    have ho : ∀ j, j ≠ i → move s.pc i (.stamped s.now) j = s.pc j := fun j hj => rt_move_ne _ _ _ _ hj
    refine ⟨L, clock, spaced, next, past, ?_, ?_, ?_, ?_, nodup, count⟩
    all_goals intro j
    · intro t ht
      by_cases hj : j = i
      · subst hj
        simp only [move, if_true, Pc.stamped.injEq] at ht
        rw [← ht]; exact ⟨not_lt.1 ht', le_refl _, clock⟩
      · exact stamp j t (by rw [← ho j hj]; exact ht)
    · intro t ht
      by_cases hj : j = i
      · subst hj; simp [move] at ht
      · exact sleep j t (by rw [← ho j hj]; exact ht)
    · by_cases hj : j = i
      · subst hj; simp [move, hhold]
      · simp only [ho j hj]; exact hold j
    · by_cases hj : j = i
      · subst hj
        have := leave j
        simp only [h, reduceCtorEq, exists_false, false_iff] at this
        simpa [move] using this
      · simp only [ho j hj]; exact leave j
  | wake i w h ht' =>
    have hhold : s.holder = some i := (hold i).1 (Or.inr (Or.inl ⟨w, h⟩))
    have hw := sleep i w h
    have ho : ∀ j, j ≠ i → move s.pc i (.stamped s.now) j = s.pc j := fun j hj => rt_move_ne _ _ _ _ hj
    refine ⟨L, clock, spaced, next, past, ?_, ?_, ?_, ?_, nodup, count⟩
    all_goals intro j
    · intro t ht
      by_cases hj : j = i
      · subst hj
        simp only [move, if_true, Pc.stamped.injEq] at ht
        rw [← ht]; exact ⟨hw ▸ ht', le_refl _, clock⟩
      · exact stamp j t (by rw [← ho j hj]; exact ht)
    · intro t ht
      by_cases hj : j = i
      · subst hj; simp [move] at ht
      · exact sleep j t (by rw [← ho j hj]; exact ht)
    · by_cases hj : j = i
      · subst hj; simp [move, hhold]
      · simp only [ho j hj]; exact hold j
    · by_cases hj : j = i
      · subst hj
        have := leave j
        simp only [h, reduceCtorEq, exists_false, false_iff] at this
        simpa [move] using this
      · simp only [ho j hj]; exact leave j
  | store i t h =>
    have hhold : s.holder = some i := (hold i).1 (Or.inr (Or.inr ⟨t, h⟩))
    obtain ⟨h1, h2, h3⟩ := stamp i t h
    have ho : ∀ j, j ≠ i → move s.pc i (.leaving t) j = s.pc j := fun j hj => rt_move_ne _ _ _ _ hj
    have hnoone : ∀ j, j ≠ i → ¬ (s.pc j = .holds ∨ (∃ w, s.pc j = .asleep w) ∨ ∃ t, s.pc j = .stamped t) := by
      intro j hj hc
      have := (hold j).1 hc
      rw [hhold] at this
      exact hj (Option.some.inj this).symm
    have hiL : i ∉ L := by
      intro hc
      obtain ⟨t', ht'⟩ := (leave i).2 hc
      rw [h] at ht'; cases ht'
    refine ⟨i :: L, clock, ?_, ?_, ?_, ?_, ?_, ?_, ?_, List.nodup_cons.2 ⟨hiL, nodup⟩, by simp only [List.length_cons]; omega⟩
    · exact List.pairwise_cons.2 ⟨fun g hg => le_trans (next g hg) h1, spaced⟩
    · intro g hg
      rcases List.mem_cons.1 hg with rfl | hg
      · exact le_refl _
      · -- the interval before the new grant
        have := next g hg
        simp only; linarith
    · intro g hg
      rcases List.mem_cons.1 hg with rfl | hg
      · exact ⟨h3, h2⟩
      · exact past g hg
    all_goals intro j
    · intro t' ht'
      by_cases hj : j = i
      · subst hj; simp [move] at ht'
      · exact absurd (Or.inr (Or.inr ⟨t', by rw [← ho j hj]; exact ht'⟩)) (hnoone j hj)
    · intro t' ht'
      by_cases hj : j = i
      · subst hj; simp [move] at ht'
      · exact absurd (Or.inr (Or.inl ⟨t', by rw [← ho j hj]; exact ht'⟩)) (hnoone j hj)
    · by_cases hj : j = i
      · subst hj; simp [move]
      · simp only [ho j hj]
        simp only [reduceCtorEq, iff_false]
        exact hnoone j hj
    · by_cases hj : j = i
      · subst hj; simp [move]
      · simp only [ho j hj, List.mem_cons, hj, false_or]; exact leave j
  | ret i t h =>
    have hiL : i ∈ L := (leave i).1 ⟨t, h⟩
    have hnh : ¬ s.holder = some i := by rw [← hold i]; simp [h]
    have ho : ∀ j, j ≠ i → move s.pc i .idle j = s.pc j := fun j hj => rt_move_ne _ _ _ _ hj
    have hlen := List.length_erase_of_mem hiL
    have hpos := List.length_pos_of_mem hiL
    refine ⟨L.erase i, clock, spaced, next, past, ?_, ?_, ?_, ?_, nodup.erase i, by simp only [List.length_cons]; omega⟩
    all_goals intro j
    · intro t' ht'
      by_cases hj : j = i
      · subst hj; simp [move] at ht'
      · exact stamp j t' (by rw [← ho j hj]; exact ht')
    · intro t' ht'
      by_cases hj : j = i
      · subst hj; simp [move] at ht'
      · exact sleep j t' (by rw [← ho j hj]; exact ht')
    · by_cases hj : j = i
      · subst hj; simpa [move] using hnh
      · simp only [ho j hj]; exact hold j
    · by_cases hj : j = i
      · subst hj; simp [move, nodup.mem_erase_iff]
      · simp only [ho j hj, nodup.mem_erase_iff, hj, ne_eq, not_false_eq_true, true_and]; exact leave j

theorem rt_inv_run (interval start : ℚ) (hint : 0 ≤ interval) (s : Blocking) (h : BRun interval (blockingInit start) s) :
    ∃ L, BInv interval start s L := by
  generalize h0 : blockingInit start = s0 at h
  induction h with
  | refl => subst h0; exact ⟨[], rt_inv_init interval start⟩
  | step u v _ hs ih =>
    obtain ⟨L, hL⟩ := ih
    exact rt_inv_step interval start hint u v L hL hs

theorem rt_count (interval lo hi : ℚ) : ∀ (times : List ℚ), Spaced interval times → (∀ t ∈ times, lo ≤ t ∧ t ≤ hi) →
    times ≠ [] → ((times.length : ℚ) - 1) * interval ≤ hi - lo := by
  have key : ∀ (times : List ℚ) (t : ℚ), Spaced interval (t :: times) → (∀ x ∈ t :: times, lo ≤ x) →
      (times.length : ℚ) * interval ≤ t - lo := by
    intro times
    induction times with
    | nil => intro t _ h; have := h t (by simp); simpa using this
    | cons x rest ih =>
      intro t hs h
      have h1 := ih x (List.Pairwise.of_cons hs) (fun y hy => h y (by simp only [List.mem_cons] at hy ⊢; exact Or.inr hy))
      have h2 : x + interval ≤ t := (List.pairwise_cons.1 hs).1 x (by simp)
      simp only [List.length_cons, Nat.cast_add, Nat.cast_one]
      linarith
  intro times hs hb hne
  cases times with
  | nil => exact absurd rfl hne
  | cons t rest =>
    have := key rest t hs (fun x hx => (hb x hx).1)
    have h2 := (hb t (by simp)).2
    simp only [List.length_cons, Nat.cast_add, Nat.cast_one]
    linarith

/-- C152: at any moment of any run of any number of threads, `next` has returned at most once per
interval since the limiter was made, counting one at the start. -/
theorem C152_blocking_rate (interval start : ℚ) (s : Blocking) (h : BRun interval (blockingInit start) s)
    (hpos : 0 < interval) (hy : s.yields ≠ []) :
    ((s.yields.length : ℚ) - 1) * interval ≤ s.now - start := by
  obtain ⟨L, inv⟩ := rt_inv_run interval start hpos.le s h
  have hlen : s.yields.length ≤ s.grants.length := by have := inv.count; omega
  have hne : s.grants ≠ [] := by
    intro hc
    rw [hc] at hlen
    exact hy (List.eq_nil_of_length_eq_zero (by simpa using hlen))
  have h1 := rt_count interval start s.now s.grants inv.spaced inv.past hne
  have h2 : (s.yields.length : ℚ) ≤ s.grants.length := by exact_mod_cast hlen
  nlinarith

/-- C152: the clock readings for which calls of `next` were let through are at least the interval
apart, and each call which returned was let through by one of them. -/
theorem C152_blocking_grants_spaced (interval start : ℚ) (hpos : 0 < interval) (s : Blocking) (h : BRun interval (blockingInit start) s) :
    Spaced interval s.grants ∧ s.yields.length ≤ s.grants.length ∧ ∀ g ∈ s.grants, start ≤ g ∧ g ≤ s.now := by
  obtain ⟨L, inv⟩ := rt_inv_run interval start hpos.le s h
  exact ⟨inv.spaced, by have := inv.count; omega, inv.past⟩

theorem rt_trans (interval : ℚ) (a b c : Blocking) (h1 : BRun interval a b) (h2 : BRun interval b c) :
    BRun interval a c := by
  induction h2 with
  | refl => exact h1
  | step u v _ hs ih => exact .step _ _ _ ih hs

/-- From the lock on, a thread comes to return. -/
theorem rt_finish (interval : ℚ) (s : Blocking) (i : Nat)
    (h : s.pc i = .holds ∨ (∃ w, s.pc i = .asleep w) ∨ ∃ t, s.pc i = .stamped t) :
    ∃ u, BRun interval s u ∧ u.holder = none ∧ (∀ j, j ≠ i → u.pc j = s.pc j) ∧ ∃ t, u.pc i = .leaving t := by
  have fromStamp : ∀ (s : Blocking) (t : ℚ), s.pc i = .stamped t →
      ∃ u, BRun interval s u ∧ u.holder = none ∧ (∀ j, j ≠ i → u.pc j = s.pc j) ∧ ∃ t, u.pc i = .leaving t := by
    intro s t ht
    refine ⟨_, .step _ _ _ (.refl s) (.store s i t ht), rfl, fun j hj => rt_move_ne _ _ _ _ hj, t, rt_move_self _ _ _⟩
  have fromSleep : ∀ (s : Blocking) (w : ℚ), s.pc i = .asleep w →
      ∃ u, BRun interval s u ∧ u.holder = none ∧ (∀ j, j ≠ i → u.pc j = s.pc j) ∧ ∃ t, u.pc i = .leaving t := by
    intro s w hw
    let s1 : Blocking := { s with now := s.now + max 0 (w - s.now) }
    have h1 : BStep interval s s1 := .tick s _ (le_max_left _ _)
    have h2 : w ≤ s1.now := by have := le_max_right 0 (w - s.now); simp only [s1]; linarith
    have h3 : BStep interval s1 { s1 with pc := move s1.pc i (.stamped s1.now) } := .wake s1 i w hw h2
    obtain ⟨u, hu, hn, hj, ht⟩ := fromStamp { s1 with pc := move s1.pc i (.stamped s1.now) } s1.now (rt_move_self _ _ _)
    refine ⟨u, rt_trans _ _ _ _ (.step _ _ _ (.step _ _ _ (.refl s) h1) h3) hu, hn, fun j hne => ?_, ht⟩
    rw [hj j hne]
    exact rt_move_ne _ _ _ _ hne
  rcases h with h | ⟨w, h⟩ | ⟨t, h⟩
  · by_cases hlt : s.now < s.nextYield
    · have h1 := BStep.early (interval := interval) s i h hlt
      obtain ⟨u, hu, hn, hj, ht⟩ := fromSleep { s with pc := move s.pc i (.asleep (s.now + (s.nextYield - s.now))) } (s.now + (s.nextYield - s.now)) (rt_move_self _ _ _)
      refine ⟨u, rt_trans _ _ _ _ (.step _ _ _ (.refl s) h1) hu, hn, fun j hne => ?_, ht⟩
      rw [hj j hne]
      exact rt_move_ne _ _ _ _ hne
    · have h1 := BStep.onTime (interval := interval) s i h hlt
      obtain ⟨u, hu, hn, hj, ht⟩ := fromStamp { s with pc := move s.pc i (.stamped s.now) } s.now (rt_move_self _ _ _)
      refine ⟨u, rt_trans _ _ _ _ (.step _ _ _ (.refl s) h1) hu, hn, fun j hne => ?_, ht⟩
      rw [hj j hne]
      exact rt_move_ne _ _ _ _ hne
  · exact fromSleep s w h
  · exact fromStamp s t h

/-- C152: the limiter never locks up: wherever a run has got to, every thread inside `next` can
still come to return. -/
theorem C152_blocking_never_stuck (interval start : ℚ) (hpos : 0 < interval) (s : Blocking) (h : BRun interval (blockingInit start) s)
    (i : Nat) (hi : s.pc i ≠ .idle) :
    ∃ u v, BRun interval s u ∧ BStep interval u v ∧ u.pc i ≠ .idle ∧ v.pc i = .idle ∧ v.yields = v.now :: u.yields := by
  obtain ⟨L, inv⟩ := rt_inv_run interval start hpos.le s h
  have last : ∀ (u : Blocking) (t : ℚ), BRun interval s u → u.pc i = .leaving t →
      ∃ u v, BRun interval s u ∧ BStep interval u v ∧ u.pc i ≠ .idle ∧ v.pc i = .idle ∧ v.yields = v.now :: u.yields := by
    intro u t hu ht
    exact ⟨u, _, hu, .ret u i t ht, by rw [ht]; exact fun h => (by cases h), rt_move_self _ _ _, rfl⟩
  have viaLock : ∀ (u : Blocking), BRun interval s u → (u.pc i = .holds ∨ (∃ w, u.pc i = .asleep w) ∨ ∃ t, u.pc i = .stamped t) →
      ∃ u v, BRun interval s u ∧ BStep interval u v ∧ u.pc i ≠ .idle ∧ v.pc i = .idle ∧ v.yields = v.now :: u.yields := by
    intro u hu hc
    obtain ⟨w, hw, _, _, t, ht⟩ := rt_finish interval u i hc
    exact last w t (rt_trans _ _ _ _ hu hw) ht
  have viaWants : ∀ (u : Blocking), BRun interval s u → u.pc i = .wants → u.holder = none →
      ∃ u v, BRun interval s u ∧ BStep interval u v ∧ u.pc i ≠ .idle ∧ v.pc i = .idle ∧ v.yields = v.now :: u.yields := by
    intro u hu hw hn
    exact viaLock _ (.step _ _ _ hu (.acquire u i hw hn)) (Or.inl (rt_move_self _ _ _))
  cases hp : s.pc i with
  | idle => exact absurd hp hi
  | holds => exact viaLock s (.refl s) (Or.inl hp)
  | asleep w => exact viaLock s (.refl s) (Or.inr (Or.inl ⟨w, hp⟩))
  | stamped t => exact viaLock s (.refl s) (Or.inr (Or.inr ⟨t, hp⟩))
  | leaving t => exact last s t (.refl s) hp
  | wants =>
    cases hh : s.holder with
    | none => exact viaWants s (.refl s) hp hh
    | some j =>
      have hc := (inv.hold j).2 hh
      have hji : i ≠ j := by
        rintro rfl
        rw [hp] at hc
        rcases hc with h | ⟨w, h⟩ | ⟨t, h⟩ <;> cases h
      obtain ⟨u, hu, hn, hj, _⟩ := rt_finish interval s j hc
      exact viaWants u hu (by rw [hj i hji, hp]) hn

/-! ## The non-blocking limiter -/

/-- The time of the next green light after the given starts. -/
def greenAfter (interval : ℚ) : List ℚ → ℚ
  | [] => 0
  | g :: _ => g + interval

/-- What holds of the non-blocking limiter used by one thread.  `stamps` are the clock readings of
the calls which started the function. -/
structure NInv (interval start : ℚ) (me : Nat) (s : NonBlocking) (stamps : List ℚ) : Prop where
  clock : start ≤ s.now
  spaced : Spaced interval stamps
  next : ∀ g ∈ stamps, g + interval ≤ s.nextGreen
  green : s.nextGreen = greenAfter interval stamps
  past : ∀ g ∈ stamps, start ≤ g ∧ g ≤ s.now
  pass : ∀ t, s.pc me = .passed t → s.nextGreen ≤ t ∧ t ≤ s.now ∧ start ≤ t
  count : stamps.length = s.runs.length
  turn : ∀ r ∈ s.refused, ∃ g ∈ stamps, g ≤ r ∧ r < g + interval

theorem rt_ninv_run (interval start : ℚ) (hpos : 0 < interval) (hs0 : 0 ≤ start) (me : Nat) (s : NonBlocking)
    (h : NRun interval (fun j => j = me) (nonBlockingInit start) s) : ∃ stamps, NInv interval start me s stamps := by
  generalize h0 : nonBlockingInit start = s0 at h
  induction h with
  | refl =>
    subst h0
    exact ⟨[], le_refl _, List.Pairwise.nil, fun g hg => (by cases hg), rfl, fun g hg => (by cases hg), fun t ht => (by cases ht), rfl, fun r hr => (by cases hr)⟩
  | step u v o _ ho hs ih =>
    obtain ⟨G, clock, spaced, next, green, past, pass, count, turn⟩ := ih
    cases hs with
    | tick _ d hd =>
      refine ⟨G, by simp only; linarith, spaced, next, green, fun g hg => ⟨(past g hg).1, by have := (past g hg).2; simp only; linarith⟩, fun t ht => ?_, count, turn⟩
      obtain ⟨h1, h2, h3⟩ := pass t ht
      exact ⟨h1, by simp only; linarith, h3⟩
    | pass _ i hp ht =>
      have hi : i = me := ho i (by simp)
      subst hi
      refine ⟨G, clock, spaced, next, green, past, fun t h => ?_, count, turn⟩
      simp only [shift, if_true, Nc.passed.injEq] at h
      rw [← h]
      exact ⟨ht, le_refl _, clock⟩
    | refuse _ i hp ht =>
      have hi : i = me := ho i (by simp)
      subst hi
      refine ⟨G, clock, spaced, next, green, past, pass, count, fun r hr => ?_⟩
      rcases List.mem_cons.1 hr with rfl | hr
      · cases G with
        | nil => rw [greenAfter] at green; rw [green] at ht; exact absurd (le_trans hs0 clock) ht
        | cons g rest =>
          rw [greenAfter] at green
          rw [green] at ht
          exact ⟨g, by simp, (past g (by simp)).2, not_le.1 ht⟩
      · exact turn r hr
    | enter _ i t hp hl =>
      have hi : i = me := ho i (by simp)
      subst hi
      obtain ⟨h1, h2, h3⟩ := pass t hp
      refine ⟨t :: G, clock, List.pairwise_cons.2 ⟨fun g hg => le_trans (next g hg) h1, spaced⟩, ?_, rfl, ?_, ?_, by simp [count], ?_⟩
      · intro g hg
        rcases List.mem_cons.1 hg with rfl | hg
        · exact le_refl _
        · have := next g hg; simp only; linarith
      · intro g hg
        rcases List.mem_cons.1 hg with rfl | hg
        · exact ⟨h3, h2⟩
        · exact past g hg
      · intro t' ht'
        simp [shift] at ht'
      · intro r hr
        obtain ⟨g, hg, hh⟩ := turn r hr
        exact ⟨g, by simp [hg], hh⟩
    | leave _ i hp =>
      have hi : i = me := ho i (by simp)
      subst hi
      refine ⟨G, clock, spaced, next, green, past, fun t h => ?_, count, turn⟩
      simp [shift] at h

/-- C152: used by one thread, a function under `NonBlockingRateLimiter` is started at most once
per interval, whenever it is called. -/
theorem C152_non_blocking_one_thread_partial (interval start : ℚ) (me : Nat) (s : NonBlocking)
    (h : NRun interval (fun j => j = me) (nonBlockingInit start) s) (hpos : 0 < interval) (hs0 : 0 ≤ start)
    (hne : s.runs ≠ []) : ((s.runs.length : ℚ) - 1) * interval ≤ s.now - start := by
  obtain ⟨G, inv⟩ := rt_ninv_run interval start hpos hs0 me s h
  have hG : G ≠ [] := by
    intro hc
    have := inv.count
    rw [hc] at this
    exact hne (List.eq_nil_of_length_eq_zero (by simpa using this.symm))
  have := rt_count interval start s.now G inv.spaced inv.past hG
  rw [inv.count] at this
  exact this

/-- C152: a call is refused only within the interval after an earlier start. -/
theorem C152_non_blocking_refusals (interval start : ℚ) (me : Nat) (s : NonBlocking)
    (h : NRun interval (fun j => j = me) (nonBlockingInit start) s) (hpos : 0 < interval) (hs0 : 0 ≤ start) :
    ∃ checked : List ℚ, checked.length = s.runs.length ∧ Spaced interval checked ∧
      ∀ r ∈ s.refused, ∃ g ∈ checked, g ≤ r ∧ r < g + interval := by
  obtain ⟨G, inv⟩ := rt_ninv_run interval start hpos hs0 me s h
  exact ⟨G, inv.count, inv.spaced, inv.turn⟩

/-- C152 fails: the time is tested before the lock is taken, so two threads may start the function
at the same instant, whatever the interval. -/
theorem C152_fails_two_threads (interval start : ℚ) (hs0 : 0 ≤ start) :
    ∃ s, NRun interval (fun j => j = 0 ∨ j = 1) (nonBlockingInit start) s ∧ s.now = start ∧ s.runs = [start, start] := by
  let s0 := nonBlockingInit start
  have h1 := NStep.pass (interval := interval) s0 0 rfl hs0
  have h2 := NStep.pass (interval := interval) { s0 with pc := shift s0.pc 0 (.passed s0.now) } 1 rfl hs0
  have h3 := NStep.enter (interval := interval) _ 0 start (rfl : ({ s0 with pc := shift (shift s0.pc 0 (.passed s0.now)) 1 (.passed s0.now) } : NonBlocking).pc 0 = .passed start) rfl
  have r3 := NRun.step (who := fun j => j = 0 ∨ j = 1) _ _ _ (some 0) (NRun.step _ _ _ (some 1) (NRun.step _ _ _ (some 0) (NRun.refl s0) (by simp) h1) (by simp) h2) (by simp) h3
  have h4 := NStep.leave (interval := interval) _ 0 (rfl : ({ now := s0.now, nextGreen := start + interval, holder := some 0, pc := shift (shift (shift s0.pc 0 (.passed s0.now)) 1 (.passed s0.now)) 0 .running, runs := s0.now :: s0.runs, refused := s0.refused } : NonBlocking).pc 0 = .running)
  have r4 := NRun.step _ _ _ (some 0) r3 (by simp) h4
  have h5 := NStep.enter (interval := interval) _ 1 start (rfl : ({ now := s0.now, nextGreen := start + interval, holder := none, pc := shift (shift (shift (shift s0.pc 0 (.passed s0.now)) 1 (.passed s0.now)) 0 .running) 0 .idle, runs := s0.now :: s0.runs, refused := s0.refused } : NonBlocking).pc 1 = .passed start) rfl
  exact ⟨_, NRun.step _ _ _ (some 1) r4 (by simp) h5, rfl, rfl⟩

/-- C152 fails: while the function runs the lock is held, so that a call of the limited function
from within itself which passes the test can never enter. -/
theorem C152_fails_call_within (interval : ℚ) (s v : NonBlocking) (i j : Nat) (t : ℚ)
    (hin : s.pc i = .running) (hh : s.holder = some i) (hj : s.pc j = .passed t) (hij : i ≠ j)
    (h : NRun interval (fun k => k = j) s v) : v.pc j = .passed t ∧ v.runs = s.runs := by
  have : v.pc j = .passed t ∧ v.runs = s.runs ∧ v.holder = some i := by
    induction h with
    | refl => exact ⟨hj, rfl, hh⟩
    | step u w o _ ho hs ih =>
      obtain ⟨h1, h2, h3⟩ := ih
      cases hs with
      | tick _ d hd => exact ⟨h1, h2, h3⟩
      | pass _ k hp ht =>
        have hk : k = j := ho k (by simp)
        subst hk; rw [h1] at hp; cases hp
      | refuse _ k hp ht =>
        have hk : k = j := ho k (by simp)
        subst hk; rw [h1] at hp; cases hp
      | enter _ k t hp hl => rw [h3] at hl; cases hl
      | leave _ k hp =>
        have hk : k = j := ho k (by simp)
        subst hk; rw [h1] at hp; cases hp
  exact ⟨this.1, this.2.1⟩

/-- C152 fails: `GlobalRateLimiter` raises for every tag, in every history of calls, as the class
it wants to make does not exist. -/
theorem C152_fails_global (tag : String) : globalLimiter [] tag = .error .nameError := rfl

/-! ## Non-vacuity -/

/-- A thread enters, the clock advances, and a second one has to wait for the interval. -/
example : ∃ s, BRun 2 (blockingInit 5) s ∧ s.yields = [5] ∧ s.pc 1 = .wants := by
  let s0 := blockingInit 5
  have h1 := BStep.call (interval := 2) s0 0 rfl
  have h2 := BStep.acquire (interval := 2) { s0 with pc := move s0.pc 0 .wants } 0 rfl rfl
  have h3 := BStep.onTime (interval := 2) { s0 with holder := some 0, pc := move (move s0.pc 0 .wants) 0 .holds } 0 rfl (by norm_num [s0, blockingInit])
  have h4 := BStep.store (interval := 2) { s0 with holder := some 0, pc := move (move (move s0.pc 0 .wants) 0 .holds) 0 (.stamped s0.now) } 0 s0.now rfl
  let s4 : Blocking := { now := s0.now, nextYield := s0.now + 2, holder := none, pc := move (move (move (move s0.pc 0 .wants) 0 .holds) 0 (.stamped s0.now)) 0 (.leaving s0.now), grants := [s0.now], yields := [] }
  have h5 := BStep.ret (interval := 2) s4 0 s0.now rfl
  have h6 := BStep.call (interval := 2) { s4 with pc := move s4.pc 0 .idle, yields := s4.now :: s4.yields } 1 rfl
  exact ⟨_, .step _ _ _ (.step _ _ _ (.step _ _ _ (.step _ _ _ (.step _ _ _ (.step _ _ _ (.refl s0) h1) h2) h3) h4) h5) h6, rfl, rfl⟩

/-- One thread runs the function once and is refused half an interval later. -/
example : ∃ s, NRun 2 (fun j => j = 0) (nonBlockingInit 5) s ∧ s.runs = [5] ∧ s.refused = [6] := by
  let s0 := nonBlockingInit 5
  have h1 := NStep.pass (interval := 2) s0 0 rfl (by norm_num [s0, nonBlockingInit])
  have h2 := NStep.enter (interval := 2) { s0 with pc := shift s0.pc 0 (.passed s0.now) } 0 s0.now rfl rfl
  let s2 : NonBlocking := { now := s0.now, nextGreen := s0.now + 2, holder := some 0, pc := shift (shift s0.pc 0 (.passed s0.now)) 0 .running, runs := [s0.now], refused := [] }
  have h3 := NStep.leave (interval := 2) s2 0 rfl
  let s3 : NonBlocking := { s2 with holder := none, pc := shift s2.pc 0 .idle }
  have h4 := NStep.tick (interval := 2) s3 1 (by norm_num)
  have h5 := NStep.refuse (interval := 2) { s3 with now := s3.now + 1 } 0 rfl (by norm_num [s3, s2, s0, nonBlockingInit])
  refine ⟨_, .step _ _ _ (some 0) (.step _ _ _ none (.step _ _ _ (some 0) (.step _ _ _ (some 0) (.step _ _ _ (some 0) (.refl s0) (by simp) h1) (by simp) h2) (by simp) h3) (by simp) h4) (by simp) h5, rfl, ?_⟩
  norm_num [s3, s2, s0, nonBlockingInit]

/-- A run in which the function, running for longer than the interval, is called again. -/
example : ∃ s t, NRun 2 (fun j => j = 0 ∨ j = 1) (nonBlockingInit 5) s ∧ s.pc 0 = .running ∧ s.holder = some 0 ∧ s.pc 1 = .passed t := by
  let s0 := nonBlockingInit 5
  have h1 := NStep.pass (interval := 2) s0 0 rfl (by norm_num [s0, nonBlockingInit])
  have h2 := NStep.enter (interval := 2) { s0 with pc := shift s0.pc 0 (.passed s0.now) } 0 s0.now rfl rfl
  let s2 : NonBlocking := { now := s0.now, nextGreen := s0.now + 2, holder := some 0, pc := shift (shift s0.pc 0 (.passed s0.now)) 0 .running, runs := [s0.now], refused := [] }
  have h3 := NStep.tick (interval := 2) s2 3 (by norm_num)
  have h4 := NStep.pass (interval := 2) { s2 with now := s2.now + 3 } 1 rfl (by norm_num [s2, s0, nonBlockingInit])
  exact ⟨_, _, .step _ _ _ (some 1) (.step _ _ _ none (.step _ _ _ (some 0) (.step _ _ _ (some 0) (.refl s0) (by simp) h1) (by simp) h2) (by simp) h3) (by simp) h4, rfl, rfl, rfl⟩

end Larch.Props
