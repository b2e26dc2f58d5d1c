import Mathlib.Algebra.Order.Field.Rat
/-!
# Rate limiters under threads

Models `larch/util/rate_limiter.py`: `BlockingRateLimiter` (12-25), `NonBlockingRateLimiter`
(28-51), `GlobalRateLimiter` (54-61), as small-step systems: any number of threads, one lock, one
monotonic clock which may advance by any amount between two steps.

`time.sleep(s)` is taken to last at least `s`, as Python guarantees.  A limiter is made at time
`start`; the clock is not negative, as that of `time.monotonic` is on the supported systems.
-/

namespace Larch.RateLimit

/-- Where a thread is in `BlockingRateLimiter.__next__` (rate_limiter.py:19-25). -/
inductive Pc where
  /-- outside -/
  | idle
  /-- asking for the lock (20) -/
  | wants
  /-- has the lock, about to read the clock (21) -/
  | holds
  /-- sleeping until the given time (23) -/
  | asleep (wake : ℚ)
  /-- has read the clock for the last time (21 or 24) -/
  | stamped (t : ℚ)
  /-- has set `next_yield` and released the lock, and not returned yet (25) -/
  | leaving (t : ℚ)
  deriving DecidableEq

/-- The state of the blocking limiter and of all threads.  `grants` (newest first) are the clock
readings from which `next_yield` was set, `yields` (newest first) the times at which `next`
returned; both are only observed. -/
structure Blocking where
  now : ℚ
  nextYield : ℚ
  holder : Option Nat
  pc : Nat → Pc
  grants : List ℚ
  yields : List ℚ

/-- `BlockingRateLimiter.__init__` (rate_limiter.py:14-17), at time `start`. -/
def blockingInit (start : ℚ) : Blocking := ⟨start, 0, none, fun _ => .idle, [], []⟩

/-- The thread `i` moves to `p`. -/
def move (pc : Nat → Pc) (i : Nat) (p : Pc) : Nat → Pc := fun j => if j = i then p else pc j

/-- One step (rate_limiter.py:19-25). -/
inductive BStep (interval : ℚ) : Blocking → Blocking → Prop where
  /-- time passes -/
  | tick (s : Blocking) (d : ℚ) (hd : 0 ≤ d) : BStep interval s { s with now := s.now + d }
  /-- a thread calls `next` (19) -/
  | call (s : Blocking) (i : Nat) (h : s.pc i = .idle) : BStep interval s { s with pc := move s.pc i .wants }
  /-- it gets the lock (20) -/
  | acquire (s : Blocking) (i : Nat) (h : s.pc i = .wants) (hl : s.holder = none) :
      BStep interval s { s with holder := some i, pc := move s.pc i .holds }
  /-- it reads the clock and finds it too early (21-23): `sleep(next_yield - t)` -/
  | early (s : Blocking) (i : Nat) (h : s.pc i = .holds) (ht : s.now < s.nextYield) :
      BStep interval s { s with pc := move s.pc i (.asleep (s.now + (s.nextYield - s.now))) }
  /-- it reads the clock and may go on (21-22) -/
  | onTime (s : Blocking) (i : Nat) (h : s.pc i = .holds) (ht : ¬ s.now < s.nextYield) :
      BStep interval s { s with pc := move s.pc i (.stamped s.now) }
  /-- it has slept and reads the clock again (24) -/
  | wake (s : Blocking) (i : Nat) (w : ℚ) (h : s.pc i = .asleep w) (ht : w ≤ s.now) :
      BStep interval s { s with pc := move s.pc i (.stamped s.now) }
  /-- it sets `next_yield` and leaves the lock (25) -/
  | store (s : Blocking) (i : Nat) (t : ℚ) (h : s.pc i = .stamped t) :
      BStep interval s { s with nextYield := t + interval, holder := none, pc := move s.pc i (.leaving t), grants := t :: s.grants }
  /-- `next` returns -/
  | ret (s : Blocking) (i : Nat) (t : ℚ) (h : s.pc i = .leaving t) :
      BStep interval s { s with pc := move s.pc i .idle, yields := s.now :: s.yields }

/-- Any number of steps. -/
inductive BRun (interval : ℚ) : Blocking → Blocking → Prop where
  | refl (s : Blocking) : BRun interval s s
  | step (s u v : Blocking) (hr : BRun interval s u) (hs : BStep interval u v) : BRun interval s v

/-- Where a thread is in a function decorated by `NonBlockingRateLimiter`
(rate_limiter.py:35-40). -/
inductive Nc where
  /-- outside -/
  | idle
  /-- has read `t` and passed the test (36-37); asking for the lock (38) -/
  | passed (t : ℚ)
  /-- has the lock, has set `next_greenlight` and is running the function (39-40) -/
  | running
  deriving DecidableEq

/-- The state of the non-blocking limiter.  `runs` (newest first) are the times at which the
function was started, `refused` those at which a call came to nothing. -/
structure NonBlocking where
  now : ℚ
  nextGreen : ℚ
  holder : Option Nat
  pc : Nat → Nc
  runs : List ℚ
  refused : List ℚ

/-- `NonBlockingRateLimiter.__init__` (rate_limiter.py:29-32). -/
def nonBlockingInit (start : ℚ) : NonBlocking := ⟨start, 0, none, fun _ => .idle, [], []⟩

/-- The thread `i` moves to `p`. -/
def shift (pc : Nat → Nc) (i : Nat) (p : Nc) : Nat → Nc := fun j => if j = i then p else pc j

/-- One step of thread `i`, or of the clock (rate_limiter.py:35-40; `__bool__`, 43-49, is the same
with an empty function). -/
inductive NStep (interval : ℚ) : Option Nat → NonBlocking → NonBlocking → Prop where
  /-- time passes -/
  | tick (s : NonBlocking) (d : ℚ) (hd : 0 ≤ d) : NStep interval none s { s with now := s.now + d }
  /-- a call passes the test (36-37) -/
  | pass (s : NonBlocking) (i : Nat) (h : s.pc i = .idle) (ht : s.nextGreen ≤ s.now) :
      NStep interval (some i) s { s with pc := shift s.pc i (.passed s.now) }
  /-- a call comes too early and returns (37) -/
  | refuse (s : NonBlocking) (i : Nat) (h : s.pc i = .idle) (ht : ¬ s.nextGreen ≤ s.now) :
      NStep interval (some i) s { s with refused := s.now :: s.refused }
  /-- it gets the lock, sets `next_greenlight` and starts the function (38-40) -/
  | enter (s : NonBlocking) (i : Nat) (t : ℚ) (h : s.pc i = .passed t) (hl : s.holder = none) :
      NStep interval (some i) s { s with nextGreen := t + interval, holder := some i, pc := shift s.pc i .running, runs := s.now :: s.runs }
  /-- the function returns or raises; the lock is released -/
  | leave (s : NonBlocking) (i : Nat) (h : s.pc i = .running) :
      NStep interval (some i) s { s with holder := none, pc := shift s.pc i .idle }

/-- Any number of steps of the threads in `who` and of the clock. -/
inductive NRun (interval : ℚ) (who : Nat → Prop) : NonBlocking → NonBlocking → Prop where
  | refl (s : NonBlocking) : NRun interval who s s
  | step (s u v : NonBlocking) (o : Option Nat) (hr : NRun interval who s u) (ho : ∀ i ∈ o, who i)
      (hs : NStep interval o u v) : NRun interval who s v

/-- The outcome of `GlobalRateLimiter`. -/
inductive GlobalErr where
  /-- `RateLimiter` is not a name of the module -/
  | nameError
  deriving DecidableEq, Repr

/-- `GlobalRateLimiter(tag)` (rate_limiter.py:56-61) with the tags known so far; the table of
limiters is filled by this function only, from the undefined name `RateLimiter`. -/
def globalLimiter (known : List String) (tag : String) : Except GlobalErr (List String) :=
  if tag ∈ known then .ok known else .error .nameError

end Larch.RateLimit
