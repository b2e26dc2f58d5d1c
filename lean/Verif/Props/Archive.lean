import Verif.Model.Archive
import Mathlib.Data.List.Infix
import Mathlib.Data.List.Perm.Basic
import Mathlib.Data.List.Nodup
/-!
# C149-C151: hash files, compressed copies, zip archives

C149: `verify_hash_file` tells whether a file still is what `make_hash_file` saw.
C150: `gzip_dir` and `Archiver.gzip_by_glob` keep every file they take.
C151: `zipdir` archives the files below a directory, without those hidden by a dot.
-/

namespace Larch.Props

open Larch.Archive

/-! ## Specification -/

/-- The attempts of the reader: the first `n` are refused when opening, the next reads the file. -/
def RefusedAtOpen (sched : Nat → Option Nat) (n : Nat) : Prop :=
  (∀ i : Nat, i < n → sched i = some 0) ∧ sched n = none

/-- A name without a path separator. -/
def FlatName (f : Name) : Prop := '/' ∉ f

/-- No part of the path of the file within the source directory begins with a dot. -/
def InTheOpen (e : Entry) : Prop :=
  ∀ part ∈ e.folders ++ [e.name], ∀ rest : Name, part ≠ '.' :: rest

/-! ## Lemmas -/

theorem ar_isGz_append (f : Name) : isGz (f ++ gzEnd) = true := by
  simp [isGz, gzEnd]

theorem ar_cutGz_append (f : Name) : cutGz (f ++ gzEnd) = f := by
  simp [cutGz, gzEnd]

theorem ar_isGz_iff (f : Name) : isGz f = true ↔ f = cutGz f ++ gzEnd := by
  constructor
  · intro h
    have h' : f.drop (f.length - 3) = gzEnd := by simpa [isGz, gzEnd] using h
    unfold cutGz
    rw [← h', List.take_append_drop]
  · intro h
    rw [h]; exact ar_isGz_append _

theorem ar_join_assoc (d f e : Name) : join d f ++ e = join d (f ++ e) := by
  simp [join]

theorem ar_isGz_join (d f : Name) (hf : FlatName f) : isGz (join d f) = isGz f := by
  have : isGz (join d f) = true ↔ isGz f = true := by
    constructor
    · intro h
      rw [ar_isGz_iff] at h
      -- the last three characters of the path are those of the name
      have hs : gzEnd <:+ join d f := ⟨_, h.symm⟩
      have hs2 : f <:+ join d f := ⟨d ++ ['/'], by simp [join]⟩
      rcases List.suffix_or_suffix_of_suffix hs hs2 with h1 | h1
      · obtain ⟨t, ht⟩ := h1
        rw [← ht]; exact ar_isGz_append t
      · -- the name is a shorter ending: then the separator would be among ".gz"
        have hs3 : '/' :: f <:+ join d f := ⟨d, rfl⟩
        rcases List.suffix_or_suffix_of_suffix hs hs3 with h2 | h2
        · rw [List.suffix_cons_iff] at h2
          rcases h2 with h2 | h2
          · exact absurd h2 (by simp [gzEnd])
          · obtain ⟨t, ht⟩ := h2
            rw [← ht]; exact ar_isGz_append t
        · have : '/' ∈ gzEnd := h2.subset (by simp)
          exact absurd this (by decide)
    · intro h
      rw [ar_isGz_iff] at h
      rw [h, ← ar_join_assoc]; exact ar_isGz_append _
  cases h1 : isGz (join d f) <;> cases h2 : isGz f <;> simp_all

theorem ar_join_inj {d e f g : Name} (hf : FlatName f) (hg : FlatName g) (h : join d f = join e g) :
    d = e ∧ f = g := by
  unfold join at h
  have : ∀ (d e : Name), d ++ '/' :: f = e ++ '/' :: g → f = g := by
    intro d
    induction d with
    | nil =>
      intro e h
      cases e with
      | nil => simpa using h
      | cons c e =>
        simp only [List.nil_append, List.cons_append, List.cons.injEq] at h
        exact absurd (h.2 ▸ by simp : '/' ∈ f) hf
    | cons c d ih =>
      intro e h
      cases e with
      | nil =>
        simp only [List.nil_append, List.cons_append, List.cons.injEq] at h
        exact absurd (h.2 ▸ by simp : '/' ∈ g) hg
      | cons c' e =>
        simp only [List.cons_append, List.cons.injEq] at h
        exact ih e h.2
  have hfg := this d e h
  subst hfg
  exact ⟨List.append_cancel_right h, rfl⟩

theorem ar_ends (x y : Name) : x ++ hashEnd ≠ y ++ gzEnd := by
  intro h
  have := congrArg List.getLast? h
  simp [hashEnd, gzEnd] at this

theorem ar_flat_append {f g : Name} (hf : FlatName f) (hg : FlatName g) : FlatName (f ++ g) := by
  simp only [FlatName, List.mem_append, not_or] at *
  exact ⟨hf, hg⟩

theorem ar_flat_hash : FlatName hashEnd := by unfold FlatName; decide

theorem ar_flat_gz : FlatName gzEnd := by unfold FlatName; decide

theorem ar_flat_cut {f : Name} (hf : FlatName f) : FlatName (cutGz f) := by
  intro h; exact hf (List.mem_of_mem_take h)

/-! ## Verification of a hash file -/

theorem ar_feed_open (b : Bytes) (sched : Nat → Option Nat) (n : Nat) :
    ∀ (k left i : Nat) (acc : Bytes), i + k = n → k < left → (∀ j : Nat, i ≤ j → j < n → sched j = some 0) →
      sched n = none → feed (some b) sched left i acc = .ok (acc ++ b) := by
  intro k
  induction k with
  | zero =>
    intro left i acc hi hl _ hn
    obtain ⟨l, rfl⟩ : ∃ l, left = l + 1 := ⟨left - 1, by omega⟩
    have : i = n := by omega
    subst this
    simp [feed, hn]
  | succ k ih =>
    intro left i acc hi hl hr hn
    obtain ⟨l, rfl⟩ : ∃ l, left = l + 1 := ⟨left - 1, by omega⟩
    have h0 := hr i (le_refl i) (by omega)
    simp only [feed, h0, Nat.mul_zero, List.take_zero, List.append_nil]
    exact ih l (i + 1) acc (by omega) (by omega) (fun j h1 h2 => hr j (by omega) h2) hn

theorem ar_feed_denied (b : Bytes) (sched : Nat → Option Nat) :
    ∀ (left i : Nat) (acc : Bytes), (∀ j : Nat, sched j = some 0) → feed (some b) sched left i acc = .ok acc := by
  intro left
  induction left with
  | zero => intro i acc _; rfl
  | succ l ih =>
    intro i acc h
    simp only [feed, h i, Nat.mul_zero, List.take_zero, List.append_nil]
    exact ih (i + 1) acc h

/-- C149: as long as every refusal comes when the file is opened and there are fewer of them than
the attempts allowed, `verify_hash_file` accepts exactly the files whose digest stands in the hash
file, and otherwise raises: the error of the missing hash file, or the bad hash. -/
theorem C149_accepts_iff_digest (H : Bytes → Bytes) (fs : FS) (f base : Name) (dir : Option Name)
    (maxRetries n : Nat) (sched : Nat → Option Nat) (b : Bytes) (hfile : fs f = some b)
    (hsched : RefusedAtOpen sched n) (hn : n < maxRetries) :
    (verify H fs f base dir maxRetries sched = .ok () ↔
      fs (match dir with | none => f ++ ".sha256.txt".toList | some d => d ++ '/' :: (base ++ ".sha256.txt".toList)) = some (H b)) ∧
    (∀ e, verify H fs f base dir maxRetries sched = .error e → e = .missing ∨ e = .badHash) := by
  have hfeed := ar_feed_open b sched n n maxRetries 0 [] (by omega) hn
    (fun j _ h => hsched.1 j h) hsched.2
  have hpath : (match dir with | none => f ++ ".sha256.txt".toList | some d => d ++ '/' :: (base ++ ".sha256.txt".toList))
      = verifyPath f base dir := by
    cases dir <;> rfl
  rw [hpath]
  unfold verify
  rw [hfile, hfeed]
  simp only [List.nil_append]
  cases hv : fs (verifyPath f base dir) with
  | none => simp
  | some t =>
    simp only
    by_cases ht : H b = t
    · simp [ht]
    · simp only [ht, if_false, Option.some.injEq, Except.error.injEq]
      refine ⟨⟨fun h => (by cases h), fun h => absurd h.symm ht⟩, fun e he => Or.inr he.symm⟩

/-- C149: a hash file made by `make_hash_file` for a file which is not in `.gz` is accepted, and
rejected once the contents have changed to something of another digest. -/
theorem C149_made_then_verified (H : Bytes → Bytes) (ungz : Bytes → Option Bytes) (fs : FS) (f base : Name)
    (maxRetries n : Nat) (sched : Nat → Option Nat) (b : Bytes) (hfile : fs f = some b)
    (hgz : ¬ ".gz".toList <:+ f) (hsched : RefusedAtOpen sched n) (hn : n < maxRetries) :
    ∃ fs', makeHash H ungz fs f = .ok fs' ∧ fs' f = some b ∧
      verify H fs' f base none maxRetries sched = .ok () ∧
      (∀ c, H c ≠ H b → verify H (put fs' f c) f base none maxRetries sched = .error .badHash) ∧
      (∀ p, p ≠ f ++ ".sha256.txt".toList → fs' p = fs p) := by
  have hng : isGz f = false := by
    cases h : isGz f with
    | false => rfl
    | true => exact absurd ⟨_, ((ar_isGz_iff f).1 h).symm⟩ hgz
  have hne : f ≠ f ++ hashEnd := by
    intro h
    have := congrArg List.length h
    simp [hashEnd] at this
  refine ⟨put fs (f ++ hashEnd) (H b), ?_, ?_, ?_, ?_, ?_⟩
  · simp [makeHash, toHash, hfile, hng, hashPath]
  · simp [put, hne, hfile]
  · exact ((C149_accepts_iff_digest H _ f base none maxRetries n sched b
      (by simp [put, hne, hfile]) hsched hn).1).2 (by simp [put, hashEnd])
  · intro c hc
    have hfeed := ar_feed_open c sched n n maxRetries 0 [] (by omega) hn
      (fun j _ h => hsched.1 j h) hsched.2
    have h2 : (f ++ hashEnd = f) = False := by simp only [eq_iff_iff, iff_false]; exact fun h => hne h.symm
    unfold verify
    have h1 : put (put fs (f ++ hashEnd) (H b)) f c f = some c := by simp [put]
    rw [h1, hfeed]
    simp [verifyPath, put, h2, hc, -List.append_right_eq_self]
  · intro p hp
    have : p ≠ f ++ hashEnd := hp
    simp [put, this]

/-- C149: hashing the compressed copy writes the same digest to the same place as hashing the
original did, whatever the compression. -/
theorem C149_compressed_copy_same_digest (H gz : Bytes → Bytes) (ungz : Bytes → Option Bytes)
    (hround : ∀ b, ungz (gz b) = some b) (fs : FS) (f : Name) (b : Bytes) (hfile : fs f = some b)
    (hgz : ¬ ".gz".toList <:+ f) (hcopy : fs (f ++ ".gz".toList) = some (gz b)) :
    makeHash H ungz fs (f ++ ".gz".toList) = makeHash H ungz fs f ∧
      ∃ fs', makeHash H ungz fs f = .ok fs' ∧ fs' (f ++ ".sha256.txt".toList) = some (H b) := by
  have hng : isGz f = false := by
    cases h : isGz f with
    | false => rfl
    | true => exact absurd ⟨_, ((ar_isGz_iff f).1 h).symm⟩ hgz
  have hg : ".gz".toList = gzEnd := rfl
  have h1 : makeHash H ungz fs f = .ok (put fs (f ++ hashEnd) (H b)) := by
    simp [makeHash, toHash, hfile, hng, hashPath]
  refine ⟨?_, _, h1, by simp [put, hashEnd]⟩
  rw [h1]
  rw [hg] at hcopy ⊢
  simp [makeHash, toHash, hcopy, ar_isGz_append, hround, hashPath, ar_cutGz_append]

/-- C149 fails: when a refusal comes after some blocks were read, what was read counts twice, and
an intact file is accepted only if the digest of that longer text is the stored one. -/
theorem C149_fails_read_interrupted (H : Bytes → Bytes) (fs : FS) (f base : Name)
    (maxRetries k : Nat) (sched : Nat → Option Nat) (b : Bytes) (hfile : fs f = some b)
    (hmax : 2 ≤ maxRetries) (h0 : sched 0 = some k) (h1 : sched 1 = none)
    (hstored : fs (f ++ ".sha256.txt".toList) = some (H b)) (hH : H (b.take (4096 * k) ++ b) ≠ H b) :
    verify H fs f base none maxRetries sched = .error .badHash := by
  obtain ⟨m, rfl⟩ : ∃ m, maxRetries = m + 2 := ⟨maxRetries - 2, by omega⟩
  have : f ++ hashEnd = f ++ ".sha256.txt".toList := rfl
  unfold verify
  have hfeed : feed (fs f) sched (m + 2) 0 [] = .ok (b.take (4096 * k) ++ b) := by
    simp [feed, h0, h1, hfile]
  rw [hfeed]
  simp only [verifyPath, this, hstored, hH, if_false]

/-- C149 fails: when every attempt is refused, no error tells so: the digest of nothing is
compared, an intact file is reported as bad and any file passes under the digest of nothing. -/
theorem C149_fails_never_readable (H : Bytes → Bytes) (fs : FS) (f base : Name)
    (maxRetries : Nat) (b : Bytes) (hfile : fs f = some b) :
    (fs (f ++ ".sha256.txt".toList) = some (H b) → H [] ≠ H b →
      verify H fs f base none maxRetries (fun _ => some 0) = .error .badHash) ∧
    (fs (f ++ ".sha256.txt".toList) = some (H []) →
      verify H fs f base none maxRetries (fun _ => some 0) = .ok ()) := by
  have hfeed := ar_feed_denied b (fun _ => some 0) maxRetries 0 [] (fun _ => rfl)
  have : f ++ hashEnd = f ++ ".sha256.txt".toList := rfl
  constructor
  · intro hs hne
    unfold verify
    rw [hfile, hfeed]
    simp only [verifyPath, this, hs, hne, if_false]
  · intro hs
    unfold verify
    rw [hfile, hfeed]
    simp only [verifyPath, this, hs, if_true]

/-- C149 fails: for a name in `.gz` the hash file is written under the name without the ending and
looked for under the full name, so that it is not found. -/
theorem C149_fails_gz_not_found (H : Bytes → Bytes) (ungz : Bytes → Option Bytes) (fs : FS) (f base : Name)
    (maxRetries n : Nat) (sched : Nat → Option Nat) (b c : Bytes) (hfile : fs (f ++ ".gz".toList) = some b)
    (hun : ungz b = some c) (hsched : RefusedAtOpen sched n) (hn : n < maxRetries)
    (hnone : fs (f ++ ".gz".toList ++ ".sha256.txt".toList) = none) :
    ∃ fs', makeHash H ungz fs (f ++ ".gz".toList) = .ok fs' ∧ fs' (f ++ ".sha256.txt".toList) = some (H c) ∧
      verify H fs' (f ++ ".gz".toList) base none maxRetries sched = .error .missing := by
  have hg : ".gz".toList = gzEnd := rfl
  have hh : ".sha256.txt".toList = hashEnd := rfl
  rw [hg] at hfile hnone ⊢
  rw [hh] at hnone ⊢
  refine ⟨put fs (f ++ hashEnd) (H c), ?_, by simp [put], ?_⟩
  · simp [makeHash, toHash, hfile, ar_isGz_append, hun, hashPath, ar_cutGz_append]
  · have hfeed := ar_feed_open b sched n n maxRetries 0 [] (by omega) hn
      (fun j _ h => hsched.1 j h) hsched.2
    have h1 : put fs (f ++ hashEnd) (H c) (f ++ gzEnd) = some b := by
      have : f ++ gzEnd ≠ f ++ hashEnd := fun h => ar_ends f f (Eq.symm h)
      simp only [put, this, if_false, hfile]
    have h2 : put fs (f ++ hashEnd) (H c) (f ++ gzEnd ++ hashEnd) = none := by
      have : f ++ gzEnd ++ hashEnd ≠ f ++ hashEnd := by
        intro h
        have := congrArg List.length h
        simp [gzEnd] at this
        omega
      simp only [put, this, if_false, hnone]
    unfold verify
    rw [h1, hfeed]
    simp only [verifyPath, h2]

/-! ## Compressed copies -/

theorem ar_target (src : Name) (listing : List Name) (pats : List (Name → Bool)) (f : Name)
    (h : f ∈ targets src listing pats hashEnd) : f ∈ listing ∧ ∀ x, f ≠ x ++ hashEnd := by
  simp only [targets, List.mem_filter, Bool.and_eq_true, Bool.not_eq_true', decide_eq_false_iff_not] at h
  refine ⟨h.1, ?_⟩
  rintro x rfl
  exact h.2.2 ⟨src ++ '/' :: x, [], by simp [join]⟩

/-- What the loop has achieved after the targets in `done`. -/
structure GzInv (H gz : Bytes → Bytes) (ungz : Bytes → Option Bytes) (src dst : Name) (hashes remove : Bool)
    (T : List Name) (fs : FS) (done : List Name) (cur : FS) : Prop where
  todo : ∀ f ∈ T, f ∉ done → isGz f = false → cur (join src f) = fs (join src f)
  packed : ∀ f ∈ T, isGz f = true → hashes = true → ∃ b c, cur (join src f) = some b ∧ ungz b = some c
  kept : ∀ f ∈ T, f ∈ done → isGz f = false → ∀ b, fs (join src f) = some b →
    cur (join dst (f ++ gzEnd)) = some (gz b) ∧
    (hashes = true → cur (join src (f ++ hashEnd)) = some (H b)) ∧
    cur (join src f) = (if remove then none else some b)
  frame : ∀ p, (∀ f ∈ T, isGz f = false → p ≠ join dst (f ++ gzEnd)) →
    (hashes = true → ∀ f ∈ T, p ≠ join src (f ++ hashEnd) ∧ (isGz f = true → p ≠ join src (cutGz f ++ hashEnd))) →
    (remove = true → ∀ f ∈ T, isGz f = false → p ≠ join src f) → cur p = fs p

theorem ar_step (H gz : Bytes → Bytes) (ungz : Bytes → Option Bytes) (hround : ∀ b, ungz (gz b) = some b)
    (src dst : Name) (hashes remove : Bool) (T : List Name) (fs : FS)
    (hT : ∀ f ∈ T, FlatName f ∧ (∃ b, fs (join src f) = some b) ∧ ∀ x, f ≠ x ++ hashEnd)
    (hpair : hashes = true → dst = src ∨ ∀ f ∈ T, isGz f = false → f ++ gzEnd ∉ T)
    (done : List Name) (cur : FS) (inv : GzInv H gz ungz src dst hashes remove T fs done cur)
    (f : Name) (hf : f ∈ T) (hnew : f ∉ done) :
    ∃ cur', gzipOne H gz ungz src dst hashes remove cur f = .ok cur' ∧
      GzInv H gz ungz src dst hashes remove T fs (f :: done) cur' := by
  obtain ⟨hflat, ⟨b, hb⟩, hnh⟩ := hT f hf
  have hJ := ar_isGz_join src f hflat
  cases hz : isGz f with
  | true =>
    cases hh : hashes with
    | false =>
      subst hh
      refine ⟨cur, by simp [gzipOne, hJ, hz], ?_⟩
      refine ⟨fun g hg hd => inv.todo g hg (by simp_all), inv.packed, fun g hg hd hgz => ?_, inv.frame⟩
      have : g ≠ f := by rintro rfl; rw [hz] at hgz; cases hgz
      exact inv.kept g hg (by simpa [this] using hd) hgz
    | true =>
      subst hh
      obtain ⟨b', c, hb', hc⟩ := inv.packed f hf hz rfl
      have hcut : cutGz (join src f) = join src (cutGz f) := by
        have h1 := (ar_isGz_iff f).1 hz
        have h2 : join src f = join src (cutGz f) ++ gzEnd := by rw [ar_join_assoc, ← h1]
        rw [h2, ar_cutGz_append]
      refine ⟨put cur (join src (cutGz f ++ hashEnd)) (H c), ?_, ?_⟩
      · simp [gzipOne, makeHash, toHash, hb', hJ, hz, hc, hashPath, hcut, ar_join_assoc]
      have hfl : FlatName (cutGz f ++ hashEnd) := ar_flat_append (ar_flat_cut hflat) ar_flat_hash
      have hread : ∀ q, q ≠ join src (cutGz f ++ hashEnd) → put cur (join src (cutGz f ++ hashEnd)) (H c) q = cur q := by
        intro q hq; simp [put, hq]
      have hsrc : ∀ g ∈ T, join src g ≠ join src (cutGz f ++ hashEnd) := by
        intro g hg h
        exact (hT g hg).2.2 _ (ar_join_inj (hT g hg).1 hfl h).2
      refine ⟨fun g hg hd hgz => ?_, fun g hg hgz _ => ?_, fun g hg hd hgz bb hbb => ?_, fun p h1 h2 h3 => ?_⟩
      · rw [hread _ (hsrc g hg)]
        exact inv.todo g hg (by simp_all) hgz
      · rw [hread _ (hsrc g hg)]
        exact inv.packed g hg hgz rfl
      · have hgf : g ≠ f := by rintro rfl; rw [hz] at hgz; cases hgz
        obtain ⟨k1, k2, k3⟩ := inv.kept g hg (by simpa [hgf] using hd) hgz bb hbb
        refine ⟨?_, fun _ => ?_, ?_⟩
        · rw [hread]
          · exact k1
          · intro h
            exact ar_ends _ _ (ar_join_inj hfl (ar_flat_append (hT g hg).1 ar_flat_gz) h.symm).2
        · by_cases hgc : g = cutGz f
          · -- the compressed copy of an earlier target is hashed again
            have hfg : f = g ++ gzEnd := by rw [hgc]; exact (ar_isGz_iff f).1 hz
            rcases hpair rfl with hd' | hno
            · have : cur (join src f) = some (gz bb) := by rw [hfg, ← k1, hd']
              rw [this] at hb'
              cases hb'
              rw [hround] at hc
              cases hc
              simp [put, hgc]
            · exact absurd (hfg ▸ hf) (hno g hg hgz)
          · rw [hread]
            · exact k2 rfl
            · intro h
              exact hgc (List.append_cancel_right
                (ar_join_inj (ar_flat_append (hT g hg).1 ar_flat_hash) hfl h).2)
        · rw [hread _ (hsrc g hg)]; exact k3
      · rw [hread]
        · exact inv.frame p h1 h2 h3
        · exact (h2 rfl f hf).2 hz
  | false =>
    have hcur : cur (join src f) = some b := by rw [inv.todo f hf hnew hz, hb]
    have hflh : FlatName (f ++ hashEnd) := ar_flat_append hflat ar_flat_hash
    have hflg : FlatName (f ++ gzEnd) := ar_flat_append hflat ar_flat_gz
    -- the state after the hash file
    obtain ⟨c1, hc1, hc1v⟩ : ∃ c1, (if hashes then makeHash H ungz cur (join src f) else .ok cur) = .ok c1 ∧
        ∀ q, c1 q = if hashes = true ∧ q = join src (f ++ hashEnd) then some (H b) else cur q := by
      cases hashes with
      | false => exact ⟨cur, rfl, fun q => by simp⟩
      | true =>
        refine ⟨put cur (join src (f ++ hashEnd)) (H b), ?_, fun q => by simp [put]⟩
        simp [makeHash, toHash, hcur, hJ, hz, hashPath, ar_join_assoc]
    have hsh : ∀ g ∈ T, join src g ≠ join src (f ++ hashEnd) := by
      intro g hg h
      exact (hT g hg).2.2 _ (ar_join_inj (hT g hg).1 hflh h).2
    have hc1f : c1 (join src f) = some b := by
      rw [hc1v]; simp [hsh f hf, hcur]
    let c2 := put c1 (join dst (f ++ gzEnd)) (gz b)
    refine ⟨if remove then del c2 (join src f) else c2, ?_, ?_⟩
    · simp only [gzipOne, hc1, hJ, hz, hc1f, ar_join_assoc]
      rfl
    have hv : ∀ q, (if remove then del c2 (join src f) else c2) q =
        if remove = true ∧ q = join src f then none
        else if q = join dst (f ++ gzEnd) then some (gz b)
        else if hashes = true ∧ q = join src (f ++ hashEnd) then some (H b) else cur q := by
      intro q
      cases remove
      · simp [c2, put, hc1v]
      · by_cases hq : q = join src f
        · simp [del, hq]
        · simp [del, hq, c2, put, hc1v]
    have hnd : ∀ g ∈ T, isGz g = false → join src g ≠ join dst (f ++ gzEnd) := by
      intro g hg hgz h
      have := (ar_join_inj (hT g hg).1 hflg h).2
      rw [this, ar_isGz_append] at hgz
      cases hgz
    refine ⟨fun g hg hd hgz => ?_, fun g hg hgz hh => ?_, fun g hg hd hgz bb hbb => ?_, fun p h1 h2 h3 => ?_⟩
    · have hgf : g ≠ f := by rintro rfl; simp at hd
      have hj : join src g ≠ join src f := fun h => hgf (ar_join_inj (hT g hg).1 hflat h).2
      rw [hv]
      simp only [hj, and_false, if_false, hnd g hg hgz, hsh g hg]
      exact inv.todo g hg (by simp_all) hgz
    · have hgf : g ≠ f := by rintro rfl; rw [hz] at hgz; cases hgz
      have hj : join src g ≠ join src f := fun h => hgf (ar_join_inj (hT g hg).1 hflat h).2
      rw [hv]
      simp only [hj, and_false, if_false, hsh g hg]
      by_cases he : join src g = join dst (f ++ gzEnd)
      · simp only [he, if_true]
        exact ⟨_, _, rfl, hround b⟩
      · simp only [he, if_false]
        exact inv.packed g hg hgz hh
    · by_cases hgf : g = f
      · subst hgf
        rw [hb] at hbb
        cases hbb
        refine ⟨?_, fun hh => ?_, ?_⟩
        · rw [hv]
          have : join dst (g ++ gzEnd) ≠ join src g := fun h => hnd g hg hgz h.symm
          simp [this]
        · rw [hv]
          have h1 : join src (g ++ hashEnd) ≠ join src g := fun h => hsh g hg h.symm
          have h2 : join src (g ++ hashEnd) ≠ join dst (g ++ gzEnd) :=
            fun h => ar_ends _ _ (ar_join_inj hflh hflg h).2
          simp [h1, h2, hh]
        · rw [hv]
          cases hr : remove
          · simp [hnd g hg hgz, hsh g hg, hcur]
          · simp
      · obtain ⟨k1, k2, k3⟩ := inv.kept g hg (by simpa [hgf] using hd) hgz bb hbb
        have hgfl := (hT g hg).1
        have hflgg : FlatName (g ++ gzEnd) := ar_flat_append hgfl ar_flat_gz
        have hflgh : FlatName (g ++ hashEnd) := ar_flat_append hgfl ar_flat_hash
        have hj : join src g ≠ join src f := fun h => hgf (ar_join_inj hgfl hflat h).2
        refine ⟨?_, fun hh => ?_, ?_⟩
        · rw [hv]
          have h1 : join dst (g ++ gzEnd) ≠ join src f := by
            intro h
            have := (ar_join_inj hflgg hflat h).2
            rw [← this, ar_isGz_append] at hz; cases hz
          have h2 : join dst (g ++ gzEnd) ≠ join dst (f ++ gzEnd) :=
            fun h => hgf (List.append_cancel_right (ar_join_inj hflgg hflg h).2)
          have h3 : join dst (g ++ gzEnd) ≠ join src (f ++ hashEnd) :=
            fun h => ar_ends _ _ (ar_join_inj hflh hflgg h.symm).2
          simp [h1, h2, h3, k1]
        · rw [hv]
          have h1 : join src (g ++ hashEnd) ≠ join src f :=
            fun h => hnh _ (ar_join_inj hflgh hflat h).2.symm
          have h2 : join src (g ++ hashEnd) ≠ join dst (f ++ gzEnd) :=
            fun h => ar_ends _ _ (ar_join_inj hflgh hflg h).2
          have h3 : join src (g ++ hashEnd) ≠ join src (f ++ hashEnd) :=
            fun h => hgf (List.append_cancel_right (ar_join_inj hflgh hflh h).2)
          simp [h1, h2, h3, k2 hh]
        · rw [hv]
          simp only [hj, and_false, if_false, hnd g hg hgz, hsh g hg]
          exact k3
    · rw [hv]
      have h1' := h1 f hf hz
      have h2' : ¬ (hashes = true ∧ p = join src (f ++ hashEnd)) := fun h => (h2 h.1 f hf).1 h.2
      have h3' : ¬ (remove = true ∧ p = join src f) := fun h => h3 h.1 f hf hz h.2
      simp only [h1', h2', h3', if_false]
      exact inv.frame p h1 h2 h3

theorem ar_run (H gz : Bytes → Bytes) (ungz : Bytes → Option Bytes) (hround : ∀ b, ungz (gz b) = some b)
    (src dst : Name) (hashes remove : Bool) (T : List Name) (fs : FS)
    (hT : ∀ f ∈ T, FlatName f ∧ (∃ b, fs (join src f) = some b) ∧ ∀ x, f ≠ x ++ hashEnd)
    (hpair : hashes = true → dst = src ∨ ∀ f ∈ T, isGz f = false → f ++ gzEnd ∉ T) :
    ∀ (order done : List Name) (cur : FS), GzInv H gz ungz src dst hashes remove T fs done cur →
      (∀ f ∈ order, f ∈ T ∧ f ∉ done) → order.Nodup →
      ∃ cur', gzipDir H gz ungz src dst hashes remove cur order = .ok cur' ∧
        GzInv H gz ungz src dst hashes remove T fs (order.reverse ++ done) cur' := by
  intro order
  induction order with
  | nil => intro done cur inv _ _; exact ⟨cur, rfl, by simpa using inv⟩
  | cons f fl ih =>
    intro done cur inv hord hnd
    obtain ⟨c1, h1, inv1⟩ := ar_step H gz ungz hround src dst hashes remove T fs hT hpair done cur inv f
      (hord f (by simp)).1 (hord f (by simp)).2
    rw [List.nodup_cons] at hnd
    obtain ⟨c2, h2, inv2⟩ := ih (f :: done) c1 inv1
      (fun g hg => ⟨(hord g (by simp [hg])).1, by
        have : g ≠ f := by rintro rfl; exact hnd.1 hg
        simp [this, (hord g (by simp [hg])).2]⟩) hnd.2
    refine ⟨c2, by simp [gzipDir, h1, h2], ?_⟩
    simpa using inv2

/-- C150: the files taken are those in the directory which match some pattern, except where the
excluded text occurs in the path. -/
theorem C150_takes (src : Name) (listing : List Name) (pats : List (Name → Bool)) (exclude f : Name) :
    f ∈ targets src listing pats exclude ↔
      f ∈ listing ∧ (∃ p ∈ pats, p f = true) ∧ ¬ ∃ before after, src ++ '/' :: f = before ++ exclude ++ after := by
  have hx : exclude <:+: join src f ↔ ∃ before after, src ++ '/' :: f = before ++ exclude ++ after := by
    constructor
    · rintro ⟨b, a, h⟩; exact ⟨b, a, h.symm⟩
    · rintro ⟨b, a, h⟩; exact ⟨b, a, h.symm⟩
  simp only [targets, List.mem_filter, Bool.and_eq_true, Bool.not_eq_true', decide_eq_false_iff_not, List.any_eq_true, hx]

/-- C150: `gzip_dir`, on any file system and for any patterns, in whatever order it takes the
files, compresses every file it takes: the copy in the destination expands to the contents, the
hash file holds their digest, the original is gone or unchanged as asked, and nothing else is
touched.  With hash files and another destination, a file and its own compressed copy must not
both be taken. -/
theorem C150_keeps_every_file (H gz : Bytes → Bytes) (ungz : Bytes → Option Bytes)
    (hround : ∀ b, ungz (gz b) = some b) (src dst : Name) (hashes remove : Bool) (fs : FS)
    (listing : List Name) (pats : List (Name → Bool)) (order : List Name)
    (horder : order.Perm (targets src listing pats ".sha256.txt".toList)) (hnd : listing.Nodup)
    (hfiles : ∀ f ∈ listing, FlatName f ∧ ∃ b, fs (join src f) = some b)
    (hpacked : hashes = true → ∀ f, f ++ ".gz".toList ∈ order → ∃ b c, fs (join src (f ++ ".gz".toList)) = some b ∧ ungz b = some c)
    (hpair : hashes = true → dst = src ∨ ∀ f ∈ order, f ++ ".gz".toList ∉ order) :
    ∃ fs', gzipDir H gz ungz src dst hashes remove fs order = .ok fs' ∧
      (∀ f ∈ order, ¬ ".gz".toList <:+ f → ∀ b, fs (join src f) = some b →
        (∃ z, fs' (join dst (f ++ ".gz".toList)) = some z ∧ ungz z = some b) ∧
        (hashes = true → fs' (join src (f ++ ".sha256.txt".toList)) = some (H b)) ∧
        fs' (join src f) = (if remove then none else some b)) ∧
      (∀ p, (∀ f ∈ order, p ≠ join dst (f ++ ".gz".toList) ∧ p ≠ join src (f ++ ".sha256.txt".toList) ∧ (remove = true → ¬ ".gz".toList <:+ f → p ≠ join src f)) →
        (∀ f, f ++ ".gz".toList ∈ order → p ≠ join src (f ++ ".sha256.txt".toList)) → fs' p = fs p) := by
  have hg : ".gz".toList = gzEnd := rfl
  have hh : ".sha256.txt".toList = hashEnd := rfl
  rw [hg, hh] at *
  have hnz : ∀ f : Name, ¬ gzEnd <:+ f ↔ isGz f = false := by
    intro f
    cases h : isGz f with
    | true => simp only [Bool.true_eq_false, iff_false, not_not]; exact ⟨_, ((ar_isGz_iff f).1 h).symm⟩
    | false =>
      simp only [iff_true]
      rintro ⟨t, rfl⟩
      rw [ar_isGz_append] at h; cases h
  have hT : ∀ f ∈ order, FlatName f ∧ (∃ b, fs (join src f) = some b) ∧ ∀ x, f ≠ x ++ hashEnd := by
    intro f hf
    obtain ⟨h1, h2⟩ := ar_target src listing pats f (horder.subset hf)
    exact ⟨(hfiles f h1).1, (hfiles f h1).2, h2⟩
  have hnd' : order.Nodup := horder.nodup_iff.2 (hnd.filter _)
  have inv0 : GzInv H gz ungz src dst hashes remove order fs [] fs := by
    refine ⟨fun _ _ _ _ => rfl, fun f hf hz hsh => ?_, fun f _ h => (by cases h), fun _ _ _ _ => rfl⟩
    have := (ar_isGz_iff f).1 hz
    rw [this] at hf ⊢
    exact hpacked hsh _ hf
  obtain ⟨fs', hrun, inv⟩ := ar_run H gz ungz hround src dst hashes remove order fs hT
    (fun h => (hpair h).imp id (fun h' f hf _ => h' f hf)) order [] fs inv0 (fun f hf => ⟨hf, by simp⟩) hnd'
  refine ⟨fs', hrun, ?_, ?_⟩
  · intro f hf hz b hb
    obtain ⟨k1, k2, k3⟩ := inv.kept f hf (by simpa using hf) ((hnz f).1 hz) b hb
    exact ⟨⟨_, k1, hround b⟩, k2, k3⟩
  · intro p h1 h2
    refine inv.frame p (fun f hf _ => (h1 f hf).1) (fun _ f hf => ⟨(h1 f hf).2.1, fun hz => ?_⟩)
      (fun hr f hf hz => (h1 f hf).2.2 hr ((hnz f).2 hz))
    refine h2 _ ?_
    rw [← (ar_isGz_iff f).1 hz]; exact hf

/-- C150: `Archiver.gzip_by_glob` puts into every archive directory a compressed copy of every file
taken, and leaves the files of the source directory alone. -/
theorem C150_archiver_copies (H gz : Bytes → Bytes) (ungz : Bytes → Option Bytes)
    (hround : ∀ b, ungz (gz b) = some b) (src : Name) (fs : FS) (listing : List Name)
    (pats : List (Name → Bool)) (archives : List (Name × List Name)) (hnd : listing.Nodup)
    (horder : ∀ a ∈ archives, a.2.Perm (targets src listing pats ".sha256.txt".toList))
    (hother : ∀ a ∈ archives, a.1 ≠ src) (hdist : (archives.map Prod.fst).Nodup)
    (hfiles : ∀ f ∈ listing, FlatName f ∧ ∃ b, fs (join src f) = some b) :
    ∃ fs', gzipByGlob H gz ungz src fs archives = .ok fs' ∧
      (∀ f, FlatName f → fs' (join src f) = fs (join src f)) ∧
      (∀ a ∈ archives, ∀ f ∈ a.2, ¬ ".gz".toList <:+ f → ∀ b, fs (join src f) = some b →
        ∃ z, fs' (join a.1 (f ++ ".gz".toList)) = some z ∧ ungz z = some b) ∧
      (∀ d, (∀ a ∈ archives, d ≠ a.1) → ∀ f, FlatName f → fs' (join d f) = fs (join d f)) := by
  induction archives generalizing fs with
  | nil => exact ⟨fs, rfl, fun _ _ => rfl, fun a ha => (by cases ha), fun _ _ _ _ => rfl⟩
  | cons a rest ih =>
    obtain ⟨arch, order⟩ := a
    obtain ⟨f1, h1, k1, fr1⟩ := C150_keeps_every_file H gz ungz hround src arch false false fs listing pats order
      (horder (arch, order) (by simp)) hnd hfiles (fun h => by cases h) (fun h => by cases h)
    have hflo : ∀ g ∈ order, FlatName g := by
      intro g hg
      have := (horder (arch, order) (by simp)).subset hg
      exact (hfiles g (ar_target src listing pats g this).1).1
    have hrun : gzipByGlob H gz ungz src fs ((arch, order) :: rest) = gzipByGlob H gz ungz src f1 rest := by
      simp [gzipByGlob, h1]
    -- without hash files only the copies are written
    have hfr : ∀ p, (∀ f ∈ order, p ≠ join arch (f ++ gzEnd)) → f1 p = fs p := by
      have hT : ∀ f ∈ order, FlatName f ∧ (∃ b, fs (join src f) = some b) ∧ ∀ x, f ≠ x ++ hashEnd := by
        intro f hf
        obtain ⟨h1, h2⟩ := ar_target src listing pats f ((horder (arch, order) (by simp)).subset hf)
        exact ⟨(hfiles f h1).1, (hfiles f h1).2, h2⟩
      have hnd' : order.Nodup := (horder (arch, order) (by simp)).nodup_iff.2 (hnd.filter _)
      obtain ⟨f2, h2, inv⟩ := ar_run H gz ungz hround src arch false false order fs hT (fun h => by cases h) order [] fs
        ⟨fun _ _ _ _ => rfl, fun _ _ _ h => (by cases h), fun f _ h => (by cases h), fun _ _ _ _ => rfl⟩
        (fun f hf => ⟨hf, by simp⟩) hnd'
      rw [h1] at h2
      cases h2
      intro p hp
      exact inv.frame p (fun f hf _ => hp f hf) (fun h => by cases h) (fun h => by cases h)
    have hother1 : ∀ d, d ≠ arch → ∀ f, FlatName f → f1 (join d f) = fs (join d f) := by
      intro d hd f hf
      exact hfr _ (fun g hg h => hd (ar_join_inj hf (ar_flat_append (hflo g hg) ar_flat_gz) h).1)
    have hsrc1 : ∀ f, FlatName f → f1 (join src f) = fs (join src f) :=
      hother1 src (fun h => hother (arch, order) (by simp) h.symm)
    simp only [List.map_cons, List.nodup_cons] at hdist
    obtain ⟨fs', h2, s2, c2, o2⟩ := ih f1 (fun a ha => horder a (by simp [ha])) (fun a ha => hother a (by simp [ha]))
      hdist.2 (fun f hf => ⟨(hfiles f hf).1, by rw [hsrc1 f (hfiles f hf).1]; exact (hfiles f hf).2⟩)
    refine ⟨fs', by rw [hrun, h2], fun f hf => by rw [s2 f hf, hsrc1 f hf], ?_, ?_⟩
    · intro a ha f hf hz b hb
      rcases List.mem_cons.1 ha with rfl | ha
      · obtain ⟨⟨z, hz1, hz2⟩, _, _⟩ := k1 f hf hz b hb
        refine ⟨z, ?_, hz2⟩
        have := o2 arch (fun a ha h => hdist.1 (List.mem_map.2 ⟨a, ha, h.symm⟩)) _
          (ar_flat_append (hflo f hf) ar_flat_gz)
        exact this.trans hz1
      · have hfl : FlatName f :=
          (hfiles f (ar_target src listing pats f ((horder a (by simp [ha])).subset hf)).1).1
        exact c2 a ha f hf hz b (by rw [hsrc1 f hfl]; exact hb)
    · intro d hd f hf
      rw [o2 d (fun a ha => hd a (by simp [ha])) f hf, hother1 d (hd (arch, order) (by simp)) f hf]

/-- C150 fails: a file which is compressed already is not copied: an archive of a directory
holding only such files is empty. -/
theorem C150_fails_gz_not_archived (H gz : Bytes → Bytes) (ungz : Bytes → Option Bytes) (src arch : Name)
    (fs : FS) (order : List Name) (hgz : ∀ f ∈ order, FlatName f ∧ ".gz".toList <:+ f) :
    gzipByGlob H gz ungz src fs [(arch, order)] = .ok fs := by
  have h : gzipDir H gz ungz src arch false false fs order = .ok fs := by
    induction order with
    | nil => rfl
    | cons f fl ih =>
      obtain ⟨hfl, t, rfl⟩ := hgz f (by simp)
      have h1 : isGz (join src (t ++ ".gz".toList)) = true := by
        rw [ar_isGz_join _ _ hfl]; exact ar_isGz_append t
      have h2 : gzipOne H gz ungz src arch false false fs (t ++ ".gz".toList) = .ok fs := by
        unfold gzipOne
        simp only [h1, if_true]
        rfl
      simp only [gzipDir, h2]
      exact ih (fun g hg => hgz g (by simp [hg]))
  simp [gzipByGlob, h]

/-- A directory with a file `a` of one byte and an older compressed copy of another content, as
seen by a digest which is the text itself. -/
def olderCopy : FS := fun p =>
  if p = "s/a".toList then some [1] else if p = "s/a.gz".toList then some [31, 2] else none

/-- A compressed format which puts one byte in front. -/
def plainGz (b : Bytes) : Bytes := 31 :: b

/-- Its reader. -/
def plainUngz : Bytes → Option Bytes
  | 31 :: b => some b
  | _ => none

/-- C150 fails: with another destination, the hash file of `a` is that of `a` or of the older
`a.gz`, according to the order in which the set of targets is traversed. -/
theorem C150_fails_order_of_targets :
    (∃ fs', gzipDir id plainGz plainUngz "s".toList "d".toList true false olderCopy ["a.gz".toList, "a".toList] = .ok fs' ∧
      fs' "s/a.sha256.txt".toList = some [1]) ∧
    (∃ fs', gzipDir id plainGz plainUngz "s".toList "d".toList true false olderCopy ["a".toList, "a.gz".toList] = .ok fs' ∧
      fs' "s/a.sha256.txt".toList = some [2] ∧ fs' "s/a".toList = some [1]) := by
  exact ⟨⟨_, rfl, by decide⟩, ⟨_, rfl, by decide, by decide⟩⟩

/-! ## Zip archives -/

theorem ar_dotted_iff (f : Name) : dotted f = true ↔ ∃ rest, f = '.' :: rest := by
  cases f with
  | nil => simp [dotted]
  | cons c t => simp [dotted]

/-- C151: without skipping, the archive holds every file below the directory under its path, and
nothing else. -/
theorem C151_everything_when_not_skipping (extra : Option Name) (top : Name) (files : List Entry) :
    zipMembers false extra top files =
      files.map fun e => (extra.toList ++ e.folders ++ [e.name], e.content) := by
  have : files.filter (takes false top) = files := by
    rw [List.filter_eq_self]; intro e _; simp [takes]
  unfold zipMembers
  rw [this]
  apply List.map_congr_left
  intro e _
  cases extra <;> rfl

/-- C151: when the source directory is not named with a leading dot, every file in the open is in
the archive with its contents, and no file whose own name begins with a dot is. -/
theorem C151_open_files_archived (extra : Option Name) (top : Name) (files : List Entry)
    (htop : ∀ rest : Name, top ≠ '.' :: rest) :
    (∀ e ∈ files, InTheOpen e → (extra.toList ++ e.folders ++ [e.name], e.content) ∈ zipMembers true extra top files) ∧
    (∀ m ∈ zipMembers true extra top files, ∃ e ∈ files, m = (extra.toList ++ e.folders ++ [e.name], e.content) ∧ ∀ rest : Name, e.name ≠ '.' :: rest) := by
  have hm : ∀ e : Entry, member extra e = extra.toList ++ e.folders ++ [e.name] := by
    intro e; cases extra <;> rfl
  constructor
  · intro e he ho
    refine List.mem_map.2 ⟨e, List.mem_filter.2 ⟨he, ?_⟩, by rw [hm]⟩
    have h1 : dotted e.name = false := by
      cases h : dotted e.name with
      | false => rfl
      | true => obtain ⟨r, hr⟩ := (ar_dotted_iff _).1 h; exact absurd hr (ho _ (by simp) r)
    have h2 : dotted (folderOf top e) = false := by
      cases h : dotted (folderOf top e) with
      | false => rfl
      | true =>
        obtain ⟨r, hr⟩ := (ar_dotted_iff _).1 h
        unfold folderOf at hr
        rcases List.eq_nil_or_concat e.folders with hn | ⟨l, x, hn⟩
        · rw [hn] at hr; exact absurd hr (htop r)
        · rw [hn] at hr
          simp only [List.concat_eq_append, List.getLastD_concat] at hr
          exact absurd hr (ho x (by simp [hn]) r)
    simp [takes, h1, h2]
  · intro m hmm
    obtain ⟨e, he, rfl⟩ := List.mem_map.1 hmm
    rw [List.mem_filter] at he
    refine ⟨e, he.1, by rw [hm], ?_⟩
    intro r hr
    have := he.2
    simp [takes, hr, dotted] at this

/-- C151: when besides no file lies in a subfolder of a folder named with a leading dot, the
archive holds exactly the files in the open. -/
theorem C151_exactly_the_open_files_partial (extra : Option Name) (top : Name) (files : List Entry)
    (htop : ∀ rest : Name, top ≠ '.' :: rest)
    (hshallow : ∀ e ∈ files, ∀ part ∈ e.folders.dropLast, ∀ rest : Name, part ≠ '.' :: rest) (m : List Name × Bytes) :
    m ∈ zipMembers true extra top files ↔
      ∃ e ∈ files, InTheOpen e ∧ m = (extra.toList ++ e.folders ++ [e.name], e.content) := by
  obtain ⟨h1, h2⟩ := C151_open_files_archived extra top files htop
  constructor
  · intro hm
    obtain ⟨e, he, rfl⟩ := List.mem_map.1 hm
    rw [List.mem_filter] at he
    refine ⟨e, he.1, ?_, by cases extra <;> rfl⟩
    intro part hp r hr
    have ht := he.2
    simp only [takes, Bool.not_true, Bool.false_or, Bool.and_eq_true, Bool.not_eq_true'] at ht
    rcases List.mem_append.1 hp with hp | hp
    · rcases List.eq_nil_or_concat e.folders with hn | ⟨l, x, hn⟩
      · rw [hn] at hp; cases hp
      · have hs := hshallow e he.1
        rw [hn] at hp hs
        simp only [List.concat_eq_append, List.dropLast_concat] at hs
        simp only [List.concat_eq_append, List.mem_append, List.mem_singleton] at hp
        rcases hp with hp | hp
        · exact hs part hp r hr
        · have h3 := ht.1
          unfold folderOf at h3
          rw [hn] at h3
          simp only [List.concat_eq_append, List.getLastD_concat] at h3
          rw [← hp, hr] at h3
          simp [dotted] at h3
    · rw [List.mem_singleton] at hp
      rw [← hp, hr] at ht
      simp [dotted] at ht
  · rintro ⟨e, he, ho, rfl⟩
    exact h1 e he ho

/-- C151: files of different paths get different members, so that each can be read back. -/
theorem C151_members_distinct (skip : Bool) (extra : Option Name) (top : Name) (files : List Entry)
    (hd : (files.map fun e => e.folders ++ [e.name]).Nodup) :
    ((zipMembers skip extra top files).map Prod.fst).Nodup := by
  have hsub : ((files.filter (takes skip top)).map fun e => e.folders ++ [e.name]).Nodup :=
    hd.sublist (List.filter_sublist.map _)
  have : ((zipMembers skip extra top files).map Prod.fst) =
      ((files.filter (takes skip top)).map fun e => e.folders ++ [e.name]).map (fun q => extra.toList ++ q) := by
    unfold zipMembers
    rw [List.map_map, List.map_map]
    apply List.map_congr_left
    intro e _
    cases extra <;> simp [member]
  rw [this]
  exact List.Nodup.map (fun a b h => List.append_cancel_left h) hsub

/-- C151: when the log can be called, every archive directory gets the same members. -/
theorem C151_every_archive_alike (log : Option Bool) (archives : List Name) (skip : Bool)
    (extra : Option Name) (top : Name) (files : List Entry) (hlog : log ≠ some false) :
    ∃ out, archiverZip log archives skip extra top files = .ok out ∧ out.map Prod.fst = archives ∧
      ∀ z ∈ out, z.2 = zipMembers skip extra top files := by
  have h : archiverLog log = true := by
    cases log with
    | none => rfl
    | some b => cases b with
      | false => exact absurd rfl hlog
      | true => rfl
  refine ⟨archives.map fun a => (a, zipMembers skip extra top files), by simp [archiverZip, h], ?_, ?_⟩
  · simp [Function.comp_def]
  · intro z hz
    obtain ⟨a, _, rfl⟩ := List.mem_map.1 hz
    rfl

/-- C151 fails: an archiver told to be silent cannot zip anything. -/
theorem C151_fails_silent_archiver (archives : List Name) (h : archives ≠ []) (skip : Bool)
    (extra : Option Name) (top : Name) (files : List Entry) :
    archiverZip (some false) archives skip extra top files = .error .notCallable := by
  cases archives with
  | nil => exact absurd rfl h
  | cons a l => simp [archiverZip, archiverLog]

/-- C151 fails: a file in a plainly named subfolder of a hidden folder is archived although dot
folders are to be left out. -/
theorem C151_fails_below_hidden_folder (extra : Option Name) (top hidden sub name : Name) (b : Bytes)
    (hsub : ∀ rest : Name, sub ≠ '.' :: rest) (hname : ∀ rest : Name, name ≠ '.' :: rest) :
    zipMembers true extra top [⟨['.' :: hidden, sub], name, b⟩] =
      [(extra.toList ++ ['.' :: hidden, sub] ++ [name], b)] ∧ ¬ InTheOpen ⟨['.' :: hidden, sub], name, b⟩ := by
  have h1 : dotted sub = false := by
    cases h : dotted sub with
    | false => rfl
    | true => obtain ⟨r, hr⟩ := (ar_dotted_iff _).1 h; exact absurd hr (hsub r)
  have h2 : dotted name = false := by
    cases h : dotted name with
    | false => rfl
    | true => obtain ⟨r, hr⟩ := (ar_dotted_iff _).1 h; exact absurd hr (hname r)
  constructor
  · simp [zipMembers, takes, folderOf, h1, h2]
    cases extra <;> rfl
  · intro h
    exact h ('.' :: hidden) (by simp) hidden rfl

/-- C151 fails: when the source directory is given as `"."`, the files directly in it are left
out although nothing about them is hidden. -/
theorem C151_fails_current_directory (extra : Option Name) (name : Name) (b : Bytes)
    (hname : ∀ rest : Name, name ≠ '.' :: rest) :
    zipMembers true extra ".".toList [⟨[], name, b⟩] = [] ∧ InTheOpen ⟨[], name, b⟩ := by
  constructor
  · simp [zipMembers, takes, folderOf, dotted]
  · intro part hp
    simp only [List.nil_append, List.mem_singleton] at hp
    subst hp
    exact hname

/-! ## Non-vacuity -/

/-- The reader of the examples is refused twice and then reads. -/
def refusedTwice : Nat → Option Nat := fun i => if i < 2 then some 0 else none

example : RefusedAtOpen refusedTwice 2 ∧ 2 < 5 :=
  ⟨⟨fun i h => by simp [refusedTwice, h], rfl⟩, by decide⟩

example : olderCopy "s/a".toList = some [1] ∧ ¬ ".gz".toList <:+ "s/a".toList := by
  constructor <;> decide

example : ∀ b, plainUngz (plainGz b) = some b := fun _ => rfl

example : ["a.gz".toList, "a".toList].Perm (targets "s".toList ["a".toList, "a.gz".toList] [fun _ => true] ".sha256.txt".toList) ∧
    (∀ f ∈ ["a".toList, "a.gz".toList], FlatName f ∧ ∃ b, olderCopy (join "s".toList f) = some b) := by
  refine ⟨by decide, ?_⟩
  intro f hf
  simp only [List.mem_cons, List.not_mem_nil, or_false] at hf
  rcases hf with rfl | rfl
  · exact ⟨by unfold FlatName; decide, [1], by decide⟩
  · exact ⟨by unfold FlatName; decide, [31, 2], by decide⟩

example : (∀ f, f ++ ".gz".toList ∈ ["a.gz".toList, "a".toList] →
    ∃ b c, olderCopy (join "s".toList (f ++ ".gz".toList)) = some b ∧ plainUngz b = some c) := by
  intro f hf
  simp only [List.mem_cons, List.not_mem_nil, or_false] at hf
  rcases hf with h | h
  · rw [h]; exact ⟨[31, 2], [2], by decide, rfl⟩
  · have := congrArg List.length h
    simp at this

example : zipMembers true none "data".toList
    [⟨["sub".toList], "f".toList, [1]⟩, ⟨[".git".toList], "g".toList, [2]⟩, ⟨[], ".h".toList, [3]⟩] =
    [(["sub".toList, "f".toList], [1])] := by decide

example : InTheOpen ⟨["sub".toList], "f".toList, [1]⟩ := by
  intro part hp rest
  simp only [List.cons_append, List.nil_append, List.mem_cons, List.not_mem_nil, or_false] at hp
  rcases hp with rfl | rfl <;> simp

end Larch.Props
