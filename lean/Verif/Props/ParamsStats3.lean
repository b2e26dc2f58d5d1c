import Verif.Props.ParamsStats2

/-!
# C89 (continued): the order of the ordered parameter table
-/

namespace Larch.Props

open Larch.Params

section order

variable (srt : List String → List String) (matchp : String → String → Bool) (le : String → String → Prop)

/-- Specification: the position of the first pattern matching the name. -/
def patRank (pats : List String) (n : String) : Nat := pats.findIdx (fun p => matchp p n)

/-- Specification: the position of the first category with a matching pattern (the number of categories if none). -/
def catRank : List (String × List String) → String → Nat
  | [], _ => 0
  | c :: o, n => if c.2.any (fun p => matchp p n) then 0 else catRank o n + 1

/-- Specification: the position of the first matching pattern within that first matching category. -/
def inRank : List (String × List String) → String → Nat
  | [], _ => 0
  | c :: o, n => if c.2.any (fun p => matchp p n) then patRank matchp c.2 n else inRank o n

/-- Specification: the order of the table: by category as listed (`Other` last), then by pattern as listed, then
alphabetically. -/
def Before (o : List (String × List String)) (a b : String) : Prop :=
  catRank matchp o a < catRank matchp o b ∨ (catRank matchp o a = catRank matchp o b ∧
    (inRank matchp o a < inRank matchp o b ∨ (inRank matchp o a = inRank matchp o b ∧ le a b)))

theorem catLoop_order (hs : ∀ l, (srt l).Perm l) (hle : ∀ l, (srt l).Pairwise le) : ∀ (pats acc ps : List String),
    ∃ X, (catLoop srt matchp pats acc ps).1 = acc ++ X ∧
      (∀ n ∈ X, n ∈ ps ∧ pats.any (fun p => matchp p n) = true) ∧
      (∀ n ∈ (catLoop srt matchp pats acc ps).2, n ∈ ps ∧ (pats.any (fun p => matchp p n) = false)) ∧
      X.Pairwise (fun a b => patRank matchp pats a < patRank matchp pats b ∨
        (patRank matchp pats a = patRank matchp pats b ∧ le a b)) := by
  intro pats
  induction pats with
  | nil => intro acc ps; exact ⟨[], by simp [catLoop], by simp, by simp [catLoop], List.Pairwise.nil⟩
  | cons pat pats ih =>
    intro acc ps
    obtain ⟨X, h1, h2, h3, h4⟩ := ih (acc ++ srt (ps.filter (matchp pat)))
      (ps.filter (fun n => n ∉ acc ++ srt (ps.filter (matchp pat))))
    have hmem : ∀ n, n ∈ srt (ps.filter (matchp pat)) ↔ n ∈ ps ∧ matchp pat n = true := by
      intro n; rw [(hs _).mem_iff, List.mem_filter]
    have hnot : ∀ n, n ∈ ps.filter (fun n => n ∉ acc ++ srt (ps.filter (matchp pat))) → n ∈ ps ∧ matchp pat n = false := by
      intro n hn
      rw [List.mem_filter] at hn
      refine ⟨hn.1, ?_⟩
      have h := hn.2
      simp only [decide_eq_true_eq, List.mem_append, hmem, not_or, not_and] at h
      simpa using h.2 hn.1
    refine ⟨srt (ps.filter (matchp pat)) ++ X, ?_, ?_, ?_, ?_⟩
    · simp only [catLoop]
      rw [h1, List.append_assoc]
    · intro n hn
      rcases List.mem_append.mp hn with hn | hn
      · exact ⟨((hmem n).mp hn).1, by simp [((hmem n).mp hn).2]⟩
      · obtain ⟨q1, q2⟩ := h2 n hn
        exact ⟨(hnot n q1).1, by simp only [List.any_cons, q2, Bool.or_true]⟩
    · intro n hn
      simp only [catLoop] at hn
      obtain ⟨q1, q2⟩ := h3 n hn
      obtain ⟨r1, r2⟩ := hnot n q1
      exact ⟨r1, by simp only [List.any_cons, q2, r2, Bool.or_self]⟩
    · have z : ∀ n, matchp pat n = true → patRank matchp (pat :: pats) n = 0 := by
        intro n hn; simp [patRank, List.findIdx_cons, hn]
      have s : ∀ n, matchp pat n = false → patRank matchp (pat :: pats) n = patRank matchp pats n + 1 := by
        intro n hn; simp [patRank, List.findIdx_cons, hn]
      rw [List.pairwise_append]
      refine ⟨?_, ?_, ?_⟩
      · refine (List.Pairwise.and_mem.mp (hle (ps.filter (matchp pat)))).imp ?_
        rintro a b ⟨ha, hb, hab⟩
        refine Or.inr ⟨?_, hab⟩
        rw [z a ((hmem a).mp ha).2, z b ((hmem b).mp hb).2]
      · refine (List.Pairwise.and_mem.mp h4).imp ?_
        rintro a b ⟨ha, hb, hab⟩
        rw [s a (hnot a (h2 a ha).1).2, s b (hnot b (h2 b hb).1).2]
        rcases hab with hab | ⟨hab, hl⟩
        · exact Or.inl (by omega)
        · exact Or.inr ⟨by omega, hl⟩
      · intro a ha b hb
        refine Or.inl ?_
        rw [z a ((hmem a).mp ha).2, s b (hnot b (h2 b hb).1).2]
        omega

theorem ordLoop_order (hs : ∀ l, (srt l).Perm l) (hle : ∀ l, (srt l).Pairwise le) : ∀ (o : List (String × List String))
    (ps : List String),
    ((((ordLoop srt matchp o ps).1.flatMap (fun cp => cp.2.map (fun p => (cp.1, p)))).map Prod.snd) ++
      srt (ordLoop srt matchp o ps).2).Pairwise (Before matchp le o) ∧
    ∀ n ∈ (((ordLoop srt matchp o ps).1.flatMap (fun cp => cp.2.map (fun p => (cp.1, p)))).map Prod.snd) ++
      srt (ordLoop srt matchp o ps).2, n ∈ ps := by
  intro o
  induction o with
  | nil =>
    intro ps
    simp only [ordLoop, List.flatMap_nil, List.map_nil, List.nil_append]
    exact ⟨(hle ps).imp (fun h => Or.inr ⟨rfl, Or.inr ⟨rfl, h⟩⟩), fun n hn => (hs _).mem_iff.mp hn⟩
  | cons e o ih =>
    intro ps
    obtain ⟨X, h1, h2, h3, h4⟩ := catLoop_order srt matchp le hs hle e.2 [] ps
    rw [List.nil_append] at h1
    obtain ⟨i1, i2⟩ := ih (catLoop srt matchp e.2 [] ps).2
    have e0 : (catLoop srt matchp e.2 [] ps).1.map (Prod.snd ∘ fun p => (e.1, p)) = X := by
      rw [show (Prod.snd ∘ fun p : String => (e.1, p)) = id from rfl, List.map_id, h1]
    simp only [ordLoop, List.flatMap_cons, List.map_append, List.map_map, List.append_assoc]
    rw [e0]
    have cy : ∀ n, e.2.any (fun p => matchp p n) = true → catRank matchp (e :: o) n = 0 ∧
        inRank matchp (e :: o) n = patRank matchp e.2 n := by
      intro n hn; simp only [catRank, inRank, hn, if_true, and_self]
    have cn : ∀ n, e.2.any (fun p => matchp p n) = false → catRank matchp (e :: o) n = catRank matchp o n + 1 ∧
        inRank matchp (e :: o) n = inRank matchp o n := by
      intro n hn; simp only [catRank, inRank, hn, Bool.false_eq_true, if_false, and_self]
    refine ⟨?_, ?_⟩
    · rw [List.pairwise_append]
      refine ⟨?_, ?_, ?_⟩
      · refine (List.Pairwise.and_mem.mp h4).imp ?_
        rintro a b ⟨ha, hb, hab⟩
        obtain ⟨a1, a2⟩ := cy a (h2 a ha).2
        obtain ⟨b1, b2⟩ := cy b (h2 b hb).2
        refine Or.inr ⟨by rw [a1, b1], ?_⟩
        rw [a2, b2]; exact hab
      · refine (List.Pairwise.and_mem.mp i1).imp ?_
        rintro a b ⟨ha, hb, hab⟩
        obtain ⟨a1, a2⟩ := cn a (h3 a (i2 a ha)).2
        obtain ⟨b1, b2⟩ := cn b (h3 b (i2 b hb)).2
        unfold Before
        rw [a1, b1, a2, b2]
        rcases hab with hab | ⟨hab, hl⟩
        · exact Or.inl (by omega)
        · exact Or.inr ⟨by omega, hl⟩
      · intro a ha b hb
        refine Or.inl ?_
        rw [(cy a (h2 a ha).2).1, (cn b (h3 b (i2 b hb)).2).1]
        omega
    · intro n hn
      rcases List.mem_append.mp hn with hn | hn
      · exact (h2 n hn).1
      · exact (h3 n (i2 n hn)).1

/-- **C89 (order).** With a sorting function that sorts, the parameters are listed category by category in the order of the
ordering (unmatched ones last), within a category pattern by pattern, and alphabetically within a pattern. -/
theorem C89_order (hs : ∀ l, (srt l).Perm l) (hle : ∀ l, (srt l).Pairwise le) (m : Mentions)
    (ordering : List (String × List String)) (f : Frame) (ho : ordering ≠ []) :
    ((pfo srt matchp m ordering f).map (fun e => e.2.1)).Pairwise (Before matchp le ordering) := by
  have he : pfo srt matchp m ordering f = (pfoTuples srt matchp ordering (unmangle m false f).names).map
      (fun cp => (some cp.1, cp.2, rowOf (unmangle m false f).rows cp.2)) := if_neg ho
  rw [he, List.map_map]
  have h := (ordLoop_order srt matchp le hs hle ordering (unmangle m false f).names).1
  have hform : (pfoTuples srt matchp ordering (unmangle m false f).names).map Prod.snd =
      (((ordLoop srt matchp ordering (unmangle m false f).names).1.flatMap (fun cp => cp.2.map (fun p => (cp.1, p)))).map
        Prod.snd) ++ srt (ordLoop srt matchp ordering (unmangle m false f).names).2 := by
    unfold pfoTuples
    simp only
    split
    · next h0 =>
      have hnil : srt [] = [] := (hs []).eq_nil
      rw [h0, hnil, List.append_nil]
    · rw [List.flatMap_append, List.map_append]
      congr 1
      simp only [List.flatMap_cons, List.flatMap_nil, List.append_nil, List.map_map]
      rw [show (Prod.snd ∘ fun p : String => ("Other", p)) = id from rfl, List.map_id]
  rw [← hform] at h
  exact h

end order

/-- A sorting function as assumed exists: insertion sort. -/
example : (∀ l : List String, (l.insertionSort (· ≤ ·)).Perm l) ∧ ∀ l : List String, (l.insertionSort (· ≤ ·)).Pairwise (· ≤ ·) :=
  ⟨fun l => List.perm_insertionSort _ l, fun l => List.pairwise_insertionSort _ l⟩

example : Before (fun p n => p.length == n.length) (· ≤ ·) [("A", ["xx", "y"]), ("B", ["z", "xxxx"])] "bb" "a" ∧
    ¬ Before (fun p n => p.length == n.length) (· ≤ ·) [("A", ["xx", "y"]), ("B", ["z", "xxxx"])] "dddd" "a" := by
  constructor
  · right; exact ⟨by decide +kernel, Or.inl (by decide +kernel)⟩
  · rintro (h | ⟨h, _⟩)
    · exact absurd h (by decide +kernel)
    · exact absurd h (by decide +kernel)

/-! ## C87, C88: held-fast parameters, missing bounds -/

/-- **C87 (rho squared, held-fast parameters).** With any parameters held fast: `rho_sq_null` is `1 - (LL(current) - k) / LL(null)`,
`k` being 0 or, adjusted, the number of parameters that are not held fast, and `LL(null)` the log likelihood with those
parameters at their null values; the settings are afterwards what they were. -/
theorem C87_rho_held (m : Mentions) (L : List (String × X) → Except String X) (f : Frame) (c adj : Bool) (a b : ℝ)
    (hm : f.mangled = false) (hc : f.cachedNull = .fin 0 ∨ c = false)
    (hnull : ∀ r ∈ f.rows, r.null ≠ .nan) (hval : ∀ r ∈ f.rows, r.value ≠ .nan)
    (ha : L f.values = .ok (.fin a))
    (hb : L (f.rows.map (fun r => (r.name, if r.holdfast = some 0 then r.null else r.value))) = .ok (.fin b)) (hb0 : b ≠ 0) :
    (rhoSqNull m L f c adj).2 =
      .ok (.fin (1 - (a - if adj then (f.rows.countP (fun r => r.holdfast = some 0) : ℝ) else 0) / b)) ∧
    settings (rhoSqNull m L f c adj).1 = settings f := by
  have hl := loglike_core m L f hm
  unfold rhoSqNull
  simp only
  have hcached : (loglike m L f).1.cachedNull = f.cachedNull := by
    unfold loglike
    simp only
    rw [unmangle_noop m f hm, ha]
    simp only [checkIfBest]
    split <;> rfl
  cases hll : loglike m L f with
  | mk f1 res =>
  rw [hll] at hl hcached
  obtain ⟨h1, h2, h3⟩ := hl
  simp only at h1 h2 h3 hcached
  rw [ha] at h3
  subst h3
  simp only
  have hmem : ∀ r ∈ f1.rows, ∃ r0 ∈ f.rows, core r0 = core r := by
    intro r hr
    have : core r ∈ f.rows.map core := by rw [← h1]; exact List.mem_map_of_mem hr
    exact List.mem_map.mp this
  have hnull1 : ∀ r ∈ f1.rows, r.holdfast = some 0 → r.null ≠ .nan := by
    intro r hr _
    obtain ⟨r0, hr0, e⟩ := hmem r hr
    rw [← core_null e]; exact hnull r0 hr0
  have hval1 : ∀ r ∈ f1.rows, r.holdfast = some 0 → r.value ≠ .nan := by
    intro r hr _
    obtain ⟨r0, hr0, e⟩ := hmem r hr
    rw [← core_value e]; exact hval r0 hr0
  have hat : atNull f1 = f.rows.map (fun r => (r.name, if r.holdfast = some 0 then r.null else r.value)) := by
    have e : ∀ l : List Row, l.map (fun r => (r.name, if r.holdfast = some 0 then r.null else r.value)) =
        (l.map core).map (fun r => (r.name, if r.holdfast = some 0 then r.null else r.value)) := by
      intro l; rw [List.map_map]; rfl
    unfold atNull
    rw [e f1.rows, h1, ← e]
  obtain ⟨q1, q2, q3, q4⟩ := C22_restores_partial m L f1 c h2 (by rw [hcached]; exact hc) hnull1 hval1 (.fin b)
    (by rw [hat]; exact hb)
  cases hn : loglikeNull m L f1 c with
  | mk f2 res2 =>
  rw [hn] at q1 q2 q3 q4
  simp only at q1 q2 q3 q4
  subst q1
  have hfl : (f.rows.filter Row.free).length = f.rows.countP (fun r => r.holdfast = some 0) := by
    rw [List.countP_eq_length_filter]; rfl
  refine ⟨?_, settings_core (f := f2) (g := f) (q3.trans h1)⟩
  simp only [hfl]
  congr 1
  cases adj
  · simp only [Bool.false_eq_true, if_false, X.fin_sub, X.fin_div hb0]
  · simp only [if_true, X.fin_sub, X.fin_div hb0]

/-- A frame with a parameter held fast at another value than its null value. -/
example : let f : Frame := ⟨[⟨"a", .fin 3, .fin 0, .fin 0, .ninf, .pinf, some 0, .nan⟩,
      ⟨"b", .fin 2, .fin 1, .fin 0, .fin (-5), .fin 5, some 1, .nan⟩], false, false, .ninf, .fin 0⟩
    (∀ r ∈ f.rows, r.null ≠ .nan) ∧ (∀ r ∈ f.rows, r.value ≠ .nan) ∧ f.rows.countP (fun r => r.holdfast = some 0) = 1 := by
  simp

/-- **C88 (missing bounds are filled in).** A missing upper bound becomes `cap` and a missing lower bound `-cap`, whatever the
other bound. -/
theorem C88_missing (r : Row) (c : ℝ) :
    (r.min = .nan → (capRow (.fin c) r).min = .fin (-c)) ∧ (r.max = .nan → (capRow (.fin c) r).max = .fin c) := by
  constructor
  · intro h
    have hle : ¬ fle (fmax r.min (-X.fin c)) (fmin r.max (.fin c)) := by
      rw [h]; simp [fmax, X.isNaN, fle]
    simp only [capRow, if_neg hle, fillna]
    rw [h]; simp [X.isNaN]
  · intro h
    have hle : ¬ fle (fmax r.min (-X.fin c)) (fmin r.max (.fin c)) := by
      rw [h]
      have : fmin .nan (.fin c) = .nan := by simp [fmin, X.isNaN]
      rw [this]
      cases fmax r.min (-X.fin c) <;> simp [fle]
    simp only [capRow, if_neg hle, fillna]
    rw [h]; simp [X.isNaN]

end Larch.Props
