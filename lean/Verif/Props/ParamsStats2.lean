import Verif.Props.ParamsStats

/-!
# C87 (continued): rho squared; C88: caps; C89: the ordered parameter table
-/

namespace Larch.Props

open Larch.Params

/-- **C87 (scanning).** On a model whose specification changed since the last scan, the likelihood ratio is that of the
re-scanned model. -/
theorem C87_rescan (m : Mentions) (L : List (String × X) → Except String X) (s : LR) (p : String) (ref : Option X) :
    likelihoodRatio m L s p ref = likelihoodRatio m L { s with frame := unmangle m false s.frame } p ref := by
  have h : loglike m L (unmangle m false s.frame) = loglike m L s.frame := by
    unfold loglike
    rw [unmangle_noop m (unmangle m false s.frame) (unmangle_done m s.frame)]
  unfold likelihoodRatio
  simp only
  rw [h]

/-- **C87 (rho squared).** On a scanned model without a cached null log likelihood (or with `use_cache=False`), all parameters
free: `rho_sq_null` is `1 - (LL(current) - k) / LL(null)`, where `k` is 0 or, adjusted, the number of free parameters; and the
settings are afterwards what they were. -/
theorem C87_rho (m : Mentions) (L : List (String × X) → Except String X) (f : Frame) (c adj : Bool) (a b : ℝ)
    (hm : f.mangled = false) (hc : f.cachedNull = .fin 0 ∨ c = false)
    (hnull : ∀ r ∈ f.rows, r.null ≠ .nan) (hval : ∀ r ∈ f.rows, r.value ≠ .nan) (hfree : ∀ r ∈ f.rows, r.holdfast = some 0)
    (ha : L f.values = .ok (.fin a)) (hb : L (f.rows.map (fun r => (r.name, r.null))) = .ok (.fin b)) (hb0 : b ≠ 0) :
    (rhoSqNull m L f c adj).2 = .ok (.fin (1 - (a - if adj then (f.rows.length : ℝ) else 0) / b)) ∧
    settings (rhoSqNull m L f c adj).1 = settings f := by
  have hl := loglike_core m L f hm
  unfold rhoSqNull
  simp only
  have hcached : (loglike m L f).1.cachedNull = f.cachedNull := by
    unfold loglike
    simp only
    rw [unmangle_noop m f hm, ha]
    simp only [checkIfBest]
    split <;> rfl
  cases hll : loglike m L f with
  | mk f1 res =>
  rw [hll] at hl hcached
  obtain ⟨h1, h2, h3⟩ := hl
  simp only at h1 h2 h3 hcached
  rw [ha] at h3
  subst h3
  simp only
  have hmem : ∀ r ∈ f1.rows, ∃ r0 ∈ f.rows, core r0 = core r := by
    intro r hr
    have : core r ∈ f.rows.map core := by rw [← h1]; exact List.mem_map_of_mem hr
    exact List.mem_map.mp this
  have hnull1 : ∀ r ∈ f1.rows, r.holdfast = some 0 → r.null ≠ .nan := by
    intro r hr _
    obtain ⟨r0, hr0, e⟩ := hmem r hr
    rw [← core_null e]; exact hnull r0 hr0
  have hval1 : ∀ r ∈ f1.rows, r.holdfast = some 0 → r.value ≠ .nan := by
    intro r hr _
    obtain ⟨r0, hr0, e⟩ := hmem r hr
    rw [← core_value e]; exact hval r0 hr0
  have hat : atNull f1 = f.rows.map (fun r => (r.name, r.null)) := by
    have e0 : atNull f1 = f1.rows.map (fun r => (r.name, r.null)) := by
      refine C22_at_null f1 ?_
      intro r hr hh
      obtain ⟨r0, hr0, e⟩ := hmem r hr
      exact absurd ((core_holdfast e).symm.trans (hfree r0 hr0)) hh
    have e : ∀ l : List Row, l.map (fun r => (r.name, r.null)) = (l.map core).map (fun r => (r.name, r.null)) := by
      intro l; rw [List.map_map]; rfl
    rw [e0, e f1.rows, h1, ← e]
  obtain ⟨q1, q2, q3, q4⟩ := C22_restores_partial m L f1 c h2 (by rw [hcached]; exact hc) hnull1 hval1 (.fin b)
    (by rw [hat]; exact hb)
  cases hn : loglikeNull m L f1 c with
  | mk f2 res2 =>
  rw [hn] at q1 q2 q3 q4
  simp only at q1 q2 q3 q4
  subst q1
  have hfl : f.rows.filter Row.free = f.rows := by
    rw [List.filter_eq_self]
    intro r hr
    simp [Row.free, hfree r hr]
  refine ⟨?_, settings_core (f := f2) (g := f) (q3.trans h1)⟩
  simp only [hfl]
  congr 1
  cases adj
  · simp only [Bool.false_eq_true, if_false, X.fin_sub, X.fin_div hb0]
  · simp only [if_true, X.fin_sub, X.fin_div hb0]

/-- **C87 violated (adjusted rho squared before the first scan).** The number of free parameters is counted before the model
is scanned: on a model that has not been scanned the adjustment counts none of its parameters. -/
theorem C87_fails_unscanned (L : List (String × X) → Except String X)
    (hL : L [("x", .fin 0)] = .ok (.fin (-10))) :
    (rhoSqNull ⟨["x"], [], []⟩ L ⟨[], false, true, .ninf, .fin 0⟩ true true).2 = .ok (.fin 0) := by
  have hs : scanAll ⟨["x"], [], []⟩ [] = [emptyRow (.fin 0) (.fin 0) .ninf .pinf "x"] := by
    simp [scanAll, ensureNames, List.insertionSort]
  have hu : unmangle ⟨["x"], [], []⟩ false ⟨[], false, true, .ninf, .fin 0⟩ =
      ⟨[emptyRow (.fin 0) (.fin 0) .ninf .pinf "x"], false, false, .ninf, .fin 0⟩ := by
    simp [unmangle, hs]
  have e : rhoSqNull ⟨["x"], [], []⟩ L ⟨[], false, true, .ninf, .fin 0⟩ true true =
      rhoSqNull ⟨["x"], [], []⟩ L ⟨[emptyRow (.fin 0) (.fin 0) .ninf .pinf "x"], false, false, .ninf, .fin 0⟩ true false := by
    have hl : loglike ⟨["x"], [], []⟩ L ⟨[], false, true, .ninf, .fin 0⟩ =
        loglike ⟨["x"], [], []⟩ L ⟨[emptyRow (.fin 0) (.fin 0) .ninf .pinf "x"], false, false, .ninf, .fin 0⟩ := by
      unfold loglike
      rw [hu, unmangle_noop _ _ rfl]
    unfold rhoSqNull
    simp only [if_true, Bool.false_eq_true, if_false, hl, List.filter_nil, List.length_nil, Nat.cast_zero]
  rw [e]
  have := (C87_rho ⟨["x"], [], []⟩ L ⟨[emptyRow (.fin 0) (.fin 0) .ninf .pinf "x"], false, false, .ninf, .fin 0⟩ true false
    (-10) (-10) rfl (Or.inl rfl) (by simp [emptyRow]) (by simp [emptyRow]) (by simp [emptyRow])
    (by simpa [Frame.values, emptyRow] using hL) (by simpa [emptyRow] using hL) (by norm_num)).1
  rw [this]
  norm_num

/-- The adjusted value the same model gives once scanned: `-1/10`. -/
example (L : List (String × X) → Except String X) (hL : L [("x", .fin 0)] = .ok (.fin (-10))) :
    (rhoSqNull ⟨["x"], [], []⟩ L ⟨[emptyRow (.fin 0) (.fin 0) .ninf .pinf "x"], false, false, .ninf, .fin 0⟩ true true).2 =
      .ok (.fin (-1 / 10)) := by
  have := (C87_rho ⟨["x"], [], []⟩ L ⟨[emptyRow (.fin 0) (.fin 0) .ninf .pinf "x"], false, false, .ninf, .fin 0⟩ true true
    (-10) (-10) rfl (Or.inl rfl) (by simp [emptyRow]) (by simp [emptyRow]) (by simp [emptyRow])
    (by simpa [Frame.values, emptyRow] using hL) (by simpa [emptyRow] using hL) (by norm_num)).1
  rw [this]
  norm_num

/-! ## C88 -/

/-- Specification: the number lies within the bounds (`-inf`/`+inf` meaning none). -/
def Within (lo hi : X) (x : ℝ) : Prop := fle lo (.fin x) ∧ fle (.fin x) hi

theorem fle_total {a b : X} (ha : a ≠ .nan) (hb : b ≠ .nan) (h : ¬ fle a b) : fle b a := by
  cases a <;> cases b <;> simp_all [fle]
  exact le_of_lt h

theorem fle_trans {a b c : X} (h1 : fle a b) (h2 : fle b c) : fle a c := by
  cases a <;> cases b <;> cases c <;> simp_all [fle]
  exact le_trans h1 h2

theorem fmax_le {a b : X} (ha : a ≠ .nan) (hb : b ≠ .nan) (x : ℝ) : fle (fmax a b) (.fin x) ↔ fle a (.fin x) ∧ fle b (.fin x) := by
  unfold fmax
  rw [isNaN_false ha, isNaN_false hb]
  simp only [Bool.or_self, Bool.false_eq_true, if_false]
  split
  · next h => exact ⟨fun hx => ⟨fle_trans h hx, hx⟩, fun hx => hx.2⟩
  · next h => exact ⟨fun hx => ⟨hx, fle_trans (fle_total ha hb h) hx⟩, fun hx => hx.1⟩

theorem le_fmin {a b : X} (ha : a ≠ .nan) (hb : b ≠ .nan) (x : ℝ) : fle (.fin x) (fmin a b) ↔ fle (.fin x) a ∧ fle (.fin x) b := by
  unfold fmin
  rw [isNaN_false ha, isNaN_false hb]
  simp only [Bool.or_self, Bool.false_eq_true, if_false]
  split
  · next h => exact ⟨fun hx => ⟨hx, fle_trans hx h⟩, fun hx => hx.1⟩
  · next h => exact ⟨fun hx => ⟨fle_trans hx (fle_total ha hb h), hx⟩, fun hx => hx.2⟩

theorem fmax_num {a b : X} (ha : a ≠ .nan) (hb : b ≠ .nan) : fmax a b ≠ .nan := by
  unfold fmax
  rw [isNaN_false ha, isNaN_false hb]
  simp only [Bool.or_self, Bool.false_eq_true, if_false]
  split <;> assumption

theorem fmin_num {a b : X} (ha : a ≠ .nan) (hb : b ≠ .nan) : fmin a b ≠ .nan := by
  unfold fmin
  rw [isNaN_false ha, isNaN_false hb]
  simp only [Bool.or_self, Bool.false_eq_true, if_false]
  split <;> assumption

/-- Between two ordered bounds of which one is finite there is a number. -/
theorem cap_point {mn mx : X} {c : ℝ} (hmn : mn ≠ .nan) (hmx : mx ≠ .nan)
    (h : fle (fmax mn (-X.fin c)) (fmin mx (.fin c))) : ∃ x : ℝ, Within mn mx x ∧ -c ≤ x ∧ x ≤ c := by
  have hc1 : (-X.fin c) ≠ .nan := by simp
  have hc2 : (X.fin c) ≠ .nan := by simp
  have key : ∃ x : ℝ, fle (fmax mn (-X.fin c)) (.fin x) ∧ fle (.fin x) (fmin mx (.fin c)) := by
    rw [X.fin_neg] at h ⊢
    have hlo : fle (.fin (-c)) (fmax mn (.fin (-c))) := by
      unfold fmax
      rw [isNaN_false hmn]
      simp only [X.isNaN, Bool.or_self, Bool.false_eq_true, if_false]
      split
      · simp [fle]
      · next hh => exact fle_total hmn (by simp) hh
    have hhi : fle (fmin mx (.fin c)) (.fin c) := by
      unfold fmin
      rw [isNaN_false hmx]
      simp only [X.isNaN, Bool.or_self, Bool.false_eq_true, if_false]
      split
      · next hh => exact hh
      · simp [fle]
    generalize fmax mn (.fin (-c)) = lo at h hlo
    generalize fmin mx (.fin c) = hi at h hhi
    cases lo with
    | fin a => exact ⟨a, by simp [fle], h⟩
    | ninf => simp [fle] at hlo
    | pinf => cases hi <;> simp [fle] at h hhi
    | nan => simp [fle] at hlo
  obtain ⟨x, h1, h2⟩ := key
  rw [fmax_le hmn hc1] at h1
  rw [le_fmin hmx hc2] at h2
  refine ⟨x, ⟨h1.1, h2.1⟩, ?_, ?_⟩
  · have := h1.2; simpa [fle] using this
  · have := h2.2; simpa [fle] using this

/-- **C88 (caps).** For every parameter with both bounds given: if its range meets `[-cap, cap]`, the new range is exactly
their intersection; if it does not, the bounds are unchanged.  Nothing else about the parameter changes. -/
theorem C88_cap (c : ℝ) (r : Row) (hmn : r.min ≠ .nan) (hmx : r.max ≠ .nan) :
    ((∃ x : ℝ, Within r.min r.max x ∧ -c ≤ x ∧ x ≤ c) →
      ∀ x : ℝ, Within (capRow (.fin c) r).min (capRow (.fin c) r).max x ↔ Within r.min r.max x ∧ -c ≤ x ∧ x ≤ c) ∧
    ((¬ ∃ x : ℝ, Within r.min r.max x ∧ -c ≤ x ∧ x ≤ c) →
      (capRow (.fin c) r).min = r.min ∧ (capRow (.fin c) r).max = r.max) ∧
    (capRow (.fin c) r).value = r.value ∧ (capRow (.fin c) r).init = r.init ∧ (capRow (.fin c) r).null = r.null ∧
    (capRow (.fin c) r).holdfast = r.holdfast ∧ (capRow (.fin c) r).name = r.name ∧ (capRow (.fin c) r).best = r.best := by
  have hc1 : (-X.fin c) ≠ .nan := by simp
  have hc2 : (X.fin c) ≠ .nan := by simp
  refine ⟨?_, ?_, rfl, rfl, rfl, rfl, rfl, rfl⟩
  · rintro ⟨y, hy, hy1, hy2⟩ x
    have hle : fle (fmax r.min (-X.fin c)) (fmin r.max (.fin c)) := by
      refine fle_trans (b := .fin y) ?_ ?_
      · rw [fmax_le hmn hc1]; exact ⟨hy.1, by simpa [fle] using hy1⟩
      · rw [le_fmin hmx hc2]; exact ⟨hy.2, by simpa [fle] using hy2⟩
    simp only [capRow, if_pos hle, fillna, isNaN_false (fmax_num hmn hc1), isNaN_false (fmin_num hmx hc2),
      Bool.false_eq_true, if_false, Within]
    rw [fmax_le hmn hc1, le_fmin hmx hc2]
    simp only [X.fin_neg, fle]
    tauto
  · intro h
    have hle : ¬ fle (fmax r.min (-X.fin c)) (fmin r.max (.fin c)) := fun hle => h (cap_point hmn hmx hle)
    simp only [capRow, if_neg hle, fillna, isNaN_false hmn, isNaN_false hmx, Bool.false_eq_true, if_false, and_self]

/-- **C88 (all parameters).** `set_cap` does this to every parameter of the (scanned) model and to nothing else. -/
theorem C88_all (m : Mentions) (f : Frame) (cap : X) :
    (setCap m f cap).rows = (unmangle m false f).rows.map (capRow cap) ∧
    (setCap m f cap).values = (unmangle m false f).values := by
  refine ⟨rfl, ?_⟩
  simp only [setCap, Frame.values, List.map_map]
  rfl

example : (∃ x : ℝ, Within (.fin (-100)) .pinf x ∧ -25 ≤ x ∧ x ≤ 25) ∧
    ¬ ∃ x : ℝ, Within (.fin 30) (.fin 40) x ∧ -25 ≤ x ∧ x ≤ 25 := by
  refine ⟨⟨0, ?_⟩, ?_⟩
  · simp [Within, fle]
  · rintro ⟨x, hx, _, h2⟩
    have := hx.1
    simp [fle] at this
    linarith

/-- **C88 violated (one bound missing).** A parameter with a missing (NaN) lower bound gets the lower bound `-cap`, but its
upper bound is not capped. -/
theorem C88_fails_missing (r : Row) (h : r.min = .nan) (c : ℝ) (hx : r.max ≠ .nan) :
    (capRow (.fin c) r).min = .fin (-c) ∧ (capRow (.fin c) r).max = r.max := by
  have hle : ¬ fle (fmax r.min (-X.fin c)) (fmin r.max (.fin c)) := by
    rw [h]; simp [fmax, X.isNaN, fle]
  simp only [capRow, if_neg hle, fillna, isNaN_false hx, Bool.false_eq_true, if_false, and_true]
  rw [h]
  simp [X.isNaN]

/-- **C88 violated (values out of bounds).** `set_cap` does not move the current value into the new range. -/
theorem C88_fails_value : ∃ r : Row, Within r.min r.max 40 ∧ r.value = .fin 40 ∧ (capRow (.fin 25) r).value = .fin 40 ∧
    ¬ Within (capRow (.fin 25) r).min (capRow (.fin 25) r).max 40 := by
  refine ⟨⟨"a", .fin 40, .fin 0, .fin 0, .ninf, .pinf, some 0, .nan⟩, ?_, rfl, rfl, ?_⟩
  · simp [Within, fle]
  · rw [(C88_cap 25 ⟨"a", .fin 40, .fin 0, .fin 0, .ninf, .pinf, some 0, .nan⟩ (by simp) (by simp)).1
      ⟨0, by simp [Within, fle]⟩]
    rintro ⟨_, _, h⟩
    norm_num at h

/-! ## C89 -/

section pfo

variable (srt : List String → List String) (matchp : String → String → Bool)

/-- Specification: does a category (its patterns) match the name? -/
def catMatches (pats : List String) (n : String) : Prop := ∃ pat ∈ pats, matchp pat n = true

/-- Specification: the category a name belongs to: the first that matches, else `Other`. -/
noncomputable def categoryOf (ordering : List (String × List String)) (n : String) : String :=
  open Classical in
  match ordering.find? (fun c => decide (catMatches matchp c.2 n)) with
  | some c => c.1
  | none => "Other"

theorem catLoop_spec (hs : ∀ l, (srt l).Perm l) : ∀ (pats acc ps : List String), ps.Nodup → acc.Nodup →
    (∀ n ∈ acc, n ∉ ps) →
    (∀ n, n ∈ (catLoop srt matchp pats acc ps).1 ↔ n ∈ acc ∨ (n ∈ ps ∧ catMatches matchp pats n)) ∧
    (∀ n, n ∈ (catLoop srt matchp pats acc ps).2 ↔ n ∈ ps ∧ ¬ catMatches matchp pats n) ∧
    (catLoop srt matchp pats acc ps).1.Nodup ∧ (catLoop srt matchp pats acc ps).2.Nodup := by
  intro pats
  induction pats with
  | nil =>
    intro acc ps h1 h2 h3
    refine ⟨?_, ?_, h2, h1⟩ <;> intro n <;> simp [catLoop, catMatches]
  | cons pat pats ih =>
    intro acc ps h1 h2 h3
    have hmem : ∀ n, n ∈ srt (ps.filter (matchp pat)) ↔ n ∈ ps ∧ matchp pat n = true := by
      intro n; rw [(hs _).mem_iff, List.mem_filter]
    have hacc : (acc ++ srt (ps.filter (matchp pat))).Nodup := by
      rw [List.nodup_append]
      refine ⟨h2, (hs _).nodup_iff.mpr (h1.filter _), ?_⟩
      rintro a ha b hb rfl
      exact h3 a ha ((hmem a).mp hb).1
    obtain ⟨i1, i2, i3, i4⟩ := ih (acc ++ srt (ps.filter (matchp pat)))
      (ps.filter (fun n => n ∉ acc ++ srt (ps.filter (matchp pat)))) (h1.filter _) hacc (by
        intro n hn hn2
        rw [List.mem_filter] at hn2
        simp only [decide_eq_true_eq] at hn2
        exact hn2.2 hn)
    refine ⟨?_, ?_, i3, i4⟩
    · intro n
      simp only [catLoop]
      rw [i1 n, List.mem_append, hmem n, List.mem_filter]
      simp only [decide_eq_true_eq, List.mem_append, hmem, catMatches, List.mem_cons, exists_eq_or_imp]
      constructor
      · rintro ((h | h) | h)
        · exact Or.inl h
        · exact Or.inr ⟨h.1, Or.inl h.2⟩
        · exact Or.inr ⟨h.1.1, Or.inr h.2⟩
      · rintro (h | ⟨h, h' | h'⟩)
        · exact Or.inl (Or.inl h)
        · exact Or.inl (Or.inr ⟨h, h'⟩)
        · by_cases hm : matchp pat n = true
          · exact Or.inl (Or.inr ⟨h, hm⟩)
          · by_cases ha : n ∈ acc
            · exact Or.inl (Or.inl ha)
            · exact Or.inr ⟨⟨h, fun hx => by rcases hx with hx | hx; exact ha hx; exact hm hx.2⟩, h'⟩
    · intro n
      simp only [catLoop]
      rw [i2 n, List.mem_filter]
      simp only [decide_eq_true_eq, List.mem_append, hmem, catMatches, List.mem_cons, exists_eq_or_imp]
      constructor
      · rintro ⟨⟨h, h'⟩, h''⟩
        refine ⟨h, ?_⟩
        rintro (hx | hx)
        · exact h' (Or.inr ⟨h, hx⟩)
        · exact h'' hx
      · rintro ⟨h, h'⟩
        refine ⟨⟨h, ?_⟩, fun hx => h' (Or.inr hx)⟩
        rintro (hx | hx)
        · exact h3 n hx h
        · exact h' (Or.inl hx.2)

theorem ordLoop_spec (hs : ∀ l, (srt l).Perm l) : ∀ (o : List (String × List String)) (ps : List String), ps.Nodup →
    (∀ c n, (c, n) ∈ (ordLoop srt matchp o ps).1.flatMap (fun cp => cp.2.map (fun p => (cp.1, p))) ↔
      n ∈ ps ∧ ∃ e, o.find? (fun e => open Classical in decide (catMatches matchp e.2 n)) = some e ∧ e.1 = c) ∧
    (∀ n, n ∈ (ordLoop srt matchp o ps).2 ↔
      n ∈ ps ∧ o.find? (fun e => open Classical in decide (catMatches matchp e.2 n)) = none) ∧
    (((ordLoop srt matchp o ps).1.flatMap (fun cp => cp.2.map (fun p => (cp.1, p)))).map Prod.snd).Nodup ∧
    (ordLoop srt matchp o ps).2.Nodup := by
  classical
  intro o
  induction o with
  | nil =>
    intro ps h
    exact ⟨by intro c n; simp [ordLoop], by intro n; simp [ordLoop], by simp [ordLoop], h⟩
  | cons e o ih =>
    intro ps h
    obtain ⟨c1, c2, c3, c4⟩ := catLoop_spec srt matchp hs e.2 [] ps h List.nodup_nil (by simp)
    obtain ⟨i1, i2, i3, i4⟩ := ih (catLoop srt matchp e.2 [] ps).2 c4
    refine ⟨?_, ?_, ?_, i4⟩
    · intro c n
      simp only [ordLoop, List.flatMap_cons, List.mem_append, i1 c n, c2 n, List.find?_cons]
      constructor
      · rintro (hx | hx)
        · obtain ⟨p, hp, he⟩ := List.mem_map.mp hx
          cases he
          rw [c1] at hp
          rcases hp with hp | hp
          · simp at hp
          · refine ⟨hp.1, e, ?_, rfl⟩
            simp [hp.2]
        · refine ⟨hx.1.1, ?_⟩
          simp only [hx.1.2, decide_false]
          exact hx.2
      · rintro ⟨h1, e', h2, h3⟩
        by_cases hm : catMatches matchp e.2 n
        · simp only [hm, decide_true] at h2
          cases h2
          refine Or.inl (List.mem_map.mpr ⟨n, ?_, by rw [h3]⟩)
          rw [c1]; exact Or.inr ⟨h1, hm⟩
        · simp only [hm, decide_false] at h2
          exact Or.inr ⟨⟨h1, hm⟩, e', h2, h3⟩
    · intro n
      simp only [ordLoop, i2 n, c2 n, List.find?_cons]
      by_cases hm : catMatches matchp e.2 n <;> simp [hm]
    · simp only [ordLoop, List.flatMap_cons, List.map_append, List.map_map]
      have e0 : (catLoop srt matchp e.2 [] ps).1.map (Prod.snd ∘ fun p => (e.1, p)) = (catLoop srt matchp e.2 [] ps).1 := by
        rw [show (Prod.snd ∘ fun p : String => (e.1, p)) = id from rfl, List.map_id]
      rw [e0, List.nodup_append]
      refine ⟨c3, i3, ?_⟩
      rintro a ha b hb rfl
      obtain ⟨⟨c, n⟩, hq, rfl⟩ := List.mem_map.mp hb
      rw [i1] at hq
      have h1 := (c2 n).mp hq.1
      rw [c1] at ha
      rcases ha with ha | ha
      · simp at ha
      · exact h1.2 ha.2

/-- **C89 (ordered table).** For any ordering, any way the patterns match and any sorting function: the pairs listed are
exactly (first category with a matching pattern, or `Other`; name), and each parameter is listed exactly once. -/
theorem C89_partition (hs : ∀ l, (srt l).Perm l) (ordering : List (String × List String)) (names : List String)
    (hnd : names.Nodup) :
    (∀ c n, (c, n) ∈ pfoTuples srt matchp ordering names ↔ n ∈ names ∧ c = categoryOf matchp ordering n) ∧
    ((pfoTuples srt matchp ordering names).map Prod.snd).Perm names := by
  classical
  obtain ⟨i1, i2, i3, i4⟩ := ordLoop_spec srt matchp hs ordering names hnd
  have hsnd : ∀ (l : List String), (l.map (fun p => ("Other", p))).map Prod.snd = l := by
    intro l; rw [List.map_map, show (Prod.snd ∘ fun p : String => ("Other", p)) = id from rfl, List.map_id]
  -- the shape of the list
  have hform : pfoTuples srt matchp ordering names =
      (ordLoop srt matchp ordering names).1.flatMap (fun cp => cp.2.map (fun p => (cp.1, p))) ++
        (srt (ordLoop srt matchp ordering names).2).map (fun p => ("Other", p)) := by
    unfold pfoTuples
    simp only
    split
    · next h0 =>
      have hnil : srt [] = [] := (hs []).eq_nil
      rw [h0, hnil, List.map_nil, List.append_nil]
    · rw [List.flatMap_append]; simp
  have hmem : ∀ c n, (c, n) ∈ pfoTuples srt matchp ordering names ↔ n ∈ names ∧ c = categoryOf matchp ordering n := by
    intro c n
    rw [hform, List.mem_append, i1 c n]
    unfold categoryOf
    constructor
    · rintro (⟨h1, e, h2, h3⟩ | h)
      · refine ⟨h1, ?_⟩
        rw [h2]; exact h3.symm
      · obtain ⟨p, hp, he⟩ := List.mem_map.mp h
        cases he
        rw [(hs _).mem_iff, i2] at hp
        refine ⟨hp.1, ?_⟩
        rw [hp.2]
    · rintro ⟨h1, h2⟩
      cases hf : ordering.find? (fun c => decide (catMatches matchp c.2 n)) with
      | some e =>
        rw [hf] at h2
        exact Or.inl ⟨h1, e, rfl, h2.symm⟩
      | none =>
        rw [hf] at h2
        refine Or.inr (List.mem_map.mpr ⟨n, ?_, by rw [h2]⟩)
        rw [(hs _).mem_iff, i2]
        exact ⟨h1, hf⟩
  refine ⟨hmem, ?_⟩
  rw [List.perm_ext_iff_of_nodup _ hnd]
  · intro n
    constructor
    · intro h
      obtain ⟨⟨c, n'⟩, hq, rfl⟩ := List.mem_map.mp h
      exact ((hmem c n').mp hq).1
    · intro h
      exact List.mem_map.mpr ⟨_, (hmem _ n).mpr ⟨h, rfl⟩, rfl⟩
  · rw [hform, List.map_append, hsnd, List.nodup_append]
    refine ⟨i3, (hs _).nodup_iff.mpr i4, ?_⟩
    rintro a ha b hb rfl
    obtain ⟨⟨c, n⟩, hq, rfl⟩ := List.mem_map.mp ha
    rw [i1] at hq
    rw [(hs _).mem_iff, i2] at hb
    obtain ⟨_, e, he, _⟩ := hq
    simp only at hb
    rw [he] at hb
    exact absurd hb.2 (by simp)

/-- **C89 (the rows).** With an ordering, `pfo()` lists every parameter of the (scanned) model exactly once, under its
category, with its own row of the frame. -/
theorem C89_rows (hs : ∀ l, (srt l).Perm l) (m : Mentions) (ordering : List (String × List String)) (f : Frame)
    (ho : ordering ≠ []) (hnd : f.names.Nodup) :
    ((pfo srt matchp m ordering f).map (fun e => e.2.1)).Perm (unmangle m false f).names ∧
    ∀ e ∈ pfo srt matchp m ordering f, e.1 = some (categoryOf matchp ordering e.2.1) ∧
      ∃ r ∈ (unmangle m false f).rows, r.name = e.2.1 ∧ e.2.2 = some r := by
  have hnd1 := unmangle_nodup m false f hnd
  obtain ⟨p1, p2⟩ := C89_partition srt matchp hs ordering _ hnd1
  have he : pfo srt matchp m ordering f = (pfoTuples srt matchp ordering (unmangle m false f).names).map
      (fun cp => (some cp.1, cp.2, rowOf (unmangle m false f).rows cp.2)) := if_neg ho
  rw [he]
  refine ⟨?_, ?_⟩
  · rw [List.map_map]; exact p2
  · intro e he
    obtain ⟨⟨c, n⟩, hq, rfl⟩ := List.mem_map.mp he
    obtain ⟨q1, q2⟩ := (p1 c n).mp hq
    obtain ⟨r, hr⟩ := get_isSome q1
    exact ⟨by rw [q2], r, get_mem hr, get_name hr, hr⟩

/-- **C89 (no ordering).** Without an ordering the table is the parameter frame. -/
theorem C89_plain (m : Mentions) (f : Frame) :
    pfo srt matchp m [] f = (unmangle m false f).rows.map (fun r => (none, r.name, some r)) := by
  unfold pfo; simp

end pfo

/-- The category of a name that matches two categories is the first; unmatched names are `Other`. -/
example : pfoTuples id (fun p n => p.length == n.length) [("A", ["xx", "y"]), ("B", ["z", "xxxx"])] ["a", "bb", "ccc", "dddd"] =
    [("A", "bb"), ("A", "a"), ("B", "dddd"), ("Other", "ccc")] := by decide +kernel

/-! ## C18: shift_values -/

/-- **C18 (shift).** `shift_values` with one finite shift per parameter, on a model with finite values, adds to every free
parameter its own shift and changes nothing else. -/
theorem C18_shift (m : Mentions) (f : Frame) (sh : List ℝ) (vals : List ℝ) (hm : f.mangled = false)
    (hl : sh.length = f.rows.length) (hv : f.rows.map Row.value = vals.map X.fin) :
    (shiftValues m f (sh.map X.fin)).2 = none ∧
    (shiftValues m f (sh.map X.fin)).1.rows.length = f.rows.length ∧
    ∀ (i : Nat) (r : Row) (v d : ℝ), f.rows[i]? = some r → r.value = .fin v → sh[i]? = some d →
      (shiftValues m f (sh.map X.fin)).1.rows[i]? =
        some (if r.holdfast = some 0 then { r with value := .fin (v + d) } else r) := by
  have hz : List.zipWith (· + ·) (f.rows.map Row.value) (sh.map X.fin) = (List.zipWith (· + ·) vals sh).map X.fin := by
    rw [hv]
    clear hl hv hm
    induction vals generalizing sh with
    | nil => simp
    | cons a l ih =>
      cases sh with
      | nil => simp
      | cons d t => simp [ih]
  have hlen : vals.length = f.rows.length := by
    have := congrArg List.length hv
    simpa using this.symm
  have e : shiftValues m f (sh.map X.fin) = setValues m f (.arr ((List.zipWith (· + ·) vals sh).map X.fin)) true [] := by
    unfold shiftValues
    simp only
    rw [unmangle_noop m f hm, hz]
  obtain ⟨h1, h2, h3⟩ := C18_array m f ((List.zipWith (· + ·) vals sh).map X.fin) true (by simp [hl, hlen]) (by
    intro i r v _ hv' _
    rw [List.getElem?_map] at hv'
    obtain ⟨w, _, rfl⟩ := Option.map_eq_some_iff.mp hv'
    simp)
  rw [e]
  refine ⟨h1, h2, ?_⟩
  intro i r v d hr hrv hd
  have hvi : vals[i]? = some v := by
    have := congrArg (fun l => l[i]?) hv
    simp only [List.getElem?_map, hr, Option.map_some, hrv] at this
    obtain ⟨w, hw, he⟩ := Option.map_eq_some_iff.mp this.symm
    cases he; exact hw
  rw [h3 i r (.fin (v + d)) hr (by simp [List.getElem?_zipWith, hvi, hd])]
  simp

example : lrFrame.mangled = false ∧ [(1 : ℝ), 2, 3].length = lrFrame.rows.length ∧
    lrFrame.rows.map Row.value = [(3 : ℝ), 5, 2].map X.fin := by
  simp [lrFrame]

end Larch.Props
