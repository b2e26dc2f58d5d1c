import Verif.Model.ShowText
import Mathlib.Tactic.Ring

/-! # C199: texts for display -/

namespace Larch.Props

open Larch.ShowText

/-! ## Paths -/

theorem st_trim (m : Nat) : ∀ l : List Text, l ≠ [] →
    ∃ pre suf, l = pre ++ suf ∧ suf ≠ [] ∧ trim m l = dotted suf ∧ ((dotted suf).length ≤ m ∨ suf.length = 1) ∧
      ∀ pre' suf', l = pre' ++ suf' → suf.length < suf'.length → m < (dotted suf').length
  | [], h => absurd rfl h
  | [b], _ => ⟨[], [b], rfl, by simp, rfl, Or.inr rfl, fun pre' suf' h hl => by
      have := congrArg List.length h
      simp only [List.length_append, List.length_singleton] at this hl
      omega⟩
  | a :: b :: r, _ => by
    rw [trim]
    by_cases hf : (dotted (a :: b :: r)).length ≤ m
    · rw [if_pos hf]
      refine ⟨[], a :: b :: r, rfl, by simp, rfl, Or.inl hf, fun pre' suf' h hl => ?_⟩
      have := congrArg List.length h
      simp only [List.length_append] at this
      omega
    · rw [if_neg hf]
      obtain ⟨pre, suf, h1, h2, h3, h4, h5⟩ := st_trim m (b :: r) (by simp)
      refine ⟨a :: pre, suf, by rw [h1]; rfl, h2, h3, h4, fun pre' suf' h hl => ?_⟩
      cases pre' with
      | nil =>
        rw [List.nil_append] at h
        rw [← h]; omega
      | cons c q =>
        rw [List.cons_append, List.cons.injEq] at h
        exact h5 q suf' h.2 hl

/-- **C199, short paths.** A path that fits is shown as it is. -/
theorem C199_path_fits (p : Path) (m : Nat) (h : p.str.length ≤ m) : truncate p m = p.str := by
  unfold truncate
  rw [if_pos h]

/-- **C199, long paths.** Another path of more than one part is shown as `⋯/` and its last parts: as many of them (without the first) as fit, but at
least the file name, which is never cut. -/
theorem C199_path_cut (p : Path) (m : Nat) (h : m < p.str.length) (h2 : 1 < p.parts.length) :
    ∃ pre suf, p.parts = pre ++ suf ∧ pre ≠ [] ∧ suf ≠ [] ∧ truncate p m = join ['/'] (['⋯'] :: suf) ∧
      ((join ['/'] (['⋯'] :: suf)).length ≤ m ∨ suf.length = 1) ∧
      ∀ pre' suf', p.parts = pre' ++ suf' → pre' ≠ [] → suf.length < suf'.length → m < (join ['/'] (['⋯'] :: suf')).length := by
  cases hp : p.parts with
  | nil => rw [hp] at h2; simp at h2
  | cons a l =>
    rw [hp] at h2
    obtain ⟨pre, suf, h1, h3, h4, h5, h6⟩ := st_trim m l (by rintro rfl; simp at h2)
    refine ⟨a :: pre, suf, by rw [h1]; rfl, by simp, h3, ?_, h5, fun pre' suf' h' hp' hl => ?_⟩
    · unfold truncate
      rw [if_neg (by omega), hp]
      exact h4
    · cases pre' with
      | nil => exact absurd rfl hp'
      | cons c q =>
        rw [List.cons_append, List.cons.injEq] at h'
        exact h6 q suf' h'.2 hl

example : truncate ⟨true, ["home".toList, "user".toList, "data".toList, "x.h5".toList]⟩ 12 = "⋯/data/x.h5".toList := by decide +kernel

theorem st_join_length (s : Char) : ∀ l : List Text, l ≠ [] → (join [s] l).length + 1 = (l.map List.length).sum + l.length
  | [], h => absurd rfl h
  | [a], _ => by simp [join]
  | a :: b :: r, _ => by
    have := st_join_length s (b :: r) (by simp)
    rw [join, List.map_cons, List.sum_cons, List.length_append, List.length_append, List.length_cons (a := a), List.length_singleton]
    omega

/-- **C199, no longer.** What is shown of a path of at least two names is never longer than the path. -/
theorem C199_path_no_longer (p : Path) (m : Nat) (h2 : 2 ≤ p.names.length) (hn : ∀ a ∈ p.names, a ≠ []) :
    (truncate p m).length ≤ p.str.length := by
  by_cases h : p.str.length ≤ m
  · rw [C199_path_fits p m h]
  · have hparts : 1 < p.parts.length := by
      unfold Path.parts
      split_ifs
      · rw [List.length_cons]; omega
      · omega
    obtain ⟨pre, suf, h1, h3, h4, h5, h6, _⟩ := C199_path_cut p m (by omega) hparts
    rw [h5]
    rcases h6 with h6 | h6
    · omega
    · obtain ⟨b, rfl⟩ := List.length_eq_one_iff.1 h6
      have hlast : ∃ q, p.names = q ++ [b] ∧ q ≠ [] := by
        unfold Path.parts at h1
        split_ifs at h1 with hr
        · cases pre with
          | nil => exact absurd rfl h3
          | cons c q =>
            rw [List.cons_append, List.cons.injEq] at h1
            refine ⟨q, h1.2, ?_⟩
            rintro rfl
            rw [h1.2] at h2
            simp at h2
        · exact ⟨pre, h1, h3⟩
      obtain ⟨q, hq, hq0⟩ := hlast
      have hne : p.names ≠ [] := by rw [hq]; simp
      have hlen := st_join_length '/' p.names hne
      cases q with
      | nil => exact absurd rfl hq0
      | cons c q =>
        have hc : 1 ≤ c.length := by
          have := hn c (by rw [hq]; simp)
          cases c with
          | nil => exact absurd rfl this
          | cons x y => simp
        rw [hq] at hlen
        simp only [List.cons_append, List.map_cons, List.map_append, List.map_nil, List.sum_cons, List.sum_append, List.sum_nil,
          List.length_cons, List.length_append, List.length_nil] at hlen
        have hs : (join ['/'] p.names).length ≤ p.str.length := by
          unfold Path.str
          split_ifs with a1 a2
          · rw [List.length_cons]; omega
          · exact absurd (by simpa using a2) hne
          · exact le_refl _
        rw [hq] at hs
        simp only [List.cons_append] at hs
        have hd : (join ['/'] [['⋯'], b]).length = b.length + 2 := by
          simp [join]
        rw [hd]
        omega

example : 2 ≤ (Path.names ⟨false, ["a".toList, "bb".toList]⟩).length ∧ truncate ⟨false, ["a".toList, "bb".toList]⟩ 3 = "⋯/bb".toList := by
  decide +kernel

/-- **C199, what goes wrong.** A file name alone that is too long is not shown at all. -/
theorem C199_fails_name_alone (b : Text) (m : Nat) (h : m < b.length) : truncate ⟨false, [b]⟩ m = ['⋯'] := by
  unfold truncate
  rw [if_neg (by simpa [Path.str, join] using h)]
  rfl

/-- **C199, what goes wrong.** A too long name in the root is shown with one more character. -/
theorem C199_fails_longer (b : Text) (m : Nat) (h : m ≤ b.length) :
    (truncate ⟨true, [b]⟩ m).length = (Path.str ⟨true, [b]⟩).length + 1 := by
  unfold truncate
  rw [if_neg (by simp [Path.str, join]; omega)]
  simp [Path.parts, trim, dotted, join, Path.str]

/-! ## Grids -/

theorem st_foldl (l : List Nat) : ∀ m : Nat, m ≤ l.foldl max m ∧ (∀ x ∈ l, x ≤ l.foldl max m) ∧ (l.foldl max m = m ∨ l.foldl max m ∈ l) := by
  induction l with
  | nil => intro m; simp
  | cons a r ih =>
    intro m
    obtain ⟨h1, h2, h3⟩ := ih (max m a)
    rw [List.foldl_cons]
    refine ⟨by omega, fun x hx => ?_, ?_⟩
    · rcases List.mem_cons.1 hx with rfl | hx
      · omega
      · exact h2 x hx
    · rcases h3 with h3 | h3
      · rw [h3]
        rcases Nat.le_total m a with h | h
        · right; rw [max_eq_right h]; exact List.mem_cons_self
        · left; rw [max_eq_left h]
      · exact Or.inr (List.mem_cons_of_mem _ h3)

/-- **C199, the longest.** `max_len` is the least number that is no less than `at_least` and no less than any length. -/
theorem C199_max_len (l : List Text) (a k : Nat) : maxLen l a ≤ k ↔ a ≤ k ∧ ∀ t ∈ l, t.length ≤ k := by
  obtain ⟨h1, h2, h3⟩ := st_foldl (l.map List.length) a
  unfold maxLen
  constructor
  · intro h
    exact ⟨h1.trans h, fun t ht => (h2 _ (List.mem_map_of_mem ht)).trans h⟩
  · rintro ⟨ha, hl⟩
    rcases h3 with h3 | h3
    · rw [h3]; exact ha
    · obtain ⟨t, ht, e⟩ := List.mem_map.1 h3
      rw [← e]; exact hl t ht

theorem st_widths (rows : List (List Text)) (n : Nat) (hn : ∀ r ∈ rows, r.length = n) (h0 : rows ≠ []) (fuel : Nat) :
    ∀ k, n - k ≤ fuel → widths rows k fuel = (List.range' k (n - k)).map (fun j => maxLen (rows.map (fun r => r.getD j [])) 0) := by
  induction fuel with
  | zero =>
    intro k h
    have : n - k = 0 := by omega
    rw [this]; rfl
  | succ f ih =>
    intro k h
    rw [widths]
    by_cases hk : k < n
    · rw [if_pos (by rw [List.all_eq_true]; intro r hr; rw [hn r hr]; simpa using hk), ih (k + 1) (by omega)]
      have e : n - k = (n - (k + 1)) + 1 := by omega
      rw [e, List.range'_succ]; rfl
    · obtain ⟨r, hr⟩ := List.exists_mem_of_ne_nil _ h0
      rw [if_neg (by rw [List.all_eq_true]; intro h; have := h r hr; rw [hn r hr] at this; simp at this; omega)]
      have : n - k = 0 := by omega
      rw [this]; rfl

theorem st_widths_le (rows : List (List Text)) (r : List Text) (hr : r ∈ rows) (fuel : Nat) :
    ∀ k, (widths rows k fuel).length ≤ r.length - k := by
  induction fuel with
  | zero => intro k; simp [widths]
  | succ f ih =>
    intro k
    rw [widths]
    split_ifs with h
    · rw [List.all_eq_true] at h
      have h1 := h r hr
      have h2 := ih (k + 1)
      rw [List.length_cons]
      simp only [decide_eq_true_eq] at h1
      omega
    · simp

theorem st_mapM_none {α β : Type} (f : α → Option β) : ∀ (l : List α) (a : α), a ∈ l → f a = none → l.mapM f = none
  | b :: r, a, ha, hf => by
    rw [List.mapM_cons]
    rcases List.mem_cons.1 ha with rfl | ha
    · rw [hf]; rfl
    · rw [st_mapM_none f r a ha hf]
      cases f b <;> rfl

theorem st_mapM_some {α β : Type} (f : α → Option β) (g : α → β) : ∀ (l : List α), (∀ a ∈ l, f a = some (g a)) → l.mapM f = some (l.map g)
  | [], _ => rfl
  | b :: r, h => by
    rw [List.mapM_cons, h b List.mem_cons_self, st_mapM_some f g r (fun a ha => h a (List.mem_cons_of_mem _ ha))]
    rfl

/-- A text in its place. -/
theorem st_place (z : Text) : ∀ (cs : List Text) (j : Nat) (c : Text), cs[j]? = some c →
    ((join [' '] cs ++ z).drop ((cs.take j).map (fun c => c.length + 1)).sum).take c.length = c
  | [], j, c, h => by simp at h
  | [a], j, c, h => by
    cases j with
    | zero =>
      simp only [List.getElem?_cons_zero, Option.some.injEq] at h
      subst h
      simp [join]
    | succ i => simp at h
  | a :: b :: r, j, c, h => by
    cases j with
    | zero =>
      simp only [List.getElem?_cons_zero, Option.some.injEq] at h
      subst h
      simp [join]
    | succ i =>
      rw [List.getElem?_cons_succ] at h
      have ih := st_place z (b :: r) i c h
      rw [List.take_succ_cons, List.map_cons, List.sum_cons, join, List.append_assoc, ← List.drop_drop]
      have e : List.drop (a.length + 1) (a ++ [' '] ++ (join [' '] (b :: r) ++ z)) = join [' '] (b :: r) ++ z := by
        rw [show a.length + 1 = (a ++ [' ']).length by simp, List.drop_left]
      rw [e]
      exact ih

theorem st_ljust_length {t : Text} {w : Nat} (h : t.length ≤ w) : (ljust t w).length = w := by
  unfold ljust
  rw [List.length_append, List.length_replicate]
  omega

theorem st_zip : ∀ (r : List Text) (w : List Nat), r.length = w.length → (∀ (j : Nat) (c : Text) (k : Nat), r[j]? = some c → w[j]? = some k → c.length ≤ k) →
    (r.zipWith ljust w).map List.length = w
  | [], [], _, _ => rfl
  | [], _ :: _, h, _ => by simp at h
  | _ :: _, [], h, _ => by simp at h
  | a :: r, k :: w, h, hl => by
    rw [List.zipWith_cons_cons, List.map_cons, st_ljust_length (hl 0 a k rfl rfl),
      st_zip r w (by simpa using h) (fun j c k' h1 h2 => hl (j + 1) c k' (by simpa using h1) (by simpa using h2))]

theorem st_grid_cons (rows : List (List Text)) (first : List Text) (rest : List (List Text)) (h : rows = first :: rest) {pre suf : Text} :
    gridStr rows pre suf = (match rows.mapM (line pre suf (widths rows 0 (first.length + 1))) with
      | some ls => .text (join ['\n'] ls)
      | none => .indexError) := by
  subst h; rfl

/-- **C199, grids.** Rows of the same number of texts become lines of the same length, one for each row: after the prefix every text stands in its
column, that begins at the same place in every line, with blanks up to the width of the column, which is the greatest length in it; columns are one blank
apart, and the suffix ends the line. -/
theorem C199_grid (rows : List (List Text)) (pre suf : Text) (n : Nat) (h0 : rows ≠ []) (hn : ∀ r ∈ rows, r.length = n) :
    ∃ (w : List Nat) (ls : List Text), gridStr rows pre suf = .text (join ['\n'] ls) ∧ ls.length = rows.length ∧ w.length = n ∧
      (∀ (j k : Nat), w[j]? = some k → (∀ r ∈ rows, ∀ c, r[j]? = some c → c.length ≤ k) ∧ ∃ r ∈ rows, ∃ c, r[j]? = some c ∧ c.length = k) ∧
      ∀ (i : Nat) (r : List Text) (l : Text), rows[i]? = some r → ls[i]? = some l →
        pre <+: l ∧ suf <:+ l ∧ l.length = pre.length + (w.sum + (n - 1)) + suf.length ∧
        ∀ (j : Nat) (c : Text) (k : Nat), r[j]? = some c → w[j]? = some k →
          (l.drop (pre.length + ((w.take j).map (· + 1)).sum)).take k = c ++ List.replicate (k - c.length) ' ' := by
  obtain ⟨w, hw⟩ : ∃ w, w = (List.range' 0 n).map (fun j => maxLen (rows.map (fun r => r.getD j [])) 0) := ⟨_, rfl⟩
  have hwl : w.length = n := by rw [hw, List.length_map, List.length_range']
  have hwj : ∀ (j k : Nat), w[j]? = some k → j < n ∧ k = maxLen (rows.map (fun r => r.getD j [])) 0 := by
    intro j k h
    have hj : j < n := by rw [← hwl]; exact (List.getElem?_eq_some_iff.1 h).1
    refine ⟨hj, ?_⟩
    rw [hw, List.getElem?_map, List.getElem?_range' hj, Option.map_some, Option.some.injEq] at h
    rw [← h]; simp
  have hmax : ∀ (j k : Nat), w[j]? = some k →
      (∀ r ∈ rows, ∀ c, r[j]? = some c → c.length ≤ k) ∧ ∃ r ∈ rows, ∃ c, r[j]? = some c ∧ c.length = k := by
    intro j k h
    obtain ⟨hj, hk⟩ := hwj j k h
    have hb := (C199_max_len (rows.map (fun r => r.getD j [])) 0 k).1 (by rw [hk])
    refine ⟨fun r hr c hc => ?_, ?_⟩
    · have := hb.2 _ (List.mem_map_of_mem (f := fun r : List Text => r.getD j []) hr)
      rwa [List.getD_eq_getElem?_getD, hc] at this
    · obtain ⟨_, _, h3⟩ := st_foldl ((rows.map (fun r => r.getD j [])).map List.length) 0
      have get : ∀ r ∈ rows, r[j]? = some (r.getD j []) := fun r hr => by
        have : j < r.length := by rw [hn r hr]; exact hj
        rw [List.getD_eq_getElem?_getD, List.getElem?_eq_getElem this]; rfl
      rcases h3 with h3 | h3
      · obtain ⟨r, hr⟩ := List.exists_mem_of_ne_nil _ h0
        refine ⟨r, hr, _, get r hr, ?_⟩
        have h4 := hb.2 _ (List.mem_map_of_mem (f := fun r : List Text => r.getD j []) hr)
        have h5 : k = 0 := by rw [hk]; exact h3
        omega
      · rw [List.map_map] at h3
        obtain ⟨r, hr, e⟩ := List.mem_map.1 h3
        refine ⟨r, hr, _, get r hr, ?_⟩
        rw [hk]
        unfold maxLen
        rw [List.map_map]
        exact e
  have hgrid : gridStr rows pre suf = .text (join ['\n'] (rows.map (fun t => pre ++ join [' '] (t.zipWith ljust w) ++ suf))) := by
    obtain ⟨first, r, hr⟩ := List.exists_cons_of_ne_nil h0
    have hx : widths rows 0 (first.length + 1) = w := by
      rw [st_widths rows n hn h0 _ 0 (by rw [hn first (by rw [hr]; simp)]; omega), hw]; rfl
    rw [st_grid_cons rows first r hr, hx, st_mapM_some _ (fun t => pre ++ join [' '] (t.zipWith ljust w) ++ suf) rows (fun t ht => by
      unfold line
      rw [if_pos (by rw [hn t ht, hwl])])]
  refine ⟨w, _, hgrid, by rw [List.length_map], hwl, hmax, ?_⟩
  intro i r l hr hl
  rw [List.getElem?_map, hr, Option.map_some, Option.some.injEq] at hl
  have hrm : r ∈ rows := List.mem_of_getElem? hr
  have hz := st_zip r w (by rw [hn r hrm, hwl]) (fun j c k h1 h2 => (hmax j k h2).1 r hrm c h1)
  have hzl : (r.zipWith ljust w).length = n := by rw [List.length_zipWith, hn r hrm, hwl]; simp
  subst hl
  refine ⟨⟨_, (List.append_assoc _ _ _).symm⟩, ⟨_, rfl⟩, ?_, ?_⟩
  · rw [List.length_append, List.length_append]
    congr 2
    by_cases hn0 : n = 0
    · have : r.zipWith ljust w = [] := List.length_eq_zero_iff.1 (by rw [hzl, hn0])
      have hw0 : w = [] := List.length_eq_zero_iff.1 (by rw [hwl, hn0])
      rw [this, hw0, hn0]; rfl
    · have := st_join_length ' ' (r.zipWith ljust w) (by intro e; rw [e] at hzl; simp at hzl; omega)
      rw [hz, hzl] at this
      omega
  · intro j c k hc hk
    have hcell : (r.zipWith ljust w)[j]? = some (ljust c k) := by
      rw [List.getElem?_zipWith, hc, hk]
    have hp := st_place suf (r.zipWith ljust w) j _ hcell
    rw [st_ljust_length ((hmax j k hk).1 r hrm c hc)] at hp
    have hs : ((r.zipWith ljust w).take j).map (fun c => c.length + 1) = (w.take j).map (· + 1) := by
      conv_rhs => rw [← hz, ← List.map_take, List.map_map]
      rfl
    rw [hs] at hp
    rw [List.append_assoc, ← List.drop_drop, List.drop_left]
    exact hp

example : gridStr [["a".toList, "bcd".toList], ["efg".toList, "h".toList]] "|".toList "|".toList =
    .text "|a   bcd|\n|efg h  |".toList := by decide +kernel

/-- **C199, what goes wrong.** Rows of different lengths raise an error (though the code catches an `IndexError`), and no rows at all make the call
never end. -/
theorem C199_fails_ragged (rows : List (List Text)) (pre suf : Text) (r t : List Text) (hr : r ∈ rows) (ht : t ∈ rows) (h : r.length < t.length) :
    gridStr rows pre suf = .indexError ∧ gridStr [] pre suf = .never := by
  refine ⟨?_, rfl⟩
  obtain ⟨first, rest, hc⟩ := List.exists_cons_of_ne_nil (List.ne_nil_of_mem hr)
  have hw := st_widths_le rows r hr (first.length + 1) 0
  rw [st_grid_cons rows first rest hc, st_mapM_none _ rows t ht (by unfold line; rw [if_neg (by omega)])]

example : gridStr [["a".toList], ["b".toList, "c".toList]] [] [] = .indexError := by decide +kernel

end Larch.Props
