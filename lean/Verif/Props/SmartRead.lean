import Verif.Model.SmartRead
import Mathlib.Tactic.FieldSimp
import Mathlib.Tactic.Linarith
import Mathlib.Tactic.NormNum
import Mathlib.Tactic.Positivity
import Mathlib.Tactic.Ring

/-!
# C186: headers of text tables, and how much of a file has been read
-/

set_option linter.unusedSimpArgs false

namespace Larch.Props

open Larch.SmartRead

/-- The column name and the type that a result has. -/
def NameType (out name type : List Char) : Prop := out = name ++ ' ' :: type

theorem sr_noDots {w : List Char} (hw : '_' ∉ w) : ∀ (l : List Char) (f : Char → Char), f '_' = '_' → l.map (fun c => f (if c = '.' then '_' else c)) = w →
    l.map f = w := by
  intro l f hf
  induction l generalizing w with
  | nil => intro h; exact h
  | cons c l ih =>
    intro h
    cases w with
    | nil => cases h
    | cons d w =>
      rw [List.map_cons, List.cons.injEq] at h
      rw [List.map_cons, ih (fun hm => hw (List.mem_cons_of_mem _ hm)) h.2]
      congr 1
      by_cases hc : c = '.'
      · exfalso
        have h1 := h.1
        rw [if_pos hc, hf] at h1
        exact hw (by rw [← h1]; exact List.mem_cons_self)
      · have h1 := h.1
        rw [if_neg hc] at h1
        exact h1

theorem sr_lower_under : Char.toLower '_' = '_' := by decide
theorem sr_upper_under : Char.toUpper '_' = '_' := by decide

theorem sr_lengths {word : String} {h : List Char} (hc : lower h = word.toList ∨ lower (h.drop 1) = word.toList) :
    word.toList.length ≤ h.length := by
  rcases hc with h1 | h1
  · have := congrArg List.length h1
    unfold lower at this
    rw [List.length_map] at this
    omega
  · have := congrArg List.length h1
    unfold lower at this
    rw [List.length_map, List.length_drop] at this
    omega

theorem sr_longer {h w : List Char} (hl : w.length ≤ h.length) : lower (h ++ ['i', 'd']) ≠ w ∧ lower ((h ++ ['i', 'd']).drop 1) ≠ w := by
  constructor
  · intro e
    have := congrArg List.length e
    unfold lower at this
    rw [List.length_map, List.length_append] at this
    simp only [List.length_cons, List.length_nil] at this
    omega
  · intro e
    have := congrArg List.length e
    unfold lower at this
    rw [List.length_map, List.length_drop, List.length_append] at this
    simp only [List.length_cons, List.length_nil] at this
    omega

theorem sr_addId (word : String) (h : List Char) (w : List Char) (hw : w = word.toList) :
    lower (addId word h) ≠ w ∧ lower ((addId word h).drop 1) ≠ w := by
  subst hw
  unfold addId
  by_cases hc : lower h = word.toList ∨ lower (h.drop 1) = word.toList
  · rw [if_pos hc]; exact sr_longer (sr_lengths hc)
  · rw [if_neg hc]
    exact ⟨fun e => hc (Or.inl e), fun e => hc (Or.inr e)⟩

theorem sr_addId_other (word : String) (h w : List Char) (hl : w.length ≤ word.toList.length) (h1 : lower h ≠ w) (h2 : lower (h.drop 1) ≠ w) :
    lower (addId word h) ≠ w ∧ lower ((addId word h).drop 1) ≠ w := by
  unfold addId
  by_cases hc : lower h = word.toList ∨ lower (h.drop 1) = word.toList
  · rw [if_pos hc]; exact sr_longer (le_trans hl (sr_lengths hc))
  · rw [if_neg hc]; exact ⟨h1, h2⟩

theorem sr_addUnderscore (h w : List Char) (hw : '_' ∉ w) (h1 : lower h ≠ w) (h2 : lower (h.drop 1) ≠ w) :
    lower (addUnderscore h) ≠ w ∧ lower ((addUnderscore h).drop 1) ≠ w := by
  unfold addUnderscore
  by_cases hc : upper h ∈ keywords.map String.toList
  · rw [if_pos hc]
    have hne : h ≠ [] := by
      rintro rfl
      revert hc
      decide +kernel
    obtain ⟨c, t, rfl⟩ := List.exists_cons_of_ne_nil hne
    constructor <;> intro e <;> apply hw <;> rw [← e] <;> simp [lower, sr_lower_under]
  · rw [if_neg hc]; exact ⟨h1, h2⟩

theorem sr_cleaned_word (h w : List Char) (hw : '_' ∉ w) (h1 : lower (addUnderscore (addId "group" (addId "case" h))) ≠ w)
    (h2 : lower ((addUnderscore (addId "group" (addId "case" h))).drop 1) ≠ w) : lower (cleaned h) ≠ w ∧ lower ((cleaned h).drop 1) ≠ w := by
  constructor
  · intro e
    apply h1
    unfold cleaned lower noDots at e
    rw [List.map_map] at e
    exact sr_noDots hw _ Char.toLower sr_lower_under e
  · intro e
    apply h2
    unfold cleaned lower noDots at e
    rw [← List.map_drop, List.map_map] at e
    exact sr_noDots hw _ Char.toLower sr_lower_under e

theorem sr_reserved (h : List Char) : (lower (cleaned h) ≠ "case".toList ∧ lower ((cleaned h).drop 1) ≠ "case".toList) ∧
    (lower (cleaned h) ≠ "group".toList ∧ lower ((cleaned h).drop 1) ≠ "group".toList) := by
  constructor
  · obtain ⟨a1, a2⟩ := sr_addId "case" h _ rfl
    obtain ⟨b1, b2⟩ := sr_addId_other "group" _ "case".toList (by decide) a1 a2
    obtain ⟨c1, c2⟩ := sr_addUnderscore _ _ (by decide) b1 b2
    exact sr_cleaned_word h _ (by decide) c1 c2
  · obtain ⟨b1, b2⟩ := sr_addId "group" (addId "case" h) _ rfl
    obtain ⟨c1, c2⟩ := sr_addUnderscore _ _ (by decide) b1 b2
    exact sr_cleaned_word h _ (by decide) c1 c2

theorem sr_cleaned_ne {h : List Char} (hne : h ≠ []) : cleaned h ≠ [] := by
  intro e
  apply hne
  have h1 : addUnderscore (addId "group" (addId "case" h)) = [] := List.map_eq_nil_iff.1 e
  have h2 : addId "group" (addId "case" h) = [] := by
    unfold addUnderscore at h1
    split at h1
    · simp at h1
    · exact h1
  have h3 : addId "case" h = [] := by
    generalize addId "case" h = x at h2
    unfold addId at h2
    split at h2
    · simp at h2
    · exact h2
  unfold addId at h3
  split at h3
  · simp at h3
  · exact h3

/-- **C186 (names and types).** The result is a name, a space and a type: TEXT for a header that begins with `@`, INTEGER for `#`, NUMERIC otherwise.
The name has no dots, and is neither "case" nor "group" (in any capitals). -/
theorem C186_header (h : List Char) (hne : h ≠ []) : ∃ name, NameType (interpretHeader h) name
      (if (cleaned h).head? = some '@' then "TEXT".toList else if (cleaned h).head? = some '#' then "INTEGER".toList else "NUMERIC".toList) ∧
    '.' ∉ name ∧ lower name ≠ "case".toList ∧ lower name ≠ "group".toList := by
  obtain ⟨c, t, hct⟩ := List.exists_cons_of_ne_nil (sr_cleaned_ne hne)
  obtain ⟨⟨a1, a2⟩, b1, b2⟩ := sr_reserved h
  have hdot : '.' ∉ cleaned h := by
    intro hm
    obtain ⟨d, hd, e⟩ := List.mem_map.1 hm
    by_cases hdd : d = '.'
    · rw [if_pos hdd] at e; exact absurd e (by decide)
    · rw [if_neg hdd] at e; exact hdd e
  rw [hct] at a1 a2 b1 b2 hdot
  have hdt : '.' ∉ t := fun hm => hdot (List.mem_cons_of_mem _ hm)
  unfold interpretHeader NameType
  simp only [hct, List.head?_cons, Option.some.injEq]
  by_cases h1 : c = '@'
  · refine ⟨t, ?_, hdt, a2, b2⟩
    rw [if_pos h1, if_pos h1]; rfl
  · by_cases h2 : c = '#'
    · refine ⟨t, ?_, hdt, a2, b2⟩
      rw [if_neg h1, if_neg h1, if_pos h2, if_pos h2]; rfl
    · refine ⟨c :: t, ?_, hdot, a1, b1⟩
      rw [if_neg h1, if_neg h1, if_neg h2, if_neg h2]; rfl

/-- **C186 (the prefix).** The first character of the header, if it is not a dot, is what decides. -/
theorem C186_prefix (c : Char) (t : List Char) (hc : c ≠ '.') : (cleaned (c :: t)).head? = some c := by
  have a1 : ∀ (w : String) (t : List Char), ∃ s, addId w (c :: t) = c :: s := by
    intro w t; unfold addId; split
    · exact ⟨t ++ ['i', 'd'], rfl⟩
    · exact ⟨t, rfl⟩
  have a2 : ∀ (t : List Char), ∃ s, addUnderscore (c :: t) = c :: s := by
    intro t; unfold addUnderscore; split
    · exact ⟨t ++ ['_'], rfl⟩
    · exact ⟨t, rfl⟩
  obtain ⟨s1, e1⟩ := a1 "case" t
  obtain ⟨s2, e2⟩ := a1 "group" s1
  obtain ⟨s3, e3⟩ := a2 s2
  unfold cleaned noDots
  rw [e1, e2, e3, List.map_cons, if_neg hc]; rfl

/-- **C186 (keywords).** Without dots, the name of a column of numbers is not a keyword of the database. -/
theorem C186_keyword (h : List Char) (hd : '.' ∉ h) : upper (cleaned h) ∉ keywords.map String.toList := by
  have hid : ∀ (w : String) (l : List Char), '.' ∉ l → '.' ∉ addId w l := by
    intro w l hl
    unfold addId; split
    · simp [hl]
    · exact hl
  have hd2 := hid "group" _ (hid "case" h hd)
  have hnd : noDots (addUnderscore (addId "group" (addId "case" h))) = addUnderscore (addId "group" (addId "case" h)) := by
    unfold noDots
    have : ∀ l : List Char, '.' ∉ l → l.map (fun c => if c = '.' then '_' else c) = l := by
      intro l hl
      induction l with
      | nil => rfl
      | cons c l ih =>
        rw [List.map_cons, ih (fun hm => hl (List.mem_cons_of_mem _ hm)), if_neg]
        rintro rfl; exact hl List.mem_cons_self
    apply this
    unfold addUnderscore; split
    · simp [hd2]
    · exact hd2
  unfold cleaned
  rw [hnd]
  unfold addUnderscore
  split
  · have hlast : ∀ k ∈ keywords.map String.toList, k.getLast? ≠ some '_' := by decide +kernel
    intro hm
    apply hlast _ hm
    simp [upper, sr_upper_under]
  · assumption

/-- **C186 (ordinary headers).** A header without dots or prefix, which is none of these words, is kept. -/
theorem C186_kept (c : Char) (t : List Char) (h1 : c ≠ '@') (h2 : c ≠ '#') (hd : '.' ∉ c :: t)
    (hc : lower (c :: t) ≠ "case".toList ∧ lower t ≠ "case".toList) (hg : lower (c :: t) ≠ "group".toList ∧ lower t ≠ "group".toList)
    (hk : upper (c :: t) ∉ keywords.map String.toList) : interpretHeader (c :: t) = (c :: t) ++ " NUMERIC".toList := by
  have e1 : addId "case" (c :: t) = c :: t := if_neg (fun h => h.elim hc.1 hc.2)
  have e2 : addId "group" (c :: t) = c :: t := if_neg (fun h => h.elim hg.1 hg.2)
  have e3 : addUnderscore (c :: t) = c :: t := if_neg hk
  have e4 : noDots (c :: t) = c :: t := by
    unfold noDots
    refine (List.map_congr_left (g := id) fun d hm => ?_).trans (List.map_id _)
    rw [if_neg]; rfl
    rintro rfl; exact hd hm
  unfold interpretHeader cleaned
  rw [e1, e2, e3, e4]
  simp only [if_neg h1, if_neg h2]

example : interpretHeader "@hh.name".toList = "hh_name TEXT".toList ∧ interpretHeader "#Case".toList = "Caseid INTEGER".toList ∧
    interpretHeader "select".toList = "select_ NUMERIC".toList ∧ interpretHeader "income".toList = "income NUMERIC".toList := by decide +kernel

/-- **C186 fails for dots**: they are replaced after the keywords are looked for, so that a keyword can result. -/
theorem C186_fails_dots : interpretHeader "current.date".toList = "current_date NUMERIC".toList ∧ "CURRENT_DATE" ∈ keywords := by decide +kernel

/-- **C186 fails for an empty header**: the column has a blank for a name, and no type. -/
theorem C186_fails_empty_header : interpretHeader [] = " ".toList := by decide +kernel

/-- **C186 fails for keywords with a prefix**: the prefix hides the keyword. -/
theorem C186_fails_prefixed : interpretHeader "@select".toList = "select TEXT".toList ∧ interpretHeader "#order".toList = "order INTEGER".toList := by decide +kernel

/-- **C186 fails for other words**: any character before "case" or "group" is taken for a prefix. -/
theorem C186_fails_any_prefix (c : Char) (h1 : c ≠ '@') (h2 : c ≠ '#') (h3 : c ≠ '.') : interpretHeader (c :: "case".toList) = c :: "caseid NUMERIC".toList := by
  have e1 : addId "case" (c :: "case".toList) = c :: "caseid".toList := by
    exact if_pos (Or.inr (show lower "case".toList = "case".toList from by decide))
  have e2 : addId "group" (c :: "caseid".toList) = c :: "caseid".toList := by
    unfold addId
    rw [if_neg]
    rintro (h | h)
    · have := congrArg List.length h; simp [lower] at this
    · exact absurd (show lower "caseid".toList = "group".toList from h) (by decide)
  have e3 : addUnderscore (c :: "caseid".toList) = c :: "caseid".toList := by
    unfold addUnderscore
    rw [if_neg]
    intro hm
    have hall : ∀ k ∈ keywords.map String.toList, k.drop 1 ≠ "CASEID".toList := by decide +kernel
    exact hall _ hm (show upper "caseid".toList = _ from by decide)
  unfold interpretHeader cleaned
  rw [e1, e2, e3]
  have e4 : noDots (c :: "caseid".toList) = c :: "caseid".toList := by
    unfold noDots; rw [List.map_cons, if_neg h3]; rfl
  rw [e4]
  simp only [if_neg h1, if_neg h2]; rfl

/-- **C186 fails for different headers**: they may get the same name. -/
theorem C186_fails_same : interpretHeader "a.b".toList = interpretHeader "a_b".toList ∧ interpretHeader "select".toList = interpretHeader "select_".toList ∧
    interpretHeader "case".toList = interpretHeader "caseid".toList := by decide +kernel

theorem sr_scale (n : Nat) : ∀ (b : ℚ) (s : Nat), 0 ≤ b → (scaleBytes n b s).1 * 1024 ^ ((scaleBytes n b s).2 - s) = b ∧ s ≤ (scaleBytes n b s).2 ∧
    (scaleBytes n b s).2 ≤ s + n ∧ ((scaleBytes n b s).2 < s + n → (scaleBytes n b s).1 ≤ 1024) ∧ (s < (scaleBytes n b s).2 → 1 < (scaleBytes n b s).1) := by
  induction n with
  | zero => intro b s _; simp [scaleBytes]
  | succ n ih =>
    intro b s hb
    unfold scaleBytes
    by_cases h : b > 1024
    · rw [if_pos h]
      obtain ⟨i1, i2, i3, i4, i5⟩ := ih (b / 1024) (s + 1) (by positivity)
      refine ⟨?_, by omega, by omega, fun hlt => i4 (by omega), fun _ => ?_⟩
      · have : (scaleBytes n (b / 1024) (s + 1)).2 - s = ((scaleBytes n (b / 1024) (s + 1)).2 - (s + 1)) + 1 := by omega
        rw [this, pow_succ, ← mul_assoc, i1]
        field_simp
      · rcases Nat.lt_or_ge (s + 1) (scaleBytes n (b / 1024) (s + 1)).2 with h2 | h2
        · exact i5 h2
        · have he : (scaleBytes n (b / 1024) (s + 1)).2 - (s + 1) = 0 := by omega
          rw [he, pow_zero, mul_one] at i1
          rw [i1, lt_div_iff₀ (by norm_num)]; linarith
    · rw [if_neg h]
      refine ⟨by simp, le_refl _, by omega, fun _ => by linarith, fun hlt => absurd hlt (lt_irrefl _)⟩

/-- **C186 (sizes).** The number shown, times 1024 for each unit, is the number of bytes; it is at most 1024 unless the unit is the largest one
(TB), and more than one unless the unit is the smallest. -/
theorem C186_bytes (n : Nat) : ∃ b u, bytesRead (.pos n) = .bytes b u ∧ b * 1024 ^ u = n ∧ u ≤ 4 ∧ (u < 4 → b ≤ 1024) ∧ (0 < u → 1 < b) := by
  obtain ⟨i1, _, i3, i4, i5⟩ := sr_scale 4 (n : ℚ) 0 (by positivity)
  exact ⟨_, _, rfl, by simpa using i1, by simpa using i3, fun h => i4 (by omega), i5⟩

/-- **C186 (progress).** The percentage of the file that has been read, if it is more than none and less than all of it. -/
theorem C186_progress (n size : Nat) (left : Option Nat) (hn : 0 < n) (hs : n < size) :
    progress (.pos n) size left = .ok (.percent (100 * n / size)) := by
  have h0 : size ≠ 0 := by omega
  have hq : (0 : ℚ) < size := by exact_mod_cast (by omega : 0 < size)
  have hnq : (0 : ℚ) < n := by exact_mod_cast hn
  have hlt : (n : ℚ) < size := by exact_mod_cast hs
  have e : (n : ℚ) / size * 100 = 100 * n / size := by ring
  simp only [progress, percentRead, if_neg h0]
  rw [e, if_pos]
  refine ⟨by positivity, ?_⟩
  rw [div_lt_iff₀ hq]; linarith

/-- **C186 (otherwise).** At the start, or at the end, the number of bytes. -/
theorem C186_progress_ends (n size : Nat) (left : Option Nat) (hs : 0 < size) (hn : n = 0 ∨ size ≤ n) :
    progress (.pos n) size left = .ok (bytesRead (.pos n)) := by
  have h0 : size ≠ 0 := by omega
  have hq : (0 : ℚ) < size := by exact_mod_cast hs
  simp only [progress, percentRead, if_neg h0]
  rw [if_neg]
  rintro ⟨h1, h2⟩
  rcases hn with rfl | hn
  · simp at h1
  · have : (size : ℚ) ≤ n := by exact_mod_cast hn
    have h3 : (1 : ℚ) ≤ (n : ℚ) / size := by rw [le_div_iff₀ hq]; linarith
    linarith

example : progress (.pos 50) 200 none = .ok (.percent 25) ∧ bytesRead (.pos 1536) = .bytes (3 / 2) 1 ∧ bytesRead (.pos 1024) = .bytes 1024 0 := by decide +kernel

/-- **C186 fails for empty files** (and compressed ones whose size is a multiple of 2^32): `ZeroDivisionError`. -/
theorem C186_fails_empty (n k : Nat) (left : Option Nat) : progress (.pos n) 0 left = .error .zeroDivision ∧
    progress (.pos n) (gzSize (4294967296 * k)) left = .error .zeroDivision := by
  have h : gzSize (4294967296 * k) = 0 := Nat.mul_mod_right _ _
  rw [h]; exact ⟨rfl, rfl⟩

/-- **C186 fails for large compressed files**: after the first 4 GB no percentage is shown. -/
theorem C186_fails_large (n size : Nat) (left : Option Nat) (hn : 4294967296 ≤ n) (h0 : 0 < gzSize size) :
    progress (.pos n) (gzSize size) left = .ok (bytesRead (.pos n)) :=
  C186_progress_ends n _ left h0 (Or.inr (by
    have : gzSize size < 4294967296 := Nat.mod_lt _ (by norm_num)
    omega))

/-- **C186 fails while lines are iterated over**: `tell` raises an `OSError` that is not caught (`bytesread` does catch it). -/
theorem C186_fails_iterating (size : Nat) (left : Option Nat) : progress .other size left = .error .os ∧ bytesRead .other = .text := ⟨rfl, rfl⟩

/-- **C186 fails for files without positions**: a hundred times the part left is taken from one instead of from a hundred, so that a percentage is shown only when
less than one hundredth is left, and it is then less than one. -/
theorem C186_fails_left (size l : Nat) (hs : 0 < size) (p : ℚ) (h : progress .unsupported size (some l) = .ok (.percent p)) :
    p = 1 - 100 * l / size ∧ p ≤ 1 ∧ 100 * l < size := by
  have h0 : size ≠ 0 := by omega
  have hq : (0 : ℚ) < size := by exact_mod_cast hs
  simp only [progress, percentRead, if_neg h0] at h
  by_cases hc : (1 - (l : ℚ) / size * 100) > 0 ∧ (1 - (l : ℚ) / size * 100) < 100
  · rw [if_pos hc] at h
    have hp : 1 - (l : ℚ) / size * 100 = p := Shown.percent.inj (Except.ok.inj h)
    have e : (l : ℚ) / size * 100 = 100 * l / size := by ring
    have h3 : (0 : ℚ) ≤ 100 * l / size := by positivity
    rw [e] at hp hc
    refine ⟨hp.symm, by linarith, ?_⟩
    have h4 : 100 * (l : ℚ) / size < 1 := by linarith [hc.1]
    rw [div_lt_iff₀ hq] at h4
    have : (100 * l : ℚ) < size := by linarith
    exact_mod_cast this
  · rw [if_neg hc] at h
    simp [bytesRead] at h

end Larch.Props
