import Verif.Model.Naming
import Mathlib.Data.List.Forall2
import Mathlib.Tactic.Common

/-!
# C180: names made into identifiers
-/

namespace Larch.Props

open Larch.Naming

/-- The classes of characters fit together for the text: its word characters can be in an identifier.  (Python has others, like `²`.) -/
def Fits (C : Chars) (x : Text) : Prop := ∀ c ∈ x, C.word c = true → C.cont c = true

/-- What holds of the classes of Python. -/
structure PythonLike (C : Chars) : Prop where
  underscore : C.word '_' = true ∧ C.start '_' = true ∧ C.cont '_' = true
  start_cont : ∀ c, C.start c = true → C.cont c = true
  cont_word : ∀ c, C.cont c = true → C.word c = true
  space_word : ∀ c, C.space c = true → C.word c = false

/-- The letters and digits of a text, in order. -/
def marks (C : Chars) (x : Text) : Text := x.filter (fun c => C.word c && c != '_')

/-- An identifier. -/
def Ident (C : Chars) (x : Text) : Prop := ∃ c r, x = c :: r ∧ C.start c = true ∧ ∀ d ∈ r, C.cont d = true

variable {C : Chars}

theorem nm_ident (x : Text) : isIdentifier C x = true ↔ Ident C x := by
  cases x with
  | nil => simp [isIdentifier, Ident]
  | cons c r =>
    simp only [isIdentifier, Bool.and_eq_true, List.all_eq_true, Ident, List.cons.injEq]
    constructor
    · rintro ⟨h1, h2⟩; exact ⟨c, r, ⟨rfl, rfl⟩, h1, h2⟩
    · rintro ⟨_, _, ⟨rfl, rfl⟩, h1, h2⟩; exact ⟨h1, h2⟩

theorem nm_sub_mem (x : Text) : ∀ (b : Bool), ∀ c ∈ subRuns C b x, c = '_' ∨ (c ∈ x ∧ C.word c = true) := by
  induction x with
  | nil => intro b c h; cases h
  | cons d r ih =>
    intro b c h
    simp only [subRuns] at h
    split_ifs at h with h1 h2
    · rcases List.mem_cons.1 h with rfl | h
      · exact .inr ⟨List.mem_cons_self, h1⟩
      · exact (ih _ c h).imp_right (fun h => ⟨List.mem_cons_of_mem _ h.1, h.2⟩)
    · exact (ih _ c h).imp_right (fun h => ⟨List.mem_cons_of_mem _ h.1, h.2⟩)
    · rcases List.mem_cons.1 h with rfl | h
      · exact .inl rfl
      · exact (ih _ c h).imp_right (fun h => ⟨List.mem_cons_of_mem _ h.1, h.2⟩)

theorem nm_dropWhile_mem (p : Char → Bool) (x : Text) : ∀ c ∈ x.dropWhile p, c ∈ x := fun _ h => (List.dropWhile_sublist p).subset h

theorem nm_strip_mem (x : Text) : ∀ c ∈ strip C x, c ∈ x := by
  intro c h
  unfold strip at h
  rw [List.mem_reverse] at h
  have := nm_dropWhile_mem _ _ c h
  rw [List.mem_reverse] at this
  exact nm_dropWhile_mem _ _ c this

theorem nm_sub_word (x : Text) (h : ∀ c ∈ x, C.word c = true) : ∀ b, subRuns C b x = x := by
  induction x with
  | nil => intro b; rfl
  | cons c r ih =>
    intro b
    simp only [subRuns, h c List.mem_cons_self, if_true, ih (fun d hd => h d (List.mem_cons_of_mem _ hd))]

theorem nm_strip_id (hC : PythonLike C) (x : Text) (h : ∀ c ∈ x, C.word c = true) : strip C x = x := by
  have hs : ∀ (y : Text), (∀ c ∈ y, C.word c = true) → y.dropWhile C.space = y := by
    intro y hy
    cases y with
    | nil => rfl
    | cons c r =>
      have : C.space c = false := by
        cases hc : C.space c with
        | false => rfl
        | true => have := hC.space_word c hc; rw [hy c List.mem_cons_self] at this; cases this
      rw [List.dropWhile_cons, this]; rfl
  unfold strip
  rw [hs x h, hs x.reverse (fun c hc => h c (List.mem_reverse.1 hc)), List.reverse_reverse]

theorem nm_marks_cons (c : Char) (x : Text) : marks C (c :: x) = (if C.word c && c != '_' then [c] else []) ++ marks C x := by
  unfold marks
  rw [List.filter_cons]
  split_ifs <;> rfl

theorem nm_marks_under (x : Text) : marks C ('_' :: x) = marks C x := by
  rw [nm_marks_cons]; simp

theorem nm_marks_sub (x : Text) : ∀ b, marks C (subRuns C b x) = marks C x := by
  induction x with
  | nil => intro b; rfl
  | cons c r ih =>
    intro b
    simp only [subRuns]
    split_ifs with h1 h2
    · rw [nm_marks_cons, ih, nm_marks_cons]
    · have : C.word c = false := by simpa using h1
      rw [ih, nm_marks_cons, this]; rfl
    · have : C.word c = false := by simpa using h1
      rw [nm_marks_under, ih, nm_marks_cons, this]; rfl

theorem nm_marks_drop (hC : PythonLike C) (x : Text) : marks C (x.dropWhile C.space) = marks C x := by
  induction x with
  | nil => rfl
  | cons c r ih =>
    rw [List.dropWhile_cons]
    split_ifs with h
    · rw [ih, nm_marks_cons, hC.space_word c h]; rfl
    · rfl

theorem nm_marks_reverse (x : Text) : marks C x.reverse = (marks C x).reverse := by
  unfold marks; rw [List.filter_reverse]

theorem nm_marks_strip (hC : PythonLike C) (x : Text) : marks C (strip C x) = marks C x := by
  unfold strip
  rw [nm_marks_reverse, nm_marks_drop hC, nm_marks_reverse, nm_marks_drop hC, List.reverse_reverse]

/-- **C180.**  The result is an identifier. -/
theorem C180_identifier (hC : PythonLike C) (x : Text) (hx : Fits C x) : Ident C (makeValid C x) := by
  have key : ∀ y : Text, (∀ c ∈ y, c = '_' ∨ c ∈ x) → Ident C (if isIdentifier C (subRuns C false (strip C y)) = true then
      subRuns C false (strip C y) else '_' :: subRuns C false (strip C y)) := by
    intro y hy
    split_ifs with h
    · exact (nm_ident _).1 h
    · refine ⟨'_', _, rfl, hC.underscore.2.1, ?_⟩
      intro d hd
      rcases nm_sub_mem _ _ d hd with rfl | ⟨h1, h2⟩
      · exact hC.underscore.2.2
      · rcases hy d (nm_strip_mem _ d h1) with rfl | h3
        · exact hC.underscore.2.2
        · exact hx d h3 h2
  unfold makeValid
  split_ifs with hk <;> first
    | exact key _ (fun c hc => by
        rcases List.mem_cons.1 hc with rfl | hc
        · exact .inl rfl
        · exact .inr hc)
    | exact key _ (fun c hc => .inr hc)

/-- **C180.**  An identifier that is no keyword is left as it is. -/
theorem C180_unchanged (hC : PythonLike C) (x : Text) (hi : Ident C x) (hk : isKeyword x = false) : makeValid C x = x := by
  have hw : ∀ c ∈ x, C.word c = true := by
    obtain ⟨c, r, rfl, h1, h2⟩ := hi
    intro d hd
    rcases List.mem_cons.1 hd with rfl | hd
    · exact hC.cont_word _ (hC.start_cont _ h1)
    · exact hC.cont_word _ (h2 d hd)
  simp [makeValid, hk, nm_strip_id hC x hw, nm_sub_word x hw, (nm_ident x).2 hi]

/-- **C180.**  The letters and digits of the name are kept, in order: names with different letters and digits get different identifiers. -/
theorem C180_marks_kept (hC : PythonLike C) (x : Text) : marks C (makeValid C x) = marks C x := by
  unfold makeValid
  have h : ∀ y : Text, marks C (if isIdentifier C y = true then y else '_' :: y) = marks C y := by
    intro y; split_ifs <;> simp only [nm_marks_under]
  split_ifs <;> simp only [h, nm_marks_under, nm_marks_sub, nm_marks_strip hC]

theorem C180_apart (hC : PythonLike C) (x y : Text) (h : marks C x ≠ marks C y) : makeValid C x ≠ makeValid C y := by
  intro e
  apply h
  rw [← C180_marks_kept hC x, ← C180_marks_kept hC y, e]

/-- **C180.**  Making the result an identifier again changes nothing, unless the result is a keyword. -/
theorem C180_idempotent (hC : PythonLike C) (x : Text) (hx : Fits C x) (hk : isKeyword (makeValid C x) = false) :
    makeValid C (makeValid C x) = makeValid C x := C180_unchanged hC _ (C180_identifier hC x hx) hk

theorem nm_keyword_no_under : ∀ k ∈ keywords, '_' ∉ k.toList := by decide +kernel

theorem nm_keyword_plain {x : Text} (h : isKeyword x = true) : '_' ∉ x := by
  obtain ⟨k, hk, e⟩ := List.any_eq_true.1 h
  rw [← (by simpa using e : k.toList = x)]
  exact nm_keyword_no_under k hk

theorem nm_sub_no_under (x : Text) (h : '_' ∉ subRuns C false x) : subRuns C false x = x := by
  induction x with
  | nil => rfl
  | cons c r ih =>
    by_cases h1 : C.word c = true
    · simp only [subRuns, h1, if_true] at h ⊢
      rw [ih (fun hh => h (List.mem_cons_of_mem _ hh))]
    · simp only [subRuns, h1, Bool.false_eq_true, if_false] at h
      exact absurd List.mem_cons_self h

/-- **C180.**  The result is no keyword, if the name has no white space around it. -/
theorem C180_no_keyword (hC : PythonLike C) (x : Text) (hs : strip C x = x) : isKeyword (makeValid C x) = false := by
  rw [Bool.eq_false_iff]
  intro hk
  have hu := nm_keyword_plain hk
  unfold makeValid at hk hu
  cases hx : isKeyword x with
  | true =>
    simp only [hx, if_true] at hk hu
    split_ifs at hk hu with h2
    · have hsp : C.space '_' = false := by
        cases h : C.space '_' with
        | false => rfl
        | true => have := hC.space_word _ h; rw [hC.underscore.1] at this; cases this
      have hm : '_' ∈ strip C ('_' :: x) := by
        unfold strip
        rw [List.dropWhile_cons, hsp]
        simp only [Bool.false_eq_true, if_false, List.reverse_cons, List.mem_reverse]
        rw [List.dropWhile_append]
        split_ifs
        · simp [hsp]
        · simp
      rw [nm_sub_no_under _ hu] at hu
      exact hu hm
    · exact hu List.mem_cons_self
  | false =>
    simp only [hx, Bool.false_eq_true, if_false, hs] at hk hu
    split_ifs at hk hu with h2
    · rw [nm_sub_no_under _ hu] at hk
      rw [hx] at hk; cases hk
    · exact hu List.mem_cons_self

/-! ## References and columns -/

/-- **C180.**  A reference is made exactly for identifiers, and for texts with one kind of quote, which are put in quotes of the other kind. -/
theorem C180_reference (x r : Text) (dot : Bool) : reference C x dot = some r ↔
    (Ident C x ∧ r = (if dot then ['.'] else []) ++ x) ∨
    (¬ Ident C x ∧ ∃ q o : Char, ((q = '"' ∧ o = '\'') ∨ (q = '\'' ∧ o = '"')) ∧ q ∉ x ∧ o ∈ x ∧ r = ['(', q] ++ x ++ [q, ')']) := by
  have e1 : "(\"".toList = ['(', '"'] := by decide
  have e2 : "\")".toList = ['"', ')'] := by decide
  have e3 : "('".toList = ['(', '\''] := by decide
  have e4 : "')".toList = ['\'', ')'] := by decide
  unfold reference
  rw [e1, e2, e3, e4]
  by_cases hi : Ident C x
  · rw [if_pos ((nm_ident x).2 hi)]
    cases dot <;> simp [hi, eq_comm]
  · rw [if_neg (fun h => hi ((nm_ident x).1 h))]
    simp only [hi, false_and, not_false_eq_true, true_and, false_or]
    split_ifs with h1 h2
    · simp only [Option.some.injEq]
      constructor
      · rintro rfl; exact ⟨'"', '\'', .inl ⟨rfl, rfl⟩, h1.2, h1.1, rfl⟩
      · rintro ⟨q, o, (⟨rfl, rfl⟩ | ⟨rfl, rfl⟩), hq, ho, rfl⟩
        · rfl
        · exact absurd ho h1.2
    · simp only [Option.some.injEq]
      constructor
      · rintro rfl; exact ⟨'\'', '"', .inr ⟨rfl, rfl⟩, h2.1, h2.2, rfl⟩
      · rintro ⟨q, o, (⟨rfl, rfl⟩ | ⟨rfl, rfl⟩), hq, ho, rfl⟩
        · exact absurd ho h2.1
        · rfl
    · constructor
      · intro h; cases h
      · rintro ⟨q, o, (⟨rfl, rfl⟩ | ⟨rfl, rfl⟩), hq, ho, _⟩
        · exact absurd ⟨ho, hq⟩ h1
        · exact absurd ⟨hq, ho⟩ h2

/-- The name a column gets: a text, renamed if a new name is given for it, with underscores for slashes, and made an identifier if asked. -/
def ColumnName (C : Chars) (ren : List (Label × Label)) (natural : Bool) (c : Label) (n : Text) : Prop :=
  ∃ s, renameOne ren c = .str s ∧ n = if natural then makeValid C (s.map (fun d => if d = '/' then '_' else d)) else
    s.map (fun d => if d = '/' then '_' else d)

theorem nm_slash (l : List Label) : ∀ t, noSlashAll l = some t ↔
    List.Forall₂ (fun c n => ∃ s, c = .str s ∧ n = s.map (fun d => if d = '/' then '_' else d)) l t := by
  induction l with
  | nil =>
    intro t
    constructor
    · intro h; cases h; exact .nil
    · intro h; cases h; rfl
  | cons c r ih =>
    intro t
    simp only [noSlashAll, Option.bind_eq_some_iff, Option.map_eq_some_iff]
    constructor
    · rintro ⟨a, ha, u, hu, rfl⟩
      refine .cons ?_ ((ih u).1 hu)
      cases c with
      | str s => cases ha; exact ⟨s, rfl, rfl⟩
      | int i => cases ha
    · intro h
      cases h with
      | cons h1 h2 =>
        obtain ⟨s, rfl, rfl⟩ := h1
        exact ⟨_, rfl, _, (ih _).2 h2, rfl⟩

/-- **C180.**  The columns are put into the pod under these names, in order; if there is a label (after renaming) that is no text, it raises. -/
theorem C180_columns (ren : List (Label × Label)) (natural : Bool) (cols : List Label) (names : List Text) :
    (nameColumns C ren natural cols).pod = some names ↔ List.Forall₂ (ColumnName C ren natural) cols names := by
  unfold nameColumns
  dsimp only
  cases h : noSlashAll (cols.map (renameOne ren)) with
  | none =>
    constructor
    · intro hh; cases hh
    · intro hh
      have : ∃ t, noSlashAll (cols.map (renameOne ren)) = some t := by
        simp only [nm_slash, List.forall₂_map_left_iff]
        clear h
        induction hh with
        | nil => exact ⟨[], .nil⟩
        | cons h1 _ ih =>
          obtain ⟨s, h1, _⟩ := h1
          obtain ⟨t, ih⟩ := ih
          exact ⟨_ :: t, .cons ⟨s, h1, rfl⟩ ih⟩
      obtain ⟨t, ht⟩ := this
      rw [h] at ht; cases ht
  | some t =>
    have h1 := (nm_slash _ _).1 h
    rw [List.forall₂_map_left_iff] at h1
    show some (if natural = true then t.map (makeValid C) else t) = some names ↔ _
    rw [Option.some.injEq]
    clear h
    induction h1 generalizing names with
    | nil =>
      constructor
      · rintro rfl; cases natural <;> exact .nil
      · intro h; cases h; cases natural <;> rfl
    | cons h _ ih =>
      rename_i c n cs ns _
      obtain ⟨s, hs, rfl⟩ := h
      constructor
      · rintro rfl
        cases natural
        · exact .cons ⟨s, hs, rfl⟩ ((ih _).1 rfl)
        · exact .cons ⟨s, hs, rfl⟩ ((ih _).1 rfl)
      · intro h
        cases h with
        | cons h1 h2 =>
          obtain ⟨s', hs', rfl⟩ := h1
          rw [hs] at hs'; cases hs'
          have := (ih _).2 h2
          rw [← this]
          cases natural <;> rfl

/-! ## Examples, and where the code falls short -/

theorem nm_ascii : PythonLike ascii := by
  refine ⟨by decide, ?_, fun c h => h, ?_⟩
  · intro c h
    simp only [ascii, Char.isAlphanum, Bool.or_eq_true] at h ⊢
    tauto
  · intro c h
    simp only [ascii, Bool.or_eq_true, beq_iff_eq, Bool.and_eq_true, decide_eq_true_eq] at h
    have hn : c.toNat = 32 ∨ (9 ≤ c.toNat ∧ c.toNat ≤ 13) ∨ (28 ≤ c.toNat ∧ c.toNat ≤ 31) := by
      rcases h with (rfl | h) | h
      · exact .inl rfl
      · exact .inr (.inl h)
      · exact .inr (.inr h)
    have hb : c.toNat < 33 := by omega
    have h95 : (c == '_') = false := by
      rw [beq_eq_false_iff_ne]
      rintro rfl
      exact absurd hb (by decide)
    simp only [ascii, h95, Bool.or_false, Char.isAlphanum, Char.isAlpha, Char.isUpper, Char.isLower, Char.isDigit, Bool.or_eq_false_iff,
      Bool.and_eq_false_iff, decide_eq_false_iff_not]
    have hv : c.val.toNat < 33 := hb
    refine ⟨⟨?_, ?_⟩, ?_⟩
    all_goals
      first
      | rintro ⟨hh, _⟩
      | (refine .inl ?_; intro hh)
    all_goals
      have := UInt32.le_iff_toNat_le.1 hh
      simp at this
      omega

theorem nm_ascii_fits (x : Text) : Fits ascii x := fun _ _ h => h

/-- The hypotheses are met: ASCII is `PythonLike`, and all texts fit. -/
example : PythonLike ascii ∧ (∀ x, Fits ascii x) ∧ makeValid ascii "total cost ($)".toList = "total_cost_".toList ∧
    makeValid ascii "2nd".toList = "_2nd".toList ∧ makeValid ascii "class".toList = "_class".toList ∧ makeValid ascii [] = "_".toList ∧
    strip ascii "a b".toList = "a b".toList ∧ marks ascii "a b".toList ≠ marks ascii "a c".toList ∧
    reference ascii "don't".toList true = some "(\"don't\")".toList ∧
    (nameColumns ascii [(.int 0, .str "id".toList)] true [.int 0, .str "a/b c".toList]).pod = some ["id".toList, "a_b_c".toList] :=
  ⟨nm_ascii, nm_ascii_fits, by decide, by decide, by decide, by decide, by decide, by decide, by decide, by decide⟩

/-- **C180, violated.**  With white space around it, a keyword is not changed: the result is the keyword. -/
theorem C180_fails_keyword : makeValid ascii "for ".toList = "for".toList ∧ isKeyword "for".toList = true := by decide

/-- **C180, violated.**  Two columns can get the same name. -/
theorem C180_fails_collision :
    (nameColumns ascii [] true [.str "a b".toList, .str "a-b".toList]).pod = some ["a_b".toList, "a_b".toList] := by decide

/-- **C180, violated.**  In Python `²` is a word character, but not one of an identifier: `x²` gets an underscore, and still is none. -/
theorem C180_fails_not_identifier (C : Chars) (h : PythonLike C) (h2 : C.word '²' = true) (h3 : C.cont '²' = false) (hx : C.cont 'x' = true) :
    makeValid C "x²".toList = "_x²".toList ∧ ¬ Ident C "_x²".toList := by
  have e : "x²".toList = ['x', '²'] := by decide
  have e' : "_x²".toList = ['_', 'x', '²'] := by decide
  have hk : isKeyword ['x', '²'] = false := by decide
  have hw : ∀ c ∈ ['x', '²'], C.word c = true := by
    intro c hc
    simp only [List.mem_cons, List.not_mem_nil, or_false] at hc
    rcases hc with rfl | rfl
    · exact h.cont_word _ hx
    · exact h2
  rw [e, e']
  refine ⟨?_, ?_⟩
  · simp [makeValid, hk, nm_strip_id h _ hw, nm_sub_word _ hw, isIdentifier, h3]
  · rintro ⟨c, r, hcr, _, hr⟩
    cases hcr
    have := hr '²' (by simp)
    rw [h3] at this; cases this

example : ∃ C : Chars, PythonLike C ∧ C.word '²' = true ∧ C.cont '²' = false ∧ C.cont 'x' = true := by
  refine ⟨⟨fun c => c == '_' || c == 'x' || c == '²', fun _ => false, fun c => c == '_' || c == 'x', fun c => c == '_' || c == 'x'⟩, ⟨?_, ?_, ?_, ?_⟩, ?_, ?_, ?_⟩
  · decide
  · exact fun c h => h
  · intro c h; simp only [Bool.or_eq_true] at h ⊢; exact .inl h
  · intro c h; cases h
  · decide
  · decide
  · decide

/-- **C180, violated.**  A text without any quotes is refused, as one with both kinds. -/
theorem C180_fails_no_quotes : reference ascii "a b".toList true = none := by decide

/-- **C180, violated.**  A column with a number for its label raises, though names are made identifiers and those take anything; the frame that was
given has its other columns renamed by then. -/
theorem C180_fails_number_label :
    nameColumns ascii [(.str "a".toList, .str "b".toList)] true [.str "a".toList, .int 1] = ⟨[.str "b".toList, .int 1], none⟩ := by decide

/-- **C180, violated.**  The frame of the caller has other labels after it was read. -/
theorem C180_fails_frame_changed : (nameColumns ascii [] true [.str "a b".toList]).frame = [.str "a_b".toList] := by decide

end Larch.Props
