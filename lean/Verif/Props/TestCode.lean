import Verif.Model.TestCode

/-! # C207: the code of an example -/

namespace Larch.Props

open Larch.TestCode

/-- A line of code: something is on it, nothing white at its end, and it is not the option `:hide:`. -/
def TxCode (l : List Char) : Prop := rstrip l = l ∧ l ≠ [] ∧ l ≠ ":hide:".toList

/-- A line that starts text: not white at the start, and not the directive. -/
def TxText (l : List Char) : Prop := ∃ c, l.head? = some c ∧ isWhite c = false ∧ rstrip l ≠ ".. testcode::".toList

/-- A part of a document: a line of text and lines that are not the directive; or the directive with lines of code under it. -/
inductive TxPart where
  | text (first : List Char) (more : List (List Char))
  | code (lines : List (List Char))

def TxOk : TxPart → Prop
  | .text f m => TxText f ∧ ∀ l ∈ m, rstrip l ≠ ".. testcode::".toList
  | .code ls => ∀ l ∈ ls, TxCode l

/-- How the part is written, code indented with a tab. -/
def txWrite : TxPart → List (List Char)
  | .text f m => f :: m
  | .code ls => ".. testcode::".toList :: ls.map ('\t' :: ·)

def txCodeOf : TxPart → List (List Char)
  | .text _ _ => []
  | .code ls => ls

theorem tx_rstrip_snoc (l : List Char) (c : Char) (hc : isWhite c = false) : rstrip (l ++ [c]) = l ++ [c] := by
  unfold rstrip
  simp [hc]

theorem tx_rstrip_cons (c : Char) (l : List Char) (h : rstrip l ≠ [] ∨ isWhite c = false) : rstrip (c :: l) = c :: rstrip l := by
  have : ∀ (r : List Char), (r.dropWhile isWhite ≠ [] ∨ isWhite c = false) → ((r ++ [c]).dropWhile isWhite).reverse = c :: (r.dropWhile isWhite).reverse := by
    intro r
    induction r with
    | nil =>
      intro h
      rcases h with h | h
      · exact absurd rfl h
      · simp [h]
    | cons a r ih =>
      intro h
      by_cases ha : isWhite a = true
      · rw [List.cons_append, List.dropWhile_cons_of_pos ha, List.dropWhile_cons_of_pos ha]
        rw [List.dropWhile_cons_of_pos ha] at h
        exact ih h
      · rw [List.cons_append, List.dropWhile_cons_of_neg ha, List.dropWhile_cons_of_neg ha]
        simp
  unfold rstrip
  rw [List.reverse_cons]
  apply this
  rcases h with h | h
  · left
    intro e
    apply h
    unfold rstrip
    rw [e]
    rfl
  · exact Or.inr h

theorem tx_dir : ".. testcode::".toList.head? = some '.' ∧ "\t:hide:".toList = '\t' :: ":hide:".toList ∧ rstrip ".. testcode::".toList = ".. testcode::".toList := by
  decide +kernel

theorem tx_tab (active : Bool) (l : List Char) (h : TxCode l) (rest : List (List Char)) :
    scan active (('\t' :: l) :: rest) = (if active then [l] else []) ++ scan active rest := by
  conv => lhs; unfold scan
  rw [if_neg, if_neg, if_pos (show ('\t' :: l).head? = some '\t' from rfl)]
  · rfl
  · rintro (e | e)
    · cases e
    · rw [tx_dir.2.1] at e
      exact h.2.2 (List.cons.inj e).2
  · intro e
    have := tx_dir.1
    rw [← e] at this
    exact absurd (Option.some.inj this) (by decide)

theorem tx_quiet (ls : List (List Char)) (h : ∀ l ∈ ls, l ≠ ".. testcode::".toList) (rest : List (List Char)) : scan false (ls ++ rest) = scan false rest := by
  induction ls with
  | nil => rfl
  | cons l r ih =>
    have hr := ih (fun x hx => h x (List.mem_cons_of_mem _ hx))
    rw [List.cons_append]
    conv => lhs; unfold scan
    rw [if_neg (h l (by simp)), hr]
    simp

theorem tx_first (active : Bool) (l : List Char) (c : Char) (h1 : l.head? = some c) (h2 : isWhite c = false) (h3 : l ≠ ".. testcode::".toList) (rest : List (List Char)) :
    scan active (l :: rest) = scan false rest := by
  have ht : c ≠ '\t' := by rintro rfl; exact absurd h2 (by decide)
  have hb : c ≠ ' ' := by rintro rfl; exact absurd h2 (by decide)
  conv => lhs; unfold scan
  rw [if_neg h3, if_neg, if_neg, if_neg]
  · rw [h1]; intro e; exact hb (Option.some.inj e)
  · rw [h1]; intro e; exact ht (Option.some.inj e)
  · rintro (e | e)
    · rw [e] at h1; cases h1
    · rw [e, tx_dir.2.1] at h1
      exact ht (Option.some.inj h1).symm

/-- **C207, all the code and nothing else.** From a document of texts and blocks of code, indented with tabs, exactly the lines of code are taken, in
order, the first tab taken off. -/
theorem C207_exact (doc : List TxPart) (h : ∀ p ∈ doc, TxOk p) : extract (doc.flatMap txWrite) = doc.flatMap txCodeOf := by
  have gen : ∀ (doc : List TxPart) (active : Bool), (∀ p ∈ doc, TxOk p) → scan active ((doc.flatMap txWrite).map rstrip) = doc.flatMap txCodeOf := by
    intro doc
    induction doc with
    | nil => intro a _; cases a <;> rfl
    | cons p r ih =>
      intro active h
      have hr := fun a => ih a (fun q hq => h q (List.mem_cons_of_mem _ hq))
      rw [List.flatMap_cons, List.flatMap_cons, List.map_append]
      have hp := h p (by simp)
      cases p with
      | text f m =>
        obtain ⟨⟨c, c1, c2, c3⟩, hm⟩ := hp
        show scan active ((rstrip f :: m.map rstrip) ++ _) = [] ++ _
        rw [List.cons_append, tx_first active (rstrip f) c, tx_quiet, hr false]
        · rfl
        · intro l hl
          obtain ⟨x, hx, rfl⟩ := List.mem_map.1 hl
          exact hm x hx
        · cases f with
          | nil => cases c1
          | cons a f =>
            cases c1
            rw [tx_rstrip_cons _ _ (Or.inr c2)]
            rfl
        · exact c2
        · exact c3
      | code ls =>
        show scan active ((rstrip ".. testcode::".toList :: (ls.map ('\t' :: ·)).map rstrip) ++ _) = ls ++ _
        rw [tx_dir.2.2, List.cons_append]
        conv => lhs; unfold scan
        rw [if_pos rfl]
        have hls : ∀ l ∈ ls, TxCode l := hp
        clear hp h ih
        induction ls with
        | nil => exact hr true
        | cons l t iht =>
          have hl := hls l (by simp)
          have e : rstrip ('\t' :: l) = '\t' :: l := by
            rw [tx_rstrip_cons _ _ (Or.inl (by rw [hl.1]; exact hl.2.1)), hl.1]
          show scan true (rstrip ('\t' :: l) :: ((t.map ('\t' :: ·)).map rstrip ++ _)) = l :: (t ++ _)
          rw [e, tx_tab true l hl, iht (fun x hx => hls x (List.mem_cons_of_mem _ hx))]
          rfl
  exact gen doc false h

example : extract ["Text".toList, ".. testcode::".toList, "\tm = 1".toList, "\t".toList, "\tm".toList, "More".toList, "\tno".toList] = ["m = 1".toList, "m".toList] := by
  decide +kernel

example : ∀ p ∈ [TxPart.text "Text".toList [], .code ["m = 1".toList, "\tm".toList]], TxOk p := by
  intro p hp
  simp only [List.mem_cons, List.not_mem_nil, or_false] at hp
  rcases hp with rfl | rfl
  · exact ⟨⟨'T', by decide +kernel, by decide +kernel, by decide +kernel⟩, by simp⟩
  · intro l hl
    simp only [List.mem_cons, List.not_mem_nil, or_false] at hl
    rcases hl with rfl | rfl
    · exact ⟨by decide +kernel, by decide +kernel, by decide +kernel⟩
    · exact ⟨by decide +kernel, by decide +kernel, by decide +kernel⟩

/-- **C207, blank lines.** Blank lines, wherever they are, make no difference. -/
theorem C207_blank (a b : List (List Char)) (l : List Char) (hl : ∀ c ∈ l, isWhite c = true) : extract (a ++ l :: b) = extract (a ++ b) := by
  have he : rstrip l = [] := by
    unfold rstrip
    have : ∀ r : List Char, (∀ c ∈ r, isWhite c = true) → r.dropWhile isWhite = [] := by
      intro r
      induction r with
      | nil => intro _; rfl
      | cons c r ih =>
        intro h
        rw [List.dropWhile_cons_of_pos (h c (by simp))]
        exact ih (fun x hx => h x (List.mem_cons_of_mem _ hx))
    rw [this _ (fun c hc => hl c (List.mem_reverse.1 hc))]
    rfl
  have gen : ∀ (a b : List (List Char)) (active : Bool), scan active (a ++ [] :: b) = scan active (a ++ b) := by
    intro a b
    induction a with
    | nil =>
      intro active
      rw [List.nil_append, List.nil_append]
      conv => lhs; unfold scan
      rw [if_neg (by intro e; exact absurd (congrArg List.length e) (by decide)), if_pos (Or.inl rfl)]
    | cons x a ih =>
      intro active
      rw [List.cons_append, List.cons_append]
      conv => lhs; unfold scan
      conv => rhs; unfold scan
      rw [ih, ih, ih]
  unfold extract
  rw [List.map_append, List.map_append, List.map_cons, he]
  exact gen _ _ _

example : ∀ c ∈ "  \t".toList, isWhite c = true := by decide +kernel

/-- **C207, what goes wrong.** Code indented with four blanks loses the first character of every line. -/
theorem C207_fails_blanks (ls : List (List Char)) (h : ∀ l ∈ ls, TxCode l) :
    extract (".. testcode::".toList :: ls.map (fun l => ' ' :: ' ' :: ' ' :: ' ' :: l)) = ls.map List.tail := by
  unfold extract
  rw [List.map_cons, tx_dir.2.2]
  conv => lhs; unfold scan
  rw [if_pos rfl]
  induction ls with
  | nil => rfl
  | cons l t ih =>
    have hl := h l (by simp)
    have h0 : rstrip l ≠ [] := by rw [hl.1]; exact hl.2.1
    have e : rstrip (' ' :: ' ' :: ' ' :: ' ' :: l) = ' ' :: ' ' :: ' ' :: ' ' :: l := by
      have e1 := tx_rstrip_cons ' ' l (Or.inl h0)
      have e2 := tx_rstrip_cons ' ' (' ' :: l) (Or.inl (by rw [e1]; simp))
      have e3 := tx_rstrip_cons ' ' (' ' :: ' ' :: l) (Or.inl (by rw [e2]; simp))
      have e4 := tx_rstrip_cons ' ' (' ' :: ' ' :: ' ' :: l) (Or.inl (by rw [e3]; simp))
      rw [e4, e3, e2, e1, hl.1]
    rw [List.map_cons, List.map_cons, List.map_cons, e]
    conv => lhs; unfold scan
    rw [if_neg, if_neg, if_neg, if_pos (show (' ' :: ' ' :: ' ' :: ' ' :: l).head? = some ' ' from rfl), ih (fun x hx => h x (List.mem_cons_of_mem _ hx))]
    · show [List.drop 1 l] ++ _ = _
      rw [List.drop_one]
      rfl
    · intro hc; exact absurd (Option.some.inj hc) (by decide)
    · rintro (hc | hc)
      · cases hc
      · rw [tx_dir.2.1] at hc
        exact absurd (List.cons.inj hc).1 (by decide)
    · intro hc
      have := tx_dir.1
      rw [← hc] at this
      exact absurd (Option.some.inj this) (by decide)

example : extract [".. testcode::".toList, "    m = 1".toList] = [" = 1".toList] := by decide +kernel

end Larch.Props
