import Verif.Props.AltCodes
import Verif.Model.AltNames
import Verif.Spec.AltNames

/-!
# C195: the names of systematic alternatives
-/

namespace Larch.Props
open Larch.AltCodes Larch.AltNames Larch.AltNamesSpec

theorem an_repr_inj {m n : Nat} (h : digits m = digits n) : m = n := by
  unfold digits at h
  rw [Nat.toList_repr, Nat.toList_repr] at h
  rw [← Nat.ofDigitChars_ten_toDigits (n := m), h, Nat.ofDigitChars_ten_toDigits]

theorem an_dashed (l : List (List Char)) (e : List Char) :
    dashed l e = (l.map (fun t => t ++ ['-'])).flatten ++ e := by
  induction l with
  | nil => rfl
  | cons t l ih => simp [dashed, ih]

theorem an_split {a b x y : List Char} (ha : '-' ∉ a) (hb : '-' ∉ b)
    (h : a ++ '-' :: x = b ++ '-' :: y) : a = b ∧ x = y := by
  induction a generalizing b with
  | nil => cases b with
    | nil => simpa using h
    | cons c b =>
      simp only [List.nil_append, List.cons_append, List.cons.injEq] at h
      exact absurd (by rw [h.1]; exact List.mem_cons_self) hb
  | cons c a ih => cases b with
    | nil =>
      simp only [List.nil_append, List.cons_append, List.cons.injEq] at h
      exact absurd (by rw [h.1]; exact List.mem_cons_self) ha
    | cons d b =>
      simp only [List.cons_append, List.cons.injEq] at h
      have := ih (fun hc => ha (List.mem_cons_of_mem _ hc)) (fun hc => hb (List.mem_cons_of_mem _ hc)) h.2
      exact ⟨by rw [h.1, this.1], this.2⟩

theorem an_dashed_inj {l k : List (List Char)} {e f : List Char} (hlen : l.length = k.length)
    (hl : ∀ t ∈ l, '-' ∉ t) (hk : ∀ t ∈ k, '-' ∉ t) (h : dashed l e = dashed k f) : l = k ∧ e = f := by
  induction l generalizing k with
  | nil => cases k with
    | nil => exact ⟨rfl, h⟩
    | cons _ _ => simp at hlen
  | cons t l ih => cases k with
    | nil => simp at hlen
    | cons u k =>
      simp only [dashed] at h
      obtain ⟨h1, h2⟩ := an_split (hl t (by simp)) (hk u (by simp)) h
      have := ih (by simpa using hlen) (fun t ht => hl t (by simp [ht])) (fun t ht => hk t (by simp [ht])) h2
      exact ⟨by rw [h1, this.1], this.2⟩

theorem an_getLast {β : Type} [LinearOrder β] (G padding : Nat) (rows : List (Row β)) :
    (altMasks G padding rows).length = G + 1 ∧
      (altMasks G padding rows).getLast? = some ((altMasks G padding rows).getD G 0) := by
  have hl : (altMasks G padding rows).length = G + 1 := by
    unfold altMasks; rw [buildMasks_length, sizes_length]
  refine ⟨hl, ?_⟩
  rw [List.getLast?_eq_getElem?, hl, List.getD_eq_getElem?_getD]
  simp [hl]

theorem an_cats {β : Type} [LinearOrder β] (text : Nat → β → Chars) (G : Nat) (rows : List (Row β))
    {g : Nat} (hg : g < G) : (categoryTexts text G rows).getD g [] = (groupUniq rows g).map (text g) := by
  unfold categoryTexts
  rw [List.getD_eq_getElem?_getD]
  simp [hg]

/-- The name, with the pieces of every level. -/
theorem an_name {β : Type} [LinearOrder β] (text : Nat → β → Chars) (G padding : Nat) (rows : List (Row β))
    (code : Nat) (l : List Chars) (e : Chars) (hl : l.length = G)
    (hg : ∀ g < G, groupText ((groupUniq rows g).map (text g)) ((altMasks G padding rows).getD g 0) code
      = l.getD g [] ++ ['-'])
    (he : counterText ((altMasks G padding rows).getD G 0) code = e) :
    alternativeName (altMasks G padding rows) (categoryTexts text G rows) code = some (dashed l e) := by
  obtain ⟨h1, h2⟩ := an_getLast G padding rows
  unfold alternativeName
  rw [h2, h1, Option.map_some, he, an_dashed, Nat.add_sub_cancel]
  congr 3
  apply List.ext_getElem
  · simp [hl]
  · intro g hg1 hg2
    have hgG : g < G := by simpa using hg1
    have hgl : g < l.length := by rw [hl]; exact hgG
    simp only [List.getElem_map, List.getElem_range]
    rw [an_cats text G rows hgG, hg g hgG]
    simp [List.getD_eq_getElem?_getD, hgl]

/-- **C195 (the name of a row).** For every frame and every row whose counter is below `2^label_offset`, the
name of its code is its own value at every level in order, each followed by a dash, and then its number among
the repeats of the same alternative. Missing: the rows whose counter is `2^label_offset`
(`C195_last_copy`, `C195_fails_misnamed`). -/
theorem C195_name_partial {β : Type} [LinearOrder β] (text : Nat → β → Chars) (G padding : Nat)
    (rows : List (Row β)) (i : Nat) (hi : i < rows.length)
    (hs : counter G rows i < 2 ^ labelOffset G rows) :
    alternativeName (altMasks G padding rows) (categoryTexts text G rows) (altCode G padding rows i) =
      some (dashed ((List.range G).map (fun g => text g (rows[i].vals g)))
        (digits (counter G rows i))) := by
  obtain ⟨h1, h2⟩ := C33_decode_partial G padding rows i hi hs
  apply an_name text G padding rows
  · simp
  · intro g hg
    obtain ⟨idx, ha, hb⟩ := h1 g hg
    unfold decodeGroup at ha
    unfold groupText
    cases hf : field ((altMasks G padding rows).getD g 0) (altCode G padding rows i) with
    | zero => rw [hf] at ha; cases ha
    | succ j =>
      rw [hf] at ha
      simp only [Option.some.injEq] at ha
      subst ha
      simp only [List.getElem?_map, hb, Option.map_some]
      simp [List.getD_eq_getElem?_getD, hg]
  · unfold counterText
    rw [h2]
    have := counter_pos G rows hi
    cases hc : counter G rows i with
    | zero => omega
    | succ j => rfl

/-- **C195 (names identify alternatives).** When at every level different values have different texts, and no
text has a dash in it, two rows (of any cases) have the same name exactly when they have the same code, that is
the same values and the same number among the repeats. -/
theorem C195_names_identify_partial {β : Type} [LinearOrder β] (text : Nat → β → Chars) (G padding : Nat)
    (rows : List (Row β)) (i j : Nat) (hi : i < rows.length) (hj : j < rows.length)
    (hsi : counter G rows i < 2 ^ labelOffset G rows) (hsj : counter G rows j < 2 ^ labelOffset G rows)
    (hinj : ∀ g < G, ∀ a b : β, text g a = text g b → a = b)
    (hplain : ∀ g < G, ∀ r ∈ rows, Plain (text g (r.vals g))) :
    (alternativeName (altMasks G padding rows) (categoryTexts text G rows) (altCode G padding rows i) =
      alternativeName (altMasks G padding rows) (categoryTexts text G rows) (altCode G padding rows j)) ↔
    ((∀ g < G, rows[i].vals g = rows[j].vals g) ∧ counter G rows i = counter G rows j) := by
  rw [C195_name_partial text G padding rows i hi hsi, C195_name_partial text G padding rows j hj hsj]
  constructor
  · intro h
    have h := Option.some.inj h
    have pl : ∀ k (hk : k < rows.length), ∀ t ∈ (List.range G).map (fun g => text g (rows[k].vals g)), '-' ∉ t := by
      intro k hk t ht
      obtain ⟨g, hg, rfl⟩ := List.mem_map.1 ht
      exact hplain g (List.mem_range.1 hg) _ (List.getElem_mem hk)
    obtain ⟨h1, h2⟩ := an_dashed_inj (by simp) (pl i hi) (pl j hj) h
    refine ⟨fun g hg => ?_, an_repr_inj h2⟩
    exact hinj g hg _ _ (List.map_inj_left.1 h1 g (List.mem_range.2 hg))
  · rintro ⟨h1, h2⟩
    rw [h2]
    have : (List.range G).map (fun g => text g (rows[i].vals g)) =
        (List.range G).map (fun g => text g (rows[j].vals g)) :=
      List.map_congr_left (fun g hg => by rw [h1 g (List.mem_range.1 hg)])
    rw [this]

/-- **C195 (padding places).** A code whose field at a level lies `k` places past the last category is named
`+k` at that level, and one whose field is zero is named `§`: no category is ever named for it. -/
theorem C195_padding (cats : List Chars) (mask code k : Nat) (hk : 1 ≤ k)
    (hf : field mask code = cats.length + k) :
    groupText cats mask code = '+' :: digits k ++ ['-'] := by
  unfold groupText
  cases hc : field mask code with
  | zero => omega
  | succ j =>
    have hj : cats[j]? = none := List.getElem?_eq_none (by omega)
    have e : j + 1 - cats.length = k := by omega
    simp only [hj, e]

/-- A code with nothing at a level is named `§` there. -/
theorem C195_placeholder (cats : List Chars) (mask code : Nat) (hf : field mask code = 0) :
    groupText cats mask code = ['§', '-'] ∧ counterText mask code = ['§'] := by
  unfold groupText counterText
  rw [hf]
  exact ⟨rfl, rfl⟩

/-- **C195 (violation, in general).** In every frame, the row whose counter is `2^label_offset` — the only copy
of every alternative when nothing repeats — has a name that ends in the placeholder and not in its number. -/
theorem C195_last_copy {β : Type} [LinearOrder β] (text : Nat → β → Chars) (G padding : Nat)
    (rows : List (Row β)) (i : Nat) (hi : i < rows.length)
    (hs : counter G rows i = 2 ^ labelOffset G rows) :
    ∃ start : Chars, alternativeName (altMasks G padding rows) (categoryTexts text G rows)
      (altCode G padding rows i) = some (start ++ ['§']) := by
  obtain ⟨h1, h2⟩ := an_getLast G padding rows
  have hm := C33_counter_misread G padding rows i hi hs
  refine ⟨((List.range ((altMasks G padding rows).length - 1)).map (fun k =>
    groupText ((categoryTexts text G rows).getD k []) ((altMasks G padding rows).getD k 0)
      (altCode G padding rows i))).flatten, ?_⟩
  unfold alternativeName
  rw [h2, Option.map_some]
  have : counterText ((altMasks G padding rows).getD G 0) (altCode G padding rows i) = ['§'] := by
    unfold counterText; rw [hm]
  rw [this]

/-- At the last level, a row whose counter is `2^label_offset` decodes to the place after its own. -/
theorem an_level_last {β : Type} [LinearOrder β] (G padding : Nat) (rows : List (Row β)) (i : Nat)
    (hi : i < rows.length) (hp : 1 ≤ padding) (hs : counter (G + 1) rows i = 2 ^ labelOffset (G + 1) rows) :
    field ((altMasks (G + 1) padding rows).getD G 0) (altCode (G + 1) padding rows i) =
      (groupUniq rows G).idxOf (rows[i].vals G) + 2 := by
  have hne : rows ≠ [] := by rintro rfl; simp at hi
  have hcode : altCode (G + 1) padding rows i = pack (rowGroups (G + 1) padding rows rows[i])
      (labelOffset (G + 1) rows) (counter (G + 1) rows i) := by
    unfold altCode; simp [hi]
  have hval := rowGroups_valid (G + 1) padding rows _ (List.getElem_mem hi)
  have hm : rows[i].vals G ∈ groupUniq rows G := by
    unfold groupUniq; rw [mem_uniq]; exact List.mem_map.mpr ⟨_, List.getElem_mem hi, rfl⟩
  have hidx := List.idxOf_lt_length_of_mem hm
  have hdrop : ((sizes (G + 1) padding rows).drop (G + 1)).sum = 0 := by
    rw [List.drop_eq_nil_of_le (by rw [sizes_length])]; rfl
  unfold altMasks
  rw [buildMasks_get _ _ _ (by rw [sizes_length]; omega), sizes_get (G + 1) padding rows (by omega), hdrop,
    Nat.zero_add, field_mask (one_le_size padding rows hne G), hcode, hs]
  unfold pack
  rw [packGroups_eq_packR, Nat.shiftLeft_eq, Nat.add_div_right _ (Nat.two_pow_pos _),
    Nat.mul_div_cancel _ (Nat.two_pow_pos _)]
  have hsplit : rowGroups (G + 1) padding rows rows[i] = rowGroups G padding rows rows[i] ++
      [(ceilLog2 ((groupUniq rows G).length + 1 + padding), (groupUniq rows G).idxOf (rows[i].vals G))] := by
    unfold rowGroups; rw [List.range_succ, List.map_append]; rfl
  rw [hsplit] at hval ⊢
  have hd := packR_digit (pre := rowGroups G padding rows rows[i])
    (g := (ceilLog2 ((groupUniq rows G).length + 1 + padding), (groupUniq rows G).idxOf (rows[i].vals G)))
    (post := []) hval
  simp only [width, List.map_nil, List.sum_nil, pow_zero, Nat.div_one] at hd
  have hb : (groupUniq rows G).length + 1 + padding ≤
      2 ^ ceilLog2 ((groupUniq rows G).length + 1 + padding) := Nat.le_pow_clog (by norm_num) _
  rw [Nat.add_mod, hd, Nat.mod_eq_of_lt (a := 1) (by omega), Nat.mod_eq_of_lt (by omega)]

/-- **C195 (violation, in general: the neighbour's name).** In every frame with padding places, at the last
level the row whose counter is `2^label_offset` is named after the *next* category, and after a padding place
if its own category is the last one. When no alternative repeats, this is every row of the frame. -/
theorem C195_next_category {β : Type} [LinearOrder β] (text : Nat → β → Chars) (G padding : Nat)
    (rows : List (Row β)) (i : Nat) (hi : i < rows.length) (hp : 1 ≤ padding)
    (hs : counter (G + 1) rows i = 2 ^ labelOffset (G + 1) rows) :
    ∃ start : Chars, alternativeName (altMasks (G + 1) padding rows) (categoryTexts text (G + 1) rows)
      (altCode (G + 1) padding rows i) = some (start ++
        (match (groupUniq rows G)[(groupUniq rows G).idxOf (rows[i].vals G) + 1]? with
          | some other => text G other
          | none => ['+', '1']) ++ ['-', '§']) := by
  obtain ⟨h1, h2⟩ := an_getLast (G + 1) padding rows
  have hm : rows[i].vals G ∈ groupUniq rows G := by
    unfold groupUniq; rw [mem_uniq]; exact List.mem_map.mpr ⟨_, List.getElem_mem hi, rfl⟩
  have hidx := List.idxOf_lt_length_of_mem hm
  have hf := an_level_last G padding rows i hi hp hs
  refine ⟨((List.range G).map (fun k =>
    groupText ((categoryTexts text (G + 1) rows).getD k []) ((altMasks (G + 1) padding rows).getD k 0)
      (altCode (G + 1) padding rows i))).flatten, ?_⟩
  have hc : counterText ((altMasks (G + 1) padding rows).getD (G + 1) 0) (altCode (G + 1) padding rows i) = ['§'] := by
    unfold counterText; rw [C33_counter_misread (G + 1) padding rows i hi hs]
  have hg : groupText ((categoryTexts text (G + 1) rows).getD G []) ((altMasks (G + 1) padding rows).getD G 0)
      (altCode (G + 1) padding rows i) = (match (groupUniq rows G)[(groupUniq rows G).idxOf (rows[i].vals G) + 1]? with
          | some other => text G other
          | none => ['+', '1']) ++ ['-'] := by
    rw [an_cats text (G + 1) rows (by omega)]
    unfold groupText
    rw [hf]
    simp only [List.getElem?_map, List.length_map]
    cases hn : (groupUniq rows G)[(groupUniq rows G).idxOf (rows[i].vals G) + 1]? with
    | some other => rfl
    | none =>
      have hlen : (groupUniq rows G).length ≤ (groupUniq rows G).idxOf (rows[i].vals G) + 1 :=
        List.getElem?_eq_none_iff.1 hn
      have e : (groupUniq rows G).idxOf (rows[i].vals G) + 1 + 1 - (groupUniq rows G).length = 1 := by omega
      simp only [Option.map_none, e]
      decide
  unfold alternativeName
  rw [h2, Option.map_some, h1, hc, Nat.add_sub_cancel, List.range_succ, List.map_append, List.flatten_append,
    List.map_singleton, hg]
  simp

/-! ### the names of nests -/

theorem an_clear_low {x t T : Nat} (h : T ≤ t) : x / 2 ^ T * 2 ^ T / 2 ^ t = x / 2 ^ t := by
  obtain ⟨d, rfl⟩ := Nat.exists_eq_add_of_le h
  rw [pow_add, ← Nat.div_div_eq_div_mul, Nat.mul_div_cancel _ (Nat.two_pow_pos T), Nat.div_div_eq_div_mul]

theorem an_clear_high {x t b T : Nat} (h : t + b ≤ T) : x / 2 ^ T * 2 ^ T / 2 ^ t % 2 ^ b = 0 := by
  obtain ⟨d, rfl⟩ := Nat.exists_eq_add_of_le h
  have e : x / 2 ^ (t + b + d) * 2 ^ (t + b + d) = (x / 2 ^ (t + b + d) * 2 ^ d * 2 ^ b) * 2 ^ t := by
    rw [pow_add, pow_add]; ring
  rw [e, Nat.mul_div_cancel _ (Nat.two_pow_pos t), Nat.mul_mod_left]

theorem an_nest {β : Type} [LinearOrder β] (G padding : Nat) (rows : List (Row β)) (i l : Nat)
    (hi : i < rows.length) (hl : l < G) (hs : counter G rows i < 2 ^ labelOffset G rows) :
    nestCode (altMasks G padding rows) l (altCode G padding rows i) =
      altCode G padding rows i / 2 ^ (((sizes G padding rows).drop (l + 1)).sum + labelOffset G rows) *
        2 ^ (((sizes G padding rows).drop (l + 1)).sum + labelOffset G rows) := by
  have hval := rowGroups_valid G padding rows _ (List.getElem_mem hi)
  have hcode : altCode G padding rows i =
      pack (rowGroups G padding rows rows[i]) (labelOffset G rows) (counter G rows i) := by
    unfold altCode; simp [hi]
  unfold nestCode altMasks
  rw [masks_take_sum _ _ _ (by rw [sizes_length]; omega), and_mask_high]
  have h := code_lt hval hs
  rw [width_rowGroups] at h
  rw [hcode]
  have e : ((sizes G padding rows).take (l + 1)).sum +
      (((sizes G padding rows).drop (l + 1)).sum + labelOffset G rows)
      = (sizes G padding rows).sum + labelOffset G rows := by
    rw [← Nat.add_assoc, ← List.sum_append, List.take_append_drop]
  rw [e]; exact h

theorem an_drop_sum (l : List Nat) {a b : Nat} (h : a ≤ b) : (l.drop b).sum ≤ (l.drop a).sum := by
  obtain ⟨d, rfl⟩ := Nat.exists_eq_add_of_le h
  rw [← List.drop_drop]
  conv_rhs => rw [← List.take_append_drop d (l.drop a)]
  rw [List.sum_append]; omega

/-- **C195 (the name of a nest).** The nest that `magic_nesting` puts a row in at level `l` is named after the
row's own values at the levels up to `l`, with the placeholder `§` for every later level and for the number. -/
theorem C195_nest_name_partial {β : Type} [LinearOrder β] (text : Nat → β → Chars) (G padding : Nat)
    (rows : List (Row β)) (i l : Nat) (hi : i < rows.length) (hl : l < G)
    (hs : counter G rows i < 2 ^ labelOffset G rows) :
    alternativeName (altMasks G padding rows) (categoryTexts text G rows)
        (nestCode (altMasks G padding rows) l (altCode G padding rows i)) =
      some (dashed ((List.range G).map (fun g => if g ≤ l then text g (rows[i].vals g) else ['§'])) ['§']) := by
  have hne : rows ≠ [] := by rintro rfl; simp at hi
  obtain ⟨h1, h2⟩ := C33_decode_partial G padding rows i hi hs
  rw [an_nest G padding rows i l hi hl hs]
  generalize hT : ((sizes G padding rows).drop (l + 1)).sum + labelOffset G rows = T
  have hpos := counter_pos G rows hi
  have hL : 1 ≤ labelOffset G rows := by
    by_contra h0
    have : labelOffset G rows = 0 := by omega
    rw [this] at hs; simp at hs; omega
  apply an_name text G padding rows
  · simp
  · intro g hg
    have hmask : ∀ x, field ((altMasks G padding rows).getD g 0) x =
        x / 2 ^ (((sizes G padding rows).drop (g + 1)).sum + labelOffset G rows) %
          2 ^ (sizes G padding rows).getD g 0 := by
      intro x
      unfold altMasks
      rw [buildMasks_get _ _ _ (by rw [sizes_length]; exact hg), sizes_get G padding rows hg,
        field_mask (one_le_size padding rows hne g)]
    by_cases hgl : g ≤ l
    · have hd := an_drop_sum (sizes G padding rows) (show g + 1 ≤ l + 1 by omega)
      have hf : field ((altMasks G padding rows).getD g 0) (altCode G padding rows i / 2 ^ T * 2 ^ T) =
          field ((altMasks G padding rows).getD g 0) (altCode G padding rows i) := by
        rw [hmask, hmask, an_clear_low (by omega)]
      obtain ⟨idx, ha, hb⟩ := h1 g hg
      unfold decodeGroup at ha
      unfold groupText
      rw [hf]
      cases hf : field ((altMasks G padding rows).getD g 0) (altCode G padding rows i) with
      | zero => rw [hf] at ha; cases ha
      | succ j =>
        rw [hf] at ha
        simp only [Option.some.injEq] at ha
        subst ha
        simp only [List.getElem?_map, hb, Option.map_some]
        simp [List.getD_eq_getElem?_getD, hg, hgl]
    · have hd := an_drop_sum (sizes G padding rows) (show l + 1 ≤ g by omega)
      have hgs : g < (sizes G padding rows).length := by rw [sizes_length]; exact hg
      have hsplit : ((sizes G padding rows).drop g).sum =
          (sizes G padding rows).getD g 0 + ((sizes G padding rows).drop (g + 1)).sum := by
        rw [List.drop_eq_getElem_cons hgs, List.sum_cons]
        simp [List.getD_eq_getElem?_getD, hgs]
      have hf : field ((altMasks G padding rows).getD g 0) (altCode G padding rows i / 2 ^ T * 2 ^ T) = 0 := by
        rw [hmask, an_clear_high (by omega)]
      rw [(C195_placeholder _ _ _ hf).1]
      simp [List.getD_eq_getElem?_getD, hg, hgl]
  · have hlast : (altMasks G padding rows).getD G 0 = (2 ^ labelOffset G rows - 1) * 2 ^ 0 := by
      have hlast := buildMasks_last (sizes G padding rows) (labelOffset G rows)
      rw [sizes_length] at hlast
      unfold altMasks
      rw [hlast]; simp
    refine (C195_placeholder [] _ _ ?_).2
    rw [hlast, field_mask hL, an_clear_high (by omega)]

/-! ### concrete frames -/

/-- Two levels; the first alternative occurs three times in case 1. -/
def anFrame : List (Row Nat) :=
  [⟨1, fun g => if g = 0 then 5 else 7⟩, ⟨1, fun g => if g = 0 then 5 else 7⟩,
    ⟨1, fun g => if g = 0 then 5 else 7⟩, ⟨2, fun g => if g = 0 then 6 else 8⟩]

example : counter 2 anFrame 2 < 2 ^ labelOffset 2 anFrame ∧ 2 < anFrame.length := by
  have hm : maxCounter 2 anFrame = 3 := by decide
  have hL : labelOffset 2 anFrame = 2 := by
    unfold labelOffset ceilLog2; rw [hm]; decide
  rw [hL]; decide

example : ∀ g < 2, ∀ r ∈ anFrame, Plain ((fun (_ : Nat) (n : Nat) => digits n) g (r.vals g)) := by
  unfold Plain digits anFrame; decide +kernel

/-- Two alternatives of one case, once each: the values 10 and 20. -/
def anTwo : List (Row Nat) := [⟨1, fun _ => 10⟩, ⟨1, fun _ => 20⟩]

theorem an_two : altMasks 1 4 anTwo = [7, 0] ∧ altCode 1 4 anTwo 0 = 2 ∧ altCode 1 4 anTwo 1 = 3 ∧
    groupUniq anTwo 0 = [10, 20] ∧ labelOffset 1 anTwo = 0 := by
  have hm : maxCounter 1 anTwo = 1 := by decide
  have hL : labelOffset 1 anTwo = 0 := by unfold labelOffset ceilLog2; rw [hm]; simp
  have hu : groupUniq anTwo 0 = [10, 20] := by decide
  have hsz : sizes 1 4 anTwo = [3] := by
    have : Nat.clog 2 7 = 3 := by decide
    simp [sizes, hu, ceilLog2, this]
  refine ⟨by unfold altMasks; rw [hsz, hL]; decide, ?_, ?_, hu, hL⟩
  · unfold altCode
    have : anTwo[0]? = some ⟨1, fun _ => 10⟩ := rfl
    rw [this]
    simp only
    rw [hL]
    have : counter 1 anTwo 0 = 1 := by decide
    rw [this]
    simp [rowGroups, hu, pack, packGroups]
  · unfold altCode
    have : anTwo[1]? = some ⟨1, fun _ => 20⟩ := rfl
    rw [this]
    simp only
    rw [hL]
    have : counter 1 anTwo 1 = 1 := by decide
    rw [this]
    simp [rowGroups, hu, pack, packGroups]

theorem an_shift7 : bitmaskShiftValue 7 = 0 := bitmaskShiftValue_odd (by decide)

/-- **C195 (violation, concrete).** With the default padding, the alternative of value 10 is named `20-§` and
the alternative of value 20 is named `+1-§`: the first carries the name of the second, and neither says what
`C195_name_partial` says. -/
theorem C195_fails_misnamed :
    alternativeName (altMasks 1 4 anTwo) (categoryTexts (fun _ n => digits n) 1 anTwo) (altCode 1 4 anTwo 0) =
      some "20-§".toList ∧
    alternativeName (altMasks 1 4 anTwo) (categoryTexts (fun _ n => digits n) 1 anTwo) (altCode 1 4 anTwo 1) =
      some "+1-§".toList := by
  obtain ⟨h1, h2, h3, h4, _⟩ := an_two
  have hc : categoryTexts (fun _ n => digits n) 1 anTwo = [[digits 10, digits 20]] := by
    simp [categoryTexts, h4]
  have f2 : field 7 2 = 2 := by unfold field; rw [an_shift7]; rfl
  have f3 : field 7 3 = 3 := by unfold field; rw [an_shift7]; rfl
  have z : ∀ x, field 0 x = 0 := by intro x; unfold field; simp
  rw [h1, h2, h3, hc]
  constructor
  · simp only [alternativeName, List.getLast?_cons_cons, List.getLast?_singleton, Option.map_some, List.length_cons,
      List.length_nil, groupText, counterText, z]
    simp [List.range_succ, f2]
    decide
  · simp only [alternativeName, List.getLast?_cons_cons, List.getLast?_singleton, Option.map_some, List.length_cons,
      List.length_nil, groupText, counterText, z]
    simp [List.range_succ, f3]
    decide

example : counter 1 anTwo 0 = 2 ^ labelOffset 1 anTwo ∧ counter 1 anTwo 1 = 2 ^ labelOffset 1 anTwo := by
  rw [an_two.2.2.2.2]; decide

/-- **C195 (violation: dashes).** Without the condition that texts have no dash, different values give one
name: `a` then `b-c`, and `a-b` then `c`. -/
theorem C195_fails_dash :
    dashed ["a".toList, "b-c".toList] (digits 1) = dashed ["a-b".toList, "c".toList] (digits 1) ∧
      ["a".toList, "b-c".toList] ≠ ["a-b".toList, "c".toList] := by decide

/-- A padding place, and a place nobody has. -/
example : field 7 5 = [['a'], ['b']].length + 3 ∧ field 7 8 = 0 := by
  unfold field; rw [an_shift7]; decide

end Larch.Props
