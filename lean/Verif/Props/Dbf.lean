import Verif.Spec.Dbf
import Mathlib.Data.Nat.Digits.Lemmas
import Mathlib.Tactic.Linarith

/-!
# C164, C165: reading DBF files
-/

namespace Larch.Props

open Larch.Dbf Larch.DbfSpec

/-! ## The header -/

theorem db_char (hb : List Nat) (j b : Nat) (h : hb[j]? = some b) (hb' : b ≤ 127) : charAt hb j = .ok b := by
  simp [charAt, byteAt, h, toChar, hb']

theorem db_raw (tl : List Nat) : ∀ (raw pre : List Nat), (∀ b ∈ raw, b ≤ 127) →
    (List.range' pre.length raw.length).mapM (charAt (pre ++ raw ++ tl)) = (.ok raw : Except Err (List Nat))
  | [], pre, _ => rfl
  | b :: raw, pre, h => by
    rw [List.length_cons, List.range'_succ, List.mapM_cons]
    have h1 : charAt (pre ++ b :: raw ++ tl) pre.length = .ok b := by
      apply db_char
      · simp
      · exact h b (by simp)
    have h2 := db_raw tl raw (pre ++ [b]) (fun x hx => h x (by simp [hx]))
    simp only [List.length_append, List.length_cons, List.length_nil, Nat.zero_add, List.append_assoc, List.singleton_append] at h2
    rw [h1]
    simp only [List.append_assoc, List.cons_append] at h2 ⊢
    rw [h2]
    rfl

/-- The 11 bytes for a name. -/
def nameBytes (c : Col) : List Nat := c.name ++ List.replicate (11 - c.name.length) 0

theorem db_nameBytes (c : Col) (h : ColOk c) : (nameBytes c).length = 11 := by
  have := h.short
  simp [nameBytes]; omega

theorem db_colBytes (c : Col) (h : ColOk c) : (colBytes c).length = 32 := by
  have h1 := db_nameBytes c h
  unfold nameBytes at h1
  unfold colBytes
  rw [List.length_append, h1]
  simp [h.res1, h.res2]

theorem db_field (c : Col) (h : ColOk c) (disp : Nat) : readField (colBytes c) disp = .ok ⟨nameBytes c, c.typ, c.len, c.dec, disp⟩ := by
  have h11 := db_nameBytes c h
  have hle : ∀ b ∈ nameBytes c, b ≤ 127 := by
    intro b hb
    rcases List.mem_append.1 hb with hb | hb
    · exact (h.ascii b hb).2
    · rw [(List.mem_replicate.1 hb).2]; omega
  have hsplit : colBytes c = nameBytes c ++ ([c.typ] ++ c.res1 ++ [c.len, c.dec] ++ c.res2) := rfl
  have hraw := db_raw ([c.typ] ++ c.res1 ++ [c.len, c.dec] ++ c.res2) (nameBytes c) [] hle
  rw [h11] at hraw
  simp only [List.length_nil, List.nil_append] at hraw
  rw [← List.range_eq_range'] at hraw
  have hidx : ∀ j, (colBytes c)[11 + j]? = ([c.typ] ++ c.res1 ++ [c.len, c.dec] ++ c.res2)[j]? := by
    intro j
    rw [hsplit, List.getElem?_append_right (by omega), h11]
    congr 1
    omega
  obtain ⟨r1, r2, r3, r4, hr⟩ : ∃ a b d e, c.res1 = [a, b, d, e] := by
    have := h.res1
    rcases hc : c.res1 with _ | ⟨a, _ | ⟨b, _ | ⟨d, _ | ⟨e, _ | ⟨f, l⟩⟩⟩⟩⟩ <;> simp [hc] at this
    exact ⟨a, b, d, e, rfl⟩
  have h1 : charAt (colBytes c) 11 = .ok c.typ := db_char _ _ _ (by rw [show 11 = 11 + 0 from rfl, hidx]; rfl) h.typ
  have h2 : charAt (colBytes c) 16 = .ok c.len := db_char _ _ _ (by rw [show 16 = 11 + 5 from rfl, hidx, hr]; rfl) h.len
  have h3 : charAt (colBytes c) 17 = .ok c.dec := db_char _ _ _ (by rw [show 17 = 11 + 6 from rfl, hidx, hr]; rfl) h.dec
  unfold readField
  rw [h1, h2, h3, hsplit, hraw]

/-- The fields as the reader should keep them, the first one starting at `disp`. -/
def fieldsFrom : Nat → List Col → List Field
  | _, [] => []
  | disp, c :: cs => ⟨nameBytes c, c.typ, c.len, c.dec, disp⟩ :: fieldsFrom (disp + c.len) cs

theorem db_fields : ∀ (cols : List Col), (∀ c ∈ cols, ColOk c) → ∀ (rest : List Nat) (disp : Nat),
    readFields cols.length ((cols.map colBytes).flatten ++ rest) disp = .ok (fieldsFrom disp cols)
  | [], _, _, _ => rfl
  | c :: cs, h, rest, disp => by
    have hc := h c (by simp)
    have hlen := db_colBytes c hc
    have hf := db_field c hc disp
    have htl := db_fields cs (fun x hx => h x (by simp [hx])) rest (disp + c.len)
    simp only [List.map_cons, List.flatten_cons, List.append_assoc, List.length_cons]
    simp only [readFields, List.take_left' hlen, List.drop_left' hlen, hf, htl]
    rfl

theorem db_head (t : Table) (h : TableOk t) : (head t).length = 32 := by
  simp [head, le32, le16, h.date, h.res]

/-- What the reader should keep of the header. -/
def headerOf (t : Table) : Header := ⟨t.rows.length, recordLength t.cols, fieldsFrom 1 t.cols⟩

theorem db_header (t : Table) (h : TableOk t) : readHeader (fileOf t) = .ok (headerOf t) := by
  obtain ⟨d1, d2, d3, hd⟩ : ∃ a b c, t.date = [a, b, c] := by
    have := h.date
    rcases hc : t.date with _ | ⟨a, _ | ⟨b, _ | ⟨d, _ | ⟨e, l⟩⟩⟩⟩ <;> simp [hc] at this
    exact ⟨a, b, d, rfl⟩
  have htake : (fileOf t).take 32 = head t := by
    unfold fileOf
    simp only [List.append_assoc]
    exact List.take_left' (db_head t h)
  have hdrop : (fileOf t).drop 32 = (t.cols.map colBytes).flatten ++ ([13] ++ ((t.rows.map rowBytes).flatten ++ [26])) := by
    unfold fileOf
    simp only [List.append_assoc]
    exact List.drop_left' (db_head t h)
  have hhead : head t = 3 :: d1 :: d2 :: d3 :: (t.rows.length % 256) :: (t.rows.length / 256 % 256) :: (t.rows.length / 65536 % 256) ::
      (t.rows.length / 16777216) :: ((33 + 32 * t.cols.length) % 256) :: ((33 + 32 * t.cols.length) / 256) :: (recordLength t.cols % 256) ::
      (recordLength t.cols / 256) :: t.res := by
    simp [head, hd, le32, le16]
  have hn : t.rows.length % 256 + 256 * (t.rows.length / 256 % 256) + 256 * 256 * (t.rows.length / 65536 % 256) +
      256 * 256 * 256 * (t.rows.length / 16777216) = t.rows.length := by omega
  have hf := h.count
  have hf' := h.few
  unfold readHeader
  rw [htake, hdrop, hhead]
  simp only [byteAt, List.getElem?_cons_zero, List.getElem?_cons_succ]
  rw [hn, if_neg (by omega)]
  have hk : ((33 + 32 * t.cols.length) % 256 + 256 * ((33 + 32 * t.cols.length) / 256) - 33) / 32 = t.cols.length := by omega
  have hr : recordLength t.cols % 256 + 256 * (recordLength t.cols / 256) = recordLength t.cols := by omega
  rw [hk, hr, if_neg (by omega), db_fields t.cols h.cols]
  rfl

theorem db_fields_length : ∀ (cols : List Col) (d : Nat), (fieldsFrom d cols).length = cols.length
  | [], _ => rfl
  | c :: cs, d => by simp [fieldsFrom, db_fields_length cs]

theorem db_fields_raw : ∀ (cols : List Col) (d : Nat), (fieldsFrom d cols).map Field.raw = cols.map nameBytes
  | [], _ => rfl
  | c :: cs, d => by simp [fieldsFrom, db_fields_raw cs]

theorem db_flat_drop {α : Type} (k : Nat) : ∀ (ls : List (List α)), (∀ l ∈ ls, l.length = k) → ∀ (i : Nat) (z : List α), i ≤ ls.length →
    (ls.flatten ++ z).drop (k * i) = (ls.drop i).flatten ++ z
  | ls, _, 0, z, _ => by simp
  | [], _, i + 1, z, hi => by simp at hi
  | l :: ls, h, i + 1, z, hi => by
    rw [List.flatten_cons, List.drop_succ_cons, List.append_assoc,
      show k * (i + 1) = l.length + k * i from by rw [h l (by simp)]; ring, ← List.drop_drop, List.drop_left]
    exact db_flat_drop k ls (fun x hx => h x (by simp [hx])) i z (by simpa using hi)

theorem db_name (t : Table) (h : TableOk t) (i : Nat) (c : Col) (hc : t.cols[i]? = some c) : nameAt (headerOf t) i = c.name := by
  have hi := (List.getElem?_eq_some_iff.1 hc).1
  have hok := h.cols c (List.mem_of_getElem? hc)
  unfold nameAt headerOf
  simp only [db_fields_raw]
  rw [db_flat_drop 11 (t.cols.map nameBytes) (by
    intro l hl
    obtain ⟨x, hx, rfl⟩ := List.mem_map.1 hl
    exact db_nameBytes x (h.cols x hx)) i [0] (by simp; omega)]
  have hd : (t.cols.map nameBytes).drop i = nameBytes c :: (t.cols.map nameBytes).drop (i + 1) := by
    have hi' : i < (t.cols.map nameBytes).length := by simpa using hi
    rw [List.drop_eq_getElem_cons hi']
    congr 1
    rw [List.getElem_map]
    congr 1
    exact (List.getElem?_eq_some_iff.1 hc).2
  rw [hd, List.flatten_cons]
  obtain ⟨k, hk⟩ : ∃ k, 11 - c.name.length = k + 1 := ⟨10 - c.name.length, by have := hok.short; omega⟩
  unfold nameBytes
  rw [hk, List.replicate_succ]
  simp only [List.append_assoc]
  rw [List.takeWhile_append_of_pos]
  · simp
  · intro a ha
    have := (hok.ascii a ha).1
    simp; omega

/-- C164: of every file in the dBASE III layout, with field lengths of at most 127, the reader finds the number of records, the fields in their
order with their names, types, lengths and decimals. -/
theorem C164_header (t : Table) (h : TableOk t) : ∃ hd, readHeader (fileOf t) = .ok hd ∧ hd.nrecs = t.rows.length ∧
    fieldNames hd = t.cols.map Col.name ∧ hd.fields.map (fun f => (f.typ, f.len, f.dec)) = t.cols.map (fun c => (c.typ, c.len, c.dec)) := by
  refine ⟨headerOf t, db_header t h, rfl, ?_, ?_⟩
  · unfold fieldNames
    apply List.ext_getElem?
    intro i
    rw [List.getElem?_map, List.getElem?_map]
    have hl : (headerOf t).fields.length = t.cols.length := db_fields_length _ _
    rw [hl]
    by_cases hi : i < t.cols.length
    · rw [List.getElem?_range hi, List.getElem?_eq_getElem hi]
      simp only [Option.map_some]
      rw [db_name t h i _ (List.getElem?_eq_getElem hi)]
    · rw [List.getElem?_eq_none (by simp; omega), List.getElem?_eq_none (by omega)]
      rfl
  · have : ∀ (cols : List Col) (d : Nat), (fieldsFrom d cols).map (fun f => (f.typ, f.len, f.dec)) = cols.map (fun c => (c.typ, c.len, c.dec)) := by
      intro cols
      induction cols with
      | nil => intro d; rfl
      | cons c cs ih => intro d; simp [fieldsFrom, ih]
    exact this t.cols 1

/-! ## Records -/

theorem db_row (t : Table) (h : TableOk t) (r : Nat × List (List Nat)) (hr : r ∈ t.rows) : (rowBytes r).length = recordLength t.cols := by
  have := h.rows r hr
  unfold rowBytes recordLength
  rw [List.length_cons, List.length_flatten, Nat.add_comm]
  congr 1
  generalize t.cols = cols at this
  generalize r.2 = cells at this
  induction this with
  | nil => rfl
  | cons e _ ih => simp [e, ih]

theorem db_wrap (x : Int) (h1 : 0 ≤ x) (h2 : x < 2 ^ 31) : wrap32 x = x := by
  unfold wrap32
  omega

theorem db_pull (t : Table) (h : TableOk t) (i : Nat) (r : Nat × List (List Nat)) (hr : t.rows[i]? = some r)
    (hs : i * recordLength t.cols < 2 ^ 31) : pull (fileOf t) (headerOf t) i = some (rowBytes r) := by
  have hi := (List.getElem?_eq_some_iff.1 hr).1
  have hlen := db_row t h r (List.mem_of_getElem? hr)
  have hw : wrap32 ((i : Int) * ((headerOf t).recln : Int)) = ((i * recordLength t.cols : Nat) : Int) := by
    have he : (i : Int) * ((headerOf t).recln : Int) = ((i * recordLength t.cols : Nat) : Int) := by
      rw [Nat.cast_mul]; rfl
    rw [he, db_wrap _ (by omega) (by omega)]
  have hfl : (headerOf t).fields.length = t.cols.length := db_fields_length _ _
  have hpre : (head t ++ (t.cols.map colBytes).flatten ++ [13]).length = 32 * (t.cols.length + 1) + 1 := by
    rw [List.length_append, List.length_append, db_head t h, List.length_flatten]
    have : ((t.cols.map colBytes).map List.length).sum = 32 * t.cols.length := by
      have hc := h.cols
      clear hfl
      generalize t.cols = cols at hc
      induction cols with
      | nil => rfl
      | cons c cs ih =>
        have := ih (fun x hx => hc x (by simp [hx]))
        simp only [List.map_cons, List.sum_cons, List.length_cons, db_colBytes c (hc c (by simp))]
        rw [this]; ring
    rw [this]
    simp; ring
  have hdrop : (fileOf t).drop (i * recordLength t.cols + 32 * (t.cols.length + 1) + 1) =
      rowBytes r ++ (((t.rows.map rowBytes).drop (i + 1)).flatten ++ [26]) := by
    unfold fileOf
    have hsp : i * recordLength t.cols + 32 * (t.cols.length + 1) + 1 = (head t ++ (t.cols.map colBytes).flatten ++ [13]).length + recordLength t.cols * i := by
      rw [hpre]; ring
    rw [List.append_assoc (head t ++ (t.cols.map colBytes).flatten ++ [13]), hsp, ← List.drop_drop, List.drop_left,
      db_flat_drop (recordLength t.cols) (t.rows.map rowBytes) (by
        intro l hl
        obtain ⟨x, hx, rfl⟩ := List.mem_map.1 hl
        exact db_row t h x hx) i [26] (by simp; omega)]
    have hd : (t.rows.map rowBytes).drop i = rowBytes r :: (t.rows.map rowBytes).drop (i + 1) := by
      have hi' : i < (t.rows.map rowBytes).length := by simpa using hi
      have he : (t.rows.map rowBytes)[i] = rowBytes r := by
        rw [List.getElem_map, (List.getElem?_eq_some_iff.1 hr).2]
      rw [List.drop_eq_getElem_cons hi', he]
    rw [hd, List.flatten_cons, List.append_assoc]
  unfold pull
  rw [hw, hfl]
  have hnat : ((((i * recordLength t.cols : Nat) : Int) + 32 * ((t.cols.length : Int) + 1) + 1)).toNat =
      i * recordLength t.cols + 32 * (t.cols.length + 1) + 1 := by omega
  simp only
  rw [if_neg (by omega), hnat, hdrop]
  have htk : (rowBytes r ++ (((t.rows.map rowBytes).drop (i + 1)).flatten ++ [26])).take (headerOf t).recln = rowBytes r := List.take_left' hlen
  rw [htk]
  exact if_pos hlen

theorem db_slice : ∀ (cols : List Col) (cells : List (List Nat)), List.Forall₂ (fun (c : Col) (cell : List Nat) => cell.length = c.len) cols cells →
    ∀ (pre post : List Nat), List.Forall₂ (fun (f : Field) (p : Col × List Nat) => f.typ = p.1.typ ∧ f.dec = p.1.dec ∧
      ((pre ++ cells.flatten ++ post).drop f.disp).take f.len = p.2) (fieldsFrom pre.length cols) (cols.zip cells) := by
  intro cols cells h
  induction h with
  | nil => intro _ _; exact .nil
  | @cons c cell cs cells he _ ih =>
    intro pre post
    refine .cons ⟨rfl, rfl, ?_⟩ ?_
    · simp only [List.flatten_cons, List.append_assoc]
      rw [List.drop_left]
      rw [← he, List.take_left]
    · have := ih (pre ++ cell) post
      simp only [List.length_append, he] at this
      simp only [List.flatten_cons, List.append_assoc] at this ⊢
      exact this

theorem db_space32 : isSpace 32 = true := rfl

theorem db_dropSpaces (k : Nat) (l : List Nat) (p : Nat → Bool) (hp : p 32 = true) : (List.replicate k 32 ++ l).dropWhile p = l.dropWhile p := by
  induction k with
  | zero => rfl
  | succ k ih => rw [List.replicate_succ, List.cons_append, List.dropWhile_cons_of_pos hp, ih]

theorem db_takeAll (p : Nat → Bool) (l : List Nat) (h : ∀ x ∈ l, p x = true) : l.takeWhile p = l := by
  induction l with
  | nil => rfl
  | cons x l ih => rw [List.takeWhile_cons_of_pos (h x (by simp)), ih (fun y hy => h y (by simp [hy]))]

theorem db_digit (l : List Nat) (h : ∀ d ∈ l, d < 10) : (l.map (fun d => 48 + d)).takeWhile isDigit = l.map (fun d => 48 + d) := by
  apply db_takeAll
  intro x hx
  obtain ⟨d, hd, rfl⟩ := List.mem_map.1 hx
  have := h d hd
  simp [isDigit]
  omega

theorem db_fold (l : List Nat) : ∀ a, (l.map (fun d => 48 + d)).foldl (fun a b => 10 * a + (b - 48)) a = l.foldl (fun a d => 10 * a + d) a := by
  induction l with
  | nil => intro a; rfl
  | cons d l ih => intro a; simp [ih]

theorem db_digits (n : Nat) : digits (natText n) = n := by
  unfold natText
  split_ifs with h
  · subst h; rfl
  · unfold digits
    rw [db_digit _ (by
      intro d hd
      exact Nat.digits_lt_base (by norm_num) (List.mem_reverse.1 hd)), db_fold, List.foldl_reverse]
    have := Nat.ofDigits_digits 10 n
    rw [Nat.ofDigits_eq_foldr] at this
    conv_rhs => rw [← this]
    congr 1
    funext d a
    simp; ring

theorem db_natText (n : Nat) : ∃ b l, natText n = b :: l ∧ 48 ≤ b ∧ b ≤ 57 := by
  unfold natText
  split_ifs with h
  · exact ⟨48, [], rfl, by omega, by omega⟩
  · rcases hd : (Nat.digits 10 n).reverse with _ | ⟨d, l⟩
    · rw [List.reverse_eq_nil_iff, Nat.digits_eq_nil_iff_eq_zero] at hd
      exact absurd hd h
    · have : d < 10 := Nat.digits_lt_base (by norm_num) (List.mem_reverse.1 (by rw [hd]; simp))
      exact ⟨48 + d, l.map (fun d => 48 + d), rfl, by omega, by omega⟩

theorem db_natText_ne (n : Nat) : ∀ b ∈ natText n, b ≠ 0 := by
  unfold natText
  split_ifs with h
  · simp
  · intro b hb
    obtain ⟨d, _, rfl⟩ := List.mem_map.1 hb
    omega

theorem db_atoll (k : Nat) (i : Int) (h1 : -(2 ^ 63) ≤ i) (h2 : i < 2 ^ 63) : atoll (List.replicate k 32 ++ intText i) = i := by
  unfold atoll
  rw [db_dropSpaces k _ _ db_space32]
  have hs : atollSigned ((intText i).dropWhile isSpace) = i := by
    unfold intText
    split_ifs with hi
    · rw [List.dropWhile_cons_of_neg (by decide)]
      simp only [atollSigned, db_digits]
      omega
    · obtain ⟨b, l, hb, hb1, hb2⟩ := db_natText i.natAbs
      have hsp : ¬ isSpace b = true := by
        simp only [isSpace, Bool.or_eq_true, Bool.and_eq_true, beq_iff_eq, decide_eq_true_eq]
        omega
      rw [hb, List.dropWhile_cons_of_neg hsp]
      have : atollSigned (b :: l) = digits (b :: l) := by
        unfold atollSigned
        split
        · rename_i heq
          injection heq with e _
          omega
        · rename_i heq
          injection heq with e _
          omega
        · rfl
      rw [this, ← hb, db_digits]
      omega
  rw [hs]
  unfold clamp64
  omega

theorem db_noZero (l : List Nat) (h : ∀ b ∈ l, b ≠ 0) : l.takeWhile (fun b => decide (b ≠ 0)) = l := by
  apply db_takeAll
  intro b hb
  simpa using h b hb

theorem db_notBlank (x : Nat) (h : 32 < x) : ¬ isBlank x = true := by
  simp only [isBlank, isSpace, Bool.or_eq_true, Bool.and_eq_true, beq_iff_eq, decide_eq_true_eq]
  omega

theorem db_strip (a b : Nat) (s : List Nat) (h1 : ∀ x, s.head? = some x → 32 < x) (h2 : ∀ x, s.getLast? = some x → 32 < x) :
    strip (List.replicate a 32 ++ s ++ List.replicate b 32) = s := by
  have hlast : ∀ l : List Nat, (∀ x, l.getLast? = some x → 32 < x) → (l ++ List.replicate b 32).reverse.dropWhile isBlank = l.reverse := by
    intro l hl
    rw [List.reverse_append, List.reverse_replicate, db_dropSpaces b _ _ rfl]
    rcases hr : l.reverse with _ | ⟨x, r⟩
    · rfl
    · have : l.getLast? = some x := by
        rw [← List.head?_reverse, hr]; rfl
      rw [List.dropWhile_cons_of_neg (db_notBlank x (hl x this))]
  unfold strip
  rw [List.append_assoc, db_dropSpaces a _ _ rfl]
  rcases s with _ | ⟨x, s⟩
  · have : (([] : List Nat) ++ List.replicate b 32).dropWhile isBlank = [] := by
      have := db_dropSpaces b [] isBlank rfl
      simpa using this
    rw [this]; rfl
  · rw [List.cons_append, List.dropWhile_cons_of_neg (db_notBlank x (h1 x rfl)), ← List.cons_append, hlast (x :: s) h2, List.reverse_reverse]

theorem db_cell {F : Type} (atof : List Nat → F) (buffer : List Nat) (f : Field) (c : Col) (cell : List Nat) (v : Option (Cell F))
    (hs : Shows atof c cell v) (ht : f.typ = c.typ) (hd : f.dec = c.dec) (hc : (buffer.drop f.disp).take f.len = cell) :
    cellOf atof true buffer f = v := by
  unfold cellOf kind cText
  rw [hc, ht, hd]
  cases hs with
  | int k i h1 h2 h3 h4 =>
    rw [if_pos h1, if_pos h2]
    simp only [Option.some.injEq, Cell.int.injEq]
    rw [db_noZero, db_atoll k i h3 h4]
    intro b hb
    rcases List.mem_append.1 hb with hb | hb
    · rw [(List.mem_replicate.1 hb).2]; omega
    · unfold intText at hb
      split_ifs at hb with hi
      · rcases List.mem_cons.1 hb with rfl | hb
        · omega
        · exact db_natText_ne _ b hb
      · exact db_natText_ne _ b hb
  | dbl _ h1 h2 =>
    have hz := db_noZero cell (fun b hb e => h2 (e ▸ hb))
    rcases h1 with ⟨h1, h3⟩ | h1
    · rw [if_pos h1, if_neg h3]
      simp only [hz]
    · rw [if_neg (by omega), if_pos h1]
      simp only [hz]
  | str a b s h1 h2 h3 h4 =>
    rw [if_neg (by omega), if_neg (by omega), if_pos h1]
    simp only [if_true, Option.some.injEq, Cell.str.injEq]
    rw [db_noZero, db_strip a b s h3 h4]
    intro x hx
    rcases List.mem_append.1 hx with hx | hx
    · rcases List.mem_append.1 hx with hx | hx
      · rw [(List.mem_replicate.1 hx).2]; omega
      · exact h2 x hx
    · rw [(List.mem_replicate.1 hx).2]; omega
  | other _ h1 h2 h3 => rw [if_neg h1, if_neg h2, if_neg h3]

theorem db_row_values {F : Type} (atof : List Nat → F) (t : Table) (h : TableOk t) (r : Nat × List (List Nat)) (hr : r ∈ t.rows)
    (vals : List (Option (Cell F))) (hv : RowShows atof t.cols r vals) :
    (headerOf t).fields.map (cellOf atof true (rowBytes r)) = vals := by
  have h1 := db_slice t.cols r.2 (h.rows r hr) [r.1] []
  simp only [List.length_cons, List.length_nil, Nat.zero_add, List.append_nil, List.singleton_append] at h1
  unfold RowShows at hv
  show (fieldsFrom 1 t.cols).map (cellOf atof true (rowBytes r)) = vals
  unfold rowBytes
  generalize fieldsFrom 1 t.cols = fs at h1
  generalize t.cols.zip r.2 = ps at h1 hv
  generalize r.1 :: r.2.flatten = buf at h1
  induction h1 generalizing vals with
  | nil => cases hv; rfl
  | cons e _ ih =>
    cases hv with
    | cons s hv =>
      rw [List.map_cons, ih _ hv, db_cell atof buf _ _ _ _ s e.1 e.2.1 e.2.2]

theorem db_filterMap {F : Type} (atof : List Nat → F) (buf : List Nat) (st : Bool) : ∀ (fs : List Field) (k : Nat),
    ((fs.zipIdx k).filter (fun e => kind e.1 ≠ .other)).filterMap (fun e => cellOf atof st buf e.1) = (fs.map (cellOf atof st buf)).filterMap id
  | [], _ => rfl
  | f :: fs, k => by
    rw [List.zipIdx_cons, List.map_cons]
    have ih := db_filterMap atof buf st fs (k + 1)
    by_cases hk : kind f = .other
    · rw [List.filter_cons_of_neg (by simp [hk]), ih]
      have : cellOf atof st buf f = none := by unfold cellOf; rw [hk]
      rw [this]; rfl
    · rw [List.filter_cons_of_pos (by simp [hk])]
      simp only [List.filterMap_cons, ih]
      rfl

theorem db_cols (t : Table) (h : TableOk t) : (columnOrder (headerOf t) true).map (fun e => nameAt (headerOf t) e.2) = (t.cols.filter readable).map Col.name := by
  have key : ∀ (cols : List Col) (d k : Nat), (∀ (j : Nat) (c : Col), cols[j]? = some c → nameAt (headerOf t) (k + j) = c.name) →
      (((fieldsFrom d cols).zipIdx k).filter (fun e => kind e.1 ≠ .other)).map (fun e => nameAt (headerOf t) e.2) = (cols.filter readable).map Col.name := by
    intro cols
    induction cols with
    | nil => intro _ _ _; rfl
    | cons c cs ih =>
      intro d k hn
      have ihn := ih (d + c.len) (k + 1) (fun j c' hc' => by
        have := hn (j + 1) c' (by simpa using hc')
        rw [← this]; congr 1; omega)
      have h0 := hn 0 c rfl
      rw [fieldsFrom, List.zipIdx_cons]
      have hkind : (kind ⟨nameBytes c, c.typ, c.len, c.dec, d⟩ ≠ .other) ↔ readable c = true := by
        simp only [kind, readable, Bool.or_eq_true, beq_iff_eq]
        split_ifs <;> simp_all
      by_cases hr : readable c = true
      · rw [List.filter_cons_of_pos (by simpa using hkind.2 hr), List.filter_cons_of_pos hr, List.map_cons, List.map_cons, ihn]
        congr 1
      · rw [List.filter_cons_of_neg (by simpa using fun e => hr (hkind.1 e)), List.filter_cons_of_neg hr, ihn]
  have := key t.cols 1 0 (fun j c hc => by rw [Nat.zero_add]; exact db_name t h j c hc)
  simpa [columnOrder, headerOf] using this

theorem db_mapM {β γ : Type} (f : β → Option γ) (g : β → γ) (l : List β) (h : ∀ a ∈ l, f a = some (g a)) : l.mapM f = some (l.map g) := by
  induction l with
  | nil => rfl
  | cons a l ih =>
    rw [List.mapM_cons, h a (by simp), ih (fun x hx => h x (by simp [hx]))]
    rfl

/-- C165: `load_dataframe(start, stop)` gives the records from `start` to before `stop` in their order (to the last one when `stop` is negative or too
large), with the columns in the order of the file, and the value shown in each field, as long as the file is shorter than 2 GB. -/
theorem C165_load {F : Type} (atof : List Nat → F) (t : Table) (h : TableOk t) (vals : List (List (Option (Cell F))))
    (hv : List.Forall₂ (RowShows atof t.cols) t.rows vals) (hs : t.rows.length * recordLength t.cols < 2 ^ 31)
    (start : Nat) (hst : start ≤ t.rows.length) (stop : Int) :
    ∃ hd fr, readHeader (fileOf t) = .ok hd ∧ load atof (fileOf t) hd start stop true true = some fr ∧
      fr.cols = (t.cols.filter readable).map Col.name ∧
      fr.rows.map Prod.fst = List.range' start (lastRow t.rows.length stop - start) ∧
      ∀ r ∈ fr.rows, ∃ vs, vals[r.1]? = some vs ∧ r.2 = vs.filterMap id := by
  have hlen : vals.length = t.rows.length := hv.length_eq.symm
  let g : Nat → Nat × List (Cell F) := fun row => (row, ((vals[row]?).getD []).filterMap id)
  have hrow : ∀ row, row < t.rows.length → (pull (fileOf t) (headerOf t) row).map (fun b =>
      (row, (columnOrder (headerOf t) true).filterMap (fun e => cellOf atof true b e.1))) = some (g row) := by
    intro row hr
    have hget := List.getElem?_eq_getElem hr
    rw [db_pull t h row _ hget (lt_of_le_of_lt (Nat.mul_le_mul_right _ (by omega)) hs)]
    simp only [Option.map_some, Option.some.injEq, g, Prod.mk.injEq, true_and]
    have hr' : row < vals.length := by omega
    have hsh := (List.forall₂_iff_get.1 hv).2 row hr hr'
    rw [List.getElem?_eq_getElem hr', Option.getD_some]
    have := db_row_values atof t h t.rows[row] (List.getElem_mem hr) vals[row] hsh
    rw [← this]
    exact db_filterMap atof _ true _ 0
  have hlast : lastRow t.rows.length stop ≤ t.rows.length := by
    unfold lastRow; split_ifs <;> omega
  have hcount : ((if stop < 0 ∨ ((headerOf t).nrecs : Int) < stop then ((headerOf t).nrecs : Int) else stop) - (start : Int)).toNat =
      lastRow t.rows.length stop - start := by
    unfold lastRow
    show ((if stop < 0 ∨ (t.rows.length : Int) < stop then (t.rows.length : Int) else stop) - (start : Int)).toNat = _
    split_ifs with hc <;> omega
  have hload : load atof (fileOf t) (headerOf t) start stop true true =
      some ⟨(columnOrder (headerOf t) true).map (fun e => nameAt (headerOf t) e.2), (List.range' start (lastRow t.rows.length stop - start)).map g⟩ := by
    unfold load
    simp only
    rw [if_neg (by show ¬((start : Int) < 0 ∨ (t.rows.length : Int) < (start : Int)); omega), hcount, Int.toNat_natCast,
      show (List.range (lastRow t.rows.length stop - start)).map (fun i => start + i) = List.range' start (lastRow t.rows.length stop - start) from
        (List.range'_eq_map_range ..).symm,
      db_mapM _ g _ (by
        intro row hrm
        have := List.mem_range'_1.1 hrm
        exact hrow row (by omega))]
    rfl
  refine ⟨headerOf t, _, db_header t h, hload, db_cols t h, ?_, ?_⟩
  · rw [List.map_map]
    conv_rhs => rw [← List.map_id (List.range' start (lastRow t.rows.length stop - start))]
    rfl
  · intro r hr
    obtain ⟨row, hrm, rfl⟩ := List.mem_map.1 hr
    have := List.mem_range'_1.1 hrm
    have hr' : row < vals.length := by omega
    exact ⟨vals[row], List.getElem?_eq_getElem hr', by simp [g, List.getElem?_eq_getElem hr']⟩

/-- C165: a first row which is negative or beyond the records raises. -/
theorem C165_start {F : Type} (atof : List Nat → F) (file : List Nat) (h : Header) (start stop : Int) (p s : Bool)
    (hs : start < 0 ∨ (h.nrecs : Int) < start) : load atof file h start stop p s = none := by
  unfold load
  simp only
  rw [if_pos hs]

theorem db_filter_perm {α : Type} (f : α → Kind) : ∀ l : List α, (l.filter (fun e => f e = .integer) ++ l.filter (fun e => f e = .double) ++ l.filter (fun e => f e = .string)).Perm
    (l.filter (fun e => f e ≠ .other))
  | [] => List.Perm.refl _
  | a :: l => by
    have ih := db_filter_perm f l
    cases h : f a
    · simpa [List.filter_cons, h] using ih
    · simp only [List.filter_cons, h]
      simp only [decide_true, decide_false, reduceCtorEq, if_true, ne_eq, not_false_eq_true, Bool.false_eq_true, if_false, List.append_assoc, List.cons_append]
      refine List.perm_middle.trans (List.Perm.cons a ?_)
      simpa using ih
    · simp only [List.filter_cons, h]
      simp only [decide_true, decide_false, reduceCtorEq, if_true, ne_eq, not_false_eq_true, Bool.false_eq_true, if_false]
      refine List.perm_middle.trans (List.Perm.cons a ?_)
      simpa using ih
    · simpa [List.filter_cons, h] using ih

theorem db_order_perm (h : Header) : (columnOrder h false).Perm (columnOrder h true) := db_filter_perm (fun e : Field × Nat => kind e.1) h.fields.zipIdx

theorem db_order_kind (h : Header) (p : Bool) (e : Field × Nat) (he : e ∈ columnOrder h p) : kind e.1 ≠ .other := by
  have : e ∈ columnOrder h true := by
    cases p
    · exact (db_order_perm h).mem_iff.1 he
    · exact he
  simpa [columnOrder] using (List.mem_filter.1 this).2

theorem db_cells {F : Type} (atof : List Nat → F) (st : Bool) (b : List Nat) : ∀ l : List (Field × Nat), (∀ e ∈ l, kind e.1 ≠ .other) →
    ∃ c : Field × Nat → Cell F, l.filterMap (fun e => cellOf atof st b e.1) = l.map c ∧ ∀ e, kind e.1 ≠ .other → cellOf atof st b e.1 = some (c e) := by
  intro l hl
  have hs : ∀ e : Field × Nat, kind e.1 ≠ .other → (cellOf atof st b e.1).isSome := by
    intro e he
    unfold cellOf
    cases hk : kind e.1 <;> simp_all
  refine ⟨fun e => (cellOf atof st b e.1).getD (.int 0), ?_, ?_⟩
  · rw [← List.filterMap_eq_map]
    apply List.filterMap_congr
    intro e he
    obtain ⟨c, hc⟩ := Option.isSome_iff_exists.1 (hs e (hl e he))
    simp [hc]
  · intro e he
    obtain ⟨c, hc⟩ := Option.isSome_iff_exists.1 (hs e he)
    simp [hc]

/-- C165: without `preserve_order` the columns come in another order, but each record has the same value under the same name. -/
theorem C165_grouped {F : Type} (atof : List Nat → F) (file : List Nat) (h : Header) (start stop : Int) (st : Bool) (fr : Frame F)
    (hl : load atof file h start stop true st = some fr) : ∃ fr', load atof file h start stop false st = some fr' ∧ fr'.cols.Perm fr.cols ∧
      List.Forall₂ (fun r' r => r'.1 = r.1 ∧ (fr'.cols.zip r'.2).Perm (fr.cols.zip r.2)) fr'.rows fr.rows := by
  unfold load at hl ⊢
  simp only at hl ⊢
  split_ifs at hl ⊢ with h1
  all_goals
    obtain ⟨rows, hrows, rfl⟩ := Option.map_eq_some_iff.1 hl
    generalize (List.range _).map (fun i => start.toNat + i) = ns at hrows ⊢
    suffices hsuf : ∃ rows', ns.mapM (fun row => (pull file h row).map (fun b => (row, (columnOrder h false).filterMap (fun e => cellOf atof st b e.1)))) = some rows' ∧
        List.Forall₂ (fun (r' r : Nat × List (Cell F)) => r'.1 = r.1 ∧ (((columnOrder h false).map (fun e => nameAt h e.2)).zip r'.2).Perm
          (((columnOrder h true).map (fun e => nameAt h e.2)).zip r.2)) rows' rows by
      obtain ⟨rows', hr', hp⟩ := hsuf
      exact ⟨_, by rw [hr']; rfl, (db_order_perm h).map _, hp⟩
    clear hl
    induction ns generalizing rows with
    | nil =>
      simp at hrows
      subst hrows
      exact ⟨[], by simp, .nil⟩
    | cons n ns ih =>
      rw [List.mapM_cons] at hrows
      rcases hb : pull file h n with _ | b
      · simp [hb] at hrows
      · rcases hm : ns.mapM (fun row => (pull file h row).map (fun b => (row, (columnOrder h true).filterMap (fun e => cellOf atof st b e.1)))) with _ | rest
        · simp [hb, hm] at hrows
        · simp only [hb, hm, Option.map_some, Option.bind_eq_bind, Option.bind_some, Option.pure_def, Option.some.injEq] at hrows
          subst hrows
          obtain ⟨rest', h1', h2'⟩ := ih rest hm
          refine ⟨(n, (columnOrder h false).filterMap (fun e => cellOf atof st b e.1)) :: rest', by rw [List.mapM_cons, hb, h1']; rfl, .cons ⟨rfl, ?_⟩ h2'⟩
          obtain ⟨c, hc, hc'⟩ := db_cells atof st b (columnOrder h true) (db_order_kind h true)
          have hcf : (columnOrder h false).filterMap (fun e => cellOf atof st b e.1) = (columnOrder h false).map c := by
            rw [← List.filterMap_eq_map]
            apply List.filterMap_congr
            intro e he
            simp [hc' e (db_order_kind h false e he)]
          rw [hc, hcf, List.zip_map', List.zip_map']
          exact (db_order_perm h).map _

/-! ### Chunks -/

theorem db_mapM_get {β γ : Type} (f : β → Option γ) : ∀ (l : List β) (r : List γ), l.mapM f = some r →
    r.length = l.length ∧ ∀ (i : Nat) (a : β), l[i]? = some a → f a = r[i]?
  | [], r, h => by
    simp at h
    subst h
    exact ⟨rfl, fun i a ha => by simp at ha⟩
  | b :: l, r, h => by
    rw [List.mapM_cons] at h
    rcases hb : f b with _ | c
    · simp [hb] at h
    · rcases hl : l.mapM f with _ | r'
      · simp [hb, hl] at h
      · simp [hb, hl] at h
        subst h
        obtain ⟨h1, h2⟩ := db_mapM_get f l r' hl
        refine ⟨by simp [h1], fun i a ha => ?_⟩
        cases i with
        | zero => simp at ha; subst ha; simpa using hb
        | succ i => simpa using h2 i a (by simpa using ha)

theorem db_chunks (n chunk : Nat) (hc : 1 ≤ chunk) : ∀ (fuel start : Nat), n ≤ start + fuel → ∃ l, chunks n chunk fuel start = some l ∧
    (l.map (fun e => List.range' e.1 (e.2 - e.1))).flatten = List.range' start (n - start) ∧ ∀ e ∈ l, e.1 < e.2 ∧ e.2 ≤ n ∧ e.2 ≤ e.1 + chunk
  | 0, start, h => ⟨[], by simp [chunks, show ¬ start < n by omega], by simp [show n - start = 0 by omega], by simp⟩
  | fuel + 1, start, h => by
    by_cases hs : start < n
    · obtain ⟨l, h1, h2, h3⟩ := db_chunks n chunk hc fuel (start + chunk) (by omega)
      refine ⟨(start, min (start + chunk) n) :: l, by simp [chunks, hs, h1], ?_, ?_⟩
      · rw [List.map_cons, List.flatten_cons, h2]
        by_cases hb : start + chunk ≤ n
        · rw [min_eq_left hb, show start + chunk - start = chunk by omega]
          have := List.range'_append (s := start) (m := chunk) (n := n - (start + chunk)) (step := 1)
          rw [Nat.one_mul] at this
          rw [this]; congr 1; omega
        · rw [min_eq_right (by omega), show n - (start + chunk) = 0 by omega]
          simp
      · intro e he
        rcases List.mem_cons.1 he with rfl | he
        · refine ⟨?_, ?_, ?_⟩ <;> simp <;> omega
        · exact h3 e he
    · exact ⟨[], by simp [chunks, hs], by simp [show n - start = 0 by omega], by simp⟩

/-- C165: `load_dataframe_iter` yields, in order, pieces which together have every row of the whole frame once, each piece with at least one
row and at most `chunksize`, and the same columns. -/
theorem C165_chunks {F : Type} (atof : List Nat → F) (file : List Nat) (h : Header) (chunk fuel : Nat) (hc : 1 ≤ chunk) (hf : h.nrecs ≤ fuel)
    (fr : Frame F) (hl : load atof file h 0 (-1) false false = some fr) :
    ∃ frs, loadIter atof file h chunk fuel = some frs ∧ (frs.map Frame.rows).flatten = fr.rows ∧
      ∀ p ∈ frs, p.cols = fr.cols ∧ 1 ≤ p.rows.length ∧ p.rows.length ≤ chunk := by
  unfold load at hl
  simp only at hl
  rw [if_neg (by omega), if_pos (by omega)] at hl
  simp only [Int.sub_zero, Int.toNat_natCast, Int.toNat_zero, Nat.zero_add, List.map_id'] at hl
  obtain ⟨rows, hrows, rfl⟩ := Option.map_eq_some_iff.1 hl
  obtain ⟨hlen, hget⟩ := db_mapM_get _ _ _ hrows
  rw [List.length_range] at hlen
  let g : Nat → Nat × List (Cell F) := fun i => (rows[i]?).getD (0, [])
  have hg : ∀ i, i < h.nrecs → (pull file h i).map (fun b =>
      (i, (columnOrder h false).filterMap (fun e => cellOf atof false b e.1))) = some (g i) := by
    intro i hi
    rw [hget i i (List.getElem?_range hi)]
    simp [g, List.getElem?_eq_getElem (show i < rows.length by omega)]
  have hall : rows = (List.range' 0 (h.nrecs - 0)).map g := by
    apply List.ext_getElem?
    intro i
    rw [List.getElem?_map, Nat.sub_zero, ← List.range_eq_range']
    by_cases hi : i < h.nrecs
    · rw [List.getElem?_range hi]
      simp [g, List.getElem?_eq_getElem (show i < rows.length by omega)]
    · rw [List.getElem?_eq_none (by omega), List.getElem?_eq_none (by simp; omega)]
      rfl
  have hpart : ∀ (a b : Nat), a < b → b ≤ h.nrecs → load atof file h a b false false =
      some ⟨(columnOrder h false).map (fun e => nameAt h e.2), (List.range' a (b - a)).map g⟩ := by
    intro a b hab hb
    unfold load
    simp only
    rw [if_neg (by omega), if_neg (by omega), show ((b : Int) - (a : Int)).toNat = b - a by omega, Int.toNat_natCast,
      show (List.range (b - a)).map (fun i => a + i) = List.range' a (b - a) from (List.range'_eq_map_range ..).symm,
      db_mapM _ g _ (by
        intro row hrm
        have := List.mem_range'_1.1 hrm
        exact hg row (by omega))]
    rfl
  obtain ⟨l, h1, h2, h3⟩ := db_chunks h.nrecs chunk hc fuel 0 (by omega)
  let piece : Nat × Nat → Frame F := fun e => ⟨(columnOrder h false).map (fun x => nameAt h x.2), (List.range' e.1 (e.2 - e.1)).map g⟩
  refine ⟨l.map piece, ?_, ?_, ?_⟩
  · unfold loadIter
    rw [h1, Option.bind_some]
    exact db_mapM _ _ _ (fun e he => hpart e.1 e.2 (h3 e he).1 (h3 e he).2.1)
  · show _ = rows
    rw [hall, ← h2, List.map_flatten, List.map_map, List.map_map]
    rfl
  · intro p hp
    obtain ⟨e, he, rfl⟩ := List.mem_map.1 hp
    have := h3 e he
    refine ⟨rfl, ?_, ?_⟩ <;> simp [piece] <;> omega

/-- C165 fails: a chunk size of zero never ends. -/
theorem C165_fails_chunk_zero {F : Type} (atof : List Nat → F) (file : List Nat) (h : Header) (hn : 0 < h.nrecs) (fuel : Nat) :
    loadIter atof file h 0 fuel = none := by
  have : ∀ fuel, chunks h.nrecs 0 fuel 0 = none := by
    intro fuel
    induction fuel with
    | zero => simp [chunks, hn]
    | succ n ih => simp [chunks, hn, ih]
  simp [loadIter, this]

/-! ### What goes wrong -/

/-- A field with a name, a type letter, a length and decimals. -/
def colNamed (name : List Nat) (typ len dec : Nat) : Col := ⟨name, typ, len, dec, [0, 0, 0, 0], List.replicate 14 0⟩

/-- A file with these fields and records. -/
def tableWith (cols : List Col) (rows : List (Nat × List (List Nat))) : Table := ⟨[95, 7, 26], List.replicate 20 0, cols, rows⟩

/-- A field ID of 3 digits, X with a decimal, NAME of 4 characters and WHEN, a date. -/
def smallTable : Table := tableWith [colNamed [73, 68] 78 3 0, colNamed [88] 70 3 1, colNamed [78, 65, 77, 69] 67 4 0, colNamed [87, 72, 69, 78] 68 2 0]
  [(32, [[32, 45, 55], [49, 46, 53], [97, 98, 32, 32], [48, 49]]), (42, [[32, 52, 50], [50, 46, 48], [32, 99, 32, 32], [48, 50]])]

theorem db_small : TableOk smallTable := by
  refine ⟨rfl, rfl, ?_, ?_, by decide, by decide, by decide⟩
  · intro c hc
    simp only [smallTable, tableWith, List.mem_cons, List.not_mem_nil, or_false] at hc
    rcases hc with rfl | rfl | rfl | rfl <;> exact ⟨by decide, by decide, by decide, by decide, by decide, rfl, rfl⟩
  · intro r hr
    simp only [smallTable, tableWith, List.mem_cons, List.not_mem_nil, or_false] at hr
    rcases hr with rfl | rfl <;> exact .cons rfl (.cons rfl (.cons rfl (.cons rfl .nil)))

theorem db_small_shows : List.Forall₂ (RowShows (fun s => s) smallTable.cols) smallTable.rows
    [[some (.int (-7)), some (.dbl [49, 46, 53]), some (.str [97, 98]), none], [some (.int 42), some (.dbl [50, 46, 48]), some (.str [99]), none]] := by
  have it1 : intText (-7) = [45, 55] := by norm_num [intText, natText]
  have it2 : intText 42 = [52, 50] := by norm_num [intText, natText]
  have s1 := Shows.int (F := List Nat) (atof := fun s => s) (colNamed [73, 68] 78 3 0) 1 (-7) rfl rfl (by norm_num) (by norm_num)
  have s2 := Shows.int (F := List Nat) (atof := fun s => s) (colNamed [73, 68] 78 3 0) 1 42 rfl rfl (by norm_num) (by norm_num)
  rw [it1] at s1
  rw [it2] at s2
  refine .cons (.cons s1 (.cons ?_ (.cons ?_ (.cons ?_ .nil)))) (.cons (.cons s2 (.cons ?_ (.cons ?_ (.cons ?_ .nil)))) .nil)
  · exact .dbl _ _ (Or.inr rfl) (by decide)
  · exact Shows.str (colNamed [78, 65, 77, 69] 67 4 0) 0 2 [97, 98] rfl (by decide) (by simp) (by simp)
  · exact .other _ _ (by decide) (by decide) (by decide)
  · exact .dbl _ _ (Or.inr rfl) (by decide)
  · exact Shows.str (colNamed [78, 65, 77, 69] 67 4 0) 1 2 [99] rfl (by decide) (by simp) (by simp)
  · exact .other _ _ (by decide) (by decide) (by decide)

example : ∃ hd, readHeader (fileOf smallTable) = .ok hd ∧ fieldNames hd = [[73, 68], [88], [78, 65, 77, 69], [87, 72, 69, 78]] := by
  obtain ⟨hd, h1, _, h2, _⟩ := C164_header smallTable db_small
  exact ⟨hd, h1, h2⟩

example : load (fun s => s) (fileOf smallTable) (headerOf smallTable) 0 (-1) true true =
    some ⟨[[73, 68], [88], [78, 65, 77, 69]], [(0, [.int (-7), .dbl [49, 46, 53], .str [97, 98]]), (1, [.int 42, .dbl [50, 46, 48], .str [99]])]⟩ := by
  decide +kernel

example : ∃ hd fr, readHeader (fileOf smallTable) = .ok hd ∧ load (fun s => s) (fileOf smallTable) hd (1 : Nat) (-1) true true = some fr ∧
    fr.cols = [[73, 68], [88], [78, 65, 77, 69]] ∧ fr.rows.map Prod.fst = [1] := by
  obtain ⟨hd, fr, h1, h2, h3, h4, _⟩ := C165_load (fun s => s) smallTable db_small _ db_small_shows (by decide) 1 (by decide) (-1)
  exact ⟨hd, fr, h1, h2, h3, h4⟩

example : loadIter (fun s => s) (fileOf smallTable) (headerOf smallTable) 1 5 =
    some [⟨[[73, 68], [88], [78, 65, 77, 69]], [(0, [.int (-7), .dbl [49, 46, 53], .str [97, 98, 32, 32]])]⟩,
      ⟨[[73, 68], [88], [78, 65, 77, 69]], [(1, [.int 42, .dbl [50, 46, 48], .str [32, 99, 32, 32]])]⟩] := by decide +kernel

/-- C164 fails: a text field of 128 to 254 characters, which dBASE III allows, makes the file unreadable. -/
theorem C164_fails_long_field : ∃ t : Table, t.date.length = 3 ∧ t.res.length = 20 ∧ t.cols.map Col.len = [128] ∧ readHeader (fileOf t) = .error .overflow :=
  ⟨tableWith [colNamed [65] 67 128 0] [], rfl, rfl, rfl, by decide +kernel⟩

/-- C164 fails: a name using all of its 11 bytes runs into the next name. -/
theorem C164_fails_long_name : ∃ (t : Table) (hd : Header), t.cols.map Col.name = [List.replicate 11 65, [66]] ∧ readHeader (fileOf t) = .ok hd ∧
    fieldNames hd = [List.replicate 11 65 ++ [66], [66]] :=
  ⟨tableWith [colNamed (List.replicate 11 65) 67 1 0, colNamed [66] 67 1 0] [], headerOf (tableWith [colNamed (List.replicate 11 65) 67 1 0, colNamed [66] 67 1 0] []),
    rfl, by decide +kernel, by decide +kernel⟩

/-- A file with one field whose header is longer, as Visual FoxPro writes it: 263 bytes follow the closing byte. -/
def foxFile : List Nat :=
  [48, 95, 7, 26] ++ le32 1 ++ le16 (33 + 32 + 263) ++ le16 3 ++ List.replicate 20 0 ++ colBytes (colNamed [65] 78 2 0) ++ [13] ++ List.replicate 263 0 ++ [32, 49, 50] ++ [26]

/-- C164 and C165 fail: for the longer headers of Visual FoxPro, eight more fields are found. -/
theorem C164_fails_backlink : ∃ hd, readHeader foxFile = .ok hd ∧ hd.fields.length = 9 := by
  refine ⟨_, rfl, by decide +kernel⟩

/-- C165 fails: the mark of deleted records is not looked at: they are loaded as all others. -/
theorem C165_fails_deleted : ∃ fr : Frame (List Nat), (smallTable.rows.map Prod.fst = [32, 42]) ∧
    load (fun s => s) (fileOf smallTable) (headerOf smallTable) 0 (-1) true true = some fr ∧ fr.rows.length = 2 :=
  ⟨_, rfl, rfl, by decide +kernel⟩

/-- C165 fails: an empty number field, which stands for no value, reads as 0. -/
theorem C165_fails_blank : atoll [32, 32, 32] = 0 ∧ cellOf (fun s => s) true [32, 32, 32, 32] ⟨[], 78, 3, 0, 1⟩ = some (.int 0) := by decide

/-- C165 fails: dates and truth values are left out without notice. -/
theorem C165_fails_dates {F : Type} (atof : List Nat → F) (buffer : List Nat) (f : Field) (st : Bool) (h : f.typ = 68 ∨ f.typ = 76) :
    cellOf atof st buffer f = none := by
  rcases h with h | h <;> simp [cellOf, kind, h]

/-- C165 fails: beyond 2 GB other records are read: with records of 256 bytes, record `2 ^ 24 + i` reads as record `i`. -/
theorem C165_fails_2GB (file : List Nat) (h : Header) (hr : h.recln = 256) (i : Nat) : pull file h (2 ^ 24 + i) = pull file h i := by
  have : wrap32 (((2 ^ 24 + i : Nat) : Int) * (h.recln : Int)) = wrap32 ((i : Int) * (h.recln : Int)) := by
    rw [hr]
    unfold wrap32
    omega
  unfold pull
  rw [this]

end Larch.Props
