import Verif.Lemmas.AltCodes

/-!
# C33, C34: systematic alternative codes and bit masks
-/

namespace Larch.Props
open Larch.AltCodes

/-! ## C33

English: codes of distinct rows of one case differ, and the stored masks recover each group value and
the counter from the code.  The real code breaks the second half exactly when the largest counter is a power of two
(in particular when it is 1, i.e. no repeated alternatives): `C33_counter_misread`, `C33_wrong_nest`,
`C33_decode_fails`. -/

/-- The rows of one case always get pairwise different codes (for every frame, padding and number of
`groupby` columns). -/
theorem C33_codes_distinct {β : Type} [LinearOrder β] (G padding : Nat) (rows : List (Row β))
    (i j : Nat) (hij : i < j) (hj : j < rows.length)
    (hcase : (rows[i]'(by omega)).caseid = rows[j].caseid) :
    altCode G padding rows i ≠ altCode G padding rows j := by
  intro h
  have hi : i < rows.length := by omega
  unfold altCode at h
  simp only [List.getElem?_eq_getElem hi, List.getElem?_eq_getElem hj] at h
  have := pack_inj (rowGroups_valid G padding rows _ (List.getElem_mem hi))
    (rowGroups_valid G padding rows _ (List.getElem_mem hj))
    (by rw [rowGroups_fst, rowGroups_fst]) (counter_pos G rows hi)
    (le_trans (counter_le_max G rows hi) (maxCounter_le G rows)) (counter_pos G rows hj)
    (le_trans (counter_le_max G rows hj) (maxCounter_le G rows)) h
  have hv := vals_eq_of_idx G padding rows _ _ (List.getElem_mem hi) this.1
  have hk : (rows[i]'hi).key G = rows[j].key G := by
    unfold Row.key
    rw [hcase]
    congr 1
    exact List.map_congr_left (fun k hk => hv k (List.mem_range.mp hk))
  have := counter_lt_of_key_eq G rows hij hj hk
  omega

/-- Two rows (of any cases) get the same code only if they agree on all `groupby` columns and on the
counter: a code identifies one systematic alternative. -/
theorem C33_code_identifies {β : Type} [LinearOrder β] (G padding : Nat) (rows : List (Row β))
    (i j : Nat) (hi : i < rows.length) (hj : j < rows.length) :
    altCode G padding rows i = altCode G padding rows j ↔
      (∀ g < G, rows[i].vals g = rows[j].vals g) ∧ counter G rows i = counter G rows j := by
  unfold altCode
  simp only [List.getElem?_eq_getElem hi, List.getElem?_eq_getElem hj]
  constructor
  · intro h
    have := pack_inj (rowGroups_valid G padding rows _ (List.getElem_mem hi))
      (rowGroups_valid G padding rows _ (List.getElem_mem hj))
      (by rw [rowGroups_fst, rowGroups_fst]) (counter_pos G rows hi)
      (le_trans (counter_le_max G rows hi) (maxCounter_le G rows)) (counter_pos G rows hj)
      (le_trans (counter_le_max G rows hj) (maxCounter_le G rows)) h
    exact ⟨vals_eq_of_idx G padding rows _ _ (List.getElem_mem hi) this.1, this.2⟩
  · rintro ⟨h1, h2⟩
    rw [h2]
    congr 1
    unfold rowGroups
    exact List.map_congr_left (fun k hk => by rw [h1 k (List.mem_range.mp hk)])

/-- Decoding (the parts `alternative_name_from_code` uses) is right for every row whose counter is
below `2^label_offset`. What is missing from the full property: rows whose counter equals
`2^label_offset`, where it is false (next theorems). -/
theorem C33_decode_partial {β : Type} [LinearOrder β] (G padding : Nat) (rows : List (Row β))
    (i : Nat) (hi : i < rows.length) (hs : counter G rows i < 2 ^ labelOffset G rows) :
    (∀ g < G, ∃ idx,
        decodeGroup ((altMasks G padding rows).getD g 0) (altCode G padding rows i) = some idx ∧
        (groupUniq rows g)[idx]? = some (rows[i].vals g)) ∧
      field ((altMasks G padding rows).getD G 0) (altCode G padding rows i) = counter G rows i := by
  have hne : rows ≠ [] := by rintro rfl; simp at hi
  have hcode : altCode G padding rows i =
      pack (rowGroups G padding rows rows[i]) (labelOffset G rows) (counter G rows i) := by
    unfold altCode; simp [hi]
  have hval := rowGroups_valid G padding rows _ (List.getElem_mem hi)
  constructor
  · intro g hg
    refine ⟨(groupUniq rows g).idxOf (rows[i].vals g), ?_, ?_⟩
    · unfold altMasks
      rw [buildMasks_get _ _ _ (by rw [sizes_length]; exact hg), sizes_get G padding rows hg]
      unfold decodeGroup
      rw [field_mask (one_le_size padding rows hne g), hcode, code_div hs]
      have hlen : g < (rowGroups G padding rows rows[i]).length := by simp [rowGroups, hg]
      have hsplit : rowGroups G padding rows rows[i] =
          (rowGroups G padding rows rows[i]).take g ++
          (rowGroups G padding rows rows[i])[g] :: (rowGroups G padding rows rows[i]).drop (g + 1) := by
        rw [← List.drop_eq_getElem_cons hlen, List.take_append_drop]
      have hd := packR_digit (pre := (rowGroups G padding rows rows[i]).take g)
        (g := (rowGroups G padding rows rows[i])[g])
        (post := (rowGroups G padding rows rows[i]).drop (g + 1)) (by rw [← hsplit]; exact hval)
      rw [← hsplit, rowGroups_drop] at hd
      have hgi : (rowGroups G padding rows rows[i])[g] =
          (ceilLog2 ((groupUniq rows g).length + 1 + padding), (groupUniq rows g).idxOf (rows[i].vals g)) := by
        simp [rowGroups]
      rw [hgi] at hd
      simp only at hd
      rw [hd]
    · have hm : rows[i].vals g ∈ groupUniq rows g := by
        unfold groupUniq; rw [mem_uniq]; exact List.mem_map.mpr ⟨_, List.getElem_mem hi, rfl⟩
      exact List.getElem?_idxOf hm
  · have hlast := buildMasks_last (sizes G padding rows) (labelOffset G rows)
    rw [sizes_length] at hlast
    unfold altMasks
    rw [hlast]
    have hpos := counter_pos G rows hi
    have hL : 1 ≤ labelOffset G rows := by
      by_contra h0
      have : labelOffset G rows = 0 := by omega
      rw [this] at hs; simp at hs; omega
    have := field_mask hL 0 (altCode G padding rows i)
    simp only [pow_zero, Nat.mul_one, Nat.div_one] at this
    rw [this, hcode]
    unfold pack
    rw [Nat.shiftLeft_eq, Nat.add_comm, Nat.add_mul_mod_self_right, Nat.mod_eq_of_lt hs]

/-- If the largest counter is not a power of two, decoding is right for every row of the frame. -/
theorem C33_decode_all_partial {β : Type} [LinearOrder β] (G padding : Nat) (rows : List (Row β))
    (hpow : ∀ k, maxCounter G rows ≠ 2 ^ k) (i : Nat) (hi : i < rows.length) :
    (∀ g < G, ∃ idx,
        decodeGroup ((altMasks G padding rows).getD g 0) (altCode G padding rows i) = some idx ∧
        (groupUniq rows g)[idx]? = some (rows[i].vals g)) ∧
      field ((altMasks G padding rows).getD G 0) (altCode G padding rows i) = counter G rows i := by
  apply C33_decode_partial G padding rows i hi
  have h1 := counter_le_max G rows hi
  have h2 := maxCounter_le G rows
  have h3 := hpow (labelOffset G rows)
  omega

/-- Under the same condition, nests built from the masks (`magic_nesting`) group exactly the rows
that agree on the first `l+1` `groupby` columns. -/
theorem C33_nests_partial {β : Type} [LinearOrder β] (G padding : Nat) (rows : List (Row β))
    (i j l : Nat) (hi : i < rows.length) (hj : j < rows.length) (hl : l < G)
    (hsi : counter G rows i < 2 ^ labelOffset G rows)
    (hsj : counter G rows j < 2 ^ labelOffset G rows) :
    nestCode (altMasks G padding rows) l (altCode G padding rows i) =
      nestCode (altMasks G padding rows) l (altCode G padding rows j) ↔
    ∀ g ≤ l, rows[i].vals g = rows[j].vals g := by
  have key : ∀ k (hk : k < rows.length), counter G rows k < 2 ^ labelOffset G rows →
      nestCode (altMasks G padding rows) l (altCode G padding rows k) =
        packR ((rowGroups G padding rows rows[k]).take (l + 1)) *
          2 ^ (((sizes G padding rows).drop (l + 1)).sum + labelOffset G rows) := by
    intro k hk hsk
    have hval := rowGroups_valid G padding rows _ (List.getElem_mem hk)
    have hcode : altCode G padding rows k =
        pack (rowGroups G padding rows rows[k]) (labelOffset G rows) (counter G rows k) := by
      unfold altCode; simp [hk]
    unfold nestCode altMasks
    rw [masks_take_sum _ _ _ (by rw [sizes_length]; omega), and_mask_high, hcode, code_div hsk]
    · have := packR_prefix (pre := (rowGroups G padding rows rows[k]).take (l + 1))
        (post := (rowGroups G padding rows rows[k]).drop (l + 1))
        (fun x hx => hval x (List.mem_of_mem_drop hx))
      rw [List.take_append_drop, rowGroups_drop] at this
      rw [this]
    · have h := code_lt hval hsk
      rw [width_rowGroups] at h
      rw [hcode]
      have e : ((sizes G padding rows).take (l + 1)).sum +
          (((sizes G padding rows).drop (l + 1)).sum + labelOffset G rows)
          = (sizes G padding rows).sum + labelOffset G rows := by
        rw [← Nat.add_assoc, ← List.sum_append, List.take_append_drop]
      rw [e]; exact h
  rw [key i hi hsi, key j hj hsj]
  have vi := rowGroups_valid G padding rows _ (List.getElem_mem hi)
  have vj := rowGroups_valid G padding rows _ (List.getElem_mem hj)
  constructor
  · intro h
    have h' := Nat.eq_of_mul_eq_mul_right (Nat.two_pow_pos _) h
    have hinj := packR_inj (fun x hx => vi x (List.mem_of_mem_take hx))
      (fun x hx => vj x (List.mem_of_mem_take hx))
      (by rw [List.map_take, List.map_take, rowGroups_fst, rowGroups_fst]) h'
    intro g hg
    have hgG : g < G := by omega
    have e1 : ∀ k (hk : k < rows.length),
        (((rowGroups G padding rows rows[k]).take (l + 1)).map Prod.snd)[g]? =
          some ((groupUniq rows g).idxOf (rows[k].vals g)) := by
      intro k hk
      rw [List.map_take, List.getElem?_take]
      simp [rowGroups, hgG, show g < l + 1 by omega]
    have e2 := e1 i hi
    rw [hinj, e1 j hj] at e2
    simp only [Option.some.injEq] at e2
    have hm : rows[j].vals g ∈ groupUniq rows g := by
      unfold groupUniq; rw [mem_uniq]; exact List.mem_map.mpr ⟨_, List.getElem_mem hj, rfl⟩
    exact ((List.idxOf_inj hm).mp e2).symm
  · intro h
    have : (rowGroups G padding rows rows[i]).take (l + 1) = (rowGroups G padding rows rows[j]).take (l + 1) := by
      unfold rowGroups
      rw [← List.map_take, ← List.map_take]
      apply List.map_congr_left
      intro k hk
      rw [List.take_range, List.mem_range] at hk
      rw [h k (by omega)]
    rw [this]

/-- The violation, in general: in every frame, a row whose counter equals `2^label_offset`
(the last copy, whenever the largest counter is a power of two) reads back counter 0, i.e. prints as the
placeholder `§` instead of its number. -/
theorem C33_counter_misread {β : Type} [LinearOrder β] (G padding : Nat) (rows : List (Row β))
    (i : Nat) (hi : i < rows.length) (hs : counter G rows i = 2 ^ labelOffset G rows) :
    field ((altMasks G padding rows).getD G 0) (altCode G padding rows i) = 0 := by
  have hcode : altCode G padding rows i =
      pack (rowGroups G padding rows rows[i]) (labelOffset G rows) (counter G rows i) := by
    unfold altCode; simp [hi]
  have hlast := buildMasks_last (sizes G padding rows) (labelOffset G rows)
  rw [sizes_length] at hlast
  unfold altMasks
  rw [hlast]
  by_cases hL : labelOffset G rows = 0
  · rw [hL]; simp [field]
  · have := field_mask (by omega : 1 ≤ labelOffset G rows) 0 (altCode G padding rows i)
    simp only [pow_zero, Nat.mul_one, Nat.div_one] at this
    rw [this, hcode, hs]
    unfold pack
    rw [Nat.shiftLeft_eq, Nat.add_comm, Nat.add_mul_mod_self_right, Nat.mod_self]

/-- … and it is put into a different nest than the other copies of the same alternative: two rows with
identical `groupby` values, one with counter `2^label_offset`, get different nest codes at the last level. -/
theorem C33_wrong_nest {β : Type} [LinearOrder β] (G padding : Nat) (rows : List (Row β))
    (i j : Nat) (hi : i < rows.length) (hj : j < rows.length) (hG : 0 < G)
    (hsame : ∀ g < G, rows[i].vals g = rows[j].vals g)
    (hsi : counter G rows i = 2 ^ labelOffset G rows)
    (hsj : counter G rows j < 2 ^ labelOffset G rows) :
    nestCode (altMasks G padding rows) (G - 1) (altCode G padding rows i) ≠
      nestCode (altMasks G padding rows) (G - 1) (altCode G padding rows j) := by
  have hgroups : rowGroups G padding rows rows[j] = rowGroups G padding rows rows[i] := by
    unfold rowGroups
    exact List.map_congr_left (fun k hk => by rw [hsame k (List.mem_range.mp hk)])
  have hci : altCode G padding rows i =
      (packR (rowGroups G padding rows rows[i]) + 1) * 2 ^ labelOffset G rows := by
    unfold altCode pack
    simp only [List.getElem?_eq_getElem hi]
    rw [Nat.shiftLeft_eq, packGroups_eq_packR, hsi]; ring
  have hcj : altCode G padding rows j =
      pack (rowGroups G padding rows rows[i]) (labelOffset G rows) (counter G rows j) := by
    unfold altCode
    simp only [List.getElem?_eq_getElem hj, hgroups]
  have hval := rowGroups_valid G padding rows _ (List.getElem_mem hi)
  have hW := packR_lt hval
  rw [width_rowGroups] at hW
  have hXpos : 0 < packR (rowGroups G padding rows rows[i]) := by
    obtain ⟨g, gs, hg⟩ : ∃ g gs, rowGroups G padding rows rows[i] = g :: gs := by
      cases h : rowGroups G padding rows rows[i] with
      | nil =>
        have := congrArg List.length h
        simp [rowGroups] at this; omega
      | cons g gs => exact ⟨g, gs, rfl⟩
    rw [hg, packR_cons]
    have := Nat.two_pow_pos (width gs)
    have : 0 < (g.2 + 1) * 2 ^ width gs := by positivity
    omega
  unfold nestCode altMasks
  have hG1 : G - 1 + 1 = G := by omega
  have hsum := masks_take_sum (sizes G padding rows) (labelOffset G rows) (G - 1 + 1)
    (by rw [sizes_length]; omega)
  rw [hG1] at hsum
  have hdrop : (sizes G padding rows).drop G = [] := by
    apply List.drop_eq_nil_of_le; rw [sizes_length]
  have htake : (sizes G padding rows).take G = sizes G padding rows := by
    apply List.take_of_length_le; rw [sizes_length]
  rw [hdrop, htake] at hsum
  simp only [List.sum_nil, Nat.zero_add] at hsum
  rw [hG1, hsum]
  have hlt := code_lt hval hsj
  rw [width_rowGroups] at hlt
  rw [hcj, and_mask_high hlt]
  have hdj := code_div (gs := rowGroups G padding rows rows[i]) hsj 0
  simp only [Nat.zero_add, pow_zero, Nat.div_one] at hdj
  rw [hdj, hci]
  -- left-hand side
  intro h
  have h2 := congrArg (· >>> labelOffset G rows) h
  beta_reduce at h2
  rw [Nat.and_comm, mask_and_shift, Nat.shiftRight_eq_div_pow,
    Nat.mul_div_cancel _ (Nat.two_pow_pos _), Nat.mul_div_cancel _ (Nat.two_pow_pos _)] at h2
  rcases Nat.lt_or_ge (packR (rowGroups G padding rows rows[i]) + 1)
      (2 ^ (sizes G padding rows).sum) with hlt2 | hge
  · rw [Nat.mod_eq_of_lt hlt2] at h2; omega
  · have : packR (rowGroups G padding rows rows[i]) + 1 = 2 ^ (sizes G padding rows).sum := by omega
    rw [this, Nat.mod_self] at h2; omega

/-- A frame with one case and two rows in different groups (value 10 and 20), one `groupby` column. -/
def exFrame : List (Row Nat) := [⟨1, fun _ => 10⟩, ⟨1, fun _ => 20⟩]

/-- Concrete violation of the decoding half of C33 with the default padding 4: the first row (value 10,
position 0 of `[10, 20]`) decodes to position 1, i.e. is named after value 20. -/
theorem C33_decode_fails :
    ¬ (∀ (G padding : Nat) (rows : List (Row Nat)) (i : Nat) (hi : i < rows.length), ∀ g < G, ∃ idx,
        decodeGroup ((altMasks G padding rows).getD g 0) (altCode G padding rows i) = some idx ∧
        (groupUniq rows g)[idx]? = some (rows[i].vals g)) := by
  intro h
  obtain ⟨idx, h1, h2⟩ := h 1 4 exFrame 0 (by simp [exFrame]) 0 (by omega)
  have hm : maxCounter 1 exFrame = 1 := by decide
  have hL : labelOffset 1 exFrame = 0 := by unfold labelOffset ceilLog2; rw [hm]; simp
  have hu : groupUniq exFrame 0 = [10, 20] := by decide
  have hsz : sizes 1 4 exFrame = [3] := by
    have : Nat.clog 2 7 = 3 := by decide
    simp [sizes, hu, ceilLog2, this]
  have hmask : (altMasks 1 4 exFrame).getD 0 0 = 7 := by
    unfold altMasks; rw [hsz, hL]; decide
  have hc : altCode 1 4 exFrame 0 = 2 := by
    unfold altCode
    have : exFrame[0]? = some ⟨1, fun _ => 10⟩ := rfl
    rw [this]
    simp only
    rw [hL]
    have : counter 1 exFrame 0 = 1 := by decide
    rw [this]
    simp [rowGroups, hu, pack, packGroups]
  rw [hmask, hc] at h1
  have : decodeGroup 7 2 = some 1 := by
    unfold decodeGroup field
    rw [bitmaskShiftValue_odd (by decide)]
    rfl
  rw [this] at h1
  cases h1
  rw [hu] at h2
  simp [exFrame] at h2

/-! Non-vacuity: a frame whose largest counter (3) is not a power of two. -/
def exFrame3 : List (Row Nat) := [⟨1, fun _ => 10⟩, ⟨1, fun _ => 20⟩, ⟨1, fun _ => 10⟩, ⟨1, fun _ => 10⟩, ⟨2, fun _ => 20⟩]

example : (∀ k, maxCounter 1 exFrame3 ≠ 2 ^ k) ∧ 4 < exFrame3.length ∧ maxCounter 1 exFrame3 = 3 := by
  have hm : maxCounter 1 exFrame3 = 3 := by decide
  refine ⟨fun k => ?_, by decide, hm⟩
  rw [hm]
  match k with
  | 0 => decide
  | 1 => decide
  | k + 2 =>
    have : 1 ≤ 2 ^ k := Nat.one_le_two_pow
    rw [pow_add]; omega

/-- Non-vacuity of `C33_wrong_nest` and `C33_counter_misread`: two copies of one alternative. -/
example : counter 1 [(⟨1, fun _ => 10⟩ : Row Nat), ⟨1, fun _ => 10⟩] 1 =
      2 ^ labelOffset 1 [(⟨1, fun _ => 10⟩ : Row Nat), ⟨1, fun _ => 10⟩] ∧
    counter 1 [(⟨1, fun _ => 10⟩ : Row Nat), ⟨1, fun _ => 10⟩] 0 <
      2 ^ labelOffset 1 [(⟨1, fun _ => 10⟩ : Row Nat), ⟨1, fun _ => 10⟩] := by
  have hm : maxCounter 1 [(⟨1, fun _ => 10⟩ : Row Nat), ⟨1, fun _ => 10⟩] = 2 := by decide
  have hL : labelOffset 1 [(⟨1, fun _ => 10⟩ : Row Nat), ⟨1, fun _ => 10⟩] = 1 := by
    unfold labelOffset ceilLog2; rw [hm]
    exact Nat.clog_eq_one (by norm_num) (by norm_num)
  rw [hL]
  decide

/-! ## C34 -/

/-- Every list of widths: mask `i` is exactly the `bs[i]` bits starting right above the total width of the later
fields (so the first field is the most significant). -/
theorem C34_mask_bits (bs ms : List Nat) (h : defineMasks bs = .ok ms) :
    ms.length = bs.length ∧ ∀ i < bs.length, ∀ n,
      (ms.getD i 0).testBit n = decide ((bs.drop (i + 1)).sum ≤ n ∧ n < (bs.drop i).sum) := by
  unfold defineMasks at h
  split at h
  · cases h
  · rename_i hne
    simp only [Except.ok.injEq] at h
    subst h
    refine ⟨by simp, fun i hi n => ?_⟩
    have hshift : (maskShifts bs).getD i 0 = (bs.drop (i + 1)).sum := by
      unfold maskShifts
      simp only
      by_cases hi2 : i + 1 < bs.length
      · simp [List.getElem?_append, hi2, show i < bs.length - 1 by omega]
      · have : i + 1 = bs.length := by omega
        have hd : bs.drop (i + 1) = [] := by apply List.drop_eq_nil_of_le; omega
        rw [hd]
        have h2 : i = bs.length - 1 := by omega
        simp [List.getElem?_append, h2]
    have hsum : (bs.drop i).sum = bs.getD i 0 + (bs.drop (i + 1)).sum := by
      have := List.drop_eq_getElem_cons hi
      rw [this, List.sum_cons]; simp [hi]
    have hget : (List.map (fun b => (2 ^ bs.getD b 0 - 1) <<< (maskShifts bs).getD b 0)
        (List.range bs.length)).getD i 0 = (2 ^ bs.getD i 0 - 1) <<< (bs.drop (i + 1)).sum := by
      rw [← hshift]; simp [hi]
    rw [hget, Nat.testBit_shiftLeft, Nat.testBit_two_pow_sub_one, hsum, ← Bool.decide_and]
    apply decide_eq_decide.mpr
    omega

/-- Every bit position below the total width belongs to exactly one mask, and no mask has a bit at or
above the total width. -/
theorem C34_masks_partition (bs ms : List Nat) (h : defineMasks bs = .ok ms) (n : Nat) :
    (n < bs.sum → ∃! i, i < bs.length ∧ (ms.getD i 0).testBit n = true) ∧
    (bs.sum ≤ n → ∀ i < bs.length, (ms.getD i 0).testBit n = false) := by
  obtain ⟨_, hb⟩ := C34_mask_bits bs ms h
  have mono : ∀ i j, i ≤ j → (bs.drop j).sum ≤ (bs.drop i).sum := by
    intro i j hij
    have : bs.drop j = (bs.drop i).drop (j - i) := by rw [List.drop_drop]; congr 1; omega
    rw [this]
    have h2 := List.take_append_drop (j - i) (bs.drop i)
    have h3 := congrArg List.sum h2
    rw [List.sum_append] at h3
    omega
  constructor
  · intro hn
    -- the largest i with n < sum (drop i)
    have hex : ∃ i, i < bs.length ∧ (bs.drop (i + 1)).sum ≤ n ∧ n < (bs.drop i).sum := by
      have : ∀ k, k ≤ bs.length → n < (bs.drop (bs.length - k)).sum →
          ∃ i, i < bs.length ∧ (bs.drop (i + 1)).sum ≤ n ∧ n < (bs.drop i).sum := by
        intro k
        induction k with
        | zero => intro _ hk; simp at hk
        | succ k ih =>
          intro hk hn
          by_cases h' : n < (bs.drop (bs.length - k)).sum
          · exact ih (by omega) h'
          · refine ⟨bs.length - (k + 1), by omega, ?_, hn⟩
            have : bs.length - (k + 1) + 1 = bs.length - k := by omega
            rw [this]; omega
      exact this bs.length le_rfl (by simpa using hn)
    obtain ⟨i, hi, h1, h2⟩ := hex
    refine ⟨i, ⟨hi, by rw [hb i hi]; simp [h1, h2]⟩, ?_⟩
    rintro j ⟨hj, hbit⟩
    rw [hb j hj] at hbit
    simp only [decide_eq_true_eq] at hbit
    rcases Nat.lt_trichotomy i j with hlt | heq | hgt
    · have := mono (i + 1) j hlt; omega
    · exact heq.symm
    · have := mono (j + 1) i hgt; omega
  · intro hn i hi
    rw [hb i hi]
    have := mono 0 i (by omega)
    simp only [List.drop_zero] at this
    simp only [decide_eq_false_iff_not]
    omega

/-- No widths at all: an IndexError. -/
theorem C34_empty : defineMasks [] = .error "IndexError" := rfl

example : defineMasks [2, 3, 1] = .ok [48, 14, 1] := by decide

end Larch.Props
