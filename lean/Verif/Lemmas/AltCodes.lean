import Verif.Model.AltCodes
import Mathlib.Tactic.Ring
import Mathlib.Tactic.Linarith
import Mathlib.Algebra.BigOperators.Group.List.Basic

namespace Larch.AltCodes

theorem bitmaskShiftValue_odd {b : Nat} (h : b % 2 = 1) : bitmaskShiftValue b = 0 := by
  unfold bitmaskShiftValue
  have : b ≠ 0 := by omega
  simp [this, h]

theorem bitmaskShiftValue_double {b : Nat} (h : b ≠ 0) :
    bitmaskShiftValue (2 * b) = bitmaskShiftValue b + 1 := by
  conv_lhs => unfold bitmaskShiftValue
  have h1 : 2 * b ≠ 0 := by omega
  have h2 : 2 * b % 2 ≠ 1 := by omega
  have h3 : 2 * b / 2 = b := by omega
  simp [h]
  omega

theorem two_pow_sub_one_odd {b : Nat} (hb : 1 ≤ b) : (2 ^ b - 1) % 2 = 1 := by
  obtain ⟨c, rfl⟩ : ∃ c, b = c + 1 := ⟨b - 1, by omega⟩
  have : 1 ≤ 2 ^ c := Nat.one_le_two_pow
  rw [pow_succ]; omega

theorem bitmaskShiftValue_mask {b : Nat} (hb : 1 ≤ b) (t : Nat) :
    bitmaskShiftValue ((2 ^ b - 1) * 2 ^ t) = t := by
  induction t with
  | zero => simpa using bitmaskShiftValue_odd (two_pow_sub_one_odd hb)
  | succ t ih =>
    have h1 : (2 ^ b - 1) * 2 ^ (t + 1) = 2 * ((2 ^ b - 1) * 2 ^ t) := by rw [pow_succ]; ring
    have h2 : (2 ^ b - 1) * 2 ^ t ≠ 0 := by
      have := two_pow_sub_one_odd hb
      have h3 : 0 < 2 ^ t := Nat.two_pow_pos t
      have : 0 < 2 ^ b - 1 := by omega
      positivity
    rw [h1, bitmaskShiftValue_double h2, ih]

theorem mask_and_shift (b t x : Nat) :
    (((2 ^ b - 1) * 2 ^ t) &&& x) >>> t = x / 2 ^ t % 2 ^ b := by
  rw [← Nat.shiftLeft_eq, Nat.shiftRight_and_distrib, Nat.shiftLeft_shiftRight, Nat.and_comm,
    Nat.and_two_pow_sub_one_eq_mod, Nat.shiftRight_eq_div_pow]

theorem field_mask {b : Nat} (hb : 1 ≤ b) (t x : Nat) :
    field ((2 ^ b - 1) * 2 ^ t) x = x / 2 ^ t % 2 ^ b := by
  unfold field
  rw [bitmaskShiftValue_mask hb, mask_and_shift]

/-- `x &&& (2^b-1)·2^t` clears the low `t` bits when `x < 2^(b+t)`. -/
theorem and_mask_high {b t x : Nat} (hx : x < 2 ^ (b + t)) :
    x &&& ((2 ^ b - 1) * 2 ^ t) = x / 2 ^ t * 2 ^ t := by
  have h := mask_and_shift b t x
  have hdiv : x / 2 ^ t < 2 ^ b := by
    rw [Nat.div_lt_iff_lt_mul (Nat.two_pow_pos t), ← pow_add]; exact hx
  rw [Nat.mod_eq_of_lt hdiv] at h
  rw [Nat.and_comm] at h
  apply Nat.eq_of_testBit_eq
  intro i
  by_cases hi : i < t
  · rw [Nat.testBit_and]
    have h1 : ((2 ^ b - 1) * 2 ^ t).testBit i = false := by
      rw [← Nat.shiftLeft_eq, Nat.testBit_shiftLeft]; simp; omega
    have h2 : (x / 2 ^ t * 2 ^ t).testBit i = false := by
      rw [← Nat.shiftLeft_eq, Nat.testBit_shiftLeft]; simp; omega
    rw [h1, h2]; simp
  · have hi' : i = t + (i - t) := by omega
    rw [← Nat.shiftLeft_eq (x / 2 ^ t), Nat.testBit_shiftLeft]
    rw [← h, Nat.testBit_shiftRight, ← hi']
    simp; omega

/-! ### packing -/

/-- Value of a list of digits. -/
def packR (gs : List (Nat × Nat)) : Nat :=
  gs.foldl (fun x bu => (x <<< bu.1) + (bu.2 + 1)) 0

def width (gs : List (Nat × Nat)) : Nat := (gs.map Prod.fst).sum

def Valid (gs : List (Nat × Nat)) : Prop := ∀ g ∈ gs, g.2 + 1 < 2 ^ g.1

theorem foldl_pack (gs : List (Nat × Nat)) (a : Nat) :
    gs.foldl (fun x bu => (x <<< bu.1) + (bu.2 + 1)) a = a * 2 ^ width gs + packR gs := by
  induction gs generalizing a with
  | nil => simp [width, packR]
  | cons g gs ih =>
    have e : packR (g :: gs) = (0 <<< g.1 + (g.2 + 1)) * 2 ^ width gs + packR gs := by
      rw [← ih]; rfl
    rw [e]
    simp only [List.foldl_cons, width, List.map_cons, List.sum_cons]
    rw [ih]
    rw [Nat.shiftLeft_eq, Nat.zero_shiftLeft, pow_add]
    simp only [width]
    ring

theorem packGroups_eq_packR (gs : List (Nat × Nat)) : packGroups gs = packR gs := by
  cases gs with
  | nil => rfl
  | cons g gs => simp [packGroups, packR]

theorem packR_cons (g : Nat × Nat) (gs : List (Nat × Nat)) :
    packR (g :: gs) = (g.2 + 1) * 2 ^ width gs + packR gs := by
  have : packR (g :: gs) = gs.foldl (fun x bu => (x <<< bu.1) + (bu.2 + 1)) (g.2 + 1) := by
    simp [packR]
  rw [this, foldl_pack]

theorem packR_append (xs ys : List (Nat × Nat)) :
    packR (xs ++ ys) = packR xs * 2 ^ width ys + packR ys := by
  unfold packR
  rw [List.foldl_append, foldl_pack]
  rfl

theorem packR_lt {gs : List (Nat × Nat)} (h : Valid gs) : packR gs < 2 ^ width gs := by
  induction gs with
  | nil => simp [packR, width]
  | cons g gs ih =>
    rw [packR_cons]
    have h1 := ih (fun g hg => h g (List.mem_cons_of_mem _ hg))
    have h2 := h g List.mem_cons_self
    have : width (g :: gs) = g.1 + width gs := by simp [width]
    rw [this, pow_add]
    have h3 : (g.2 + 1 + 1) * 2 ^ width gs ≤ 2 ^ g.1 * 2 ^ width gs :=
      Nat.mul_le_mul_right _ h2
    calc (g.2 + 1) * 2 ^ width gs + packR gs < (g.2 + 1) * 2 ^ width gs + 2 ^ width gs := by omega
      _ = (g.2 + 1 + 1) * 2 ^ width gs := by ring
      _ ≤ _ := h3

theorem packR_digit {pre : List (Nat × Nat)} {g : Nat × Nat} {post : List (Nat × Nat)}
    (h : Valid (pre ++ g :: post)) :
    packR (pre ++ g :: post) / 2 ^ width post % 2 ^ g.1 = g.2 + 1 := by
  have hp : Valid post := fun x hx => h x (by simp [hx])
  have hg := h g (by simp)
  rw [packR_append, packR_cons]
  have hw : width (g :: post) = g.1 + width post := by simp [width]
  rw [hw, pow_add]
  have e : packR pre * (2 ^ g.1 * 2 ^ width post) + ((g.2 + 1) * 2 ^ width post + packR post)
      = packR post + 2 ^ width post * (packR pre * 2 ^ g.1 + (g.2 + 1)) := by ring
  rw [e, Nat.add_mul_div_left _ _ (Nat.two_pow_pos _), Nat.div_eq_of_lt (packR_lt hp), Nat.zero_add,
    Nat.add_comm, Nat.add_mul_mod_self_right, Nat.mod_eq_of_lt hg]

theorem packR_prefix {pre post : List (Nat × Nat)} (h : Valid post) :
    packR (pre ++ post) / 2 ^ width post = packR pre := by
  rw [packR_append, Nat.add_comm, Nat.add_mul_div_right _ _ (Nat.two_pow_pos _),
    Nat.div_eq_of_lt (packR_lt h), Nat.zero_add]

theorem packR_inj {gs hs : List (Nat × Nat)} (hg : Valid gs) (hh : Valid hs)
    (hw : gs.map Prod.fst = hs.map Prod.fst) (h : packR gs = packR hs) :
    gs.map Prod.snd = hs.map Prod.snd := by
  induction gs generalizing hs with
  | nil => cases hs with
    | nil => rfl
    | cons _ _ => simp at hw
  | cons g gs ih =>
    cases hs with
    | nil => simp at hw
    | cons k hs =>
      simp only [List.map_cons, List.cons.injEq] at hw
      rw [packR_cons, packR_cons] at h
      have hg' : Valid gs := fun x hx => hg x (by simp [hx])
      have hh' : Valid hs := fun x hx => hh x (by simp [hx])
      have hwid : width hs = width gs := by simp [width, hw.2]
      rw [hwid] at h
      have l1 := packR_lt hg'
      have l2 := packR_lt hh'
      rw [hwid] at l2
      have hd : ((g.2 + 1) * 2 ^ width gs + packR gs) / 2 ^ width gs
          = ((k.2 + 1) * 2 ^ width gs + packR hs) / 2 ^ width gs := by rw [h]
      rw [Nat.add_comm, Nat.add_mul_div_right _ _ (Nat.two_pow_pos _), Nat.div_eq_of_lt l1,
        Nat.add_comm ((k.2 + 1) * _), Nat.add_mul_div_right _ _ (Nat.two_pow_pos _),
        Nat.div_eq_of_lt l2] at hd
      have hu : g.2 = k.2 := by omega
      rw [hu] at h
      simp only [List.map_cons, hu, List.cons.injEq, true_and]
      exact ih hg' hh' hw.2 (by omega)

theorem pack_inj {gs hs : List (Nat × Nat)} {L s t : Nat} (hg : Valid gs) (hh : Valid hs)
    (hw : gs.map Prod.fst = hs.map Prod.fst) (hs1 : 1 ≤ s) (hs2 : s ≤ 2 ^ L) (ht1 : 1 ≤ t)
    (ht2 : t ≤ 2 ^ L) (h : pack gs L s = pack hs L t) :
    gs.map Prod.snd = hs.map Prod.snd ∧ s = t := by
  unfold pack at h
  rw [Nat.shiftLeft_eq, Nat.shiftLeft_eq, packGroups_eq_packR, packGroups_eq_packR] at h
  have h' : packR gs * 2 ^ L + (s - 1) = packR hs * 2 ^ L + (t - 1) := by omega
  have hd : (packR gs * 2 ^ L + (s - 1)) / 2 ^ L = (packR hs * 2 ^ L + (t - 1)) / 2 ^ L := by rw [h']
  rw [Nat.add_comm, Nat.add_mul_div_right _ _ (Nat.two_pow_pos _),
    Nat.div_eq_of_lt (by omega : s - 1 < 2 ^ L), Nat.add_comm (packR hs * _),
    Nat.add_mul_div_right _ _ (Nat.two_pow_pos _), Nat.div_eq_of_lt (by omega : t - 1 < 2 ^ L)] at hd
  have he : packR gs = packR hs := by omega
  rw [he] at h'
  exact ⟨packR_inj hg hh hw he, by omega⟩

/-! ### masks -/

theorem getD_map_shift (l : List Nat) (b i : Nat) :
    (l.map (· <<< b)).getD i 0 = l.getD i 0 * 2 ^ b := by
  by_cases h : i < l.length
  · simp [h, Nat.shiftLeft_eq]
  · simp [Nat.not_lt.mp h]

theorem getD_set (l : List Nat) (i j v : Nat) (hi : i < l.length) :
    (l.set i v).getD j 0 = if j = i then v else l.getD j 0 := by
  rw [List.getD_eq_getElem?_getD, List.getElem?_set, List.getD_eq_getElem?_getD]
  by_cases h : i = j
  · subst h; simp [hi]
  · have : ¬ j = i := fun e => h e.symm
    simp [h, this]

/-- Expected mask after the first `m+1` groups have been processed. -/
def maskSpec (sizes : List Nat) (m i : Nat) : Nat :=
  (2 ^ sizes.getD i 0 - 1) * 2 ^ ((sizes.take (m + 1)).drop (i + 1)).sum

theorem take_drop_succ_sum (l : List Nat) (m i : Nat) (hi : i ≤ m) (hm : m + 1 < l.length) :
    ((l.take (m + 2)).drop (i + 1)).sum = ((l.take (m + 1)).drop (i + 1)).sum + l.getD (m + 1) 0 := by
  have h1 : l.take (m + 2) = l.take (m + 1) ++ [l.getD (m + 1) 0] := by
    rw [List.take_add_one]; simp [hm]
  rw [h1, List.drop_append_of_le_length (by simp; omega)]
  simp

theorem maskFold (sizes : List Nat) (m1 : List Nat) (hl : m1.length = sizes.length + 1)
    (h0 : ∀ i, m1.getD i 0 = if i = 0 then 2 ^ sizes.getD 0 0 - 1 else 0) :
    ∀ m, m + 1 ≤ sizes.length →
      ((List.range' 1 m).foldl (maskStep sizes) m1).length = sizes.length + 1 ∧
      ∀ i, ((List.range' 1 m).foldl (maskStep sizes) m1).getD i 0 =
        if i ≤ m then maskSpec sizes m i else 0 := by
  intro m
  induction m with
  | zero =>
    intro hm
    refine ⟨by simpa using hl, fun i => ?_⟩
    simp only [List.range'_zero, List.foldl_nil]
    rw [h0 i]
    by_cases hi : i = 0
    · subst hi
      have : (List.drop 1 (List.take 1 sizes)) = [] := by
        apply List.drop_eq_nil_of_le; simp
      simp [maskSpec, this]
    · have : ¬ i ≤ 0 := by omega
      simp [hi]
  | succ m ih =>
    intro hm
    obtain ⟨hlen, hv⟩ := ih (by omega)
    rw [List.range'_concat, List.foldl_append]
    simp only [List.foldl_cons, List.foldl_nil]
    have hidx : 1 + 1 * m = m + 1 := by omega
    rw [hidx]
    have hstep : ∀ l k, maskStep sizes l k = (l.map (· <<< sizes.getD k 0)).set k (2 ^ sizes.getD k 0 - 1) :=
      fun _ _ => rfl
    rw [hstep]
    refine ⟨by rw [List.length_set, List.length_map, hlen], fun i => ?_⟩
    rw [getD_set _ _ _ _ (by rw [List.length_map, hlen]; omega), getD_map_shift, hv]
    by_cases hi : i = m + 1
    · subst hi
      have : (List.drop (m + 1 + 1) (List.take (m + 1 + 1) sizes)) = [] := by
        apply List.drop_eq_nil_of_le; simp
      simp [maskSpec, this]
    · simp only [hi, if_false]
      by_cases hle : i ≤ m
      · have : i ≤ m + 1 := by omega
        simp only [hle, this, if_true]
        unfold maskSpec
        rw [take_drop_succ_sum sizes m i hle (by omega), pow_add]
        ring
      · have : ¬ i ≤ m + 1 := by omega
        simp [hle, this]

theorem buildMasks_length (sizes : List Nat) (L : Nat) :
    (buildMasks sizes L).length = sizes.length + 1 := by
  unfold buildMasks
  have : ∀ (l : List Nat) (m : List Nat), (l.foldl (maskStep sizes) m).length = m.length := by
    intro l
    induction l with
    | nil => simp
    | cons a l ih => intro m; simp [ih, maskStep]
  simp only [List.length_set, List.length_map, this]
  split <;> simp

theorem buildMasks_get (sizes : List Nat) (L i : Nat) (hi : i < sizes.length) :
    (buildMasks sizes L).getD i 0 =
      (2 ^ sizes.getD i 0 - 1) * 2 ^ ((sizes.drop (i + 1)).sum + L) := by
  have hne : sizes ≠ [] := by rintro rfl; simp at hi
  unfold buildMasks
  simp only [List.isEmpty_iff, hne, if_false]
  obtain ⟨hl, hv⟩ := maskFold sizes ((List.replicate (sizes.length + 1) 0).set 0 (2 ^ sizes.getD 0 0 - 1))
    (by simp) (fun j => by
      rw [getD_set _ _ _ _ (by simp)]
      by_cases hj : j = 0
      · simp [hj]
      · simp only [hj, if_false]
        rw [List.getD_eq_getElem?_getD, List.getElem?_replicate]; split <;> rfl)
    (sizes.length - 1) (by omega)
  rw [getD_set _ _ _ _ (by rw [List.length_map, hl]; omega), getD_map_shift, hv]
  have h1 : ¬ i = sizes.length := by omega
  have h2 : i ≤ sizes.length - 1 := by omega
  have h3 : sizes.length - 1 + 1 = sizes.length := by omega
  simp only [h1, h2, if_true, if_false, maskSpec, h3, List.take_length]
  rw [pow_add]; ring

theorem buildMasks_last (sizes : List Nat) (L : Nat) :
    (buildMasks sizes L).getD sizes.length 0 = 2 ^ L - 1 := by
  have hl := buildMasks_length sizes L
  unfold buildMasks at hl ⊢
  rw [getD_set]
  · simp
  · rw [List.length_set] at hl; rw [hl]; omega

theorem list_eq_of_getD {l : List Nat} : l = (List.range l.length).map (fun i => l.getD i 0) := by
  apply List.ext_getElem
  · simp
  · intro i h1 h2; simp [h1]

/-- Sum of the high masks is a contiguous block of ones. -/
theorem masks_take_sum (sizes : List Nat) (L : Nat) : ∀ l, l ≤ sizes.length →
    ((buildMasks sizes L).take l).sum =
      (2 ^ (sizes.take l).sum - 1) * 2 ^ ((sizes.drop l).sum + L) := by
  intro l
  induction l with
  | zero => intro _; simp
  | succ l ih =>
    intro hl
    have hll : l < (buildMasks sizes L).length := by rw [buildMasks_length]; omega
    rw [List.take_add_one, List.sum_append, ih (by omega)]
    have hg := buildMasks_get sizes L l (by omega)
    rw [List.getD_eq_getElem?_getD] at hg
    simp only [List.getElem?_eq_getElem hll, Option.getD_some] at hg
    simp only [List.getElem?_eq_getElem hll, Option.toList_some, List.sum_singleton, hg]
    have hdrop : (sizes.drop l).sum = sizes.getD l 0 + (sizes.drop (l + 1)).sum := by
      have := List.drop_eq_getElem_cons (by omega : l < sizes.length)
      rw [this, List.sum_cons]
      simp [List.getElem?_eq_getElem (by omega : l < sizes.length)]
    have htake : (sizes.take (l + 1)).sum = (sizes.take l).sum + sizes.getD l 0 := by
      rw [List.take_add_one, List.sum_append]
      simp [List.getElem?_eq_getElem (by omega : l < sizes.length)]
    rw [hdrop, htake]
    have h1 : 1 ≤ 2 ^ (sizes.take l).sum := Nat.one_le_two_pow
    have h2 : 1 ≤ 2 ^ sizes.getD l 0 := Nat.one_le_two_pow
    rw [pow_add 2 (sizes.take l).sum]
    have e1 : sizes.getD l 0 + (sizes.drop (l + 1)).sum + L
        = sizes.getD l 0 + ((sizes.drop (l + 1)).sum + L) := by ring
    rw [e1, pow_add 2 (sizes.getD l 0)]
    generalize 2 ^ (sizes.take l).sum = A at *
    generalize 2 ^ sizes.getD l 0 = B at *
    generalize 2 ^ ((sizes.drop (l + 1)).sum + L) = C at *
    obtain ⟨a, rfl⟩ : ∃ a, A = a + 1 := ⟨A - 1, by omega⟩
    obtain ⟨b, rfl⟩ : ∃ b, B = b + 1 := ⟨B - 1, by omega⟩
    have e2 : (a + 1) * (b + 1) - 1 = a * (b + 1) + b := by
      have : (a + 1) * (b + 1) = a * (b + 1) + b + 1 := by ring
      omega
    rw [e2]
    simp only [Nat.add_sub_cancel]
    ring

/-! ### frame level -/

variable {β : Type} [LinearOrder β]

theorem mem_uniq {col : List β} {x : β} : x ∈ uniq col ↔ x ∈ col := by
  unfold uniq
  rw [(List.perm_insertionSort (· ≤ ·) col.dedup).mem_iff, List.mem_dedup]

theorem uniq_nodup (col : List β) : (uniq col).Nodup := by
  unfold uniq
  exact (List.perm_insertionSort (· ≤ ·) col.dedup).nodup_iff.mpr (List.nodup_dedup col)

theorem rowGroups_valid (G padding : Nat) (rows : List (Row β)) (r : Row β) (hr : r ∈ rows) :
    Valid (rowGroups G padding rows r) := by
  intro g hg
  unfold rowGroups at hg
  rw [List.mem_map] at hg
  obtain ⟨i, _, rfl⟩ := hg
  have hm : r.vals i ∈ groupUniq rows i := by
    unfold groupUniq; rw [mem_uniq]; exact List.mem_map.mpr ⟨r, hr, rfl⟩
  have h1 : (groupUniq rows i).idxOf (r.vals i) < (groupUniq rows i).length := List.idxOf_lt_length_iff.mpr hm
  have h2 : (groupUniq rows i).length + 1 + padding ≤ 2 ^ ceilLog2 ((groupUniq rows i).length + 1 + padding) :=
    Nat.le_pow_clog (by norm_num) _
  simp only
  omega

theorem rowGroups_fst (G padding : Nat) (rows : List (Row β)) (r : Row β) :
    (rowGroups G padding rows r).map Prod.fst = sizes G padding rows := by
  simp [rowGroups, sizes, Function.comp_def]

theorem counter_pos (G : Nat) (rows : List (Row β)) {i : Nat} (hi : i < rows.length) :
    1 ≤ counter G rows i := by
  unfold counter; simp [hi]

theorem foldl_max_ge (l : List Nat) (a : Nat) : a ≤ l.foldl max a ∧ ∀ x ∈ l, x ≤ l.foldl max a := by
  induction l generalizing a with
  | nil => simp
  | cons b l ih =>
    simp only [List.foldl_cons, List.mem_cons]
    obtain ⟨h1, h2⟩ := ih (max a b)
    refine ⟨le_trans (le_max_left _ _) h1, ?_⟩
    rintro x (rfl | hx)
    · exact le_trans (le_max_right _ _) h1
    · exact h2 x hx

theorem counter_le_max (G : Nat) (rows : List (Row β)) {i : Nat} (hi : i < rows.length) :
    counter G rows i ≤ maxCounter G rows := by
  unfold maxCounter
  exact (foldl_max_ge _ 0).2 _ (List.mem_map.mpr ⟨i, List.mem_range.mpr hi, rfl⟩)

theorem maxCounter_le (G : Nat) (rows : List (Row β)) :
    maxCounter G rows ≤ 2 ^ labelOffset G rows := Nat.le_pow_clog (by norm_num) _

theorem counter_lt_of_key_eq (G : Nat) (rows : List (Row β)) {i j : Nat} (hij : i < j)
    (hj : j < rows.length) (hk : (rows[i]'(by omega)).key G = rows[j].key G) :
    counter G rows i < counter G rows j := by
  unfold counter
  simp only [List.getElem?_eq_getElem hj, List.getElem?_eq_getElem (by omega : i < rows.length)]
  rw [hk]
  have hsub : (rows.take (i + 1)).Sublist (rows.take j) := by
    have : rows.take (i + 1) = (rows.take j).take (i + 1) := by rw [List.take_take]; congr 1; omega
    rw [this]; exact List.take_sublist _ _
  have h1 := (hsub.filter (fun q => decide (q.key G = rows[j].key G))).length_le
  have h2 : ((rows.take (i + 1)).filter (fun q => decide (q.key G = rows[j].key G))).length =
      ((rows.take i).filter (fun q => decide (q.key G = rows[j].key G))).length + 1 := by
    rw [List.take_add_one, List.filter_append, List.length_append]
    simp [List.getElem?_eq_getElem (by omega : i < rows.length), hk]
  omega

theorem vals_eq_of_idx (G padding : Nat) (rows : List (Row β)) (r q : Row β) (hr : r ∈ rows)
    (h : (rowGroups G padding rows r).map Prod.snd = (rowGroups G padding rows q).map Prod.snd) :
    ∀ i < G, r.vals i = q.vals i := by
  intro i hi
  simp only [rowGroups, List.map_map] at h
  have h1 := List.map_inj_left.mp h i (List.mem_range.mpr hi)
  simp only [Function.comp_apply] at h1
  have hm : r.vals i ∈ groupUniq rows i := by
    unfold groupUniq; rw [mem_uniq]; exact List.mem_map.mpr ⟨r, hr, rfl⟩
  exact (List.idxOf_inj hm).mp h1

theorem width_rowGroups (G padding : Nat) (rows : List (Row β)) (r : Row β) :
    width (rowGroups G padding rows r) = (sizes G padding rows).sum := by
  unfold width; rw [rowGroups_fst]

theorem rowGroups_drop (G padding : Nat) (rows : List (Row β)) (r : Row β) (n : Nat) :
    width ((rowGroups G padding rows r).drop n) = ((sizes G padding rows).drop n).sum := by
  unfold width; rw [List.map_drop, rowGroups_fst]

theorem sizes_length (G padding : Nat) (rows : List (Row β)) : (sizes G padding rows).length = G := by
  simp [sizes]

theorem sizes_get (G padding : Nat) (rows : List (Row β)) {i : Nat} (hi : i < G) :
    (sizes G padding rows).getD i 0 = ceilLog2 ((groupUniq rows i).length + 1 + padding) := by
  simp [sizes, hi]

theorem one_le_size (padding : Nat) (rows : List (Row β)) (hr : rows ≠ []) (i : Nat) :
    1 ≤ ceilLog2 ((groupUniq rows i).length + 1 + padding) := by
  have : 0 < (groupUniq rows i).length := by
    obtain ⟨r, hr⟩ := List.exists_mem_of_ne_nil rows hr
    apply List.length_pos_of_mem (a := r.vals i)
    unfold groupUniq; rw [mem_uniq]; exact List.mem_map.mpr ⟨r, hr, rfl⟩
  exact Nat.clog_pos (by norm_num) (by omega)

theorem code_div {gs : List (Nat × Nat)} {L s : Nat} (hs : s < 2 ^ L) (t : Nat) :
    pack gs L s / 2 ^ (t + L) = packR gs / 2 ^ t := by
  unfold pack
  rw [Nat.shiftLeft_eq, packGroups_eq_packR, Nat.add_comm t L, pow_add, ← Nat.div_div_eq_div_mul,
    Nat.add_comm, Nat.add_mul_div_right _ _ (Nat.two_pow_pos _), Nat.div_eq_of_lt hs, Nat.zero_add]

theorem code_lt {gs : List (Nat × Nat)} {L s : Nat} (hv : Valid gs) (hs : s < 2 ^ L) :
    pack gs L s < 2 ^ (width gs + L) := by
  unfold pack
  rw [Nat.shiftLeft_eq, packGroups_eq_packR, pow_add]
  have h1 := packR_lt hv
  calc packR gs * 2 ^ L + s < packR gs * 2 ^ L + 2 ^ L := by omega
    _ = (packR gs + 1) * 2 ^ L := by ring
    _ ≤ _ := Nat.mul_le_mul_right _ h1

end Larch.AltCodes
