import Verif.Model.Recode
import Verif.Lemmas.MagicNest
import Verif.Props.AltCodes
import Verif.Props.MagicNest

/-!
# C110: recoding a frame consistently; C111: the name of the code column
-/

namespace Larch.Props

open Larch.AltCodes

variable {β : Type} [LinearOrder β]

/-! ### positions -/

theorem featPos_some {fs : List β} {v : β} {n : Nat} (h : featPos fs v = some n) : fs[n]? = some v := by
  unfold featPos at h
  have := List.mem_of_getLast? h
  simpa using (List.mem_filter.1 this).2

theorem featPos_isSome (fs : List β) (v : β) : (featPos fs v).isSome = true ↔ v ∈ fs := by
  constructor
  · intro h
    obtain ⟨n, hn⟩ := Option.isSome_iff_exists.1 h
    exact List.mem_of_getElem? (featPos_some hn)
  · intro h
    obtain ⟨n, hn, rfl⟩ := List.mem_iff_getElem.1 h
    unfold featPos
    rw [List.getLast?_isSome]
    intro he
    have : n ∈ (List.range fs.length).filter (fun m => decide (fs[m]? = some fs[n])) := by simp [hn]
    rw [he] at this
    simp at this

theorem featPos_nodup {fs : List β} (hnd : fs.Nodup) {v : β} (hv : v ∈ fs) : featPos fs v = some (fs.idxOf v) := by
  obtain ⟨n, hn⟩ := Option.isSome_iff_exists.1 ((featPos_isSome fs v).2 hv)
  have h1 := featPos_some hn
  obtain ⟨hlt, h2⟩ := List.getElem?_eq_some_iff.1 h1
  rw [hn, ← h2, hnd.idxOf_getElem n hlt]

/-! ### rows -/

theorem mapM_option_length {α γ : Type} (f : α → Option γ) : ∀ (l : List α) (r : List γ), l.mapM f = some r →
    ∀ i (hi : i < l.length), ∃ y, f l[i] = some y ∧ r[i]? = some y := by
  intro l
  induction l with
  | nil => intro r _ i hi; simp at hi
  | cons a l ih =>
    intro r h i hi
    rw [List.mapM_cons] at h
    cases ha : f a with
    | none => rw [ha] at h; simp at h
    | some b =>
      rw [ha] at h
      cases hl : l.mapM f with
      | none => rw [hl] at h; simp at h
      | some bs =>
        rw [hl] at h
        simp at h
        subst h
        cases i with
        | zero => exact ⟨b, ha, rfl⟩
        | succ i =>
          obtain ⟨y, h1, h2⟩ := ih bs hl i (by simpa using hi)
          exact ⟨y, by simpa using h1, by simpa using h2⟩

theorem mapM_option_isSome {α γ : Type} (f : α → Option γ) (l : List α) :
    (l.mapM f).isSome = true ↔ ∀ x ∈ l, (f x).isSome = true := by
  induction l with
  | nil => simp
  | cons a l ih =>
    rw [List.mapM_cons]
    simp only [List.mem_cons, forall_eq_or_imp]
    rw [← ih]
    cases f a <;> cases l.mapM f <;> simp

theorem mapM_option_congr {α γ : Type} (f f' : α → Option γ) (l : List α) (h : ∀ x ∈ l, f x = f' x) : l.mapM f = l.mapM f' := by
  induction l with
  | nil => rfl
  | cons a l ih =>
    rw [List.mapM_cons, List.mapM_cons, h a (by simp), ih (fun x hx => h x (by simp [hx]))]

theorem mapM_option_pure {α γ : Type} (f : α → γ) (l : List α) : l.mapM (fun x => some (f x)) = some (l.map f) := by
  induction l with
  | nil => rfl
  | cons a l ih => rw [List.mapM_cons, ih]; rfl

theorem mapM_option_len {α γ : Type} (f : α → Option γ) (l : List α) (r : List γ) (h : l.mapM f = some r) : r.length = l.length := by
  induction l generalizing r with
  | nil => simp at h; subst h; rfl
  | cons x l ih =>
    rw [List.mapM_cons] at h
    cases hx : f x with
    | none => rw [hx] at h; simp at h
    | some y =>
      rw [hx] at h
      cases hl : l.mapM f with
      | none => rw [hl] at h; simp at h
      | some ys => rw [hl] at h; simp at h; subst h; simp [ih ys hl]

theorem rowGroupsWith_spec (G padding : Nat) (fs : Nat → List β) (r : Row β) (gs : List (Nat × Nat))
    (h : rowGroupsWith G padding fs r = some gs) :
    gs.length = G ∧ ∀ i < G, ∃ u, gs[i]? = some (ceilLog2 ((fs i).length + 1 + padding), u) ∧ (fs i)[u]? = some (r.vals i) := by
  unfold rowGroupsWith at h
  refine ⟨by simpa using mapM_option_len _ _ _ h, fun i hi => ?_⟩
  obtain ⟨y, h1, h2⟩ := mapM_option_length _ _ _ h i (by simpa using hi)
  simp only [List.getElem_range] at h1
  obtain ⟨u, hu, rfl⟩ := Option.map_eq_some_iff.1 h1
  exact ⟨u, h2, featPos_some hu⟩

theorem rowGroupsWith_valid (G padding : Nat) (fs : Nat → List β) (r : Row β) (gs : List (Nat × Nat))
    (h : rowGroupsWith G padding fs r = some gs) : AltCodes.Valid gs := by
  obtain ⟨hl, hs⟩ := rowGroupsWith_spec G padding fs r gs h
  intro x hx
  obtain ⟨i, hi, rfl⟩ := List.mem_iff_getElem.1 hx
  obtain ⟨u, h1, h2⟩ := hs i (by omega)
  rw [List.getElem?_eq_getElem hi] at h1
  rw [Option.some.inj h1]
  obtain ⟨hu, _⟩ := List.getElem?_eq_some_iff.1 h2
  have h3 : (fs i).length + 1 + padding ≤ 2 ^ ceilLog2 ((fs i).length + 1 + padding) := Nat.le_pow_clog (by norm_num) _
  simp only
  omega

theorem rowGroupsWith_fst (G padding : Nat) (fs : Nat → List β) (r r' : Row β) (gs gs' : List (Nat × Nat))
    (h : rowGroupsWith G padding fs r = some gs) (h' : rowGroupsWith G padding fs r' = some gs') :
    gs.map Prod.fst = gs'.map Prod.fst := by
  obtain ⟨hl, hs⟩ := rowGroupsWith_spec G padding fs r gs h
  obtain ⟨hl', hs'⟩ := rowGroupsWith_spec G padding fs r' gs' h'
  apply List.ext_getElem
  · simp [hl, hl']
  · intro i h1 h2
    simp only [List.length_map] at h1 h2
    obtain ⟨u, e, _⟩ := hs i (by omega)
    obtain ⟨u', e', _⟩ := hs' i (by omega)
    rw [List.getElem?_eq_getElem h1] at e
    rw [List.getElem?_eq_getElem h2] at e'
    rw [List.getElem_map, List.getElem_map, Option.some.inj e, Option.some.inj e']

theorem rowGroupsWith_vals (G padding : Nat) (fs : Nat → List β) (r r' : Row β) (gs gs' : List (Nat × Nat))
    (h : rowGroupsWith G padding fs r = some gs) (h' : rowGroupsWith G padding fs r' = some gs') :
    gs.map Prod.snd = gs'.map Prod.snd ↔ ∀ m < G, r.vals m = r'.vals m := by
  obtain ⟨hl, hs⟩ := rowGroupsWith_spec G padding fs r gs h
  obtain ⟨hl', hs'⟩ := rowGroupsWith_spec G padding fs r' gs' h'
  constructor
  · intro he m hm
    obtain ⟨u, e, e1⟩ := hs m hm
    obtain ⟨u', e', e1'⟩ := hs' m hm
    have := congrArg (fun l => l[m]?) he
    simp only [List.getElem?_map, e, e', Option.map_some, Option.some.injEq] at this
    rw [this, e1'] at e1
    exact (Option.some.inj e1).symm
  · intro hv
    have : gs = gs' := by
      have e : rowGroupsWith G padding fs r = rowGroupsWith G padding fs r' := by
        unfold rowGroupsWith
        apply mapM_option_congr
        intro m hm
        rw [hv m (List.mem_range.1 hm)]
      rw [h, h'] at e
      exact Option.some.inj e
    rw [this]

/-! ### codes -/

theorem codesWith_get (G padding : Nat) (fs : Nat → List β) (L : Nat) (rows : List (Row β)) (codes : List Nat)
    (h : codesWith G padding fs L rows = some codes) {j : Nat} (hj : j < rows.length) :
    ∃ gs, rowGroupsWith G padding fs rows[j] = some gs ∧ codes[j]? = some (pack gs L (counter G rows j)) := by
  unfold codesWith at h
  obtain ⟨y, h1, h2⟩ := mapM_option_length _ _ _ h j (by simpa using hj)
  simp only [List.getElem_range, List.getElem?_eq_getElem hj, Option.bind_some] at h1
  obtain ⟨gs, hgs, rfl⟩ := Option.map_eq_some_iff.1 h1
  exact ⟨gs, hgs, h2⟩

theorem codesWith_isSome (G padding : Nat) (fs : Nat → List β) (L : Nat) (rows : List (Row β)) :
    (codesWith G padding fs L rows).isSome = true ↔ ∀ r ∈ rows, ∀ m < G, r.vals m ∈ fs m := by
  unfold codesWith
  rw [mapM_option_isSome]
  have hrow : ∀ r : Row β, (rowGroupsWith G padding fs r).isSome = true ↔ ∀ m < G, r.vals m ∈ fs m := by
    intro r
    unfold rowGroupsWith
    rw [mapM_option_isSome]
    simp only [List.mem_range, Option.isSome_map, featPos_isSome]
  constructor
  · intro h r hr
    obtain ⟨j, hj, rfl⟩ := List.mem_iff_getElem.1 hr
    have := h j (List.mem_range.2 hj)
    rw [List.getElem?_eq_getElem hj, Option.bind_some, Option.isSome_map] at this
    exact (hrow _).1 this
  · intro h j hj
    rw [List.mem_range] at hj
    rw [List.getElem?_eq_getElem hj, Option.bind_some, Option.isSome_map]
    exact (hrow _).2 (h _ (List.getElem_mem hj))

/-- Codes made with the same features and the same offset identify categories and counter, within one frame or across frames. -/
theorem codesWith_identify (G padding : Nat) (fs : Nat → List β) (L : Nat) (rows rows' : List (Row β)) (codes codes' : List Nat)
    (h : codesWith G padding fs L rows = some codes) (h' : codesWith G padding fs L rows' = some codes')
    (hL : maxCounter G rows ≤ 2 ^ L) (hL' : maxCounter G rows' ≤ 2 ^ L) {i j : Nat} (hi : i < rows.length) (hj : j < rows'.length) :
    codes[i]? = codes'[j]? ↔ (∀ m < G, rows[i].vals m = rows'[j].vals m) ∧ counter G rows i = counter G rows' j := by
  obtain ⟨gs, hgs, hc⟩ := codesWith_get G padding fs L rows codes h hi
  obtain ⟨gs', hgs', hc'⟩ := codesWith_get G padding fs L rows' codes' h' hj
  rw [hc, hc', Option.some.injEq]
  constructor
  · intro he
    have := pack_inj (rowGroupsWith_valid G padding fs _ gs hgs) (rowGroupsWith_valid G padding fs _ gs' hgs')
      (rowGroupsWith_fst G padding fs _ _ gs gs' hgs hgs') (counter_pos G rows hi)
      (le_trans (counter_le_max G rows hi) hL) (counter_pos G rows' hj) (le_trans (counter_le_max G rows' hj) hL') he
    exact ⟨(rowGroupsWith_vals G padding fs _ _ gs gs' hgs hgs').1 this.1, this.2⟩
  · rintro ⟨h1, h2⟩
    have e : rowGroupsWith G padding fs rows[i] = rowGroupsWith G padding fs rows'[j] := by
      unfold rowGroupsWith
      apply mapM_option_congr
      intro m hm
      rw [h1 m (List.mem_range.1 hm)]
    rw [hgs, hgs'] at e
    rw [Option.some.inj e, h2]

/-- C110. Without a feature list, `new_alternative_codes` gives the codes of C33. -/
theorem C110_plain (G padding : Nat) (rows : List (Row β)) :
    newCodes G padding (fun _ => none) rows = some ((List.range rows.length).map (altCode G padding rows)) := by
  unfold newCodes codesWith
  have hrow : ∀ j ∈ List.range rows.length, (rows[j]?.bind (rowGroupsWith G padding (feats (fun _ => none) rows))).map
      (fun gs => pack gs (labelOffset G rows) (counter G rows j)) = some (altCode G padding rows j) := by
    intro j hj
    rw [List.mem_range] at hj
    unfold altCode
    rw [List.getElem?_eq_getElem hj, Option.bind_some]
    have : rowGroupsWith G padding (feats (fun _ => none) rows) rows[j] = some (rowGroups G padding rows rows[j]) := by
      unfold rowGroupsWith rowGroups
      have hone : ∀ i ∈ List.range G, (featPos (feats (fun _ => none) rows i) (rows[j].vals i)).map
          (fun u => (ceilLog2 ((feats (fun _ => none) rows i).length + 1 + padding), u)) =
          some (ceilLog2 ((groupUniq rows i).length + 1 + padding), (groupUniq rows i).idxOf (rows[j].vals i)) := by
        intro i _
        have hf : feats (fun _ => none) rows i = groupUniq rows i := rfl
        rw [hf, featPos_nodup (fs := groupUniq rows i) (uniq_nodup _)]
        · rfl
        · unfold groupUniq; rw [mem_uniq]; exact List.mem_map.2 ⟨_, List.getElem_mem hj, rfl⟩
      rw [mapM_option_congr _ _ _ hone, mapM_option_pure]
    rw [this]; rfl
  rw [mapM_option_congr _ _ _ hrow, mapM_option_pure]

/-- C110. The recoding of a test frame succeeds exactly when every category of the test frame occurs in the training frame. -/
theorem C110_defined (G padding : Nat) (train test : List (Row β)) :
    (recode G padding train test).isSome = true ↔ ∀ r ∈ test, ∀ m < G, ∃ q ∈ train, q.vals m = r.vals m := by
  unfold recode newCodes
  rw [codesWith_isSome]
  have : ∀ m (v : β), v ∈ feats (fun i => some (groupUniq train i)) test m ↔ ∃ q ∈ train, q.vals m = v := by
    intro m v
    show v ∈ groupUniq train m ↔ _
    unfold groupUniq; rw [mem_uniq, List.mem_map]
  simp only [this]

/-- C110. When training and test frame need the same number of bits for the within-case counter, the codes of the test frame are
consistent with those of the training frame: a test row gets the code of a training row exactly when the categories and the counter
are the same.  (When they need different numbers of bits the opposite holds: `C110_fails`.) -/
theorem C110_recode_partial (G padding : Nat) (train test : List (Row β)) (codes : List Nat)
    (h : recode G padding train test = some codes) (hL : labelOffset G train = labelOffset G test) {i j : Nat}
    (hi : i < train.length) (hj : j < test.length) :
    codes[j]? = some (altCode G padding train i) ↔
      (∀ m < G, test[j].vals m = train[i].vals m) ∧ counter G test j = counter G train i := by
  have hp := C110_plain G padding train
  unfold recode newCodes at h
  unfold newCodes at hp
  have hf : feats (fun i => some (groupUniq train i)) test = feats (fun _ => none) train := rfl
  rw [hf, ← hL] at h
  rw [← codesWith_identify G padding _ _ test train codes _ h hp (by rw [hL]; exact maxCounter_le G test) (maxCounter_le G train) hj hi]
  simp [hi]

/-- The violation of C110, in general: when the test frame needs a different number of bits for the counter, every test row gets a
code different from that of the training row with the same categories and the same counter. -/
theorem C110_fails (G padding : Nat) (train test : List (Row β)) (hG : 0 < G) (codes : List Nat)
    (h : recode G padding train test = some codes) (hL : labelOffset G train ≠ labelOffset G test) {i j : Nat}
    (hi : i < train.length) (hj : j < test.length) (hv : ∀ m < G, test[j].vals m = train[i].vals m)
    (hc : counter G test j = counter G train i) : codes[j]? ≠ some (altCode G padding train i) := by
  unfold recode newCodes at h
  have hf : feats (fun i => some (groupUniq train i)) test = feats (fun _ => none) train := rfl
  rw [hf] at h
  obtain ⟨gs, hgs, hcode⟩ := codesWith_get G padding _ _ test codes h hj
  have hp := C110_plain G padding train
  unfold newCodes at hp
  obtain ⟨gs', hgs', hcode'⟩ := codesWith_get G padding _ _ train _ hp hi
  have e : rowGroupsWith G padding (feats (fun _ => none) train) test[j] = rowGroupsWith G padding (feats (fun _ => none) train) train[i] := by
    unfold rowGroupsWith
    apply mapM_option_congr
    intro m hm
    rw [hv m (List.mem_range.1 hm)]
  rw [hgs, hgs'] at e
  have hE : gs = gs' := Option.some.inj e
  subst hE
  have h2 : altCode G padding train i = pack gs (labelOffset G train) (counter G train i) := by
    simp only [List.getElem?_map, List.getElem?_range hi, Option.map_some, Option.some.injEq] at hcode'
    exact hcode'
  rw [hcode, h2, hc, ne_eq, Option.some.injEq]
  unfold pack
  rw [packGroups_eq_packR, Nat.shiftLeft_eq, Nat.shiftLeft_eq]
  have hpos : 0 < packR gs := by
    obtain ⟨hl, _⟩ := rowGroupsWith_spec G padding _ _ gs hgs
    cases gs with
    | nil => simp at hl; omega
    | cons g gs =>
      rw [packR_cons]
      have := Nat.two_pow_pos (width gs)
      have : 0 < (g.2 + 1) * 2 ^ width gs := by positivity
      omega
  intro he
  have h3 : packR gs * 2 ^ labelOffset G test = packR gs * 2 ^ labelOffset G train := by omega
  have h4 := Nat.eq_of_mul_eq_mul_left hpos h3
  exact hL (Nat.pow_right_injective (le_refl 2) h4.symm)

/-! ### several frames -/

theorem maxCounter_le_all (G : Nat) (frames : List (List (Row β))) (rows : List (Row β)) (h : rows ∈ frames) :
    maxCounter G rows ≤ 2 ^ offsetAll G frames := by
  have h1 : maxCounter G rows ≤ maxCounterAll G frames := (foldl_max_ge _ 0).2 _ (List.mem_map.2 ⟨rows, h, rfl⟩)
  exact le_trans h1 (Nat.le_pow_clog (by norm_num) _)

/-- C110. A list of frames is coded consistently: rows of any two of the frames get the same code exactly when they agree in the
categories and in the counter. -/
theorem C110_multi (G padding : Nat) (given : Nat → Option (List β)) (frames : List (List (Row β))) (codes : List (List Nat))
    (h : multiCodes G padding given frames = some codes) {a b : Nat} (ha : a < frames.length) (hb : b < frames.length)
    {i j : Nat} (hi : i < frames[a].length) (hj : j < frames[b].length) :
    (codes.getD a [])[i]? = (codes.getD b [])[j]? ↔
      (∀ m < G, frames[a][i].vals m = frames[b][j].vals m) ∧ counter G frames[a] i = counter G frames[b] j := by
  unfold multiCodes at h
  obtain ⟨ca, ha1, ha2⟩ := mapM_option_length _ _ _ h a ha
  obtain ⟨cb, hb1, hb2⟩ := mapM_option_length _ _ _ h b hb
  rw [List.getD_eq_getElem?_getD, ha2, List.getD_eq_getElem?_getD, hb2]
  exact codesWith_identify G padding _ _ _ _ _ _ ha1 hb1 (maxCounter_le_all G frames _ (List.getElem_mem ha))
    (maxCounter_le_all G frames _ (List.getElem_mem hb)) hi hj

/-- C110. … and the call succeeds exactly when every category occurs in the given feature list of its column (always, for the
columns without one). -/
theorem C110_multi_defined (G padding : Nat) (given : Nat → Option (List β)) (frames : List (List (Row β))) :
    (multiCodes G padding given frames).isSome = true ↔
      ∀ rows ∈ frames, ∀ r ∈ rows, ∀ m < G, ∀ fs, given m = some fs → r.vals m ∈ fs := by
  unfold multiCodes
  rw [mapM_option_isSome]
  simp only [codesWith_isSome]
  constructor
  · intro h rows hr r hrr m hm fs hfs
    have := h rows hr r hrr m hm
    simpa [featsAll, hfs] using this
  · intro h rows hr r hrr m hm
    unfold featsAll
    cases hg : given m with
    | none =>
      simp only [Option.getD_none]
      rw [mem_uniq]
      exact List.mem_map.2 ⟨r, List.mem_flatten.2 ⟨rows, hr, hrr⟩, rfl⟩
    | some fs => exact h rows hr r hrr m hm fs hg

/-- The violation: of a list of frames, the `altcodes` of the returned object are those of the last frame: an alternative of an
earlier frame whose categories and counter do not occur in the last one is missing (and gets no nest from `magic_nesting`). -/
theorem C110_fails_altcodes (G padding : Nat) (given : Nat → Option (List β)) (first : List (List (Row β))) (last : List (Row β))
    (codes : List (List Nat)) (h : multiCodes G padding given (first ++ [last]) = some codes) {a : Nat} (ha : a < first.length)
    {i : Nat} (hi : i < first[a].length)
    (hmiss : ∀ j, ∀ hj : j < last.length, ¬ ((∀ m < G, first[a][i].vals m = last[j].vals m) ∧ counter G first[a] i = counter G last j)) :
    ∃ alts c, multiAltcodes codes = some alts ∧ (codes.getD a [])[i]? = some c ∧ c ∉ alts := by
  have hlast : (first ++ [last]).length = first.length + 1 := by simp
  have hA : a < (first ++ [last]).length := by omega
  have hB : first.length < (first ++ [last]).length := by omega
  have eA : (first ++ [last])[a] = first[a] := List.getElem_append_left ha
  have eB : (first ++ [last])[first.length] = last := by simp
  have h' := h
  unfold multiCodes at h'
  obtain ⟨ca, ha1, ha2⟩ := mapM_option_length _ _ _ h' a hA
  obtain ⟨cb, hb1, hb2⟩ := mapM_option_length _ _ _ h' first.length hB
  have hlen : codes.length = first.length + 1 := by
    rw [mapM_option_len _ _ _ h', hlast]
  have hgl : codes.getLast? = some cb := by
    rw [List.getLast?_eq_getElem?, hlen]; simpa using hb2
  rw [eA] at ha1
  obtain ⟨gs, hgs, hc⟩ := codesWith_get G padding _ _ first[a] ca ha1 hi
  refine ⟨uniq cb, _, by simp [multiAltcodes, hgl], by rw [List.getD_eq_getElem?_getD, ha2]; exact hc, ?_⟩
  rw [mem_uniq]
  intro hmem
  obtain ⟨j, hj, he⟩ := List.mem_iff_getElem.1 hmem
  rw [eB] at hb1
  have hcl : cb.length = last.length := by
    have := mapM_option_len _ _ _ hb1
    simpa using this
  have hj' : j < last.length := by omega
  apply hmiss j hj'
  rw [← codesWith_identify G padding _ _ first[a] last ca cb ha1 hb1
    (maxCounter_le_all G _ _ (by simp)) (maxCounter_le_all G _ _ (by simp)) hi hj']
  rw [hc, List.getElem?_eq_getElem hj, he]

/-- The mask array after a round does not depend on what was in it before. -/
theorem maskRound_indep (sizes : List Nat) (L : Nat) (m m' : List Nat) (hl : m.length = sizes.length + 1)
    (hl' : m'.length = sizes.length + 1) : maskRound sizes L m = maskRound sizes L m' := by
  have hfl : ∀ (l : List Nat) (x : List Nat), (l.foldl (maskStep sizes) x).length = x.length := by
    intro l
    induction l with
    | nil => simp
    | cons a l ih => intro m; simp [ih, maskStep]
  have hfold : ∀ n, n + 1 ≤ sizes.length → ∀ x x' : List Nat, x.length = sizes.length + 1 → x'.length = sizes.length + 1 →
      x[0]? = x'[0]? → ∀ i ≤ n, ((List.range' 1 n).foldl (maskStep sizes) x)[i]? = ((List.range' 1 n).foldl (maskStep sizes) x')[i]? := by
    intro n
    induction n with
    | zero =>
      intro _ x x' _ _ h0 i hi
      obtain rfl : i = 0 := by omega
      simpa using h0
    | succ n ih =>
      intro hn x x' hx hx' h0 i hi
      rw [List.range'_concat, List.foldl_append, List.foldl_append]
      simp only [List.foldl_cons, List.foldl_nil]
      have hidx : 1 + 1 * n = n + 1 := by omega
      rw [hidx]
      have hstep : ∀ l k, maskStep sizes l k = (l.map (· <<< sizes.getD k 0)).set k (2 ^ sizes.getD k 0 - 1) :=
        fun _ _ => rfl
      have l1 := hfl (List.range' 1 n) x
      have l2 := hfl (List.range' 1 n) x'
      have hih := ih (by omega) x x' hx hx' h0
      generalize (List.range' 1 n).foldl (maskStep sizes) x = y at *
      generalize (List.range' 1 n).foldl (maskStep sizes) x' = y' at *
      rw [hstep, hstep]
      by_cases hin : i = n + 1
      · subst hin
        rw [List.getElem?_set_self (by rw [List.length_map]; omega), List.getElem?_set_self (by rw [List.length_map]; omega)]
      · rw [List.getElem?_set_ne (by omega), List.getElem?_set_ne (by omega), List.getElem?_map, List.getElem?_map]
        rw [hih i (by omega)]
  unfold maskRound
  by_cases he : sizes = []
  · subst he
    obtain ⟨a, rfl⟩ : ∃ a, m = [a] := List.length_eq_one_iff.1 (by simpa using hl)
    obtain ⟨b, rfl⟩ : ∃ b, m' = [b] := List.length_eq_one_iff.1 (by simpa using hl')
    simp
  · simp only [List.isEmpty_iff, he, if_false]
    have hpos : 0 < sizes.length := List.length_pos_iff.2 he
    apply List.ext_getElem?
    intro i
    by_cases hi : i = sizes.length
    · subst hi
      rw [List.getElem?_set_self (by rw [List.length_map, hfl, List.length_set, hl]; omega),
        List.getElem?_set_self (by rw [List.length_map, hfl, List.length_set, hl']; omega)]
    · rw [List.getElem?_set_ne (by omega), List.getElem?_set_ne (by omega), List.getElem?_map, List.getElem?_map]
      by_cases hi2 : i ≤ sizes.length - 1
      · rw [hfold (sizes.length - 1) (by omega) (m.set 0 (2 ^ sizes.getD 0 0 - 1)) (m'.set 0 (2 ^ sizes.getD 0 0 - 1))
          (by rw [List.length_set, hl]) (by rw [List.length_set, hl'])
          (by rw [List.getElem?_set_self (by omega), List.getElem?_set_self (by omega)]) i hi2]
      · rw [List.getElem?_eq_none (by rw [hfl, List.length_set, hl]; omega),
          List.getElem?_eq_none (by rw [hfl, List.length_set, hl']; omega)]

/-- C110. The masks returned for a (non-empty) list of frames are those of one frame with the shared features: that the loop does not
clear the array between frames does no harm. -/
theorem C110_multi_masks (sizes : List Nat) (L n : Nat) (hn : 0 < n) : multiMasks sizes L n = buildMasks sizes L := by
  have hlen : ∀ m : List Nat, (maskRound sizes L m).length = m.length := by
    intro m
    have hfl : ∀ (l : List Nat) (x : List Nat), (l.foldl (maskStep sizes) x).length = x.length := by
      intro l
      induction l with
      | nil => simp
      | cons a l ih => intro m; simp [ih, maskStep]
    unfold maskRound
    simp only [List.length_set, List.length_map, hfl]
    split <;> simp
  have hb : buildMasks sizes L = maskRound sizes L (List.replicate (sizes.length + 1) 0) := rfl
  unfold multiMasks
  obtain ⟨k, rfl⟩ : ∃ k, n = k + 1 := ⟨n - 1, by omega⟩
  rw [List.range_succ, List.foldl_append]
  simp only [List.foldl_cons, List.foldl_nil]
  rw [hb]
  apply maskRound_indep
  · have : ∀ (l : List Nat) (m : List Nat), (l.foldl (fun m _ => maskRound sizes L m) m).length = m.length := by
      intro l
      induction l with
      | nil => intro m; rfl
      | cons a l ih => intro m; rw [List.foldl_cons, ih, hlen]
    rw [this]; simp
  · simp

/-! ### the name of the new column -/

theorem repr_inj {m n : Nat} (h : Nat.repr m = Nat.repr n) : m = n := by
  have h1 := congrArg String.toList h
  rw [Nat.toList_repr, Nat.toList_repr] at h1
  rw [← Nat.ofDigitChars_ten_toDigits (n := m), h1, Nat.ofDigitChars_ten_toDigits]

theorem versioned_inj (name : String) {m n : Nat} (h : versioned name m = versioned name n) : m = n := by
  unfold versioned at h
  have h1 := congrArg String.toList h
  simp only [String.toList_append, List.append_cancel_left_eq] at h1
  exact repr_inj (String.toList_inj.1 h1)

theorem searchVersion_spec (cols : List String) (name : String) : ∀ (fuel n : Nat) ,
    (∀ k, n ≤ k → k < searchVersion cols name fuel n → versioned name k ∈ cols) ∧ n ≤ searchVersion cols name fuel n ∧
    (versioned name (searchVersion cols name fuel n) ∉ cols ∨ searchVersion cols name fuel n = n + fuel) := by
  intro fuel
  induction fuel with
  | zero => intro n; simp only [searchVersion]; exact ⟨by intros; omega, by omega, Or.inr rfl⟩
  | succ fuel ih =>
    intro n
    simp only [searchVersion]
    by_cases h : versioned name n ∈ cols
    · rw [if_pos h]
      obtain ⟨h1, h2, h3⟩ := ih (n + 1)
      refine ⟨?_, by omega, ?_⟩
      · intro k hk hlt
        rcases Nat.eq_or_lt_of_le hk with rfl | hk
        · exact h
        · exact h1 k hk hlt
      · rcases h3 with h3 | h3
        · exact Or.inl h3
        · exact Or.inr (by omega)
    · rw [if_neg h]; exact ⟨by intros; omega, by omega, Or.inl h⟩

/-- C111. With `overwrite=False` the new column of a frame never has the name of an existing column. -/
theorem C111_fresh (cols : List String) (name : String) : pickName cols name false ∉ cols := by
  unfold pickName
  by_cases h : name ∈ cols
  · rw [if_pos ⟨h, rfl⟩]
    obtain ⟨h1, h2, h3⟩ := searchVersion_spec cols name cols.length 2
    rcases h3 with h3 | h3
    · exact h3
    · intro hmem
      have hsub : ((List.range' 2 (cols.length + 1)).map (versioned name)) ⊆ cols := by
        intro x hx
        obtain ⟨k, hk, rfl⟩ := List.mem_map.1 hx
        rw [List.mem_range'_1] at hk
        rcases Nat.lt_or_ge k (2 + cols.length) with hlt | hge
        · exact h1 k hk.1 (by omega)
        · have : k = searchVersion cols name cols.length 2 := by omega
          rw [this]; exact hmem
      have hnd : ((List.range' 2 (cols.length + 1)).map (versioned name)).Nodup :=
        List.Nodup.map (fun a b hab => versioned_inj name hab) List.nodup_range'
      have := (hnd.subperm hsub).length_le
      simp at this
  · rw [if_neg (fun hh => h hh.1)]; exact h

/-- C111. The name is the given one unless it is taken, and then the first free version from 2 on. -/
theorem C111_first (cols : List String) (name : String) :
    (name ∉ cols → pickName cols name false = name) ∧
    (name ∈ cols → ∃ n ≥ 2, pickName cols name false = versioned name n ∧ ∀ k, 2 ≤ k → k < n → versioned name k ∈ cols) ∧
    pickName cols name true = name := by
  refine ⟨fun h => if_neg (fun hh => h hh.1), fun h => ?_, if_neg (fun hh => Bool.noConfusion hh.2)⟩
  obtain ⟨h1, h2, _⟩ := searchVersion_spec cols name cols.length 2
  exact ⟨_, h2, if_pos ⟨h, rfl⟩, h1⟩

/-- C111. For a list of frames the last frame is safe … -/
theorem C111_last (frames : List (List String)) (cols : List String) (name : String) :
    pickNameAll (frames ++ [cols]) name false ∉ cols := by
  unfold pickNameAll
  rw [List.foldl_append]
  exact C111_fresh _ _

/-- … but an earlier frame is not: whenever the last frame has a column of the given name (free in the first frame), the first frame
has a column with the version number chosen for the last, and `overwrite` is `False`, that column of the first frame is overwritten. -/
theorem C111_fails (cols1 cols2 : List String) (name : String) (h1 : name ∉ cols1)
    (h3 : pickName cols2 name false ∈ cols1) : pickNameAll [cols1, cols2] name false ∈ cols1 := by
  have e : pickNameAll [cols1, cols2] name false = pickName cols2 (pickName cols1 name false) false := rfl
  rw [e, (C111_first cols1 name).1 h1]
  exact h3

example : "alternative_code" ∉ ["x", "alternative_code_v2"] ∧ "alternative_code" ∈ ["alternative_code", "y"] ∧
    pickName ["alternative_code", "y"] "alternative_code" false ∈ ["x", "alternative_code_v2"] := by decide +kernel

/-! ### the hypotheses are met -/

/-- Training frame with counter up to 3; a test frame with counter up to 4 (same number of bits) and one with counter 1. -/
example : labelOffset 1 exFrame3 = labelOffset 1 [(⟨1, fun _ => 10⟩ : Row Nat), ⟨1, fun _ => 10⟩, ⟨1, fun _ => 10⟩, ⟨1, fun _ => 10⟩] ∧
    labelOffset 1 exFrame3 ≠ labelOffset 1 exFrame ∧ (recode 1 4 exFrame3 exFrame).isSome = true ∧
    counter 1 exFrame 0 = counter 1 exFrame3 0 ∧
    (multiCodes 1 4 (fun _ => none) [exFrame3, exFrame]).isSome = true := by
  have hc3 : Nat.clog 2 3 = 2 := by decide
  have hc4 : Nat.clog 2 4 = 2 := by decide
  have hc1 : Nat.clog 2 1 = 0 := by decide
  have h3 : maxCounter 1 exFrame3 = 3 := by decide
  have h1 : maxCounter 1 exFrame = 1 := by decide
  have h4 : maxCounter 1 [(⟨1, fun _ => 10⟩ : Row Nat), ⟨1, fun _ => 10⟩, ⟨1, fun _ => 10⟩, ⟨1, fun _ => 10⟩] = 4 := by decide
  refine ⟨?_, ?_, ?_, by decide, ?_⟩
  · unfold labelOffset ceilLog2; rw [h3, h4, hc3, hc4]
  · unfold labelOffset ceilLog2; rw [h3, h1, hc3, hc1]; decide
  · rw [C110_defined]
    intro r hr m hm
    simp only [exFrame, List.mem_cons, List.not_mem_nil, or_false] at hr
    rcases hr with rfl | rfl
    · exact ⟨⟨1, fun _ => 10⟩, by simp [exFrame3], rfl⟩
    · exact ⟨⟨1, fun _ => 20⟩, by simp [exFrame3], rfl⟩
  · rw [C110_multi_defined]
    intro _ _ _ _ _ _ fs hfs; cases hfs

/-- An alternative of the first frame that the last one lacks (the third copy). -/
example : ∀ j, ∀ hj : j < exFrame.length,
    ¬ ((∀ m < 1, exFrame3[3].vals m = exFrame[j].vals m) ∧ counter 1 exFrame3 3 = counter 1 exFrame j) := by
  intro j hj
  have : exFrame.length = 2 := rfl
  rintro ⟨_, h⟩
  have h3 : counter 1 exFrame3 3 = 3 := by decide
  have : j = 0 ∨ j = 1 := by omega
  rcases this with rfl | rfl
  · have : counter 1 exFrame 0 = 1 := by decide
    omega
  · have : counter 1 exFrame 1 = 1 := by decide
    omega

end Larch.Props
