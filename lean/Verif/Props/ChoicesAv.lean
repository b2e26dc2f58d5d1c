import Verif.Props.Choices

/-!
# C136: the availability and the weights of a `DataFrames` are those it is given
-/

namespace Larch.Props

open Larch.Frames Larch.Choices

/-- The constructor accepts the choices and weights, and the cases are labelled: by the idco frame, by the choices, by the weights if there are no
choices, or, if there are neither choices nor weights, by the frame of alternatives. -/
def Labelled (x : Choices.Args) (ids : List Int) : Prop :=
  ∃ c w, choices x = some c ∧ weights x = some w ∧
    (x.co ≠ none ∨ (c = none ∧ w = none) ∨ (∃ t, c = some t ∧ t.rows.map Prod.fst = ids) ∨ ∃ f, c = none ∧ w = some f ∧ f.map Prod.fst = ids)

theorem aw_altCodes {x : Choices.Args} {codes : List Int} (ha : AltSet x codes) {c : Option Table} (hc : choices x = some c) :
    altCodes x = some codes := by
  unfold altCodes
  rw [hc, Option.bind_some, ch_known ha]
  rfl

theorem aw_ids {x : Choices.Args} {ids : List Int} (hi : CaseSet x ids) {c : Option Table} {w : Option (Co Int)}
    (h : x.co ≠ none ∨ (c = none ∧ w = none) ∨ (∃ t, c = some t ∧ t.rows.map Prod.fst = ids) ∨ ∃ f, c = none ∧ w = some f ∧ f.map Prod.fst = ids) :
    Choices.ids x c w = ids := by
  unfold Choices.ids
  cases hco : x.co with
  | some f => rw [ch_coIds hi hco]
  | none =>
    have hci : coIds x = none := by unfold coIds; rw [hco]; rfl
    rcases h with h | ⟨rfl, rfl⟩ | ⟨t, rfl, ht⟩ | ⟨f, rfl, rfl, hf⟩
    · exact absurd hco h
    · rw [hci]; exact ch_baseIds hi
    · rw [hci]; exact ht
    · rw [hci]; exact hf

/-- The setter of availability, for a frame whose columns are the alternatives. -/
theorem aw_set {x : Choices.Args} {ids codes : List Int} {c : Option Table} (hi : CaseSet x ids) (ha : AltSet x codes) {rows : Co (List Int)}
    (hids : (rows.map Prod.fst).Perm ids) (g : Int → Int → Int) (hg : ∀ r ∈ rows, ∀ (p : Nat) a, codes[p]? = some a → r.2[p]? = some (g r.1 a)) :
    Holds ((setAv x c codes.length ⟨codes, rows⟩).map some) ids codes g := by
  have hlen : rows.length = ids.length := by rw [← hids.length_eq, List.length_map]
  have hfst := ch_sorted_rows hi.sorted hids
  refine ⟨⟨codes, setSorted rows⟩, ?_, rfl, hfst, fun k p i a hk hp => ?_⟩
  · unfold setAv
    rw [ch_nCases hi ha, hlen]
    simp
  · have him : i ∈ rows.map Prod.fst := hids.mem_iff.mpr (List.mem_of_getElem? hk)
    obtain ⟨r, hr, rfl⟩ := List.mem_map.mp him
    have := ch_row_at (v := r.2) hi.sorted hfst hk ((setSorted_perm _).mem_iff.mpr hr)
    unfold cellAt
    rw [this]
    exact hg r hr p a hp

theorem aw_start {x : Choices.Args} {codes : List Int} (ha : AltSet x codes) {c : Option Table} {w : Option (Co Int)} (hc : choices x = some c)
    (hw : weights x = some w) (F : List Int → Option Table → Option (Co Int) → Option (Option Table)) :
    ((altCodes x).bind (fun codes => (choices x).bind (fun ch => (weights x).bind (fun wt => F codes ch wt)))) = F codes c w := by
  rw [aw_altCodes ha hc, Option.bind_some, hc, Option.bind_some, hw, Option.bind_some]

/-- **C136 (everything available).** `av=True` makes every alternative available in every case. -/
theorem C136_all (x : Choices.Args) (ids codes : List Int) (hi : CaseSet x ids) (ha : AltSet x codes) (hl : Labelled x ids) (hx : x.av = .all)
    (hne : codes ≠ []) : Holds (availability x) ids codes (fun _ _ => 1) := by
  obtain ⟨c, w, hc, hw, h⟩ := hl
  unfold availability
  rw [aw_start ha hc hw]
  simp only [hx, aw_ids hi h]
  rw [if_neg (by rw [List.length_eq_zero_iff]; exact hne)]
  refine aw_set hi ha (by simp [List.map_map, Function.comp_def]) _ (fun r hr p a hp => ?_)
  obtain ⟨i, _, rfl⟩ := List.mem_map.mp hr
  show (codes.map _)[p]? = _
  rw [List.getElem?_map, hp]
  rfl

/-- **C136 (a column for every alternative).** Availability given as a dictionary from alternative to column of the idco frame: an alternative has the
value of its column in the row of the case; alternatives that are not mentioned are not available. -/
theorem C136_by_name (x : Choices.Args) (ids codes : List Int) (hi : CaseSet x ids) (ha : AltSet x codes) (hl : Labelled x ids)
    (defs : List (Int × String)) (hx : x.av = .byName defs) (hnd : (defs.map Prod.fst).Nodup) (f : Tab1) (hf : x.co = some f)
    (hdefs : ∀ d ∈ defs, d.1 ∈ codes ∧ d.2 ∈ f.names) (g : Int → Int → Int) (hg : ∀ r ∈ f.rows, ∀ d ∈ defs, g r.1 d.1 = r.2 d.2)
    (h0 : ∀ r ∈ f.rows, ∀ a, a ∉ defs.map Prod.fst → g r.1 a = 0) : Holds (availability x) ids codes g := by
  obtain ⟨c, w, hc, hw, h⟩ := hl
  have hall : (defs.all fun d => f.names.contains d.2 && codes.contains d.1) = true := by
    rw [List.all_eq_true]
    intro d hd
    obtain ⟨e1, e2⟩ := hdefs d hd
    simp [e1, e2]
  unfold availability
  rw [aw_start ha hc hw]
  simp only [hx, hf, hall, if_true]
  refine aw_set hi ha ?_ g (fun r hr p a hp => ?_)
  · rw [List.map_map]
    exact ((setSorted_perm f.rows).map Prod.fst).trans (hi.co f hf)
  · obtain ⟨q, hq, rfl⟩ := List.mem_map.mp hr
    have hq' := (setSorted_perm f.rows).mem_iff.mp hq
    show (codes.map _)[p]? = some (g q.1 a)
    rw [List.getElem?_map, hp, Option.map_some]
    by_cases hd : a ∈ defs.map Prod.fst
    · obtain ⟨d, hd', rfl⟩ := List.mem_map.mp hd
      have hrev : (defs.reverse.map Prod.fst).Nodup := by rw [List.map_reverse]; exact List.nodup_reverse.mpr hnd
      rw [ch_lookup hrev (List.mem_reverse.mpr hd'), hg q hq' d hd']
    · have : defs.reverse.lookup a = none := by
        rw [List.lookup_eq_none_iff]
        intro d hd'
        rw [bne_iff_ne]
        intro e
        exact hd (e ▸ List.mem_map.mpr ⟨d, List.mem_reverse.mp hd', rfl⟩)
      rw [this, h0 q hq' a hd]

/-- **C136 (a column of the alternatives).** Availability given by the name of a column of an idca frame: the value of the row of the case and the
alternative. -/
theorem C136_named (x : Choices.Args) (ids codes : List Int) (hi : CaseSet x ids) (ha : AltSet x codes) (hl : Labelled x ids)
    (s : String) (hx : x.av = .named s) (t : Tab2) (ht : ca x = some t) (hs : s ∈ t.names) (g : Int → Int → Int)
    (hg : ∀ r ∈ t.mf.rows, g r.1.1 r.1.2 = r.2 s) : Holds (availability x) ids codes g := by
  obtain ⟨c, w, hc, hw, h⟩ := hl
  obtain ⟨e1, e2⟩ := ch_ca.mp ht
  obtain ⟨r1, r2, r3⟩ := hi.alts t e1
  have hlab : (column2 t s).map Prod.fst = ids ×ˢ codes := by
    have : (column2 t s).map Prod.fst = t.mf.rows.map Prod.fst := by simp [column2, List.map_map, Function.comp_def]
    rw [this, full_labels r1.lev0 r1.lev1 r1.rows r1.nodup e2, ← ch_lev0 r1 r2 e2 r3, ha.alts t e1]
  obtain ⟨cc, hcc, hfst, hwid, hcell⟩ := ch_chunks hi.sorted hlab g (fun r hr => by
    obtain ⟨q, hq, rfl⟩ := List.mem_map.mp hr; exact hg q hq)
  unfold availability
  rw [aw_start ha hc hw]
  simp only [hx, ht, aw_ids hi h]
  rw [if_pos (by simpa using hs), hcc, Option.bind_some]
  exact aw_set hi ha (by rw [hfst]) g hcell

/-- **C136 (a Series with one row per alternative).** Availability given as a Series with a two-level index that has a row for every case and alternative,
in any order: the value of the row. -/
theorem C136_tall (x : Choices.Args) (ids codes : List Int) (hi : CaseSet x ids) (ha : AltSet x codes) (hl : Labelled x ids)
    (f : MF Int) (hx : x.av = .tall f) (hf : Regular f) (hids : CasesOf f ids) (hcodes : ∀ a, a ∈ codes ↔ ∃ r ∈ f.rows, r.1.2 = a)
    (hfull : f.rows.length = ids.length * codes.length) (g : Int → Int → Int) (hg : ∀ r ∈ f.rows, g r.1.1 r.1.2 = r.2) :
    Holds (availability x) ids codes g := by
  obtain ⟨c, w, hc, hw, h⟩ := hl
  unfold availability
  rw [aw_start ha hc hw]
  simp only [hx, aw_ids hi h]
  split_ifs with hfast
  · cases hca : ca x with
    | none => rw [hca] at hfast; cases hfast
    | some t =>
      rw [hca] at hfast
      obtain ⟨e1, e2⟩ := ch_ca.mp hca
      obtain ⟨r1, r2, r3⟩ := hi.alts t e1
      have hlab : f.rows.map Prod.fst = ids ×ˢ codes := by
        rw [← ch_sameIndex r1 hf hfast, full_labels r1.lev0 r1.lev1 r1.rows r1.nodup e2, ← ch_lev0 r1 r2 e2 r3, ha.alts t e1]
      obtain ⟨cc, hcc, hfst, hwid, hcell⟩ := ch_chunks hi.sorted hlab g hg
      rw [hcc, Option.bind_some]
      exact aw_set hi ha (by rw [hfst]) g hcell
  · obtain ⟨t, ht, hcols, hmem, hfst, hwid, hcell⟩ := ch_unstack hf.nodup hi.sorted hids.mem g hg
    have hce : t.cols = codes := by
      refine ch_sorted_subset hcols ha.sorted (fun a hac => (hcodes a).mpr ((hmem a).mp hac)) ?_
      have := (List.subperm_of_subset (ha.sorted.imp (fun h => ne_of_lt h) : codes.Nodup) (fun a hac => (hmem a).mpr ((hcodes a).mp hac))).length_le
      omega
    have hlen : t.rows.length = ids.length := by rw [← hfst, List.length_map]
    -- all pairs occur
    have hsub : ∀ e ∈ f.rows.map Prod.fst, e ∈ ids ×ˢ codes := by
      intro e he
      obtain ⟨r, hr, rfl⟩ := List.mem_map.mp he
      exact List.mem_product.mpr ⟨(hids.mem _).mpr ⟨r, hr, rfl⟩, (hcodes _).mpr ⟨r, hr, rfl⟩⟩
    have hperm : (f.rows.map Prod.fst).Perm (ids ×ˢ codes) := by
      apply (List.subperm_of_subset hf.nodup hsub).perm_of_length_le
      rw [List.length_product, List.length_map, hfull]
    rw [ht, Option.bind_some]
    obtain ⟨tc, tr⟩ := t
    simp only at hce
    subst hce
    rw [if_pos (by rw [hlen, hfull])]
    refine aw_set hi ha (by rw [hfst]) g (fun r hr p a hp => ?_)
    have hac := List.mem_of_getElem? hp
    have hri : r.1 ∈ ids := hfst ▸ List.mem_map.mpr ⟨r, hr, rfl⟩
    have hex : ∃ v, ((r.1, a), v) ∈ f.rows := by
      have : (r.1, a) ∈ f.rows.map Prod.fst := hperm.mem_iff.mpr (List.mem_product.mpr ⟨hri, hac⟩)
      obtain ⟨q, hq, he⟩ := List.mem_map.mp this
      exact ⟨q.2, by rw [← he]; exact hq⟩
    rcases hcell r hr a hac with ⟨_, e⟩ | ⟨hn, _⟩
    · rw [ch_idxOf ha.sorted hp, List.getD_eq_getElem?_getD] at e
      have hpl : p < r.2.length := by rw [hwid r hr]; exact (List.getElem?_eq_some_iff.mp hp).1
      rw [List.getElem?_eq_getElem hpl] at e ⊢
      simpa using e
    · exact absurd hex hn

/-- **C136 (a frame with one column per alternative).** Availability given as a frame with the alternatives as columns, in their order, and the cases as
rows in any order: the value of the cell. -/
theorem C136_wide (x : Choices.Args) (ids codes : List Int) (hi : CaseSet x ids) (ha : AltSet x codes) (hl : Labelled x ids) (t : Table)
    (hx : x.av = .wide t) (hcols : t.cols = codes) (hids : (t.rows.map Prod.fst).Perm ids) (g : Int → Int → Int)
    (hg : ∀ r ∈ t.rows, ∀ (p : Nat) a, codes[p]? = some a → r.2[p]? = some (g r.1 a)) : Holds (availability x) ids codes g := by
  obtain ⟨c, w, hc, hw, h⟩ := hl
  unfold availability
  rw [aw_start ha hc hw]
  simp only [hx]
  obtain ⟨tc, tr⟩ := t
  simp only at hcols
  subst hcols
  exact aw_set hi ha hids g hg

/-- The container has the weight `g i` for the case at every position. -/
def WeightsAre (o : Option (Option (Co Int))) (ids : List Int) (g : Int → Int) : Prop := o = some (some (ids.map (fun i => (i, g i))))

theorem aw_map {α : Type} {l : Co α} {ids : List Int} (h : l.map Prod.fst = ids) (g : Int → α) (hg : ∀ r ∈ l, g r.1 = r.2) :
    l = ids.map (fun i => (i, g i)) := by
  subst h
  rw [List.map_map]
  conv_lhs => rw [← List.map_id l]
  exact List.map_congr_left (fun r hr => by simp [hg r hr])

/-- **C136 (weights, partly).** Weights given as a Series, or as a column of the idco frame, whose index is in increasing order: each case gets its own
weight.  Not so for other orders: `C136_fails_weights_column`. -/
theorem C136_weights_partial (x : Choices.Args) (ids codes : List Int) (hi : CaseSet x ids) (ha : AltSet x codes) (c : Option Table)
    (hc : choices x = some c) (g : Int → Int) :
    (∀ f, x.wt = .series f → f.map Prod.fst = ids → (∀ r ∈ f, g r.1 = r.2) → WeightsAre (weights x) ids g) ∧
    (∀ s f, x.wt = .named s → x.co = some f → s ∈ f.names → f.rows.map Prod.fst = ids → (∀ r ∈ f.rows, g r.1 = r.2 s) →
      WeightsAre (weights x) ids g) := by
  constructor
  · intro f hx hf hg
    unfold WeightsAre weights
    rw [aw_altCodes ha hc, Option.bind_some, hc, Option.bind_some]
    simp only [hx]
    have hlen : f.length = ids.length := by rw [← hf, List.length_map]
    rw [ch_nCases hi ha, if_pos hlen, ← aw_map hf g hg]
    rfl
  · intro s f hx hco hs hf hg
    unfold WeightsAre weights
    rw [aw_altCodes ha hc, Option.bind_some, hc, Option.bind_some]
    simp only [hx, hco]
    have hlen : f.rows.length = ids.length := by rw [← hf, List.length_map]
    rw [if_pos (by simpa using hs), ch_nCases hi ha, if_pos hlen]
    have := aw_map (l := f.rows.map (fun r => (r.1, r.2 s))) (ids := ids) (by rw [List.map_map]; exact hf) g (fun r hr => by
      obtain ⟨q, hq, rfl⟩ := List.mem_map.mp hr
      exact hg q hq)
    rw [← this]
    rfl

/-- **C136 (weights on the rows).** Weights given as a Series with a two-level index that has more rows than there are cases: each case gets the weight
of its rows. -/
theorem C136_weights_tall (x : Choices.Args) (ids codes : List Int) (hi : CaseSet x ids) (ha : AltSet x codes) (c : Option Table)
    (hc : choices x = some c) (f : MF Int) (hx : x.wt = .tall f) (hf : ∀ i, i ∈ ids ↔ ∃ r ∈ f.rows, r.1.1 = i) (hlong : f.rows.length ≠ ids.length)
    (g : Int → Int) (hg : ∀ r ∈ f.rows, g r.1.1 = r.2) : WeightsAre (weights x) ids g := by
  unfold WeightsAre weights
  rw [aw_altCodes ha hc, Option.bind_some, hc, Option.bind_some]
  simp only [hx]
  have hu : uniq (f.rows.map (fun r => r.1.1)) = ids := by
    unfold uniq
    exact sorted_dedup_eq hi.sorted (fun i => by rw [hf, List.mem_map])
  rw [ch_nCases hi ha, if_neg hlong, hu, ch_nCases hi ha, if_pos (by simp)]
  congr 2
  refine List.map_congr_left (fun i hii => ?_)
  obtain ⟨r, hr, rfl⟩ := (hf i).mp hii
  cases hfind : f.rows.find? (fun q => q.1.1 == r.1.1) with
  | none =>
    have := List.find?_eq_none.mp hfind r hr
    simp at this
  | some q =>
    have hq := List.mem_of_find?_eq_some hfind
    have he := List.find?_some hfind
    simp only [beq_iff_eq] at he
    rw [← he, hg q hq]
    rfl

/-! ## What goes wrong -/

/-- **C136 fails (a column of weights).** Weights named as a column of an idco frame that is not sorted: the frame is sorted, its own column of weights is
not.  The first case of the container is case 3, whose weight is 30; the first weight is 70. -/
theorem C136_fails_weights_column :
    coIds { codes := some [1, 2], co := some ⟨["w"], [(7, fun _ => 70), (3, fun _ => 30)]⟩, wt := .named "w" } = some [3, 7] ∧
    weights { codes := some [1, 2], co := some ⟨["w"], [(7, fun _ => 70), (3, fun _ => 30)]⟩, wt := .named "w" } =
      some (some [(7, 70), (3, 30)]) := by decide +kernel

/-- **C136 fails (a column of weights of the alternatives).** Weights cannot be named as a column of the frame of alternatives, although this is
documented: the constructor raises whenever the column exists there. -/
theorem C136_fails_weights_alternatives (x : Choices.Args) (s : String) (hx : x.wt = .named s) (t : Tab2) (ht : x.alts = some t)
    (hs : s ∈ t.names) (hno : ∀ f, x.co = some f → s ∉ f.names) : weights x = none := by
  unfold weights
  cases altCodes x with
  | none => rfl
  | some codes =>
    rw [Option.bind_some]
    cases choices x with
    | none => rfl
    | some ch =>
      rw [Option.bind_some]
      simp only [hx, ht]
      cases hco : x.co with
      | none => simp [hs]
      | some f => simp [hs, hno f hco]

/-- **C136 fails (no such column).** A name of weights that is no column at all is accepted: the container has no weights. -/
theorem C136_fails_weights_missing :
    weights { codes := some [1, 2], co := some ⟨["w"], [(3, fun _ => 30), (7, fun _ => 70)]⟩, wt := .named "weight" } = some none := by decide +kernel

/-- **C136 fails (order of the columns).** The columns of availability are not compared with the alternatives: alternative 2 is said to be available in
case 3 where only alternative 1 is. -/
theorem C136_fails_columns :
    availability { codes := some [1, 2], co := some ⟨[], [(3, fun _ => 0)]⟩, av := .wide ⟨[2, 1], [(3, [0, 1])]⟩ } =
      some (some ⟨[2, 1], [(3, [0, 1])]⟩) ∧
    altCodes { codes := some [1, 2], co := some ⟨[], [(3, fun _ => 0)]⟩, av := .wide ⟨[2, 1], [(3, [0, 1])]⟩ } = some [1, 2] := by decide +kernel

/-- **C136 fails (a column of idce data).** Availability cannot be named as a column when the frame of alternatives is in idce format. -/
theorem C136_fails_named_idce (x : Choices.Args) (s : String) (hx : x.av = .named s) (hca : ca x = none) : availability x = none := by
  unfold availability
  cases altCodes x with
  | none => rfl
  | some codes =>
    rw [Option.bind_some]
    cases choices x with
    | none => rfl
    | some c =>
      rw [Option.bind_some]
      cases weights x with
      | none => rfl
      | some w => rw [Option.bind_some]; simp only [hx, hca]

/-! ## Concrete cases -/

/-- Two trips with the availability of car and bus, and choices. -/
def avTrips : Choices.Args :=
  { codes := some [1, 2, 4], co := some ⟨["mode", "car", "bus", "w"], [(7, fun s => if s = "mode" then 1 else if s = "car" then 1 else if s = "w" then 5 else 0),
      (3, fun s => if s = "mode" then 2 else if s = "car" then 0 else if s = "w" then 6 else 1)]⟩, ch := .named "mode",
    av := .byName [(1, "car"), (2, "bus")] }

theorem avTrips_cases : CaseSet avTrips [3, 7] :=
  ⟨by decide, fun f hf => (by cases hf; decide), fun t ht => (by cases ht), Or.inl (by simp [avTrips])⟩

theorem avTrips_alts : AltSet avTrips [1, 2, 4] := threeCodes_alts _ rfl rfl

theorem avTrips_labelled : Labelled avTrips [3, 7] :=
  ⟨some ⟨[1, 2, 4], [(3, [0, 1, 0]), (7, [1, 0, 0])]⟩, none, by decide +kernel, by decide +kernel, Or.inl (by simp [avTrips])⟩

example : Holds (availability avTrips) [3, 7] [1, 2, 4] (fun i a => if (i, a) = (3, 2) ∨ (i, a) = (7, 1) then 1 else 0) :=
  C136_by_name _ _ _ avTrips_cases avTrips_alts avTrips_labelled _ rfl (by decide) _ rfl (by decide) _ (by simp) (by
    intro r hr a ha'
    simp at hr ha'
    rcases hr with rfl | rfl <;> simp [ha'])

example : availability avTrips = some (some ⟨[1, 2, 4], [(3, [0, 1, 0]), (7, [1, 0, 0])]⟩) := by decide +kernel

/-- Complete rows for two cases and two alternatives. -/
def completeRows : Tab2 := ⟨["ok"], ⟨[3, 7], [1, 2], [((3, 1), fun _ => 1), ((3, 2), fun _ => 0), ((7, 1), fun _ => 0), ((7, 2), fun _ => 1)], 1⟩⟩

theorem completeRows_cases (x : Choices.Args) (h : x.alts = some completeRows) (h2 : x.co = none) : CaseSet x [3, 7] :=
  ⟨by decide, fun f hf => (by rw [h2] at hf; cases hf),
    fun t ht => (by
      rw [h] at ht; cases ht
      exact ⟨⟨by decide, by decide, by simp [completeRows], by decide⟩, ⟨by decide, by intro c; simp [completeRows]; omega⟩, by decide⟩),
    Or.inr (by rw [h]; simp)⟩

theorem completeRows_alts (x : Choices.Args) (h : x.alts = some completeRows) (h2 : x.codes = none) : AltSet x [1, 2] :=
  ⟨by decide, Or.inl h2, fun t ht => (by rw [h] at ht; cases ht; rfl), Or.inr (by rw [h]; simp)⟩

example : Holds (availability { alts := some completeRows, av := .named "ok" }) [3, 7] [1, 2] (fun i a => if (i, a) = (3, 1) ∨ (i, a) = (7, 2) then 1 else 0) :=
  C136_named _ _ _ (completeRows_cases _ rfl rfl) (completeRows_alts _ rfl rfl) ⟨none, none, by decide +kernel, by decide +kernel, Or.inr (Or.inl ⟨rfl, rfl⟩)⟩ "ok" rfl
    completeRows (ch_ca.mpr ⟨rfl, by decide +kernel⟩) (by decide) _ (by simp [completeRows])

example : Holds (availability { alts := some completeRows, av := .tall ⟨[3, 7], [1, 2], [((7, 2), 1), ((3, 1), 1), ((3, 2), 0), ((7, 1), 0)], 1⟩ }) [3, 7] [1, 2]
    (fun i a => if (i, a) = (3, 1) ∨ (i, a) = (7, 2) then 1 else 0) :=
  C136_tall _ _ _ (completeRows_cases _ rfl rfl) (completeRows_alts _ rfl rfl) ⟨none, none, by decide +kernel, by decide +kernel, Or.inr (Or.inl ⟨rfl, rfl⟩)⟩ _ rfl
    ⟨by decide, by decide, by simp, by decide⟩ ⟨by decide, by intro c; simp; omega⟩ (by intro a; simp; omega) (by decide) _ (by simp)

example : Holds (availability { alts := some completeRows, av := .all }) [3, 7] [1, 2] (fun _ _ => 1) :=
  C136_all _ _ _ (completeRows_cases _ rfl rfl) (completeRows_alts _ rfl rfl) ⟨none, none, by decide +kernel, by decide +kernel, Or.inr (Or.inl ⟨rfl, rfl⟩)⟩ rfl (by simp)

example : Holds (availability { alts := some completeRows, av := .wide ⟨[1, 2], [(7, [0, 1]), (3, [1, 0])]⟩ }) [3, 7] [1, 2]
    (fun i a => if (i, a) = (3, 1) ∨ (i, a) = (7, 2) then 1 else 0) :=
  C136_wide _ _ _ (completeRows_cases _ rfl rfl) (completeRows_alts _ rfl rfl) ⟨none, none, by decide +kernel, by decide +kernel, Or.inr (Or.inl ⟨rfl, rfl⟩)⟩ _ rfl
    rfl (by decide) _ (by
      intro r hr p a hp
      have hk : p < 2 := (List.getElem?_eq_some_iff.mp hp).1
      simp at hr
      rcases hr with rfl | rfl <;> interval_cases p <;> (simp at hp; subst hp; simp))

example : WeightsAre (weights { alts := some completeRows, wt := .series [(3, 5), (7, 6)] }) [3, 7] (fun i => if i = 3 then 5 else 6) :=
  (C136_weights_partial _ _ _ (completeRows_cases _ rfl rfl) (completeRows_alts _ rfl rfl) none (by decide +kernel) _).1 _ rfl rfl (by simp)

example : WeightsAre (weights { alts := some completeRows, wt := .tall ⟨[3, 7], [1, 2], [((7, 2), 6), ((3, 1), 5), ((3, 2), 5), ((7, 1), 6)], 1⟩ }) [3, 7]
    (fun i => if i = 3 then 5 else 6) :=
  C136_weights_tall _ _ _ (completeRows_cases _ rfl rfl) (completeRows_alts _ rfl rfl) none (by decide +kernel) _ rfl (by intro c; simp; omega) (by decide) _ (by simp)

end Larch.Props
