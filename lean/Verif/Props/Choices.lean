import Verif.Model.Choices
import Verif.Props.Align
import Verif.Props.Convert
import Mathlib.Tactic.IntervalCases

/-!
# C135: the choices of a `DataFrames` are the choices it is given, whatever their form
-/

namespace Larch.Props

open Larch.Frames Larch.Choices

/-- The cases of the arguments are `ids`, in increasing order: the idco frame (in any order) has one row for each, the frame of alternatives has
labels that are not repeated, ordered levels, and rows for these cases and no others. -/
structure CaseSet (x : Choices.Args) (ids : List Int) : Prop where
  sorted : ids.Pairwise (· < ·)
  co : ∀ f, x.co = some f → (f.rows.map Prod.fst).Perm ids
  alts : ∀ t, x.alts = some t → Regular t.mf ∧ CasesOf t.mf ids ∧ t.mf.lev1 ≠ []
  some : x.co ≠ none ∨ x.alts ≠ none

/-- The alternatives of the arguments are `codes`: given by `alt_codes`, by the frame of alternatives, or consistently by both. -/
structure AltSet (x : Choices.Args) (codes : List Int) : Prop where
  sorted : codes.Pairwise (· < ·)
  given : x.codes = none ∨ x.codes = some codes
  alts : ∀ t, x.alts = some t → t.mf.lev1 = codes
  some : x.codes ≠ none ∨ x.alts ≠ none

/-- What the table has at case position `k` and alternative position `p` (`_array_ch[k, p]`). -/
def cellAt (t : Table) (k p : Nat) : Option Int := (t.rows[k]?).bind (fun r => r.2[p]?)

/-- The constructor succeeds and the table has, for the cases `ids` and the alternatives `codes` in this order, the value `g i a` for case `i` and
alternative `a`. -/
def Holds (o : Option (Option Table)) (ids codes : List Int) (g : Int → Int → Int) : Prop :=
  ∃ t, o = some (some t) ∧ t.cols = codes ∧ t.rows.map Prod.fst = ids ∧
    ∀ (k p : Nat) (i a : Int), ids[k]? = some i → codes[p]? = some a → cellAt t k p = some (g i a)

theorem ch_sorted_rows {α : Type} {l : Co α} {ids : List Int} (hs : ids.Pairwise (· < ·)) (hp : (l.map Prod.fst).Perm ids) :
    (setSorted l).map Prod.fst = ids := by
  have h1 := ((setSorted_perm l).map Prod.fst).trans hp
  exact h1.eq_of_pairwise (fun a b _ _ h1 h2 => le_antisymm h1 h2) (setSorted_sorted l) (hs.imp (fun h => le_of_lt h))

theorem ch_row_at {α : Type} {l : Co α} {ids : List Int} (hs : ids.Pairwise (· < ·)) (h : l.map Prod.fst = ids) {k : Nat} {i : Int}
    {v : α} (hk : ids[k]? = some i) (hm : (i, v) ∈ l) : l[k]? = some (i, v) := by
  subst h
  rw [List.getElem?_map, Option.map_eq_some_iff] at hk
  obtain ⟨r, hr, rfl⟩ := hk
  have hnd : (l.map Prod.fst).Nodup := hs.imp (fun h => ne_of_lt h)
  have := List.inj_on_of_nodup_map hnd (List.mem_of_getElem? hr) hm rfl
  rw [hr, this]

theorem ch_sorted_subset {a b : List Int} (ha : a.Pairwise (· < ·)) (hb : b.Pairwise (· < ·)) (hsub : ∀ c ∈ a, c ∈ b)
    (hl : ¬ b.length > a.length) : a = b := by
  have hp : a.Perm b := (List.subperm_of_subset (ha.imp (fun h => ne_of_lt h)) hsub).perm_of_length_le (by omega)
  exact hp.eq_of_pairwise (fun a b _ _ h1 h2 => le_antisymm h1 h2) (ha.imp (fun h => le_of_lt h)) (hb.imp (fun h => le_of_lt h))

theorem ch_idxOf {l : List Int} (hl : l.Pairwise (· < ·)) {p : Nat} {a : Int} (h : l[p]? = some a) : l.idxOf a = p := by
  obtain ⟨h1, h2⟩ := List.getElem?_eq_some_iff.mp h
  rw [← h2]
  have hn : l.Nodup := hl.imp (fun h => ne_of_lt h)
  exact hn.idxOf_getElem p h1

/-- The setter with added columns: every cell comes from the row of its case and the column of its alternative. -/
theorem ch_set (x : Choices.Args) {ids codes : List Int} (hs : ids.Pairwise (· < ·)) (hc : codes.Pairwise (· < ·)) (t : Table)
    (hcols : t.cols.Pairwise (· < ·)) (hsub : ∀ c ∈ t.cols, c ∈ codes) (hids : (t.rows.map Prod.fst).Perm ids)
    (hw : ∀ r ∈ t.rows, r.2.length = t.cols.length) (hn : Choices.nCases x codes.length ids.length = ids.length) (g : Int → Int → Int)
    (hg : ∀ r ∈ t.rows, ∀ a ∈ codes, g r.1 a = if a ∈ t.cols then r.2.getD (t.cols.idxOf a) 0 else 0) :
    Holds ((setCh x (some codes) t).map some) ids codes g := by
  have hlen : t.rows.length = ids.length := by rw [← hids.length_eq, List.length_map]
  -- the added columns
  obtain ⟨rows', hadd, hrl, hrows⟩ : ∃ rows', addColumns (some codes) t.cols (t.rows.map Prod.snd) = (codes, rows') ∧
      rows'.length = t.rows.length ∧
      ∀ (j : Nat) r, t.rows[j]? = some r → ∃ row, rows'[j]? = some row ∧ ∀ (p : Nat) a, codes[p]? = some a → row[p]? = some (g r.1 a) := by
    unfold addColumns
    simp only []
    split_ifs with h
    · refine ⟨_, rfl, by simp, fun j r hr => ?_⟩
      refine ⟨codes.map (fun a => if t.cols.contains a then r.2.getD (t.cols.idxOf a) 0 else 0), by simp [hr], fun p a hp => ?_⟩
      rw [List.getElem?_map, hp, Option.map_some, hg r (List.mem_of_getElem? hr) a (List.mem_of_getElem? hp)]
      simp
    · have he : t.cols = codes := by
        refine ch_sorted_subset hcols hc hsub (fun hgt => h ⟨hgt, ?_⟩)
        rw [List.all_eq_true]
        intro c hc'
        rw [List.contains_iff_mem]
        exact hsub c hc'
      refine ⟨t.rows.map Prod.snd, by rw [he], by simp, fun j r hr => ⟨r.2, by simp [hr], fun p a hp => ?_⟩⟩
      have hr' := List.mem_of_getElem? hr
      have ha := List.mem_of_getElem? hp
      rw [hg r hr' a ha, he, if_pos ha, ch_idxOf hc hp]
      have hpl : p < r.2.length := by
        rw [hw r hr', he]; exact (List.getElem?_eq_some_iff.mp hp).1
      rw [List.getD_eq_getElem?_getD, List.getElem?_eq_getElem hpl]
      rfl
  have hzip : (((t.rows.map Prod.fst).zip rows').map Prod.fst) = t.rows.map Prod.fst := by
    rw [List.map_fst_zip]; simp [hrl]
  have hfst : (setSorted ((t.rows.map Prod.fst).zip rows')).map Prod.fst = ids := ch_sorted_rows hs (by rw [hzip]; exact hids)
  refine ⟨⟨codes, setSorted ((t.rows.map Prod.fst).zip rows')⟩, ?_, rfl, hfst, ?_⟩
  · unfold setCh
    rw [hadd]
    simp only [consistent, decide_true, Bool.true_and]
    rw [hlen, hn]
    simp
  · intro k p i a hk hp
    have hi : i ∈ t.rows.map Prod.fst := hids.mem_iff.mpr (List.mem_of_getElem? hk)
    obtain ⟨r, hr, rfl⟩ := List.mem_map.mp hi
    obtain ⟨j, hj⟩ := List.mem_iff_getElem?.mp hr
    obtain ⟨row, hrow, hcell⟩ := hrows j r hj
    have hmem : (r.1, row) ∈ setSorted ((t.rows.map Prod.fst).zip rows') := by
      rw [(setSorted_perm _).mem_iff]
      refine List.mem_of_getElem? (i := j) ?_
      rw [List.getElem?_zip_eq_some]
      exact ⟨by simp [hj], hrow⟩
    have := ch_row_at hs hfst hk hmem
    unfold cellAt
    rw [this]
    exact hcell p a hp

theorem ch_lev0 {α : Type} {f : MF α} (hf : Regular f) {ids : List Int} (hids : CasesOf f ids) (hca : isIdce f = false) (h1 : f.lev1 ≠ []) :
    ids = f.lev0 := by
  have hfull := full_labels hf.lev0 hf.lev1 hf.rows hf.nodup hca
  have hp : ids.Perm f.lev0 := by
    rw [List.perm_ext_iff_of_nodup (hids.sorted.imp (fun h => ne_of_lt h)) (hf.lev0.imp (fun h => ne_of_lt h))]
    intro c
    rw [hids.mem]
    constructor
    · rintro ⟨r, hr, rfl⟩; exact (hf.rows r hr).1
    · intro hc
      obtain ⟨a, ha⟩ := List.exists_mem_of_ne_nil _ h1
      have : (c, a) ∈ f.rows.map Prod.fst := by
        rw [hfull]; exact List.mem_product.mpr ⟨hc, ha⟩
      obtain ⟨r, hr, he⟩ := List.mem_map.mp this
      exact ⟨r, hr, by rw [he]⟩
  exact hp.eq_of_pairwise (fun a b _ _ h1 h2 => le_antisymm h1 h2) (hids.sorted.imp (fun h => le_of_lt h)) (hf.lev0.imp (fun h => le_of_lt h))

theorem ch_full_length {α : Type} {f : MF α} (hf : Regular f) {ids : List Int} (hids : CasesOf f ids) (hca : isIdce f = false)
    (h1 : f.lev1 ≠ []) : f.rows.length = ids.length * f.lev1.length := by
  have hfull := full_labels hf.lev0 hf.lev1 hf.rows hf.nodup hca
  have := congrArg List.length hfull
  rw [List.length_map, List.length_product] at this
  rw [this, ch_lev0 hf hids hca h1]

theorem ch_ca {x : Choices.Args} {t : Tab2} : ca x = some t ↔ x.alts = some t ∧ isIdce t.mf = false := by
  unfold ca
  rw [Option.filter_eq_some_iff]
  simp

theorem ch_ce {x : Choices.Args} {t : Tab2} : ce x = some t ↔ x.alts = some t ∧ isIdce t.mf = true := by
  unfold ce
  rw [Option.filter_eq_some_iff]

theorem ch_nCases {x : Choices.Args} {ids codes : List Int} (hi : CaseSet x ids) (ha : AltSet x codes) (other : Nat) :
    Choices.nCases x codes.length other = ids.length := by
  unfold Choices.nCases
  cases hco : x.co with
  | some f => simp only []; rw [← (hi.co f hco).length_eq, List.length_map]
  | none =>
    have hsome : x.alts ≠ none := by rcases hi.some with h | h; exact absurd hco h; exact h
    obtain ⟨t, ht⟩ := Option.ne_none_iff_exists'.mp hsome
    obtain ⟨h1, h2, h3⟩ := hi.alts t ht
    cases hb : isIdce t.mf with
    | false =>
      have : ca x = some t := ch_ca.mpr ⟨ht, hb⟩
      rw [this]
      simp only []
      rw [ch_full_length h1 h2 hb h3, ha.alts t ht, Nat.mul_div_cancel]
      rw [← ha.alts t ht]
      exact List.length_pos_of_ne_nil h3
    | true =>
      have hn : ca x = none := by
        cases h : ca x with
        | none => rfl
        | some t' => obtain ⟨e1, e2⟩ := ch_ca.mp h; rw [ht] at e1; cases e1; rw [hb] at e2; cases e2
      have he : ceSet x = some (setCe t.mf) := by unfold ceSet; rw [ch_ce.mpr ⟨ht, hb⟩]; rfl
      rw [hn, he]
      simp only []
      obtain ⟨r1, _, _⟩ := regular_setCe h1
      exact ceCases_eq r1.lev0 (fun r hr => (r1.rows r hr).1) h2.sorted (casesOf_setCe h1 h2).mem

theorem ch_known {x : Choices.Args} {codes : List Int} (ha : AltSet x codes) : knownCodes x = some (some codes) := by
  unfold knownCodes
  cases hc : x.codes with
  | none =>
    cases ht : x.alts with
    | none => rcases ha.some with h | h; exact absurd hc h; exact absurd ht h
    | some t => simp only []; rw [ha.alts t ht]
  | some c =>
    have : c = codes := by rcases ha.given with h | h; rw [hc] at h; cases h; rw [hc] at h; cases h; rfl
    subst this
    cases ht : x.alts with
    | none => rfl
    | some t => simp only []; rw [ha.alts t ht]; simp

theorem ch_oneHot_getD {codes : List Int} {v a : Int} (ha : a ∈ codes) : (oneHot codes v).getD (codes.idxOf a) 0 = if v = a then 1 else 0 := by
  have hlt := List.idxOf_lt_length_of_mem ha
  unfold oneHot
  rw [List.getD_eq_getElem?_getD, List.getElem?_map, List.getElem?_eq_getElem hlt, List.getElem_idxOf]
  simp [eq_comm]

theorem ch_uniq_mem {l : List Int} {c : Int} : c ∈ uniq l ↔ c ∈ l := by
  unfold uniq; rw [List.mem_insertionSort, List.mem_dedup]

theorem ch_uniq_sorted (l : List Int) : (uniq l).Pairwise (· < ·) := by
  have h1 : (uniq l).Pairwise (· ≤ ·) := List.pairwise_insertionSort _ _
  have h2 : (uniq l).Nodup := (List.perm_insertionSort _ _).nodup_iff.mpr (List.nodup_dedup l)
  exact (h1.and h2).imp (fun h => lt_of_le_of_ne h.1 h.2)

/-- **C135 (a column of codes).** Choices given by the name of a column of codes in the idco frame: in every case the alternative with its code has
choice 1 and the others 0, whatever the order of the cases in the frame. -/
theorem C135_code_column (x : Choices.Args) (ids codes : List Int) (hi : CaseSet x ids) (ha : AltSet x codes) (s : String) (hx : x.ch = .named s)
    (f : Tab1) (hf : x.co = some f) (hs : s ∈ f.names) (hno : ∀ t, x.alts = some t → s ∉ t.names) (g : Int → Int → Int)
    (hg : ∀ r ∈ f.rows, ∀ a, g r.1 a = if r.2 s = a then 1 else 0) : Holds (choices x) ids codes g := by
  have h1 : encode x = some .nothing := by unfold encode; rw [hx]
  have h2 : fromAlts x .nothing = some .nothing := by
    unfold fromAlts
    simp only [hx]
    cases ht : x.alts with
    | none => rfl
    | some t => simp [hno t ht]
  have h3 : fromCo x (some codes) .nothing = (.table ⟨codes, f.rows.map (fun r => (r.1, oneHot codes (r.2 s)))⟩, some codes) := by
    unfold fromCo
    simp [hx, hf, hs]
  unfold choices
  rw [h1, Option.bind_some, h2, Option.bind_some, ch_known ha, Option.bind_some, h3]
  refine ch_set x hi.sorted ha.sorted _ ha.sorted (fun c hc => hc) ?_ ?_ (ch_nCases hi ha _) g ?_
  · simpa [List.map_map, Function.comp_def] using hi.co f hf
  · intro r hr
    obtain ⟨q, _, rfl⟩ := List.mem_map.mp hr
    simp [oneHot]
  · intro r hr a hac
    obtain ⟨q, hq, rfl⟩ := List.mem_map.mp hr
    show g q.1 a = _
    rw [hg q hq a, if_pos hac, ch_oneHot_getD hac]

/-- **C135 (a Series of codes).** Choices given as a Series of codes with the case ids as index, in any order: as for a column of codes.  Alternatives
that are never chosen are included. -/
theorem C135_code_series (x : Choices.Args) (ids codes : List Int) (hi : CaseSet x ids) (ha : AltSet x codes) (f : Co Int) (hx : x.ch = .series f)
    (hids : (f.map Prod.fst).Perm ids) (hne : ids ≠ []) (hcodes : ∀ r ∈ f, r.2 ∈ codes) (hdata : x.co ≠ none ∨ ca x ≠ none)
    (g : Int → Int → Int) (hg : ∀ r ∈ f, ∀ a, g r.1 a = if r.2 = a then 1 else 0) : Holds (choices x) ids codes g := by
  have hlen : f.length = ids.length := by rw [← hids.length_eq, List.length_map]
  have hfne : f ≠ [] := by rintro rfl; exact hne (List.length_eq_zero_iff.mp hlen.symm)
  have hcl : caseLong x f.length = true := by
    unfold caseLong
    cases hco : x.co with
    | some c => simp only []; rw [hlen, ← (hi.co c hco).length_eq, List.length_map]; simp
    | none =>
      rcases hdata with h | h
      · exact absurd hco h
      · obtain ⟨t, ht⟩ := Option.ne_none_iff_exists'.mp h
        rw [ht]
        obtain ⟨e1, e2⟩ := ch_ca.mp ht
        obtain ⟨r1, r2, r3⟩ := hi.alts t e1
        simp only []
        rw [hlen, ch_full_length r1 r2 e2 r3]
        simp
  have h1 : encode x = some (.table ⟨uniq (f.map Prod.snd), f.map (fun p => (p.1, oneHot (uniq (f.map Prod.snd)) p.2))⟩) := by
    unfold encode
    rw [hx]
    simp only [hcl, Bool.true_and]
    rw [if_pos]
    simpa using hfne
  unfold choices
  rw [h1, Option.bind_some]
  show Holds ((knownCodes x).bind _) _ _ _
  rw [ch_known ha, Option.bind_some]
  refine ch_set x hi.sorted ha.sorted _ (ch_uniq_sorted _) (fun c hc => ?_) ?_ ?_ (ch_nCases hi ha _) g ?_
  · obtain ⟨r, hr, rfl⟩ := List.mem_map.mp (ch_uniq_mem.mp hc)
    exact hcodes r hr
  · simpa [List.map_map, Function.comp_def] using hids
  · intro r hr
    obtain ⟨q, _, rfl⟩ := List.mem_map.mp hr
    simp [oneHot]
  · intro r hr a hac
    obtain ⟨q, hq, rfl⟩ := List.mem_map.mp hr
    show g q.1 a = _
    rw [hg q hq a]
    split_ifs with h1 h2 h2
    · rw [ch_oneHot_getD h2, if_pos h1]
    · exact absurd (ch_uniq_mem.mpr (List.mem_map.mpr ⟨q, hq, h1⟩)) h2
    · rw [ch_oneHot_getD h2, if_neg h1]
    · rfl

/-- `unstack` of rows that are not repeated. -/
theorem ch_unstack {rows : List ((Int × Int) × Int)} (hnd : (rows.map Prod.fst).Nodup) {ids : List Int} (hs : ids.Pairwise (· < ·))
    (hm : ∀ c, c ∈ ids ↔ ∃ r ∈ rows, r.1.1 = c) (g : Int → Int → Int) (hg : ∀ r ∈ rows, g r.1.1 r.1.2 = r.2) :
    ∃ t, unstack rows = some t ∧ t.cols.Pairwise (· < ·) ∧ (∀ a, a ∈ t.cols ↔ ∃ r ∈ rows, r.1.2 = a) ∧ t.rows.map Prod.fst = ids ∧
      (∀ r ∈ t.rows, r.2.length = t.cols.length) ∧
      ∀ r ∈ t.rows, ∀ a ∈ t.cols, (∃ v, ((r.1, a), v) ∈ rows) ∧ r.2.getD (t.cols.idxOf a) 0 = g r.1 a ∨
        (¬ ∃ v, ((r.1, a), v) ∈ rows) ∧ r.2.getD (t.cols.idxOf a) 0 = 0 := by
  have hcases : ((rows.map (fun r => r.1.1)).dedup.insertionSort (· ≤ ·)) = ids := by
    refine sorted_dedup_eq hs (fun c => ?_)
    rw [hm, List.mem_map]
  refine ⟨⟨uniq (rows.map (fun r => r.1.2)), ids.map (fun c => (c, (uniq (rows.map (fun r => r.1.2))).map (fun b => (rows.lookup (c, b)).getD 0)))⟩,
    ?_, ch_uniq_sorted _, fun a => ?_, ?_, ?_, ?_⟩
  · unfold unstack pivot
    rw [if_pos hnd]
    simp only [hcases, Option.map_some]
    rfl
  · rw [ch_uniq_mem, List.mem_map]
  · simp [List.map_map, Function.comp_def]
  · intro r hr
    obtain ⟨q, _, rfl⟩ := List.mem_map.mp hr
    simp
  · intro r hr a ha
    obtain ⟨c, hc, rfl⟩ := List.mem_map.mp hr
    have hlt := List.idxOf_lt_length_of_mem ha
    have hget : ((uniq (rows.map (fun r => r.1.2))).map (fun b => (rows.lookup (c, b)).getD 0)).getD
        ((uniq (rows.map (fun r => r.1.2))).idxOf a) 0 = (rows.lookup (c, a)).getD 0 := by
      rw [List.getD_eq_getElem?_getD, List.getElem?_map, List.getElem?_eq_getElem hlt, List.getElem_idxOf]
      rfl
    show (∃ v, ((c, a), v) ∈ rows) ∧ List.getD (List.map _ _) _ 0 = g c a ∨ (¬ ∃ v, ((c, a), v) ∈ rows) ∧ List.getD (List.map _ _) _ 0 = 0
    rw [hget]
    by_cases h : ∃ v, ((c, a), v) ∈ rows
    · obtain ⟨v, hv⟩ := h
      left
      refine ⟨⟨v, hv⟩, ?_⟩
      rw [lookup_of_mem hnd hv]
      exact (hg _ hv).symm
    · right
      refine ⟨h, ?_⟩
      rw [lookup_none_of]
      · rfl
      · intro hmem
        obtain ⟨⟨e, v⟩, hr, he⟩ := List.mem_map.mp hmem
        cases he
        exact h ⟨v, hr⟩

/-- Unstacked rows, set as choices. -/
theorem ch_set_unstack (x : Choices.Args) {ids codes : List Int} (hi : CaseSet x ids) (ha : AltSet x codes) {rows : List ((Int × Int) × Int)}
    (hnd : (rows.map Prod.fst).Nodup) (hm : ∀ c, c ∈ ids ↔ ∃ r ∈ rows, r.1.1 = c) (hc : ∀ r ∈ rows, r.1.2 ∈ codes) (g : Int → Int → Int)
    (hg : ∀ r ∈ rows, g r.1.1 r.1.2 = r.2) (h0 : ∀ i ∈ ids, ∀ a ∈ codes, (¬ ∃ v, ((i, a), v) ∈ rows) → g i a = 0) :
    Holds (((unstack rows).bind (setCh x (some codes))).map some) ids codes g := by
  obtain ⟨t, ht, hcols, hmem, hfst, hw, hcell⟩ := ch_unstack hnd hi.sorted hm g hg
  rw [ht, Option.bind_some]
  refine ch_set x hi.sorted ha.sorted t hcols (fun c hc' => ?_) (by rw [hfst]) hw (ch_nCases hi ha _) g (fun r hr a hac => ?_)
  · obtain ⟨r, hr, rfl⟩ := (hmem c).mp hc'
    exact hc r hr
  · have hri : r.1 ∈ ids := hfst ▸ List.mem_map.mpr ⟨r, hr, rfl⟩
    split_ifs with h
    · rcases hcell r hr a h with ⟨_, e⟩ | ⟨hn, e⟩
      · exact e.symm
      · rw [e, h0 r.1 hri a hac hn]
    · exact h0 r.1 hri a hac (fun ⟨v, hv⟩ => h ((hmem a).mpr ⟨_, hv, rfl⟩))

/-- **C135 (a column of the alternatives).** Choices given by the name of a column of the frame of alternatives, in idca or idce format: the value of
the row of the case and the alternative, and 0 where there is no row. -/
theorem C135_alternatives_column (x : Choices.Args) (ids codes : List Int) (hi : CaseSet x ids) (ha : AltSet x codes) (s : String)
    (hx : x.ch = .named s) (t : Tab2) (ht : x.alts = some t) (hs : s ∈ t.names) (g : Int → Int → Int)
    (hg : ∀ r ∈ t.mf.rows, g r.1.1 r.1.2 = r.2 s)
    (h0 : ∀ i ∈ ids, ∀ a ∈ codes, (∀ r ∈ t.mf.rows, r.1 ≠ (i, a)) → g i a = 0) : Holds (choices x) ids codes g := by
  obtain ⟨r1, r2, r3⟩ := hi.alts t ht
  have h1 : encode x = some .nothing := by unfold encode; rw [hx]
  have h2 : fromAlts x .nothing = (unstack (column2 t s)).map .table := by
    unfold fromAlts
    simp only [hx, ht]
    rw [if_pos]
    simpa using hs
  have hfst : (column2 t s).map Prod.fst = t.mf.rows.map Prod.fst := by simp [column2, List.map_map, Function.comp_def]
  have hmain := ch_set_unstack x hi ha (rows := column2 t s) (by rw [hfst]; exact r1.nodup) (fun c => by
      rw [r2.mem]
      constructor
      · rintro ⟨r, hr, rfl⟩; exact ⟨(r.1, r.2 s), List.mem_map.mpr ⟨r, hr, rfl⟩, rfl⟩
      · rintro ⟨r, hr, rfl⟩; obtain ⟨q, hq, rfl⟩ := List.mem_map.mp hr; exact ⟨q, hq, rfl⟩)
    (fun r hr => by
      obtain ⟨q, hq, rfl⟩ := List.mem_map.mp hr
      rw [← ha.alts t ht]
      exact (r1.rows q hq).2) g
    (fun r hr => by obtain ⟨q, hq, rfl⟩ := List.mem_map.mp hr; exact hg q hq)
    (fun i hi' a hac hn => h0 i hi' a hac (fun r hr he => hn ⟨r.2 s, List.mem_map.mpr ⟨r, hr, by rw [he]⟩⟩))
  unfold choices
  rw [h1, Option.bind_some, h2]
  cases hu : unstack (column2 t s) with
  | none =>
    rw [hu] at hmain
    obtain ⟨t', h, _⟩ := hmain
    simp at h
  | some u =>
    rw [hu, Option.bind_some] at hmain
    rw [Option.map_some, Option.bind_some, ch_known ha, Option.bind_some]
    exact hmain

theorem ch_mfIds {α : Type} {f : MF α} (hf : Regular f) {ids : List Int} (hids : CasesOf f ids) : mfIds f = ids := by
  have hcode : ∀ r ∈ f.rows, f.lev0[code0 f r.1.1]? = some r.1.1 := fun r hr => by
    unfold code0
    rw [List.getElem?_eq_getElem (List.idxOf_lt_length_of_mem (hf.rows r hr).1), List.getElem_idxOf]
  have hmem : ∀ c, c ∈ mfIds f ↔ c ∈ ids := by
    intro c
    unfold mfIds usedCodes
    rw [List.mem_filterMap, hids.mem]
    constructor
    · rintro ⟨k, hk, hc⟩
      rw [List.mem_insertionSort, List.mem_dedup, List.mem_map] at hk
      obtain ⟨r, hr, rfl⟩ := hk
      rw [hcode r hr] at hc
      exact ⟨r, hr, Option.some.inj hc⟩
    · rintro ⟨r, hr, rfl⟩
      refine ⟨code0 f r.1.1, ?_, hcode r hr⟩
      rw [List.mem_insertionSort, List.mem_dedup, List.mem_map]
      exact ⟨r, hr, rfl⟩
  have hsort : (mfIds f).Pairwise (· < ·) := by
    unfold mfIds
    rw [List.pairwise_filterMap]
    have h1 : ((usedCodes f).insertionSort (· ≤ ·)).Pairwise (· ≤ ·) := List.pairwise_insertionSort _ _
    have h2 : ((usedCodes f).insertionSort (· ≤ ·)).Nodup := (List.perm_insertionSort _ _).nodup_iff.mpr (List.nodup_dedup _)
    refine (h1.and h2).imp (fun {a b} h x hx y hy => ?_)
    obtain ⟨ha, rfl⟩ := List.getElem?_eq_some_iff.mp hx
    obtain ⟨hb, rfl⟩ := List.getElem?_eq_some_iff.mp hy
    exact List.pairwise_iff_getElem.mp hf.lev0 a b ha hb (lt_of_le_of_ne h.1 h.2)
  have hp : (mfIds f).Perm ids := by
    rw [List.perm_ext_iff_of_nodup (hsort.imp (fun h => ne_of_lt h)) (hids.sorted.imp (fun h => ne_of_lt h))]
    exact hmem
  exact hp.eq_of_pairwise (fun a b _ _ h1 h2 => le_antisymm h1 h2) (hsort.imp (fun h => le_of_lt h)) (hids.sorted.imp (fun h => le_of_lt h))

theorem ch_coIds {x : Choices.Args} {ids : List Int} (hi : CaseSet x ids) {f : Tab1} (hf : x.co = some f) : coIds x = some ids := by
  unfold coIds
  rw [hf, Option.map_some, ch_sorted_rows hi.sorted (hi.co f hf)]

theorem ch_baseIds {x : Choices.Args} {ids : List Int} (hi : CaseSet x ids) : baseIds x = ids := by
  unfold baseIds
  cases hco : x.co with
  | some f => rw [ch_coIds hi hco]
  | none =>
    have hci : coIds x = none := by unfold coIds; rw [hco]; rfl
    have hsome : x.alts ≠ none := by rcases hi.some with h | h; exact absurd hco h; exact h
    obtain ⟨t, ht⟩ := Option.ne_none_iff_exists'.mp hsome
    obtain ⟨h1, h2, h3⟩ := hi.alts t ht
    rw [hci]
    cases hb : isIdce t.mf with
    | false => rw [ch_ca.mpr ⟨ht, hb⟩]; exact ch_mfIds h1 h2
    | true =>
      have hn : ca x = none := by
        cases h : ca x with
        | none => rfl
        | some t' => obtain ⟨e1, e2⟩ := ch_ca.mp h; rw [ht] at e1; cases e1; rw [hb] at e2; cases e2
      have he : ceSet x = some (setCe t.mf) := by unfold ceSet; rw [ch_ce.mpr ⟨ht, hb⟩]; rfl
      rw [hn, he]
      exact ch_mfIds (regular_setCe h1).1 (casesOf_setCe h1 h2)

/-- The same codes and the same levels: the same labels. -/
theorem ch_sameIndex {α β : Type} {f : MF α} {g : MF β} (hf : Regular f) (hg : Regular g) (h : sameIndex f g = true) :
    f.rows.map Prod.fst = g.rows.map Prod.fst := by
  unfold sameIndex at h
  simp only [Bool.and_eq_true, beq_iff_eq] at h
  obtain ⟨⟨h1, h2⟩, h3⟩ := h
  have key : ∀ {γ : Type} (u : MF γ), Regular u → u.rows.map Prod.fst =
      (u.rows.map (fun r => (code0 u r.1.1, code1 u r.1.2))).map (fun p => (u.lev0.getD p.1 0, u.lev1.getD p.2 0)) := by
    intro γ u hu
    rw [List.map_map]
    refine List.map_congr_left (fun r hr => ?_)
    have e0 := List.idxOf_lt_length_of_mem (hu.rows r hr).1
    have e1 := List.idxOf_lt_length_of_mem (hu.rows r hr).2
    simp only [Function.comp, code0, code1]
    rw [List.getD_eq_getElem?_getD, List.getElem?_eq_getElem e0, List.getElem_idxOf, List.getD_eq_getElem?_getD, List.getElem?_eq_getElem e1,
      List.getElem_idxOf]
    rfl
  rw [key f hf, key g hg, h1, h2, h3]

/-- Values of complete rows, reshaped. -/
theorem ch_chunks {ids codes : List Int} (hs : ids.Pairwise (· < ·)) {rows : List ((Int × Int) × Int)}
    (hl : rows.map Prod.fst = ids ×ˢ codes) (g : Int → Int → Int) (hg : ∀ r ∈ rows, g r.1.1 r.1.2 = r.2) :
    ∃ c, chunks ids codes.length (rows.map Prod.snd) = some c ∧ c.map Prod.fst = ids ∧ (∀ r ∈ c, r.2.length = codes.length) ∧
      ∀ r ∈ c, ∀ (p : Nat) a, codes[p]? = some a → r.2[p]? = some (g r.1 a) := by
  have hlen : (rows.map Prod.snd).length = ids.length * codes.length := by
    have := congrArg List.length hl
    rw [List.length_map, List.length_product] at this
    rw [List.length_map, this]
  refine ⟨_, if_pos hlen, ?_, ?_, ?_⟩
  · rw [List.map_map]
    have : (Prod.fst ∘ fun p : Int × Nat => (p.1, (List.range codes.length).map (fun a => (rows.map Prod.snd).getD (p.2 * codes.length + a) 0))) =
        Prod.fst := rfl
    rw [this]
    simp
  · intro r hr
    obtain ⟨q, _, rfl⟩ := List.mem_map.mp hr
    simp
  · intro r hr p a hp
    obtain ⟨⟨i, j⟩, hq, rfl⟩ := List.mem_map.mp hr
    have hj : ids[j]? = some i := by
      rw [List.mem_zipIdx_iff_getElem?] at hq
      exact hq
    have hpl := (List.getElem?_eq_some_iff.mp hp).1
    have hpr := product_getElem hj hp
    rw [← hl, List.getElem?_map, Option.map_eq_some_iff] at hpr
    obtain ⟨r, hr', he⟩ := hpr
    show ((List.range codes.length).map (fun a => (rows.map Prod.snd).getD (j * codes.length + a) 0))[p]? = some (g i a)
    rw [List.getElem?_map, List.getElem?_range hpl, Option.map_some, List.getD_eq_getElem?_getD, List.getElem?_map, hr']
    have := hg r (List.mem_of_getElem? hr')
    rw [he] at this
    simp [this]

theorem ch_tall (x : Choices.Args) (ids codes : List Int) (hi : CaseSet x ids) (ha : AltSet x codes) (f : MF Int)
    (hf : Regular f) (hids : CasesOf f ids) (hcodes : ∀ r ∈ f.rows, r.1.2 ∈ codes)
    (g : Int → Int → Int) (hg : ∀ r ∈ f.rows, g r.1.1 r.1.2 = r.2)
    (h0 : ∀ i ∈ ids, ∀ a ∈ codes, (∀ r ∈ f.rows, r.1 ≠ (i, a)) → g i a = 0) :
    Holds (((unstackTall x (some codes) f).bind (setCh x (some codes))).map some) ids codes g := by
  unfold unstackTall
  split_ifs with hfast
  · cases hca : ca x with
    | none => rw [hca] at hfast; cases hfast
    | some t =>
      rw [hca] at hfast
      obtain ⟨e1, e2⟩ := ch_ca.mp hca
      obtain ⟨r1, r2, r3⟩ := hi.alts t e1
      have hl : f.rows.map Prod.fst = ids ×ˢ codes := by
        rw [← ch_sameIndex r1 hf hfast, full_labels r1.lev0 r1.lev1 r1.rows r1.nodup e2, ← ch_lev0 r1 r2 e2 r3, ha.alts t e1]
      obtain ⟨c, hc, hfst, hw, hcell⟩ := ch_chunks hi.sorted hl g hg
      rw [ch_baseIds hi]
      simp only [Option.getD_some]
      rw [hc, Option.map_some, Option.bind_some]
      refine ch_set x hi.sorted ha.sorted _ ha.sorted (fun c hc => hc) (by rw [hfst]) hw (ch_nCases hi ha _) g (fun r hr a hac => ?_)
      rw [if_pos hac]
      obtain ⟨p, hp⟩ := List.mem_iff_getElem?.mp hac
      rw [ch_idxOf ha.sorted hp, List.getD_eq_getElem?_getD, hcell r hr p a hp]
      rfl
  · exact ch_set_unstack x hi ha hf.nodup hids.mem hcodes g hg
      (fun i hi' a hac hn => h0 i hi' a hac (fun r hr he => hn ⟨r.2, by rw [← he]; exact hr⟩))

/-- **C135 (a Series with one row per alternative).** Choices given as a Series with a two-level index, in any order and also with rows missing: the
value of the row of the case and the alternative, and 0 where there is no row; provided that the Series is not as long as the list of cases. -/
theorem C135_tall (x : Choices.Args) (ids codes : List Int) (hi : CaseSet x ids) (ha : AltSet x codes) (f : MF Int) (hx : x.ch = .tall f)
    (hf : Regular f) (hids : CasesOf f ids) (hcodes : ∀ r ∈ f.rows, r.1.2 ∈ codes) (hlong : f.rows.length ≠ ids.length)
    (g : Int → Int → Int) (hg : ∀ r ∈ f.rows, g r.1.1 r.1.2 = r.2)
    (h0 : ∀ i ∈ ids, ∀ a ∈ codes, (∀ r ∈ f.rows, r.1 ≠ (i, a)) → g i a = 0) : Holds (choices x) ids codes g := by
  have hcl : caseLong x f.rows.length = false := by
    unfold caseLong
    cases hco : x.co with
    | some c => simp only []; rw [beq_eq_false_iff_ne, ← List.length_map (as := c.rows) (f := Prod.fst), (hi.co c hco).length_eq]; exact hlong
    | none =>
      cases hca : ca x with
      | some t =>
        obtain ⟨e1, e2⟩ := ch_ca.mp hca
        obtain ⟨r1, r2, r3⟩ := hi.alts t e1
        simp only []
        rw [beq_eq_false_iff_ne, ch_full_length r1 r2 e2 r3]
        intro h
        exact hlong (Nat.eq_of_mul_eq_mul_right (List.length_pos_of_ne_nil r3) h)
      | none =>
        simp only [beq_eq_false_iff_ne]
        intro h
        have hr := List.length_eq_zero_iff.mp h
        apply hlong
        have : ids = [] := by
          rw [List.eq_nil_iff_forall_not_mem]
          intro c hc
          obtain ⟨r, hr', _⟩ := (hids.mem c).mp hc
          rw [hr] at hr'; cases hr'
        rw [this, h]; rfl
  have h1 : encode x = some (.tall f) := by
    unfold encode
    rw [hx]
    simp [hcl]
  unfold choices
  rw [h1, Option.bind_some]
  show Holds ((knownCodes x).bind _) _ _ _
  rw [ch_known ha, Option.bind_some]
  exact ch_tall x ids codes hi ha f hf hids hcodes g hg h0

/-- **C135 (a frame with one column per alternative).** Choices given as a frame with the alternatives, or some of them, in increasing order as
columns, and the cases as rows in any order: the value of the cell, and 0 for alternatives without a column. -/
theorem C135_wide (x : Choices.Args) (ids codes : List Int) (hi : CaseSet x ids) (ha : AltSet x codes) (t : Table) (hx : x.ch = .wide t)
    (hcols : t.cols.Pairwise (· < ·)) (hsub : ∀ c ∈ t.cols, c ∈ codes) (hids : (t.rows.map Prod.fst).Perm ids)
    (hw : ∀ r ∈ t.rows, r.2.length = t.cols.length) (g : Int → Int → Int)
    (hg : ∀ r ∈ t.rows, ∀ (p : Nat) a, t.cols[p]? = some a → r.2[p]? = some (g r.1 a))
    (h0 : ∀ i ∈ ids, ∀ a, a ∉ t.cols → g i a = 0) : Holds (choices x) ids codes g := by
  have h1 : encode x = some (.table t) := by unfold encode; rw [hx]
  unfold choices
  rw [h1, Option.bind_some]
  show Holds ((knownCodes x).bind _) _ _ _
  rw [ch_known ha, Option.bind_some]
  refine ch_set x hi.sorted ha.sorted t hcols hsub hids hw (ch_nCases hi ha _) g (fun r hr a hac => ?_)
  have hri : r.1 ∈ ids := hids.mem_iff.mp (List.mem_map.mpr ⟨r, hr, rfl⟩)
  split_ifs with h
  · obtain ⟨p, hp⟩ := List.mem_iff_getElem?.mp h
    rw [ch_idxOf hcols hp, List.getD_eq_getElem?_getD, hg r hr p a hp]
    rfl
  · exact h0 _ hri a h

/-- **C135 (values for the rows).** Choices given as values for the rows of the frame of alternatives (`ch_as_ce`), if this frame has rows missing. -/
theorem C135_rows_partial (x : Choices.Args) (ids codes : List Int) (hi : CaseSet x ids) (ha : AltSet x codes) (v : List Int)
    (hx : x.ch = .onRows v) (t : Tab2) (ht : x.alts = some t) (hv : v.length = t.mf.rows.length)
    (hmiss : t.mf.rows.length < t.mf.lev0.length * t.mf.lev1.length) (g : Int → Int → Int)
    (hg : ∀ (k : Nat) r, t.mf.rows[k]? = some r → v[k]? = some (g r.1.1 r.1.2))
    (h0 : ∀ i ∈ ids, ∀ a ∈ codes, (∀ r ∈ t.mf.rows, r.1 ≠ (i, a)) → g i a = 0) : Holds (choices x) ids codes g := by
  obtain ⟨r1, r2, r3⟩ := hi.alts t ht
  have h1 : encode x = some .nothing := by unfold encode; rw [hx]
  have hce : ce x = some t := ch_ce.mpr ⟨ht, by unfold isIdce; simp [hmiss]⟩
  have h2 : fromAlts x .nothing = (unstack ((t.mf.rows.map Prod.fst).zip v)).map .table := by
    unfold fromAlts
    simp only [hx, hce, hv, if_true]
  have hfst : (((t.mf.rows.map Prod.fst).zip v)).map Prod.fst = t.mf.rows.map Prod.fst := by
    rw [List.map_fst_zip]; simp [hv]
  have hrow : ∀ r ∈ (t.mf.rows.map Prod.fst).zip v, r.1 ∈ t.mf.rows.map Prod.fst ∧ g r.1.1 r.1.2 = r.2 := by
    intro r hr
    obtain ⟨k, hk⟩ := List.mem_iff_getElem?.mp hr
    rw [List.getElem?_zip_eq_some] at hk
    obtain ⟨hk1, hk2⟩ := hk
    rw [List.getElem?_map, Option.map_eq_some_iff] at hk1
    obtain ⟨q, hq, he⟩ := hk1
    refine ⟨List.mem_map.mpr ⟨q, List.mem_of_getElem? hq, he⟩, ?_⟩
    have := hg k q hq
    rw [hk2, he] at this
    exact (Option.some.inj this).symm
  have hback : ∀ e ∈ t.mf.rows.map Prod.fst, ∃ w, (e, w) ∈ (t.mf.rows.map Prod.fst).zip v := by
    intro e he
    rw [← hfst] at he
    obtain ⟨r, hr, rfl⟩ := List.mem_map.mp he
    exact ⟨r.2, hr⟩
  have hmain := ch_set_unstack x hi ha (rows := (t.mf.rows.map Prod.fst).zip v) (by rw [hfst]; exact r1.nodup) (fun c => by
      rw [r2.mem]
      constructor
      · rintro ⟨r, hr, rfl⟩
        obtain ⟨w, hw⟩ := hback r.1 (List.mem_map.mpr ⟨r, hr, rfl⟩)
        exact ⟨_, hw, rfl⟩
      · rintro ⟨r, hr, rfl⟩
        obtain ⟨q, hq, he⟩ := List.mem_map.mp (hrow r hr).1
        exact ⟨q, hq, by rw [he]⟩)
    (fun r hr => by
      obtain ⟨q, hq, he⟩ := List.mem_map.mp (hrow r hr).1
      rw [← ha.alts t ht, ← he]
      exact (r1.rows q hq).2) g
    (fun r hr => (hrow r hr).2)
    (fun i hi' a hac hn => h0 i hi' a hac (fun r hr he => hn (by
      obtain ⟨w, hw⟩ := hback r.1 (List.mem_map.mpr ⟨r, hr, rfl⟩)
      exact ⟨w, by rw [← he]; exact hw⟩)))
  unfold choices
  rw [h1, Option.bind_some, h2]
  cases hu : unstack ((t.mf.rows.map Prod.fst).zip v) with
  | none =>
    rw [hu] at hmain
    obtain ⟨t', h, _⟩ := hmain
    simp at h
  | some u =>
    rw [hu, Option.bind_some] at hmain
    rw [Option.map_some, Option.bind_some, ch_known ha, Option.bind_some]
    exact hmain

theorem ch_lookup {α : Type} {l : Co α} (hnd : (l.map Prod.fst).Nodup) {r : Int × α} (hr : r ∈ l) : l.lookup r.1 = some r.2 := by
  induction l with
  | nil => cases hr
  | cons y l ih =>
    rw [List.map_cons, List.nodup_cons] at hnd
    rw [List.lookup_cons]
    rcases List.mem_cons.mp hr with rfl | h
    · simp
    · have : r.1 ≠ y.1 := fun e => hnd.1 (e ▸ List.mem_map.mpr ⟨r, h, rfl⟩)
      have hb : (r.1 == y.1) = false := by simpa using this
      rw [hb]
      exact ih hnd.2 h

/-- **C135 (alternatives not named).** If nothing says what the alternatives are, they are the codes that occur in the column, in increasing order. -/
theorem C135_observed (x : Choices.Args) (s : String) (hx : x.ch = .named s) (hc : x.codes = none) (hal : x.alts = none) (f : Tab1)
    (hf : x.co = some f) (hs : s ∈ f.names) (hnd : (f.rows.map Prod.fst).Nodup) :
    ∃ codes : List Int, codes.Pairwise (· < ·) ∧ (∀ a, a ∈ codes ↔ ∃ r ∈ f.rows, r.2 s = a) ∧ altCodes x = some codes ∧
      ∃ ids : List Int, ids.Pairwise (· < ·) ∧ ids.Perm (f.rows.map Prod.fst) ∧
        ∀ g : Int → Int → Int, (∀ r ∈ f.rows, ∀ a, g r.1 a = if r.2 s = a then 1 else 0) → Holds (choices x) ids codes g := by
  have hperm := (setSorted_perm f.rows).map Prod.fst
  have hs' : ((setSorted f.rows).map Prod.fst).Pairwise (· < ·) :=
    ((setSorted_sorted f.rows).and ((hperm.nodup_iff).mpr hnd)).imp (fun h => lt_of_le_of_ne h.1 h.2)
  have h1 : encode x = some .nothing := by unfold encode; rw [hx]
  have h2 : fromAlts x .nothing = some .nothing := by unfold fromAlts; simp only [hx, hal]
  have hk : knownCodes x = some none := by unfold knownCodes; rw [hc, hal]
  have h3 : fromCo x none .nothing = (.table ⟨uniq (f.rows.map (fun r => r.2 s)), f.rows.map (fun r => (r.1, oneHot (uniq (f.rows.map (fun r => r.2 s))) (r.2 s)))⟩,
      some (uniq (f.rows.map (fun r => r.2 s)))) := by
    unfold fromCo
    simp [hx, hf, hs]
  have hhold : ∀ g : Int → Int → Int, (∀ r ∈ f.rows, ∀ a, g r.1 a = if r.2 s = a then 1 else 0) →
      Holds (choices x) ((setSorted f.rows).map Prod.fst) (uniq (f.rows.map (fun r => r.2 s))) g := by
    intro g hg
    unfold choices
    rw [h1, Option.bind_some, h2, Option.bind_some, hk, Option.bind_some, h3]
    refine ch_set x hs' (ch_uniq_sorted _) _ (ch_uniq_sorted _) (fun c hc => hc) ?_ ?_ ?_ g ?_
    · simpa [List.map_map, Function.comp_def] using hperm.symm
    · intro r hr
      obtain ⟨q, _, rfl⟩ := List.mem_map.mp hr
      simp [oneHot]
    · unfold Choices.nCases
      simp [hf, length_setSorted]
    · intro r hr a hac
      obtain ⟨q, hq, rfl⟩ := List.mem_map.mp hr
      show g q.1 a = _
      rw [hg q hq a, if_pos hac, ch_oneHot_getD hac]
  refine ⟨uniq (f.rows.map (fun r => r.2 s)), ch_uniq_sorted _, fun a => ?_, ?_, (setSorted f.rows).map Prod.fst, hs', hperm, hhold⟩
  · rw [ch_uniq_mem, List.mem_map]
  · obtain ⟨t, ht, hcols, _⟩ := hhold (fun i a => if ((f.rows.lookup i).map (fun r => r s)) = some a then 1 else 0) (fun r hr a => by
      have : f.rows.lookup r.1 = some r.2 := ch_lookup hnd hr
      simp [this])
    unfold altCodes
    rw [ht, Option.bind_some, hk, Option.map_some]
    simp [hcols]

/-! ## What goes wrong -/

/-- An idco frame with a column `mode`, cases 7 and 3 in this order. -/
def twoTrips : Tab1 := ⟨["mode"], [(7, fun _ => 1), (3, fun _ => 2)]⟩

/-- **C135 fails (unknown codes).** A code that is not among the alternatives is dropped without a word: the case has no choice. -/
theorem C135_fails_unknown_code :
    choices { codes := some [1, 2], co := some ⟨["mode"], [(3, fun _ => 2), (7, fun _ => 9)]⟩, ch := .named "mode" } =
      some (some ⟨[1, 2], [(3, [0, 1]), (7, [0, 0])]⟩) := by decide +kernel

/-- **C135 fails (an array).** A plain array of codes in the order of the rows of an idco frame that is not sorted: the frame is sorted and the array is
not, so that case 3, first in the container, gets the choice of case 7. -/
theorem C135_fails_array : coIds { codes := some [1, 2], co := some twoTrips, ch := .array [1, 2] } = some [3, 7] ∧
    choices { codes := some [1, 2], co := some twoTrips, ch := .array [1, 2] } = some (some ⟨[1, 2], [(0, [1, 0]), (1, [0, 1])]⟩) := by
  decide +kernel

/-- **C135 fails (one row per case).** A Series with a two-level index that has one row per case (only the chosen alternatives, with their
quantities): the values are taken for codes, and case 3, which chose two units of alternative 3, is said to have chosen alternative 2. -/
theorem C135_fails_one_row_per_case :
    choices { codes := some [1, 2, 3], co := some ⟨[], [(3, fun _ => 0), (7, fun _ => 0)]⟩, ch := .tall ⟨[3, 7], [1, 3], [((3, 3), 2), ((7, 1), 1)], 1⟩ } = some (some ⟨[1, 2, 3], [(3, [0, 1, 0]), (7, [1, 0, 0])]⟩) := by decide +kernel

/-- **C135 fails (values for complete rows).** Values for the rows are ignored when no rows are missing: the container has no choices. -/
theorem C135_fails_rows_complete :
    choices { alts := some ⟨[], ⟨[3, 7], [1, 2], [((3, 1), fun _ => 0), ((3, 2), fun _ => 0), ((7, 1), fun _ => 0), ((7, 2), fun _ => 0)], 1⟩⟩, ch := .onRows [0, 1, 1, 0] } = some none := by decide +kernel

/-- **C135 fails (codes with idce data).** A Series of codes cannot be given with idce data alone. -/
theorem C135_fails_codes_idce (x : Choices.Args) (f : Co Int) (hx : x.ch = .series f) (hco : x.co = none) (t : Tab2) (ht : x.alts = some t)
    (hmiss : t.mf.rows.length < t.mf.lev0.length * t.mf.lev1.length) : choices x = none := by
  have hca : ca x = none := by
    cases h : ca x with
    | none => rfl
    | some t' =>
      obtain ⟨e1, e2⟩ := ch_ca.mp h
      rw [ht] at e1; cases e1
      unfold isIdce at e2
      simp [hmiss] at e2
  have h1 : encode x = none := by
    unfold encode
    rw [hx]
    unfold caseLong
    rw [hco, hca]
    cases f with
    | nil => simp
    | cons a l => simp
  unfold choices
  rw [h1, Option.bind_none]

/-- **C135 fails (order of the alternatives).** With alternatives that are not given in increasing order, a Series of codes is accepted as long as some
alternative is not chosen in any case, and raises when all are. -/
theorem C135_fails_code_order :
    choices { codes := some [2, 1], co := some twoTrips, ch := .series [(7, 1), (3, 2)] } = none ∧
    choices { codes := some [2, 1], co := some twoTrips, ch := .series [(7, 1), (3, 1)] } = some (some ⟨[2, 1], [(3, [0, 1]), (7, [0, 1])]⟩) := by
  decide +kernel

/-! ## Concrete cases -/

theorem twoTrips_cases : CaseSet { codes := some [1, 2, 4], co := some twoTrips, ch := .named "mode" } [3, 7] :=
  ⟨by decide, fun f hf => (by cases hf; decide), fun t ht => (by cases ht), Or.inl (by simp)⟩

theorem threeCodes_alts (x : Choices.Args) (h1 : x.codes = some [1, 2, 4]) (h2 : x.alts = none) : AltSet x [1, 2, 4] :=
  ⟨by decide, Or.inr h1, fun t ht => (by rw [h2] at ht; cases ht), Or.inl (by rw [h1]; simp)⟩

example : Holds (choices { codes := some [1, 2, 4], co := some twoTrips, ch := .named "mode" }) [3, 7] [1, 2, 4]
    (fun i a => if (if i = 7 then 1 else 2) = a then 1 else 0) :=
  C135_code_column _ _ _ twoTrips_cases (threeCodes_alts _ rfl rfl) "mode" rfl twoTrips rfl (by decide) (fun t ht => by cases ht) _
    (by simp [twoTrips])

example : Holds (choices { codes := some [1, 2, 4], co := some twoTrips, ch := .series [(7, 4), (3, 2)] }) [3, 7] [1, 2, 4]
    (fun i a => if (if i = 7 then 4 else 2) = a then 1 else 0) :=
  C135_code_series _ _ _ ⟨by decide, fun f hf => (by cases hf; decide), fun t ht => (by cases ht), Or.inl (by simp)⟩ (threeCodes_alts _ rfl rfl)
    [(7, 4), (3, 2)] rfl (by decide) (by decide) (by simp) (Or.inl (by simp)) _ (by simp)

example : choices { codes := some [1, 2, 4], co := some twoTrips, ch := .series [(7, 4), (3, 2)] } =
    some (some ⟨[1, 2, 4], [(3, [0, 1, 0]), (7, [0, 0, 1])]⟩) := by decide +kernel

/-- Alternatives of two cases, with rows missing and not in order. -/
def rowsMissing : Tab2 := ⟨["chosen"], ⟨[3, 7], [1, 2, 4], [((7, 4), fun _ => 1), ((3, 1), fun _ => 0), ((3, 2), fun _ => 1), ((7, 2), fun _ => 0),
  ((7, 1), fun _ => 0)], 1⟩⟩

theorem rowsMissing_regular : Regular rowsMissing.mf :=
  ⟨by decide, by decide, by simp [rowsMissing], by decide⟩

theorem rowsMissing_casesOf : CasesOf rowsMissing.mf [3, 7] :=
  ⟨by decide, by intro c; simp [rowsMissing]; omega⟩

theorem rowsMissing_cases (x : Choices.Args) (h : x.alts = some rowsMissing) (h2 : x.co = none) : CaseSet x [3, 7] :=
  ⟨by decide, fun f hf => (by rw [h2] at hf; cases hf),
    fun t ht => (by rw [h] at ht; cases ht; exact ⟨rowsMissing_regular, rowsMissing_casesOf, by decide⟩), Or.inr (by rw [h]; simp)⟩

theorem rowsMissing_alts (x : Choices.Args) (h : x.alts = some rowsMissing) (h2 : x.codes = none) : AltSet x [1, 2, 4] :=
  ⟨by decide, Or.inl h2, fun t ht => (by rw [h] at ht; cases ht; rfl), Or.inr (by rw [h]; simp)⟩

example : Holds (choices { alts := some rowsMissing, ch := .named "chosen" }) [3, 7] [1, 2, 4]
    (fun i a => if (i, a) = (7, 4) ∨ (i, a) = (3, 2) then 1 else 0) :=
  C135_alternatives_column _ _ _ (rowsMissing_cases _ rfl rfl) (rowsMissing_alts _ rfl rfl) "chosen" rfl rowsMissing rfl (by decide) _
    (by simp [rowsMissing]) (by simp [rowsMissing])

example : Holds (choices { alts := some rowsMissing, ch := .onRows [1, 0, 1, 0, 0] }) [3, 7] [1, 2, 4]
    (fun i a => if (i, a) = (7, 4) ∨ (i, a) = (3, 2) then 1 else 0) :=
  C135_rows_partial _ _ _ (rowsMissing_cases _ rfl rfl) (rowsMissing_alts _ rfl rfl) _ rfl rowsMissing rfl (by decide) (by decide) _
    (by
      intro k r h
      have hk : k < 5 := (List.getElem?_eq_some_iff.mp h).1
      interval_cases k <;> (simp [rowsMissing] at h; subst h; simp)) (by simp [rowsMissing])

example : Holds (choices { alts := some rowsMissing, ch := .tall ⟨[3, 7], [2, 4], [((7, 4), 3), ((7, 2), 1), ((3, 2), 1)], 1⟩ }) [3, 7] [1, 2, 4]
    (fun i a => if (i, a) = (7, 4) then 3 else if a = 2 then 1 else 0) :=
  C135_tall _ _ _ (rowsMissing_cases _ rfl rfl) (rowsMissing_alts _ rfl rfl) _ rfl
    ⟨by decide, by decide, by simp, by decide⟩ ⟨by decide, by intro c; simp; omega⟩ (by simp) (by decide) _ (by simp)
    (by simp)

example : Holds (choices { alts := some rowsMissing, ch := .wide ⟨[2, 4], [(7, [0, 1]), (3, [1, 0])]⟩ }) [3, 7] [1, 2, 4]
    (fun i a => if (i, a) = (7, 4) ∨ (i, a) = (3, 2) then 1 else 0) :=
  C135_wide _ _ _ (rowsMissing_cases _ rfl rfl) (rowsMissing_alts _ rfl rfl) _ rfl (by decide) (by simp) (by decide) (by simp) _
    (by
      intro r hr p a hp
      have hk : p < 2 := (List.getElem?_eq_some_iff.mp hp).1
      simp at hr
      rcases hr with rfl | rfl <;> interval_cases p <;> (simp at hp; subst hp; simp))
    (by simp; omega)

example : choices { alts := some rowsMissing, ch := .tall ⟨[3, 7], [2, 4], [((7, 4), 3), ((7, 2), 1), ((3, 2), 1)], 1⟩ } =
    some (some ⟨[1, 2, 4], [(3, [0, 1, 0]), (7, [0, 1, 3])]⟩) := by decide +kernel

end Larch.Props
