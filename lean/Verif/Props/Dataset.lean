import Verif.Lemmas.Dataset2
import Mathlib.Data.List.ProdSigma
import Mathlib.Data.Rat.Defs
import Mathlib.Algebra.Order.Ring.Rat
import Mathlib.Tactic.NormNum

/-!
# C84: a dataset built from a data frame holds the frame's data

`from_idca(df, crack, altnames, avail, fill_missing)`.  The full property: whatever the options, the dataset has, for every
row of the frame and every column, the value in that row; it marks as available exactly the pairs of case and alternative
that have a row; `fill_missing` only concerns pairs without a row; names given for alternatives are the names the dataset
reports; the caller's frame is not changed.
-/

namespace Larch.Props

open Larch.DatasetM

section values
variable {κ K : Type} [DecidableEq κ] [Field K] [LinearOrder K]

theorem cast_some (junk : K) (d : Dt) (v : K) : cast junk d (some v) = some v := by
  cases d <;> rfl

theorem cast_not_int (junk : K) {d : Dt} (h : d ≠ .int) (x : Option K) : cast junk d x = x := by
  cases d <;> first | exact absurd rfl h | rfl

theorem castVar_at (junk : K) (d : Dt) (x : Var κ K) (c : κ) (a : Label) :
    (castVar junk d x).at c a = cast junk d (x.at c a) := by
  obtain ⟨d', v | v⟩ := x <;> rfl

theorem cast_value {junk : K} {f : Frame κ K} (hok : f.Ok) {k : String} {col : Col K} (hcol : (k, col) ∈ f.cols) {i : Nat}
    {x : Option K} (hx : col.vals[i]? = some x) : cast junk col.dtype x = x := by
  by_cases hd : col.dtype = .int
  · obtain ⟨v, rfl⟩ := Option.ne_none_iff_exists'.1 (hok.ints _ hcol hd x (List.mem_of_getElem? hx))
    exact cast_some _ _ _
  · exact cast_not_int junk hd x

/-- C84 (`crack=False`), proved in full: for every frame, every list of names, every `fill_missing`: if the call succeeds, every row's value of
every column is found in the dataset, under the row's case and the label of its alternative. -/
theorem C84_reproduces_dense {junk : K} {f f' : Frame κ K} {names : Option Names} {avail : String} {fill : Option (Fill K)}
    {ds : DS κ K} (hok : f.Ok) (hav : avail = "_avail_" ∨ "_avail_" ∉ f.cols.map Prod.fst)
    (h : fromIdca junk f false names avail fill = .ok (ds, f')) {i : Nat} {c : κ} {a : Label} {k : String}
    {x : Option K} (hr : f.RowAt i c a) (hx : f.Value i k x) :
    ∃ b, f.NewLabel names a b ∧ c ∈ ds.cases ∧ b ∈ ds.alts ∧ ds.read k c b = some x := by
  obtain ⟨names', ds1, hrel, hok', hn, -, e1, e2, e3, hadd⟩ := fromIdca_stages hok h
  obtain ⟨-, hcols, -, hrows, -⟩ := relabel_spec hok hrel
  obtain ⟨b, hb, hlab⟩ := hrows i c a hr
  obtain ⟨col, hcol, hval⟩ := hx
  have hcol' : (k, col) ∈ f'.cols := by rw [hcols]; exact hcol
  have hmem : (k, baseVar junk f' false col) ∈ ds1.vars := by
    rw [e3]
    exact List.mem_map.2 ⟨(k, col), hcol', rfl⟩
  have hnames : (ds1.vars.map Prod.fst) = f.cols.map Prod.fst := by rw [e3, baseVars_names, hcols]
  obtain ⟨d1, d2, -, y, hy, hpres, -, -⟩ := addAvail_cols (by rw [hnames]; exact hok.names) (by rw [hnames]; exact hav)
    hadd hmem
  refine ⟨b, hlab, by rw [d1, e1]; exact mem_casesOf hb, by rw [d2, e2]; exact (mem_altsOf b).2 ⟨i, c, hb⟩, ?_⟩
  rw [read_eq, hy]
  simp only [Option.map_some]
  rw [hpres c b (find_isSome hb)]
  unfold baseVar
  rw [castVar_at]
  simp only [Bool.false_eq_true, if_false]
  have : (⟨col.dtype, .ca (f'.dense col)⟩ : Var κ K).at c b = x := dense_row hok' hn hb hval
  rw [this, cast_value hok hcol hval]

end values

section crack
variable {κ K : Type} [DecidableEq κ] [Field K] [LinearOrder K] [IsStrictOrderedRing K]

theorem mem_present_of_row {f : Frame κ K} (hok : f.Ok) (hn : f.rows.Nodup) {i : Nat} {c : κ} {b : Label}
    (hb : f.RowAt i c b) {col : Col K} {v : K} (hv : col.vals[i]? = some (some v)) :
    v ∈ present (altsOf f) (f.dense col) c :=
  List.mem_filterMap.2 ⟨b, (mem_altsOf b).2 ⟨i, c, hb⟩, dense_row hok hn hb hv⟩

/-- C84 (`crack=True`, the default), the part that holds: every number of every row is found in the dataset, up to the
difference that `dissolve_zero_variance` tolerates; what is found is the number of some row of the same case.  Missing: the
exact value, and NaN (see `C84_fails_crack_close` and `C84_fails_crack_nan`). -/
theorem C84_reproduces_crack_partial {junk : K} {f f' : Frame κ K} {names : Option Names} {avail : String}
    {fill : Option (Fill K)} {ds : DS κ K} (hok : f.Ok) (hav : avail = "_avail_" ∨ "_avail_" ∉ f.cols.map Prod.fst)
    (h : fromIdca junk f true names avail fill = .ok (ds, f')) {i : Nat} {c : κ} {a : Label} {k : String}
    {v : K} (hr : f.RowAt i c a) (hx : f.Value i k (some v)) :
    ∃ b y, f.NewLabel names a b ∧ c ∈ ds.cases ∧ b ∈ ds.alts ∧ ds.read k c b = some (some y) ∧
      (∃ j a', f.RowAt j c a' ∧ f.Value j k (some y)) ∧
      (y = v ∨ (y - v) ^ 2 < 4 * ds.alts.length * (1 / 10 ^ 10) ^ 2) := by
  obtain ⟨names', ds1, hrel, hok', hn, -, e1, e2, e3, hadd⟩ := fromIdca_stages hok h
  obtain ⟨-, hcols, hcasecol, hrows, -⟩ := relabel_spec hok hrel
  obtain ⟨b, hb, hlab⟩ := hrows i c a hr
  obtain ⟨col, hcol, hval⟩ := hx
  have hcol' : (k, col) ∈ f'.cols := by rw [hcols]; exact hcol
  have hmem : (k, baseVar junk f' true col) ∈ ds1.vars := by
    rw [e3]
    exact List.mem_map.2 ⟨(k, col), hcol', rfl⟩
  have hnames : (ds1.vars.map Prod.fst) = f.cols.map Prod.fst := by rw [e3, baseVars_names, hcols]
  obtain ⟨d1, d2, -, y, hy, hpres, -, -⟩ := addAvail_cols (by rw [hnames]; exact hok.names) (by rw [hnames]; exact hav)
    hadd hmem
  have hread : ds.read k c b = some ((baseVar junk f' true col).at c b) := by
    rw [read_eq, hy]
    simp only [Option.map_some]
    rw [hpres c b (find_isSome hb)]
  have hdense : f'.dense col c b = some v := dense_row hok' hn hb hval
  have hin := mem_present_of_row hok' hn hb hval
  -- the case where the variable stays as it is
  have hplain : (castVar junk col.dtype (⟨col.dtype, .ca (f'.dense col)⟩ : Var κ K)).at c b = some v := by
    rw [castVar_at]
    show cast junk col.dtype (f'.dense col c b) = some v
    rw [hdense, cast_some]
  have back : ∀ {j b' y}, f'.RowAt j c b' → col.vals[j]? = some (some y) →
      ∃ j a', f.RowAt j c a' ∧ f.Value j k (some y) := by
    rintro j b' y ⟨p, hp, -⟩ hv
    have hlt : j < f.rows.length := by
      rw [← hok.lengths _ hcol]
      exact (List.getElem?_eq_some_iff.1 hv).1
    have hc : (f.rows[j]).1 = c := by
      have h1 : (f.rows.map Prod.fst)[j]? = some c := by rw [← hcasecol]; simp [hp]
      simpa [List.getElem?_eq_getElem hlt] using h1
    have hcode := hok.codes _ (List.getElem_mem hlt)
    refine ⟨j, f.levels[(f.rows[j]).2], ⟨(f.rows[j]).2, ?_, List.getElem?_eq_getElem hcode⟩, col, hcol, hv⟩
    rw [List.getElem?_eq_getElem hlt, ← hc]
  have hself : ∃ j a', f.RowAt j c a' ∧ f.Value j k (some v) := ⟨i, a, hr, col, hcol, hval⟩
  rw [d1, d2, e1, e2]
  by_cases hd : col.dtype = .other
  · refine ⟨b, v, hlab, mem_casesOf hb, (mem_altsOf b).2 ⟨i, c, hb⟩, ?_, hself, Or.inl rfl⟩
    rw [hread]
    unfold baseVar crackVar
    simp only [if_true, hd]
    rw [hd] at hplain
    exact congrArg some hplain
  · by_cases hdis : dissolves (casesOf f') (altsOf f') (f'.dense col) = true
    · obtain ⟨m, hm⟩ := minOf_isSome (List.ne_nil_of_mem hin)
      have hmm := minOf_mem hm
      obtain ⟨j, b', hj, hjv⟩ := mem_present hmm
      refine ⟨b, m, hlab, mem_casesOf hb, (mem_altsOf b).2 ⟨i, c, hb⟩, ?_, back hj hjv, Or.inr ?_⟩
      · rw [hread]
        unfold baseVar
        simp only [if_true]
        rw [crackVar_num hd, if_pos hdis, castVar_at]
        show some (DatasetM.cast junk col.dtype (minOf (present (altsOf f') (f'.dense col) c))) = some (some m)
        rw [hm, cast_some]
      · exact dissolves_iff hdis (mem_casesOf hb) hmm hin
    · refine ⟨b, v, hlab, mem_casesOf hb, (mem_altsOf b).2 ⟨i, c, hb⟩, ?_, hself, Or.inl rfl⟩
      rw [hread]
      unfold baseVar
      simp only [if_true]
      rw [crackVar_num hd, if_neg hdis, castVar_at]
      show some (DatasetM.cast junk col.dtype (f'.dense col c b)) = some (some v)
      rw [hdense, cast_some]

/-- With values that are equal or clearly different within every case, `crack=True` is exact. -/
theorem C84_reproduces_crack_exact {junk : K} {f f' : Frame κ K} {names : Option Names} {avail : String}
    {fill : Option (Fill K)} {ds : DS κ K} (hok : f.Ok) (hav : avail = "_avail_" ∨ "_avail_" ∉ f.cols.map Prod.fst)
    (h : fromIdca junk f true names avail fill = .ok (ds, f')) {i : Nat} {c : κ} {a : Label} {k : String}
    {v : K} (hr : f.RowAt i c a) (hx : f.Value i k (some v))
    (hsep : ∀ j a' w, f.RowAt j c a' → f.Value j k (some w) →
      w = v ∨ 4 * ds.alts.length * (1 / 10 ^ 10) ^ 2 ≤ (w - v) ^ 2) :
    ∃ b, f.NewLabel names a b ∧ c ∈ ds.cases ∧ b ∈ ds.alts ∧ ds.read k c b = some (some v) := by
  obtain ⟨b, y, h1, h2, h3, h4, ⟨j, a', hj, hjv⟩, h5⟩ := C84_reproduces_crack_partial hok hav h hr hx
  rcases h5 with rfl | h5
  · exact ⟨b, h1, h2, h3, h4⟩
  · rcases hsep j a' y hj hjv with rfl | h6
    · exact ⟨b, h1, h2, h3, h4⟩
    · exact absurd h5 (not_lt.2 h6)

end crack

section sparse
variable {κ K : Type} [DecidableEq κ] [Field K] [LinearOrder K]

/-- A missing pair of a known case and a known alternative makes the data sparse. -/
theorem sparse_of_absent {f : Frame κ K} (hok : f.Ok) (hn : f.rows.Nodup) {c : κ} {a : Label} (hc : c ∈ casesOf f)
    (ha : a ∈ altsOf f) (habs : ∀ i, ¬ f.RowAt i c a) : f.rows.length < (casesOf f).length * (altsOf f).length := by
  have hlab : ∀ r ∈ f.rows, ∃ l, f.levels[r.2]? = some l := fun r hr =>
    ⟨_, List.getElem?_eq_getElem (hok.codes r hr)⟩
  let g : κ × Nat → κ × Label := fun r => (r.1, (f.levels[r.2]?).getD a)
  have hinj : ∀ x ∈ f.rows, ∀ y ∈ f.rows, g x = g y → x = y := by
    intro x hx y hy hxy
    obtain ⟨lx, hlx⟩ := hlab x hx
    obtain ⟨ly, hly⟩ := hlab y hy
    have h1 : x.1 = y.1 := (Prod.ext_iff.1 hxy).1
    have h2 : lx = ly := by
      have := (Prod.ext_iff.1 hxy).2
      simpa [g, hlx, hly] using this
    subst h2
    obtain ⟨p1, p2⟩ := List.getElem?_eq_some_iff.1 hlx
    obtain ⟨q1, q2⟩ := List.getElem?_eq_some_iff.1 hly
    exact Prod.ext h1 ((hok.levels.getElem_inj_iff).1 (p2.trans q2.symm))
  have hnd : (f.rows.map g).Nodup := (List.nodup_map_iff_inj_on hn).2 hinj
  have hrow : ∀ r ∈ f.rows, ∃ i, f.RowAt i r.1 ((f.levels[r.2]?).getD a) := by
    intro r hr
    obtain ⟨i, hi⟩ := List.getElem?_of_mem hr
    obtain ⟨l, hl⟩ := hlab r hr
    exact ⟨i, r.2, hi, by simp [hl]⟩
  have hnot : (c, a) ∉ f.rows.map g := by
    intro hm
    obtain ⟨r, hr, he⟩ := List.mem_map.1 hm
    obtain ⟨i, hi⟩ := hrow r hr
    have h1 : r.1 = c := congrArg Prod.fst he
    have h2 : (f.levels[r.2]?).getD a = a := congrArg Prod.snd he
    rw [h1, h2] at hi
    exact habs i hi
  have hsub : (c, a) :: f.rows.map g ⊆ casesOf f ×ˢ altsOf f := by
    intro p hp
    rcases List.mem_cons.1 hp with rfl | hp
    · exact List.mem_product.2 ⟨hc, ha⟩
    · obtain ⟨r, hr, rfl⟩ := List.mem_map.1 hp
      obtain ⟨i, hi⟩ := hrow r hr
      exact List.mem_product.2 ⟨mem_casesOf hi, (mem_altsOf _).2 ⟨i, _, hi⟩⟩
  have := (List.subperm_of_subset (List.nodup_cons.2 ⟨hnot, hnd⟩) hsub).length_le
  rw [List.length_product] at this
  simp only [List.length_cons, List.length_map] at this
  omega

/-- C84, cells without a row, no `fill_missing`: NaN in float columns, an arbitrary number in integer columns
(`crack=False`; integer labels). -/
theorem C84_absent {junk : K} {f f' : Frame κ K} {names : Option Names} {avail : String} {ds : DS κ K} (hok : f.Ok)
    (hint : ∀ l ∈ f.levels, ∃ i, l = .int i) (hav : avail = "_avail_" ∨ "_avail_" ∉ f.cols.map Prod.fst)
    (h : fromIdca junk f false names avail none = .ok (ds, f')) {c : κ} {a : Label} (habs : ∀ i, ¬ f.RowAt i c a)
    {k : String} {col : Col K} (hcol : (k, col) ∈ f.cols) :
    ds.read k c a = some (if col.dtype = .int then some junk else none) := by
  obtain ⟨names', ds1, hrel, hok', hn, -, e1, e2, e3, hadd⟩ := fromIdca_stages hok h
  obtain ⟨-, -, -, -, hsame⟩ := relabel_spec hok hrel
  obtain ⟨rfl, rfl⟩ := hsame hint
  have hmem : (k, baseVar junk f' false col) ∈ ds1.vars := by
    rw [e3]
    exact List.mem_map.2 ⟨(k, col), hcol, rfl⟩
  have hnames : (ds1.vars.map Prod.fst) = f'.cols.map Prod.fst := by rw [e3, baseVars_names]
  obtain ⟨-, -, -, y, hy, -, hnone, -⟩ := addAvail_cols (by rw [hnames]; exact hok.names) (by rw [hnames]; exact hav)
    hadd hmem
  rw [read_eq, hy, hnone rfl]
  simp only [Option.map_some]
  unfold baseVar
  rw [castVar_at]
  simp only [Bool.false_eq_true, if_false]
  have : (⟨col.dtype, .ca (f'.dense col)⟩ : Var κ K).at c a = none := dense_absent habs col
  rw [this]
  cases col.dtype <;> simp [DatasetM.cast]

/-- C84, cells without a row, scalar `fill_missing` and the default name of the availability variable: the given value
(`crack=False`; integer labels). -/
theorem C84_fill_scalar {junk y : K} {f f' : Frame κ K} {names : Option Names} {ds : DS κ K} (hok : f.Ok)
    (hint : ∀ l ∈ f.levels, ∃ i, l = .int i) (hnew : "_avail_" ∉ f.cols.map Prod.fst)
    (h : fromIdca junk f false names "_avail_" (some (.scalar y)) = .ok (ds, f')) {c : κ} {a : Label}
    (hc : c ∈ ds.cases) (ha : a ∈ ds.alts) (habs : ∀ i, ¬ f.RowAt i c a) {k : String} (hk : k ∈ f.cols.map Prod.fst) :
    ds.read k c a = some (some y) := by
  obtain ⟨names', ds1, hrel, hok', hn, -, e1, e2, e3, hadd⟩ := fromIdca_stages hok h
  obtain ⟨-, -, -, -, hsame⟩ := relabel_spec hok hrel
  obtain ⟨rfl, rfl⟩ := hsame hint
  obtain ⟨⟨k', col⟩, hcol, rfl⟩ := List.mem_map.1 hk
  have hmem : (k', baseVar junk f' false col) ∈ ds1.vars := by
    rw [e3]
    exact List.mem_map.2 ⟨(k', col), hcol, rfl⟩
  have hnames : (ds1.vars.map Prod.fst) = f'.cols.map Prod.fst := by rw [e3, baseVars_names]
  obtain ⟨d1, d2, -, z, hz, -, -, hfill⟩ := addAvail_cols (by rw [hnames]; exact hok.names)
    (Or.inl rfl) hadd hmem
  have hsp : f'.rows.length < ds1.cases.length * ds1.alts.length := by
    rw [e1, e2]
    refine sparse_of_absent hok hn ?_ ?_ habs
    · rw [← e1, ← d1]; exact hc
    · rw [← e2, ← d2]; exact ha
  have := hfill _ rfl rfl (by rw [hnames]; exact hnew) hsp
  simp only [baseVar, castVar, Bool.false_eq_true, if_false, fillWith, fillerFor] at this
  injection this with this
  rw [read_eq, hz, ← this]
  simp [Var.at, whereFill, find_none habs]

/-- C84, availability, the part that holds: without `fill_missing` the availability variable is 1 for the pairs that have a
row and 0 for the others.  Missing: with a scalar `fill_missing` it is not (`C84_fails_avail`). -/
theorem C84_avail_partial {junk : K} {f f' : Frame κ K} {names : Option Names} {crack : Bool} {avail : String}
    {ds : DS κ K} (hok : f.Ok) (hint : ∀ l ∈ f.levels, ∃ i, l = .int i) (hnew : avail ∉ f.cols.map Prod.fst)
    (h : fromIdca junk f crack names avail none = .ok (ds, f')) (hsparse : ∃ c ∈ ds.cases, ∃ a ∈ ds.alts, ∀ i, ¬ f.RowAt i c a)
    (c : κ) (a : Label) :
    ((∃ i, f.RowAt i c a) → ds.read avail c a = some (some 1)) ∧
    ((∀ i, ¬ f.RowAt i c a) → ds.read avail c a = some (some 0)) := by
  obtain ⟨names', ds1, hrel, hok', hn, -, e1, e2, e3, hadd⟩ := fromIdca_stages hok h
  obtain ⟨-, -, -, -, hsame⟩ := relabel_spec hok hrel
  obtain ⟨rfl, rfl⟩ := hsame hint
  have hnames : (ds1.vars.map Prod.fst) = f'.cols.map Prod.fst := by rw [e3, baseVars_names]
  have hds : ds.cases = ds1.cases ∧ ds.alts = ds1.alts := by
    unfold addAvail at hadd
    split at hadd
    · injection hadd with hadd; subst hadd; exact ⟨rfl, rfl⟩
    · injection hadd with hadd; subst hadd; exact ⟨rfl, rfl⟩
  obtain ⟨c0, hc0, a0, ha0, habs0⟩ := hsparse
  have hsp : f'.rows.length < ds1.cases.length * ds1.alts.length := by
    rw [e1, e2]
    exact sparse_of_absent hok hn (by rw [← e1, ← hds.1]; exact hc0) (by rw [← e2, ← hds.2]; exact ha0) habs0
  have := (addAvail_avail (by rw [hnames]; exact hok.names) (by rw [hnames]; exact hnew) hsp hadd).1 rfl
  rw [read_eq, this]
  simp only [Option.map_some, availVar, Var.at]
  constructor
  · rintro ⟨i, hi⟩
    simp [find_isSome hi]
  · intro habs
    simp [find_none habs]

/-- C84 fails: with a scalar `fill_missing`, the availability variable itself is filled, so a pair without a row is marked
with that value: it counts as available for every value but 0. -/
theorem C84_fails_avail {junk y : K} {f f' : Frame κ K} {names : Option Names} {crack : Bool} {ds : DS κ K} (hok : f.Ok)
    (hint : ∀ l ∈ f.levels, ∃ i, l = .int i) (hnew : "_avail_" ∉ f.cols.map Prod.fst)
    (h : fromIdca junk f crack names "_avail_" (some (.scalar y)) = .ok (ds, f')) {c : κ} {a : Label}
    (hc : c ∈ ds.cases) (ha : a ∈ ds.alts) (habs : ∀ i, ¬ f.RowAt i c a) :
    ds.read "_avail_" c a = some (some y) := by
  obtain ⟨names', ds1, hrel, hok', hn, -, e1, e2, e3, hadd⟩ := fromIdca_stages hok h
  obtain ⟨-, -, -, -, hsame⟩ := relabel_spec hok hrel
  obtain ⟨rfl, rfl⟩ := hsame hint
  have hnames : (ds1.vars.map Prod.fst) = f'.cols.map Prod.fst := by rw [e3, baseVars_names]
  have hds : ds.cases = ds1.cases ∧ ds.alts = ds1.alts := by
    unfold addAvail at hadd
    split at hadd
    · simp only [bind, Except.bind] at hadd
      split at hadd
      · cases hadd
      · injection hadd with hadd; subst hadd; exact ⟨rfl, rfl⟩
    · injection hadd with hadd; subst hadd; exact ⟨rfl, rfl⟩
  have hsp : f'.rows.length < ds1.cases.length * ds1.alts.length := by
    rw [e1, e2]
    exact sparse_of_absent hok hn (by rw [← e1, ← hds.1]; exact hc) (by rw [← e2, ← hds.2]; exact ha) habs
  obtain ⟨w, hw, hw'⟩ := (addAvail_avail (by rw [hnames]; exact hok.names) (by rw [hnames]; exact hnew) hsp hadd).2 _ rfl
    rfl
  simp only [fillWith, availVar, fillerFor] at hw'
  injection hw' with hw'
  rw [read_eq, hw, ← hw']
  simp [Var.at, whereFill, find_none habs]

/-- C84 fails: with any other name for the availability variable, a scalar `fill_missing` is an error whenever there is
something to fill. -/
theorem C84_fails_avail_name {junk y : K} {f : Frame κ K} {names : Option Names} {crack : Bool} {avail : String}
    (hok : f.Ok) (hint : ∀ l ∈ f.levels, ∃ i, l = .int i) (hav : avail ≠ "_avail_")
    (hnew : avail ∉ f.cols.map Prod.fst) (hno : "_avail_" ∉ f.cols.map Prod.fst) {c : κ} {a : Label} {i j : Nat} {c' : κ}
    {a' : Label} (hc : f.RowAt i c a') (ha : f.RowAt j c' a) (habs : ∀ i, ¬ f.RowAt i c a) :
    ∀ r, fromIdca junk f crack names avail (some (.scalar y)) ≠ .ok r := by
  rintro ⟨ds, f'⟩ h
  obtain ⟨names', ds1, hrel, hok', hn, -, e1, e2, e3, hadd⟩ := fromIdca_stages hok h
  obtain ⟨-, -, -, -, hsame⟩ := relabel_spec hok hrel
  obtain ⟨rfl, rfl⟩ := hsame hint
  have hnames : (ds1.vars.map Prod.fst) = f'.cols.map Prod.fst := by rw [e3, baseVars_names]
  have hsp : f'.rows.length < ds1.cases.length * ds1.alts.length := by
    rw [e1, e2]
    exact sparse_of_absent hok hn (mem_casesOf hc) ((mem_altsOf a).2 ⟨j, c', ha⟩) habs
  unfold addAvail at hadd
  rw [if_pos ⟨by rw [hnames]; exact hnew, hsp⟩, putVar_new (by rw [hnames]; exact hnew)] at hadd
  simp only [bind, Except.bind] at hadd
  cases hl : fillLoop (.scalar y) (ds1.vars ++ [(avail, availVar f')]) with
  | error e => rw [hl] at hadd; cases hadd
  | ok out =>
    -- the step for the availability variable itself fails
    have hno' : "_avail_" ∉ (ds1.vars ++ [(avail, availVar f')]).map Prod.fst := by
      simp only [List.map_append, hnames, List.map_cons, List.map_nil, List.mem_append, List.mem_singleton, not_or]
      exact ⟨hno, fun e => hav e.symm⟩
    unfold fillLoop at hl
    rw [List.map_append, List.foldlM_append] at hl
    cases hb : (ds1.vars.map Prod.fst).foldlM (fun vs k => fillStep (.scalar y) vs k)
        (ds1.vars ++ [(avail, availVar f')]) with
    | error e => rw [hb] at hl; cases hl
    | ok mid =>
      rw [hb] at hl
      have hmid : ∀ ks : List String, ks.foldlM (fun vs k => fillStep (.scalar y) vs k)
          (ds1.vars ++ [(avail, availVar f')]) = .ok mid → mid = ds1.vars ++ [(avail, availVar f')] := by
        have hm : availMask (ds1.vars ++ [(avail, availVar f')]) = .error Err.key := by
          unfold availMask
          rw [lookup_none_of_notMem hno']
        have step : ∀ k out, fillStep (.scalar y) (ds1.vars ++ [(avail, availVar f')]) k = .ok out →
            out = ds1.vars ++ [(avail, availVar f')] := by
          intro k out h
          unfold fillStep at h
          split at h
          · injection h with h; exact h.symm
          · split at h
            · injection h with h; exact h.symm
            · simp [fillerFor, hm, bind, Except.bind] at h
        intro ks
        induction ks with
        | nil =>
          intro h
          simp only [List.foldlM_nil, pure, Except.pure] at h
          injection h with h
          exact h.symm
        | cons k t ih =>
          intro h
          simp only [List.foldlM_cons] at h
          cases hs : fillStep (.scalar y) (ds1.vars ++ [(avail, availVar f')]) k with
          | error e => rw [hs] at h; cases h
          | ok m =>
            rw [hs] at h
            have := step k m hs
            subst this
            exact ih h
      have := hmid _ hb
      subst this
      simp only [bind, Except.bind, List.map_cons, List.map_nil, List.foldlM_cons, List.foldlM_nil] at hl
      have hlast : fillStep (.scalar y) (ds1.vars ++ [(avail, availVar f')]) avail = .error Err.key := by
        unfold fillStep
        rw [lookup_append_of_notMem (by rw [hnames]; exact hnew)]
        have hm : availMask (ds1.vars ++ [(avail, availVar f')]) = .error Err.key := by
          unfold availMask
          rw [lookup_none_of_notMem hno']
        simp [availVar, fillerFor, bind, Except.bind] at hm ⊢
        rw [hm]
      rw [hlast] at hl
      cases hl

/-- C84 fails: names given for the alternatives are never the names the dataset reports: `alts_mapping` maps every code to
itself, whatever `altnames` is. -/
theorem C84_fails_names {junk : K} {f f' : Frame κ K} {names : Option Names} {crack : Bool} {avail : String}
    {fill : Option (Fill K)} {ds : DS κ K} (hok : f.Ok) (h : fromIdca junk f crack names avail fill = .ok (ds, f')) :
    altsMapping ds = ds.alts.zip (ds.alts.map Sum.inl) := by
  obtain ⟨names', ds1, hrel, hok', hn, hna, e1, e2, e3, hadd⟩ := fromIdca_stages hok h
  have h1 : ds1.coords.lookup "alt_names" = none := by
    unfold nameAlts at hna
    split at hna
    · injection hna with hna; subst hna; rfl
    · unfold setAltnames at hna
      split at hna
      · injection hna with hna; subst hna; rfl
      · split at hna
        · injection hna with hna; subst hna; rfl
        · cases hna
  have h2 : ds.coords = ds1.coords := by
    unfold addAvail at hadd
    split at hadd
    · split at hadd
      · injection hadd with hadd; subst hadd; rfl
      · simp only [bind, Except.bind] at hadd
        split at hadd
        · cases hadd
        · injection hadd with hadd; subst hadd; rfl
    · injection hadd with hadd; subst hadd; rfl
  unfold altsMapping
  rw [h2, h1]

/-- C84, names, the part that holds: they are stored, one for each alternative, in a coordinate called `altnames`
(integer labels).  Missing: that they are reported by `alts_mapping` (`C84_fails_names`). -/
theorem C84_names_stored_partial {junk : K} {f f' : Frame κ K} {names : Names} {crack : Bool} {avail : String}
    {fill : Option (Fill K)} {ds : DS κ K} (hok : f.Ok) (hint : ∀ l ∈ f.levels, ∃ i, l = .int i)
    (h : fromIdca junk f crack (some names) avail fill = .ok (ds, f')) :
    ∃ l, ds.coords.lookup "altnames" = some l ∧ l.length = ds.alts.length ∧
      (∀ g, names = .map g → l = ds.alts.map g) ∧ (∀ ns, names = .seq ns → l = ns.map some) := by
  obtain ⟨names', ds1, hrel, hok', hn, hna, e1, e2, e3, hadd⟩ := fromIdca_stages hok h
  obtain ⟨-, -, -, -, hsame⟩ := relabel_spec hok hrel
  obtain ⟨rfl, rfl⟩ := hsame hint
  have h2 : ds.coords = ds1.coords ∧ ds.alts = ds1.alts := by
    unfold addAvail at hadd
    split at hadd
    · split at hadd
      · injection hadd with hadd; subst hadd; exact ⟨rfl, rfl⟩
      · simp only [bind, Except.bind] at hadd
        split at hadd
        · cases hadd
        · injection hadd with hadd; subst hadd; exact ⟨rfl, rfl⟩
    · injection hadd with hadd; subst hadd; exact ⟨rfl, rfl⟩
  rw [h2.1, h2.2]
  simp only [nameAlts, setAltnames] at hna
  match names, hna with
  | .map g, hna =>
    injection hna with hna
    subst hna
    refine ⟨_, rfl, by simp, fun g' hg => ?_, fun ns hns => nomatch hns⟩
    injection hg with hg
    subst hg
    rfl
  | .seq ns, hna =>
    simp only at hna
    split at hna
    · rename_i hl
      injection hna with hna
      subst hna
      refine ⟨_, rfl, by simpa using hl, (fun g hg => nomatch hg), fun ns' hns => ?_⟩
      injection hns with hns
      subst hns
      rfl
    · cases hna

/-- C84, the caller's frame, the part that holds: with integer labels it is not changed.  Missing: text labels
(`C84_fails_frame`). -/
theorem C84_frame_partial {junk : K} {f f' : Frame κ K} {names : Option Names} {crack : Bool} {avail : String}
    {fill : Option (Fill K)} {ds : DS κ K} (hok : f.Ok) (hint : ∀ l ∈ f.levels, ∃ i, l = .int i)
    (h : fromIdca junk f crack names avail fill = .ok (ds, f')) : f' = f := by
  obtain ⟨names', ds1, hrel, -⟩ := fromIdca_stages hok h
  exact ((relabel_spec hok hrel).2.2.2.2 hint).1

/-- C84 fails: with text labels the caller's frame always loses its labels. -/
theorem C84_fails_frame {junk : K} {f f' : Frame κ K} {names : Option Names} {crack : Bool} {avail : String}
    {fill : Option (Fill K)} {ds : DS κ K} (hok : f.Ok) (htext : ∃ l ∈ f.levels, ∃ s, l = .str s)
    (h : fromIdca junk f crack names avail fill = .ok (ds, f')) : f' ≠ f := by
  obtain ⟨names', ds1, hrel, -⟩ := fromIdca_stages hok h
  have hall := (not_all_isInt _).2 htext
  unfold relabel at hrel
  rw [hall] at hrel
  simp only [Bool.false_eq_true, if_false] at hrel
  have harr : ∀ n, (arange1 n).all isInt = true := by
    intro n
    rw [all_isInt]
    intro x hx
    obtain ⟨i, -, rfl⟩ := List.mem_map.1 hx
    exact ⟨_, rfl⟩
  have hne : ∀ n, f'.levels = arange1 n → f' ≠ f := by
    rintro n hl rfl
    rw [hl, harr] at hall
    cases hall
  match names, hrel with
  | none, hrel =>
    injection hrel with hrel
    injection hrel with h1 h2
    subst h1
    exact hne _ rfl
  | some (.seq l), hrel =>
    simp only at hrel
    split at hrel
    · cases hrel
    · injection hrel with hrel
      injection hrel with h1 h2
      subst h1
      exact hne _ rfl

/-- C84 fails: a text label that no row uses (a level left over from a larger frame) is an error. -/
theorem C84_fails_unused {junk : K} {f : Frame κ K} {crack : Bool} {avail : String} {fill : Option (Fill K)} (hok : f.Ok)
    (htext : ∃ l ∈ f.levels, ∃ s, l = .str s) (hn : f.rows.Nodup) {a : Label} (ha : a ∈ f.levels)
    (hunused : ∀ i c, ¬ f.RowAt i c a) : fromIdca junk f crack none avail fill = .error .size := by
  have hall := (not_all_isInt _).2 htext
  set f' : Frame κ K := { f with levels := arange1 f.levels.length } with hf'
  have hrel : relabel f none = .ok (f', some (.seq (f.levels.map Label.text))) := by
    unfold relabel
    rw [hall]
    rfl
  have hok' := (relabel_spec hok hrel).1
  have hto : ∃ ds, toDataset f' = .ok ds := by
    unfold toDataset
    rw [if_pos hn]
    exact ⟨_, rfl⟩
  obtain ⟨ds, hds⟩ := hto
  obtain ⟨-, hb⟩ := stage_base (junk := junk) (crack := crack) hok' hds
  obtain ⟨j, hj⟩ := List.getElem?_of_mem ha
  have hjlt := (List.getElem?_eq_some_iff.1 hj).1
  have hlt : (altsOf f').length < f.levels.length := by
    have hj' : j ∉ f.rows.map Prod.snd := by
      intro hm
      obtain ⟨r, hr, rfl⟩ := List.mem_map.1 hm
      obtain ⟨i, hi⟩ := List.getElem?_of_mem hr
      exact hunused i r.1 ⟨r.2, hi, hj⟩
    unfold altsOf
    refine lt_of_le_of_lt (List.length_filterMap_le _ _) ?_
    have hlen : f'.levels.length = f.levels.length := arange1_length _
    rw [hlen]
    have hsub : ((List.range f.levels.length).filter (fun i => decide (i ∈ f'.rows.map Prod.snd))) ⊆
        (List.range f.levels.length).erase j := by
      intro i hi
      obtain ⟨h1, h2⟩ := List.mem_filter.1 hi
      have hij : i ≠ j := by
        rintro rfl
        exact hj' (by simpa using h2)
      exact (List.mem_erase_of_ne hij).2 h1
    have h1 := (List.subperm_of_subset (List.Nodup.filter _ List.nodup_range) hsub).length_le
    rw [List.length_erase_of_mem (List.mem_range.2 hjlt), List.length_range] at h1
    omega
  unfold fromIdca
  rw [hrel]
  simp only [bind, Except.bind, hds]
  rw [hb]
  have : nameAlts (⟨casesOf f', altsOf f', baseVars junk f' crack, []⟩ : DS κ K)
      (some (.seq (f.levels.map Label.text))) = .error .size := by
    have hne : ¬ (f.levels.map Label.text).length = (altsOf f').length := by
      simp only [List.length_map]
      omega
    simp only [nameAlts, setAltnames, hne, if_false]
  rw [this]

/-- C84: repeated pairs of case and alternative are rejected (integer labels). -/
theorem C84_rejects_duplicates {junk : K} {f : Frame κ K} {names : Option Names} {crack : Bool} {avail : String}
    {fill : Option (Fill K)} (hok : f.Ok) (hint : ∀ l ∈ f.levels, ∃ i, l = .int i) {i j : Nat} {c : κ} {a : Label}
    (hij : i ≠ j) (hi : f.RowAt i c a) (hj : f.RowAt j c a) :
    fromIdca junk f crack names avail fill = .error .nonUnique := by
  have hnd : ¬ f.rows.Nodup := fun hn => hij (rowAt_unique hok hn hi hj)
  unfold fromIdca relabel
  rw [(all_isInt _).2 hint]
  simp [bind, Except.bind, toDataset, hnd]

/-- C84: without names and without `fill_missing`, distinct pairs with integer labels are always accepted. -/
theorem C84_accepts {junk : K} {f : Frame κ K} {crack : Bool} {avail : String} (hok : f.Ok)
    (hint : ∀ l ∈ f.levels, ∃ i, l = .int i)
    (huniq : ∀ i j c a, f.RowAt i c a → f.RowAt j c a → i = j) :
    ∃ ds, fromIdca junk f crack none avail none = .ok (ds, f) := by
  have hn : f.rows.Nodup := by
    rw [List.nodup_iff_getElem?_ne_getElem?]
    intro i j hij hj he
    have hlt : i < f.rows.length := by omega
    have hcode := hok.codes _ (List.getElem_mem hlt)
    have h1 : f.RowAt i (f.rows[i]).1 (f.levels[(f.rows[i]).2]) :=
      ⟨(f.rows[i]).2, List.getElem?_eq_getElem hlt, List.getElem?_eq_getElem hcode⟩
    have h2 : f.RowAt j (f.rows[i]).1 (f.levels[(f.rows[i]).2]) :=
      ⟨(f.rows[i]).2, by rw [← he]; exact List.getElem?_eq_getElem hlt, List.getElem?_eq_getElem hcode⟩
    have := huniq i j _ _ h1 h2
    omega
  have hadd : ∀ ds0 : DS κ K, ∃ d, addAvail f avail none ds0 = .ok d := by
    intro ds0
    unfold addAvail
    split <;> exact ⟨_, rfl⟩
  unfold fromIdca relabel
  rw [(all_isInt _).2 hint]
  simp only [if_true, bind, Except.bind, toDataset, hn, nameAlts]
  obtain ⟨d, hd⟩ := hadd (setDtypes junk f (if crack = true then crackDS
    (⟨casesOf f, altsOf f, f.cols.map (fun nc => (nc.1, ⟨nc.2.dtype, .ca (f.dense nc.2)⟩)), []⟩ : DS κ K) else
    ⟨casesOf f, altsOf f, f.cols.map (fun nc => (nc.1, ⟨nc.2.dtype, .ca (f.dense nc.2)⟩)), []⟩))
  simp only [casesOf, altsOf] at hd
  rw [hd]
  exact ⟨d, rfl⟩

/-- C84, cells without a row, a mapping whose keys include the column's type: the value given for the column's name, or
else for its type (`crack=False`; integer labels; the default name of the availability variable). -/
theorem C84_fill_map_partial {junk y : K} {f f' : Frame κ K} {names : Option Names} {byName : String → Option K}
    {byType : Dt → Option K} {ds : DS κ K} (hok : f.Ok)
    (hint : ∀ l ∈ f.levels, ∃ i, l = .int i) (hnew : "_avail_" ∉ f.cols.map Prod.fst)
    (h : fromIdca junk f false names "_avail_" (some (.map byName byType)) = .ok (ds, f')) {c : κ} {a : Label}
    (hc : c ∈ ds.cases) (ha : a ∈ ds.alts) (habs : ∀ i, ¬ f.RowAt i c a) {k : String} {col : Col K}
    (hcol : (k, col) ∈ f.cols) (hy : byType col.dtype = some y) :
    ds.read k c a = some (some ((byName k).getD y)) := by
  obtain ⟨names', ds1, hrel, hok', hn, -, e1, e2, e3, hadd⟩ := fromIdca_stages hok h
  obtain ⟨-, -, -, -, hsame⟩ := relabel_spec hok hrel
  obtain ⟨rfl, rfl⟩ := hsame hint
  have hmem : (k, baseVar junk f' false col) ∈ ds1.vars := by
    rw [e3]
    exact List.mem_map.2 ⟨(k, col), hcol, rfl⟩
  have hnames : (ds1.vars.map Prod.fst) = f'.cols.map Prod.fst := by rw [e3, baseVars_names]
  obtain ⟨d1, d2, -, z, hz, -, -, hfill⟩ := addAvail_cols (by rw [hnames]; exact hok.names)
    (Or.inl rfl) hadd hmem
  have hsp : f'.rows.length < ds1.cases.length * ds1.alts.length := by
    rw [e1, e2]
    refine sparse_of_absent hok hn ?_ ?_ habs
    · rw [← e1, ← d1]; exact hc
    · rw [← e2, ← d2]; exact ha
  have := hfill _ rfl rfl (by rw [hnames]; exact hnew) hsp
  simp only [baseVar, castVar, Bool.false_eq_true, if_false, fillWith, fillerFor, hy] at this
  simp only [reduceCtorEq, and_false, if_false] at this
  injection this with this
  rw [read_eq, hz, ← this]
  simp [Var.at, whereFill, find_none habs]

/-- C84 fails: a mapping of variable names to values, as documented, is an error as soon as it names a column that has
cells to fill, unless it also has the column's type as a key. -/
theorem C84_fails_fill_map {junk : K} {f : Frame κ K} {names : Option Names} {byName : String → Option K}
    {byType : Dt → Option K} (hok : f.Ok)
    (hint : ∀ l ∈ f.levels, ∃ i, l = .int i) (hnew : "_avail_" ∉ f.cols.map Prod.fst) {i j : Nat} {c c' : κ}
    {a a' : Label} (hc : f.RowAt i c a') (ha : f.RowAt j c' a) (habs : ∀ i, ¬ f.RowAt i c a) {k : String} {col : Col K}
    (hcol : (k, col) ∈ f.cols) (hk : byName k ≠ none) (hy : byType col.dtype = none) :
    ∀ r, fromIdca junk f false names "_avail_" (some (.map byName byType)) ≠ .ok r := by
  rintro ⟨ds, f'⟩ h
  obtain ⟨names', ds1, hrel, hok', hn, -, e1, e2, e3, hadd⟩ := fromIdca_stages hok h
  obtain ⟨-, -, -, -, hsame⟩ := relabel_spec hok hrel
  obtain ⟨rfl, rfl⟩ := hsame hint
  have hmem : (k, baseVar junk f' false col) ∈ ds1.vars := by
    rw [e3]
    exact List.mem_map.2 ⟨(k, col), hcol, rfl⟩
  have hnames : (ds1.vars.map Prod.fst) = f'.cols.map Prod.fst := by rw [e3, baseVars_names]
  obtain ⟨-, -, -, z, hz, -, -, hfill⟩ := addAvail_cols (by rw [hnames]; exact hok.names)
    (Or.inl rfl) hadd hmem
  have hsp : f'.rows.length < ds1.cases.length * ds1.alts.length := by
    rw [e1, e2]
    exact sparse_of_absent hok hn (mem_casesOf hc) ((mem_altsOf a).2 ⟨j, c', ha⟩) habs
  have := hfill _ rfl rfl (by rw [hnames]; exact hnew) hsp
  simp only [baseVar, castVar, Bool.false_eq_true, if_false, fillWith, fillerFor, hy, hk, false_and] at this
  cases this

end sparse

section constant
variable {κ K : Type} [DecidableEq κ] [Field K] [LinearOrder K] [IsStrictOrderedRing K]

theorem variance_const {xs : List K} {v s : K} (hall : ∀ x ∈ xs, x = v) (hs : variance xs = some s) : s = 0 := by
  unfold variance at hs
  split at hs
  · cases hs
  · rename_i hne
    injection hs with hs
    have hn : (xs.length : K) ≠ 0 := by
      have : xs.length ≠ 0 := by simpa using hne
      exact_mod_cast this
    have hrep : xs = List.replicate xs.length v := List.eq_replicate_iff.2 ⟨rfl, hall⟩
    have hmean : mean xs = v := by
      unfold mean
      rw [show xs.sum = xs.length * v by conv_lhs => rw [hrep]
                                         simp]
      field_simp
    rw [hmean] at hs
    rw [← hs]
    have : (xs.map (fun x => (x - v) ^ 2)).sum = 0 := by
      apply List.sum_eq_zero
      intro y hy
      obtain ⟨x, hx, rfl⟩ := List.mem_map.1 hy
      rw [hall x hx]
      ring
    rw [this]
    simp

/-- C84 (`crack=True`): a numeric column without NaN that is the same for all rows of each case is read as that value for
every alternative, those without a row included. -/
theorem C84_constant {junk : K} {f f' : Frame κ K} {names : Option Names} {avail : String} {fill : Option (Fill K)}
    {ds : DS κ K} (hok : f.Ok) (hav : avail = "_avail_" ∨ "_avail_" ∉ f.cols.map Prod.fst)
    (h : fromIdca junk f true names avail fill = .ok (ds, f')) {k : String} {col : Col K} (hcol : (k, col) ∈ f.cols)
    (hd : col.dtype ≠ .other) {val : κ → K}
    (hconst : ∀ i c a x, f.RowAt i c a → f.Value i k x → x = some (val c)) {i : Nat} {c : κ} {a : Label}
    (hr : f.RowAt i c a) (b : Label) : ds.read k c b = some (some (val c)) := by
  obtain ⟨names', ds1, hrel, hok', hn, -, e1, e2, e3, hadd⟩ := fromIdca_stages hok h
  obtain ⟨-, hcols, hcasecol, hrows, -⟩ := relabel_spec hok hrel
  have hcol' : (k, col) ∈ f'.cols := by rw [hcols]; exact hcol
  have hmem : (k, baseVar junk f' true col) ∈ ds1.vars := by
    rw [e3]
    exact List.mem_map.2 ⟨(k, col), hcol', rfl⟩
  have hnames : (ds1.vars.map Prod.fst) = f.cols.map Prod.fst := by rw [e3, baseVars_names, hcols]
  have back : ∀ j c b', f'.RowAt j c b' → ∃ a', f.RowAt j c a' := by
    rintro j c b' ⟨p, hp, -⟩
    have hlt : j < f.rows.length := by
      have h1 := (List.getElem?_eq_some_iff.1 hp).1
      have h2 := congrArg List.length hcasecol
      simp only [List.length_map] at h2
      omega
    have hc : (f.rows[j]).1 = c := by
      have h1 : (f.rows.map Prod.fst)[j]? = some c := by rw [← hcasecol]; simp [hp]
      simpa [List.getElem?_eq_getElem hlt] using h1
    have hcode := hok.codes _ (List.getElem_mem hlt)
    refine ⟨f.levels[(f.rows[j]).2], (f.rows[j]).2, ?_, List.getElem?_eq_getElem hcode⟩
    rw [List.getElem?_eq_getElem hlt, ← hc]
  have hpres : ∀ c, ∀ x ∈ present (altsOf f') (f'.dense col) c, x = val c := by
    intro c x hx
    obtain ⟨j, b', hj, hjv⟩ := mem_present hx
    obtain ⟨a', ha'⟩ := back j c b' hj
    have := hconst j c a' (some x) ha' ⟨col, hcol, hjv⟩
    injection this
  obtain ⟨b0, hb0, -⟩ := hrows i c a hr
  have hval : col.vals[i]? = some (some (val c)) := by
    have hlt : i < col.vals.length := by
      rw [hok.lengths _ hcol]
      obtain ⟨p, hp, -⟩ := hr
      exact (List.getElem?_eq_some_iff.1 hp).1
    rw [List.getElem?_eq_getElem hlt]
    exact congrArg some (hconst i c a _ hr ⟨col, hcol, List.getElem?_eq_getElem hlt⟩)
  have hin := mem_present_of_row hok' hn hb0 hval
  have hdis : dissolves (casesOf f') (altsOf f') (f'.dense col) = true := by
    have htol : (0 : K) < (tol : K) ^ 2 := by unfold tol; positivity
    unfold dissolves
    simp only [Bool.and_eq_true, Bool.not_eq_true', List.all_eq_true, decide_eq_true_eq, List.mem_filterMap]
    constructor
    · rw [List.isEmpty_eq_false_iff]
      have hv : ∃ s, variance (present (altsOf f') (f'.dense col) c) = some s := by
        unfold variance
        rw [if_neg (List.ne_nil_of_mem hin)]
        exact ⟨_, rfl⟩
      obtain ⟨s, hs⟩ := hv
      exact List.ne_nil_of_mem (List.mem_filterMap.2 ⟨c, mem_casesOf hb0, hs⟩)
    · rintro s ⟨c1, -, hs⟩
      rw [variance_const (hpres c1) hs]
      exact htol
  have hbase : baseVar junk f' true col = ⟨col.dtype, .co (fun c => DatasetM.cast junk col.dtype
      (minOf (present (altsOf f') (f'.dense col) c)))⟩ := by
    unfold baseVar
    simp only [if_true]
    rw [crackVar_num hd, if_pos hdis]
    rfl
  obtain ⟨m, hm⟩ := minOf_isSome (List.ne_nil_of_mem hin)
  have hmv : m = val c := hpres c m (minOf_mem hm)
  have hlook : ds.vars.lookup k = some (baseVar junk f' true col) := by
    obtain ⟨-, -, -, y, hy, hp, hnone, hfill⟩ := addAvail_cols (by rw [hnames]; exact hok.names)
      (by rw [hnames]; exact hav) hadd hmem
    by_cases hcond : avail ∉ ds1.vars.map Prod.fst ∧ f'.rows.length < ds1.cases.length * ds1.alts.length
    · cases fill with
      | none => rw [hy, hnone rfl]
      | some g =>
        by_cases hname : avail = "_avail_"
        · have := hfill g rfl hname hcond.1 hcond.2
          rw [hbase] at this
          simp only [fillWith] at this
          injection this with this
          rw [hy, ← this, hbase]
        · have hno : "_avail_" ∉ (ds1.vars ++ [(avail, availVar f')]).map Prod.fst := by
            simp only [List.map_append, hnames, List.map_cons, List.map_nil, List.mem_append, List.mem_singleton, not_or]
            exact ⟨hav.resolve_left hname, fun e => hname e.symm⟩
          unfold addAvail at hadd
          rw [if_pos hcond, putVar_new hcond.1] at hadd
          simp only [bind, Except.bind] at hadd
          cases hl : fillLoop g (ds1.vars ++ [(avail, availVar f')]) with
          | error e => rw [hl] at hadd; cases hadd
          | ok out =>
            rw [hl] at hadd
            injection hadd with hadd
            subst hadd
            have := fillLoop_other hno hl
            subst this
            exact lookup_append_of_some (lookup_of_mem (by rw [hnames]; exact hok.names) hmem)
    · unfold addAvail at hadd
      rw [if_neg hcond] at hadd
      injection hadd with hadd
      subst hadd
      exact lookup_of_mem (by rw [hnames]; exact hok.names) hmem
  rw [read_eq, hlook, hbase]
  simp only [Option.map_some, Var.at]
  rw [hm, hmv, cast_some]

end constant

section query
variable {κ K : Type}

/-- C84, `query_cases` on dense data: the result has exactly the cases that satisfy the query, in order, and every variable
has for them the value it had. -/
theorem C84_query (p : κ → Bool) (ds : DS κ K) :
    (∀ c, c ∈ (queryCases p ds).cases ↔ c ∈ ds.cases ∧ p c = true) ∧
    (queryCases p ds).cases.Sublist ds.cases ∧
    (queryCases p ds).alts = ds.alts ∧
    ∀ k c a, (queryCases p ds).read k c a = ds.read k c a :=
  ⟨fun _ => List.mem_filter, List.filter_sublist, rfl, fun _ _ _ => rfl⟩

/-- Two cases: the first with rows 10 and 11, the second with row 20. -/
def ceTwo : CeDS Nat Nat Nat := ⟨[1, 2], [("inc", [100, 200])], [10, 11, 20], [0, 2, 3]⟩

/-- C84 fails: `query_cases` on `idce` data keeps the labels and `idco` variables of the selected cases but neither the rows
nor the pointers: the remaining case 2 is computed with the rows of case 1, and there are more pointers than cases. -/
theorem C84_fails_query_ce :
    (ceQueryCases [false, true] ceTwo).cases = [2] ∧
    (ceQueryCases [false, true] ceTwo).coVars = [("inc", [200])] ∧
    (ceQueryCases [false, true] ceTwo).caseRows 0 = [10, 11] ∧
    ceTwo.caseRows 1 = [20] ∧
    (ceQueryCases [false, true] ceTwo).casePtr.length ≠ (ceQueryCases [false, true] ceTwo).cases.length + 1 := by
  decide

end query

section examples

/-- Two cases and three alternatives 1, 2, 3; case 1 has rows for 1 and 2, case 2 for 1, 2 and 3.  `cost` varies, `inc` does
not vary within cases, `n` is an integer column. -/
def exF : Frame Nat Rat :=
  ⟨[.int 1, .int 2, .int 3], [(1, 0), (1, 1), (2, 0), (2, 1), (2, 2)],
    [("cost", ⟨.flt, [some 5, some 6, some 7, none, some 9]⟩), ("inc", ⟨.flt, [some 10, some 10, some 20, some 20, some 20]⟩),
     ("n", ⟨.int, [some 1, some 2, some 3, some 4, some 5]⟩)]⟩

/-- The same with names as labels. -/
def exT : Frame Nat Rat := { exF with levels := [.str "car", .str "bus", .str "walk"] }

theorem exF_ok : exF.Ok where
  levels := by decide
  codes := by decide
  lengths := by
    intro nc h
    simp only [exF, List.mem_cons, List.not_mem_nil, or_false] at h
    rcases h with rfl | rfl | rfl <;> rfl
  names := by decide
  ints := by
    intro nc h hd
    simp only [exF, List.mem_cons, List.not_mem_nil, or_false] at h
    rcases h with rfl | rfl | rfl
    · cases hd
    · cases hd
    · intro x hx
      simp only [List.mem_cons, List.not_mem_nil, or_false] at hx
      rcases hx with rfl | rfl | rfl | rfl | rfl <;> exact Option.some_ne_none _

theorem exT_ok : exT.Ok := ⟨by decide, exF_ok.codes, exF_ok.lengths, exF_ok.names, exF_ok.ints⟩

theorem exF_int : ∀ l ∈ exF.levels, ∃ i, l = .int i := by
  intro l h
  simp only [exF, List.mem_cons, List.not_mem_nil, or_false] at h
  rcases h with rfl | rfl | rfl <;> exact ⟨_, rfl⟩

/-- What a run gives for a variable at a cell. -/
def runAt (junk : Rat) (f : Frame Nat Rat) (crack : Bool) (names : Option Names) (avail : String)
    (fill : Option (Fill Rat)) (k : String) (c : Nat) (a : Label) : Except Err (Option (Option Rat)) :=
  match fromIdca junk f crack names avail fill with
  | .error e => .error e
  | .ok (ds, _) => .ok (ds.read k c a)

instance : DecidableEq (Except Err (Option (Option Rat))) := fun a b =>
  match a, b with
  | .error x, .error y => decidable_of_iff (x = y) (by simp)
  | .ok x, .ok y => decidable_of_iff (x = y) (by simp)
  | .error _, .ok _ => isFalse (by simp)
  | .ok _, .error _ => isFalse (by simp)

/-- The hypotheses are met: the call succeeds; values, availability, NaN, the arbitrary number, the filler. -/
example : runAt (-8) exF false none "_avail_" none "cost" 2 (.int 3) = .ok (some (some 9)) := by decide +kernel
example : runAt (-8) exF false none "_avail_" none "cost" 1 (.int 3) = .ok (some none) := by decide +kernel
example : runAt (-8) exF false none "_avail_" none "n" 1 (.int 3) = .ok (some (some (-8))) := by decide +kernel
example : runAt (-8) exF false none "_avail_" none "_avail_" 1 (.int 3) = .ok (some (some 0)) := by decide +kernel
example : runAt (-8) exF false none "_avail_" none "_avail_" 1 (.int 2) = .ok (some (some 1)) := by decide +kernel
example : runAt (-8) exF false none "_avail_" (some (.scalar 99)) "cost" 1 (.int 3) = .ok (some (some 99)) := by
  decide +kernel
example : runAt (-8) exF true none "_avail_" none "inc" 1 (.int 3) = .ok (some (some 10)) := by decide +kernel
example : runAt (-8) exF true none "_avail_" none "cost" 1 (.int 2) = .ok (some (some 6)) := by decide +kernel
/-- Rows, values and an absent pair. -/
example : exF.RowAt 4 2 (.int 3) ∧ exF.Value 4 "cost" (some 9) ∧ ∀ i, ¬ exF.RowAt i 1 (.int 3) := by
  refine ⟨⟨2, rfl, rfl⟩, ⟨_, List.mem_cons_self, rfl⟩, ?_⟩
  rintro i ⟨code, h, h'⟩
  match i, h with
  | 0, h => injection h with h; injection h with _ h; subst h; exact absurd h' (by decide)
  | 1, h => injection h with h; injection h with _ h; subst h; exact absurd h' (by decide)
  | 2, h => injection h with h; injection h with h _; exact absurd h (by decide)
  | 3, h => injection h with h; injection h with h _; exact absurd h (by decide)
  | 4, h => injection h with h; injection h with h _; exact absurd h (by decide)
/-- The availability of a pair without a row, with a scalar to fill: 99, so available. -/
example : runAt (-8) exF false none "_avail_" (some (.scalar 99)) "_avail_" 1 (.int 3) = .ok (some (some 99)) := by
  decide +kernel
/-- Another name for the availability variable: an error. -/
example : runAt (-8) exF false none "av" (some (.scalar 99)) "cost" 1 (.int 3) = .error .key := by decide +kernel
/-- A mapping by name: an error; by name and type: fine. -/
example : runAt (-8) exF false none "_avail_" (some (.map (fun k => if k = "cost" then some 1 else none) (fun _ => none)))
    "cost" 1 (.int 3) = .error .key := by decide +kernel
example : runAt (-8) exF false none "_avail_" (some (.map (fun k => if k = "cost" then some 1 else none)
    (fun d => if d = .flt then some 2 else none))) "cost" 1 (.int 3) = .ok (some (some 1)) := by decide +kernel
/-- Text labels, with and without names. -/
example : runAt (-8) exT false none "_avail_" none "cost" 2 (.int 3) = .ok (some (some 9)) := by decide +kernel
example : runAt (-8) exT false (some (.seq ["walk", "car", "bus"])) "_avail_" none "cost" 2 (.int 1)
    = .ok (some (some 9)) := by decide +kernel
/-- An unused text label: an error. -/
example : runAt (-8) { exT with levels := exT.levels ++ [.str "bike"] } false none "_avail_" none "cost" 2 (.int 3)
    = .error .size := by decide +kernel

/-- One case, two alternatives whose values differ by `10⁻¹¹`; and a NaN beside a number. -/
def exClose : Frame Nat Rat :=
  ⟨[.int 1, .int 2], [(1, 0), (1, 1)],
    [("x", ⟨.flt, [some 0, some (1 / 10 ^ 11)]⟩), ("y", ⟨.flt, [some 3, none]⟩)]⟩

/-- C84 fails (`crack=True`): values that differ by less than the tolerance are replaced by the least of them. -/
theorem C84_fails_crack_close :
    exClose.Value 1 "x" (some (1 / 10 ^ 11)) ∧ exClose.RowAt 1 1 (.int 2) ∧
    runAt (-8) exClose true none "_avail_" none "x" 1 (.int 2) = .ok (some (some 0)) :=
  ⟨⟨_, List.mem_cons_self, rfl⟩, ⟨1, rfl, rfl⟩, by decide +kernel⟩

/-- C84 fails (`crack=True`): a NaN in a row is replaced by the value of another alternative. -/
theorem C84_fails_crack_nan :
    exClose.Value 1 "y" none ∧ exClose.RowAt 1 1 (.int 2) ∧
    runAt (-8) exClose true none "_avail_" none "y" 1 (.int 2) = .ok (some (some 3)) :=
  ⟨⟨_, List.mem_cons_of_mem _ List.mem_cons_self, rfl⟩, ⟨1, rfl, rfl⟩, by decide +kernel⟩

end examples

end Larch.Props
