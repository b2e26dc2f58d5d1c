import Verif.Props.Store

/-!
# C138: new systematic alternatives keep the data of every row
-/

namespace Larch.Props

open Larch.Frames Larch.Choices

theorem na_rows {t : Tab2} {code : List Int} (hl : code.length = t.mf.rows.length) (k : Nat) (q : (Int × Int) × (String → Int)) :
    (recodeRows t code).mf.rows[k]? = some q ↔ ∃ r b, t.mf.rows[k]? = some r ∧ code[k]? = some b ∧ q = ((r.1.1, b), r.2) := by
  show ((t.mf.rows.zip code).map _)[k]? = some q ↔ _
  rw [List.getElem?_map, Option.map_eq_some_iff]
  constructor
  · rintro ⟨p, hp, rfl⟩
    obtain ⟨h1, h2⟩ := List.getElem?_zip_eq_some.mp hp
    exact ⟨p.1, p.2, h1, h2, rfl⟩
  · rintro ⟨r, b, h1, h2, rfl⟩
    exact ⟨(r, b), List.getElem?_zip_eq_some.mpr ⟨h1, h2⟩, rfl⟩

theorem na_regular {t : Tab2} {code : List Int} (hl : code.length = t.mf.rows.length)
    (hd : ∀ (k l : Nat) r s b, t.mf.rows[k]? = some r → t.mf.rows[l]? = some s → r.1.1 = s.1.1 → code[k]? = some b → code[l]? = some b → k = l) :
    Regular (recodeRows t code).mf := by
  refine ⟨ch_uniq_sorted _, ch_uniq_sorted _, fun q hq => ?_, ?_⟩
  · obtain ⟨k, hk⟩ := List.mem_iff_getElem?.mp hq
    obtain ⟨r, b, h1, h2, rfl⟩ := (na_rows hl k q).mp hk
    exact ⟨ch_uniq_mem.mpr (List.mem_map.mpr ⟨r, List.mem_of_getElem? h1, rfl⟩), ch_uniq_mem.mpr (List.mem_of_getElem? h2)⟩
  · rw [List.nodup_iff_getElem?_ne_getElem?]
    intro k l hkl hlt he
    rw [List.length_map] at hlt
    have h1 := List.getElem?_eq_getElem (l := (recodeRows t code).mf.rows) (i := k) (by omega)
    have h2 := List.getElem?_eq_getElem (l := (recodeRows t code).mf.rows) (i := l) hlt
    rw [List.getElem?_map, List.getElem?_map, h1, h2, Option.map_some, Option.map_some, Option.some.injEq] at he
    obtain ⟨r, b, a1, a2, a3⟩ := (na_rows hl k _).mp h1
    obtain ⟨s, c, b1, b2, b3⟩ := (na_rows hl l _).mp h2
    rw [a3, b3] at he
    simp only [Prod.mk.injEq] at he
    have := hd k l r s b a1 b1 he.1 a2 (he.2 ▸ b2)
    omega

theorem na_cases {t : Tab2} {code : List Int} (hl : code.length = t.mf.rows.length) {ids : List Int} (h : CasesOf t.mf ids) :
    CasesOf (recodeRows t code).mf ids := by
  refine ⟨h.sorted, fun c => ?_⟩
  rw [h.mem]
  constructor
  · rintro ⟨r, hr, rfl⟩
    obtain ⟨k, hk⟩ := List.mem_iff_getElem?.mp hr
    have hlt := (List.getElem?_eq_some_iff.mp hk).1
    have hc := List.getElem?_eq_getElem (l := code) (i := k) (by omega)
    exact ⟨_, List.mem_of_getElem? ((na_rows hl k _).mpr ⟨r, _, hk, hc, rfl⟩), rfl⟩
  · rintro ⟨q, hq, rfl⟩
    obtain ⟨k, hk⟩ := List.mem_iff_getElem?.mp hq
    obtain ⟨r, b, h1, _, rfl⟩ := (na_rows hl k q).mp hk
    exact ⟨r, List.mem_of_getElem? h1, rfl⟩

theorem na_cellD {t : Table} {i a : Nat} {v : Int} (h : cellAt t i a = some v) : cellD t i a = v := by
  unfold cellD cellAt at *
  rw [h]; rfl

/-- **C138 (rows keep their data).** A container of idce data with the cases `ids`, in which the new codes are different within every case and rows are
missing also with the new codes: `new_systematic_alternatives` succeeds, keeps cases, attributes and weights with their normalization; the rows of data are the
old rows, each under its new code; the new alternatives are the
new codes in increasing order; and at the new code of a row the choice and the availability are what they were at its old code, and
0 where a case has no row with a new code. -/
theorem C138_rows (d : Cont) (t : Tab2) (ht : d.ce = some t) (ids : List Int) (hreg : Regular t.mf) (hcas : CasesOf t.mf ids)
    (hne : t.mf.rows ≠ [])
    (hco : ∀ f, d.co = some f → f.rows.map Prod.fst = ids) (hwt : ∀ w, d.wt = some w → w.map Prod.fst = ids)
    (ch av : Table) (hch : d.ch = some ch) (hav : d.av = some av)
    (hchw : ∀ i a, i < ids.length → a < t.mf.lev1.length → ∃ v, cellAt ch i a = some v)
    (havw : ∀ i a, i < ids.length → a < t.mf.lev1.length → ∃ v, cellAt av i a = some v)
    (code : List Int) (names : List String) (hl : code.length = t.mf.rows.length)
    (hd : ∀ (k l : Nat) r s b, t.mf.rows[k]? = some r → t.mf.rows[l]? = some s → r.1.1 = s.1.1 → code[k]? = some b → code[l]? = some b → k = l)
    (codes : List Int) (hcs : codes.Pairwise (· < ·)) (hcm : ∀ b, b ∈ codes ↔ b ∈ code)
    (hmiss : t.mf.rows.length < ids.length * codes.length) :
    ∃ e ch' av', recode d code names = some e ∧ e.codes = codes ∧ e.names = some names ∧ e.wt = d.wt ∧ e.norm = d.norm ∧ e.ch = some ch' ∧ e.av = some av' ∧
      (∀ f, d.co = some f → e.co = some f) ∧
      (∃ u, e.ce = some u ∧ u.names = t.names ∧ u.mf.rows.length = t.mf.rows.length ∧
        ∀ q, q ∈ u.mf.rows ↔ ∃ (k : Nat) (r : (Int × Int) × (String → Int)) (b : Int), t.mf.rows[k]? = some r ∧ code[k]? = some b ∧ q = ((r.1.1, b), r.2)) ∧
      (∀ (k : Nat) r b (i a p : Nat), t.mf.rows[k]? = some r → code[k]? = some b → ids[i]? = some r.1.1 → t.mf.lev1[a]? = some r.1.2 →
        codes[p]? = some b → cellAt ch' i p = cellAt ch i a ∧ cellAt av' i p = cellAt av i a) ∧
      (∀ (i p : Nat) c b, ids[i]? = some c → codes[p]? = some b → (∀ (k : Nat) r, t.mf.rows[k]? = some r → r.1.1 = c → code[k]? ≠ some b) →
        cellAt ch' i p = some 0 ∧ cellAt av' i p = some 0) := by
  have hu : uniq code = codes := by unfold uniq; exact sorted_dedup_eq hcs hcm
  let x : Choices.Args :=
      { codes := some (uniq code)
        co := d.co
        alts := some (recodeRows t code)
        ch := (d.ch.map (fun c => Choice.onRows (asCe t.mf (cellD c)))).getD .absent
        av := (d.av.map (fun c => Avail.onRows (asCe t.mf (cellD c)))).getD .absent
        wt := (d.wt.map Weight.series).getD .absent }
  have hxch : x.ch = .onRows (asCe t.mf (cellD ch)) := by simp [x, hch]
  have hxav : x.av = .onRows (asCe t.mf (cellD av)) := by simp [x, hav]
  have hrecode : recode d code names = (construct x (some names) d.caseName).map (fun e => { e with norm := d.norm }) := by unfold recode; rw [ht]
  have hreg' := na_regular hl hd
  have hcas' := na_cases hl hcas
  have hlev1 : (recodeRows t code).mf.lev1 = codes := hu
  have hlen : (recodeRows t code).mf.rows.length = t.mf.rows.length := by
    show (List.map _ (List.zip _ _)).length = _
    rw [List.length_map, List.length_zip]; omega
  have hlev0 : (recodeRows t code).mf.lev0 = ids := by
    show uniq _ = _
    unfold uniq
    exact sorted_dedup_eq hcas.sorted (fun c => by rw [hcas.mem, List.mem_map])
  have hcne : codes ≠ [] := by
    rintro rfl
    obtain ⟨r, hr⟩ := List.exists_mem_of_ne_nil _ hne
    have : code ≠ [] := by rintro rfl; exact hne (List.length_eq_zero_iff.mp hl.symm)
    obtain ⟨b, hb⟩ := List.exists_mem_of_ne_nil _ this
    exact absurd ((hcm b).mpr hb) (by simp)
  have hi : CaseSet x ids := by
    refine ⟨hcas.sorted, fun f hf => by rw [hco f hf], fun u hu' => ?_, Or.inr (by simp [x])⟩
    cases hu'
    exact ⟨hreg', hcas', by rw [hlev1]; exact hcne⟩
  have ha : AltSet x codes := by
    refine ⟨hcs, Or.inr (by simp [x, hu]), fun u hu' => ?_, Or.inl (by simp [x])⟩
    cases hu'
    exact hlev1
  have hmiss' : (recodeRows t code).mf.rows.length < (recodeRows t code).mf.lev0.length * (recodeRows t code).mf.lev1.length := by
    rw [hlen, hlev0, hlev1]; exact hmiss
  have hce : ce x = some (recodeRows t code) := ch_ce.mpr ⟨rfl, by unfold isIdce; simp [hmiss']⟩
  -- the value at (case, new code)
  have hval : ∀ M : Table, (∀ i a, i < ids.length → a < t.mf.lev1.length → ∃ v, cellAt M i a = some v) → ∃ g : Int → Int → Int,
      (∀ (k : Nat) q, (recodeRows t code).mf.rows[k]? = some q → (asCe t.mf (cellD M))[k]? = some (g q.1.1 q.1.2)) ∧
      (∀ (k : Nat) r b (i a : Nat), t.mf.rows[k]? = some r → code[k]? = some b → ids[i]? = some r.1.1 → t.mf.lev1[a]? = some r.1.2 →
        cellAt M i a = some (g r.1.1 b)) ∧
      (∀ c b, (∀ q ∈ (recodeRows t code).mf.rows, q.1 ≠ (c, b)) → g c b = 0) := by
    intro M hM
    obtain ⟨hlen', hget⟩ := C80_as_ce t.mf hreg ids hcas (cellD M)
    let rows := ((recodeRows t code).mf.rows.map Prod.fst).zip (asCe t.mf (cellD M))
    have hnd : (rows.map Prod.fst).Nodup := by
      rw [List.map_fst_zip (by rw [List.length_map, hlen, hlen'])]
      exact hreg'.nodup
    refine ⟨fun c b => (rows.lookup (c, b)).getD 0, ?_, ?_, ?_⟩
    · intro k q hq
      have hk : k < t.mf.rows.length := hlen ▸ (List.getElem?_eq_some_iff.mp hq).1
      have h1 := List.getElem?_eq_getElem (l := asCe t.mf (cellD M)) (i := k) (by omega)
      have hm : (q.1, (asCe t.mf (cellD M))[k]) ∈ rows := by
        refine List.mem_of_getElem? (i := k) ?_
        rw [List.getElem?_zip_eq_some]
        exact ⟨by rw [List.getElem?_map, hq]; rfl, h1⟩
      rw [h1]
      show _ = some ((rows.lookup (q.1.1, q.1.2)).getD 0)
      rw [lookup_of_mem hnd hm]
      rfl
    · intro k r b i a hr hb hii haa
      have hq := (na_rows hl k _).mpr ⟨r, b, hr, hb, rfl⟩
      have hv := hget k r i a hr hii haa
      have hm : ((r.1.1, b), cellD M i a) ∈ rows := by
        refine List.mem_of_getElem? (i := k) ?_
        rw [List.getElem?_zip_eq_some]
        exact ⟨by rw [List.getElem?_map, hq]; rfl, hv⟩
      show _ = some ((rows.lookup (r.1.1, b)).getD 0)
      rw [lookup_of_mem hnd hm]
      obtain ⟨v, hv'⟩ := hM i a (List.getElem?_eq_some_iff.mp hii).1 (List.getElem?_eq_some_iff.mp haa).1
      rw [na_cellD hv', hv']
      rfl
    · intro c b hno
      show (rows.lookup (c, b)).getD 0 = 0
      rw [lookup_none_of]
      · rfl
      · rw [List.map_fst_zip (by rw [List.length_map, hlen, hlen'])]
        intro hmem
        obtain ⟨q, hq, he⟩ := List.mem_map.mp hmem
        exact hno q hq he
  obtain ⟨g, g1, g2, g3⟩ := hval ch hchw
  obtain ⟨ga, ga1, ga2, ga3⟩ := hval av havw
  have hchold := C135_rows_partial x ids codes hi ha _ hxch _ rfl (by rw [(C80_as_ce t.mf hreg ids hcas (cellD ch)).1, hlen]) hmiss' g g1
    (fun i _ a _ hno => g3 i a hno)
  obtain ⟨ch', hc1, hc2, hc3, hc4⟩ := hchold
  have hac := aw_altCodes ha hc1
  -- weights
  have hw : weights x = some d.wt := by
    unfold weights
    rw [hac, Option.bind_some, hc1, Option.bind_some]
    cases hdw : d.wt with
    | none =>
      have : x.wt = .absent := by simp [x, hdw]
      rw [this]
    | some w =>
      have : x.wt = .series w := by simp [x, hdw]
      rw [this]
      simp only []
      rw [ch_nCases hi ha, if_pos (by rw [← hwt w hdw, List.length_map])]
      rfl
  -- availability
  have hvl := (C80_as_ce t.mf hreg ids hcas (cellD av)).1
  let rows := ((recodeRows t code).mf.rows.map Prod.fst).zip (asCe t.mf (cellD av))
  have hfstz : rows.map Prod.fst = (recodeRows t code).mf.rows.map Prod.fst := by
    rw [List.map_fst_zip (by rw [List.length_map, hlen, hvl])]
  have hrowz : ∀ r ∈ rows, ga r.1.1 r.1.2 = r.2 := by
    intro r hr
    obtain ⟨k, hk⟩ := List.mem_iff_getElem?.mp hr
    obtain ⟨h1, h2⟩ := List.getElem?_zip_eq_some.mp hk
    rw [List.getElem?_map, Option.map_eq_some_iff] at h1
    obtain ⟨q, hq, he⟩ := h1
    have := ga1 k q hq
    rw [h2, he] at this
    exact (Option.some.inj this).symm
  obtain ⟨u, hu1, hu2, hu3, hu4, hu5, hu6⟩ := ch_unstack (rows := rows) (by rw [hfstz]; exact hreg'.nodup) hcas.sorted (fun c => by
      rw [hcas'.mem]
      constructor
      · rintro ⟨q, hq, rfl⟩
        have : q.1 ∈ rows.map Prod.fst := by rw [hfstz]; exact List.mem_map.mpr ⟨q, hq, rfl⟩
        obtain ⟨r, hr, he⟩ := List.mem_map.mp this
        exact ⟨r, hr, by rw [he]⟩
      · rintro ⟨r, hr, rfl⟩
        have : r.1 ∈ (recodeRows t code).mf.rows.map Prod.fst := by rw [← hfstz]; exact List.mem_map.mpr ⟨r, hr, rfl⟩
        obtain ⟨q, hq, he⟩ := List.mem_map.mp this
        exact ⟨q, hq, by rw [he]⟩) ga hrowz
  have hucols : u.cols = codes := by
    refine List.Perm.eq_of_pairwise (le := fun a b : Int => a ≤ b) (fun a b _ _ h1 h2 => le_antisymm h1 h2) (hu2.imp (fun h => le_of_lt h)) (hcs.imp (fun h => le_of_lt h)) ?_
    rw [List.perm_ext_iff_of_nodup (hu2.imp (fun h => ne_of_lt h)) (hcs.imp (fun h => ne_of_lt h))]
    intro b
    rw [hu3, hcm]
    constructor
    · rintro ⟨r, hr, rfl⟩
      have : r.1 ∈ (recodeRows t code).mf.rows.map Prod.fst := by rw [← hfstz]; exact List.mem_map.mpr ⟨r, hr, rfl⟩
      obtain ⟨q, hq, he⟩ := List.mem_map.mp this
      obtain ⟨k, hk⟩ := List.mem_iff_getElem?.mp hq
      obtain ⟨s, c, _, h2, h3⟩ := (na_rows hl k q).mp hk
      rw [h3] at he
      rw [← he]
      exact List.mem_of_getElem? h2
    · intro hb
      obtain ⟨k, hk⟩ := List.mem_iff_getElem?.mp hb
      have hlt := (List.getElem?_eq_some_iff.mp hk).1
      have hr := List.getElem?_eq_getElem (l := t.mf.rows) (i := k) (by omega)
      have hq := (na_rows hl k _).mpr ⟨_, b, hr, hk, rfl⟩
      have : ((t.mf.rows[k]).1.1, b) ∈ rows.map Prod.fst := by rw [hfstz]; exact List.mem_map.mpr ⟨_, List.mem_of_getElem? hq, rfl⟩
      obtain ⟨r, hr', he⟩ := List.mem_map.mp this
      exact ⟨r, hr', by rw [he]⟩
  obtain ⟨uc, ur⟩ := u
  simp only at hucols
  subst hucols
  have hset := aw_set (c := some ch') hi ha (rows := ur) (by rw [hu4]) ga (fun r hr p a hp => by
    have hac' := List.mem_of_getElem? hp
    have hpl : p < r.2.length := by rw [hu5 r hr]; exact (List.getElem?_eq_some_iff.mp hp).1
    have hgd : r.2.getD (uc.idxOf a) 0 = r.2[p] := by
      rw [ch_idxOf hcs hp, List.getD_eq_getElem?_getD, List.getElem?_eq_getElem hpl]; rfl
    rw [List.getElem?_eq_getElem hpl]
    rcases hu6 r hr a hac' with ⟨_, e⟩ | ⟨hn, e⟩
    · rw [hgd] at e; rw [e]
    · rw [hgd] at e
      rw [e, ga3 r.1 a]
      intro q hq he
      have : q.1 ∈ rows.map Prod.fst := by rw [hfstz]; exact List.mem_map.mpr ⟨q, hq, rfl⟩
      obtain ⟨s, hs, he'⟩ := List.mem_map.mp this
      exact hn ⟨s.2, by rw [← he, ← he']; exact hs⟩)
  obtain ⟨av', ha1, ha2, ha3, ha4⟩ := hset
  have havx : allAv x uc (some ch') d.wt = some (some av') := by
    unfold allAv
    rw [hxav]
    simp only [availability, hac, hc1, hw, Option.bind_some, hxav, hce]
    rw [if_pos (by rw [hvl, hlen])]
    show (Option.bind (unstack rows) _).map some = _
    rw [hu1, Option.bind_some]
    exact ha1
  refine ⟨{ codes := uc, names := some names, co := d.co.map setCo, ca := ca x, ce := (ce x).map (fun t => { t with mf := setCe t.mf }), ch := some ch', wt := d.wt, av := some av', norm := d.norm, caseName := d.caseName }, ch', av', ?_, rfl, rfl, rfl, rfl, rfl, rfl, ?_, ?_, ?_, ?_⟩
  · rw [hrecode]
    unfold construct
    simp only [hac, hc1, hw, havx, Option.bind_some, Option.map_some]
    rfl
  · intro f hf
    show d.co.map setCo = some f
    rw [hf, Option.map_some]
    unfold setCo
    rw [so_setSorted_idem f.rows (by rw [hco f hf]; exact hcas.sorted.imp (fun h => le_of_lt h))]
  · refine ⟨{ recodeRows t code with mf := setCe (recodeRows t code).mf }, by show (ce x).map _ = _; rw [hce]; rfl, rfl, ?_, fun q => ?_⟩
    · rw [← hlen]; exact (regular_setCe hreg').2.2.length_eq
    · show q ∈ (setCe (recodeRows t code).mf).rows ↔ _
      rw [(regular_setCe hreg').2.2.mem_iff, List.mem_iff_getElem?]
      exact exists_congr fun k => na_rows hl k q
  · intro k r b i a p hr hb hii haa hp
    rw [hc4 i p _ _ hii hp, ha4 i p _ _ hii hp, g2 k r b i a hr hb hii haa, ga2 k r b i a hr hb hii haa]
    exact ⟨rfl, rfl⟩
  · intro i p c b hii hp hno
    have hno' : ∀ q ∈ (recodeRows t code).mf.rows, q.1 ≠ (c, b) := by
      intro q hq he
      obtain ⟨k, hk⟩ := List.mem_iff_getElem?.mp hq
      obtain ⟨r, b', h1, h2, rfl⟩ := (na_rows hl k q).mp hk
      simp only [Prod.mk.injEq] at he
      exact hno k r h1 he.1 (he.2 ▸ h2)
    rw [hc4 i p _ _ hii hp, ha4 i p _ _ hii hp, g3 c b hno', ga3 c b hno']
    exact ⟨rfl, rfl⟩

/-- **C138 (idca data).** Without idce data `new_systematic_alternatives` raises. -/
theorem C138_fails_idca (d : Cont) (h : d.ce = none) (code : List Int) (names : List String) : recode d code names = none := by
  unfold recode; rw [h]

/-- A container of idce data: case 3 has alternatives 1 and 2, case 7 has alternatives 2 and 4; 2 and 4 are chosen. -/
def ceArgs : Choices.Args :=
  { alts := some ⟨["x"], ⟨[3, 7], [1, 2, 4], [((3, 1), fun _ => 5), ((3, 2), fun _ => 6), ((7, 2), fun _ => 7), ((7, 4), fun _ => 8)], 1⟩⟩, ch := .onRows [0, 1, 0, 1] }

/-- **C138 fails (complete rows).** If with the new codes every case has all alternatives, choices and availability are dropped: case 3 chose a row and the new
container has no choices. -/
theorem C138_fails_complete : ∃ d e, construct ceArgs none "id" = some d ∧ d.ch = some ⟨[1, 2, 4], [(3, [0, 1, 0]), (7, [0, 0, 1])]⟩ ∧
    recode d [17, 33, 17, 33] ["near", "far"] = some e ∧ e.codes = [17, 33] ∧ e.ch = none ∧ e.av = none :=
  ⟨_, _, rfl, by decide +kernel, rfl, by decide +kernel, by decide +kernel, by decide +kernel⟩

/-! ## A concrete case -/

example : ∃ d e, construct ceArgs none "id" = some d ∧ recode d [17, 33, 18, 33] ["a", "b", "c"] = some e ∧ e.codes = [17, 18, 33] ∧
    e.ch = some ⟨[17, 18, 33], [(3, [0, 0, 1]), (7, [0, 0, 1])]⟩ ∧ e.av = some ⟨[17, 18, 33], [(3, [1, 0, 1]), (7, [0, 1, 1])]⟩ :=
  ⟨_, _, rfl, rfl, by decide +kernel, by decide +kernel, by decide +kernel⟩

example : ∃ d t ch av, construct ceArgs none "id" = some d ∧ d.ce = some t ∧ d.ch = some ch ∧ d.av = some av ∧ Regular t.mf ∧ CasesOf t.mf [3, 7] ∧
    (∀ i a, i < 2 → a < t.mf.lev1.length → ∃ v, cellAt ch i a = some v) ∧ (∀ i a, i < 2 → a < t.mf.lev1.length → ∃ v, cellAt av i a = some v) ∧
    (∀ (k l : Nat) r s b, t.mf.rows[k]? = some r → t.mf.rows[l]? = some s → r.1.1 = s.1.1 → [17, 33, 18, 33][k]? = some b →
      [17, 33, 18, 33][l]? = some b → k = l) ∧ t.mf.rows.length < 2 * [17, 18, 33].length := by
  refine ⟨_, ⟨["x"], ⟨[3, 7], [1, 2, 4], [((3, 1), fun _ => 5), ((3, 2), fun _ => 6), ((7, 2), fun _ => 7), ((7, 4), fun _ => 8)], 1⟩⟩,
    ⟨[1, 2, 4], [(3, [0, 1, 0]), (7, [0, 0, 1])]⟩, ⟨[1, 2, 4], [(3, [1, 1, 0]), (7, [0, 1, 1])]⟩, rfl, ?_, by decide +kernel, by decide +kernel,
    ⟨by decide, by decide, by simp, by decide⟩, ⟨by decide, by intro c; simp; omega⟩, ?_, ?_, ?_, by decide⟩
  · rfl
  · intro i a hi' ha'
    simp at ha'
    interval_cases i <;> interval_cases a <;> exact ⟨_, rfl⟩
  · intro i a hi' ha'
    simp at ha'
    interval_cases i <;> interval_cases a <;> exact ⟨_, rfl⟩
  · intro k l r s b h1 h2 h3 h4 h5
    have hk : k < 4 := (List.getElem?_eq_some_iff.mp h1).1
    have hl : l < 4 := (List.getElem?_eq_some_iff.mp h2).1
    interval_cases k <;> interval_cases l <;> simp_all <;> first | omega | (subst h1; subst h2; simp at h3)

end Larch.Props
