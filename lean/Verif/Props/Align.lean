import Verif.Lemmas.Align

/-!
# C79: positions in the arrays of a `DataFrames` refer to the same case and alternative

A row label of the alternatives' frame is (case id, alternative code).  `altRow d i a` is the row that the engine reads for the case at
position `i` and the alternative at position `a`.
-/

namespace Larch.Props

open Larch.Frames

variable {α : Type}

/-- A frame of the alternatives as pandas makes it from integer labels: levels increasing, labels from the levels, no label twice. -/
structure Regular (f : MF α) : Prop where
  lev0 : f.lev0.Pairwise (· < ·)
  lev1 : f.lev1.Pairwise (· < ·)
  rows : ∀ r ∈ f.rows, r.1.1 ∈ f.lev0 ∧ r.1.2 ∈ f.lev1
  nodup : (f.rows.map Prod.fst).Nodup

/-- The case ids that have rows, in increasing order. -/
structure CasesOf (f : MF α) (ids : List Int) : Prop where
  sorted : ids.Pairwise (· < ·)
  mem : ∀ c, c ∈ ids ↔ ∃ r ∈ f.rows, r.1.1 = c

theorem ceRow_iff {f : MF α} (hf : Regular f) {ids : List Int} (hids : CasesOf f ids) (i a : Nat) (r : (Int × Int) × α) :
    ceRow f i a = some r ↔ r ∈ f.rows ∧ ids[i]? = some r.1.1 ∧ f.lev1[a]? = some r.1.2 := by
  have hrank : ∀ x ∈ f.rows, ∀ j, caseRank f (code0 f x.1.1) = j ↔ ids[j]? = some x.1.1 := by
    intro x hx j
    have hx' : x.1.1 ∈ ids := (hids.mem _).mpr ⟨x, hx, rfl⟩
    constructor
    · intro hj
      obtain ⟨k, hk⟩ := List.mem_iff_getElem?.mp hx'
      rw [caseRank_eq hf.lev0 (fun r hr => (hf.rows r hr).1) hids.sorted hids.mem hk] at hj
      rw [← hj]; exact hk
    · intro hj
      exact caseRank_eq hf.lev0 (fun r hr => (hf.rows r hr).1) hids.sorted hids.mem hj
  have hnd1 : f.lev1.Nodup := hf.lev1.imp (fun h => ne_of_lt h)
  have hcode : ∀ x ∈ f.rows, ∀ b, code1 f x.1.2 = b ↔ f.lev1[b]? = some x.1.2 := by
    intro x hx b
    have hm := (hf.rows x hx).2
    have hlt := List.idxOf_lt_length_of_mem hm
    constructor
    · rintro rfl
      unfold code1
      rw [List.getElem?_eq_getElem hlt, List.getElem_idxOf]
    · intro hb
      obtain ⟨hl, he⟩ := List.getElem?_eq_some_iff.mp hb
      unfold code1
      rw [← he]
      exact hnd1.idxOf_getElem b hl
  have hu : ∀ (k s : Nat) (x y : (Int × Int) × α), f.rows[k]? = some x → f.rows[s]? = some y →
      caseRank f (code0 f x.1.1) = i → code1 f x.1.2 = a → caseRank f (code0 f y.1.1) = i → code1 f y.1.2 = a → k = s := by
    intro k s x y hx hy h1 h2 h3 h4
    have mx := List.mem_of_getElem? hx
    have my := List.mem_of_getElem? hy
    have e1 : x.1.1 = y.1.1 := by
      have := ((hrank x mx i).mp h1).symm.trans ((hrank y my i).mp h3)
      exact Option.some.inj this
    have e2 : x.1.2 = y.1.2 := by
      have := ((hcode x mx a).mp h2).symm.trans ((hcode y my a).mp h4)
      exact Option.some.inj this
    have hk : (f.rows.map Prod.fst)[k]? = some x.1 := by rw [List.getElem?_map, hx]; rfl
    have hs : (f.rows.map Prod.fst)[s]? = some y.1 := by rw [List.getElem?_map, hy]; rfl
    have he : x.1 = y.1 := Prod.ext e1 e2
    rw [← he] at hs
    obtain ⟨hkl, hke⟩ := List.getElem?_eq_some_iff.mp hk
    obtain ⟨hsl, hse⟩ := List.getElem?_eq_some_iff.mp hs
    exact (hf.nodup.getElem_inj_iff).mp (hke.trans hse.symm)
  unfold ceRow
  rw [Option.bind_eq_some_iff]
  constructor
  · rintro ⟨k, hk, hr⟩
    obtain ⟨x, hx, h1, h2⟩ := (reverseMap_some hu).mp hk
    rw [hx] at hr
    cases hr
    have mx := List.mem_of_getElem? hx
    exact ⟨mx, (hrank _ mx i).mp h1, (hcode _ mx a).mp h2⟩
  · rintro ⟨mr, h1, h2⟩
    obtain ⟨k, hk⟩ := List.mem_iff_getElem?.mp mr
    exact ⟨k, (reverseMap_some hu).mpr ⟨r, hk, (hrank r mr i).mpr h1, (hcode r mr a).mpr h2⟩, hk⟩

theorem caRow_iff {f : MF α} (hf : Regular f) {ids : List Int} (hids : CasesOf f ids) (hca : isIdce f = false) {d : DF α}
    (hd : d.altCodes = f.lev1) (i a : Nat) (hi : i < ids.length) (ha : a < f.lev1.length) (r : (Int × Int) × α) :
    caRow d f i a = some r ↔ r ∈ f.rows ∧ ids[i]? = some r.1.1 ∧ f.lev1[a]? = some r.1.2 := by
  have hfull := full_labels hf.lev0 hf.lev1 hf.rows hf.nodup hca
  have hsame : ids = f.lev0 := by
    have hp : ids.Perm f.lev0 := by
      rw [List.perm_ext_iff_of_nodup (hids.sorted.imp (fun h => ne_of_lt h)) (hf.lev0.imp (fun h => ne_of_lt h))]
      intro c
      rw [hids.mem]
      constructor
      · rintro ⟨r, hr, rfl⟩; exact (hf.rows r hr).1
      · intro hc
        have : (c, f.lev1[a]) ∈ f.rows.map Prod.fst := by
          rw [hfull]; exact List.mem_product.mpr ⟨hc, List.getElem_mem ha⟩
        obtain ⟨r, hr, he⟩ := List.mem_map.mp this
        exact ⟨r, hr, by rw [he]⟩
    exact hp.eq_of_pairwise (fun a b _ _ h1 h2 => le_antisymm h1 h2) (hids.sorted.imp (fun h => le_of_lt h))
      (hf.lev0.imp (fun h => le_of_lt h))
  have hi0 : f.lev0[i]? = some (f.lev0[i]'(hsame ▸ hi)) := List.getElem?_eq_getElem _
  have ha0 : f.lev1[a]? = some f.lev1[a] := List.getElem?_eq_getElem ha
  have hp := product_getElem hi0 ha0
  rw [← hfull, List.getElem?_map, Option.map_eq_some_iff] at hp
  obtain ⟨x, hx, hxe⟩ := hp
  unfold caRow
  rw [hd, hx, hsame, hi0, ha0]
  constructor
  · intro h; cases h
    exact ⟨List.mem_of_getElem? hx, by rw [hxe], by rw [hxe]⟩
  · rintro ⟨hr, h1, h2⟩
    have he : r.1 = x.1 := by
      rw [hxe]; exact Prod.ext (Option.some.inj h1).symm (Option.some.inj h2).symm
    rw [List.inj_on_of_nodup_map hf.nodup hr (List.mem_of_getElem? hx) he]

theorem regular_setCe {f : MF α} (hf : Regular f) : Regular (setCe f) ∧ (setCe f).lev1 = f.lev1 ∧ (setCe f).rows.Perm f.rows := by
  obtain ⟨h0, h1, h2⟩ := setCe_levels hf.lev0 hf.lev1
  refine ⟨⟨by rw [h0]; exact hf.lev0, by rw [h1]; exact hf.lev1, fun r hr => ?_, ?_⟩, h1, h2⟩
  · rw [h0, h1]; exact hf.rows r (h2.mem_iff.mp hr)
  · exact ((h2.map Prod.fst).nodup_iff).mpr hf.nodup

theorem casesOf_setCe {f : MF α} (hf : Regular f) {ids : List Int} (h : CasesOf f ids) : CasesOf (setCe f) ids := by
  refine ⟨h.sorted, fun c => ?_⟩
  rw [h.mem]
  have hp := (regular_setCe hf).2.2
  exact ⟨fun ⟨r, hr, e⟩ => ⟨r, hp.mem_iff.mpr hr, e⟩, fun ⟨r, hr, e⟩ => ⟨r, hp.mem_iff.mp hr, e⟩⟩

/-- **C79 (rows of the alternatives).** Whichever of the two formats the container chooses: the row read at positions `i`, `a` is the row
that the given frame has for the `i`-th case and the `a`-th alternative code, and nothing if the frame has none. -/
theorem C79_alternative_rows (x : Args α) (d : DF α) (h : build x = some d) (f : MF α) (hx : x.mf = some f) (hf : Regular f)
    (ids : List Int) (hids : CasesOf f ids) (i a : Nat) (hi : i < ids.length) (ha : a < d.altCodes.length) (r : (Int × Int) × α) :
    altRow d i a = some r ↔ r ∈ f.rows ∧ ids[i]? = some r.1.1 ∧ d.altCodes[a]? = some r.1.2 := by
  obtain ⟨_, _, _, _, hm, _⟩ := build_spec h
  obtain ⟨hc, h1, h2⟩ := hm f hx
  cases hi' : isIdce f with
  | true =>
    obtain ⟨e1, e2⟩ := h1 hi'
    obtain ⟨r1, r2, r3⟩ := regular_setCe hf
    unfold altRow
    rw [e1, e2]
    dsimp only
    rw [ceRow_iff r1 (casesOf_setCe hf hids), r2, hc, r3.mem_iff]
  | false =>
    obtain ⟨e1, e2⟩ := h2 hi'
    unfold altRow
    rw [e1]
    dsimp only
    rw [caRow_iff hf hids hi' hc i a hi (hc ▸ ha), hc]

/-- **C79 (frames of the cases).** When attributes, choices and availability come with the same case ids, in whatever order, they are stored in the
same order; no row is lost or changed. -/
theorem C79_case_rows (x : Args α) (d : DF α) (h : build x = some d) (f : Co α) (hx : x.co = some f) :
    ∃ f', d.co = some f' ∧ f'.Perm f ∧ (f'.map Prod.fst).Pairwise (· ≤ ·) ∧
      (∀ g, x.ch = some g → (g.map Prod.fst).Perm (f.map Prod.fst) →
        ∃ g', d.ch = some g' ∧ g'.Perm g ∧ g'.map Prod.fst = f'.map Prod.fst) ∧
      (∀ g, x.av = some g → (g.map Prod.fst).Perm (f.map Prod.fst) →
        ∃ g', d.av = some g' ∧ g'.Perm g ∧ g'.map Prod.fst = f'.map Prod.fst) := by
  obtain ⟨h1, h2, h3, _⟩ := build_spec h
  refine ⟨setSorted f, by rw [h1, hx]; rfl, setSorted_perm f, setSorted_sorted f, fun g hg hp => ?_, fun g hg hp => ?_⟩
  · exact ⟨setSorted g, by rw [h2, hg]; rfl, setSorted_perm g, labels_eq hp⟩
  · exact ⟨setSorted g, by rw [h3, hg]; rfl, setSorted_perm g, labels_eq hp⟩

/-- **C79 (attributes of cases and of alternatives).** When the frame of the cases has each case once and the frame of the alternatives has rows for
exactly these cases, the case at position `i` is the same in both. -/
theorem C79_aligned (x : Args α) (d : DF α) (h : build x = some d) (f : Co α) (hx : x.co = some f) (hnd : (f.map Prod.fst).Nodup)
    (g : MF α) (hg : x.mf = some g) (hgr : Regular g) (hsame : ∀ c, c ∈ f.map Prod.fst ↔ ∃ r ∈ g.rows, r.1.1 = c)
    (i a : Nat) (ha : a < d.altCodes.length) (c : Int) (v : α) (hi : ∃ f', d.co = some f' ∧ f'[i]? = some (c, v)) :
    (c, v) ∈ f ∧ ∀ r, altRow d i a = some r ↔ r ∈ g.rows ∧ r.1.1 = c ∧ d.altCodes[a]? = some r.1.2 := by
  obtain ⟨f', hf', hp, hs, _⟩ := C79_case_rows x d h f hx
  obtain ⟨f'', hf'', hi⟩ := hi
  rw [hf'] at hf''; cases hf''
  refine ⟨hp.mem_iff.mp (List.mem_of_getElem? hi), fun r => ?_⟩
  have hnd' : (f'.map Prod.fst).Nodup := ((hp.map Prod.fst).nodup_iff).mpr hnd
  have hcs : CasesOf g (f'.map Prod.fst) := by
    refine ⟨(hs.and hnd').imp (fun h => lt_of_le_of_ne h.1 h.2), fun c => ?_⟩
    rw [← hsame, (hp.map Prod.fst).mem_iff]
  have hi' : (f'.map Prod.fst)[i]? = some c := by rw [List.getElem?_map, hi]; rfl
  rw [C79_alternative_rows x d h g hg hgr _ hcs i a (List.getElem?_eq_some_iff.mp hi').1 ha, hi']
  constructor
  · rintro ⟨a, b, c⟩; exact ⟨a, (Option.some.inj b).symm, c⟩
  · rintro ⟨a, b, c⟩; exact ⟨a, by rw [b], c⟩

/-- **C79 (availability derived from idce data).** When no availability is given and the derivation does not raise, an alternative is available in a
case exactly if the data have a row for it; the derivation raises when a case has no rows. -/
theorem C79_derived_availability (x : Args α) (d : DF α) (h : build x = some d) (f : Co α) (hx : x.co = some f)
    (hnd : (f.map Prod.fst).Nodup) (g : MF α) (hg : x.mf = some g) (hgr : Regular g) (g' : MF α) (hd : d.ce = some g')
    (hsub : ∀ r ∈ g.rows, r.1.1 ∈ f.map Prod.fst) :
    (∀ A, avFromCe d g' = some A →
      (∀ c ∈ f.map Prod.fst, ∃ r ∈ g.rows, r.1.1 = c) ∧ (A.map Prod.fst).Perm (f.map Prod.fst) ∧
      ∀ (i : Nat) (c : Int) (bs : List Bool), A[i]? = some (c, bs) → bs.length = d.altCodes.length ∧
        (∃ f' v, d.co = some f' ∧ f'[i]? = some (c, v)) ∧
        ∀ (a : Nat) (b : Int), d.altCodes[a]? = some b → (bs[a]? = some true ↔ ∃ v, ((c, b), v) ∈ g.rows)) ∧
    ((∃ c ∈ f.map Prod.fst, ∀ r ∈ g.rows, r.1.1 ≠ c) → avFromCe d g' = none) := by
  obtain ⟨f', hf', hp, hs, _⟩ := C79_case_rows x d h f hx
  obtain ⟨_, _, _, _, hm, _⟩ := build_spec h
  obtain ⟨hc, h1, h2⟩ := hm g hg
  have hidce : isIdce g = true := by
    by_contra hn
    obtain ⟨_, e⟩ := h2 (by simpa using hn)
    rw [e] at hd; cases hd
  have hg' : g' = setCe g := by have := (h1 hidce).2; rw [this] at hd; exact (Option.some.inj hd).symm
  subst hg'
  obtain ⟨r1, r2, r3⟩ := regular_setCe hgr
  have hci : caseIndex d = f'.map Prod.fst := by unfold caseIndex; rw [hf']
  have hnd' : (f'.map Prod.fst).Nodup := ((hp.map Prod.fst).nodup_iff).mpr hnd
  have hs' : (f'.map Prod.fst).Pairwise (· < ·) := (hs.and hnd').imp (fun h => lt_of_le_of_ne h.1 h.2)
  -- the cases with rows, in order
  let ids := (f'.map Prod.fst).filter (fun c => decide (∃ r ∈ g.rows, r.1.1 = c))
  have hids : CasesOf g ids := by
    refine ⟨hs'.sublist List.filter_sublist, fun c => ?_⟩
    rw [List.mem_filter, decide_eq_true_eq, (hp.map Prod.fst).mem_iff]
    exact ⟨fun h => h.2, fun ⟨r, hr, e⟩ => ⟨e ▸ hsub r hr, r, hr, e⟩⟩
  have hn : ceCases (setCe g) = ids.length :=
    ceCases_eq r1.lev0 (fun r hr => (r1.rows r hr).1) hids.sorted (casesOf_setCe hgr hids).mem
  have hall_of : avFromCe d (setCe g) ≠ none → ids = f'.map Prod.fst := by
    intro hne
    unfold avFromCe at hne
    split_ifs at hne with hsh
    · have hl := hsh.1
      rw [hn, hci] at hl
      exact List.filter_sublist.eq_of_length hl
    · exact absurd rfl hne
  constructor
  · intro A hA
    have hids' := hall_of (by rw [hA]; simp)
    unfold avFromCe at hA
    split_ifs at hA with hsh
    rw [hci] at hA
    have hA := (Option.some.inj hA).symm
    refine ⟨fun c hcm => ?_, ?_, ?_⟩
    · have : c ∈ ids := by rw [hids']; exact (hp.map Prod.fst).mem_iff.mpr hcm
      exact (hids.mem c).mp this
    · rw [hA, List.map_map]
      have : (f'.map Prod.fst).zipIdx.map (Prod.fst ∘ fun c : Int × Nat =>
          (c.1, (List.range d.altCodes.length).map (fun a => (reverseMap (setCe g) c.2 a).isSome))) = f'.map Prod.fst := by
        have h3 : (Prod.fst ∘ fun c : Int × Nat =>
          (c.1, (List.range d.altCodes.length).map (fun a => (reverseMap (setCe g) c.2 a).isSome))) = Prod.fst := rfl
        rw [h3, List.zipIdx_map_fst]
      rw [this]
      exact hp.map Prod.fst
    · intro i c bs hi
      rw [hA, List.getElem?_map, Option.map_eq_some_iff] at hi
      obtain ⟨y, hy, hye⟩ := hi
      have hy' : (f'.map Prod.fst)[i]? = some y.1 ∧ y.2 = i := by
        rw [List.getElem?_zipIdx, Option.map_eq_some_iff] at hy
        obtain ⟨z, hz, rfl⟩ := hy
        exact ⟨hz, by simp⟩
      cases hye
      refine ⟨by simp, ?_, ?_⟩
      · have h4 := hy'.1
        rw [List.getElem?_map, Option.map_eq_some_iff] at h4
        obtain ⟨z, hz, he⟩ := h4
        exact ⟨f', z.2, hf', by rw [hz, ← he]⟩
      · intro a b hab
        have hal := (List.getElem?_eq_some_iff.mp hab).1
        rw [List.getElem?_map, List.getElem?_range hal, Option.map_some, hy'.2]
        have key := ceRow_iff r1 (casesOf_setCe hgr hids) i a
        constructor
        · intro ht
          obtain ⟨k, hk⟩ := Option.isSome_iff_exists.mp (Option.some.inj ht)
          have hlk : ∃ r, (setCe g).rows[k]? = some r := by
            unfold reverseMap at hk
            have hmem : ∀ (L : List (((Int × Int) × α) × Nat)) (acc : Option Nat),
                L.foldl (fun acc r => if caseRank (setCe g) (code0 (setCe g) r.1.1.1) = i ∧ code1 (setCe g) r.1.1.2 = a then some r.2 else acc)
                  acc = some k → acc = some k ∨ ∃ r ∈ L, r.2 = k := by
              intro L
              induction L with
              | nil => intro acc h; exact Or.inl h
              | cons x L ih =>
                intro acc h
                rw [List.foldl_cons] at h
                rcases ih _ h with h | ⟨r, hr, he⟩
                · split_ifs at h
                  · exact Or.inr ⟨x, List.mem_cons_self, Option.some.inj h⟩
                  · exact Or.inl h
                · exact Or.inr ⟨r, List.mem_cons_of_mem _ hr, he⟩
            rcases hmem _ _ hk with h | ⟨r, hr, he⟩
            · cases h
            · exact ⟨r.1, by rw [← he]; exact List.mem_zipIdx_iff_getElem?.mp hr⟩
          obtain ⟨r, hr⟩ := hlk
          have : ceRow (setCe g) i a = some r := by unfold ceRow; rw [hk]; exact hr
          obtain ⟨k1, k2, k3⟩ := (key r).mp this
          rw [hids', hy'.1] at k2
          rw [r2, ← hc, hab] at k3
          refine ⟨r.2, ?_⟩
          have : r = ((y.1, b), r.2) := by
            rw [Option.some.inj k2, Option.some.inj k3]
          rw [← this]
          exact r3.mem_iff.mp k1
        · rintro ⟨v, hv⟩
          have : ceRow (setCe g) i a = some ((y.1, b), v) :=
            (key _).mpr ⟨r3.mem_iff.mpr hv, by rw [hids']; exact hy'.1, by rw [r2, ← hc]; exact hab⟩
          unfold ceRow at this
          obtain ⟨k, hk, _⟩ := Option.bind_eq_some_iff.mp this
          rw [hk]; rfl
  · rintro ⟨c, hcm, hno⟩
    by_contra hne
    have := hall_of hne
    have hcid : c ∈ ids := by rw [this]; exact (hp.map Prod.fst).mem_iff.mpr hcm
    obtain ⟨r, hr, he⟩ := (hids.mem c).mp hcid
    exact hno r hr he

/-! ## Witnesses -/

/-- Three cases, two alternatives, idce, everything in disorder. -/
def messyArgs : Args Nat where
  co := some [(7, 70), (4, 40), (5, 50)]
  mf := some ⟨[4, 5, 7], [1, 2], [((7, 2), 72), ((4, 1), 41), ((5, 2), 52), ((4, 2), 42)], 1⟩
  ch := some [(5, 5), (7, 7), (4, 4)]
  av := none
  wt := none

theorem messy_regular : Regular (⟨[4, 5, 7], [1, 2], [((7, 2), 72), ((4, 1), 41), ((5, 2), 52), ((4, 2), 42)], 1⟩ : MF Nat) :=
  ⟨by decide, by decide, by decide, by decide⟩

theorem messy_ok : (build messyArgs).isSome = true := by decide +kernel

def messyDF : DF Nat := (build messyArgs).get messy_ok

/-- The hypotheses are met, and this is what comes out. -/
example : build messyArgs = some messyDF ∧ CasesOf (⟨[4, 5, 7], [1, 2], [((7, 2), 72), ((4, 1), 41), ((5, 2), 52), ((4, 2), 42)], 1⟩ : MF Nat) [4, 5, 7] ∧
    messyDF.co = some [(4, 40), (5, 50), (7, 70)] ∧ messyDF.ch = some [(4, 4), (5, 5), (7, 7)] ∧
    altRow messyDF 0 1 = some ((4, 2), 42) ∧ altRow messyDF 1 0 = none ∧ altRow messyDF 2 1 = some ((7, 2), 72) ∧
    (messyDF.ce.bind (fun g => avFromCe messyDF g)) = some [(4, [true, true]), (5, [false, true]), (7, [false, true])] := by
  refine ⟨(Option.some_get _).symm, ⟨by decide, fun c => ?_⟩, by decide +kernel, by decide +kernel, by decide +kernel, by decide +kernel,
    by decide +kernel, by decide +kernel⟩
  simp; constructor
  · rintro (rfl | rfl | rfl) <;> simp
  · rintro (rfl | rfl | rfl | rfl) <;> simp

/-- The same for complete (idca) data. -/
def fullDemo : MF Nat := ⟨[4, 5], [1, 2], [((4, 1), 41), ((4, 2), 42), ((5, 1), 51), ((5, 2), 52)], 1⟩

example : Regular fullDemo ∧ isIdce fullDemo = false ∧
    (build ⟨none, some fullDemo, none, none, none, true⟩).bind (fun d => altRow d 1 0) = some ((5, 1), 51) :=
  ⟨⟨by decide, by decide, by decide, by decide⟩, by decide +kernel, by decide +kernel⟩

/-! ## Where alignment fails -/

/-- **C79 fails for weights**, which are not sorted: case 1 gets the weight of case 2. -/
theorem C79_fails_weights : ∃ d, build (⟨some [(2, 20), (1, 10)], none, none, none,
    some [(2, 200), (1, 100)], false⟩ : Args Nat) = some d ∧ d.co = some [(1, 10), (2, 20)] ∧ d.wt = some [(2, 200), (1, 100)] :=
  ⟨_, rfl, by decide +kernel, by decide +kernel⟩

/-- **C79 fails when the case ids differ**: choices of other cases are accepted. -/
theorem C79_fails_other_ids : ∃ d, build (⟨some [(1, 10), (2, 20)], none, some [(8, 80), (9, 90)], none,
    none, false⟩ : Args Nat) = some d ∧ d.co = some [(1, 10), (2, 20)] ∧ d.ch = some [(8, 80), (9, 90)] :=
  ⟨_, rfl, by decide +kernel, by decide +kernel⟩

/-- Alternative codes given as text, '1', '10', '2': pandas orders the levels as text, and the constructor turns them into numbers. -/
def textArgs : Args Nat where
  co := none
  mf := some ⟨[1, 2], [1, 10, 2], [((1, 1), 11), ((1, 2), 12), ((1, 10), 110), ((2, 1), 21), ((2, 2), 22), ((2, 10), 210)], 1⟩
  ch := none
  av := none
  wt := none

/-- **C79 fails for codes whose order as text is not their order as numbers**: the data of alternative 2 are read for alternative 10. -/
theorem C79_fails_text_codes : ∃ d, build textArgs = some d ∧ d.altCodes[1]? = some 10 ∧ altRow d 0 1 = some ((1, 2), 12) :=
  ⟨_, rfl, by decide +kernel, by decide +kernel⟩

/-- Case 1 has alternative 1 twice and no alternative 2. -/
def twiceArgs : Args Nat where
  co := none
  mf := some ⟨[1, 2], [1, 2], [((1, 1), 11), ((1, 1), 999), ((2, 1), 21), ((2, 2), 22)], 1⟩
  ch := none
  av := none
  wt := none

/-- **C79 fails for repeated rows**: incomplete data that have as many rows as complete data are taken for complete ones. -/
theorem C79_fails_repeated : ∃ d, build twiceArgs = some d ∧ d.altCodes[1]? = some 2 ∧ altRow d 0 1 = some ((1, 1), 999) :=
  ⟨_, rfl, by decide +kernel, by decide +kernel⟩

/-- Case 2 has attributes but no rows for alternatives (nothing available); availability is given. -/
def gapArgs : Args Nat where
  co := some [(1, 10), (2, 20), (3, 30)]
  mf := some ⟨[1, 2, 3], [1, 2], [((1, 1), 11), ((1, 2), 12), ((3, 1), 31)], 1⟩
  ch := none
  av := some [(1, 0), (2, 0), (3, 0)]
  wt := none

/-- **C79 fails when a case has no rows**: the rows of the next case are read for it. -/
theorem C79_fails_case_without_rows : ∃ d, build gapArgs = some d ∧ d.co = some [(1, 10), (2, 20), (3, 30)] ∧
    altRow d 1 0 = some ((3, 1), 31) :=
  ⟨_, rfl, by decide +kernel, by decide +kernel⟩

end Larch.Props
