import Verif.Model.FramesCe
import Verif.Props.Align

/-!
# C80: choices, availability and weights in idce form, and back
-/

namespace Larch.Props

open Larch.Frames

variable {α K : Type} [Zero K]

theorem length_foldl_set (rev : Nat × Nat → Option Nat) (M : Nat × Nat → K) (L : List (Nat × Nat)) : ∀ arr : List K,
    (L.foldl (fun arr p => match rev p with | some k => arr.set k (M p) | none => arr) arr).length = arr.length := by
  induction L with
  | nil => intro arr; rfl
  | cons p L ih =>
    intro arr
    rw [List.foldl_cons, ih]
    cases rev p <;> simp

/-- A cell that no pair writes keeps its value; one that a single pair writes has that pair's value. -/
theorem getElem_foldl_set (rev : Nat × Nat → Option Nat) (M : Nat × Nat → K) (k : Nat) (p : Nat × Nat) (hp : rev p = some k)
    (hu : ∀ q, rev q = some k → q = p) (L : List (Nat × Nat)) : ∀ arr : List K, k < arr.length →
    (L.foldl (fun arr p => match rev p with | some k => arr.set k (M p) | none => arr) arr)[k]? =
      if p ∈ L then some (M p) else arr[k]? := by
  induction L with
  | nil => intro arr _; simp
  | cons q L ih =>
    intro arr hk
    rw [List.foldl_cons, ih _ (by cases rev q <;> simpa using hk)]
    by_cases hpL : p ∈ L
    · rw [if_pos hpL, if_pos (List.mem_cons_of_mem _ hpL)]
    · rw [if_neg hpL]
      by_cases hqp : q = p
      · subst hqp
        rw [if_pos List.mem_cons_self, hp]
        simp [hk]
      · rw [if_neg (by simp [hpL, Ne.symm hqp])]
        cases hq : rev q with
        | none => rfl
        | some k' =>
          have : k' ≠ k := fun e => hqp (hu q (e ▸ hq))
          simp [List.getElem?_set, this]

theorem mem_cells (f : MF α) (c a : Nat) : (c, a) ∈ cells f ↔ c < ceCases f ∧ a < ceAlts f := by
  unfold cells; simp

/-- Where a row of regular data is found. -/
theorem reverseMap_row {f : MF α} (hf : Regular f) {ids : List Int} (hids : CasesOf f ids) (k : Nat) (r : (Int × Int) × α)
    (hk : f.rows[k]? = some r) (i a : Nat) : reverseMap f i a = some k ↔ ids[i]? = some r.1.1 ∧ f.lev1[a]? = some r.1.2 := by
  have hkl := (List.getElem?_eq_some_iff.mp hk).1
  have huniq : ∀ k', f.rows[k']? = some r → k' = k := by
    intro k' hk'
    have h1 : (f.rows.map Prod.fst)[k]? = some r.1 := by rw [List.getElem?_map, hk]; rfl
    have h2 : (f.rows.map Prod.fst)[k']? = some r.1 := by rw [List.getElem?_map, hk']; rfl
    obtain ⟨a1, a2⟩ := List.getElem?_eq_some_iff.mp h1
    obtain ⟨b1, b2⟩ := List.getElem?_eq_some_iff.mp h2
    exact (hf.nodup.getElem_inj_iff).mp (b2.trans a2.symm)
  have key := ceRow_iff hf hids i a r
  constructor
  · intro h
    have : ceRow f i a = some r := by unfold ceRow; rw [h]; exact hk
    exact (key.mp this).2
  · intro h
    have := key.mpr ⟨List.mem_of_getElem? hk, h⟩
    unfold ceRow at this
    obtain ⟨k', h1, h2⟩ := Option.bind_eq_some_iff.mp this
    rw [h1, huniq k' h2]

/-- **C80 (to idce).** `data_ch_as_ce`, `data_av_as_ce` and `data_wt_as_ce` give every row of the data the value that the table has for the row's case
and alternative. -/
theorem C80_as_ce (f : MF α) (hf : Regular f) (ids : List Int) (hids : CasesOf f ids) (M : Nat → Nat → K) :
    (asCe f M).length = f.rows.length ∧
    ∀ (k : Nat) (r : (Int × Int) × α) (i a : Nat), f.rows[k]? = some r → ids[i]? = some r.1.1 → f.lev1[a]? = some r.1.2 →
      (asCe f M)[k]? = some (M i a) := by
  constructor
  · unfold asCe
    refine (length_foldl_set (fun p => reverseMap f p.1 p.2) (fun p => M p.1 p.2) (cells f) _).trans ?_
    simp
  · intro k r i a hk hi ha
    unfold asCe
    have hkl := (List.getElem?_eq_some_iff.mp hk).1
    have hp : reverseMap f i a = some k := (reverseMap_row hf hids k r hk i a).mpr ⟨hi, ha⟩
    have hu : ∀ q : Nat × Nat, reverseMap f q.1 q.2 = some k → q = (i, a) := by
      intro q hq
      obtain ⟨h1, h2⟩ := (reverseMap_row hf hids k r hk q.1 q.2).mp hq
      apply Prod.ext
      · obtain ⟨a1, a2⟩ := List.getElem?_eq_some_iff.mp h1
        obtain ⟨b1, b2⟩ := List.getElem?_eq_some_iff.mp hi
        have hn : ids.Nodup := hids.sorted.imp (fun h => ne_of_lt h)
        exact (hn.getElem_inj_iff).mp (a2.trans b2.symm)
      · obtain ⟨a1, a2⟩ := List.getElem?_eq_some_iff.mp h2
        obtain ⟨b1, b2⟩ := List.getElem?_eq_some_iff.mp ha
        have hn : f.lev1.Nodup := hf.lev1.imp (fun h => ne_of_lt h)
        exact (hn.getElem_inj_iff).mp (a2.trans b2.symm)
    refine (getElem_foldl_set (fun p => reverseMap f p.1 p.2) (fun p => M p.1 p.2) k (i, a) hp hu (cells f) _ (by simpa using hkl)).trans ?_
    rw [if_pos]
    rw [mem_cells]
    have mr := List.mem_of_getElem? hk
    have hrank := caseRank_eq hf.lev0 (fun r hr => (hf.rows r hr).1) hids.sorted hids.mem hi
    constructor
    · have := le_foldl_max (l := f.rows.map (fun r => caseRank f (code0 f r.1.1) + 1)) (a := i + 1)
        (List.mem_map.mpr ⟨r, mr, by rw [hrank]⟩)
      exact this
    · have hcode : code1 f r.1.2 = a := by
        obtain ⟨b1, b2⟩ := List.getElem?_eq_some_iff.mp ha
        unfold code1
        rw [← b2]
        have hn : f.lev1.Nodup := hf.lev1.imp (fun h => ne_of_lt h)
        exact hn.idxOf_getElem a b1
      have := le_foldl_max (l := f.rows.map (fun r => code1 f r.1.2 + 1)) (a := a + 1)
        (List.mem_map.mpr ⟨r, mr, by rw [hcode]⟩)
      exact this

theorem sorted_dedup_eq {l ids : List Int} (hs : ids.Pairwise (· < ·)) (hm : ∀ c, c ∈ ids ↔ c ∈ l) :
    l.dedup.insertionSort (· ≤ ·) = ids := by
  have hp : (l.dedup.insertionSort (· ≤ ·)).Perm ids := by
    refine (List.perm_insertionSort _ _).trans ?_
    rw [List.perm_ext_iff_of_nodup (List.nodup_dedup _) (hs.imp (fun h => ne_of_lt h))]
    intro c; rw [List.mem_dedup, hm]
  exact hp.eq_of_pairwise (fun a b _ _ h1 h2 => le_antisymm h1 h2) (List.pairwise_insertionSort _ _) (hs.imp (fun h => le_of_lt h))

omit [Zero K] in
theorem lookup_of_mem {L : List ((Int × Int) × K)} (hnd : (L.map Prod.fst).Nodup) {x : Int × Int} {v : K} (h : (x, v) ∈ L) :
    L.lookup x = some v := by
  induction L with
  | nil => simp at h
  | cons y L ih =>
    rw [List.map_cons, List.nodup_cons] at hnd
    rw [List.lookup_cons]
    rcases List.mem_cons.mp h with rfl | h
    · simp
    · have : x ≠ y.1 := fun e => hnd.1 (e ▸ List.mem_map.mpr ⟨(x, v), h, rfl⟩)
      have hb : (x == y.1) = false := by simpa using this
      rw [hb]
      exact ih hnd.2 h

omit [Zero K] in
theorem lookup_none_of {L : List ((Int × Int) × K)} {x : Int × Int} (h : x ∉ L.map Prod.fst) : L.lookup x = none := by
  induction L with
  | nil => rfl
  | cons y L ih =>
    rw [List.map_cons, List.mem_cons, not_or] at h
    rw [List.lookup_cons]
    have hb : (x == y.1) = false := by simpa using h.1
    rw [hb]
    exact ih h.2

/-- The rows of the data, with values in place of their contents. -/
def withValues (f : MF α) (vals : List K) : List ((Int × Int) × K) := (f.rows.map Prod.fst).zip vals

/-- **C80 (and back).** Choices written as idce rows and given to a new container as `ch_as_ce` (with the same alternative codes) come back as the same
table, also when some alternatives have no rows at all, if no choice is lost, that is: a chosen alternative has a row. -/
theorem C80_round_trip (f : MF α) (hf : Regular f) (ids : List Int) (hids : CasesOf f ids) (M : Nat → Nat → K)
    (hzero : ∀ i a, (∀ r ∈ f.rows, ¬ (ids[i]? = some r.1.1 ∧ f.lev1[a]? = some r.1.2)) → M i a = 0) :
    chFromCe f.lev1 (withValues f (asCe f M)) =
      some (ids.zipIdx.map (fun c => (c.1, (List.range f.lev1.length).map (fun a => M c.2 a)))) := by
  obtain ⟨hlen, hval⟩ := C80_as_ce f hf ids hids M
  have hfst : (withValues f (asCe f M)).map Prod.fst = f.rows.map Prod.fst := by
    unfold withValues
    rw [List.map_fst_zip (by rw [List.length_map, hlen])]
  have hlook : ∀ (i a : Nat) (c b : Int), ids[i]? = some c → f.lev1[a]? = some b →
      ((withValues f (asCe f M)).lookup (c, b)).getD 0 = M i a := by
    intro i a c b hi ha
    by_cases hex : ∃ r ∈ f.rows, r.1 = (c, b)
    · obtain ⟨r, hr, he⟩ := hex
      obtain ⟨k, hk⟩ := List.mem_iff_getElem?.mp hr
      have hv := hval k r i a hk (by rw [he]; exact hi) (by rw [he]; exact ha)
      have hmem : ((c, b), M i a) ∈ withValues f (asCe f M) := by
        unfold withValues
        apply List.mem_of_getElem? (i := k)
        rw [List.getElem?_zip_eq_some]
        exact ⟨by rw [List.getElem?_map, hk, Option.map_some, he], hv⟩
      rw [lookup_of_mem (by rw [hfst]; exact hf.nodup) hmem]
      rfl
    · rw [lookup_none_of]
      · rw [Option.getD_none]
        symm
        apply hzero
        rintro r hr ⟨h1, h2⟩
        apply hex
        refine ⟨r, hr, ?_⟩
        rw [hi] at h1; rw [ha] at h2
        exact Prod.ext (Option.some.inj h1).symm (Option.some.inj h2).symm
      · rw [hfst]
        rintro h
        obtain ⟨r, hr, he⟩ := List.mem_map.mp h
        exact hex ⟨r, hr, he⟩
  have hcases : ((withValues f (asCe f M)).map (fun r => r.1.1)).dedup.insertionSort (· ≤ ·) = ids := by
    apply sorted_dedup_eq hids.sorted
    intro c
    have : (withValues f (asCe f M)).map (fun r => r.1.1) = (f.rows.map Prod.fst).map Prod.fst := by rw [← hfst, List.map_map]; rfl
    rw [this, hids.mem]
    simp only [List.map_map, List.mem_map, Function.comp]
  -- table of a case over a list of codes
  have hrow : ∀ c : Int × Nat, c ∈ ids.zipIdx → f.lev1.map (fun b => ((withValues f (asCe f M)).lookup (c.1, b)).getD 0) =
      (List.range f.lev1.length).map (fun a => M c.2 a) := by
    intro c hc
    have hci := List.mem_zipIdx_iff_getElem?.mp hc
    apply List.ext_getElem?
    intro a
    rw [List.getElem?_map, List.getElem?_map]
    rcases lt_or_ge a f.lev1.length with hal | hal
    · rw [List.getElem?_range hal, List.getElem?_eq_getElem hal, Option.map_some, Option.map_some,
        hlook c.2 a c.1 _ hci (List.getElem?_eq_getElem hal)]
    · rw [List.getElem?_eq_none hal, List.getElem?_eq_none (by simpa using hal)]; rfl
  have hmapids : ids = ids.zipIdx.map Prod.fst := by rw [List.zipIdx_map_fst]
  set W := withValues f (asCe f M) with hW
  set alts := (W.map (fun r => r.1.2)).dedup.insertionSort (· ≤ ·) with halts
  have hamem : ∀ b, b ∈ alts ↔ ∃ r ∈ f.rows, r.1.2 = b := by
    intro b
    rw [halts, List.mem_insertionSort, List.mem_dedup]
    have : W.map (fun r => r.1.2) = (f.rows.map Prod.fst).map Prod.snd := by rw [← hfst, List.map_map]; rfl
    rw [this]
    simp only [List.map_map, List.mem_map, Function.comp]
  have hasub : ∀ b ∈ alts, b ∈ f.lev1 := fun b hb => by
    obtain ⟨r, hr, rfl⟩ := (hamem b).mp hb
    exact (hf.rows r hr).2
  have hand : alts.Nodup := ((List.perm_insertionSort _ _).nodup_iff).mpr (List.nodup_dedup _)
  have hpiv : pivot W = some (alts, ids.map (fun c => (c, alts.map (fun b => (W.lookup (c, b)).getD 0)))) := by
    unfold pivot
    rw [if_pos (by rw [hfst]; exact hf.nodup)]
    simp only [← halts, hcases]
  unfold chFromCe
  rw [hpiv]
  simp only [Option.bind_some]
  have hcont : alts.all (fun b => f.lev1.contains b) = true := by
    rw [List.all_eq_true]; intro b hb; simpa using hasub b hb
  by_cases hlt : alts.length < f.lev1.length
  · simp only [hlt, hcont, and_self, if_true]
    congr 1
    rw [List.map_map]
    conv_lhs => rw [hmapids]
    rw [List.map_map]
    apply List.map_congr_left
    intro c hc
    simp only [Function.comp]
    congr 1
    rw [← hrow c hc]
    apply List.map_congr_left
    intro b hb
    by_cases hba : b ∈ alts
    · rw [if_pos (by simpa using hba)]
    · rw [if_neg (by simpa using hba), lookup_none_of]
      · rfl
      · rw [hfst]
        intro h
        obtain ⟨r, hr, he⟩ := List.mem_map.mp h
        exact hba ((hamem b).mpr ⟨r, hr, by rw [he]⟩)
  · simp only [hlt, false_and, if_false]
    have heq : alts = f.lev1 := by
      have hp : alts.Perm f.lev1 := by
        apply (List.subperm_of_subset hand hasub).perm_of_length_le
        omega
      exact hp.eq_of_pairwise (fun a b _ _ h1 h2 => le_antisymm h1 h2) (List.pairwise_insertionSort _ _)
        (hf.lev1.imp (fun h => le_of_lt h))
    rw [if_pos heq]
    congr 1
    conv_lhs => rw [hmapids]
    rw [List.map_map]
    apply List.map_congr_left
    intro c hc
    simp only [Function.comp]
    rw [heq, hrow c hc]

/-- The condition on choices is needed: the choice of an alternative without a row disappears. -/
theorem C80_needs_rows : ∃ (f : MF Unit) (M : Nat → Nat → ℤ), M 0 0 = 1 ∧
    chFromCe f.lev1 (withValues f (asCe f M)) = some [(4, [0, 1]), (5, [1, 0])] := by
  refine ⟨⟨[4, 5], [1, 2], [((4, 2), ()), ((5, 1), ())], 1⟩, fun i a => if i = 0 then 1 else if a = 0 then 1 else 0, rfl, by decide +kernel⟩

/-- The round trip of choices over three cases, with alternative 3 never offered. -/
def ceDemo : MF Unit := ⟨[4, 5, 7], [1, 2, 3], [((4, 1), ()), ((4, 2), ()), ((5, 2), ()), ((7, 1), ())], 1⟩

def chDemo : Nat → Nat → ℤ := fun i a => match i, a with
  | 0, 1 => 1
  | 1, 1 => 1
  | 2, 0 => 1
  | _, _ => 0

example : Regular ceDemo ∧ CasesOf ceDemo [4, 5, 7] ∧ asCe ceDemo chDemo = [0, 1, 1, 1] ∧
    chFromCe ceDemo.lev1 (withValues ceDemo (asCe ceDemo chDemo)) = some [(4, [0, 1, 0]), (5, [0, 1, 0]), (7, [1, 0, 0])] := by
  refine ⟨⟨by decide, by decide, by decide, by decide⟩, ⟨by decide, fun c => ?_⟩, by decide +kernel, by decide +kernel⟩
  simp [ceDemo]; constructor
  · rintro (rfl | rfl | rfl) <;> simp
  · rintro (rfl | rfl | rfl | rfl) <;> simp

/-- **C80 fails for availability given as `av_as_ce`** when an alternative has no rows: the same data that are accepted for choices raise. -/
theorem C80_fails_av_unused : ∃ f : MF Unit, Regular f ∧ avFromCeRows f.lev1 (withValues f (asCe f (fun _ _ => (1 : ℤ)))) = none ∧
    (chFromCe f.lev1 (withValues f (asCe f (fun _ _ => (1 : ℤ))))).isSome = true :=
  ⟨ceDemo, ⟨by decide, by decide, by decide, by decide⟩, by decide +kernel, by decide +kernel⟩

/-- **C80 fails for `data_co_as_ce`**: it raises for every number of variables other than one, and names the column of a single variable "weight". -/
theorem C80_fails_co (f : MF α) (n : Nat) (M : Nat → Nat → K) : (n ≠ 1 → coAsCe f n M = none) ∧
    (n = 1 → (coAsCe f n M).map Prod.fst = some ["weight"]) := by
  unfold coAsCe
  constructor
  · intro h; rw [if_neg h]
  · intro h; rw [if_pos h]; rfl

/-- **C80 fails for idca data**: with cases and more than one alternative, `data_ch_as_ce` and `data_av_as_ce` raise. -/
theorem C80_fails_idca (n k : Nat) (hn : 0 < n) (hk : k ≠ 1) (M : Nat → List K) (av : Nat → Nat → Bool) : caAsCe n k M av = none := by
  unfold caAsCe
  rw [if_neg]
  intro h
  exact hk (Nat.eq_of_mul_eq_mul_left hn (by omega))

/-- **C80 fails for repeated rows**: only the last of them has the choice of its case and alternative. -/
theorem C80_fails_repeated : asCe (⟨[4], [1, 2], [((4, 1), ()), ((4, 1), ()), ((4, 2), ())], 1⟩ : MF Unit) (fun _ a => if a = 0 then (1 : ℤ) else 0) =
    [0, 1, 0] := by decide +kernel

end Larch.Props
