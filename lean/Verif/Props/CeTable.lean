import Verif.Model.CeTable
import Verif.Props.Convert
import Mathlib.Tactic.Ring

/-!
# C185: a table as idce rows, names of alternatives, the simple model
-/

set_option linter.unusedSectionVars false

namespace Larch.Props

open Larch.Frames Larch.CeTable

variable {α K : Type} [Zero K]

theorem tc_none (f : MF α) (R C : Nat) (M : Nat → Nat → K) (L : List (Nat × Nat)) : L.foldl (putCell f R C M) none = none := by
  induction L with
  | nil => rfl
  | cons p L ih => rw [List.foldl_cons]; exact ih

theorem tc_bad (f : MF α) (R C : Nat) (M : Nat → Nat → K) (L : List (Nat × Nat)) (p : Nat × Nat) (hp : p ∈ L)
    (h : ∀ arr, putCell f R C M (some arr) p = none) : ∀ acc, L.foldl (putCell f R C M) acc = none := by
  induction L with
  | nil => cases hp
  | cons q L ih =>
    intro acc
    rw [List.foldl_cons]
    rcases List.mem_cons.1 hp with rfl | hm
    · cases acc with
      | none => exact tc_none f R C M L
      | some arr => rw [h arr]; exact tc_none f R C M L
    · exact ih hm _

theorem tc_good (f : MF α) (R C : Nat) (M : Nat → Nat → K) (L : List (Nat × Nat))
    (h : ∀ p ∈ L, p.1 < ceCases f ∧ p.2 < ceAlts f ∧ p.1 < R ∧ p.2 < C) : ∀ arr : List K, L.foldl (putCell f R C M) (some arr) =
      some (L.foldl (fun arr p => match reverseMap f p.1 p.2 with | some k => arr.set k (M p.1 p.2) | none => arr) arr) := by
  induction L with
  | nil => intro arr; rfl
  | cons p L ih =>
    intro arr
    have hp := h p List.mem_cons_self
    rw [List.foldl_cons, List.foldl_cons]
    have : putCell f R C M (some arr) p = some (match reverseMap f p.1 p.2 with | some k => arr.set k (M p.1 p.2) | none => arr) := by
      unfold putCell
      rw [Option.bind_some, if_pos ⟨hp.1, hp.2.1⟩]
      cases reverseMap f p.1 p.2 with
      | none => rfl
      | some k => exact if_pos hp.2.2
    rw [this]
    exact ih (fun q hq => h q (List.mem_cons_of_mem _ hq)) _

theorem tc_alts {f : MF α} (hf : Regular f) (hne : ∀ b ∈ f.lev1, ∃ r ∈ f.rows, r.1.2 = b) : ceAlts f = f.lev1.length := by
  have hn : f.lev1.Nodup := hf.lev1.imp (fun h => ne_of_lt h)
  apply le_antisymm
  · apply foldl_max_le
    intro x hx
    obtain ⟨r, hr, rfl⟩ := List.mem_map.1 hx
    exact List.idxOf_lt_length_of_mem (hf.rows r hr).2
  · by_contra hlt
    have hpos : 0 < f.lev1.length := by omega
    obtain ⟨r, hr, e⟩ := hne f.lev1[f.lev1.length - 1] (List.getElem_mem _)
    have := le_foldl_max (l := f.rows.map (fun r => code1 f r.1.2 + 1)) (a := f.lev1.length)
      (List.mem_map.2 ⟨r, hr, by
        show f.lev1.idxOf r.1.2 + 1 = f.lev1.length
        rw [e, hn.idxOf_getElem]; omega⟩)
    exact hlt this

/-- **C185 (a table as idce rows).** If each case and each alternative of the container has a row, and the table is as large, `array_to_ce` gives
every row the value that the table has for its case and alternative. -/
theorem C185_array_to_ce (f : MF α) (hf : Regular f) (ids : List Int) (hids : CasesOf f ids) (hne : ∀ b ∈ f.lev1, ∃ r ∈ f.rows, r.1.2 = b)
    (R C : Nat) (hR : ids.length ≤ R) (hC : f.lev1.length ≤ C) (M : Nat → Nat → K) :
    ∃ out, arrayToCe f ids.length f.lev1.length R C M = some out ∧ out.length = f.rows.length ∧
      ∀ (k : Nat) (r : (Int × Int) × α) (i a : Nat), f.rows[k]? = some r → ids[i]? = some r.1.1 → f.lev1[a]? = some r.1.2 → out[k]? = some (M i a) := by
  have h1 := ceCases_eq hf.lev0 (fun r hr => (hf.rows r hr).1) hids.sorted hids.mem
  have h2 := tc_alts hf hne
  refine ⟨asCe f M, ?_, C80_as_ce f hf ids hids M⟩
  unfold arrayToCe asCe cells
  rw [h1, h2]
  refine (tc_good f R C M _ ?_ _).trans rfl
  intro p hp
  obtain ⟨c, hc, hp⟩ := List.mem_flatMap.1 hp
  obtain ⟨a, ha, rfl⟩ := List.mem_map.1 hp
  rw [List.mem_range] at hc ha
  rw [h1, h2]
  exact ⟨hc, ha, by omega, by omega⟩

/-- **C185 fails for alternatives without rows**: if no row has the last alternative, `array_to_ce` raises for every table (as soon as there is a case). -/
theorem C185_fails_unused_alternative (f : MF α) (hf : Regular f) (b : Int) (hb : f.lev1.getLast? = some b) (hr : ∀ r ∈ f.rows, r.1.2 ≠ b) (n R C : Nat)
    (hn : 0 < n) (M : Nat → Nat → K) : arrayToCe f n f.lev1.length R C M = none := by
  have hnd : f.lev1.Nodup := hf.lev1.imp (fun h => ne_of_lt h)
  have hl : f.lev1 ≠ [] := by rintro e; rw [e] at hb; cases hb
  have hpos := List.length_pos_of_ne_nil hl
  have hlast : f.lev1[f.lev1.length - 1] = b := by
    rw [List.getLast?_eq_some_getLast hl, List.getLast_eq_getElem] at hb
    exact Option.some.inj hb
  have hle : ceAlts f ≤ f.lev1.length - 1 := by
    apply foldl_max_le
    intro x hx
    obtain ⟨r, hr', rfl⟩ := List.mem_map.1 hx
    have h1 := List.idxOf_lt_length_of_mem (hf.rows r hr').2
    show f.lev1.idxOf r.1.2 + 1 ≤ _
    have h2 : f.lev1.idxOf r.1.2 ≠ f.lev1.length - 1 := by
      intro e
      apply hr r hr'
      have h3 := List.getElem_idxOf h1
      rw [← h3, ← hlast]
      congr 1
    omega
  unfold arrayToCe
  refine tc_bad f R C M _ (0, f.lev1.length - 1) (List.mem_flatMap.2 ⟨0, List.mem_range.2 hn, List.mem_map.2 ⟨_, List.mem_range.2 (by omega), rfl⟩⟩) ?_ _
  intro arr
  unfold putCell
  rw [Option.bind_some, if_neg]
  rintro ⟨_, h⟩
  have : f.lev1.length - 1 < ceAlts f := h
  omega

/-- **C185 fails for cases without rows**: with more cases in `data_co` than in the idce data `array_to_ce` raises for every table. -/
theorem C185_fails_more_cases (f : MF α) (hf : Regular f) (ids : List Int) (hids : CasesOf f ids) (n nAlts R C : Nat) (hn : ids.length < n) (ha : 0 < nAlts)
    (M : Nat → Nat → K) : arrayToCe f n nAlts R C M = none := by
  have h1 := ceCases_eq hf.lev0 (fun r hr => (hf.rows r hr).1) hids.sorted hids.mem
  unfold arrayToCe
  refine tc_bad f R C M _ (ids.length, 0) (List.mem_flatMap.2 ⟨_, List.mem_range.2 hn, List.mem_map.2 ⟨_, List.mem_range.2 ha, rfl⟩⟩) ?_ _
  intro arr
  unfold putCell
  rw [Option.bind_some, if_neg]
  rintro ⟨h, _⟩
  have : ids.length < ceCases f := h
  omega

/-- **C185 fails for repeated rows**: only the last has the value of its case and alternative; the others have zero. -/
theorem C185_fails_repeated : arrayToCe (⟨[4], [1, 2], [((4, 1), ()), ((4, 1), ()), ((4, 2), ())], 1⟩ : MF Unit) 1 2 1 2 (fun _ a => ((a : ℤ) + 5)) =
    some [0, 5, 6] := by decide +kernel

/-- Three cases, two alternatives, five rows. -/
def ceFive : MF Unit := ⟨[4, 5, 7], [1, 2], [((4, 1), ()), ((4, 2), ()), ((5, 2), ()), ((7, 1), ()), ((7, 2), ())], 1⟩

example : Regular ceFive ∧ CasesOf ceFive [4, 5, 7] ∧ (∀ b ∈ ceFive.lev1, ∃ r ∈ ceFive.rows, r.1.2 = b) ∧
    arrayToCe ceFive 3 2 3 2 (fun i a => 10 * (i : ℤ) + a) = some [0, 1, 11, 20, 21] := by
  refine ⟨⟨by decide, by decide, by decide, by decide⟩, ⟨by decide, fun c => ?_⟩, by decide, by decide +kernel⟩
  simp [ceFive]; constructor
  · rintro (rfl | rfl | rfl) <;> simp
  · rintro (rfl | rfl | rfl | rfl | rfl) <;> simp

/-- **C185 (names).** Given as a mapping, each alternative has its name, or its code as text if it has none; given as a sequence of the right
length, the names belong to the codes in order; anything else raises.  Without names the codes are used. -/
theorem C185_names (codes : List Int) (m : List (Int × String)) (l : List String) (hl : l.length = codes.length) :
    (∃ out, setAltNames (some codes) (.mapping m) = .ok out ∧ ∀ (i : Nat) (c : Int), codes[i]? = some c →
      (altPairs codes (some out))[i]? = some (c, match m.lookup c with | some s => s | none => toString c)) ∧
    (∃ out, setAltNames (some codes) (.sequence l) = .ok out ∧ (altPairs codes (some out)).map Prod.fst = codes ∧
      (altPairs codes (some out)).map Prod.snd = l) ∧
    setAltNames (some codes) .other = .error .value ∧ setAltNames none (.mapping m) = .error .type ∧
    altPairs codes none = codes.map (fun c => (c, toString c)) := by
  refine ⟨⟨_, rfl, ?_⟩, ⟨l, rfl, ?_, ?_⟩, rfl, rfl, rfl⟩
  · intro i c hc
    simp only [altPairs, List.getElem?_zip_eq_some]
    refine ⟨hc, ?_⟩
    rw [List.getElem?_map, hc]
    cases h : m.lookup c <;> simp [h]
  · simp only [altPairs]; exact List.map_fst_zip (le_of_eq hl.symm)
  · simp only [altPairs]; exact List.map_snd_zip (le_of_eq hl)

example : setAltNames (some [1, 2, 9]) (.mapping [(2, "SR2"), (1, "DA")]) = .ok ["DA", "SR2", "9"] := by decide +kernel

/-- **C185 fails for sequences**: their length is not checked; with too few names the last alternatives are missing from `alternatives`, with too
many the last names are lost. -/
theorem C185_fails_length (codes : List Int) (l : List String) : setAltNames (some codes) (.sequence l) = .ok l ∧
    (altPairs codes (some l)).length = min codes.length l.length := by
  refine ⟨rfl, ?_⟩
  simp only [altPairs, List.length_zip]

/-- **C185 (the simple model).** The first alternative has a term for each column of the idca data, the others have also one for each column of
the idco data. -/
theorem C185_make_mnl {F : Type} [Field F] (a0 : Int) (codes : List Int) (hn : a0 ∉ codes) (vs ws : List String) (co : String → F) (ca : Int → String → F)
    (β : String → F) : makeMnlU (a0 :: codes) (some vs) (some ws) co ca β a0 = (ws.map (fun j => β j * ca a0 j)).sum ∧
      ∀ a ∈ codes, makeMnlU (a0 :: codes) (some vs) (some ws) co ca β a = (vs.map (fun j => β j * co j)).sum + (ws.map (fun j => β j * ca a j)).sum := by
  constructor
  · simp only [makeMnlU, List.drop_succ_cons, List.drop_zero, if_neg hn, zero_add]
  · intro a ha
    simp only [makeMnlU, List.drop_succ_cons, List.drop_zero, if_pos ha]

/-- **C185 fails for idco data**: the parameters do not depend on the alternative, so that with idco data alone all alternatives but the first
have the same utility whatever the parameters and the data. -/
theorem C185_fails_same_utility {F : Type} [Field F] (a0 : Int) (codes : List Int) (vs : List String) (co : String → F) (ca : Int → String → F) (β : String → F)
    (a b : Int) (ha : a ∈ codes) (hb : b ∈ codes) : makeMnlU (a0 :: codes) (some vs) none co ca β a = makeMnlU (a0 :: codes) (some vs) none co ca β b := by
  simp only [makeMnlU, List.drop_succ_cons, List.drop_zero, if_pos ha, if_pos hb]

/-- **C185 fails for columns of the same name** in the idco and the idca data: they share a parameter. -/
theorem C185_fails_shared {F : Type} [Field F] (a0 a : Int) (j : String) (co : String → F) (ca : Int → String → F) (β : String → F) :
    makeMnlU [a0, a] (some [j]) (some [j]) co ca β a = β j * (co j + ca a j) := by
  simp [makeMnlU]; ring

example : makeMnlU [1, 2, 3] (some ["inc"]) (some ["cost"]) (fun _ => (5 : ℚ)) (fun a _ => a) (fun s => if s = "inc" then 2 else -1) 3 = 7 := by decide +kernel

end Larch.Props
