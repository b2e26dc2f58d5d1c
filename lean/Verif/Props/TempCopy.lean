import Verif.Model.TempCopy
import Verif.Props.Watched
import Verif.Props.Recode
import Mathlib.Data.Finset.Card
import Mathlib.Data.Finset.Image

/-! # C206: copies in the temporary directory -/

namespace Larch.Props

open Larch.Watched (entry write)
open Larch.TempCopy

variable {B : Type}

theorem tc_split (p : List Char) : (splitext p).1 ++ (splitext p).2 = p := by
  unfold splitext
  simp only
  split
  · exact List.take_append_drop _ _
  · exact List.append_nil _

theorem tc_candidate (base : List Char) {m n : Nat} (h : candidate base m = candidate base n) : m = n := by
  have hl : ∀ k, ((splitext base).1 ++ '.' :: (Nat.repr k).toList ++ (splitext base).2).length = base.length + 1 + (Nat.repr k).toList.length := by
    intro k
    have := congrArg List.length (tc_split base)
    simp only [List.length_append, List.length_cons] at this ⊢
    omega
  unfold candidate at h
  by_cases hm : m = 0
  · by_cases hn : n = 0
    · rw [hm, hn]
    · rw [if_pos hm, if_neg hn] at h
      have := congrArg List.length h
      rw [hl] at this
      omega
  · by_cases hn : n = 0
    · rw [if_neg hm, if_pos hn] at h
      have := congrArg List.length h
      rw [hl] at this
      omega
    · rw [if_neg hm, if_neg hn] at h
      have h1 := List.append_cancel_left (List.append_cancel_right h)
      exact repr_inj (String.toList_inj.1 (List.cons.inj h1).2)

theorem tc_search (dir : List (List Char × B)) (base : List Char) (fuel n : Nat) (h : ∀ k < n, (entry dir (candidate base k)).isSome) :
    ∃ m, n ≤ m ∧ m ≤ n + fuel ∧ search dir base n fuel = candidate base m ∧ (∀ k < m, (entry dir (candidate base k)).isSome) ∧
      (m < n + fuel → (entry dir (candidate base m)).isSome = false) := by
  induction fuel generalizing n with
  | zero => exact ⟨n, Nat.le_refl _, Nat.le_refl _, rfl, h, fun hc => absurd hc (by omega)⟩
  | succ fuel ih =>
    unfold search
    by_cases hn : (entry dir (candidate base n)).isSome = true
    · rw [if_pos hn]
      obtain ⟨m, h1, h2, h3, h4, h5⟩ := ih (n + 1) (fun k hk => by
        rcases Nat.lt_or_eq_of_le (Nat.lt_succ_iff.1 hk) with h' | rfl
        · exact h k h'
        · exact hn)
      exact ⟨m, by omega, by omega, h3, h4, fun hc => h5 (by omega)⟩
    · rw [if_neg hn]
      exact ⟨n, Nat.le_refl _, by omega, rfl, h, fun _ => by simpa using hn⟩

theorem tc_mem (dir : List (List Char × B)) (x : List Char) (h : (entry dir x).isSome = true) : x ∈ dir.map (·.1) := by
  unfold entry at h
  rw [Option.isSome_map, List.find?_isSome] at h
  obtain ⟨a, ha, hk⟩ := h
  exact List.mem_map.2 ⟨a, ha, by simpa using hk⟩

/-- **C206, a free name.** The copy has the first free of the names: the source's own, then with a number before the ending, counting from one. -/
theorem C206_free (dir : List (List Char × B)) (base : List Char) (content : B) :
    ∃ stem ending, stem ++ ending = base ∧ ∃ m : Nat,
      (copyTo dir base content true).1 = (if m = 0 then base else stem ++ '.' :: (Nat.repr m).toList ++ ending) ∧
        entry dir (copyTo dir base content true).1 = none ∧
        ∀ k < m, (entry dir (if k = 0 then base else stem ++ '.' :: (Nat.repr k).toList ++ ending)).isSome := by
  refine ⟨(splitext base).1, (splitext base).2, tc_split base, ?_⟩
  obtain ⟨m, _, h2, h3, h4, h5⟩ := tc_search dir base dir.length 0 (fun k hk => absurd hk (by omega))
  have h3' : (copyTo dir base content true).1 = candidate base m := h3
  refine ⟨m, h3', ?_, h4⟩
  rw [h3']
  by_cases hm : m < 0 + dir.length
  · simpa using h5 hm
  · cases he : entry dir (candidate base m) with
    | none => rfl
    | some b =>
      exfalso
      have hsub : (Finset.range (m + 1)).image (candidate base) ⊆ (dir.map (·.1)).toFinset := by
        intro x hx
        obtain ⟨k, hk, rfl⟩ := Finset.mem_image.1 hx
        rw [List.mem_toFinset]
        apply tc_mem
        rcases Nat.lt_or_eq_of_le (Nat.lt_succ_iff.1 (Finset.mem_range.1 hk)) with h' | rfl
        · exact h4 k h'
        · rw [he]; rfl
      have hc := Finset.card_le_card hsub
      rw [Finset.card_image_of_injective _ (fun a b h => tc_candidate base h), Finset.card_range] at hc
      have := List.toFinset_card_le (dir.map (·.1))
      rw [List.length_map] at this
      omega

/-- **C206, the ending.** The number stands before the last dot, if there is something other than dots before that, and else at the end. -/
theorem C206_ending (stem ending : List Char) (he : '.' ∉ ending) :
    (∀ c ∈ stem, c ≠ '.' → splitext (stem ++ '.' :: ending) = (stem, '.' :: ending)) ∧
      ((∀ c ∈ stem, c = '.') → splitext (stem ++ '.' :: ending) = (stem ++ '.' :: ending, [])) ∧ splitext ending = (ending, []) := by
  have hrev : ((stem ++ '.' :: ending).reverse.takeWhile (fun c => c != '.')).length = ending.length := by
    rw [List.reverse_append, List.reverse_cons, List.append_assoc, List.takeWhile_append_of_pos, List.length_append, List.length_reverse]
    · simp
    · intro a ha
      rw [List.mem_reverse] at ha
      have : a ≠ '.' := fun e => he (e ▸ ha)
      simpa using this
  have hk : (stem ++ '.' :: ending).length - ((stem ++ '.' :: ending).reverse.takeWhile (fun c => c != '.')).length - 1 = stem.length := by
    rw [hrev, List.length_append, List.length_cons]
    omega
  refine ⟨fun c hc hd => ?_, fun hd => ?_, ?_⟩
  · unfold splitext
    simp only
    rw [hk, if_pos]
    · simp
    · simp only [List.take_left, Bool.and_eq_true]
      refine ⟨by simp, List.any_eq_true.2 ⟨c, hc, by simpa using hd⟩⟩
  · unfold splitext
    simp only
    rw [hk, if_neg]
    simp only [List.take_left, Bool.and_eq_true]
    rintro ⟨_, h⟩
    obtain ⟨a, ha, hb⟩ := List.any_eq_true.1 h
    rw [hd a ha] at hb
    exact absurd hb (by decide)
  · unfold splitext
    simp only
    rw [if_neg]
    simp only [Bool.and_eq_true]
    rintro ⟨h, _⟩
    exact he (by simpa using h)

/-- **C206, nothing is overwritten.** The copy has the content of the source, and all other files are as they were. -/
theorem C206_kept (dir : List (List Char × B)) (base : List Char) (content : B) (x : List Char) :
    entry (copyTo dir base content true).2 x = (if x = (copyTo dir base content true).1 then some content else entry dir x) ∧
      (∀ b, entry dir x = some b → entry (copyTo dir base content true).2 x = some b) := by
  have h : entry (copyTo dir base content true).2 x = if x = (copyTo dir base content true).1 then some content else entry dir x :=
    wd_write dir (copyTo dir base content true).1 content x
  refine ⟨h, fun b hb => ?_⟩
  rw [h, if_neg, hb]
  intro e
  obtain ⟨_, _, _, _, _, hn, _⟩ := C206_free dir base content
  rw [← e, hb] at hn
  cases hn

theorem tc_kept (ss : List (List Char × B)) (dir : List (List Char × B)) (x : List Char) (b : B) (h : entry dir x = some b) :
    entry (copies dir ss).2 x = some b ∧ x ∉ (copies dir ss).1 := by
  induction ss generalizing dir with
  | nil => exact ⟨h, by simp [copies]⟩
  | cons s r ih =>
    have h1 := (C206_kept dir s.1 s.2 x).2 b h
    refine ⟨(ih _ h1).1, ?_⟩
    show x ∉ (copyTo dir s.1 s.2 true).1 :: (copies (copyTo dir s.1 s.2 true).2 r).1
    rw [List.mem_cons]
    rintro (e | e)
    · obtain ⟨_, _, _, _, _, hn, _⟩ := C206_free dir s.1 s.2
      rw [← e, h] at hn
      cases hn
    · exact (ih _ h1).2 e

/-- **C206, many copies.** Any number of copies, of any sources, have distinct names, none of a file that was there, and in the end each has the content
of its source and what was there is as it was. -/
theorem C206_many (ss : List (List Char × B)) (dir : List (List Char × B)) :
    (copies dir ss).1.length = ss.length ∧ (copies dir ss).1.Nodup ∧ (∀ x b, entry dir x = some b → x ∉ (copies dir ss).1 ∧ entry (copies dir ss).2 x = some b) ∧
      ∀ e ∈ (copies dir ss).1.zip ss, entry (copies dir ss).2 e.1 = some e.2.2 := by
  refine ⟨?_, ?_, fun x b h => ⟨(tc_kept ss dir x b h).2, (tc_kept ss dir x b h).1⟩, ?_⟩
  · induction ss generalizing dir with
    | nil => rfl
    | cons s r ih => simp [copies, ih]
  · induction ss generalizing dir with
    | nil => exact List.nodup_nil
    | cons s r ih =>
      refine List.nodup_cons.2 ⟨?_, ih _⟩
      have := (C206_kept dir s.1 s.2 (copyTo dir s.1 s.2 true).1).1
      rw [if_pos rfl] at this
      exact (tc_kept r _ _ _ this).2
  · induction ss generalizing dir with
    | nil => intro e he; cases he
    | cons s r ih =>
      intro e he
      rcases List.mem_cons.1 he with rfl | h
      · have := (C206_kept dir s.1 s.2 (copyTo dir s.1 s.2 true).1).1
        rw [if_pos rfl] at this
        exact (tc_kept r _ _ _ this).1
      · exact ih _ e h

example : (copies [("a.b".toList, 1)] [("a.b".toList, 2), ("a.b".toList, 3)]).1 = ["a.1.b".toList, "a.2.b".toList] := by decide +kernel

example : '.' ∉ "csv".toList ∧ 'x' ∈ "x.y".toList := by decide

/-- **C206, what goes wrong.** With `spool=False` a copy of another source with the same name is overwritten: both calls give the same path. -/
theorem C206_fails_overwritten (dir : List (List Char × B)) (base : List Char) (b c : B) :
    (copyTo dir base b false).1 = (copyTo (copyTo dir base b false).2 base c false).1 ∧
      entry (copyTo (copyTo dir base b false).2 base c false).2 (copyTo dir base b false).1 = some c := by
  refine ⟨rfl, ?_⟩
  show entry (write (write dir base b) base c) base = some c
  rw [wd_write, if_pos rfl]

end Larch.Props
