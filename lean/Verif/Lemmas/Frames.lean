import Verif.Model.Frames
import Mathlib.Data.List.Perm.Basic
import Mathlib.Data.List.Sort

/-!
# Helper lemmas for the `DataFrames` container
-/

namespace Larch.Frames

theorem perm_insert_one {α : Type} (a : α) (S : List Nat) (p : Nat → Bool) (g : Nat → List α) (hnd : S.Nodup)
    (s0 : Nat) (h0 : s0 ∈ S) (h1 : p s0 = true) (h2 : ∀ s ∈ S, p s = true → s = s0) :
    (S.flatMap (fun s => if p s then a :: g s else g s)).Perm (a :: S.flatMap g) := by
  induction S with
  | nil => simp at h0
  | cons s S ih =>
    obtain ⟨hs, hnd⟩ := List.nodup_cons.mp hnd
    simp only [List.flatMap_cons]
    rcases List.mem_cons.mp h0 with rfl | h0
    · rw [if_pos h1]
      have : S.flatMap (fun s => if p s then a :: g s else g s) = S.flatMap g := by
        apply List.flatMap_congr
        intro t ht
        rw [if_neg]
        intro hpt
        exact hs (h2 t (List.mem_cons_of_mem _ ht) hpt ▸ ht)
      rw [this]
      exact List.Perm.refl _
    · have hps : p s = false := by
        by_contra hp
        have : s = s0 := h2 s List.mem_cons_self (by simpa using hp)
        exact hs (this ▸ h0)
      rw [hps]
      simp only [Bool.false_eq_true, if_false]
      have := ih hnd h0 (fun t ht => h2 t (List.mem_cons_of_mem _ ht))
      exact (List.Perm.append_left _ this).trans List.perm_middle

/-- Filtering by classes and putting the classes together gives back the list, up to order. -/
theorem perm_parts {α : Type} (L : List α) (k : Nat) (p : Nat → α → Bool)
    (h : ∀ x ∈ L, ∃! s, s < k ∧ p s x = true) : ((List.range k).flatMap (fun s => L.filter (p s))).Perm L := by
  induction L with
  | nil => simp
  | cons a L ih =>
    have hL := ih (fun x hx => h x (List.mem_cons_of_mem _ hx))
    obtain ⟨s0, ⟨h0, h1⟩, h2⟩ := h a List.mem_cons_self
    have := perm_insert_one a (List.range k) (fun s => p s a) (fun s => L.filter (p s)) List.nodup_range s0
      (List.mem_range.mpr h0) h1 (fun s hs hp => h2 s ⟨List.mem_range.mp hs, hp⟩)
    have he : (List.range k).flatMap (fun s => (a :: L).filter (p s)) =
        (List.range k).flatMap (fun s => if p s a then a :: L.filter (p s) else L.filter (p s)) := by
      apply List.flatMap_congr
      intro s _
      rw [List.filter_cons]
    rw [he]
    exact this.trans (List.Perm.cons a hL)

/-- The same in order, when the classes are consecutive blocks of a list whose entries increase. -/
theorem eq_parts {α : Type} (r : α → α → Prop) (hr : ∀ a b, r a b → r b a → False) (L : List α) (hL : L.Pairwise r) (k : Nat)
    (p : Nat → α → Bool) (h : ∀ x ∈ L, ∃! s, s < k ∧ p s x = true)
    (hb : ∀ s t, s < t → ∀ x ∈ L, ∀ y ∈ L, p s x = true → p t y = true → r x y) :
    (List.range k).flatMap (fun s => L.filter (p s)) = L := by
  apply List.Perm.eq_of_pairwise (le := r) _ _ hL (perm_parts L k p h)
  · intro a b _ _ h1 h2; exact absurd h2 (fun h2 => hr a b h1 h2)
  · rw [List.pairwise_flatMap]
    refine ⟨fun s _ => hL.filter _, ?_⟩
    refine List.Pairwise.imp ?_ (List.pairwise_lt_range (n := k))
    intro s t hst x hx y hy
    rw [List.mem_filter] at hx hy
    exact hb s t hst x hx.1 y hy.1 hx.2 hy.2

theorem pickCo_sublist {α : Type} (f : Co α) (m : Nat → Bool) : (pickCo f m).Sublist f := by
  unfold pickCo
  have : (f.zipIdx.filter (fun r => m r.2)).Sublist f.zipIdx := List.filter_sublist
  have h := this.map Prod.fst
  rwa [List.zipIdx_map_fst] at h

theorem mem_pickCo {α : Type} (f : Co α) (m : Nat → Bool) (x : Int × α) :
    x ∈ pickCo f m ↔ ∃ i, f[i]? = some x ∧ m i = true := by
  unfold pickCo
  simp only [List.mem_map, List.mem_filter]
  constructor
  · rintro ⟨⟨y, i⟩, ⟨h1, h2⟩, rfl⟩
    exact ⟨i, List.mem_zipIdx_iff_getElem?.mp h1, h2⟩
  · rintro ⟨i, h1, h2⟩
    exact ⟨(x, i), ⟨List.mem_zipIdx_iff_getElem?.mpr h1, h2⟩, rfl⟩

theorem pickCo_perm {α : Type} (f : Co α) (k : Nat) (m : Nat → Nat → Bool) (h : ∀ i < f.length, ∃! s, s < k ∧ m s i = true) :
    ((List.range k).flatMap (fun s => pickCo f (m s))).Perm f := by
  have := perm_parts f.zipIdx k (fun s r => m s r.2) (fun x hx => h x.2 (by
    have := List.snd_lt_of_mem_zipIdx hx; simpa using this))
  have h2 := this.map Prod.fst
  rw [List.zipIdx_map_fst, List.map_flatMap] at h2
  exact h2

theorem pickCo_eq {α : Type} (f : Co α) (k : Nat) (m : Nat → Nat → Bool) (h : ∀ i < f.length, ∃! s, s < k ∧ m s i = true)
    (hb : ∀ i j, i ≤ j → j < f.length → ∀ s t, m s i = true → m t j = true → s ≤ t) :
    (List.range k).flatMap (fun s => pickCo f (m s)) = f := by
  have hz : f.zipIdx.Pairwise (fun a b => a.2 < b.2) := by
    have h1 : (f.zipIdx.map Prod.snd).Pairwise (· < ·) := by
      rw [List.zipIdx_map_snd]; exact List.pairwise_lt_range'
    exact List.pairwise_map.mp h1
  have := eq_parts (fun a b : (Int × α) × Nat => a.2 < b.2) (fun a b h1 h2 => by omega) f.zipIdx hz k
    (fun s r => m s r.2) (fun x hx => h x.2 (by have := List.snd_lt_of_mem_zipIdx hx; simpa using this))
    (fun s t hst x hx y hy hsx hty => by
      have hxl := List.snd_lt_of_mem_zipIdx hx
      have hyl := List.snd_lt_of_mem_zipIdx hy
      simp only [Nat.add_zero] at hxl hyl
      by_contra hlt
      have := hb y.2 x.2 (by omega) (by simpa using hxl) t s hty hsx
      omega)
  have h2 := congrArg (List.map Prod.fst) this
  rw [List.zipIdx_map_fst, List.map_flatMap] at h2
  exact h2

theorem setSorted_of_sublist {α : Type} {f g : Co α} (hg : isMono (g.map Prod.fst) = true) (h : f.Sublist g) : setSorted f = f := by
  unfold setSorted
  rw [if_pos]
  unfold isMono at *
  rw [decide_eq_true_eq] at *
  exact hg.sublist (h.map _)

theorem length_setSorted {α : Type} (f : Co α) : (setSorted f).length = f.length := by
  unfold setSorted sortCo; split <;> simp

/-- What `build` returns. -/
theorem build_spec {α : Type} {x : Args α} {d : DF α} (h : build x = some d) :
    d.co = x.co.map setSorted ∧ d.ch = x.ch.map setSorted ∧ d.av = x.av.map setSorted ∧ d.wt = x.wt ∧
    (∀ f, x.mf = some f → d.altCodes = f.lev1 ∧ (isIdce f = true → d.ca = none ∧ d.ce = some (setCe f)) ∧
      (isIdce f = false → d.ca = some f ∧ d.ce = none)) ∧
    (x.mf = none → d.ca = none ∧ d.ce = none) := by
  unfold build at h
  dsimp only at h
  split_ifs at h
  cases h
  refine ⟨rfl, rfl, rfl, ?_, ?_, ?_⟩
  · cases x.wt <;> rfl
  · rintro f hf
    rw [hf]
    refine ⟨rfl, fun hi => ?_, fun hi => ?_⟩ <;> simp [hi]
  · intro hf; rw [hf]; exact ⟨rfl, rfl⟩

theorem build_lengths {α : Type} {x : Args α} {d : DF α} (h : build x = some d) {f0 : Co α} (h0 : x.co = some f0) :
    nCases d = f0.length ∧ (∀ f, x.ch = some f → f.length = f0.length) ∧ (∀ f, x.av = some f → f.length = f0.length) ∧
    (∀ f, x.wt = some f → f.length = f0.length) := by
  unfold build at h
  dsimp only at h
  split_ifs at h with h1 h2 h3 h4
  cases h
  have hn : ∀ (a : List Int) (b c : Option (MF α)) (e f g : Option (Co α)),
      nCases (⟨a, x.co.map setSorted, b, c, e, f, g⟩ : DF α) = f0.length := by
    intro a b c e f g; rw [h0]; exact length_setSorted f0
  simp only [fits, hn] at h2 h3 h4
  refine ⟨hn _ _ _ _ _ _, ?_, ?_, ?_⟩
  · intro f hf; rw [hf] at h2; simpa [length_setSorted] using h2
  · intro f hf; rw [hf] at h4; simpa [length_setSorted] using h4
  · intro f hf; rw [hf] at h3; simpa [setWt] using h3

end Larch.Frames
