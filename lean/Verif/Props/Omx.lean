import Verif.Spec.Omx
import Mathlib.Data.List.Nodup

/-!
# C106: the arrays of a matrix file fit the file
-/

namespace Larch.Props

open Larch Larch.Omx

variable {α : Type}

section groups

variable {β : Type}

theorem omx_mem_put (g : List (String × β)) (n : String) (v : β) (e : String × β) :
    e ∈ put g n v ↔ (e ∈ g ∧ e.1 ≠ n) ∨ e = (n, v) := by
  simp [put]

theorem omx_nodup_put {g : List (String × β)} (h : (g.map Prod.fst).Nodup) (n : String) (v : β) :
    ((put g n v).map Prod.fst).Nodup := by
  unfold put
  rw [List.map_append, List.nodup_append]
  refine ⟨?_, by simp, ?_⟩
  · exact (h.sublist (List.filter_sublist.map _))
  · intro a ha b hb hab
    simp only [List.map_cons, List.map_nil, List.mem_singleton] at hb
    obtain ⟨e, he, rfl⟩ := List.mem_map.1 ha
    have := (List.mem_filter.1 he).2
    simp only [bne_iff_ne] at this
    exact this (hab.trans hb)

theorem omx_get_put (g : List (String × β)) (n m : String) (v : β) : Omx.get (put g n v) m = if m = n then some v else Omx.get g m := by
  unfold Omx.get put
  induction g with
  | nil =>
    by_cases h : m = n
    · simp [h]
    · have : (n == m) = false := by simp [Ne.symm h]
      simp [h, this]
  | cons e g ih =>
    by_cases he : e.1 = n
    · have : (e.1 != n) = false := by simp [he]
      rw [List.filter_cons, if_neg (by simp [this]), ih]
      by_cases h : m = n
      · simp [h]
      · have h2 : (e.1 == m) = false := by simp [he, Ne.symm h]
        simp [h, h2]
    · have : (e.1 != n) = true := by simp [he]
      rw [List.filter_cons, if_pos this, List.cons_append]
      by_cases h2 : e.1 = m
      · have h3 : m ≠ n := fun h => he (h2.trans h)
        simp [h2, h3]
      · have h3 : (e.1 == m) = false := by simp [h2]
        simp only [List.find?_cons, h3]
        exact ih

theorem omx_has_iff (g : List (String × β)) (n : String) : has g n = true ↔ ∃ e ∈ g, e.1 = n := by
  simp [has]

theorem omx_has_get (g : List (String × β)) (n : String) : has g n = (Omx.get g n).isSome := by
  unfold has Omx.get
  induction g with
  | nil => rfl
  | cons e g ih =>
    by_cases h : e.1 = n
    · simp [h]
    · have : (e.1 == n) = false := by simp [h]
      simp only [List.any_cons, this, Bool.false_or, List.find?_cons, ih]

theorem omx_get_mem {g : List (String × β)} {n : String} {v : β} (h : Omx.get g n = some v) : (n, v) ∈ g := by
  unfold Omx.get at h
  obtain ⟨e, he, rfl⟩ := Option.map_eq_some_iff.1 h
  have h1 := List.mem_of_find?_eq_some he
  have h2 : e.1 = n := by simpa using List.find?_some he
  rw [← h2]; exact h1

theorem omx_get_of_mem {g : List (String × β)} (hn : (g.map Prod.fst).Nodup) {n : String} {v : β} (h : (n, v) ∈ g) :
    Omx.get g n = some v := by
  induction g with
  | nil => cases h
  | cons e g ih =>
    rw [List.map_cons, List.nodup_cons] at hn
    rcases List.mem_cons.1 h with rfl | h
    · simp [Omx.get]
    · have : e.1 ≠ n := fun he => hn.1 (List.mem_map.2 ⟨_, h, he.symm⟩)
      have h3 : (e.1 == n) = false := by simp [this]
      have := ih hn.2 h
      simp only [Omx.get, List.find?_cons, h3] at this ⊢
      exact this

end groups

/-! ## Shapes -/

theorem shape_of {f : File α} {s : Nat × Nat} (ha : f.attr = s) (hd : ∀ e ∈ f.data, e.2.shape = s) : f.shape = s := by
  unfold File.shape
  split
  · rename_i h
    cases hdd : f.data with
    | nil => simp only; rw [← h, ha]
    | cons e r => simp only; exact hd e (by rw [hdd]; exact List.mem_cons_self)
  · exact ha

theorem shape_congr {f g : File α} (ha : f.attr = g.attr) (hd : f.data = g.data) : f.shape = g.shape := by
  unfold File.shape; rw [ha, hd]

theorem shape_read (f : File α) : f.read.shape = f.shape := by
  unfold File.read
  by_cases h : f.attr = (0, 0)
  · by_cases h2 : f.shape = (0, 0)
    · exact shape_congr (by rw [h2, h]) rfl
    · have : ∀ g : File α, g.attr ≠ (0, 0) → g.shape = g.attr := fun g hg => by unfold File.shape; rw [if_neg hg]
      exact this _ h2
  · have : f.shape = f.attr := by unfold File.shape; simp [h]
    exact shape_congr this rfl

theorem read_data (f : File α) : f.read.data = f.data := rfl
theorem read_lookup (f : File α) : f.read.lookup = f.lookup := rfl
theorem read_attr (f : File α) : f.read.attr = f.shape := rfl

theorem shape_nil {f : File α} (h : f.data = []) : f.shape = f.attr := by
  unfold File.shape
  rw [h]
  split <;> simp_all

open Omx.Spec in
theorem valid_read {f : File α} (h : Valid f) : Valid f.read :=
  ⟨fun e he => (h.matrices e he).trans (shape_read f).symm, fun e he => by rw [shape_read]; exact h.lookups e he, h.names⟩

/-- A file whose contents fit `s`. -/
theorem valid_mk {f : File α} (s : Nat × Nat) (ha : f.attr = s) (hd : ∀ e ∈ f.data, e.2.shape = s)
    (hl : ∀ e ∈ f.lookup, e.2.len = s.1 ∨ e.2.len = s.2) (hn : Omx.Spec.Names f) : Omx.Spec.Valid f := by
  have hs := shape_of ha hd
  exact ⟨fun e he => by rw [hs]; exact hd e he, fun e he => by rw [hs]; exact hl e he, hn⟩

open Omx.Spec

/-! ## One statement -/

theorem setShape_valid {f : File α} (h : Valid f) (x : Nat × Nat) (hc : Careful f (.setShape x)) : Valid (Omx.setShape f x).1 := by
  unfold Omx.setShape
  by_cases hd : f.data = []
  · have hl : f.lookup = [] := hc.resolve_left (fun h => h hd)
    have he : f.data.isEmpty = true := by simp [hd]
    simp only [he, if_true]
    refine valid_mk x rfl ?_ ?_ ?_
    · simp [hd]
    · simp [hl]
    · exact h.names
  · have : f.data.isEmpty = false := by simpa using hd
    simp only [this, Bool.false_eq_true, if_false]
    split <;> exact valid_read h

theorem addMatrix_valid {f : File α} (h : Valid f) (n : String) (m : Mat α) (o : Bool)
    (hc : f.data = [] → f.lookup = [] ∨ m.shape = f.shape) : Valid (Omx.addMatrix f n m o false).1 := by
  unfold Omx.addMatrix
  by_cases hd : f.data = []
  · have he : f.data.isEmpty = true := by simp [hd]
    simp only [he, Bool.not_false, Bool.not_true, Bool.and_false, Bool.false_and, Bool.false_eq_true, if_false, if_true]
    have hh : has f.data n = false := by simp [hd, has]
    simp only [hh, Bool.false_and, Bool.false_eq_true, if_false]
    refine valid_mk m.shape rfl ?_ ?_ ⟨omx_nodup_put h.names.1 n m, h.names.2⟩
    · intro e he
      rcases (omx_mem_put _ _ _ _).1 he with ⟨he, _⟩ | rfl
      · rw [hd] at he; cases he
      · rfl
    · intro e he
      rcases hc hd with hl | hm
      · have : e ∈ f.lookup := he
        rw [hl] at this; cases this
      · rw [hm]; exact h.lookups e he
  · have he : f.data.isEmpty = false := by simpa using hd
    simp only [he, Bool.not_false, Bool.and_true, if_true, read_data]
    split
    · exact valid_read h
    · rename_i hs
      have hs : m.shape = f.shape := by simpa [shape_read] using hs
      simp only [Bool.false_eq_true, if_false, read_data]
      split
      · exact valid_read h
      · refine valid_mk f.shape rfl ?_ (fun e he => h.lookups e he) ⟨omx_nodup_put h.names.1 n m, h.names.2⟩
        intro e he
        rcases (omx_mem_put _ _ _ _).1 he with ⟨he, _⟩ | rfl
        · exact h.matrices e he
        · exact hs

theorem addLookup_valid {f : File α} (h : Valid f) (n : String) (v : Vec α) (o : Bool)
    (hc : f.data = [] → v.len = f.shape.1 ∨ v.len = f.shape.2) : Valid (Omx.addLookup f n v o false).1 := by
  have key : ∀ g : File α, Valid g → (v.len = g.shape.1 ∨ v.len = g.shape.2) → Valid { g with lookup := put g.lookup n v } := by
    intro g hg hv
    refine ⟨hg.matrices, ?_, hg.names.1, omx_nodup_put hg.names.2 n v⟩
    intro e he
    rcases (omx_mem_put _ _ _ _).1 he with ⟨he, _⟩ | rfl
    · exact hg.lookups e he
    · exact hv
  unfold Omx.addLookup
  by_cases hd : f.data = []
  · have he : f.data.isEmpty = true := by simp [hd]
    simp only [he, Bool.not_false, Bool.not_true, Bool.and_false, Bool.false_and, Bool.false_eq_true, if_false, Bool.true_and]
    split
    · exact h
    · split
      · exact h
      · exact key f h (hc hd)
  · have he : f.data.isEmpty = false := by simpa using hd
    simp only [he, Bool.not_false, Bool.and_true, if_true, read_data, Bool.true_and, Bool.false_and, Bool.false_eq_true, if_false]
    split
    · exact valid_read h
    · rename_i hs
      split
      · exact valid_read h
      · refine key f.read (valid_read h) ?_
        by_contra hne
        rw [not_or] at hne
        apply hs
        simp [hne.1, hne.2]

theorem addBlankMatrix_valid [Zero α] {f : File α} (h : Valid f) (n : String) (x : Option (Nat × Nat)) : Valid (Omx.addBlankMatrix f n x).1 := by
  have key : ∀ c : Nat → Nat → α, Valid { f.read with data := put f.data n ⟨f.shape, c⟩ } := by
    intro c
    refine valid_mk f.shape rfl ?_ (fun e he => h.lookups e he) ⟨omx_nodup_put h.names.1 n _, h.names.2⟩
    intro e he
    rcases (omx_mem_put _ _ _ _).1 he with ⟨he, _⟩ | rfl
    · exact h.matrices e he
    · rfl
  unfold Omx.addBlankMatrix
  split
  · exact h
  · split
    · exact valid_read h
    · cases x with
      | none => exact key _
      | some x =>
        simp only
        split
        · exact valid_read h
        · rename_i hx
          rw [not_not] at hx
          subst hx
          exact key _

theorem addBlankLookup_valid [Zero α] {f : File α} (h : Valid f) (n : String) (x : Option Nat)
    (hc : Careful f (.addBlankLookup n x)) : Valid (Omx.addBlankLookup f n x).1 := by
  have key : ∀ k, (k = f.shape.1 ∨ k = f.shape.2) → ∀ c : Nat → α, Valid { f.read with lookup := put f.lookup n ⟨k, c⟩ } := by
    intro k hk c
    refine ⟨(valid_read h).matrices, ?_, h.names.1, omx_nodup_put h.names.2 n _⟩
    intro e he
    have hs : ({ f.read with lookup := put f.lookup n ⟨k, c⟩ } : File α).shape = f.shape := (shape_congr rfl rfl).trans (shape_read f)
    rw [hs]
    rcases (omx_mem_put _ _ _ _).1 he with ⟨he, _⟩ | rfl
    · exact h.lookups e he
    · exact hk
  unfold Omx.addBlankLookup
  split
  · exact h
  · split
    · exact valid_read h
    · cases x with
      | none =>
        simp only
        split
        · exact valid_read h
        · exact key _ (Or.inl rfl) _
      | some k =>
        simp only
        split
        · split
          · rename_i hz
            have hz' : f.shape = (0, 0) := Prod.ext hz.1 hz.2
            have hl : f.lookup = [] := hc.resolve_left (fun h => h hz')
            unfold Omx.setShape
            by_cases hd : f.data = []
            · have he : f.read.data.isEmpty = true := by simp [read_data, hd]
              simp only [he, if_true]
              refine valid_mk (k, k) rfl ?_ ?_ ⟨h.names.1, omx_nodup_put h.names.2 n _⟩
              · intro e he
                have : e ∈ f.data := he
                rw [hd] at this; cases this
              · intro e he
                rcases (omx_mem_put _ _ _ _).1 he with ⟨he, _⟩ | rfl
                · have : e ∈ f.lookup := he
                  rw [hl] at this; cases this
                · exact Or.inl rfl
            · have he : f.read.data.isEmpty = false := by simpa [read_data] using hd
              simp only [he, Bool.false_eq_true, if_false, shape_read]
              rename_i hk
              rw [if_pos hk]
              exact valid_read (valid_read h)
          · exact valid_read h
        · rename_i hk
          rw [not_and_or, not_not, not_not] at hk
          exact key k hk _

theorem setMatrix_valid {f : File α} (h : Valid f) (n : String) (m : Mat α) : Valid (Omx.setMatrix f n m).1 := by
  unfold Omx.setMatrix
  split
  · rename_i hs
    refine addMatrix_valid (valid_read h) n m false (fun _ => Or.inr ?_)
    rw [shape_read]; exact Prod.ext hs.1 hs.2
  · exact valid_read h

theorem setLookup_valid {f : File α} (h : Valid f) (n : String) (v : Vec α) : Valid (Omx.setLookup f n v).1 := by
  unfold Omx.setLookup
  split
  · rename_i hs
    refine addLookup_valid (valid_read h) n v false (fun _ => ?_)
    rw [shape_read]; exact hs
  · exact valid_read h

/-! ## Cropping -/

theorem addMatrix_force (f : File α) (n : String) (m : Mat α) (hd : f.data ≠ []) :
    Omx.addMatrix f n m true true = ({ f with data := put f.data n m }, true) := by
  have he : f.data.isEmpty = false := by simpa using hd
  simp [Omx.addMatrix, he]

theorem put_ne_nil {β : Type} (g : List (String × β)) (n : String) (v : β) : put g n v ≠ [] := by simp [put]

theorem cropData_spec (s0 s1 : Nat) (l : List (String × Mat α)) (f : File α) (hd : f.data ≠ []) :
    (cropData s0 s1 l f).attr = f.attr ∧ (cropData s0 s1 l f).lookup = f.lookup ∧ (cropData s0 s1 l f).data ≠ [] ∧
    ((f.data.map Prod.fst).Nodup → ((cropData s0 s1 l f).data.map Prod.fst).Nodup) ∧
    ∀ n, (l.map Prod.fst).Nodup →
      Omx.get (cropData s0 s1 l f).data n = ((Omx.get l n).map (fun m => m.crop s0 s1)).or (Omx.get f.data n) := by
  induction l generalizing f with
  | nil => exact ⟨rfl, rfl, hd, id, fun n _ => by simp [cropData, Omx.get]⟩
  | cons e r ih =>
    have hstep : cropData s0 s1 (e :: r) f = cropData s0 s1 r { f with data := put f.data e.1 (e.2.crop s0 s1) } := by
      rw [cropData, addMatrix_force f _ _ hd]
    rw [hstep]
    obtain ⟨h1, h2, h3, h4, h5⟩ := ih { f with data := put f.data e.1 (e.2.crop s0 s1) } (put_ne_nil _ _ _)
    refine ⟨h1, h2, h3, fun hn => h4 (omx_nodup_put hn _ _), fun n hn => ?_⟩
    rw [List.map_cons, List.nodup_cons] at hn
    rw [h5 n hn.2, omx_get_put]
    by_cases hen : n = e.1
    · subst hen
      have hnone : Omx.get r e.1 = none := by
        cases hg : Omx.get r e.1 with
        | none => rfl
        | some v => exact absurd (List.mem_map.2 ⟨_, omx_get_mem hg, rfl⟩) hn.1
      rw [hnone]
      simp [Omx.get]
    · have h6 : Omx.get (e :: r) n = Omx.get r n := by
        have : (e.1 == n) = false := by simp [Ne.symm hen]
        simp [Omx.get, this]
      rw [h6, if_neg hen]

theorem addLookup_force (f : File α) (n : String) (v : Vec α) (h : ¬ (f.data = [] ∧ f.shape = (0, 0))) :
    (Omx.addLookup f n v true true).1 = { f with lookup := put f.lookup n v } := by
  have h2 : (f.data.isEmpty && f.shape == (0, 0)) = false := by
    rw [Bool.and_eq_false_iff]
    by_cases hd : f.data = []
    · right
      have hs : f.shape ≠ (0, 0) := fun hs => h ⟨hd, hs⟩
      exact beq_false_of_ne hs
    · left; simpa using hd
  simp [Omx.addLookup, h2]

theorem cropLookup_spec (start0 s0 : Nat) (l : List (String × Vec α)) (f : File α) (h : ¬ (f.data = [] ∧ f.shape = (0, 0)))
    (hl : ∀ e ∈ l, e.2.len = start0) :
    (cropLookup start0 s0 l f).2 = true ∧ (cropLookup start0 s0 l f).1.attr = f.attr ∧ (cropLookup start0 s0 l f).1.data = f.data ∧
    ((f.lookup.map Prod.fst).Nodup → ((cropLookup start0 s0 l f).1.lookup.map Prod.fst).Nodup) ∧
    ∀ n, (l.map Prod.fst).Nodup →
      Omx.get (cropLookup start0 s0 l f).1.lookup n = ((Omx.get l n).map (fun v => v.crop s0)).or (Omx.get f.lookup n) := by
  induction l generalizing f with
  | nil => exact ⟨rfl, rfl, rfl, id, fun n _ => by simp [cropLookup, Omx.get]⟩
  | cons e r ih =>
    have hstep : cropLookup start0 s0 (e :: r) f = cropLookup start0 s0 r { f with lookup := put f.lookup e.1 (e.2.crop s0) } := by
      rw [cropLookup, if_pos (hl e List.mem_cons_self), addLookup_force f _ _ h]
    rw [hstep]
    have hsh : ({ f with lookup := put f.lookup e.1 (e.2.crop s0) } : File α).shape = f.shape := shape_congr rfl rfl
    obtain ⟨h0, h1, h2, h4, h5⟩ := ih { f with lookup := put f.lookup e.1 (e.2.crop s0) } (by rw [hsh]; exact h)
      (fun x hx => hl x (List.mem_cons_of_mem _ hx))
    refine ⟨h0, h1, h2, fun hn => h4 (omx_nodup_put hn _ _), fun n hn => ?_⟩
    rw [List.map_cons, List.nodup_cons] at hn
    rw [h5 n hn.2, omx_get_put]
    by_cases hen : n = e.1
    · subst hen
      have hnone : Omx.get r e.1 = none := by
        cases hg : Omx.get r e.1 with
        | none => rfl
        | some v => exact absurd (List.mem_map.2 ⟨_, omx_get_mem hg, rfl⟩) hn.1
      rw [hnone]
      simp [Omx.get]
    · have h6 : Omx.get (e :: r) n = Omx.get r n := by
        have : (e.1 == n) = false := by simp [Ne.symm hen]
        simp [Omx.get, this]
      rw [h6, if_neg hen]

theorem get_map_or {β : Type} (o : Option β) (g : β → β) : ((o.map g).or o) = o.map g := by cases o <;> rfl

/-- **C106.** Cropping a valid file to a smaller square (or a file whose lookups all go with the first dimension) succeeds and keeps, under
every name, the upper left part of the matrix and the front part of the lookup. -/
theorem C106_crop {f : File α} (hv : Valid f) (s0 s1 : Nat) (h0 : s0 ≤ f.shape.1) (h1 : s1 ≤ f.shape.2)
    (hc : (f.shape.1 = f.shape.2 ∧ s0 = s1) ∨ (f.shape.1 ≠ f.shape.2 ∧ ∀ e ∈ f.lookup, e.2.len = f.shape.1)) :
    (Omx.crop f s0 s1).2 = true ∧ (Omx.crop f s0 s1).1.shape = (s0, s1) ∧ Valid (Omx.crop f s0 s1).1 ∧
    (∀ n, Option.Rel SameMat (Omx.get (Omx.crop f s0 s1).1.data n) ((Omx.get f.data n).map (fun m => ⟨(s0, s1), m.cell⟩))) ∧
    (∀ n v, Omx.get f.lookup n = some v → ∃ v', Omx.get (Omx.crop f s0 s1).1.lookup n = some v' ∧ v'.len = s0 ∧ v'.cell = v.cell) := by
  have hlen : ∀ e ∈ f.lookup, e.2.len = f.shape.1 := by
    rcases hc with ⟨h, _⟩ | ⟨_, h⟩
    · intro e he
      rcases hv.lookups e he with h' | h'
      · exact h'
      · rw [h', h]
    · exact h
  have hrel : ∀ o : Option (Mat α), Option.Rel SameMat o o := by
    intro o; cases o with
    | none => exact .none
    | some m => exact .some ⟨rfl, fun _ _ _ _ => rfl⟩
  by_cases heq : f.shape.1 = s0 ∧ f.shape.2 = s1
  · have hs : f.shape = (s0, s1) := Prod.ext heq.1 heq.2
    have hcr : Omx.crop f s0 s1 = (f.read, true) := by simp [Omx.crop, heq]
    rw [hcr]
    refine ⟨rfl, (shape_read f).trans hs, valid_read hv, fun n => ?_, fun n v hnv => ⟨v, hnv, ?_, rfl⟩⟩
    · rw [read_data]
      cases hg : Omx.get f.data n with
      | none => exact .none
      | some m =>
        refine .some ⟨?_, fun _ _ _ _ => rfl⟩
        exact (hv.matrices _ (omx_get_mem hg)).trans hs
    · rw [hlen _ (omx_get_mem hnv), heq.1]
  · have hcr : Omx.crop f s0 s1 =
        (let r := cropLookup f.shape.1 s0 f.lookup (cropData s0 s1 f.data f.read)
         if r.2 then ({ r.1 with attr := (s0, s1) }, true) else r) := by
      unfold Omx.crop
      have a1 : ¬ s0 > f.shape.1 := Nat.not_lt.2 h0
      have a2 : ¬ s1 > f.shape.2 := Nat.not_lt.2 h1
      have a3 : ¬ (s0 ≠ s1 ∧ f.shape.1 = f.shape.2) := by
        rintro ⟨b1, b2⟩
        rcases hc with ⟨_, h⟩ | ⟨h, _⟩
        · exact b1 h
        · exact h b2
      simp only [heq, a1, a2, a3, if_false, read_data, read_lookup]
      rfl
    -- the loop over the matrices
    have hD : (cropData s0 s1 f.data f.read).attr = f.shape ∧ (cropData s0 s1 f.data f.read).lookup = f.lookup ∧
        ((cropData s0 s1 f.data f.read).data.map Prod.fst).Nodup ∧ (f.data = [] → (cropData s0 s1 f.data f.read).data = []) ∧
        ∀ n, Omx.get (cropData s0 s1 f.data f.read).data n = (Omx.get f.data n).map (fun m => m.crop s0 s1) := by
      by_cases hd : f.data = []
      · rw [hd]
        refine ⟨rfl, rfl, ?_, fun _ => ?_, fun n => ?_⟩ <;> simp [cropData, read_data, hd, Omx.get]
      · obtain ⟨b1, b2, b3, b4, b5⟩ := cropData_spec s0 s1 f.data f.read (by rw [read_data]; exact hd)
        refine ⟨b1, b2, b4 hv.names.1, fun h => absurd h hd, fun n => ?_⟩
        rw [b5 n hv.names.1, read_data, get_map_or]
    generalize hg : cropData s0 s1 f.data f.read = g at hcr hD
    obtain ⟨g1, g2, g3, g4, g5⟩ := hD
    have hgs : ¬ (g.data = [] ∧ g.shape = (0, 0)) := by
      rintro ⟨c1, c2⟩
      rw [shape_nil c1, g1] at c2
      rw [c2] at h0 h1 heq
      exact heq ⟨(Nat.le_zero.1 h0).symm, (Nat.le_zero.1 h1).symm⟩
    obtain ⟨l0, l1, l2, l4, l5⟩ := cropLookup_spec f.shape.1 s0 f.lookup g hgs hlen
    generalize hr : cropLookup f.shape.1 s0 f.lookup g = r at hcr l0 l1 l2 l4 l5
    have hcr' : Omx.crop f s0 s1 = ({ r.1 with attr := (s0, s1) }, true) := by rw [hcr]; simp [l0]
    rw [hcr']
    have hlk : ∀ n, Omx.get r.1.lookup n = (Omx.get f.lookup n).map (fun v => v.crop s0) := by
      intro n
      rw [l5 n hv.names.2, g2, get_map_or]
    have hdk : ∀ n, Omx.get r.1.data n = (Omx.get f.data n).map (fun m => m.crop s0 s1) := by
      intro n; rw [l2]; exact g5 n
    have hval : Valid ({ r.1 with attr := (s0, s1) } : File α) ∧ ({ r.1 with attr := (s0, s1) } : File α).shape = (s0, s1) := by
      have hsh : ∀ e ∈ r.1.data, e.2.shape = (s0, s1) := by
        intro e he
        have he' : (e.1, e.2) ∈ r.1.data := he
        have := omx_get_of_mem (by rw [l2]; exact g3) he'
        rw [hdk] at this
        obtain ⟨m, hm, hme⟩ := Option.map_eq_some_iff.1 this
        have hms := hv.matrices _ (omx_get_mem hm)
        rw [← hme]
        show (min s0 m.shape.1, min s1 m.shape.2) = (s0, s1)
        rw [show m.shape = f.shape from hms, Nat.min_eq_left h0, Nat.min_eq_left h1]
      refine ⟨valid_mk (s0, s1) rfl hsh ?_ ⟨by rw [l2]; exact g3, l4 (by rw [g2]; exact hv.names.2)⟩, shape_of rfl hsh⟩
      · intro e he
        have he' : (e.1, e.2) ∈ r.1.lookup := he
        have := omx_get_of_mem (l4 (by rw [g2]; exact hv.names.2)) he'
        rw [hlk] at this
        obtain ⟨v, hv', hve⟩ := Option.map_eq_some_iff.1 this
        have hvl := hlen _ (omx_get_mem hv')
        left
        rw [← hve]
        show min s0 v.len = s0
        rw [show v.len = f.shape.1 from hvl, Nat.min_eq_left h0]
    refine ⟨rfl, hval.2, hval.1, fun n => ?_, fun n v hnv => ⟨v.crop s0, ?_, ?_, rfl⟩⟩
    · show Option.Rel SameMat (Omx.get r.1.data n) _
      rw [hdk]
      cases hgn : Omx.get f.data n with
      | none => exact .none
      | some m =>
        refine .some ⟨?_, fun _ _ _ _ => rfl⟩
        have hms := hv.matrices _ (omx_get_mem hgn)
        show (min s0 m.shape.1, min s1 m.shape.2) = (s0, s1)
        rw [show m.shape = f.shape from hms, Nat.min_eq_left h0, Nat.min_eq_left h1]
    · show Omx.get r.1.lookup n = _
      rw [hlk, hnv]; rfl
    · show min s0 v.len = s0
      rw [show v.len = f.shape.1 from hlen _ (omx_get_mem hnv), Nat.min_eq_left h0]

/-! ## Histories -/

theorem crop_valid {f : File α} (hv : Valid f) (s0 s1 : Nat) (hc : Careful f (.crop s0 s1)) : Valid (Omx.crop f s0 s1).1 := by
  by_cases h0 : s0 ≤ f.shape.1
  · by_cases h1 : s1 ≤ f.shape.2
    · by_cases hsq : f.shape.1 = f.shape.2
      · by_cases hs : s0 = s1
        · exact (C106_crop hv s0 s1 h0 h1 (Or.inl ⟨hsq, hs⟩)).2.2.1
        · have hne : ¬ (f.shape.1 = s0 ∧ f.shape.2 = s1) := fun h => hs (by rw [← h.1, ← h.2, hsq])
          have : Omx.crop f s0 s1 = (f.read, false) := by
            unfold Omx.crop
            rw [if_neg hne, if_neg (Nat.not_lt.2 h0), if_neg (Nat.not_lt.2 h1), if_pos ⟨hs, hsq⟩]
          rw [this]; exact valid_read hv
      · exact (C106_crop hv s0 s1 h0 h1 (Or.inr ⟨hsq, hc.resolve_left hsq⟩)).2.2.1
    · have hne : ¬ (f.shape.1 = s0 ∧ f.shape.2 = s1) := fun h => h1 (Nat.le_of_eq h.2.symm)
      have h1' : s1 > f.shape.2 := Nat.lt_of_not_le h1
      have : Omx.crop f s0 s1 = (f.read, false) := by
        unfold Omx.crop
        simp only [hne, h1', if_false, if_true]
        split_ifs <;> rfl
      rw [this]; exact valid_read hv
  · have hne : ¬ (f.shape.1 = s0 ∧ f.shape.2 = s1) := fun h => h0 (Nat.le_of_eq h.1.symm)
    have h0' : s0 > f.shape.1 := Nat.lt_of_not_le h0
    have : Omx.crop f s0 s1 = (f.read, false) := by
      unfold Omx.crop
      simp only [hne, h0', if_false, if_true]
    rw [this]; exact valid_read hv

theorem step_valid [Zero α] {f : File α} (hv : Valid f) (o : Op α) (hc : Careful f o) : Valid (Omx.step f o).1 := by
  cases o with
  | setShape x => exact setShape_valid hv x hc
  | addMatrix n m o i =>
    obtain ⟨rfl, hc⟩ := hc
    exact addMatrix_valid hv n m o hc
  | addLookup n v o i =>
    obtain ⟨rfl, hc⟩ := hc
    exact addLookup_valid hv n v o hc
  | addBlankMatrix n s => exact addBlankMatrix_valid hv n s
  | addBlankLookup n l => exact addBlankLookup_valid hv n l hc
  | setMatrix n m => exact setMatrix_valid hv n m
  | setLookup n v => exact setLookup_valid hv n v
  | crop a b => exact crop_valid hv a b hc

theorem run_valid [Zero α] (l : List (Op α)) (f : File α) (hv : Valid f) (hc : CarefulAll f l) : Valid (Omx.run f l) := by
  induction l generalizing f with
  | nil => exact hv
  | cons o l ih => exact ih _ (step_valid hv o hc.1) hc.2

theorem empty_valid : Valid (Omx.empty : File α) :=
  ⟨fun _ h => absurd h (List.not_mem_nil), fun _ h => absurd h (List.not_mem_nil), List.nodup_nil, List.nodup_nil⟩

/-- **C106, partial.** A file made by any history of statements that respect the shape, failed ones included, is valid: all matrices have
the file's shape, all lookups the length of a dimension, and names are distinct. -/
theorem C106_valid_partial [Zero α] (l : List (Op α)) (hc : CarefulAll (Omx.empty : File α) l) : Valid (Omx.run Omx.empty l) :=
  run_valid l _ empty_valid hc

/-- The matrices of a file are in order. -/
def MatOk (f : File α) : Prop := Matrices f ∧ (f.data.map Prod.fst).Nodup

theorem matOk_mk {f : File α} (s : Nat × Nat) (ha : f.attr = s) (hd : ∀ e ∈ f.data, e.2.shape = s) (hn : (f.data.map Prod.fst).Nodup) :
    MatOk f := ⟨fun e he => by rw [shape_of ha hd]; exact hd e he, hn⟩

theorem matOk_of {f g : File α} (h : MatOk f) (hs : g.shape = f.shape) (hd : g.data = f.data) : MatOk g :=
  ⟨fun e he => by rw [hs]; exact h.1 e (hd ▸ he), by rw [hd]; exact h.2⟩

theorem matOk_read {f : File α} (h : MatOk f) : MatOk f.read := matOk_of h (shape_read f) rfl

theorem matOk_put {f : File α} (h : MatOk f) (n : String) (m : Mat α) (hm : m.shape = f.shape) :
    MatOk { f.read with data := put f.data n m } := by
  refine matOk_mk f.shape rfl ?_ (omx_nodup_put h.2 n m)
  intro e he
  rcases (omx_mem_put _ _ _ _).1 he with ⟨he, _⟩ | rfl
  · exact h.1 e he
  · exact hm

theorem matOk_empty {f : File α} (h : f.data = []) : MatOk f := ⟨fun e he => absurd (h ▸ he) List.not_mem_nil, by rw [h]; exact List.nodup_nil⟩

theorem setShape_mat {f : File α} (h : MatOk f) (x : Nat × Nat) : MatOk (Omx.setShape f x).1 := by
  unfold Omx.setShape
  by_cases hd : f.data = []
  · have he : f.data.isEmpty = true := by simp [hd]
    simp only [he, if_true]
    exact matOk_empty hd
  · have : f.data.isEmpty = false := by simpa using hd
    simp only [this, Bool.false_eq_true, if_false]
    split <;> exact matOk_read h

theorem addMatrix_mat {f : File α} (h : MatOk f) (n : String) (m : Mat α) (o : Bool) : MatOk (Omx.addMatrix f n m o false).1 := by
  unfold Omx.addMatrix
  by_cases hd : f.data = []
  · have he : f.data.isEmpty = true := by simp [hd]
    simp only [he, Bool.not_false, Bool.not_true, Bool.and_false, Bool.false_and, Bool.false_eq_true, if_false, if_true]
    have hh : has f.data n = false := by simp [hd, has]
    simp only [hh, Bool.false_and, Bool.false_eq_true, if_false]
    refine matOk_mk m.shape rfl ?_ (omx_nodup_put h.2 n m)
    intro e he
    rcases (omx_mem_put _ _ _ _).1 he with ⟨he, _⟩ | rfl
    · rw [hd] at he; cases he
    · rfl
  · have he : f.data.isEmpty = false := by simpa using hd
    simp only [he, Bool.not_false, Bool.and_true, if_true, read_data]
    split
    · exact matOk_read h
    · rename_i hs
      have hs : m.shape = f.shape := by simpa [shape_read] using hs
      simp only [Bool.false_eq_true, if_false, read_data]
      split
      · exact matOk_read h
      · exact matOk_put h n m hs

theorem addLookup_mat {f : File α} (h : MatOk f) (n : String) (v : Vec α) (o i : Bool) : MatOk (Omx.addLookup f n v o i).1 := by
  have key : ∀ g : File α, MatOk g → MatOk (
      if !i && !g.data.isEmpty && (v.len != g.shape.1 && v.len != g.shape.2) then (g, false)
      else if g.data.isEmpty && g.shape == (0, 0) then (g, false)
      else if has g.lookup n && !o then (g, false)
      else ({ g with lookup := put g.lookup n v }, true)).1 := by
    intro g hg
    split
    · exact hg
    · split
      · exact hg
      · split
        · exact hg
        · exact matOk_of hg (shape_congr rfl rfl) rfl
  unfold Omx.addLookup
  refine key _ ?_
  split
  · exact matOk_read h
  · exact h

theorem addBlankMatrix_mat [Zero α] {f : File α} (h : MatOk f) (n : String) (x : Option (Nat × Nat)) : MatOk (Omx.addBlankMatrix f n x).1 := by
  unfold Omx.addBlankMatrix
  split
  · exact h
  · split
    · exact matOk_read h
    · cases x with
      | none => exact matOk_put h n _ rfl
      | some x =>
        simp only
        split
        · exact matOk_read h
        · rename_i hx
          rw [not_not] at hx
          exact matOk_put h n _ hx

theorem addBlankLookup_mat [Zero α] {f : File α} (h : MatOk f) (n : String) (x : Option Nat) : MatOk (Omx.addBlankLookup f n x).1 := by
  have key : ∀ (g : File α) l, MatOk g → MatOk { g with lookup := l } := fun g l hg => matOk_of hg (shape_congr rfl rfl) rfl
  unfold Omx.addBlankLookup
  split
  · exact h
  · split
    · exact matOk_read h
    · cases x with
      | none =>
        simp only
        split
        · exact matOk_read h
        · exact key _ _ (matOk_read h)
      | some k =>
        simp only
        split
        · split
          · split
            · exact key _ _ (setShape_mat (matOk_read h) _)
            · exact setShape_mat (matOk_read h) _
          · exact matOk_read h
        · exact key _ _ (matOk_read h)

/-- **C106.** The matrices alone: every statement other than `crop`, with shape checks not switched off for matrices, keeps all matrices of
the file's shape, whatever was done with lookups and the shape attribute. -/
theorem C106_matrices [Zero α] (f : File α) (hm : Matrices f ∧ (f.data.map Prod.fst).Nodup) (o : Op α)
    (hi : ∀ n m ov, o ≠ .addMatrix n m ov true) (hcr : ∀ a b, o ≠ .crop a b) :
    Matrices (Omx.step f o).1 ∧ ((Omx.step f o).1.data.map Prod.fst).Nodup := by
  have h : MatOk f := hm
  show MatOk _
  cases o with
  | setShape x => exact setShape_mat h x
  | addMatrix n m ov i =>
    cases i with
    | true => exact absurd rfl (hi n m ov)
    | false => exact addMatrix_mat h n m ov
  | addLookup n v ov i => exact addLookup_mat h n v ov i
  | addBlankMatrix n s => exact addBlankMatrix_mat h n s
  | addBlankLookup n l => exact addBlankLookup_mat h n l
  | setMatrix n m =>
    show MatOk (Omx.setMatrix f n m).1
    unfold Omx.setMatrix
    split
    · exact addMatrix_mat (matOk_read h) n m false
    · exact matOk_read h
  | setLookup n v =>
    show MatOk (Omx.setLookup f n v).1
    unfold Omx.setLookup
    split
    · exact addLookup_mat (matOk_read h) n v false false
    · exact matOk_read h
  | crop a b => exact absurd rfl (hcr a b)

/-- **C106.** A statement other than `crop` that raises leaves matrices, lookups and shape as they were. -/
theorem C106_raise [Zero α] (f : File α) (o : Op α) (hcr : ∀ a b, o ≠ .crop a b) (h : (Omx.step f o).2 = false) :
    (Omx.step f o).1.data = f.data ∧ (Omx.step f o).1.lookup = f.lookup ∧ (Omx.step f o).1.shape = f.shape := by
  have same : f.data = f.data ∧ f.lookup = f.lookup ∧ f.shape = f.shape := ⟨rfl, rfl, rfl⟩
  have rd : f.read.data = f.data ∧ f.read.lookup = f.lookup ∧ f.read.shape = f.shape := ⟨rfl, rfl, shape_read f⟩
  have hM : ∀ (g : File α) n m ov i, (Omx.addMatrix g n m ov i).2 = false →
      (Omx.addMatrix g n m ov i).1.data = g.data ∧ (Omx.addMatrix g n m ov i).1.lookup = g.lookup ∧
      (Omx.addMatrix g n m ov i).1.shape = g.shape := by
    intro g n m ov i
    unfold Omx.addMatrix
    by_cases hd : g.data = []
    · have he : g.data.isEmpty = true := by simp [hd]
      have hh : has g.data n = false := by simp [hd, has]
      simp [he, hh]
    · have he : g.data.isEmpty = false := by simpa using hd
      cases i
      · simp only [he, Bool.not_false, Bool.and_true, if_true, read_data, Bool.false_eq_true, if_false]
        split
        · exact fun _ => ⟨rfl, rfl, shape_read g⟩
        · split
          · exact fun _ => ⟨rfl, rfl, shape_read g⟩
          · simp
      · simp only [he, Bool.not_true, Bool.false_and, Bool.false_eq_true, if_false]
        split
        · exact fun _ => ⟨rfl, rfl, rfl⟩
        · simp
  have hL : ∀ (g : File α) n v ov i, (Omx.addLookup g n v ov i).2 = false →
      (Omx.addLookup g n v ov i).1.data = g.data ∧ (Omx.addLookup g n v ov i).1.lookup = g.lookup ∧
      (Omx.addLookup g n v ov i).1.shape = g.shape := by
    intro g n v ov i
    unfold Omx.addLookup
    by_cases hc : (!i && !g.data.isEmpty) = true
    · simp only [hc, if_true, read_data]
      split
      · exact fun _ => ⟨rfl, rfl, shape_read g⟩
      · split
        · exact fun _ => ⟨rfl, rfl, shape_read g⟩
        · split
          · exact fun _ => ⟨rfl, rfl, shape_read g⟩
          · simp
    · simp only [hc, if_false, Bool.false_eq_true, Bool.false_and]
      split
      · exact fun _ => ⟨rfl, rfl, rfl⟩
      · split
        · exact fun _ => ⟨rfl, rfl, rfl⟩
        · simp
  cases o with
  | setShape x =>
    revert h
    show (Omx.setShape f x).2 = false → _ ∧ _ ∧ _
    simp only [Omx.step]
    unfold Omx.setShape
    split
    · simp
    · split
      · exact fun _ => rd
      · simp
  | addMatrix n m ov i => exact hM f n m ov i h
  | addLookup n v ov i => exact hL f n v ov i h
  | addBlankMatrix n s =>
    revert h
    simp only [Omx.step]
    unfold Omx.addBlankMatrix
    split
    · simp
    · split
      · exact fun _ => rd
      · cases s with
        | none => simp
        | some x =>
          simp only
          split
          · exact fun _ => rd
          · simp
  | addBlankLookup n l =>
    revert h
    simp only [Omx.step]
    unfold Omx.addBlankLookup
    split
    · simp
    · split
      · exact fun _ => rd
      · cases l with
        | none =>
          simp only
          split
          · exact fun _ => rd
          · simp
        | some k =>
          simp only
          split
          · split
            · split
              · simp
              · intro hf
                revert hf
                unfold Omx.setShape
                split
                · simp
                · split
                  · exact fun _ => ⟨rfl, rfl, (shape_read _).trans (shape_read f)⟩
                  · simp
            · exact fun _ => rd
          · simp
  | setMatrix n m =>
    revert h
    simp only [Omx.step]
    unfold Omx.setMatrix
    split
    · intro hf
      obtain ⟨a, b, c⟩ := hM f.read n m false false hf
      exact ⟨a, b, c.trans (shape_read f)⟩
    · exact fun _ => rd
  | setLookup n v =>
    revert h
    simp only [Omx.step]
    unfold Omx.setLookup
    split
    · intro hf
      obtain ⟨a, b, c⟩ := hL f.read n v false false hf
      exact ⟨a, b, c.trans (shape_read f)⟩
    · exact fun _ => rd
  | crop a b => exact absurd rfl (hcr a b)

/-! ## Reading back -/

/-- **C106.** A matrix that was added is read back, and every other matrix and all lookups are what they were. -/
theorem C106_add_read (f : File α) (n : String) (m : Mat α) (ov ig : Bool) (h : (Omx.addMatrix f n m ov ig).2 = true) :
    Omx.get (Omx.addMatrix f n m ov ig).1.data n = some m ∧
    (∀ k, k ≠ n → Omx.get (Omx.addMatrix f n m ov ig).1.data k = Omx.get f.data k) ∧
    (Omx.addMatrix f n m ov ig).1.lookup = f.lookup := by
  have key : ∀ g : File α, g.data = f.data → g.lookup = f.lookup →
      Omx.get ({ g with data := put g.data n m } : File α).data n = some m ∧
      (∀ k, k ≠ n → Omx.get ({ g with data := put g.data n m } : File α).data k = Omx.get f.data k) ∧
      ({ g with data := put g.data n m } : File α).lookup = f.lookup := by
    intro g hd hl
    refine ⟨by rw [omx_get_put, if_pos rfl], fun k hk => by rw [omx_get_put, if_neg hk, hd], hl⟩
  revert h
  unfold Omx.addMatrix
  by_cases hd : f.data = []
  · have he : f.data.isEmpty = true := by simp [hd]
    have hh : has f.data n = false := by simp [hd, has]
    simp only [he, hh, Bool.not_true, Bool.and_false, Bool.false_and, Bool.false_eq_true, if_false, if_true]
    exact fun _ => ⟨(key f rfl rfl).1, (key f rfl rfl).2.1, trivial⟩
  · have he : f.data.isEmpty = false := by simpa using hd
    cases ig
    · simp only [he, Bool.not_false, Bool.and_true, if_true, read_data, Bool.false_eq_true, if_false]
      split
      · simp
      · split
        · simp
        · exact fun _ => key f.read rfl rfl
    · simp only [he, Bool.not_true, Bool.false_and, Bool.false_eq_true, if_false]
      split
      · simp
      · exact fun _ => key f rfl rfl

/-- **C106.** The same for a lookup. -/
theorem C106_add_lookup_read (f : File α) (n : String) (v : Vec α) (ov ig : Bool) (h : (Omx.addLookup f n v ov ig).2 = true) :
    Omx.get (Omx.addLookup f n v ov ig).1.lookup n = some v ∧
    (∀ k, k ≠ n → Omx.get (Omx.addLookup f n v ov ig).1.lookup k = Omx.get f.lookup k) ∧
    (Omx.addLookup f n v ov ig).1.data = f.data := by
  have key : ∀ g : File α, g.data = f.data → g.lookup = f.lookup →
      ((if !ig && !g.data.isEmpty && (v.len != g.shape.1 && v.len != g.shape.2) then (g, false)
      else if g.data.isEmpty && g.shape == (0, 0) then (g, false)
      else if has g.lookup n && !ov then (g, false)
      else ({ g with lookup := put g.lookup n v }, true) : File α × Bool)).2 = true →
      Omx.get ((if !ig && !g.data.isEmpty && (v.len != g.shape.1 && v.len != g.shape.2) then (g, false)
      else if g.data.isEmpty && g.shape == (0, 0) then (g, false)
      else if has g.lookup n && !ov then (g, false)
      else ({ g with lookup := put g.lookup n v }, true) : File α × Bool)).1.lookup n = some v ∧
      (∀ k, k ≠ n → Omx.get ((if !ig && !g.data.isEmpty && (v.len != g.shape.1 && v.len != g.shape.2) then (g, false)
      else if g.data.isEmpty && g.shape == (0, 0) then (g, false)
      else if has g.lookup n && !ov then (g, false)
      else ({ g with lookup := put g.lookup n v }, true) : File α × Bool)).1.lookup k = Omx.get f.lookup k) ∧
      ((if !ig && !g.data.isEmpty && (v.len != g.shape.1 && v.len != g.shape.2) then (g, false)
      else if g.data.isEmpty && g.shape == (0, 0) then (g, false)
      else if has g.lookup n && !ov then (g, false)
      else ({ g with lookup := put g.lookup n v }, true) : File α × Bool)).1.data = f.data := by
    intro g hd hl
    split
    · simp
    · split
      · simp
      · split
        · simp
        · exact fun _ => ⟨by rw [omx_get_put, if_pos rfl], fun k hk => by rw [omx_get_put, if_neg hk, hl], hd⟩
  unfold Omx.addLookup at h ⊢
  refine key _ ?_ ?_ h
  · split <;> rfl
  · split <;> rfl

/-- **C106.** Indexing finds the matrix or lookup of that name, if only one group has it. -/
theorem C106_getitem (f : File α) (n : String) :
    (∀ m, Omx.get f.data n = some m → Omx.get f.lookup n = none → Omx.getItem f n = some (.inl m)) ∧
    (∀ v, Omx.get f.data n = none → Omx.get f.lookup n = some v → Omx.getItem f n = some (.inr v)) ∧
    (Omx.get f.data n = none → Omx.get f.lookup n = none → Omx.getItem f n = none) := by
  refine ⟨fun m h1 h2 => ?_, fun v h1 h2 => ?_, fun h1 h2 => ?_⟩ <;>
    simp [Omx.getItem, omx_has_get, h1, h2]

/-- **C106.** A matrix of another shape than the file's is refused. -/
theorem C106_add_shape (f : File α) (n : String) (m : Mat α) (ov : Bool) (hm : m.shape ≠ f.shape) (hd : f.data ≠ []) : (Omx.addMatrix f n m ov false).2 = false := by
  have he : f.data.isEmpty = false := by simpa using hd
  unfold Omx.addMatrix
  simp only [he, Bool.not_false, Bool.and_true, if_true, read_data, shape_read]
  rw [if_pos (by simpa using hm)]

/-- **C106.** Nothing that exists is replaced without `overwrite`. -/
theorem C106_no_overwrite (f : File α) (n : String) (m : Mat α) (v : Vec α) (ig : Bool) :
    ((Omx.get f.data n).isSome → (Omx.addMatrix f n m false ig).2 = false) ∧
    ((Omx.get f.lookup n).isSome → (Omx.addLookup f n v false ig).2 = false) := by
  constructor
  · intro h
    rw [← omx_has_get] at h
    have hd : f.data ≠ [] := fun hd => by rw [hd] at h; cases h
    have he : f.data.isEmpty = false := by simpa using hd
    unfold Omx.addMatrix
    cases ig
    · simp only [he, Bool.not_false, Bool.and_true, if_true, read_data, h, Bool.false_eq_true, if_false]
      split <;> rfl
    · simp [he, h]
  · intro h
    rw [← omx_has_get] at h
    have key : ∀ g : File α, g.lookup = f.lookup → ((
      if !ig && !g.data.isEmpty && (v.len != g.shape.1 && v.len != g.shape.2) then (g, false)
      else if g.data.isEmpty && g.shape == (0, 0) then (g, false)
      else if has g.lookup n && !false then (g, false)
      else ({ g with lookup := put g.lookup n v }, true) : File α × Bool)).2 = false := by
      intro g hl
      rw [hl, h]
      split
      · rfl
      · split
        · rfl
        · simp
    unfold Omx.addLookup
    refine key _ ?_
    split <;> rfl

/-! ## A file from a frame -/

theorem fromColumns_spec (n : Nat) (hn : n ≠ 0) (cols : List (String × (Nat → α))) (f : File α) (ha : f.attr = (n, n)) (hd : f.data = [])
    (hu : (cols.map Prod.fst).Nodup) (hf : ∀ e ∈ cols, Omx.get f.lookup e.1 = none) (hv : Valid f) :
    ∃ g, fromColumns n cols f = some g ∧ g.attr = (n, n) ∧ g.data = [] ∧ Valid g ∧
      (∀ e ∈ cols, Omx.get g.lookup e.1 = some ⟨n, e.2⟩) ∧ (∀ k, k ∉ cols.map Prod.fst → Omx.get g.lookup k = Omx.get f.lookup k) := by
  induction cols generalizing f with
  | nil => exact ⟨f, rfl, ha, hd, hv, fun e he => absurd he List.not_mem_nil, fun _ _ => rfl⟩
  | cons e r ih =>
    rw [List.map_cons, List.nodup_cons] at hu
    have hs : f.shape = (n, n) := (shape_nil hd).trans ha
    have hadd : Omx.addLookup f e.1 ⟨n, e.2⟩ false false = ({ f with lookup := put f.lookup e.1 ⟨n, e.2⟩ }, true) := by
      have he : f.data.isEmpty = true := by simp [hd]
      have hh : has f.lookup e.1 = false := by rw [omx_has_get, hf e List.mem_cons_self]; rfl
      simp [Omx.addLookup, he, hs, hh, hn]
    have hval := addLookup_valid hv e.1 ⟨n, e.2⟩ false (fun _ => Or.inl (by rw [hs]))
    rw [hadd] at hval
    obtain ⟨g, g1, g2, g3, g4, g5, g6⟩ := ih { f with lookup := put f.lookup e.1 ⟨n, e.2⟩ } ha hd hu.2 (by
      intro k hk
      have : k.1 ≠ e.1 := fun h => hu.1 (h ▸ List.mem_map_of_mem hk)
      show Omx.get (put f.lookup e.1 _) k.1 = none
      rw [omx_get_put, if_neg this]
      exact hf k (List.mem_cons_of_mem _ hk)) hval
    refine ⟨g, ?_, g2, g3, g4, ?_, ?_⟩
    · rw [fromColumns, hadd]; exact g1
    · intro k hk
      rcases List.mem_cons.1 hk with rfl | hk
      · rw [g6 _ hu.1]
        show Omx.get (put f.lookup k.1 _) k.1 = _
        rw [omx_get_put, if_pos rfl]
      · exact g5 k hk
    · intro k hk
      rw [List.map_cons, List.mem_cons, not_or] at hk
      rw [g6 k hk.2]
      show Omx.get (put f.lookup e.1 _) k = _
      rw [omx_get_put, if_neg hk.1]

/-- **C106.** `FromDataFrame` of a frame with rows and distinct column names: a valid square file with exactly the columns as lookups. -/
theorem C106_from_frame (n : Nat) (hn : n ≠ 0) (cols : List (String × (Nat → α))) (hu : (cols.map Prod.fst).Nodup) :
    ∃ g, fromDataFrame n cols = some g ∧ g.shape = (n, n) ∧ g.data = [] ∧ Valid g ∧
      (∀ e ∈ cols, Omx.get g.lookup e.1 = some ⟨n, e.2⟩) ∧ (∀ k, k ∉ cols.map Prod.fst → Omx.get g.lookup k = none) := by
  obtain ⟨g, g1, g2, g3, g4, g5, g6⟩ := fromColumns_spec n hn cols (Omx.setShape Omx.empty (n, n)).1 rfl rfl hu (fun _ _ => rfl)
    (setShape_valid empty_valid _ (Or.inr rfl))
  exact ⟨g, g1, (shape_nil g3).trans g2, g3, g4, g5, fun k hk => (g6 k hk).trans rfl⟩

example : ([("zone", fun i => i + 1), ("area", fun _ => 4)] : List (String × (Nat → Nat))).map Prod.fst |>.Nodup := by decide

/-- **C106 fails: a frame without rows.** `FromDataFrame` raises. -/
theorem C106_fails_no_rows (e : String × (Nat → α)) (cols : List (String × (Nat → α))) : fromDataFrame 0 (e :: cols) = none := by
  simp [fromDataFrame, fromColumns, Omx.setShape, Omx.empty, Omx.addLookup, File.shape]

/-! ## Where the full claim fails -/

/-- A lookup of zeros. -/
def zeros (n : Nat) : Vec Nat := ⟨n, fun _ => 0⟩
/-- A matrix of zeros. -/
def zeroMat (a b : Nat) : Mat Nat := ⟨(a, b), fun _ _ => 0⟩

/-- **C106 fails: the first matrix.** A lookup of the length of the shape that was set is accepted; the first matrix then resets the shape
without looking at the lookups. -/
theorem C106_fails_first_matrix : ∃ l : List (Op Nat),
    l = [.setShape (3, 3), .addLookup "zone" (zeros 3) false false, .addMatrix "dist" (zeroMat 2 2) false false] ∧
    (∀ k, k < l.length → (Omx.step (Omx.run Omx.empty (l.take k)) (l.getD k (.setShape (0, 0)))).2 = true) ∧
    ¬ Lookups (Omx.run Omx.empty l) := by
  refine ⟨_, rfl, by decide +kernel, ?_⟩
  intro h
  have := h ("zone", zeros 3) (by simp [Omx.run, Omx.step, Omx.setShape, Omx.addLookup, Omx.addMatrix, Omx.empty, put, has, File.shape])
  revert this
  decide +kernel

/-- **C106 fails: the first lookup.** While the file has no matrix, a lookup of any length is accepted. -/
theorem C106_fails_first_lookup (k : Nat) : ∃ l : List (Op Nat),
    l = [.setShape (3, 3), .addLookup "zone" (zeros k) false false] ∧
    (∀ i, i < l.length → (Omx.step (Omx.run Omx.empty (l.take i)) (l.getD i (.setShape (0, 0)))).2 = true) ∧
    (k ≠ 3 → ¬ Lookups (Omx.run Omx.empty l)) := by
  refine ⟨_, rfl, ?_, ?_⟩
  · intro i hi
    match i, hi with
    | 0, _ => rfl
    | 1, _ => rfl
  · intro hk h
    have := h ("zone", zeros k) (by simp [Omx.run, Omx.step, Omx.setShape, Omx.addLookup, Omx.empty, put, has, File.shape])
    have hs : (Omx.run Omx.empty [.setShape (3, 3), .addLookup "zone" (zeros k) false false]).shape = (3, 3) := by
      simp [Omx.run, Omx.step, Omx.setShape, Omx.addLookup, Omx.empty, has, File.shape]
    rw [hs] at this
    exact hk (this.elim id id)

/-- **C106 fails: the shape setter.** It looks at the matrices only; and with matrices it silently ignores a change of one dimension. -/
theorem C106_fails_setshape :
    (∃ l : List (Op Nat), l = [.addBlankLookup "zone" (some 3), .setShape (2, 2)] ∧
      (∀ k, k < l.length → (Omx.step (Omx.run Omx.empty (l.take k)) (l.getD k (.setShape (0, 0)))).2 = true) ∧
      ¬ Lookups (Omx.run Omx.empty l)) ∧
    (∀ (f : File Nat) (x : Nat × Nat), f.data ≠ [] → (x.1 = f.shape.1 ∨ x.2 = f.shape.2) → x ≠ f.shape →
      (Omx.setShape f x).2 = true ∧ (Omx.setShape f x).1.shape ≠ x) := by
  constructor
  · refine ⟨_, rfl, by decide +kernel, ?_⟩
    intro h
    have := h ("zone", ⟨3, fun _ => 0⟩) (by
      simp [Omx.run, Omx.step, Omx.setShape, Omx.addBlankLookup, Omx.empty, put, has, File.shape, File.read])
    revert this
    decide +kernel
  · intro f x hd h1 h2
    have he : f.data.isEmpty = false := by simpa using hd
    unfold Omx.setShape
    have hn : ¬ (x.1 ≠ f.shape.1 ∧ x.2 ≠ f.shape.2) := by
      rw [not_and_or, not_not, not_not]; exact h1
    simp only [he, Bool.false_eq_true, if_false]
    rw [if_neg hn]
    exact ⟨rfl, fun h => h2 (by rw [← h]; exact shape_read f)⟩

/-- **C106 fails: `crop`.** With a lookup along the second dimension of a file that is not square, `crop` raises `IndexError` after it has
cut the matrices; the shape attribute is stale and the file invalid. -/
theorem C106_fails_crop : ∃ f : File Nat, Valid f ∧ (∃ l : List (Op Nat), CarefulAll Omx.empty l ∧ f = Omx.run Omx.empty l) ∧
    (Omx.crop f 2 2).2 = false ∧ ¬ Matrices (Omx.crop f 2 2).1 := by
  have hl : CarefulAll (Omx.empty : File Nat) [.addMatrix "dist" (zeroMat 2 3) false false, .addLookup "dest" (zeros 3) false false] := by
    refine ⟨⟨rfl, fun _ => Or.inl rfl⟩, ⟨rfl, fun h => ?_⟩, trivial⟩
    exfalso; revert h
    simp [Omx.step, Omx.addMatrix, Omx.empty, put, has]
  refine ⟨_, C106_valid_partial _ hl, ⟨_, hl, rfl⟩, by decide +kernel, ?_⟩
  intro h
  have := h ("dist", ⟨(2, 2), fun _ _ => 0⟩) (by
    simp [Omx.run, Omx.step, Omx.addMatrix, Omx.addLookup, Omx.crop, Omx.cropData, Omx.cropLookup, Omx.empty, put, has, File.shape, File.read,
      zeroMat, zeros, Mat.crop])
  revert this
  decide +kernel

/-- **C106 fails: a name used twice.** A lookup may take the name of a matrix; neither can then be read by indexing. -/
theorem C106_fails_both : ∃ l : List (Op Nat),
    l = [.addMatrix "dist" (zeroMat 2 2) false false, .addLookup "dist" (zeros 2) false false] ∧
    (∀ k, k < l.length → (Omx.step (Omx.run Omx.empty (l.take k)) (l.getD k (.setShape (0, 0)))).2 = true) ∧
    (Omx.getItem (Omx.run Omx.empty l) "dist").isNone = true := by
  exact ⟨_, rfl, by decide +kernel, by decide +kernel⟩

/-- The hypotheses are met: matrices, lookups, a refused matrix and a crop. -/
example : CarefulAll (Omx.empty : File Nat)
    [.setShape (3, 3), .addLookup "zone" (zeros 3) false false, .addMatrix "dist" (zeroMat 3 3) false false,
      .addMatrix "time" (zeroMat 2 2) false false, .crop 2 2] := by
  refine ⟨Or.inr rfl, ⟨rfl, fun _ => Or.inl rfl⟩, ⟨rfl, fun _ => Or.inr ?_⟩, ⟨rfl, fun h => ?_⟩, Or.inl ?_, trivial⟩
  · decide +kernel
  · exfalso; revert h
    simp [Omx.step, Omx.setShape, Omx.addMatrix, Omx.addLookup, Omx.empty, put, has, File.shape]
  · decide +kernel

example : (Omx.addMatrix (Omx.addMatrix (Omx.empty : File Nat) "a" (zeroMat 2 2) false false).1 "b" (zeroMat 2 2) false false).2 = true := by
  decide +kernel

end Larch.Props
