import Verif.Spec.OmxRemap
import Verif.Props.OmxImport

/-!
# C193: matrix files made from other matrix files
-/

namespace Larch.Props

open Larch Larch.Omx Larch.Omx.Spec

variable {α : Type}

theorem om_pick {s : Option Sel} {n : Nat} (h : Inside s n) : (Sel.orAll s).pick n = some (places s n) := by
  rcases s with _ | (_ | l)
  · rfl
  · rfl
  · show (if l.Nodup ∧ ∀ i ∈ l, i < n then some l else none) = some l
    exact if_pos h

theorem om_castable (n : Nat) : castable n n = true := by simp [castable]

theorem om_castFrom {n k : Nat} (h : k < n) : castFrom n k = k := by
  unfold castFrom
  split <;> omega

theorem om_idx {l : List Nat} (hn : l.Nodup) {k a : Nat} (h : l[k]? = some a) : l.idxOf a = k := by
  obtain ⟨hk, rfl⟩ := List.getElem?_eq_some_iff.1 h
  exact hn.idxOf_getElem k hk

/-- The columns of one matrix. -/
theorem om_writeCols {t m : Mat α} {new old : Option Sel} (hr : m.shape.1 = t.shape.1) (hm : Match new old t.shape.2 m.shape.2) :
    ∃ t', writeCols t m (Sel.orAll new) (Sel.orAll old) = some t' ∧ t'.shape = t.shape ∧
      (∀ (r k a b : Nat), r < t.shape.1 → (places new t.shape.2)[k]? = some a → (places old m.shape.2)[k]? = some b →
        t'.cell r a = m.cell r b) ∧
      ∀ r c, c ∉ places new t.shape.2 → t'.cell r c = t.cell r c := by
  obtain ⟨h1, h2, h3⟩ := hm
  unfold writeCols
  rw [om_pick h1, om_pick h2]
  simp only [Option.bind_some, hr, om_castable, ← h3, Bool.and_self, if_true]
  refine ⟨_, rfl, rfl, ?_, ?_⟩
  · intro r k a b hlt ha hb
    have hk : k < (places new t.shape.2).length := (List.getElem?_eq_some_iff.1 ha).1
    show (if a ∈ places new t.shape.2 then _ else _) = _
    rw [if_pos (List.mem_of_getElem? ha), om_idx h1.1 ha, om_castFrom hlt, om_castFrom hk, List.getD_eq_getElem?_getD, hb]
    rfl
  · intro r c hc
    exact if_neg hc

theorem om_writeAt {t v : Vec α} {new old : Option Sel} (hm : Match new old t.len v.len) :
    ∃ t', writeAt t v (Sel.orAll new) (Sel.orAll old) = some t' ∧ t'.len = t.len ∧
      (∀ (k a b : Nat), (places new t.len)[k]? = some a → (places old v.len)[k]? = some b → t'.cell a = v.cell b) ∧
      ∀ c, c ∉ places new t.len → t'.cell c = t.cell c := by
  obtain ⟨h1, h2, h3⟩ := hm
  unfold writeAt
  rw [om_pick h1, om_pick h2]
  simp only [Option.bind_some, om_castable, ← h3, if_true]
  refine ⟨_, rfl, rfl, ?_, ?_⟩
  · intro k a b ha hb
    have hk : k < (places new t.len).length := (List.getElem?_eq_some_iff.1 ha).1
    show (if a ∈ places new t.len then _ else _) = _
    rw [if_pos (List.mem_of_getElem? ha), om_idx h1.1 ha, om_castFrom hk, List.getD_eq_getElem?_getD, hb]
    rfl
  · intro c hc
    exact if_neg hc

theorem om_refill {β : Type} (g : List (String × β)) (n k : String) (v : β) :
    Omx.get (refill g n v) k = if k = n then (Omx.get g n).map (fun _ => v) else Omx.get g k := get_replace g n k v

theorem om_mem_refill {β : Type} {g : List (String × β)} {n : String} {v : β} {e : String × β} (h : e ∈ refill g n v) :
    e ∈ g ∨ e = (n, v) := by
  obtain ⟨x, hx, rfl⟩ := List.mem_map.1 h
  by_cases hn : x.1 = n
  · rw [if_pos hn]; exact Or.inr rfl
  · rw [if_neg hn]; exact Or.inl hx

theorem om_blank_matrices [Zero α] {f : File α} (hv : Matrices f) (hs : f.shape ≠ (0, 0)) (n : String) {x : Option (Nat × Nat)}
    (hx : x = none ∨ x = some f.shape) : Matrices (Omx.addBlankMatrix f n x).1 := by
  obtain ⟨m, _, _, _, _, _, _, b7⟩ := blank_spec hv n hs x hx
  intro e he
  rw [b7]
  have hd : (Omx.addBlankMatrix f n x).1.data = f.data ∨ (Omx.addBlankMatrix f n x).1.data = put f.data n ⟨f.shape, fun _ _ => 0⟩ := by
    unfold Omx.addBlankMatrix
    by_cases h1 : has f.data n = true
    · rw [if_pos h1]; exact Or.inl rfl
    · rw [if_neg h1, if_neg hs]
      rcases hx with rfl | rfl
      · exact Or.inr rfl
      · right; simp
  rcases hd with hd | hd
  · rw [hd] at he; exact hv e he
  · rw [hd] at he
    rcases (omx_mem_put _ _ _ _).1 he with ⟨h, _⟩ | rfl
    · exact hv e h
    · rfl

/-- The shape of a file whose matrices agree on it. -/
theorem om_shape {f : File α} {x : Nat × Nat} (h0 : x ≠ (0, 0)) (ha : f.attr = x) : f.shape = x := by
  unfold File.shape
  rw [if_neg (by rw [ha]; exact h0), ha]

theorem om_remapData [Zero α] (oth : File α) (shape : Nat × Nat) (new old : Option Sel) (h0 : shape ≠ (0, 0)) (data : List String) :
    ∀ f : File α, f.shape = shape → Matrices f →
    (∀ n ∈ data, ∃ m, get oth.data n = some m ∧ m.shape.1 = shape.1 ∧ Match new old shape.2 m.shape.2) →
    ∃ g, remapData oth shape (Sel.orAll new) (Sel.orAll old) data f = (g, true) ∧ g.shape = shape ∧ Matrices g ∧ g.lookup = f.lookup ∧
      (∀ n, n ∉ data → get g.data n = get f.data n) ∧
      (∀ n ∈ data, ∀ m, get oth.data n = some m → ∃ t, get g.data n = some t ∧ t.shape = shape ∧
        (∀ (r k a b : Nat), r < shape.1 → (places new shape.2)[k]? = some a → (places old m.shape.2)[k]? = some b →
          t.cell r a = m.cell r b) ∧
        ∀ r c, c ∉ places new shape.2 → t.cell r c = cellOf f n r c) := by
  induction data with
  | nil => intro f hs hv _; exact ⟨f, rfl, hs, hv, rfl, fun _ _ => rfl, fun n hn => by cases hn⟩
  | cons n r ih =>
    intro f hs hv hd
    obtain ⟨m, hm, hr, hM⟩ := hd n List.mem_cons_self
    obtain ⟨t, b1, b2, b3, b4, b5, b6, b7⟩ := blank_spec hv n (by rw [hs]; exact h0) (some shape) (Or.inr (by rw [hs]))
    have hmat := om_blank_matrices hv (by rw [hs]; exact h0) n (x := some shape) (Or.inr (by rw [hs]))
    rw [hs] at b3
    obtain ⟨t', w1, w2, w3, w4⟩ := om_writeCols (t := t) (m := m) (new := new) (old := old) (by rw [b3, hr]) (by rw [b3]; exact hM)
    rw [b3] at w2 w3 w4
    have hstep : remapData oth shape (Sel.orAll new) (Sel.orAll old) (n :: r) f =
        remapData oth shape (Sel.orAll new) (Sel.orAll old) r
          ⟨(Omx.addBlankMatrix f n (some shape)).1.attr, refill (Omx.addBlankMatrix f n (some shape)).1.data n t',
            (Omx.addBlankMatrix f n (some shape)).1.lookup⟩ := by
      simp only [remapData, hm, b1, if_true, b2, Option.bind_some, w1]
    have hmat' : ∀ e ∈ refill (Omx.addBlankMatrix f n (some shape)).1.data n t', e.2.shape = shape := by
      intro e he
      rcases om_mem_refill he with h | rfl
      · have := hmat e h
        rw [b7, hs] at this
        exact this
      · exact w2
    have hsh' : (⟨(Omx.addBlankMatrix f n (some shape)).1.attr, refill (Omx.addBlankMatrix f n (some shape)).1.data n t',
        (Omx.addBlankMatrix f n (some shape)).1.lookup⟩ : File α).shape = shape := by
      have h7 : (Omx.addBlankMatrix f n (some shape)).1.shape = shape := b7.trans hs
      unfold File.shape at h7 ⊢
      by_cases ha : (Omx.addBlankMatrix f n (some shape)).1.attr = (0, 0)
      · rw [if_pos ha] at h7 ⊢
        show (match refill (Omx.addBlankMatrix f n (some shape)).1.data n t' with | [] => (0, 0) | e :: _ => e.2.shape) = shape
        cases hc : refill (Omx.addBlankMatrix f n (some shape)).1.data n t' with
        | nil =>
          have h := om_refill (Omx.addBlankMatrix f n (some shape)).1.data n n t'
          rw [hc, if_pos rfl, b2] at h
          cases h
        | cons e l => exact hmat' e (by rw [hc]; exact List.mem_cons_self)
      · rw [if_neg ha] at h7 ⊢
        exact h7
    obtain ⟨g, g1, g2, g3, g4, g5, g6⟩ := ih
      ⟨(Omx.addBlankMatrix f n (some shape)).1.attr, refill (Omx.addBlankMatrix f n (some shape)).1.data n t',
        (Omx.addBlankMatrix f n (some shape)).1.lookup⟩ hsh' (fun e he => (hmat' e he).trans hsh'.symm)
      (fun k hk => hd k (List.mem_cons_of_mem _ hk))
    have hself : get (refill (Omx.addBlankMatrix f n (some shape)).1.data n t') n = some t' := by
      rw [om_refill, if_pos rfl, b2]; rfl
    have hcell : ∀ k r c, k ≠ n → cellOf (⟨(Omx.addBlankMatrix f n (some shape)).1.attr,
        refill (Omx.addBlankMatrix f n (some shape)).1.data n t', (Omx.addBlankMatrix f n (some shape)).1.lookup⟩ : File α) k r c =
          cellOf f k r c := by
      intro k r c hk
      show ((get (refill (Omx.addBlankMatrix f n (some shape)).1.data n t') k).map _).getD 0 = _
      rw [om_refill, if_neg hk, b5 k hk]; rfl
    refine ⟨g, hstep.trans g1, g2, g3, g4.trans b6, ?_, ?_⟩
    · intro k hk
      rw [g5 k (fun h => hk (List.mem_cons_of_mem _ h))]
      have hkn : k ≠ n := fun h => hk (h ▸ List.mem_cons_self)
      show get (refill (Omx.addBlankMatrix f n (some shape)).1.data n t') k = _
      rw [om_refill, if_neg hkn, b5 k hkn]
    · intro k hk m' hm'
      by_cases hkr : k ∈ r
      · obtain ⟨u, u1, u2, u3, u4⟩ := g6 k hkr m' hm'
        refine ⟨u, u1, u2, u3, fun i c hc => ?_⟩
        rw [u4 i c hc]
        by_cases hkn : k = n
        · subst hkn
          show ((get (refill (Omx.addBlankMatrix f k (some shape)).1.data k t') k).map _).getD 0 = _
          rw [hself]
          show t'.cell i c = _
          rw [w4 i c hc, b4]; rfl
        · exact hcell k i c hkn
      · have hkn : k = n := by
          rcases List.mem_cons.1 hk with h | h
          · exact h
          · exact absurd h hkr
        subst hkn
        rw [hm] at hm'
        obtain rfl := Option.some.inj hm'
        exact ⟨t', (g5 k hkr).trans hself, w2, w3, fun i c hc => by rw [w4 i c hc, b4]; rfl⟩

/-- Reading the shape keeps it. -/
theorem om_read_shape (f : File α) : f.read.shape = f.shape := by
  unfold File.read
  by_cases h : f.shape = (0, 0)
  · show (⟨f.shape, f.data, f.lookup⟩ : File α).shape = f.shape
    rw [h]
    unfold File.shape at h ⊢
    rw [if_pos rfl]
    by_cases ha : f.attr = (0, 0)
    · rw [if_pos ha] at h
      show (match f.data with | [] => (0, 0) | e :: _ => e.2.shape) = (0, 0)
      exact h
    · rw [if_neg ha] at h; exact absurd h ha
  · exact om_shape h rfl

theorem om_shape_lookup (f : File α) (l : List (String × Vec α)) : (⟨f.attr, f.data, l⟩ : File α).shape = f.shape := rfl

theorem om_addLookup {f : File α} {shape : Nat × Nat} (h0 : shape ≠ (0, 0)) (hs : f.shape = shape) {n : String} {v : Vec α}
    (hl : f.data = [] ∨ v.len = shape.1 ∨ v.len = shape.2) (hn : get f.lookup n = none) :
    ∃ g, addLookup f n v false false = (g, true) ∧ g.shape = shape ∧ g.data = f.data ∧ g.lookup = put f.lookup n v := by
  have hh : has f.lookup n = false := by rw [omx_has_get, hn]; rfl
  unfold addLookup
  by_cases hd : f.data.isEmpty = true
  · have h1 : (f.shape == (0, 0)) = false := by rw [hs]; simpa using h0
    refine ⟨⟨f.attr, f.data, put f.lookup n v⟩, ?_, (om_shape_lookup f _).trans hs, rfl, rfl⟩
    simp only [hd, Bool.not_true, Bool.and_false, Bool.false_eq_true, if_false, Bool.false_and, h1, hh]
  · have hd' : f.data.isEmpty = false := by simpa using hd
    have hlen : v.len = shape.1 ∨ v.len = shape.2 := by
      rcases hl with h | h
      · rw [h] at hd'; cases hd'
      · exact h
    have h2 : (v.len != f.read.shape.1 && v.len != f.read.shape.2) = false := by
      rw [om_read_shape, hs]
      rcases hlen with h | h <;> simp [h]
    have h3 : f.read.data.isEmpty = false := hd'
    have h4 : has f.read.lookup n = false := hh
    refine ⟨⟨f.read.attr, f.data, put f.lookup n v⟩, ?_, ((om_shape_lookup f.read _).trans (om_read_shape f)).trans hs, rfl, rfl⟩
    simp only [hd', Bool.not_false, Bool.and_true, if_true, h3, h2, Bool.and_false, Bool.false_eq_true, if_false, Bool.false_and, h4]
    rfl

theorem om_copyLookups (oth : File α) (shape : Nat × Nat) (h0 : shape ≠ (0, 0)) (rows : List String) :
    ∀ f : File α, f.shape = shape → rows.Nodup → (∀ n ∈ rows, get f.lookup n = none) →
    (∀ n ∈ rows, ∃ v, get oth.lookup n = some v ∧ (f.data = [] ∨ v.len = shape.1 ∨ v.len = shape.2)) →
    ∃ g, copyLookups oth rows f = (g, true) ∧ g.shape = shape ∧ g.data = f.data ∧
      (∀ n ∈ rows, get g.lookup n = get oth.lookup n) ∧ ∀ n, n ∉ rows → get g.lookup n = get f.lookup n := by
  induction rows with
  | nil => intro f hs _ _ _; exact ⟨f, rfl, hs, rfl, fun n hn => (by cases hn), fun _ _ => rfl⟩
  | cons n r ih =>
    intro f hs hnd hnew hr
    obtain ⟨hn, hnd'⟩ := List.nodup_cons.1 hnd
    obtain ⟨v, hv, hl⟩ := hr n List.mem_cons_self
    obtain ⟨a, a1, a2, a3, a4⟩ := om_addLookup h0 hs hl (hnew n List.mem_cons_self)
    have hne : ∀ k ∈ r, k ≠ n := fun k hk h => hn (h ▸ hk)
    obtain ⟨g, g1, g2, g3, g4, g5⟩ := ih a a2 hnd'
      (fun k hk => by rw [a4, omx_get_put, if_neg (hne k hk)]; exact hnew k (List.mem_cons_of_mem _ hk))
      (fun k hk => by rw [a3]; exact hr k (List.mem_cons_of_mem _ hk))
    refine ⟨g, ?_, g2, g3.trans a3, ?_, ?_⟩
    · simp only [copyLookups, hv, a1, if_true]; exact g1
    · intro k hk
      rcases List.mem_cons.1 hk with rfl | hk
      · rw [g5 k hn, a4, omx_get_put, if_pos rfl, hv]
      · exact g4 k hk
    · intro k hk
      rw [g5 k (fun h => hk (List.mem_cons_of_mem _ h)), a4, omx_get_put, if_neg (fun h : k = n => hk (h ▸ List.mem_cons_self))]

/-- A blank lookup of the second dimension. -/
theorem om_blankLookup [Zero α] {f : File α} {shape : Nat × Nat} (hs : f.shape = shape) {n : String}
    (hl : ∀ v, get f.lookup n = some v → v.len = shape.2) :
    ∃ g v, addBlankLookup f n (some shape.2) = (g, true) ∧ g.shape = shape ∧ g.data = f.data ∧ get g.lookup n = some v ∧
      v.len = shape.2 ∧ (∀ i, v.cell i = entryOf f n i) ∧ ∀ k, k ≠ n → get g.lookup k = get f.lookup k := by
  unfold addBlankLookup
  cases hg : get f.lookup n with
  | some v =>
    rw [if_pos (by rw [omx_has_get, hg]; rfl)]
    exact ⟨f, v, rfl, hs, rfl, hg, hl v hg, fun i => by unfold entryOf; rw [hg]; rfl, fun _ _ => rfl⟩
  | none =>
    rw [if_neg (by rw [omx_has_get, hg]; simp), if_neg (by rintro ⟨_, h⟩; cases h)]
    refine ⟨⟨f.read.attr, f.data, put f.lookup n ⟨shape.2, fun _ => 0⟩⟩, ⟨shape.2, fun _ => 0⟩, ?_,
      ((om_shape_lookup f.read _).trans (om_read_shape f)).trans hs, rfl, ?_, rfl, ?_, ?_⟩
    · show (if shape.2 ≠ f.shape.1 ∧ shape.2 ≠ f.shape.2 then _ else _) = _
      rw [if_neg (by rw [hs]; rintro ⟨_, h⟩; exact h rfl)]
      rfl
    · show get (put f.lookup n _) n = _
      rw [omx_get_put, if_pos rfl]
    · intro i; unfold entryOf; rw [hg]; rfl
    · intro k hk
      show get (put f.lookup n _) k = _
      rw [omx_get_put, if_neg hk]

theorem om_remapLookups [Zero α] (oth : File α) (shape : Nat × Nat) (new old : Option Sel) (cols : List String) :
    ∀ f : File α, f.shape = shape → (∀ n ∈ cols, ∀ v, get f.lookup n = some v → v.len = shape.2) →
    (∀ n ∈ cols, ∃ v, get oth.lookup n = some v ∧ Match new old shape.2 v.len) →
    ∃ g, remapLookups oth shape.2 (Sel.orAll new) (Sel.orAll old) cols f = (g, true) ∧ g.shape = shape ∧ g.data = f.data ∧
      (∀ n, n ∉ cols → get g.lookup n = get f.lookup n) ∧
      (∀ n ∈ cols, ∀ v, get oth.lookup n = some v → ∃ t, get g.lookup n = some t ∧ t.len = shape.2 ∧
        (∀ (k a b : Nat), (places new shape.2)[k]? = some a → (places old v.len)[k]? = some b → t.cell a = v.cell b) ∧
        ∀ c, c ∉ places new shape.2 → t.cell c = entryOf f n c) := by
  induction cols with
  | nil => intro f hs _ _; exact ⟨f, rfl, hs, rfl, fun _ _ => rfl, fun n hn => by cases hn⟩
  | cons n r ih =>
    intro f hs hl hd
    obtain ⟨v, hv, hM⟩ := hd n List.mem_cons_self
    obtain ⟨a, t, a1, a2, a3, a4, a5, a6, a7⟩ := om_blankLookup hs (hl n List.mem_cons_self)
    obtain ⟨t', w1, w2, w3, w4⟩ := om_writeAt (t := t) (v := v) (new := new) (old := old) (by rw [a5]; exact hM)
    rw [a5] at w2 w3 w4
    have hself : get (refill a.lookup n t') n = some t' := by rw [om_refill, if_pos rfl, a4]; rfl
    have hoth : ∀ k, k ≠ n → get (refill a.lookup n t') k = get f.lookup k := fun k hk => by rw [om_refill, if_neg hk, a7 k hk]
    obtain ⟨g, g1, g2, g3, g5, g6⟩ := ih ⟨a.attr, a.data, refill a.lookup n t'⟩ ((om_shape_lookup a _).trans a2)
      (fun k hk u hu => by
        by_cases hkn : k = n
        · subst hkn
          rw [hself] at hu
          rw [← Option.some.inj hu]; exact w2
        · rw [hoth k hkn] at hu
          exact hl k (List.mem_cons_of_mem _ hk) u hu)
      (fun k hk => hd k (List.mem_cons_of_mem _ hk))
    refine ⟨g, ?_, g2, g3.trans a3, ?_, ?_⟩
    · simp only [remapLookups, hv, a1, if_true, a4, Option.bind_some, w1]; exact g1
    · intro k hk
      rw [g5 k (fun h => hk (List.mem_cons_of_mem _ h))]
      exact hoth k (fun h => hk (h ▸ List.mem_cons_self))
    · intro k hk v' hv'
      by_cases hkr : k ∈ r
      · obtain ⟨u, u1, u2, u3, u4⟩ := g6 k hkr v' hv'
        refine ⟨u, u1, u2, u3, fun c hc => ?_⟩
        rw [u4 c hc]
        unfold entryOf
        by_cases hkn : k = n
        · subst hkn
          show ((get (refill a.lookup k t') k).map _).getD 0 = _
          rw [hself]
          show t'.cell c = _
          rw [w4 c hc, a6]; rfl
        · show ((get (refill a.lookup n t') k).map _).getD 0 = _
          rw [hoth k hkn]
      · have hkn : k = n := by
          rcases List.mem_cons.1 hk with h | h
          · exact h
          · exact absurd h hkr
        subst hkn
        rw [hv] at hv'
        obtain rfl := Option.some.inj hv'
        exact ⟨t', (g5 k hkr).trans hself, w2, w3, fun c hc => by rw [w4 c hc, a6]⟩

/-! ## Files with other columns -/

/-- The arrays that are asked for are in the other file, and the slicers fit them and the new file. -/
structure Remappable (f oth : File α) (data rows cols : List String) (shape : Nat × Nat) (new old : Option Sel) : Prop where
  slicers : new.isSome ∨ old.isSome
  positive : shape ≠ (0, 0)
  matrices : Matrices f
  current : f.data = [] ∨ f.shape = shape
  data_there : ∀ n ∈ data, ∃ m, get oth.data n = some m ∧ m.shape.1 = shape.1 ∧ Match new old shape.2 m.shape.2
  rows_differ : rows.Nodup
  rows_new : ∀ n ∈ rows, get f.lookup n = none
  rows_there : ∀ n ∈ rows, ∃ v, get oth.lookup n = some v ∧ (v.len = shape.1 ∨ v.len = shape.2)
  cols_other : ∀ n ∈ cols, n ∉ rows
  cols_length : ∀ n ∈ cols, ∀ v, get f.lookup n = some v → v.len = shape.2
  cols_there : ∀ n ∈ cols, ∃ v, get oth.lookup n = some v ∧ Match new old shape.2 v.len

/-- **C193.** `change_cols` moves the picked columns of each matrix, and the picked entries of each column lookup, to the new places; the
other places are zero (or hold what an existing array of the file had there); row lookups are copied; nothing else in the file changes. -/
theorem C193_change_cols [Zero α] (f oth : File α) (data rows cols : List String) (shape : Nat × Nat) (new old : Option Sel)
    (h : Remappable f oth data rows cols shape new old) :
    ∃ g, changeCols f oth data rows cols shape new old = (g, true) ∧ g.shape = shape ∧ Matrices g ∧
      (∀ n ∈ data, ∀ m, get oth.data n = some m → ∃ t, get g.data n = some t ∧ t.shape = shape ∧
        (∀ (r k a b : Nat), r < shape.1 → (places new shape.2)[k]? = some a → (places old m.shape.2)[k]? = some b →
          t.cell r a = m.cell r b) ∧
        ∀ r c, c ∉ places new shape.2 → t.cell r c = cellOf f n r c) ∧
      (∀ n ∈ rows, get g.lookup n = get oth.lookup n) ∧
      (∀ n ∈ cols, ∀ v, get oth.lookup n = some v → ∃ t, get g.lookup n = some t ∧ t.len = shape.2 ∧
        (∀ (k a b : Nat), (places new shape.2)[k]? = some a → (places old v.len)[k]? = some b → t.cell a = v.cell b) ∧
        ∀ c, c ∉ places new shape.2 → t.cell c = entryOf f n c) ∧
      (∀ n, n ∉ data → get g.data n = get f.data n) ∧
      ∀ n, n ∉ rows → n ∉ cols → get g.lookup n = get f.lookup n := by
  obtain ⟨f', s1, s2, s3, s4⟩ : ∃ f' : File α, setShape f shape = (f', true) ∧ f'.shape = shape ∧ f'.data = f.data ∧
      f'.lookup = f.lookup := by
    unfold setShape
    rcases h.current with hd | hd
    · refine ⟨⟨shape, f.data, f.lookup⟩, ?_, om_shape h.positive rfl, rfl, rfl⟩
      rw [hd]; rfl
    · by_cases he : f.data.isEmpty = true
      · rw [if_pos he]
        exact ⟨_, rfl, om_shape h.positive rfl, rfl, rfl⟩
      · rw [if_neg he, if_neg (by rw [hd]; rintro ⟨x, _⟩; exact x rfl)]
        exact ⟨_, rfl, (om_read_shape f).trans hd, rfl, rfl⟩
  have hm' : Matrices f' := by
    intro e he
    rw [s2]
    rw [s3] at he
    rcases h.current with hd | hd
    · rw [hd] at he; cases he
    · rw [← hd]; exact h.matrices e he
  obtain ⟨b, b1, b2, b3, b4, b5, b6⟩ := om_remapData oth shape new old h.positive data f' s2 hm' h.data_there
  have hrows : ∀ n, get b.lookup n = get f.lookup n := fun n => by rw [b4, s4]
  obtain ⟨c, c1, c2, c3, c4, c5⟩ := om_copyLookups oth shape h.positive rows b b2 h.rows_differ
    (fun n hn => by rw [hrows]; exact h.rows_new n hn)
    (fun n hn => by obtain ⟨v, v1, v2⟩ := h.rows_there n hn; exact ⟨v, v1, Or.inr v2⟩)
  obtain ⟨g, g1, g2, g3, g5, g6⟩ := om_remapLookups oth shape new old cols c c2
    (fun n hn v hv => by rw [c5 n (h.cols_other n hn), hrows] at hv; exact h.cols_length n hn v hv) h.cols_there
  have hdata : g.data = b.data := g3.trans c3
  refine ⟨g, ?_, g2, ?_, ?_, ?_, ?_, ?_, ?_⟩
  · unfold changeCols
    have hsl : (old.isNone && new.isNone) = false := by
      rcases h.slicers with x | x
      · cases new with
        | none => cases x
        | some _ => simp
      · cases old with
        | none => cases x
        | some _ => rfl
    simp only [hsl, Bool.false_eq_true, if_false, s1, if_true, b1, c1, g1]
  · intro e he
    rw [hdata] at he
    rw [g2, ← b2]
    exact b3 e he
  · intro n hn m hm
    obtain ⟨t, t1, t2, t3, t4⟩ := b6 n hn m hm
    refine ⟨t, by rw [hdata]; exact t1, t2, t3, fun r k hk => ?_⟩
    rw [t4 r k hk]
    unfold cellOf
    rw [s3]
  · intro n hn
    rw [g5 n (fun hc => h.cols_other n hc hn)]
    exact c4 n hn
  · intro n hn v hv
    obtain ⟨t, t1, t2, t3, t4⟩ := g6 n hn v hv
    refine ⟨t, t1, t2, t3, fun k hk => ?_⟩
    rw [t4 k hk]
    unfold entryOf
    rw [c5 n (h.cols_other n hn), hrows]
  · intro n hn
    rw [hdata, b5 n hn, s3]
  · intro n hr hc
    rw [g5 n hc, c5 n hr, hrows]

/-- **C193.** Without a slicer `change_cols` is refused, and the file is as it was. -/
theorem C193_needs_slicer [Zero α] (f oth : File α) (data rows cols : List String) (shape : Nat × Nat) :
    changeCols f oth data rows cols shape none none = (f, false) := rfl

/-- **C193.** Whatever happens, an array that is not named, and is in the file, is as it was. -/
theorem C193_other_matrices [Zero α] (f oth : File α) (data rows cols : List String) (shape : Nat × Nat) (new old : Option Sel)
    (n : String) (hn : n ∉ data) :
    get (changeCols f oth data rows cols shape new old).1.data n = get f.data n := by
  have hset : (setShape f shape).1.data = f.data := by
    unfold setShape
    split
    · rfl
    · split <;> rfl
  have hblank : ∀ (f : File α) (k : String) (x : Option (Nat × Nat)), n ≠ k →
      get (addBlankMatrix f k x).1.data n = get f.data n := by
    intro f k x hk
    unfold addBlankMatrix
    split
    · rfl
    · split
      · rfl
      · cases x with
        | some x =>
          show get (if x ≠ f.shape then (f.read, false) else _ : File α × Bool).1.data n = _
          split
          · rfl
          · show get (put f.data k _) n = _
            rw [omx_get_put, if_neg hk]
        | none =>
          show get (put f.data k _) n = _
          rw [omx_get_put, if_neg hk]
  have hremap : ∀ (l : List String) (f : File α), n ∉ l →
      get (remapData oth shape (Sel.orAll new) (Sel.orAll old) l f).1.data n = get f.data n := by
    intro l
    induction l with
    | nil => intro f _; rfl
    | cons k r ih =>
      intro f hl
      have hk : n ≠ k := fun h => hl (h ▸ List.mem_cons_self)
      have hr : n ∉ r := fun h => hl (List.mem_cons_of_mem _ h)
      simp only [remapData]
      split
      · rfl
      · split
        · split
          · exact hblank f k _ hk
          · rw [ih _ hr]
            show get (refill _ k _) n = _
            rw [om_refill, if_neg hk]
            exact hblank f k _ hk
        · exact hblank f k _ hk
  have hadd : ∀ (f : File α) (k : String) (v : Vec α), (addLookup f k v false false).1.data = f.data := by
    intro f k v
    unfold addLookup
    simp only
    (repeat' split) <;> rfl
  have hcopy : ∀ (l : List String) (f : File α), (copyLookups oth l f).1.data = f.data := by
    intro l
    induction l with
    | nil => intro f; rfl
    | cons k r ih =>
      intro f
      simp only [copyLookups]
      split
      · rfl
      · split
        · rw [ih]; exact hadd f k _
        · exact hadd f k _
  have hbl : ∀ (f : File α) (k : String) (x : Nat), (addBlankLookup f k (some x)).1.data = f.data := by
    intro f k x
    have hset' : ∀ (g : File α) (y : Nat × Nat), (setShape g y).1.data = g.data := by
      intro g y
      unfold setShape
      split
      · rfl
      · split <;> rfl
    unfold addBlankLookup
    simp only
    (repeat' split) <;> first | rfl | exact (hset' _ _)
  have hlook : ∀ (l : List String) (f : File α),
      (remapLookups oth shape.2 (Sel.orAll new) (Sel.orAll old) l f).1.data = f.data := by
    intro l
    induction l with
    | nil => intro f; rfl
    | cons k r ih =>
      intro f
      simp only [remapLookups]
      split
      · rfl
      · split
        · split
          · exact hbl f k _
          · rw [ih]; exact hbl f k _
        · exact hbl f k _
  unfold changeCols
  split
  · rfl
  · simp only
    split
    · split
      · split
        · rw [hlook, hcopy, hremap _ _ hn, hset]
        · rw [hcopy, hremap _ _ hn, hset]
      · rw [hremap _ _ hn, hset]
    · rw [hset]

/-- A file with one matrix and one lookup. -/
def omOld : File Int := ⟨(2, 3), [("TIME", ⟨(2, 3), fun i j => 10 * i + j + 1⟩)], [("zone", ⟨3, fun i => 100 + i⟩), ("from", ⟨2, fun i => 7 + i⟩)]⟩

/-- Columns 0 and 2 of three go to columns 3 and 1 of four. -/
theorem omx_example : Remappable (Omx.empty : File Int) omOld ["TIME"] ["from"] ["zone"] (2, 4) (some (.at [3, 1])) (some (.at [0, 2])) := by
  have hM : Match (some (.at [3, 1])) (some (.at [0, 2])) 4 3 := by
    unfold Match Inside places
    refine ⟨⟨?_, ?_⟩, ⟨?_, ?_⟩, ?_⟩ <;> decide
  refine ⟨Or.inl rfl, by decide, fun e he => (by cases he), Or.inl rfl, ?_, by decide, fun n hn => rfl, ?_, ?_, ?_, ?_⟩
  · intro n hn
    obtain rfl := List.mem_singleton.1 hn
    exact ⟨⟨(2, 3), fun i j => 10 * i + j + 1⟩, rfl, rfl, hM⟩
  · intro n hn
    obtain rfl := List.mem_singleton.1 hn
    exact ⟨⟨2, fun i => 7 + i⟩, rfl, Or.inl rfl⟩
  · intro n hn
    obtain rfl := List.mem_singleton.1 hn
    decide
  · intro n hn v hv
    cases hv
  · intro n hn
    obtain rfl := List.mem_singleton.1 hn
    exact ⟨⟨3, fun i => 100 + i⟩, rfl, hM⟩

example : ∃ g, changeCols (Omx.empty : File Int) omOld ["TIME"] ["from"] ["zone"] (2, 4) (some (.at [3, 1])) (some (.at [0, 2])) = (g, true) :=
  (C193_change_cols _ _ _ _ _ _ _ _ omx_example).imp (fun _ h => h.1)

/-- What a file says about a list of cells. -/
def omCells (f : File Int) (n : String) (l : List (Nat × Nat)) : List Int := l.map (fun p => cellOf f n p.1 p.2)

example : omCells (changeCols (Omx.empty : File Int) omOld ["TIME"] ["from"] ["zone"] (2, 4) (some (.at [3, 1])) (some (.at [0, 2]))).1
    "TIME" [(0, 0), (0, 1), (0, 2), (0, 3), (1, 0), (1, 1), (1, 2), (1, 3)] = [0, 3, 0, 1, 0, 13, 0, 11] := by decide

/-- **C193, what goes wrong.** Matrices with another number of rows: `change_cols` raises, but the blank matrix is in the file. -/
theorem C193_fails_half_done :
    ∃ g, changeCols (Omx.empty : File Int) omOld ["TIME"] [] [] (3, 4) (some (.at [3, 1])) (some (.at [0, 2])) = (g, false) ∧
      has g.data "TIME" = true ∧ omCells g "TIME" [(0, 1), (0, 3)] = [0, 0] :=
  ⟨_, rfl, by decide, by decide⟩

/-- **C193, what goes wrong.** One picked column goes to all the new places, and one row to all rows, without complaint. -/
theorem C193_fails_spread :
    ∃ g, changeCols (Omx.empty : File Int) ⟨(1, 2), [("TIME", ⟨(1, 2), fun _ j => j + 1⟩)], []⟩ ["TIME"] [] [] (2, 3)
      (some (.at [0, 2])) (some (.at [1])) = (g, true) ∧
      omCells g "TIME" [(0, 0), (0, 1), (0, 2), (1, 0), (1, 1), (1, 2)] = [2, 0, 2, 2, 0, 2] :=
  ⟨_, rfl, by decide⟩

/-! ## Matrices of another file -/

/-- The part of a matrix that is meant. -/
def PartOf (m t : Mat α) (rs cs : Option Sel) : Prop :=
  t.shape = ((places rs m.shape.1).length, (places cs m.shape.2).length) ∧
    ∀ (i j a b : Nat), (places rs m.shape.1)[i]? = some a → (places cs m.shape.2)[j]? = some b → t.cell i j = m.cell a b

theorem om_range_get {n i a : Nat} (h : (List.range n)[i]? = some a) : a = i := by
  obtain ⟨hi, h⟩ := List.getElem?_eq_some_iff.1 h
  rw [List.getElem_range] at h
  exact h.symm

theorem om_slice {m : Mat α} {rs cs : Option Sel} (hrc : rs.isSome = cs.isSome) (hr : Inside rs m.shape.1) (hc : Inside cs m.shape.2) :
    ∃ t, m.slice rs cs = some t ∧ PartOf m t rs cs := by
  unfold Mat.slice
  cases rs with
  | none =>
    cases cs with
    | some c => cases hrc
    | none =>
      refine ⟨m, rfl, ?_, ?_⟩
      · show m.shape = ((List.range m.shape.1).length, (List.range m.shape.2).length)
        rw [List.length_range, List.length_range]
      · intro i j a b ha hb
        rw [om_range_get ha, om_range_get hb]
  | some r =>
    cases cs with
    | none => cases hrc
    | some c =>
      have h1 := om_pick hr
      have h2 := om_pick hc
      rw [show Sel.orAll (some r) = r from rfl] at h1
      rw [show Sel.orAll (some c) = c from rfl] at h2
      simp only [Option.isNone_some, Bool.and_self, Bool.false_eq_true, if_false, Option.bind_some, h1, h2, Option.map_some]
      refine ⟨_, rfl, rfl, ?_⟩
      intro i j a b ha hb
      show m.cell (((places (some r) m.shape.1)).getD i 0) (((places (some c) m.shape.2)).getD j 0) = _
      rw [List.getD_eq_getElem?_getD, List.getD_eq_getElem?_getD, ha, hb]
      rfl

/-- The tables are in the other file, are not in this one, and the parts that are picked have the shape of this file (or it has no
matrices, and the parts all have the shape `shape`). -/
structure Importable (f oth : File α) (names : List String) (shape : Nat × Nat) (rs cs : Option Sel) : Prop where
  both : rs.isSome = cs.isSome
  differ : names.Nodup
  fresh : ∀ n ∈ names, get f.data n = none
  matrices : Matrices f
  current : f.data = [] ∨ f.shape = shape
  there : ∀ n ∈ names, ∃ m, get oth.data n = some m ∧ Inside rs m.shape.1 ∧ Inside cs m.shape.2 ∧
    ((places rs m.shape.1).length, (places cs m.shape.2).length) = shape

theorem om_addMatrix {f : File α} {shape : Nat × Nat} (hc : f.data = [] ∨ f.shape = shape) (hm : Matrices f) {n : String} {m : Mat α}
    (hs : m.shape = shape) (hn : get f.data n = none) :
    ∃ g, addMatrix f n m false false = (g, true) ∧ g.shape = shape ∧ Matrices g ∧ g.data = put f.data n m ∧ g.lookup = f.lookup := by
  have hh : has f.data n = false := by rw [omx_has_get, hn]; rfl
  have hshape : ∀ at', (at' = shape ∨ at' = f.shape) → (f.data = [] → at' = shape) →
      (⟨at', put f.data n m, f.lookup⟩ : File α).shape = shape ∧ Matrices (⟨at', put f.data n m, f.lookup⟩ : File α) := by
    intro at' ha hd
    have hall : ∀ e ∈ put f.data n m, e.2.shape = shape := by
      intro e he
      rcases (omx_mem_put _ _ _ _).1 he with ⟨h, _⟩ | rfl
      · rcases hc with hc | hc
        · rw [hc] at h; cases h
        · rw [← hc]; exact hm e h
      · exact hs
    have hat : at' = shape := by
      rcases hc with hc | hc
      · exact hd hc
      · rcases ha with ha | ha
        · exact ha
        · exact ha.trans hc
    have hsh : (⟨at', put f.data n m, f.lookup⟩ : File α).shape = shape := by
      unfold File.shape
      by_cases h : at' = (0, 0)
      · rw [if_pos h]
        show (match put f.data n m with | [] => (0, 0) | e :: _ => e.2.shape) = shape
        cases hp : put f.data n m with
        | nil => exact absurd hp (put_ne_nil _ _ _)
        | cons e l => exact hall e (by rw [hp]; exact List.mem_cons_self)
      · rw [if_neg h]; exact hat
    exact ⟨hsh, fun e he => (hall e he).trans hsh.symm⟩
  unfold addMatrix
  by_cases hd : f.data.isEmpty = true
  · refine ⟨⟨m.shape, put f.data n m, f.lookup⟩, ?_, (hshape _ (Or.inl hs) (fun _ => hs)).1, (hshape _ (Or.inl hs) (fun _ => hs)).2, rfl, rfl⟩
    simp only [hd, Bool.not_true, Bool.and_false, Bool.false_eq_true, if_false, Bool.false_and, if_true, hh]
  · have hd' : f.data.isEmpty = false := by simpa using hd
    have hfs : f.shape = shape := by
      rcases hc with h | h
      · rw [h] at hd'; cases hd'
      · exact h
    have hne : (m.shape != f.read.shape) = false := by rw [om_read_shape, hs, hfs]; simp
    have h3 : f.read.data.isEmpty = false := hd'
    have h4 : has f.read.data n = false := hh
    have hempty : f.data = [] → f.shape = shape := fun h => by rw [h] at hd'; cases hd'
    refine ⟨⟨f.shape, put f.data n m, f.lookup⟩, ?_, (hshape _ (Or.inr rfl) hempty).1, (hshape _ (Or.inr rfl) hempty).2, rfl, rfl⟩
    simp only [hd', Bool.not_false, Bool.and_true, if_true, h3, hne, Bool.and_false, Bool.false_eq_true, if_false, h4]
    rfl

theorem om_import (oth : File α) (shape : Nat × Nat) (rs cs : Option Sel) (names : List String) :
    ∀ f : File α, Importable f oth names shape rs cs →
    ∃ g, importTables oth rs cs names f = (g, true) ∧ Matrices g ∧ (names ≠ [] → g.shape = shape) ∧ g.lookup = f.lookup ∧
      (∀ n, n ∉ names → get g.data n = get f.data n) ∧
      ∀ n ∈ names, ∀ m, get oth.data n = some m → ∃ t, get g.data n = some t ∧ PartOf m t rs cs := by
  induction names with
  | nil => intro f h; exact ⟨f, rfl, h.matrices, fun x => absurd rfl x, rfl, fun _ _ => rfl, fun n hn => (by cases hn)⟩
  | cons n r ih =>
    intro f h
    obtain ⟨hnr, hnd⟩ := List.nodup_cons.1 h.differ
    obtain ⟨m, hm, i1, i2, i3⟩ := h.there n List.mem_cons_self
    obtain ⟨t, t1, t2⟩ := om_slice h.both i1 i2
    obtain ⟨a, a1, a2, a3, a4, a5⟩ := om_addMatrix h.current h.matrices (t2.1.trans i3) (h.fresh n List.mem_cons_self)
    have hne : ∀ k ∈ r, k ≠ n := fun k hk e => hnr (e ▸ hk)
    obtain ⟨g, g1, g2, g3, g4, g5, g6⟩ := ih a ⟨h.both, hnd,
      fun k hk => by rw [a4, omx_get_put, if_neg (hne k hk)]; exact h.fresh k (List.mem_cons_of_mem _ hk),
      a3, Or.inr a2, fun k hk => h.there k (List.mem_cons_of_mem _ hk)⟩
    refine ⟨g, ?_, g2, ?_, g4.trans a5, ?_, ?_⟩
    · simp only [importTables, hm, Option.bind_some, t1, a1, if_true]; exact g1
    · intro _
      cases r with
      | nil =>
        have : g = a := (congrArg Prod.fst g1).symm
        rw [this]; exact a2
      | cons x l => exact g3 (by simp)
    · intro k hk
      rw [g5 k (fun x => hk (List.mem_cons_of_mem _ x)), a4, omx_get_put, if_neg (fun e : k = n => hk (e ▸ List.mem_cons_self))]
    · intro k hk m' hm'
      rcases List.mem_cons.1 hk with rfl | hk
      · rw [hm] at hm'
        obtain rfl := Option.some.inj hm'
        exact ⟨t, by rw [g5 k hnr, a4, omx_get_put, if_pos rfl], t2⟩
      · exact g6 k hk m' hm'

/-- **C193.** `import_omx` adds each of the named matrices, or the picked part of it, with the cells it has in the other file; the file
gets the shape of the parts; nothing else changes. -/
theorem C193_import (f oth : File α) (names : List String) (shape : Nat × Nat) (rs cs : Option Sel)
    (h : Importable f oth names shape rs cs) :
    ∃ g, importOmx f oth (some names) rs cs = (g, true) ∧ Matrices g ∧ (names ≠ [] → g.shape = shape) ∧ g.lookup = f.lookup ∧
      (∀ n, n ∉ names → get g.data n = get f.data n) ∧
      ∀ n ∈ names, ∀ m, get oth.data n = some m → ∃ t, get g.data n = some t ∧ PartOf m t rs cs :=
  om_import oth shape rs cs names f h

/-- **C193.** `'*'` stands for all matrices of the other file. -/
theorem C193_import_all (f oth : File α) (rs cs : Option Sel) :
    importOmx f oth none rs cs = importOmx f oth (some (oth.data.map Prod.fst)) rs cs := rfl

example : ∃ g, importOmx (Omx.empty : File Int) omOld (some ["TIME"]) (some (.at [1])) (some (.at [2, 0])) = (g, true) ∧
    g.shape = (1, 2) ∧ omCells g "TIME" [(0, 0), (0, 1)] = [13, 11] := ⟨_, rfl, rfl, by decide⟩

/-- **C193, what goes wrong.** One slicer of the two is not enough: nothing is imported. -/
theorem C193_fails_one_slicer (f oth : File α) (n : String) (r : List String) (s : Sel) :
    importOmx f oth (some (n :: r)) (some s) none = (f, false) ∧ importOmx f oth (some (n :: r)) none (some s) = (f, false) := by
  unfold importOmx
  simp only [Option.getD_some, importTables]
  constructor <;> cases get oth.data n <;> rfl

/-- **C193, what goes wrong.** A table that is in the file already stops the import; those before it stay. -/
theorem C193_fails_import_half_done :
    ∃ g, importOmx (⟨(2, 3), [("DIST", ⟨(2, 3), fun _ _ => 0⟩)], []⟩ : File Int)
      ⟨(2, 3), [("TIME", ⟨(2, 3), fun _ _ => 1⟩), ("DIST", ⟨(2, 3), fun _ _ => 2⟩)], []⟩ none none none = (g, false) ∧
      omCells g "TIME" [(0, 0)] = [1] ∧ omCells g "DIST" [(0, 0)] = [0] := ⟨_, rfl, by decide, by decide⟩

/-! ## Cells of another type -/

/-- **C193.** `change_atom_type` converts each cell of the matrix, or leaves the matrix if the new one takes no less space; no other array
changes and no temporary one stays. -/
theorem C193_retype_matrix [Zero α] (f : File α) (hv : Matrices f) (hs : f.shape ≠ (0, 0)) (n : String) (m : Mat α)
    (hm : get f.data n = some m) (ht : get f.data (n ++ "_temp_atom") = none) (conv : α → α) (keeps : Bool) :
    ∃ g t, retype f n conv true false keeps false = (g, true) ∧ get g.data n = some t ∧ t.shape = m.shape ∧
      (∀ i j, i < m.shape.1 → j < m.shape.2 → t.cell i j = if keeps then conv (m.cell i j) else m.cell i j) ∧
      (∀ k, k ≠ n → get g.data k = get f.data k) ∧ g.lookup = f.lookup ∧ g.shape = f.shape := by
  obtain ⟨u, b1, b2, b3, b4, b5, b6, b7⟩ := blank_spec hv (tempName n) hs none (Or.inl rfl)
  have hms : m.shape = f.shape := hv _ (omx_get_mem hm)
  have hnt : n ≠ tempName n := by
    intro h
    rw [show tempName n = n ++ "_temp_atom" from rfl] at h
    have ht' := ht
    rw [← h, hm] at ht'
    cases ht'
  have hat : (addBlankMatrix f (tempName n) none).1.attr = f.shape := by
    unfold addBlankMatrix
    rw [if_neg (by rw [omx_has_get, show get f.data (tempName n) = none from ht]; simp), if_neg hs]
    rfl
  have hfil : ∀ (g : List (String × Mat α)) (k : String), k ≠ tempName n →
      get (g.filter (fun e => e.1 != tempName n)) k = get g k := by
    intro g k hk
    unfold Omx.get
    congr 1
    induction g with
    | nil => rfl
    | cons e g ih =>
      by_cases he : e.1 = tempName n
      · rw [List.filter_cons_of_neg (p := fun e : String × Mat α => e.1 != tempName n) (by simp [he]), List.find?_cons, ih]
        have : (e.1 == k) = false := by rw [he]; simpa using Ne.symm hk
        rw [this]
      · rw [List.filter_cons_of_pos (p := fun e : String × Mat α => e.1 != tempName n) (by simpa using he), List.find?_cons,
          List.find?_cons, ih]
  have hnone : ∀ (g : List (String × Mat α)), get (g.filter (fun e => e.1 != tempName n)) (tempName n) = none := by
    intro g
    unfold Omx.get
    rw [List.find?_eq_none.2]
    · rfl
    · intro e he h
      have h1 := (List.mem_filter.1 he).2
      simp only [beq_iff_eq] at h
      simp [h] at h1
  unfold retype retypeMatrix
  simp only [if_true, hm, b1, b2, Bool.false_eq_true, if_false]
  cases keeps with
  | true =>
    simp only [if_true]
    refine ⟨_, ⟨u.shape, fun i j => if i < (addBlankMatrix f (tempName n) none).1.shape.1 then conv (m.cell i j) else u.cell i j⟩, rfl,
      ?_, ?_, ?_, ?_, ?_, ?_⟩
    · show get (rename _ n _) n = _
      unfold rename
      rw [omx_get_put, if_pos rfl]
    · show u.shape = _
      rw [b3, hms]
    · intro i j hi _
      show (if i < (addBlankMatrix f (tempName n) none).1.shape.1 then _ else _) = _
      rw [b7, ← hms, if_pos hi]
    · intro k hk
      show get (rename _ n _) k = _
      unfold rename
      rw [omx_get_put, if_neg hk]
      by_cases hkt : k = tempName n
      · rw [hkt, hnone, show get f.data (tempName n) = none from ht]
      · rw [hfil _ _ hkt, b5 k hkt]
    · exact b6
    · exact om_shape hs hat
  | false =>
    simp only [Bool.false_eq_true, if_false]
    refine ⟨_, m, rfl, ?_, rfl, fun _ _ _ _ => rfl, ?_, ?_, ?_⟩
    · show get (List.filter _ _) n = _
      rw [hfil _ _ hnt, b5 n hnt, hm]
    · intro k hk
      show get (List.filter _ _) k = _
      by_cases hkt : k = tempName n
      · rw [hkt, hnone, show get f.data (tempName n) = none from ht]
      · rw [hfil _ _ hkt, b5 k hkt]
    · exact b6
    · exact om_shape hs hat

/-- **C193.** The lookup of a square file is converted entry by entry; one that is not square refuses. -/
theorem C193_retype_lookup [Zero α] (f : File α) (hs : f.shape ≠ (0, 0)) (n : String) (v : Vec α)
    (hv : get f.lookup n = some v) (ht : get f.lookup (n ++ "_temp_atom") = none) (conv : α → α) (keeps : Bool) :
    (f.shape.1 = f.shape.2 → v.len = f.shape.1 →
      ∃ g t, retype f n conv false true false keeps = (g, true) ∧ get g.lookup n = some t ∧ t.len = v.len ∧
        (∀ i, i < v.len → t.cell i = if keeps then conv (v.cell i) else v.cell i) ∧
        (∀ k, k ≠ n → get g.lookup k = get f.lookup k) ∧ g.data = f.data) ∧
    (f.shape.1 ≠ f.shape.2 → ∃ g, retype f n conv false true false keeps = (g, false) ∧ g.lookup = f.lookup ∧ g.data = f.data) := by
  have hh : has f.lookup (tempName n) = false := by rw [omx_has_get, show get f.lookup (tempName n) = none from ht]; rfl
  have hnt : n ≠ tempName n := by
    intro h
    rw [show tempName n = n ++ "_temp_atom" from rfl] at h
    have ht' := ht
    rw [← h, hv] at ht'
    cases ht'
  constructor
  · intro hsq hlen
    have hb : addBlankLookup f (tempName n) none = (⟨f.shape, f.data, put f.lookup (tempName n) ⟨f.shape.1, fun _ => 0⟩⟩, true) := by
      unfold addBlankLookup
      rw [if_neg (by rw [hh]; simp), if_neg (by rintro ⟨h, _⟩; exact hs h)]
      show (if f.shape.1 ≠ f.shape.2 then _ else _) = _
      rw [if_neg (by rw [hsq]; simp)]
      rfl
    have hfil : ∀ k, get ((put f.lookup (tempName n) (⟨f.shape.1, fun _ => 0⟩ : Vec α)).filter (fun e => e.1 != tempName n)) k =
        get f.lookup k := by
      intro k
      have h0 : (put f.lookup (tempName n) (⟨f.shape.1, fun _ => 0⟩ : Vec α)).filter (fun e => e.1 != tempName n) = f.lookup := by
        unfold put
        rw [List.filter_append, List.filter_filter]
        simp only [Bool.and_self, List.filter_cons, bne_self_eq_false, Bool.false_eq_true, if_false, List.filter_nil, List.append_nil]
        apply List.filter_eq_self.2
        intro e he
        simp only [bne_iff_ne]
        intro h
        have : has f.lookup (tempName n) = true := (omx_has_iff _ _).2 ⟨e, he, h⟩
        rw [hh] at this
        cases this
      rw [h0]
    have hself : get (put f.lookup (tempName n) (⟨f.shape.1, fun _ => 0⟩ : Vec α)) (tempName n) = some ⟨f.shape.1, fun _ => 0⟩ := by
      rw [omx_get_put, if_pos rfl]
    unfold retype retypeLookup
    simp only [Bool.false_eq_true, if_false, if_true, hv, hb, hself]
    cases keeps with
    | true =>
      simp only [if_true]
      refine ⟨_, ⟨f.shape.1, fun i => if i < (⟨f.shape, f.data, put f.lookup (tempName n) ⟨f.shape.1, fun _ => 0⟩⟩ : File α).shape.1
          then conv (v.cell i) else 0⟩, rfl, ?_, ?_, ?_, ?_, rfl⟩
      · show get (rename _ n _) n = _
        unfold rename
        rw [omx_get_put, if_pos rfl]
      · exact hlen.symm
      · intro i hi
        show (if i < _ then _ else _) = _
        rw [if_pos (by rw [om_shape (f := ⟨f.shape, f.data, put f.lookup (tempName n) ⟨f.shape.1, fun _ => 0⟩⟩) hs rfl, ← hlen]; exact hi)]
      · intro k hk
        show get (rename _ n _) k = _
        unfold rename
        rw [omx_get_put, if_neg hk, hfil]
    | false =>
      simp only [Bool.false_eq_true, if_false]
      refine ⟨_, v, rfl, ?_, rfl, fun _ _ => rfl, ?_, rfl⟩
      · show get (List.filter _ _) n = _
        rw [hfil, hv]
      · intro k _
        show get (List.filter _ _) k = _
        rw [hfil]
  · intro hsq
    have hb : addBlankLookup f (tempName n) none = (f.read, false) := by
      unfold addBlankLookup
      rw [if_neg (by rw [hh]; simp), if_neg (by rintro ⟨h, _⟩; exact hs h)]
      show (if f.shape.1 ≠ f.shape.2 then _ else _) = _
      rw [if_pos hsq]
    refine ⟨f.read, ?_, rfl, rfl⟩
    unfold retype retypeLookup
    simp only [Bool.false_eq_true, if_false, if_true, hv, hb]

/-- **C193, what goes wrong.** The temporary array has a fixed name, and an array of the user with that name is lost. -/
theorem C193_fails_temporary :
    ∃ g, retype (⟨(1, 1), [("A", ⟨(1, 1), fun _ _ => 5⟩), ("A_temp_atom", ⟨(1, 1), fun _ _ => 9⟩)], []⟩ : File Int) "A" (fun x => x) true
      false false false = (g, true) ∧ has g.data "A_temp_atom" = false := ⟨_, rfl, by decide⟩

/-- **C193, both kinds.** With `matrix` and `lookup` the matrix is changed and then the lookup of the file that results; after a failure of the
first nothing more is done. -/
theorem C193_retype_both [Zero α] (f : File α) (n : String) (conv : α → α) (km kl : Bool) :
    (∀ g, retype f n conv true false km kl = (g, true) → retype f n conv true true km kl = retype g n conv false true km kl) ∧
      (∀ g, retype f n conv true false km kl = (g, false) → retype f n conv true true km kl = (g, false)) ∧
      retype f n conv false false km kl = (f, true) := by
  unfold retype
  refine ⟨fun g h => ?_, fun g h => ?_, rfl⟩
  · simp only [if_true, Bool.false_eq_true, if_false, ite_self] at h ⊢
    rw [h]
    rfl
  · simp only [if_true, Bool.false_eq_true, if_false, ite_self] at h ⊢
    rw [h]
    rfl

/-- Whether both are of the new type. -/
example : (fun g : File Int × Bool => ((get g.1.data "A").map (fun m => m.cell 0 0), (get g.1.lookup "A").map (fun v => v.cell 0), g.2))
    (retype ⟨(1, 1), [("A", ⟨(1, 1), fun _ _ => 5⟩)], [("A", ⟨1, fun _ => 7⟩)]⟩ "A" (fun x => -x) true true true true) =
      (some (-5), some (-7), true) := by decide

/-! ## The table of labels -/

/-- **C193.** `rlookup[name]` pairs each position with the label there. -/
theorem C193_rlookup (f : File α) (n : String) (v : Vec α) (hv : get f.lookup n = some v) :
    ∃ l, reverseLookup f n = some l ∧ l.length = v.len ∧ ∀ i, i < v.len → l.lookup i = some (v.cell i) := by
  refine ⟨_, by rw [reverseLookup, hv]; rfl, by simp, ?_⟩
  intro i hi
  have key : ∀ (k s : Nat), s ≤ i → i < s + k →
      ((List.range' s k).map (fun i => (i, v.cell i))).lookup i = some (v.cell i) := by
    intro k
    induction k with
    | zero => intro s h1 h2; omega
    | succ k ih =>
      intro s h1 h2
      rw [List.range'_succ, List.map_cons]
      by_cases hsi : s = i
      · subst hsi
        simp
      · have : (i == s) = false := by simpa using Ne.symm hsi
        rw [List.lookup_cons, this]
        exact ih (s + 1) (by omega) (by omega)
  show ((List.range v.len).map _).lookup i = _
  rw [List.range_eq_range']
  exact key v.len 0 (by omega) (by omega)

/-- **C193, what goes wrong.** It is not a reverse lookup: asked for a label it gives the label at that position, or nothing. -/
theorem C193_fails_rlookup :
    ∃ l, reverseLookup (⟨(3, 3), [], [("zone", ⟨3, fun i => 2 - i⟩)]⟩ : File Nat) "zone" = some l ∧ l.lookup 2 = some 0 ∧
      l.lookup 0 = some 2 ∧ l.lookup 3 = none := ⟨_, rfl, by decide, by decide, by decide⟩

end Larch.Props
