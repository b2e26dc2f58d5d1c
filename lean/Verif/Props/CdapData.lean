import Verif.Spec.CdapData
import Verif.Props.Cdap

/-!
# C194: households and persons of the activity pattern model
-/

namespace Larch.Props

open Larch Larch.Cdap Larch.CdapData Larch.CdapData.Spec

theorem cd_matches (x : Int) (p : Person) : ∀ ids : List Int, ids.Nodup →
    (ids.filter (fun i => decide (i = x))).map (fun _ => p) = if x ∈ ids then [p] else []
  | [], _ => rfl
  | i :: r, h => by
    obtain ⟨h1, h2⟩ := List.nodup_cons.1 h
    have ih := cd_matches x p r h2
    by_cases hx : i = x
    · subst hx
      rw [List.filter_cons_of_pos (p := fun j => decide (j = i)) (by simp), List.map_cons, ih, if_neg h1, if_pos List.mem_cons_self]
    · rw [List.filter_cons_of_neg (p := fun j => decide (j = x)) (by simpa using hx), ih]
      by_cases hr : x ∈ r
      · rw [if_pos hr, if_pos (List.mem_cons_of_mem _ hr)]
      · rw [if_neg hr, if_neg]
        intro hc
        rcases List.mem_cons.1 hc with h | h
        · exact hx h.symm
        · exact hr h

/-- The merged table: the persons of these households. -/
theorem cd_merged (ps : List Person) (ids : List Int) (h : ids.Nodup) :
    merged ps ids = (firstFive ps).filter (fun p => decide (p.hh ∈ ids)) := by
  unfold merged
  induction firstFive ps with
  | nil => rfl
  | cons p r ih =>
    rw [List.flatMap_cons, ih, cd_matches p.hh p ids h]
    by_cases hp : p.hh ∈ ids
    · rw [if_pos hp, List.filter_cons_of_pos (p := fun q : Person => decide (q.hh ∈ ids)) (by simpa using hp)]; rfl
    · rw [if_neg hp, List.filter_cons_of_neg (p := fun q : Person => decide (q.hh ∈ ids)) (by simpa using hp)]; rfl

theorem cd_mem_merged {ps : List Person} {ids : List Int} (h : ids.Nodup) {p : Person} :
    p ∈ merged ps ids ↔ p ∈ ps ∧ p.rank ≤ 5 ∧ p.hh ∈ ids := by
  rw [cd_merged ps ids h]
  unfold firstFive
  simp only [List.mem_filter, decide_eq_true_eq]
  tauto

theorem cd_sublist (ps : List Person) (ids : List Int) (h : ids.Nodup) : (merged ps ids).Sublist ps := by
  rw [cd_merged ps ids h]
  exact List.filter_sublist.trans List.filter_sublist

theorem cd_part_nodup {hhs : List (Int × Int)} (h : (hhs.map Prod.fst).Nodup) (c : Int) : (partFor hhs c).Nodup :=
  h.sublist (List.filter_sublist.map _)

theorem cd_mem_part {hhs : List (Int × Int)} {c id : Int} : id ∈ partFor hhs c ↔ SizeIs hhs id c := by
  unfold partFor SizeIs sizeClass
  simp only [List.mem_map, List.mem_filter, decide_eq_true_eq]
  constructor
  · rintro ⟨⟨i, s⟩, ⟨h1, h2⟩, rfl⟩
    exact ⟨s, h1, h2⟩
  · rintro ⟨s, h1, h2⟩
    exact ⟨(id, s), ⟨h1, h2⟩, rfl⟩

theorem cd_mem_distinct {l : List Int} {x : Int} : x ∈ distinct l ↔ x ∈ l := by
  unfold distinct
  rw [(List.perm_insertionSort (· ≤ ·) l.dedup).mem_iff, List.mem_dedup]

theorem cd_nodup_distinct (l : List Int) : (distinct l).Nodup := by
  unfold distinct
  exact (List.perm_insertionSort (· ≤ ·) l.dedup).nodup_iff.2 (List.nodup_dedup l)

theorem cd_sorted_distinct (l : List Int) : (distinct l).Pairwise (· ≤ ·) := List.pairwise_insertionSort (· ≤ ·) _

/-- The person of a household and rank is found. -/
theorem cd_personOf {m : List Person} (hn : (m.map (fun p => (p.hh, p.rank))).Nodup) {p : Person} (hp : p ∈ m) :
    personOf m p.hh p.rank = some p := by
  induction m with
  | nil => cases hp
  | cons q r ih =>
    rw [List.map_cons] at hn
    obtain ⟨h1, h2⟩ := List.nodup_cons.1 hn
    unfold personOf
    rw [List.find?_cons]
    by_cases hq : q.hh = p.hh ∧ q.rank = p.rank
    · have hqp : q = p := by
        rcases List.mem_cons.1 hp with h | h
        · exact h.symm
        · exact absurd (List.mem_map.2 ⟨p, h, by rw [hq.1, hq.2]⟩) h1
      subst hqp
      simp
    · have : (decide (q.hh = p.hh) && decide (q.rank = p.rank)) = false := by
        rw [Bool.and_eq_false_iff]
        by_cases hh : q.hh = p.hh
        · exact Or.inr (by simpa using fun h => hq ⟨hh, h⟩)
        · exact Or.inl (by simpa using hh)
      rw [this]
      rcases List.mem_cons.1 hp with h | h
      · subst h; exact absurd ⟨rfl, rfl⟩ hq
      · exact ih h2 h

/-- The joined texts. -/
theorem cd_joined {m : List Person} (hn : (m.map (fun p => (p.hh, p.rank))).Nodup) (id : Int) (col : String) (q : List Person)
    (hq : ∀ (k : Nat) (p : Person), q[k]? = some p → p ∈ m ∧ p.hh = id ∧ p.rank = k + 1) :
    joinedText m id col q.length = some (q.flatMap (fun p => p.val col)) := by
  induction q using List.reverseRecOn with
  | nil => rfl
  | append_singleton r p ih =>
    rw [List.length_append, List.length_singleton, joinedText,
      ih (fun k p' h => hq k p' (by rw [List.getElem?_append_left (List.getElem?_eq_some_iff.1 h).1]; exact h))]
    obtain ⟨h1, h2, h3⟩ := hq r.length p (by simp)
    rw [Option.bind_some, ← h2, ← h3, cd_personOf hn h1, Option.map_some, List.flatMap_append, List.flatMap_singleton]

theorem cd_mapM {β ε : Type} (F : Int → Except ε β) (l : List Int) (h : ∀ c ∈ l, ∃ t, F c = .ok t) :
    ∃ d, l.mapM (fun c => (F c).map (fun t => (c, t))) = .ok d ∧ d.map Prod.fst = l ∧ ∀ e ∈ d, F e.1 = .ok e.2 := by
  induction l with
  | nil => exact ⟨[], rfl, rfl, fun e he => (by cases he)⟩
  | cons c r ih =>
    obtain ⟨t, ht⟩ := h c List.mem_cons_self
    obtain ⟨d, d1, d2, d3⟩ := ih (fun x hx => h x (List.mem_cons_of_mem _ hx))
    refine ⟨(c, t) :: d, ?_, ?_, ?_⟩
    · rw [List.mapM_cons, ht, d1]; rfl
    · rw [List.map_cons, d2]
    · intro e he
      rcases List.mem_cons.1 he with rfl | he
      · exact ht
      · exact d3 e he

/-- What the table of a class holds. -/
structure TableHolds (hhs : List (Int × Int)) (ps : List Person) (c : Int) (t : Table) : Prop where
  once : t.ids.Nodup
  ids : ∀ id, id ∈ t.ids ↔ SizeIs hhs id c
  single : c = 1 → ∀ (i : Nat) (id : Int) (p : Person) (col : String), t.ids[i]? = some id → p ∈ ps → p.hh = id →
    t.cell i none col = some (p.val col)
  ranked : c ≠ 1 → ∀ (i : Nat) (id : Int) (p : Person) (col : String), t.ids[i]? = some id → p ∈ ps → p.hh = id → p.rank ≤ 5 →
    t.cell i (some p.rank) col = some (p.val col)
  joined : c ≠ 1 → ∀ (i : Nat) (id : Int) (q : List Person) (col : String), t.ids[i]? = some id → (q.length : Int) = c →
    (∀ (k : Nat) (p : Person), q[k]? = some p → p ∈ ps ∧ p.hh = id ∧ p.rank = k + 1) →
    col = "override_choice" ∨ col = "model_choice" → t.cell i none col = some (q.flatMap (fun p => p.val col))
  sorted : c ≠ 1 → t.ids.Pairwise (· ≤ ·)

theorem cd_table {hhs : List (Int × Int)} {ps : List Person} (h : Survey hhs ps) {c : Int} (hc : ∃ id, SizeIs hhs id c) :
    ∃ t, tableFor hhs ps c = .ok t ∧ TableHolds hhs ps c t := by
  have hpn := cd_part_nodup h.households c
  have hmem : ∀ p, p ∈ merged ps (partFor hhs c) ↔ p ∈ ps ∧ p.rank ≤ 5 ∧ SizeIs hhs p.hh c := fun p => by
    rw [cd_mem_merged hpn, cd_mem_part]
  have hpairs : ((merged ps (partFor hhs c)).map (fun p => (p.hh, p.rank))).Nodup := h.ranks.sublist ((cd_sublist ps _ hpn).map _)
  have hsome : ∀ id, SizeIs hhs id c → ∃ p ∈ merged ps (partFor hhs c), p.hh = id ∧ p.rank = 1 := by
    rintro id ⟨s, h1, h2⟩
    obtain ⟨p, p1, p2, p3⟩ := h.complete _ h1 1 (by omega) (by omega)
    exact ⟨p, (hmem p).2 ⟨p1, by omega, by rw [p2]; exact ⟨s, h1, h2⟩⟩, p2, p3⟩
  unfold tableFor
  by_cases h1 : c = 1
  · have hone : ∀ p ∈ merged ps (partFor hhs c), p.rank = 1 := by
      intro p hp
      obtain ⟨a, b, s, s1, s2⟩ := (hmem p).1 hp
      have := h.sized _ s1 p a rfl
      have := h.from_one p a
      simp only at *
      omega
    simp only [if_pos h1]
    have hinj : ((merged ps (partFor hhs c)).map (fun p => p.hh)).Nodup := by
      have : (merged ps (partFor hhs c)).map (fun p => (p.hh, p.rank)) =
          ((merged ps (partFor hhs c)).map (fun p => p.hh)).map (fun i => (i, (1 : Int))) := by
        rw [List.map_map]
        apply List.map_congr_left
        intro p hp
        simp only [Function.comp_apply, hone p hp]
      rw [this] at hpairs
      exact List.Nodup.of_map _ hpairs
    refine ⟨narrow (merged ps (partFor hhs c)), rfl, hinj, ?_, ?_, fun x => absurd h1 x, fun x => absurd h1 x, fun x => absurd h1 x⟩
    · intro id
      show id ∈ (merged ps (partFor hhs c)).map (fun p => p.hh) ↔ _
      rw [List.mem_map]
      constructor
      · rintro ⟨p, hp, rfl⟩
        exact ((hmem p).1 hp).2.2
      · intro hs
        obtain ⟨p, p1, p2, _⟩ := hsome id hs
        exact ⟨p, p1, p2⟩
    · intro _ i id p col hi hp hid
      have hi' : ((merged ps (partFor hhs c)).map (fun p => p.hh))[i]? = some id := hi
      rw [List.getElem?_map] at hi'
      cases hg : (merged ps (partFor hhs c))[i]? with
      | none => rw [hg] at hi'; cases hi'
      | some q =>
        rw [hg] at hi'
        have hq : q.hh = id := Option.some.inj hi'
        have hqm := List.mem_of_getElem? hg
        have hqs := (hmem q).1 hqm
        have hpm : p ∈ merged ps (partFor hhs c) := by
          refine (hmem p).2 ⟨hp, ?_, by rw [hid, ← hq]; exact hqs.2.2⟩
          obtain ⟨s, s1, s2⟩ := hqs.2.2
          have := h.sized _ s1 p hp (by rw [hid, hq])
          simp only at *
          omega
        have e1 := cd_personOf hpairs hqm
        have e2 := cd_personOf hpairs hpm
        rw [hone q hqm, hq, ← hid] at e1
        rw [hone p hpm, e1] at e2
        show (if (none : Option Int).isNone then (merged ps (partFor hhs c))[i]?.map (fun p => p.val col) else none) = _
        rw [if_pos (show (none : Option Int).isNone = true from rfl), hg, Option.some.inj e2]; rfl
  · simp only [if_neg h1]
    have hno : noTwice (merged ps (partFor hhs c)) = true := by
      unfold noTwice
      exact decide_eq_true hpairs
    have hrank : ranksThere (merged ps (partFor hhs c)) c = true := by
      unfold ranksThere
      rw [List.all_eq_true]
      intro k hk
      obtain ⟨k1, k2⟩ := List.mem_range'_1.1 hk
      obtain ⟨id, s, s1, s2⟩ := hc
      obtain ⟨p, p1, p2, p3⟩ := h.complete _ s1 k (by omega) (by simp only; omega)
      rw [List.any_eq_true]
      exact ⟨p, (hmem p).2 ⟨p1, by simp only at *; omega, by rw [p2]; exact ⟨s, s1, s2⟩⟩, by simpa using p3⟩
    unfold spread
    rw [if_neg (by rw [hno]; simp), if_neg (by rw [hrank]; simp)]
    refine ⟨_, rfl, cd_nodup_distinct _, ?_, fun x => absurd x h1, ?_, ?_, fun _ => cd_sorted_distinct _⟩
    · intro id
      show id ∈ distinct _ ↔ _
      rw [cd_mem_distinct, List.mem_map]
      constructor
      · rintro ⟨p, hp, rfl⟩
        exact ((hmem p).1 hp).2.2
      · intro hs
        obtain ⟨p, p1, p2, _⟩ := hsome id hs
        exact ⟨p, p1, p2⟩
    · intro _ i id p col hi hp hid h5
      have hs : SizeIs hhs id c := by
        have := List.mem_of_getElem? hi
        rw [cd_mem_distinct, List.mem_map] at this
        obtain ⟨q, hq, rfl⟩ := this
        exact ((hmem q).1 hq).2.2
      show ((distinct ((merged ps (partFor hhs c)).map (fun p => p.hh)))[i]?).bind _ = _
      rw [hi]
      show (personOf (merged ps (partFor hhs c)) id p.rank).map _ = _
      rw [← hid, cd_personOf hpairs ((hmem p).2 ⟨hp, h5, by rw [hid]; exact hs⟩)]
      rfl
    · intro _ i id q col hi hlen hq hcol
      have hs : SizeIs hhs id c := by
        have := List.mem_of_getElem? hi
        rw [cd_mem_distinct, List.mem_map] at this
        obtain ⟨x, hx, hxi⟩ := this
        rw [← hxi]
        exact ((hmem x).1 hx).2.2
      have hc5 : c ≤ 5 := by
        obtain ⟨s, _, s2⟩ := hs
        omega
      show ((distinct ((merged ps (partFor hhs c)).map (fun p => p.hh)))[i]?).bind _ = _
      rw [hi]
      show (if col = "override_choice" ∨ col = "model_choice" then joinedText (merged ps (partFor hhs c)) id col c.toNat else none) = _
      rw [if_pos hcol, show c.toNat = q.length by omega]
      refine cd_joined hpairs id col q (fun k p hk => ?_)
      obtain ⟨p1, p2, p3⟩ := hq k p hk
      have := (List.getElem?_eq_some_iff.1 hk).1
      exact ⟨(hmem p).2 ⟨p1, by omega, by rw [p2]; exact hs⟩, p2, p3⟩

/-- **C194 (tables).** The tables are those of the sizes that occur, smallest first; each household is in the table of its size (of five if
it is larger) and no other, once, with the data of its persons in the columns of their ranks and their choices one after the other. -/
theorem C194_split (hhs : List (Int × Int)) (ps : List Person) (h : Survey hhs ps) :
    ∃ d, splitData hhs ps = .ok d ∧ (d.map Prod.fst).Nodup ∧ (d.map Prod.fst).Pairwise (· ≤ ·) ∧
      (∀ c, c ∈ d.map Prod.fst ↔ ∃ id, SizeIs hhs id c) ∧ ∀ e ∈ d, TableHolds hhs ps e.1 e.2 := by
  have hmem : ∀ c, c ∈ distinct (hhs.map (fun h => sizeClass h.2)) ↔ ∃ id, SizeIs hhs id c := by
    intro c
    rw [cd_mem_distinct, List.mem_map]
    constructor
    · rintro ⟨⟨i, s⟩, h1, h2⟩
      exact ⟨i, s, h1, h2⟩
    · rintro ⟨i, s, h1, h2⟩
      exact ⟨(i, s), h1, h2⟩
  obtain ⟨d, d1, d2, d3⟩ := cd_mapM (tableFor hhs ps) (distinct (hhs.map (fun h => sizeClass h.2)))
    (fun c hc => by obtain ⟨t, ht, _⟩ := cd_table h ((hmem c).1 hc); exact ⟨t, ht⟩)
  refine ⟨d, d1, by rw [d2]; exact cd_nodup_distinct _, by rw [d2]; exact cd_sorted_distinct _, fun c => by rw [d2]; exact hmem c, ?_⟩
  intro e he
  have hc : e.1 ∈ d.map Prod.fst := List.mem_map.2 ⟨e, he, rfl⟩
  rw [d2] at hc
  obtain ⟨t, ht, hT⟩ := cd_table h ((hmem e.1).1 hc)
  have := d3 e he
  rw [ht] at this
  injection this with this
  rw [← this]
  exact hT

theorem cd_actChar_inj : Function.Injective actChar := by
  intro a b
  cases a <;> cases b <;> simp [actChar]

/-- The code of a pattern. -/
theorem cd_code (c : Int) (a : List Act) (ha : (a.length : Int) = c) : codeOf c (some (a.map actChar)) = some (patternCode a) := by
  have hlen : a.length = c.toNat := by omega
  have hmem : (a, patternCode a) ∈ alternatives c.toNat := (C97_alternatives _ _ _).2 ⟨hlen, rfl⟩
  unfold codeOf
  rw [Option.bind_some]
  cases hf : (alternatives c.toNat).find? (fun e => e.1.map actChar = a.map actChar) with
  | none =>
    have := List.find?_eq_none.1 hf _ hmem
    simp at this
  | some e =>
    have h1 := List.find?_some hf
    have h2 := List.mem_of_find?_eq_some hf
    simp only [decide_eq_true_eq] at h1
    have h3 : e.1 = a := List.map_injective_iff.2 cd_actChar_inj h1
    have h4 : e.2 = patternCode e.1 := ((C97_alternatives _ _ _).1 h2).2
    rw [Option.map_some, h4, h3]

/-- **C194 (containers).** The container of each size has the codes of all patterns, and for each household whose persons chose activities
the code of the pattern of these, in the order of the ranks. -/
theorem C194_dataframes (hhs : List (Int × Int)) (ps : List Person) (h : Survey hhs ps) :
    ∃ d, dataframes hhs ps = .ok d ∧ (∀ c, c ∈ d.map Prod.fst ↔ ∃ id, SizeIs hhs id c) ∧
      ∀ e ∈ d, TableHolds hhs ps e.1 e.2.data ∧ e.2.codes = List.range' 1 (3 ^ e.1.toNat) ∧
        ∀ (i : Nat) (id : Int) (q : List Person) (a : List Act), e.2.data.ids[i]? = some id → (q.length : Int) = e.1 →
          (∀ (k : Nat) (p : Person), q[k]? = some p → p ∈ ps ∧ p.hh = id ∧ p.rank = k + 1) →
          (q.map (fun p => p.val "override_choice")) = a.map (fun x => [actChar x]) →
          e.2.choice i = some (patternCode a) := by
  obtain ⟨d, d1, _, _, d4, d5⟩ := C194_split hhs ps h
  refine ⟨_, by unfold dataframes; rw [d1]; rfl, ?_, ?_⟩
  · intro c
    rw [List.map_map, ← d4 c]
    rfl
  · intro e he
    obtain ⟨x, hx, rfl⟩ := List.mem_map.1 he
    have hT := d5 x hx
    refine ⟨hT, (C97_codes _).1, ?_⟩
    intro i id q a hi hlen hq hch
    have hla : (a.length : Int) = x.1 := by
      have := congrArg List.length hch
      rw [List.length_map, List.length_map] at this
      omega
    have htext : x.2.cell i none "override_choice" = some (a.map actChar) := by
      have hflat : q.flatMap (fun p => p.val "override_choice") = a.map actChar := by
        rw [List.flatMap_def, hch]
        clear hch hla
        induction a with
        | nil => rfl
        | cons y r ih => rw [List.map_cons, List.flatten_cons, ih]; rfl
      by_cases h1 : x.1 = 1
      · obtain ⟨p, rfl⟩ : ∃ p, q = [p] := List.length_eq_one_iff.1 (by omega)
        obtain ⟨p1, p2, _⟩ := hq 0 p rfl
        rw [hT.single h1 i id p _ hi p1 p2, ← hflat, List.flatMap_singleton]
      · rw [hT.joined h1 i id q _ hi hlen hq (Or.inl rfl), hflat]
    show codeOf x.1 (x.2.cell i none "override_choice") = _
    rw [htext, cd_code x.1 a hla]

theorem cd_lookup {β : Type} (l : List (Int × β)) (s : Int) : (∃ v, l.lookup s = some v) ↔ s ∈ l.map Prod.fst := by
  induction l with
  | nil => constructor
           · rintro ⟨v, hv⟩; cases hv
           · intro h; cases h
  | cons e r ih =>
    obtain ⟨k, v⟩ := e
    rw [List.lookup_cons, List.map_cons, List.mem_cons]
    by_cases hk : s = k
    · subst hk
      simp
    · have : (s == k) = false := by simpa using hk
      rw [this, ← ih]
      simp [hk]

theorem cd_all {β : Type} (l : List (Int × β)) (ss : List Int) :
    (∃ r, ss.mapM (fun s => (l.lookup s).elim (Except.error Fault.key) Except.ok) = .ok r) ↔ ∀ s ∈ ss, s ∈ l.map Prod.fst := by
  induction ss with
  | nil => exact ⟨fun _ s hs => (by cases hs), fun _ => ⟨[], rfl⟩⟩
  | cons s r ih =>
    rw [List.mapM_cons]
    constructor
    · rintro ⟨x, hx⟩ k hk
      cases hl : l.lookup s with
      | none => rw [hl] at hx; cases hx
      | some v =>
        rcases List.mem_cons.1 hk with rfl | hk
        · exact (cd_lookup l k).1 ⟨v, hl⟩
        · refine ih.1 ?_ k hk
          rw [hl] at hx
          cases hr : r.mapM (fun s => (l.lookup s).elim (Except.error Fault.key) Except.ok) with
          | error e => rw [hr] at hx; cases hx
          | ok y => exact ⟨y, rfl⟩
    · intro h
      obtain ⟨v, hv⟩ := (cd_lookup l s).2 (h s List.mem_cons_self)
      obtain ⟨y, hy⟩ := ih.2 (fun k hk => h k (List.mem_cons_of_mem _ hk))
      exact ⟨v :: y, by rw [hv, hy]; rfl⟩

/-- **C194 (sizes).** The five models can be made exactly if households of all five sizes occur. -/
theorem C194_models (hhs : List (Int × Int)) (ps : List Person) (h : Survey hhs ps) :
    ∃ d, dataframes hhs ps = .ok d ∧
      ((∃ l, modelData d = .ok l) ↔ ∀ c ∈ [1, 2, 3, 4, 5], ∃ id, SizeIs hhs id c) := by
  obtain ⟨d, d1, d2, _⟩ := C194_dataframes hhs ps h
  refine ⟨d, d1, ?_⟩
  unfold modelData
  rw [cd_all]
  constructor
  · intro h c hc
    exact (d2 c).1 (h c hc)
  · intro h c hc
    exact (d2 c).2 (h c hc)

/-- A person with a choice. -/
def cdPerson (hh rank : Int) (choice : String) : Person := ⟨hh, rank, fun col => if col = "override_choice" then choice.toList else "x".toList⟩

/-- Households 7 (one person), 3 and 9 (two persons). -/
def cdHouseholds : List (Int × Int) := [(9, 2), (7, 1), (3, 2)]

/-- Their persons. -/
def cdPersons : List Person := [cdPerson 3 2 "H", cdPerson 9 1 "N", cdPerson 7 1 "M", cdPerson 3 1 "N", cdPerson 9 2 "M"]

theorem cdx_survey : Survey cdHouseholds cdPersons := by
  refine ⟨by decide, by decide, by decide, ?_, by decide⟩
  intro h hh k h1 h2
  have hh' : h = (9, 2) ∨ h = (7, 1) ∨ h = (3, 2) := by simpa [cdHouseholds] using hh
  rcases hh' with rfl | rfl | rfl
  · simp only at h2
    rcases (show k = 1 ∨ k = 2 by omega) with rfl | rfl
    · exact ⟨cdPerson 9 1 "N", by simp [cdPersons], rfl, rfl⟩
    · exact ⟨cdPerson 9 2 "M", by simp [cdPersons], rfl, rfl⟩
  · simp only at h2
    obtain rfl : k = 1 := by omega
    exact ⟨cdPerson 7 1 "M", by simp [cdPersons], rfl, rfl⟩
  · simp only at h2
    rcases (show k = 1 ∨ k = 2 by omega) with rfl | rfl
    · exact ⟨cdPerson 3 1 "N", by simp [cdPersons], rfl, rfl⟩
    · exact ⟨cdPerson 3 2 "H", by simp [cdPersons], rfl, rfl⟩

example : ∃ d, dataframes cdHouseholds cdPersons = .ok d :=
  (C194_dataframes _ _ cdx_survey).imp (fun _ h => h.1)

/-- Sizes, households and chosen codes. -/
def cdView (r : Except Fault (List (Int × Container))) : Option (List (Int × List Int × List (Option Nat))) :=
  r.toOption.map (fun d => d.map (fun e => (e.1, e.2.data.ids, (List.range e.2.data.ids.length).map e.2.choice)))

example : cdView (dataframes cdHouseholds cdPersons) = some [(1, [7], [some 1]), (2, [3, 9], [some 6, some 4])] := by decide +kernel

/-- **C194, what goes wrong.** A household of size one with two persons in the data becomes two cases with one number, not an error. -/
theorem C194_fails_two_cases :
    cdView (dataframes [(7, 1)] [cdPerson 7 1 "M", cdPerson 7 2 "H"]) = some [(1, [7, 7], [some 1, some 3])] := by decide +kernel

/-- **C194, what goes wrong.** A household without persons in the data is in no table. -/
theorem C194_fails_nobody :
    cdView (dataframes [(7, 1), (8, 0), (9, 1)] [cdPerson 7 1 "M", cdPerson 9 1 "N"]) = some [(1, [7, 9], [some 1, some 2])] := by
  decide +kernel

/-- **C194, what goes wrong.** A household that is listed twice is an error from two persons on, but two cases if it has one. -/
theorem C194_fails_listed_twice :
    splitData [(3, 2), (3, 2)] [cdPerson 3 1 "M", cdPerson 3 2 "H"] = .error .value ∧
      cdView (dataframes [(7, 1), (7, 1)] [cdPerson 7 1 "M"]) = some [(1, [7, 7], [some 1, some 1])] := by
  constructor
  · rfl
  · decide +kernel

/-- **C194, what goes wrong.** Without households of five, no model of the smaller sizes is made either. -/
theorem C194_fails_size_missing : ∃ d, dataframes cdHouseholds cdPersons = .ok d ∧ modelData d = .error .key := by
  cases hd : dataframes cdHouseholds cdPersons with
  | error e =>
    obtain ⟨d, h, _⟩ := C194_dataframes _ _ cdx_survey
    rw [hd] at h; cases h
  | ok d =>
    refine ⟨d, rfl, ?_⟩
    obtain ⟨d', h1, h2⟩ := C194_models _ _ cdx_survey
    rw [hd] at h1
    obtain rfl := Except.ok.inj h1
    cases hm : modelData d with
    | error e =>
      cases e with
      | key => rfl
      | value =>
        exfalso
        have : ∀ (ss : List Int), ss.mapM (fun s => (d.lookup s).elim (Except.error Fault.key) Except.ok) ≠ .error Fault.value := by
          intro ss
          induction ss with
          | nil => intro h; cases h
          | cons s r ih =>
            intro h
            rw [List.mapM_cons] at h
            cases hl : d.lookup s with
            | none => rw [hl] at h; cases h
            | some v =>
              rw [hl] at h
              cases hr : r.mapM (fun s => (d.lookup s).elim (Except.error Fault.key) Except.ok) with
              | error e => rw [hr] at h; rw [hr] at ih; exact ih h
              | ok y => rw [hr] at h; cases h
        exact this _ hm
    | ok l =>
      obtain ⟨id, s, s1, s2⟩ := h2.1 ⟨l, hm⟩ 5 (by decide)
      have hs : (id, s) = (9, 2) ∨ (id, s) = (7, 1) ∨ (id, s) = (3, 2) := by simpa [cdHouseholds] using s1
      rcases hs with h | h | h <;> (obtain ⟨_, rfl⟩ := Prod.mk.inj h; exact absurd s2 (by decide))

/-- **C194, the names of the columns.** The table of the single persons has no column with a rank; in the other tables the only columns without
one are the two joined texts. -/
theorem C194_names (hhs : List (Int × Int)) (ps : List Person) (d : List (Int × Table)) (hd : splitData hhs ps = .ok d) :
    ∀ e ∈ d, ∀ (i : Nat) (col : String),
      (e.1 = 1 → ∀ k : Int, e.2.cell i (some k) col = none) ∧
      (e.1 ≠ 1 → col ≠ "override_choice" → col ≠ "model_choice" → e.2.cell i none col = none) := by
  have key : ∀ (c : Int) (t : Table), tableFor hhs ps c = .ok t → ∀ (i : Nat) (col : String),
      (c = 1 → ∀ k : Int, t.cell i (some k) col = none) ∧
      (c ≠ 1 → col ≠ "override_choice" → col ≠ "model_choice" → t.cell i none col = none) := by
    intro c t ht i col
    unfold tableFor at ht
    by_cases hc : c = 1
    · simp only [hc, if_true, Except.ok.injEq] at ht
      subst ht
      exact ⟨fun _ k => by simp [narrow], fun h => absurd hc h⟩
    · simp only [if_neg hc] at ht
      refine ⟨fun h => absurd h hc, fun _ h1 h2 => ?_⟩
      unfold spread at ht
      split at ht
      · cases ht
      · split at ht
        · cases ht
        · obtain rfl := Except.ok.inj ht
          simp [h1, h2]
  have all : ∀ (l : List Int) (d : List (Int × Table)), l.mapM (fun c => (tableFor hhs ps c).map (fun t => (c, t))) = .ok d →
      ∀ e ∈ d, tableFor hhs ps e.1 = .ok e.2 := by
    intro l
    induction l with
    | nil => intro d h e he; obtain rfl := Except.ok.inj h; cases he
    | cons c r ih =>
      intro d h e he
      rw [List.mapM_cons] at h
      cases ht : tableFor hhs ps c with
      | error x => rw [ht] at h; cases h
      | ok t =>
        cases hr : r.mapM (fun c => (tableFor hhs ps c).map (fun t => (c, t))) with
        | error x => rw [ht, hr] at h; cases h
        | ok d' =>
          rw [ht, hr] at h
          obtain rfl := Except.ok.inj h
          rcases List.mem_cons.1 he with rfl | he
          · exact ht
          · exact ih d' hr e he
  intro e he i col
  exact key e.1 e.2 (all _ d hd e he) i col

example : ∃ d, splitData cdHouseholds cdPersons = .ok d ∧ ∃ e ∈ d, e.1 = 1 := by
  obtain ⟨d, h1, _, _, h4, _⟩ := C194_split _ _ cdx_survey
  refine ⟨d, h1, ?_⟩
  obtain ⟨e, he, h⟩ := List.mem_map.1 ((h4 1).2 ⟨7, 1, by simp [cdHouseholds], by decide⟩)
  exact ⟨e, he, h⟩

end Larch.Props
