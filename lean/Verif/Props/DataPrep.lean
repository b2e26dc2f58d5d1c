import Verif.Model.DataPrep
import Verif.Props.Combine
import Mathlib.Data.List.Forall2
import Mathlib.Tactic.Linarith
import Mathlib.Tactic.NormNum

/-!
# C143, C144: the data of ActivitySim bundles as larch gets them
-/

namespace Larch.Props

open Larch.DataPrep

variable {K L : Type}

/-! ## Specification -/

/-- The table has the cell `x` in the row of chooser `c` and variable `v`, below alternative `a`. -/
def WideCell (w : Wide L K) (c : L) (v : String) (a : L) (x : Cell K) : Prop :=
  ∃ r ∈ w.rows, r.1 = (c, v) ∧ ∃ i : Nat, w.cols[i]? = some a ∧ r.2[i]? = some x

/-- The number that a cell stands for. -/
def Reads [Zero K] [One K] (parse : String → Option K) (x : Cell K) (k : K) : Prop :=
  x = .num k ∨ (x = .text "False" ∧ k = 0) ∨ (x = .text "True" ∧ k = 1) ∨ ∃ s, x = .text s ∧ s ≠ "False" ∧ s ≠ "True" ∧ parse s = some k

/-- The table says that for chooser `c` and alternative `a`, the variable `v` has the value `k`. -/
def Gives [Zero K] [One K] (toInt : L → Option Int) (parse : String → Option K) (w : Wide L K) (c : Int) (v : String) (a : Int) (k : K) : Prop :=
  ∃ c' a' x, WideCell w c' v a' x ∧ toInt c' = some c ∧ toInt a' = some a ∧ Reads parse x k

/-! ## `cv_to_ca` -/

theorem dp_mapM {α β : Type} {f : α → Option β} : ∀ {l : List α} {r : List β}, l.mapM f = some r → List.Forall₂ (fun a b => f a = some b) l r := by
  intro l
  induction l with
  | nil => intro r h; simp at h; subst h; exact .nil
  | cons a t ih =>
    intro r h
    rw [List.mapM_cons] at h
    cases ha : f a with
    | none => simp [ha] at h
    | some b =>
      cases ht : t.mapM f with
      | none => simp [ha, ht] at h
      | some r' =>
        simp [ha, ht] at h
        subst h
        exact .cons ha (ih ht)

theorem dp_mapM_some {α β : Type} {f : α → Option β} : ∀ {l : List α}, (∀ a ∈ l, ∃ b, f a = some b) → ∃ r, l.mapM f = some r := by
  intro l
  induction l with
  | nil => intro _; exact ⟨[], rfl⟩
  | cons a t ih =>
    intro h
    obtain ⟨b, hb⟩ := h a (by simp)
    obtain ⟨r, hr⟩ := ih (fun x hx => h x (by simp [hx]))
    exact ⟨b :: r, by rw [List.mapM_cons, hb, hr]; rfl⟩

theorem dp_forall_mem {α β : Type} {R : α → β → Prop} {l : List α} {r : List β} (h : List.Forall₂ R l r) :
    (∀ a ∈ l, ∃ b ∈ r, R a b) ∧ ∀ b ∈ r, ∃ a ∈ l, R a b := by
  induction h with
  | nil => simp
  | cons hab _ ih =>
    refine ⟨fun a ha => ?_, fun b hb => ?_⟩
    · rcases List.mem_cons.mp ha with rfl | ha
      · exact ⟨_, by simp, hab⟩
      · obtain ⟨b, hb, h⟩ := ih.1 a ha
        exact ⟨b, by simp [hb], h⟩
    · rcases List.mem_cons.mp hb with rfl | hb
      · exact ⟨_, by simp, hab⟩
      · obtain ⟨a, ha, h⟩ := ih.2 b hb
        exact ⟨a, by simp [ha], h⟩

section
variable [Zero K] [One K] [DecidableEq K]

theorem dp_reads {parse : String → Option K} {x : Cell K} {k : K} : toNum parse x = some k ↔ Reads parse x k := by
  unfold toNum Reads
  cases x with
  | missing => simp
  | num q => simp
  | text s =>
    by_cases h1 : s = "False"
    · subst h1; simp [eq_comm]
    · by_cases h2 : s = "True"
      · subst h2; simp [eq_comm]
      · simp [h1, h2]

theorem dp_zip_mem {α β : Type} {l : List α} {r : List β} {p : α × β} : p ∈ l.zip r ↔ ∃ i : Nat, l[i]? = some p.1 ∧ r[i]? = some p.2 := by
  rw [List.mem_iff_getElem?]
  refine exists_congr (fun i => ?_)
  rw [List.getElem?_zip_eq_some]

theorem dp_zip_fst {α β : Type} (l : List α) (r : List β) : ((l.zip r).map Prod.fst).Sublist l := by
  induction l generalizing r with
  | nil => simp
  | cons a t ih =>
    cases r with
    | nil => simp
    | cons b r' => simpa using ih r'

theorem dp_stack {w : Wide L K} {t : Tall L K} : t ∈ stack w ↔ WideCell w t.case t.var t.alt t.cell ∧ t.cell ≠ .missing := by
  unfold stack WideCell
  rw [List.mem_flatMap]
  constructor
  · rintro ⟨r, hr, h⟩
    obtain ⟨p, hp, rfl⟩ := List.mem_map.mp h
    obtain ⟨hp, hm⟩ := List.mem_filter.mp hp
    exact ⟨⟨r, hr, rfl, dp_zip_mem.mp hp⟩, by simpa using hm⟩
  · rintro ⟨⟨r, hr, h1, hi⟩, hm⟩
    refine ⟨r, hr, List.mem_map.mpr ⟨(t.alt, t.cell), List.mem_filter.mpr ⟨dp_zip_mem.mpr hi, by simpa using hm⟩, ?_⟩⟩
    rw [h1]

theorem dp_entry {toInt : L → Option Int} {parse : String → Option K} {t : Tall L K} {e : Entry K} : entry toInt parse t = some e ↔
    toInt t.case = some e.case ∧ toInt t.alt = some e.alt ∧ t.var = e.var ∧ Reads parse t.cell e.val := by
  unfold entry intLabels
  rw [← dp_reads]
  obtain ⟨c, v, a, k⟩ := e
  cases h1 : toInt t.case with
  | none => simp
  | some c' =>
    cases h2 : toInt t.alt with
    | none => simp
    | some a' =>
      cases h3 : toNum parse t.cell with
      | none => simp [h3]
      | some k' =>
        simp [h3]
        tauto

theorem dp_gives {toInt : L → Option Int} {parse : String → Option K} {w : Wide L K} {es : List (Entry K)} (h : entries toInt parse w = some es)
    (c : Int) (v : String) (a : Int) (k : K) : Gives toInt parse w c v a k ↔ ⟨c, v, a, k⟩ ∈ es := by
  have hf := dp_forall_mem (dp_mapM h)
  constructor
  · rintro ⟨c', a', x, h1, h2, h3, h4⟩
    have hm : x ≠ .missing := by
      rintro rfl
      have := dp_reads.mpr h4
      simp [toNum] at this
    obtain ⟨e, he, h5⟩ := hf.1 ⟨c', v, a', x⟩ (dp_stack.mpr ⟨h1, hm⟩)
    have h6 : entry toInt parse (⟨c', v, a', x⟩ : Tall L K) = some ⟨c, v, a, k⟩ := dp_entry.mpr ⟨h2, h3, rfl, h4⟩
    rw [h6, Option.some.injEq] at h5
    rw [h5]; exact he
  · intro he
    obtain ⟨t, ht, h5⟩ := hf.2 _ he
    obtain ⟨h1, h2, h3, h4⟩ := dp_entry.mp h5
    have h6 := (dp_stack.mp ht).1
    simp only at h1 h2 h3 h4
    rw [h3] at h6
    exact ⟨t.case, t.alt, t.cell, h6, h1, h2, h4⟩

theorem dp_sorted_pairs (l : List (Int × Int)) (hn : l.Nodup) :
    (l.insertionSort (fun a b => a.1 < b.1 ∨ a.1 = b.1 ∧ a.2 ≤ b.2)).Pairwise LabelLt := by
  have hn' : (l.insertionSort (fun a b => a.1 < b.1 ∨ a.1 = b.1 ∧ a.2 ≤ b.2)).Nodup := (List.perm_insertionSort _ _).nodup_iff.mpr hn
  haveI : Std.Total (fun a b : Int × Int => a.1 < b.1 ∨ a.1 = b.1 ∧ a.2 ≤ b.2) := ⟨fun a b => by
    rcases lt_trichotomy a.1 b.1 with h | h | h
    · exact Or.inl (Or.inl h)
    · rcases le_total a.2 b.2 with h2 | h2
      · exact Or.inl (Or.inr ⟨h, h2⟩)
      · exact Or.inr (Or.inr ⟨h.symm, h2⟩)
    · exact Or.inr (Or.inl h)⟩
  haveI : IsTrans (Int × Int) (fun a b => a.1 < b.1 ∨ a.1 = b.1 ∧ a.2 ≤ b.2) := ⟨fun a b c h1 h2 => by
    rcases h1 with h1 | ⟨h1, h1'⟩ <;> rcases h2 with h2 | ⟨h2, h2'⟩
    · exact Or.inl (lt_trans h1 h2)
    · exact Or.inl (h2 ▸ h1)
    · exact Or.inl (h1 ▸ h2)
    · exact Or.inr ⟨h1.trans h2, le_trans h1' h2'⟩⟩
  have hs := List.pairwise_insertionSort (fun a b : Int × Int => a.1 < b.1 ∨ a.1 = b.1 ∧ a.2 ≤ b.2) l
  refine (hs.and hn').imp ?_
  rintro ⟨a1, a2⟩ ⟨b1, b2⟩ ⟨h, hne⟩
  rcases h with h | ⟨h1, h2⟩
  · exact Or.inl h
  · refine Or.inr ⟨h1, lt_of_le_of_ne h2 (fun e => hne (Prod.ext h1 e))⟩

/-- **C143 (idca data).** The frame that `cv_to_ca` makes has one row for each pair of chooser and alternative and one column for each variable for which the table gives a value,
in order, and holds exactly the values of the table. -/
theorem C143_frame (toInt : L → Option Int) (parse : String → Option K) (w : Wide L K) (f : DataPrep.FrameCa K) (h : cvToCa toInt parse w = some f) :
    (f.rows.map Prod.fst).Pairwise LabelLt ∧ f.names.Pairwise (· < ·) ∧
    (∀ c a, (c, a) ∈ f.rows.map Prod.fst ↔ ∃ v k, Gives toInt parse w c v a k) ∧
    (∀ v, v ∈ f.names ↔ ∃ c a k, Gives toInt parse w c v a k) ∧
    (∀ r ∈ f.rows, ∀ v k, r.2 v = some k ↔ Gives toInt parse w r.1.1 v r.1.2 k) := by
  unfold cvToCa at h
  obtain ⟨es, he, hu⟩ := Option.bind_eq_some_iff.mp h
  unfold unstack at hu
  split at hu
  next hn =>
    rw [Option.some.injEq] at hu
    subst hu
    simp only [List.map_map, dp_gives he]
    have hid : (Prod.fst ∘ fun l : Int × Int => (l, fun v => (es.find? (fun e => decide (e.case = l.1 ∧ e.alt = l.2 ∧ e.var = v))).map Entry.val)) = id := rfl
    rw [hid, List.map_id]
    refine ⟨dp_sorted_pairs _ (List.nodup_dedup _), ?_, fun c a => ?_, fun v => ?_, ?_⟩
    · have h1 := List.pairwise_insertionSort (· ≤ ·) (es.map Entry.var).dedup
      have h2 : ((es.map Entry.var).dedup.insertionSort (· ≤ ·)).Nodup := (List.perm_insertionSort _ _).nodup_iff.mpr (List.nodup_dedup _)
      refine (h1.and h2).imp ?_
      rintro a b ⟨hab, hne⟩
      exact lt_of_le_of_ne hab hne
    · rw [List.mem_insertionSort, List.mem_dedup, List.mem_map]
      constructor
      · rintro ⟨e, he', h1⟩
        cases h1
        exact ⟨e.var, e.val, he'⟩
      · rintro ⟨v, k, hm⟩
        exact ⟨_, hm, rfl⟩
    · rw [List.mem_insertionSort, List.mem_dedup, List.mem_map]
      constructor
      · rintro ⟨e, he', rfl⟩
        exact ⟨e.case, e.alt, e.val, he'⟩
      · rintro ⟨c, a, k, hm⟩
        exact ⟨_, hm, rfl⟩
    · intro r hr v k
      obtain ⟨l, _, rfl⟩ := List.mem_map.mp hr
      simp only [Option.map_eq_some_iff]
      constructor
      · rintro ⟨e, h1, rfl⟩
        have h2 := List.mem_of_find?_eq_some h1
        have h3 := List.find?_some h1
        simp only [decide_eq_true_eq] at h3
        obtain ⟨e1, e2, e3⟩ := h3
        rw [← e1, ← e2, ← e3]
        exact h2
      · intro hm
        cases hf : es.find? (fun e => decide (e.case = l.1 ∧ e.alt = l.2 ∧ e.var = v)) with
        | none => exact absurd (List.find?_eq_none.mp hf _ hm) (by simp)
        | some e =>
          refine ⟨e, rfl, ?_⟩
          have h2 := List.mem_of_find?_eq_some hf
          have h3 := List.find?_some hf
          simp only [decide_eq_true_eq] at h3
          have : e = ⟨l.1, v, l.2, k⟩ := List.inj_on_of_nodup_map hn h2 hm (by simp [h3])
          rw [this]
  next => cases hu

theorem dp_nodup_stack (toInt : L → Option Int) (w : Wide L K) (hr : (w.rows.map Prod.fst).Nodup) (hc : w.cols.Nodup) :
    ((stack w).map (fun t => (t.case, t.var, t.alt))).Nodup := by
  unfold stack
  rw [List.map_flatMap, List.nodup_flatMap]
  constructor
  · intro r _
    rw [List.map_map]
    have h1 : ((w.cols.zip r.2).map Prod.fst).Nodup := by
      exact hc.sublist (dp_zip_fst _ _)
    have h2 : (((w.cols.zip r.2).filter (fun p => decide (p.2 ≠ Cell.missing))).map Prod.fst).Nodup := h1.sublist (List.Sublist.map _ List.filter_sublist)
    rw [List.Nodup, List.pairwise_map] at h2 ⊢
    refine h2.imp ?_
    intro x y hne e
    simp only [Function.comp, Prod.mk.injEq, true_and] at e
    exact hne e
  · rw [List.Nodup, List.pairwise_map] at hr
    refine hr.imp ?_
    intro r s hne
    simp only [Function.onFun, List.disjoint_left, List.mem_map]
    rintro _ ⟨t, ⟨p, _, rfl⟩, rfl⟩ ⟨t', ⟨p', _, rfl⟩, h⟩
    simp only [Prod.mk.injEq] at h
    exact hne (Prod.ext h.1.symm h.2.1.symm)

/-- **C143 (it works).** A table whose labels are different whole numbers, also after conversion, and whose cells are missing or numbers, is converted. -/
theorem C143_works (toInt : L → Option Int) (parse : String → Option K) (w : Wide L K) (hr : (w.rows.map Prod.fst).Nodup) (hc : w.cols.Nodup)
    (hir : ∀ r ∈ w.rows, toInt r.1.1 ≠ none) (hic : ∀ a ∈ w.cols, toInt a ≠ none)
    (hjr : ∀ r ∈ w.rows, ∀ s ∈ w.rows, toInt r.1.1 = toInt s.1.1 → r.1.1 = s.1.1) (hjc : ∀ a ∈ w.cols, ∀ b ∈ w.cols, toInt a = toInt b → a = b)
    (hx : ∀ c v a x, WideCell w c v a x → x ≠ .missing → ∃ k, Reads parse x k) : ∃ f, cvToCa toInt parse w = some f := by
  have hall : ∀ t ∈ stack w, ∃ e, entry toInt parse t = some e := by
    intro t ht
    obtain ⟨hw, hm⟩ := dp_stack.mp ht
    obtain ⟨k, hk⟩ := hx _ _ _ _ hw hm
    obtain ⟨r, hr', h1, i, hi, _⟩ := hw
    obtain ⟨c, hc'⟩ := Option.ne_none_iff_exists'.mp (hir r hr')
    obtain ⟨a, ha'⟩ := Option.ne_none_iff_exists'.mp (hic t.alt (List.mem_of_getElem? hi))
    rw [h1] at hc'
    exact ⟨⟨c, t.var, a, k⟩, dp_entry.mpr ⟨hc', ha', rfl, hk⟩⟩
  obtain ⟨es, hes⟩ := dp_mapM_some hall
  have hn : (es.map (fun e => (e.case, e.var, e.alt))).Nodup := by
    have hF := dp_mapM hes
    have hst := dp_nodup_stack toInt w hr hc
    rw [List.Nodup, List.pairwise_map] at hst ⊢
    have hmem : ∀ t ∈ stack w, (∃ r ∈ w.rows, r.1.1 = t.case) ∧ t.alt ∈ w.cols := by
      intro t ht
      obtain ⟨⟨r, hr', h1, i, hi, _⟩, _⟩ := dp_stack.mp ht
      exact ⟨⟨r, hr', by rw [h1]⟩, List.mem_of_getElem? hi⟩
    clear hes hall
    generalize stack w = S at hF hst hmem
    revert hst hmem
    induction hF with
    | nil => intro _ _; exact .nil
    | @cons t e ts es' hte hts ih =>
      intro hst hmem
      rw [List.pairwise_cons] at hst ⊢
      refine ⟨fun e' he' heq => ?_, ih hst.2 (fun t ht => hmem t (by simp [ht]))⟩
      obtain ⟨t', ht', hte'⟩ := (dp_forall_mem hts).2 e' he'
      obtain ⟨a1, a2, a3, _⟩ := dp_entry.mp hte
      obtain ⟨b1, b2, b3, _⟩ := dp_entry.mp hte'
      simp only [Prod.mk.injEq] at heq
      obtain ⟨⟨r, hr1, hr2⟩, hta⟩ := hmem t (by simp)
      obtain ⟨⟨s, hs1, hs2⟩, htb⟩ := hmem t' (by simp [ht'])
      have e1 : t.case = t'.case := by
        rw [← hr2, ← hs2]
        exact hjr r hr1 s hs1 (by rw [hr2, hs2, a1, b1, heq.1])
      have e2 : t.alt = t'.alt := hjc _ hta _ htb (by rw [a2, b2, heq.2.2])
      exact hst.1 t' ht' (by rw [e1, e2, a3, b3, heq.2.1])
  unfold cvToCa entries
  rw [hes, Option.bind_some]
  unfold unstack
  rw [if_pos hn]
  exact ⟨_, rfl⟩

/-- **C143 fails (no values).** There is not one row per chooser and alternative: if all values of a chooser for an alternative are missing, the pair
has no row. -/
theorem C143_fails_pair (toInt : L → Option Int) (parse : String → Option K) (w : Wide L K) (f : DataPrep.FrameCa K) (h : cvToCa toInt parse w = some f) (c a : Int)
    (hm : ∀ c' v a' x, toInt c' = some c → toInt a' = some a → WideCell w c' v a' x → x = .missing) : (c, a) ∉ f.rows.map Prod.fst := by
  rw [(C143_frame toInt parse w f h).2.2.1]
  rintro ⟨v, k, c', a', x, h1, h2, h3, h4⟩
  have := hm c' v a' x h2 h3 h1
  subst this
  have := dp_reads.mpr h4
  simp [toNum] at this

end

/-! ## Column names -/

/-- **C145 (different names).** If no column has the name of a shared column with the ending `_ca`, then after `prevent_overlapping_column_names` the idca and idco data
have no column in common, columns of the idca data that were different still are, and columns that were not shared keep their name. -/
theorem C145_separate_partial (ca co : List String) (hn : ca.Nodup) (hc : ∀ s ∈ ca, s ∈ co → s ++ "_ca" ∉ co ∧ s ++ "_ca" ∉ ca) :
    (∀ s ∈ ca.map (overlapName co), s ∉ co) ∧ (ca.map (overlapName co)).Nodup ∧ ∀ s ∈ ca, s ∉ co → overlapName co s = s := by
  have hin : ∀ s, s ∈ co → overlapName co s = s ++ "_ca" := fun s h => by simp [overlapName, h]
  have hout : ∀ s, s ∉ co → overlapName co s = s := fun s h => by simp [overlapName, h]
  refine ⟨fun s hs => ?_, ?_, fun s _ h => hout s h⟩
  · obtain ⟨x, hx, rfl⟩ := List.mem_map.mp hs
    by_cases h : x ∈ co
    · rw [hin x h]; exact (hc x hx h).1
    · rw [hout x h]; exact h
  · refine List.Nodup.map_on ?_ hn
    intro x hx y hy e
    by_cases h : x ∈ co <;> by_cases h' : y ∈ co
    · rw [hin x h, hin y h'] at e
      have := congrArg String.toList e
      rw [String.toList_append, String.toList_append] at this
      exact String.toList_injective (List.append_cancel_right this)
    · rw [hin x h, hout y h'] at e
      exact absurd (e ▸ hy) (hc x hx h).2
    · rw [hout x h, hin y h'] at e
      exact absurd (e ▸ hx) (hc y hy h').2
    · rw [hout x h, hout y h'] at e
      exact e

/-- **C145 fails.** If the idco data already have a column with the new name, the names overlap again; if the idca data do, two of their columns get one name. -/
theorem C145_fails_overlap : (∃ s ∈ ["dist"].map (overlapName ["dist", "dist_ca"]), s ∈ ["dist", "dist_ca"]) ∧
    ¬ (["dist", "dist_ca"].map (overlapName ["dist"])).Nodup := by decide +kernel

/-! ## Choosers -/

/-- The observed choice of a chooser, in the column called `choice`, is the text `s`. -/
def ObservedText (t : Table K) (choice : String) (r : Int × List (Cell K)) (s : String) : Prop :=
  ∃ i : Nat, t.cols[i]? = some choice ∧ r.2[i]? = some (.text s)

/-- The name has no apostrophe. -/
def NoQuote (s : String) : Prop := '\'' ∉ s.toList

theorem dp_strip {s : String} (h : NoQuote s) : stripQuotes s = s := by
  unfold stripQuotes
  have : s.toList.filter (fun c => c != '\'') = s.toList := by
    rw [List.filter_eq_self]
    intro c hc
    simp only [bne_iff_ne]
    rintro rfl
    exact h hc
  rw [this, String.ofList_toList]

theorem dp_strip_map {l : List String} (h : ∀ s ∈ l, NoQuote s) : l.map stripQuotes = l := by
  rw [List.map_congr_left (fun s hs => dp_strip (h s hs))]
  simp

theorem dp_stripped (s : String) : NoQuote (stripQuotes s) := by
  unfold NoQuote stripQuotes
  rw [String.toList_ofList, List.mem_filter]
  simp

theorem dp_cellOf {cols : List String} {r : List (Cell K)} {name : String} (h1 : cols.count name = 1) {i : Nat} (hi : cols[i]? = some name) :
    cellOf cols r name = r[i]? := by
  unfold cellOf
  induction cols generalizing r i with
  | nil => simp at hi
  | cons a t ih =>
    cases r with
    | nil => simp
    | cons x r' =>
      rw [List.zip_cons_cons, List.lookup_cons]
      by_cases ha : name = a
      · subst ha
        have h0 : t.count name = 0 := by simpa using h1
        cases i with
        | zero => simp
        | succ i =>
          rw [List.getElem?_cons_succ] at hi
          exact absurd (List.mem_of_getElem? hi) (List.count_eq_zero.mp h0)
      · have hb : (name == a) = false := by simpa using ha
        rw [hb]
        cases i with
        | zero => simp at hi; exact absurd hi.symm ha
        | succ i =>
          rw [List.getElem?_cons_succ] at hi ⊢
          refine ih ?_ hi
          rw [List.count_cons] at h1
          simpa [Ne.symm ha] using h1

open Classical in
/-- **C144 (choosers kept).** `clean_values` keeps, in order, exactly the choosers whose observed choice is the name of an alternative, with the code of this alternative; their
data are unchanged, with 0 for missing values. -/
theorem C144_kept [Zero K] (t : Table K) (alts : List String) (choice : String) (codes : String → Option Int) (hq : ∀ s ∈ t.cols, NoQuote s)
    (hone : t.cols.count choice = 1) : ∃ out, cleanValues t alts choice codes = some out ∧
    List.Forall₂ (fun r o => o.1 = r.1 ∧ (∃ s, ObservedText t choice r s ∧ o.2.2 = codes s) ∧ o.2.1.length = r.2.length ∧
      ∀ (i : Nat) (x : Cell K), r.2[i]? = some x → o.2.1[i]? = some (if x = .missing then .num 0 else x))
      (t.rows.filter (fun r => decide (∃ s ∈ alts, ObservedText t choice r s))) out := by
  have hs := dp_strip_map hq
  unfold cleanValues
  rw [hs, if_pos hone]
  refine ⟨_, rfl, ?_⟩
  obtain ⟨j, hj⟩ := List.mem_iff_getElem?.mp (List.count_pos_iff.mp (by omega : 0 < t.cols.count choice))
  have hobs : ∀ (r : Int × List (Cell K)) (s : String), ObservedText t choice r s ↔ r.2[j]? = some (.text s) := by
    intro r s
    constructor
    · rintro ⟨i, hi, h⟩
      rw [← dp_cellOf hone hj, dp_cellOf hone hi, h]
    · exact fun h => ⟨j, hj, h⟩
  simp only [hobs]
  generalize t.rows = rows
  induction rows with
  | nil => exact .nil
  | cons r rs ih =>
    rw [List.filter_cons, List.filterMap_cons]
    simp only [dp_cellOf hone hj, List.getElem?_map] at ih ⊢
    cases hx : r.2[j]? with
    | none =>
      simp only [Option.map_none]
      rw [if_neg (by simp)]
      exact ih
    | some x =>
      simp only [Option.map_some]
      cases x with
      | missing =>
        simp only [fill, isName]
        rw [if_neg (by simp)]
        exact ih
      | num q =>
        simp only [fill, isName]
        rw [if_neg (by simp)]
        exact ih
      | text s =>
        simp only [fill, isName]
        by_cases hm : s ∈ alts
        · rw [if_pos (by simpa using hm)]
          simp only [List.contains_iff_mem, hm, if_true]
          refine .cons ⟨rfl, ⟨s, hx, by simp [textOf]⟩, by simp, fun i x hi => ?_⟩ ih
          rw [List.getElem?_map, hi]
          cases x <;> simp [fill]
        · rw [if_neg (by simpa using hm)]
          simp only [List.contains_iff_mem, hm]
          exact ih

theorem dp_lookup {β : Type} {l : List (String × β)} (hn : (l.map Prod.fst).Nodup) {s : String} {b : β} (h : (s, b) ∈ l) : l.lookup s = some b := by
  induction l with
  | nil => cases h
  | cons p t ih =>
    obtain ⟨q, c⟩ := p
    rw [List.map_cons, List.nodup_cons] at hn
    rw [List.lookup_cons]
    rcases List.mem_cons.mp h with e | h'
    · cases e; simp
    · have : (s == q) = false := by
        simp only [beq_eq_false_iff_ne]
        rintro rfl
        exact hn.1 (List.mem_map.mpr ⟨_, h', rfl⟩)
      rw [this]
      exact ih hn.2 h'

/-- **C144 (codes).** The alternatives of the spec, its columns from the fourth on, are numbered from 1 in order. -/
theorem C144_codes (cols : List String) (hq : ∀ s ∈ cols, NoQuote s) (hn : cols.Nodup) (i : Nat) (s : String) (h3 : 3 ≤ i) (hi : cols[i]? = some s) :
    s ∈ altNames cols ∧ altCodes cols s = some ((i : Int) - 2) := by
  have hs := dp_strip_map hq
  have hd : (altNames cols)[i - 3]? = some s := by
    unfold altNames
    rw [hs, List.getElem?_drop, ← hi]
    congr 1
    omega
  refine ⟨List.mem_of_getElem? hd, ?_⟩
  have hnd : (altNames cols).Nodup := by
    unfold altNames
    rw [hs]
    exact hn.sublist (List.drop_sublist _ _)
  unfold altCodes
  have hl : ((altNames cols).zipIdx 1).reverse.lookup s = some (i - 3 + 1) := by
    refine dp_lookup ?_ ?_
    · rw [List.map_reverse, List.nodup_reverse, List.zipIdx_map_fst]
      exact hnd
    · rw [List.mem_reverse, List.mem_zipIdx_iff_le_and_getElem?_sub]
      exact ⟨by simp, by simpa using hd⟩
  rw [hl, Option.map_some, Option.some.injEq]
  omega

/-- **C144 fails (apostrophes).** Apostrophes are removed from the names of the alternatives but not from the observed choices: choosers of an alternative whose name has an
apostrophe are all removed. -/
theorem C144_fails_quote [Zero K] (t : Table K) (cols : List String) (choice : String) (hq : ∀ s ∈ t.cols, NoQuote s) (hone : t.cols.count choice = 1)
    (hall : ∀ r ∈ t.rows, ∀ s, ObservedText t choice r s → ¬ NoQuote s) : cleanValues t (altNames cols) choice (altCodes cols) = some [] := by
  classical
  obtain ⟨out, h1, h2⟩ := C144_kept t (altNames cols) choice (altCodes cols) hq hone
  rw [h1]
  have : t.rows.filter (fun r => decide (∃ s ∈ altNames cols, ObservedText t choice r s)) = [] := by
    rw [List.filter_eq_nil_iff]
    rintro r hr h
    obtain ⟨s, hs, ho⟩ := of_decide_eq_true h
    unfold altNames at hs
    obtain ⟨s', _, rfl⟩ := List.mem_map.mp (List.mem_of_mem_drop hs)
    exact hall r hr _ ho (dp_stripped s')
  rw [this] at h2
  cases h2
  rfl

/-- **C144 (auto ownership).** The choosers kept by `auto_ownership_model` are, in order, those whose observed choice is not negative, if no observed choice
is missing. -/
theorem C144_auto (rows : List (Int × Int)) : autoChoosers (rows.map (fun r => (r.1, some r.2))) = rows.filter (fun r => decide (0 ≤ r.2)) := by
  unfold autoChoosers
  rw [List.map_map]
  have : ((fun r : Int × Option Int => (r.1, r.2.getD 0)) ∘ fun r : Int × Int => (r.1, some r.2)) = id := rfl
  rw [this, List.map_id]

/-- **C144 fails (missing choice).** A chooser without an observed choice is not removed but counts as one who chose the alternative 0. -/
theorem C144_fails_missing (i : Int) : autoChoosers [(i, none)] = [(i, 0)] := rfl

/-- **C144 fails (no such alternative).** A chooser whose observed choice is larger than the code of any alternative is not removed. -/
theorem C144_fails_large (n : Nat) (i : Int) : ∃ k : Int, (∀ j ∈ List.range n, k ≠ (j : Int)) ∧ autoChoosers [(i, some k)] = [(i, k)] := by
  refine ⟨n, fun j hj e => ?_, by simp [autoChoosers]⟩
  rw [List.mem_range] at hj
  omega

/-! ## Concrete cases -/

/-- Two choosers, two variables and two alternatives; one value is missing, one is a text. -/
def wideTable : Wide Nat Int := ⟨[20, 10], [((2, "dist"), [.num 5, .missing]), ((2, "open"), [.text "True", .missing]), ((1, "dist"), [.num 7, .num 8])]⟩

example : (cvToCa (fun (n : Nat) => some (n : Int)) (fun _ => none) wideTable).map (fun f => (f.names, f.rows.map (fun r => (r.1, r.2 "dist", r.2 "open")))) =
    some (["dist", "open"], [((1, 10), some 8, none), ((1, 20), some 7, none), ((2, 20), some 5, some 1)]) := by decide +kernel

example : ∃ f, cvToCa (fun (n : Nat) => some (n : Int)) (fun _ => none) wideTable = some f := by
  refine C143_works _ _ _ (by decide) (by decide) (by simp) (by simp) (by simp) (by simp) ?_
  rintro c v a x ⟨r, hr, _, i, _, hx⟩ hm
  have hmem := List.mem_of_getElem? hx
  simp only [wideTable, List.mem_cons, List.not_mem_nil, or_false] at hr
  unfold Reads
  rcases hr with rfl | rfl | rfl <;> simp at hmem <;> rcases hmem with rfl | rfl <;> simp at hm ⊢

/-- A table of choosers. -/
def tourTable : Table Int := ⟨["mode", "income"], [(1, [.text "WALK", .missing]), (2, [.missing, .num 3]), (3, [.text "BIKE", .num 4]), (4, [.text "TELEPORT", .num 1])]⟩

example : cleanValues tourTable (altNames ["Label", "Description", "Expression", "BIKE", "WALK"]) "mode" (altCodes ["Label", "Description", "Expression", "BIKE", "WALK"]) =
    some [(1, [.text "WALK", .num 0], some 2), (3, [.text "BIKE", .num 4], some 1)] := by decide +kernel

example : cleanValues (⟨["mode"], [(1, [.text "D'RIVE"])]⟩ : Table Int) (altNames ["Label", "Description", "Expression", "D'RIVE"]) "mode"
    (altCodes ["Label", "Description", "Expression", "D'RIVE"]) = some [] := by decide +kernel

end Larch.Props
