import Verif.Model.PreApply

/-! # C201: the utility of a prelearner -/

namespace Larch.Props

open Larch.PreApply

variable {V : Type} [Zero V]

/-- The input values of a row of a case: those of the row, and those of the case in the other table; if there is another table, missing ones are zeros. -/
def InputOf (L : Learner V) (co : List (Int × Row V)) (case : Int) (r : Row V) (x : List (Option V)) : Prop :=
  (L.co = [] ∧ x = L.ca.map (fun c => L.eval c r)) ∨
    (L.co ≠ [] ∧ ((∃ q, (case, q) ∈ co ∧
        x = (L.ca.map (fun c => L.eval c r) ++ L.co.map (fun c => L.eval c q)).map (fun v => some (v.getD 0))) ∨
      ((∀ q, (case, q) ∉ co) ∧ x = L.ca.map (fun c => some ((L.eval c r).getD 0)) ++ L.co.map (fun _ => some 0))))

omit [Zero V] in
theorem pa_filter {co : List (Int × Row V)} (h : (co.map Prod.fst).Nodup) (case : Int) :
    (∃ q, (case, q) ∈ co ∧ co.filter (fun q => q.1 = case) = [(case, q)]) ∨
      ((∀ q, (case, q) ∉ co) ∧ co.filter (fun q => q.1 = case) = []) := by
  induction co with
  | nil => right; simp
  | cons a r ih =>
    rw [List.map_cons] at h
    obtain ⟨h1, h2⟩ := List.nodup_cons.1 h
    obtain ⟨k, q⟩ := a
    by_cases hk : k = case
    · subst hk
      left
      refine ⟨q, by simp, ?_⟩
      rcases ih h2 with ⟨q', h3, _⟩ | ⟨_, h4⟩
      · exact absurd (List.mem_map_of_mem (f := Prod.fst) h3) h1
      · rw [List.filter_cons_of_pos (by simp), h4]
    · rw [List.filter_cons_of_neg (by simpa using hk)]
      rcases ih h2 with ⟨q', h3, h4⟩ | ⟨h3, h4⟩
      · exact Or.inl ⟨q', List.mem_cons_of_mem _ h3, h4⟩
      · right
        refine ⟨fun q' hq => ?_, h4⟩
        rcases List.mem_cons.1 hq with e | hq
        · exact hk (Prod.mk.inj e).1.symm
        · exact h3 q' hq

theorem pa_joinRow (L : Learner V) {co : List (Int × Row V)} (h : (co.map Prod.fst).Nodup) (hco : L.co ≠ []) (e : Int × Row V) :
    ∃ y, joinRow L co e = [y] ∧ InputOf L co e.1 e.2 (fill y) := by
  rcases pa_filter h e.1 with ⟨q, h1, h2⟩ | ⟨h1, h2⟩
  · refine ⟨_, by unfold joinRow; rw [h2]; rfl, Or.inr ⟨hco, Or.inl ⟨q, h1, rfl⟩⟩⟩
  · refine ⟨_, by unfold joinRow; rw [h2]; rfl, Or.inr ⟨hco, Or.inr ⟨h1, ?_⟩⟩⟩
    simp [fill, inputs, Function.comp_def]

theorem pa_flatMap {α β : Type} (F : α → List β) (P : α → β → Prop) : ∀ (l : List α), (∀ a ∈ l, ∃ y, F a = [y] ∧ P a y) →
    (l.flatMap F).length = l.length ∧ ∀ (i : Nat) (a : α), l[i]? = some a → ∃ y, (l.flatMap F)[i]? = some y ∧ P a y
  | [], _ => ⟨rfl, fun i a h => by simp at h⟩
  | a :: r, h => by
    obtain ⟨y, h1, h2⟩ := h a List.mem_cons_self
    obtain ⟨h3, h4⟩ := pa_flatMap F P r (fun b hb => h b (List.mem_cons_of_mem _ hb))
    rw [List.flatMap_cons, h1]
    refine ⟨by simp [h3], fun i b hb => ?_⟩
    cases i with
    | zero =>
      simp only [List.getElem?_cons_zero, Option.some.injEq] at hb
      subst hb
      exact ⟨y, rfl, h2⟩
    | succ j => exact h4 j b (by simpa using hb)

/-- **C201, the new column.** If every case is at most once in the table of the cases and the two lists of columns have nothing in common, every row gets the
logarithm of the prediction for its inputs: those of the row, then those of its case (zeros if the case is not there); nothing else changes. -/
theorem C201_apply (L : Learner V) (ca co : List (Int × Row V)) (out : Option String) (h : (co.map Prod.fst).Nodup)
    (hd : ∀ c ∈ L.ca, c ∉ L.co) :
    ∃ t, apply L ca (some co) out = .ok t ∧ t.length = ca.length ∧
      ∀ (i : Nat) (case : Int) (r : Row V), ca[i]? = some (case, r) → ∃ x s, InputOf L co case r x ∧ t[i]? = some (case, s) ∧
        s (out.getD L.output) = L.score x ∧ ∀ c, c ≠ out.getD L.output → s c = r c := by
  have key : ∃ X, joinColumns L ca (some co) = .ok X ∧ X.length = ca.length ∧
      ∀ (i : Nat) (e : Int × Row V), ca[i]? = some e → ∃ x, X[i]? = some x ∧ InputOf L co e.1 e.2 x := by
    by_cases hco : L.co = []
    · refine ⟨ca.map (fun e => inputs L L.ca e.2), by unfold joinColumns; rw [hco]; rfl, by simp, fun i e he => ?_⟩
      exact ⟨_, by rw [List.getElem?_map, he]; rfl, Or.inl ⟨hco, rfl⟩⟩
    · obtain ⟨h1, h2⟩ := pa_flatMap (joinRow L co) (fun e y => InputOf L co e.1 e.2 (fill y)) ca (fun e _ => pa_joinRow L h hco e)
      refine ⟨(ca.flatMap (joinRow L co)).map fill, ?_, by rw [List.length_map, h1], fun i e he => ?_⟩
      · unfold joinColumns
        rw [if_neg (by simpa using hco)]
        exact if_neg (by simpa using hd)
      · obtain ⟨y, h3, h4⟩ := h2 i e he
        exact ⟨_, by rw [List.getElem?_map, h3]; rfl, h4⟩
  obtain ⟨X, h1, h2, h3⟩ := key
  refine ⟨_, by unfold apply; rw [h1]; exact if_pos h2, by rw [List.length_zipWith, h2]; simp, fun i case r hr => ?_⟩
  obtain ⟨x, h4, h5⟩ := h3 i (case, r) hr
  refine ⟨x, _, h5, by rw [List.getElem?_zipWith, hr, h4], ?_, fun c hc => ?_⟩
  · simp
  · simp [hc]

/-- A prelearner that adds its inputs, for numbers. -/
def paLearner : Learner Int :=
  ⟨["cost"], ["income"], fun c r => r c, fun l => (l.foldl (fun a b => a.bind (fun x => b.map (fun y => x + y))) (some 0)), "u"⟩

/-- Rows of two cases. -/
def paRows : List (Int × Row Int) := [(1, fun c => if c = "cost" then some 5 else none), (2, fun c => if c = "cost" then some 7 else none), (1, fun _ => none)]

/-- The first case. -/
def paCases : List (Int × Row Int) := [(1, fun c => if c = "income" then some 100 else none)]

example : (paCases.map Prod.fst).Nodup ∧ (∀ c ∈ paLearner.ca, c ∉ paLearner.co) ∧
    ((apply paLearner paRows (some paCases) none).toOption.map (fun t => t.map (fun e => (e.1, e.2 "u", e.2 "cost")))) =
      some [(1, some 105, some 5), (2, some 7, some 7), (1, some 100, none)] := by decide +kernel

/-- **C201, twice.** If the output is not among the inputs, applying the prelearner again changes nothing. -/
theorem C201_again (L : Learner V) (ca co : List (Int × Row V)) (out : Option String)
    (h : (co.map Prod.fst).Nodup) (hd : ∀ c ∈ L.ca, c ∉ L.co) (hi : ∀ c ∈ L.ca, ∀ (r : Row V) v, L.eval c (Function.update r (out.getD L.output) v) = L.eval c r)
    (t : List (Int × Row V)) (ht : apply L ca (some co) out = .ok t) : apply L t (some co) out = .ok t := by
  have uniq : ∀ (case : Int) (r : Row V) x y, InputOf L co case r x → InputOf L co case r y → x = y := by
    rintro case r x y (⟨a, rfl⟩ | ⟨a, ⟨q, hq, rfl⟩ | ⟨hq, rfl⟩⟩) (⟨b, rfl⟩ | ⟨b, ⟨p, hp, rfl⟩ | ⟨hp, rfl⟩⟩)
    · rfl
    · exact absurd a b
    · exact absurd a b
    · exact absurd b a
    · have : q = p := by
        rcases pa_filter h case with ⟨z, _, hz⟩ | ⟨hz, _⟩
        · have h1 : (case, q) ∈ co.filter (fun q => q.1 = case) := List.mem_filter.2 ⟨hq, by simp⟩
          have h2 : (case, p) ∈ co.filter (fun q => q.1 = case) := List.mem_filter.2 ⟨hp, by simp⟩
          rw [hz, List.mem_singleton, Prod.mk.injEq] at h1 h2
          rw [h1.2, h2.2]
        · exact absurd hq (hz q)
      rw [this]
    · exact absurd hq (hp q)
    · exact absurd b a
    · exact absurd hp (hq p)
    · rfl
  have same : ∀ (case : Int) (r : Row V) (v : Option V) x, InputOf L co case (Function.update r (out.getD L.output) v) x → InputOf L co case r x := by
    intro case r v x hx
    have e1 : L.ca.map (fun c => L.eval c (Function.update r (out.getD L.output) v)) = L.ca.map (fun c => L.eval c r) :=
      List.map_congr_left (fun c hc => hi c hc r v)
    have e2 : L.ca.map (fun c => some ((L.eval c (Function.update r (out.getD L.output) v)).getD 0)) = L.ca.map (fun c => some ((L.eval c r).getD 0)) :=
      List.map_congr_left (fun c hc => by rw [hi c hc r v])
    unfold InputOf at hx ⊢
    rw [e1, e2] at hx
    exact hx
  obtain ⟨t', h1, h2, h3⟩ := C201_apply L ca co out h hd
  obtain rfl : t' = t := Except.ok.inj (h1.symm.trans ht)
  obtain ⟨u, g1, g2, g3⟩ := C201_apply L t' co out h hd
  rw [g1]
  congr 1
  apply List.ext_getElem?
  intro i
  rcases Nat.lt_or_ge i ca.length with hl | hl
  · obtain ⟨⟨case, r⟩, hr⟩ : ∃ e, ca[i]? = some e := ⟨_, List.getElem?_eq_getElem hl⟩
    obtain ⟨x, s, a1, a2, a3, a4⟩ := h3 i case r hr
    obtain ⟨y, z, b1, b2, b3, b4⟩ := g3 i case s a2
    have hs : s = Function.update r (out.getD L.output) (L.score x) := by
      funext c
      by_cases hc : c = out.getD L.output
      · rw [hc, a3]; simp
      · rw [a4 c hc]; simp [hc]
    have hxy : x = y := uniq case r x y a1 (same case r _ y (by rw [← hs]; exact b1))
    have hz : z = s := by
      funext c
      by_cases hc : c = out.getD L.output
      · rw [hc, a3, b3, hxy]
      · rw [b4 c hc]
    rw [b2, a2, hz]
  · rw [List.getElem?_eq_none (by omega), List.getElem?_eq_none (by omega)]

example : ∀ c ∈ paLearner.ca, ∀ (r : Row Int) v, paLearner.eval c (Function.update r ((none : Option String).getD paLearner.output) v) = paLearner.eval c r := by
  intro c hc r v
  have : c = "cost" := by simpa [paLearner] using hc
  subst this
  rfl

/-- **C201, errors.** A prelearner with columns of the cases needs that table, and different columns in the two lists. -/
theorem C201_errors (L : Learner V) (ca co : List (Int × Row V)) (out : Option String) (hco : L.co ≠ []) :
    apply L ca none out = .error .noTable ∧ ((∃ c ∈ L.ca, c ∈ L.co) → apply L ca (some co) out = .error .overlap) := by
  have hb : L.co.isEmpty = false := by simpa using hco
  constructor
  · unfold apply joinColumns; rw [hb]; rfl
  · rintro ⟨c, h1, h2⟩
    have : L.ca.any (fun c => L.co.contains c) = true := List.any_eq_true.2 ⟨c, h1, by simpa using h2⟩
    unfold apply joinColumns; rw [hb, this]; rfl

example : paLearner.co ≠ [] := by simp [paLearner]

/-- **C201, what goes wrong.** What a missing value means depends on whether there are columns of the cases at all: it is zero if there are, and goes to
the classifier as missing if not. -/
theorem C201_fails_missing :
    (apply paLearner [(1, fun _ => none)] (some paCases) none).toOption.map (fun t => t.map (fun e => e.2 "u")) = some [some 100] ∧
      (apply { paLearner with co := [] } [(1, fun _ => none)] (some paCases) none).toOption.map (fun t => t.map (fun e => e.2 "u")) = some [none] := by
  decide +kernel

/-- **C201, what goes wrong.** A case that is not in the table of the cases is not noticed (its values are zeros), but one that is there
twice is an error. -/
theorem C201_fails_cases :
    (apply paLearner [(3, fun _ => some 5)] (some paCases) none).toOption.map (fun t => t.map (fun e => e.2 "u")) = some [some 5] ∧
      (apply paLearner [(1, fun _ => some 5)] (some (paCases ++ paCases)) none).toOption.isNone = true := by
  decide +kernel

end Larch.Props
