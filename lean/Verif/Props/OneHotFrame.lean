import Verif.Model.OneHotFrame
import Mathlib.Tactic.NormNum
import Mathlib.Data.Rat.Defs
import Mathlib.Algebra.Order.Field.Rat

/-!
# C187: one-hot columns of a frame
-/

set_option linter.unusedSectionVars false

namespace Larch.Props

open Larch.OneHotFrame

variable {V : Type} [LinearOrder V] [Zero V] [One V]

/-- The columns are the one-hot form of the values: names in the order of the distinct values, ones exactly where the value is. -/
structure OneHotOf (fmt : String → V → String) (name : String) (vals : List V) (out : Cols V) : Prop where
  sorted : ∃ codes : List V, codes.Pairwise (· < ·) ∧ (∀ c, c ∈ codes ↔ c ∈ vals) ∧ out.map Prod.fst = codes.map (fmt name)
  cells : ∀ col ∈ out, ∃ c ∈ vals, col.1 = fmt name c ∧ col.2.length = vals.length ∧
    ∀ (i : Nat) (v : V), vals[i]? = some v → col.2[i]? = some (if v = c then 1 else 0)

theorem oh_distinct (vals : List V) : (distinct vals).Pairwise (· < ·) ∧ ∀ c, c ∈ distinct vals ↔ c ∈ vals := by
  constructor
  · have h1 : (distinct vals).Pairwise (· ≤ ·) := List.pairwise_insertionSort (· ≤ ·) vals.dedup
    have h2 : (distinct vals).Nodup := (List.perm_insertionSort (· ≤ ·) vals.dedup).nodup_iff.2 (List.nodup_dedup vals)
    exact (h1.and h2).imp (fun h => lt_of_le_of_ne h.1 h.2)
  · intro c
    unfold distinct
    rw [(List.perm_insertionSort (· ≤ ·) vals.dedup).mem_iff, List.mem_dedup]

theorem oh_hot (fmt : String → V → String) (name : String) (vals : List V) (hne : vals ≠ []) : ∃ h, hotCols fmt name vals = .ok h ∧ OneHotOf fmt name vals h ∧
    h = (distinct vals).map (fun c => (fmt name c, vals.map (fun v => if v = c then 1 else 0))) := by
  refine ⟨_, if_neg hne, ⟨⟨distinct vals, (oh_distinct vals).1, (oh_distinct vals).2, ?_⟩, ?_⟩, rfl⟩
  · rw [List.map_map]; rfl
  · intro col hc
    obtain ⟨c, hm, rfl⟩ := List.mem_map.1 hc
    refine ⟨c, ((oh_distinct vals).2 c).1 hm, rfl, List.length_map _, ?_⟩
    intro i v hv
    show (vals.map (fun v => if v = c then (1 : V) else 0))[i]? = _
    rw [List.getElem?_map, hv]; rfl

theorem oh_mem_of_lookup {A : Type} [DecidableEq A] {B : Type} {l : List (A × B)} {k : A} {v : B} (h : l.lookup k = some v) : k ∈ l.map Prod.fst := by
  induction l with
  | nil => cases h
  | cons e l ih =>
    obtain ⟨a, b⟩ := e
    rw [List.lookup_cons] at h
    by_cases hk : k = a
    · subst hk; exact List.mem_cons_self
    · have : (k == a) = false := by simpa using hk
      rw [this] at h
      exact List.mem_cons_of_mem _ (ih h)

theorem oh_lookup_of_mem {A : Type} [DecidableEq A] {B : Type} {l : List (A × B)} {k : A} (h : k ∈ l.map Prod.fst) : ∃ v, l.lookup k = some v := by
  induction l with
  | nil => cases h
  | cons e l ih =>
    obtain ⟨a, b⟩ := e
    rw [List.lookup_cons]
    by_cases hk : k = a
    · subst hk; exact ⟨b, by simp⟩
    · have : (k == a) = false := by simpa using hk
      rw [this]
      rcases List.mem_cons.1 h with h | h
      · exact absurd h hk
      · exact ih h

theorem oh_lookup_map {A : Type} [DecidableEq A] {B : Type} (l : List (A × B)) (g : A × B → B) (k : A) :
    (l.map (fun c => (c.1, g c))).lookup k = (l.lookup k).map (fun v => g (k, v)) := by
  induction l with
  | nil => rfl
  | cons e l ih =>
    obtain ⟨a, b⟩ := e
    rw [List.map_cons, List.lookup_cons, List.lookup_cons]
    by_cases hk : k = a
    · subst hk; simp
    · have : (k == a) = false := by simpa using hk
      rw [this]; exact ih

theorem oh_lookup_append {A : Type} [DecidableEq A] {B : Type} (l m : List (A × B)) (k : A) : (l ++ m).lookup k = (l.lookup k).or (m.lookup k) := by
  induction l with
  | nil => rfl
  | cons e l ih =>
    obtain ⟨a, b⟩ := e
    rw [List.cons_append, List.lookup_cons, List.lookup_cons]
    by_cases hk : k = a
    · subst hk; simp
    · have : (k == a) = false := by simpa using hk
      rw [this]; exact ih

theorem oh_lookup_filter {A : Type} [DecidableEq A] {B : Type} (m : List (A × B)) (p : A → Bool) (k : A) (hp : p k = true) :
    (m.filter (fun c => p c.1)).lookup k = m.lookup k := by
  induction m with
  | nil => rfl
  | cons e m ih =>
    obtain ⟨a, b⟩ := e
    rw [List.lookup_cons]
    by_cases hk : k = a
    · subst hk
      rw [List.filter_cons_of_pos (p := fun c : A × B => p c.1) (show p (k, b).1 = true from hp), List.lookup_cons]; simp
    · have hka : (k == a) = false := by simpa using hk
      rw [hka]
      by_cases h : p a = true
      · rw [List.filter_cons_of_pos (p := fun c : A × B => p c.1) (show p (a, b).1 = true from h), List.lookup_cons, hka]; exact ih
      · rw [List.filter_cons_of_neg (p := fun c : A × B => p c.1) (show ¬ p (a, b).1 = true from h)]; exact ih

theorem oh_assign (cols new : Cols V) (k : String) : (assign cols new).lookup k = (new.lookup k).or (cols.lookup k) := by
  unfold assign
  rw [oh_lookup_append, oh_lookup_map (g := fun c => (new.lookup c.1).getD c.2)]
  by_cases hk : k ∈ cols.map Prod.fst
  · obtain ⟨v, hv⟩ := oh_lookup_of_mem hk
    rw [hv]
    cases h : new.lookup k <;> simp [h]
  · have hn : cols.lookup k = none := by
      cases h : cols.lookup k with
      | none => rfl
      | some v => exact absurd (oh_mem_of_lookup h) hk
    rw [hn, oh_lookup_filter new (fun s => decide (s ∉ cols.map Prod.fst)) k (by simpa using hk)]
    cases new.lookup k <;> rfl

/-- **C187 (expansion).** For a series, or a column of a frame with several columns, the result has a column for each distinct value, in order, with ones exactly in the
rows that have it; the frame is not changed. -/
theorem C187_expansion (fmt : String → V → String) (name : String) (vals : List V) (hne : vals ≠ []) (inplace drop : Bool) :
    (∀ column, ∃ out, expansion fmt (.series name vals) column inplace drop = .ok ⟨some out, none⟩ ∧ OneHotOf fmt name vals out) ∧
    ∀ cols : Cols V, cols.length ≠ 1 → cols.lookup name = some vals →
      ∃ out, expansion fmt (.frame cols) (some name) false drop = .ok ⟨some out, some cols⟩ ∧ OneHotOf fmt name vals out := by
  obtain ⟨h, e1, e2, _⟩ := oh_hot fmt name vals hne
  constructor
  · intro column
    refine ⟨h, ?_, e2⟩
    simp only [expansion, e1]; rfl
  · intro cols hl hv
    refine ⟨h, ?_, e2⟩
    have hm := oh_mem_of_lookup hv
    simp only [expansion, Option.any_some, hv, Option.getD_some, e1]
    rw [if_neg (by simpa using hm), if_neg hl]
    rfl

/-- **C187 (in place).** The frame gets these columns; a column of the same name is replaced, the others keep their values, also the one that is expanded
(if it is not named as one of the new ones). -/
theorem C187_inplace (fmt : String → V → String) (name : String) (vals : List V) (hne : vals ≠ []) (drop : Bool) (cols : Cols V) (hl : cols.length ≠ 1)
    (hv : cols.lookup name = some vals) : ∃ out after, expansion fmt (.frame cols) (some name) true drop = .ok ⟨none, some after⟩ ∧ OneHotOf fmt name vals out ∧
      (∀ k v, out.lookup k = some v → after.lookup k = some v) ∧ (∀ k, k ∉ out.map Prod.fst → after.lookup k = cols.lookup k) := by
  obtain ⟨h, e1, e2, _⟩ := oh_hot fmt name vals hne
  have hm := oh_mem_of_lookup hv
  refine ⟨h, assign cols h, ?_, e2, ?_, ?_⟩
  · simp only [expansion, Option.any_some, hv, Option.getD_some, e1]
    rw [if_neg (by simpa using hm), if_neg hl]
    cases drop <;> rfl
  · intro k v hk
    rw [oh_assign, hk]; rfl
  · intro k hk
    have hn : h.lookup k = none := by
      cases e : h.lookup k with
      | none => rfl
      | some v => exact absurd (oh_mem_of_lookup e) hk
    rw [oh_assign, hn]; rfl

theorem oh_lookup_hot (fmt : String → V → String) (name : String) (inj : Function.Injective (fmt name)) (g : V → List V) (codes : List V) (c : V) (hc : c ∈ codes) :
    (codes.map (fun c => (fmt name c, g c))).lookup (fmt name c) = some (g c) := by
  induction codes with
  | nil => cases hc
  | cons d codes ih =>
    rw [List.map_cons, List.lookup_cons]
    by_cases h : c = d
    · subst h; simp
    · have : (fmt name c == fmt name d) = false := by simpa using fun e => h (inj e)
      rw [this]
      rcases List.mem_cons.1 hc with hc | hc
      · exact absurd hc h
      · exact ih hc

theorem oh_pick (codes : List V) (f : V → String) (v : V) (acc : Option String) (P : String → Prop) [DecidablePred P]
    (hP : ∀ c ∈ codes, P (f c) ↔ c = v) : (codes.map f).foldl (fun r c => if P c then some c else r) acc = if v ∈ codes then some (f v) else acc := by
  induction codes generalizing acc with
  | nil => simp
  | cons d codes ih =>
    rw [List.map_cons, List.foldl_cons, ih _ (fun c hc => hP c (List.mem_cons_of_mem _ hc))]
    have hd := hP d List.mem_cons_self
    by_cases h : d = v
    · subst h
      rw [if_pos (hd.2 rfl), if_pos List.mem_cons_self]
      split <;> rfl
    · rw [if_neg (fun e => h (hd.1 e))]
      by_cases hm : v ∈ codes
      · rw [if_pos hm, if_pos (List.mem_cons_of_mem _ hm)]
      · rw [if_neg hm, if_neg]
        intro e
        rcases List.mem_cons.1 e with e | e
        · exact h e.symm
        · exact hm e

/-- **C187 (round trip).** Compressing the one-hot columns gives each row the name of the column of its value. -/
theorem C187_round_trip (h01 : (0 : V) ≠ 1) (fmt : String → V → String) (name : String) (inj : Function.Injective (fmt name)) (vals : List V) (hne : vals ≠ []) (out : Cols V)
    (h : hotCols fmt name vals = .ok out) : compression out vals.length none = .ok (vals.map (fun v => some (fmt name v))) := by
  obtain ⟨h', e1, _, e3⟩ := oh_hot fmt name vals hne
  rw [e1] at h
  cases h
  subst e3
  have hn : (((distinct vals).map (fun c => (fmt name c, vals.map (fun v => if v = c then (1 : V) else 0)))).map Prod.fst) = (distinct vals).map (fmt name) := by
    rw [List.map_map]; rfl
  unfold compression
  simp only [Option.getD_none, hn]
  rw [if_neg (by simp; exact fun x hx => ⟨x, hx, rfl⟩), if_neg (by
    rw [not_not]
    exact List.Nodup.map inj ((oh_distinct vals).1.imp (fun h => ne_of_lt h)))]
  congr 1
  apply List.ext_getElem?
  intro i
  rw [List.getElem?_map, List.getElem?_map]
  rcases Nat.lt_or_ge i vals.length with hi | hi
  · rw [List.getElem?_range hi, List.getElem?_eq_getElem hi, Option.map_some, Option.map_some]
    congr 1
    rw [oh_pick (distinct vals) (fmt name) vals[i] none (fun c => ((((distinct vals).map (fun c => (fmt name c, vals.map (fun v => if v = c then (1 : V) else 0)))).lookup c).getD [])[i]? = some 1)]
    · rw [if_pos (((oh_distinct vals).2 _).2 (List.getElem_mem hi))]
    · intro c hc
      rw [oh_lookup_hot fmt name inj (fun c => vals.map (fun v => if v = c then (1 : V) else 0)) _ c hc, Option.getD_some, List.getElem?_map, List.getElem?_eq_getElem hi,
        Option.map_some, Option.some.injEq]
      by_cases hv : vals[i] = c
      · rw [if_pos hv]; exact ⟨fun _ => hv.symm, fun _ => rfl⟩
      · rw [if_neg hv]; exact ⟨fun e => absurd e h01, fun e => absurd e.symm hv⟩
  · rw [List.getElem?_eq_none (by simpa using hi), List.getElem?_eq_none hi]; rfl

/-- A name for the tests: of `mode` and a number. -/
def hotName (s : String) (v : ℚ) : String := s ++ "==" ++ toString v.num

example : expansion hotName (.frame [("id", [7, 8, 9]), ("mode", [2, 1, 2])]) (some "mode") true false =
    .ok ⟨none, some [("id", [7, 8, 9]), ("mode", [2, 1, 2]), ("mode==1", [0, 1, 0]), ("mode==2", [1, 0, 1])]⟩ := by decide +kernel

example : compression ([("a", [1, 0, 0]), ("b", [1, 1, 0])] : Cols ℚ) 3 none = .ok [some "b", some "b", none] := by decide +kernel

/-- **C187 fails for frames with one column**: `AttributeError`, whatever is asked for. -/
theorem C187_fails_single (fmt : String → V → String) (name : String) (vals : List V) (column : Option String) (hc : ∀ c, column = some c → c = name) (inplace drop : Bool) :
    expansion fmt (.frame [(name, vals)]) column inplace drop = .error .attribute := by
  have h : ¬ (column.any (fun c => decide (c ∉ [(name, vals)].map Prod.fst))) = true := by
    cases column with
    | none => simp
    | some c => simp [hc c rfl]
  unfold expansion
  simp only
  rw [if_neg h, if_pos (by rfl)]

/-- **C187 fails for `drop`**: it has no effect. -/
theorem C187_fails_drop (fmt : String → V → String) (s : Given V) (column : Option String) (inplace : Bool) :
    expansion fmt s column inplace true = expansion fmt s column inplace false := by
  cases s with
  | series name vals => rfl
  | frame cols => unfold expansion; cases column <;> simp

/-- **C187 fails without data, and without a column name**: `ValueError`. -/
theorem C187_fails_empty (fmt : String → V → String) (name : String) (cols : Cols V) (hl : cols.length ≠ 1) (column : Option String) (inplace drop : Bool) :
    expansion fmt (.series name []) column inplace drop = .error .value ∧ expansion fmt (.frame cols) none inplace drop = .error .value := by
  refine ⟨rfl, ?_⟩
  unfold expansion
  simp only [Option.any_none]
  rw [if_neg (by simp), if_neg hl]

end Larch.Props
