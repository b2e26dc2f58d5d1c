import Verif.Model.Prelearn
import Mathlib.Data.List.Basic
import Mathlib.Data.List.Nodup
/-!
# C155: prelearners

A prelearner is fitted to the data meant for training, and its progress is reported under the
right labels; the cache file keeps the classifier.
-/

set_option linter.unusedSimpArgs false

namespace Larch.Props

open Larch.Prelearn

variable {D W : Type}

/-! ## Specification -/

/-- The arguments a user gives who names no evaluation sets: maybe a share of the data for
validation, maybe evaluation on the training data. -/
def PlainFit (percent : Option Nat) (onTraining : Bool) : FitArg D W :=
  .dict ⟨none, percent, onTraining, none, none⟩

/-- The evaluation sets with their labels as they should be: the training data if asked for, then
the validation data if there are any. -/
def DueLabels (onTraining : Bool) (training : D) (valid : Option (String × D)) : List (String × D) :=
  (if onTraining then [("training", training)] else []) ++ valid.toList

/-! ## Lemmas -/

theorem pl_labels (names : List String) (n : Nat) (h : names.length = n) : resultLabels names n = names := by
  apply List.ext_getElem?
  intro i
  unfold resultLabels
  rw [List.getElem?_map]
  by_cases hi : i < n
  · rw [List.getElem?_range hi]
    have : i < names.length := by omega
    simp [List.getElem?_eq_getElem this]
  · rw [List.getElem?_eq_none (by simp; omega), List.getElem?_eq_none (by omega)]
    rfl

/-- C155: a share of the data set aside for validation is not trained on; the progress is reported,
set by set, under the labels due; and if the training set is weighted its weights are used. -/
theorem C155_validation_share (weightOf : D → Option W) (split : D → Nat → D × D) (data : D) (p : Nat) (onTraining : Bool)
    (cache : Option (Option (Clf D W))) (hcache : ∀ c, cache ≠ some (some c)) :
    ∃ m, make weightOf split data none (PlainFit (some p) onTraining) cache = .ok m ∧
      m.clf.fittedTo = some (split data p).1 ∧ m.clf.weights = weightOf (split data p).1 ∧
      (resultLabels m.names m.clf.evalSet.length).zip m.clf.evalSet =
        DueLabels onTraining (split data p).1 (some ("validation_" ++ toString p, (split data p).2)) := by
  have hmk : ∀ clf : Clf D W, cache = some (some clf) → False := fun c h => hcache c h
  cases onTraining with
  | false =>
    refine ⟨⟨⟨some (split data p).1, weightOf (split data p).1, [(split data p).2], ((weightOf (split data p).2).map fun w => [w]).getD []⟩,
      ["validation_" ++ toString p], ⟨none, none, false, some [(split data p).2], (weightOf (split data p).2).map fun w => [w]⟩,
      cache.map fun _ => ⟨some (split data p).1, weightOf (split data p).1, [(split data p).2], ((weightOf (split data p).2).map fun w => [w]).getD []⟩⟩, ?_, rfl, rfl, ?_⟩
    · cases cache with
      | none => cases hw : weightOf (split data p).2 <;> simp [make, start, PlainFit, divide, addValidation, addTraining, train, hw]
      | some c => cases c with
        | some c => exact absurd rfl (hcache c)
        | none => cases hw : weightOf (split data p).2 <;> simp [make, start, PlainFit, divide, addValidation, addTraining, train, hw]
    · simp only
      simp [resultLabels, train, addTraining, addValidation, divide, PlainFit, List.range_succ, DueLabels]
  | true =>
    refine ⟨⟨⟨some (split data p).1, weightOf (split data p).1, [(split data p).1, (split data p).2], (weightOf (split data p).1).toList ++ (weightOf (split data p).2).toList⟩,
      ["training", "validation_" ++ toString p], ⟨none, none, false, some [(split data p).1, (split data p).2],
        match weightOf (split data p).1, weightOf (split data p).2 with
        | none, none => none
        | some w, none => some [w]
        | none, some v => some [v]
        | some w, some v => some [w, v]⟩,
      cache.map fun _ => ⟨some (split data p).1, weightOf (split data p).1, [(split data p).1, (split data p).2], (weightOf (split data p).1).toList ++ (weightOf (split data p).2).toList⟩⟩, ?_, rfl, rfl, ?_⟩
    · cases cache with
      | none => cases hw : weightOf (split data p).2 <;> cases hw1 : weightOf (split data p).1 <;> simp [make, start, PlainFit, divide, addValidation, addTraining, train, hw, hw1]
      | some c => cases c with
        | some c => exact absurd rfl (hcache c)
        | none => cases hw : weightOf (split data p).2 <;> cases hw1 : weightOf (split data p).1 <;> simp [make, start, PlainFit, divide, addValidation, addTraining, train, hw, hw1]
    · simp only
      simp [resultLabels, train, addTraining, addValidation, divide, PlainFit, List.range_succ, DueLabels]

/-- C155: without a share for validation all the data are trained on, and given validation data are
evaluated under their label. -/
theorem C155_validation_given (weightOf : D → Option W) (split : D → Nat → D × D) (data : D) (valid : Option D) (onTraining : Bool)
    (cache : Option (Option (Clf D W))) (hcache : ∀ c, cache ≠ some (some c)) :
    ∃ m, make weightOf split data valid (PlainFit none onTraining) cache = .ok m ∧
      m.clf.fittedTo = some data ∧ m.clf.weights = weightOf data ∧
      (resultLabels m.names m.clf.evalSet.length).zip m.clf.evalSet =
        DueLabels onTraining data (valid.map fun v => ("validation_preset", v)) := by
  cases cache with
  | none =>
    cases valid with
    | none =>
      cases onTraining
      · exact ⟨_, rfl, rfl, rfl, rfl⟩
      · exact ⟨_, rfl, rfl, rfl, by simp only [make, start, PlainFit, divide, addValidation, addTraining, train]; rfl⟩
    | some v =>
      cases onTraining
      · refine ⟨_, rfl, rfl, rfl, ?_⟩
        simp [resultLabels, train, addTraining, addValidation, divide, PlainFit, List.range_succ, DueLabels]
      · refine ⟨_, rfl, rfl, rfl, ?_⟩
        simp [resultLabels, train, addTraining, addValidation, divide, PlainFit, List.range_succ, DueLabels]
  | some c =>
    cases c with
    | some c => exact absurd rfl (hcache c)
    | none =>
      cases valid with
      | none =>
        cases onTraining
        · exact ⟨_, rfl, rfl, rfl, rfl⟩
        · refine ⟨_, rfl, rfl, rfl, ?_⟩
          simp [resultLabels, train, addTraining, addValidation, divide, PlainFit, List.range_succ, DueLabels]
      | some v =>
        cases onTraining
        · refine ⟨_, rfl, rfl, rfl, ?_⟩
          simp [resultLabels, train, addTraining, addValidation, divide, PlainFit, List.range_succ, DueLabels]
        · refine ⟨_, rfl, rfl, rfl, ?_⟩
          simp [resultLabels, train, addTraining, addValidation, divide, PlainFit, List.range_succ, DueLabels]

/-- C155: the classifier fitted first is what every later prelearner with the same cache file
uses, whatever its data and arguments (as long as they are a dictionary or `True`). -/
theorem C155_cache_kept (weightOf : D → Option W) (split : D → Nat → D × D) (data data' : D) (valid valid' : Option D)
    (fit fit' : FitArg D W) (hfit' : fit' ≠ .no) (m : Made D W)
    (h : make weightOf split data valid fit (some none) = .ok m) :
    m.saved = some m.clf ∧
      ∃ m', make weightOf split data' valid' fit' (some m.saved) = .ok m' ∧ m'.clf = m.clf ∧ m'.saved = none := by
  have hs : m.saved = some m.clf := by
    unfold make at h
    cases hst : start fit with
    | error e => rw [hst] at h; cases h
    | ok r =>
      obtain ⟨n0, f0⟩ := r
      rw [hst] at h
      simp only at h
      split at h
      · cases h
      · cases h; rfl
  refine ⟨hs, ?_⟩
  rw [hs]
  cases fit' with
  | no => exact absurd rfl hfit'
  | yes => exact ⟨_, rfl, rfl, rfl⟩
  | dict f => exact ⟨_, rfl, rfl, rfl⟩

/-- C155 fails: `fit=False`, which is documented to leave the classifier unfitted, raises. -/
theorem C155_fails_no_fit (weightOf : D → Option W) (split : D → Nat → D × D) (data : D) (valid : Option D)
    (cache : Option (Option (Clf D W))) : make weightOf split data valid .no cache = .error .attribute := rfl

/-- C155 fails: a prelearner which finds its classifier in the cache reports the results on the
training data under the label of the validation data, and those on the validation data under
another one. -/
theorem C155_fails_labels_from_cache (weightOf : D → Option W) (split : D → Nat → D × D) (data v : D) :
    ∃ m m', make weightOf split data (some v) (PlainFit none true) (some none) = .ok m ∧
      make weightOf split data (some v) (PlainFit none true) (some m.saved) = .ok m' ∧
      (resultLabels m.names m.clf.evalSet.length).zip m.clf.evalSet = [("training", data), ("validation_preset", v)] ∧
      (resultLabels m'.names m'.clf.evalSet.length).zip m'.clf.evalSet = [("validation_preset", data), ("validation_1", v)] := by
  refine ⟨_, _, rfl, rfl, ?_, ?_⟩
  · simp [resultLabels, train, addTraining, addValidation, divide, PlainFit, List.range_succ, DueLabels]
  · simp [resultLabels, train, addTraining, addValidation, divide, PlainFit, List.range_succ]
    decide

/-- C155 fails: the dictionary is changed.  Used for a second prelearner on other data, it no longer
asks for a share for validation: all the data are trained on, and the progress is that on the
validation data of the first. -/
theorem C155_fails_dict_used_again (weightOf : D → Option W) (split : D → Nat → D × D) (data data' : D) (p : Nat) :
    ∃ m m', make weightOf split data none (PlainFit (some p) false) none = .ok m ∧
      make weightOf split data' none (.dict m.dict) none = .ok m' ∧
      m'.clf.fittedTo = some data' ∧ m'.clf.evalSet = [(split data p).2] := by
  cases hw : weightOf (split data p).2
  · refine ⟨_, _, by simp [make, start, PlainFit, divide, addValidation, addTraining, train, hw]; rfl, rfl, ?_, ?_⟩ <;> rfl
  · refine ⟨_, _, by simp [make, start, PlainFit, divide, addValidation, addTraining, train, hw]; rfl, rfl, ?_, ?_⟩ <;> rfl

/-- C155 fails: evaluation sets of the user without names take the labels due to the others. -/
theorem C155_fails_own_sets (weightOf : D → Option W) (split : D → Nat → D × D) (data v own : D) :
    ∃ m, make weightOf split data (some v) (.dict ⟨none, none, false, some [own], none⟩) none = .ok m ∧
      (resultLabels m.names m.clf.evalSet.length).zip m.clf.evalSet = [("validation_preset", own), ("validation_1", v)] := by
  refine ⟨_, rfl, ?_⟩
  simp [resultLabels, addTraining, addValidation, divide, List.range_succ]
  decide

/-- C155 fails: a share for validation together with validation data is passed on to the
classifier, which does not know it. -/
theorem C155_fails_share_and_data (weightOf : D → Option W) (split : D → Nat → D × D) (data v : D) (p : Nat) (onTraining : Bool) :
    make weightOf split data (some v) (PlainFit (some p) onTraining) none = .error .unexpectedKeyword := by
  cases onTraining <;> rfl

/-! ## The joined columns -/

section Join

variable {K : Type} [Zero K]

/-- C155: with columns on cases, and each case there once, the joined data have the rows of the data
on alternatives in their order; each has its own values followed by those of its case, with
zeros for what is missing. -/
theorem C155_joined_rows (nCo : Nat) (hn : nCo ≠ 0) (ca : List (CaRow K)) (co : List (Int × List (Option K)))
    (hu : (co.map Prod.fst).Nodup) :
    ∃ f : CaRow K → List (Option K), joinColumns nCo ca co = ca.map (fun r => ⟨r.case, r.alt, f r⟩) ∧
      (∀ r ∈ ca, ∀ v, (r.case, v) ∈ co → f r = (r.vals ++ v).map fun (o : Option K) => some (o.getD 0)) ∧
      (∀ r ∈ ca, r.case ∉ co.map Prod.fst → f r = (r.vals ++ List.replicate nCo none).map fun (o : Option K) => some (o.getD 0)) := by
  have hfind : ∀ c v, (c, v) ∈ co → co.filter (fun q => q.1 = c) = [(c, v)] := by
    intro c v hv
    clear hn
    induction co with
    | nil => cases hv
    | cons q rest ih =>
      simp only [List.map_cons, List.nodup_cons] at hu
      rcases List.mem_cons.1 hv with h | h
      · subst h
        rw [List.filter_cons_of_pos (by simp)]
        congr 1
        rw [List.filter_eq_nil_iff]
        intro x hx hc
        simp only [decide_eq_true_eq] at hc
        exact hu.1 (List.mem_map.2 ⟨x, hx, hc⟩)
      · rw [List.filter_cons_of_neg]
        · exact ih hu.2 h
        · simp only [decide_eq_true_eq]
          rintro rfl
          exact hu.1 (List.mem_map.2 ⟨_, h, rfl⟩)
  have hnone : ∀ c, c ∉ co.map Prod.fst → co.filter (fun q => q.1 = c) = [] := by
    intro c hc
    rw [List.filter_eq_nil_iff]
    intro x hx hh
    simp only [decide_eq_true_eq] at hh
    exact hc (List.mem_map.2 ⟨x, hx, hh⟩)
  refine ⟨fun r => (r.vals ++ ((co.filter fun q => q.1 = r.case).map Prod.snd).headD (List.replicate nCo none)).map fun (o : Option K) => some (o.getD 0), ?_, ?_, ?_⟩
  · unfold joinColumns
    rw [if_neg hn]
    induction ca with
    | nil => rfl
    | cons r rest ih =>
      rw [List.flatMap_cons, List.map_cons, ih]
      by_cases hc : r.case ∈ co.map Prod.fst
      · obtain ⟨q, hq, hqc⟩ := List.mem_map.1 hc
        have := hfind r.case q.2 (by rw [← hqc]; exact hq)
        simp only [this]
        rfl
      · simp only [hnone r.case hc]
        rfl
  · intro r _ v hv
    simp only [hfind r.case v hv]
    rfl
  · intro r _ hc
    simp only [hnone r.case hc]
    rfl

/-- C155 fails: a case which has several rows of data multiplies the rows on its alternatives, so
that they no longer match the choices. -/
theorem C155_fails_repeated_case (r : CaRow K) (v w : List (Option K)) (n : Nat) (hn : n ≠ 0) :
    (joinColumns n [r] [(r.case, v), (r.case, w)]).length = 2 := by
  simp [joinColumns, hn]

/-- C155 fails: missing values stay missing without columns on cases and become zeros with them. -/
theorem C155_fails_missing_values (c a : Int) (v : K) :
    joinColumns 0 [⟨c, a, [none]⟩] [(c, [some v])] = [⟨c, a, [none]⟩] ∧
      joinColumns 1 [⟨c, a, [none]⟩] [(c, [some v])] = [⟨c, a, [some 0, some v]⟩] := by
  constructor
  · rfl
  · simp [joinColumns]

end Join

/-! ## Non-vacuity -/

example : ∀ c : Clf Nat Nat, (some none : Option (Option (Clf Nat Nat))) ≠ some (some c) := by
  intro c h; cases h

example : ∃ m, make (D := Nat) (W := Nat) (fun d => if d = 3 then some 5 else none) (fun d p => (d, d + p)) 3 none (PlainFit (some 20) true) none = .ok m ∧
    m.clf.evalSet = [3, 23] ∧ m.clf.evalWeights = [5] ∧ m.names = ["training", "validation_20"] :=
  ⟨_, rfl, rfl, rfl, by decide⟩

example : ([((7 : Int), [some (1 : Int)]), (8, [some 2])].map Prod.fst).Nodup := by decide

end Larch.Props
