import Verif.Model.LogSetup
import Mathlib.Data.List.Induction
import Mathlib.Data.List.Nodup
import Mathlib.Data.List.Basic

/-! # C205: where the log goes -/

namespace Larch.Props

open Larch.LogSetup

variable {F : Type} [DecidableEq F] (abs : F → F) (root dflt : Nat)

theorem ls_snoc (cs : List (Call F)) (c : Call F) : setup abs root dflt (cs ++ [c]) = call abs root dflt (setup abs root dflt cs) c := by
  unfold setup
  rw [List.foldl_append]
  rfl

theorem ls_places_console (l : Logger F) (v : Option Nat) :
    ((toConsole root dflt l v).handlers.map (·.file)) =
      if none ∈ l.handlers.map (·.file) then l.handlers.map (·.file) else l.handlers.map (·.file) ++ [none] := by
  unfold toConsole
  by_cases h : none ∈ l.handlers.map (·.file)
  · rw [if_pos, if_pos h]
    obtain ⟨a, ha, e⟩ := List.mem_map.1 h
    exact List.any_eq_true.2 ⟨a, ha, by rw [e]; rfl⟩
  · rw [if_neg, if_neg h, List.map_append]
    · rfl
    · intro hc
      obtain ⟨a, ha, e⟩ := List.any_eq_true.1 hc
      exact h (List.mem_map.2 ⟨a, ha, by cases hf : a.file <;> simp_all⟩)

theorem ls_places_file (l : Logger F) (f : F) (v : Option Nat) :
    ((toFile abs dflt l f v).handlers.map (·.file)) =
      if some f ∈ l.handlers.map (·.file) then l.handlers.map (·.file) else l.handlers.map (·.file) ++ [some (abs f)] := by
  unfold toFile
  by_cases h : some f ∈ l.handlers.map (·.file)
  · rw [if_pos, if_pos h]
    obtain ⟨a, ha, e⟩ := List.mem_map.1 h
    exact List.any_eq_true.2 ⟨a, ha, by simpa using e⟩
  · rw [if_neg, if_neg h, List.map_append]
    · rfl
    · intro hc
      obtain ⟨a, ha, e⟩ := List.any_eq_true.1 hc
      exact h (List.mem_map.2 ⟨a, ha, by simpa using e⟩)

theorem ls_count_snoc (p : List (Option F)) (a b : Option F) : (p ++ [a]).count b = p.count b + if a = b then 1 else 0 := by
  rw [List.count_append, List.count_singleton]
  by_cases h : a = b <;> simp [h]

/-- **C205, one console.** After any calls there is one handler for the console if one was asked for, and none otherwise; if all names of files are
absolute there is one for each file asked for, and none for another. -/
theorem C205_once (cs : List (Call F)) :
    (((setup abs root dflt cs).handlers.map (·.file)).count none ≤ 1 ∧
        (none ∈ (setup abs root dflt cs).handlers.map (·.file) ↔ ∃ v, Call.console v ∈ cs)) ∧
      ((∀ f v, Call.file f v ∈ cs → abs f = f) → ∀ f, ((setup abs root dflt cs).handlers.map (·.file)).count (some f) ≤ 1 ∧
        (some f ∈ (setup abs root dflt cs).handlers.map (·.file) ↔ ∃ v, Call.file f v ∈ cs)) := by
  induction cs using List.reverseRecOn with
  | nil => simp [setup]
  | append_singleton cs c ih =>
    obtain ⟨⟨ih1, ih2⟩, ih3⟩ := ih
    rw [ls_snoc]
    cases c with
    | console w =>
      have hall : ∃ v, Call.console v ∈ cs ++ [Call.console w] := ⟨w, by simp⟩
      have hP : ((call abs root dflt (setup abs root dflt cs) (.console w)).handlers.map (·.file)) = _ := ls_places_console root dflt (setup abs root dflt cs) w
      rw [hP]
      refine ⟨?_, fun ha f => ?_⟩
      · split
        · rename_i hm
          exact ⟨ih1, fun _ => hall, fun _ => hm⟩
        · rename_i hm
          refine ⟨?_, fun _ => hall, fun _ => by simp⟩
          rw [ls_count_snoc, List.count_eq_zero.2 hm]
          simp
      · obtain ⟨h1, h3⟩ := ih3 (fun f v hf => ha f v (List.mem_append_left _ hf)) f
        have h2 : (∃ v, Call.file f v ∈ cs ++ [Call.console w]) ↔ ∃ v, Call.file f v ∈ cs := by simp
        rw [h2, ← h3]
        split
        · exact ⟨h1, Iff.rfl⟩
        · rw [ls_count_snoc]
          exact ⟨by simpa using h1, by simp⟩
    | file g w =>
      have hP : ((call abs root dflt (setup abs root dflt cs) (.file g w)).handlers.map (·.file)) = _ := ls_places_file abs dflt (setup abs root dflt cs) g w
      rw [hP]
      refine ⟨?_, fun ha f => ?_⟩
      · have h2 : (∃ v, Call.console v ∈ cs ++ [Call.file g w]) ↔ ∃ v, Call.console v ∈ cs := by simp
        rw [h2, ← ih2]
        split
        · exact ⟨ih1, Iff.rfl⟩
        · rw [ls_count_snoc]
          exact ⟨by simpa using ih1, by simp⟩
      · obtain ⟨h1, h3⟩ := ih3 (fun f v hf => ha f v (List.mem_append_left _ hf)) f
        have hg : abs g = g := ha g w (by simp)
        rw [hg]
        by_cases hfg : f = g
        · subst hfg
          have hall : ∃ v, Call.file f v ∈ cs ++ [Call.file f w] := ⟨w, by simp⟩
          split
          · rename_i hm
            exact ⟨h1, fun _ => hall, fun _ => hm⟩
          · rename_i hm
            refine ⟨?_, fun _ => hall, fun _ => by simp⟩
            rw [ls_count_snoc, List.count_eq_zero.2 hm]
            simp
        · have h2 : (∃ v, Call.file f v ∈ cs ++ [Call.file g w]) ↔ ∃ v, Call.file f v ∈ cs := by simp [hfg]
          have hgf : ¬ g = f := fun e => hfg e.symm
          rw [h2, ← h3]
          split
          · exact ⟨h1, Iff.rfl⟩
          · rw [ls_count_snoc]
            exact ⟨by simpa [hgf] using h1, by simp [hfg]⟩

/-- **C205, console.** The first call for the console makes messages of its level and above go there, once each, and none below; the second is without
effect. -/
theorem C205_console (l : Logger F) (hl : ∀ h ∈ l.handlers, h.file ≠ none) (v : Option Nat) (hv : 0 < v.getD dflt) (level : Nat) :
    (written root (toConsole root dflt l v) level).count none = (if v.getD dflt ≤ level then 1 else 0) ∧
      ∀ w, toConsole root dflt (toConsole root dflt l v) w = toConsole root dflt l v := by
  have hn : l.handlers.any (fun h => h.file.isNone) = false := by
    rw [Bool.eq_false_iff]
    intro hc
    obtain ⟨a, ha, e⟩ := List.any_eq_true.1 hc
    exact hl a ha (by cases hf : a.file <;> simp_all)
  have he : toConsole root dflt l v = ⟨if v.getD dflt < effective root l then v.getD dflt else l.level, l.handlers ++ [⟨none, v.getD dflt⟩]⟩ := by
    unfold toConsole
    rw [if_neg (by rw [hn]; decide)]
  refine ⟨?_, fun w => ?_⟩
  · rw [he]
    have heff : effective root (⟨if v.getD dflt < effective root l then v.getD dflt else l.level, l.handlers ++ [⟨none, v.getD dflt⟩]⟩ : Logger F) ≤ v.getD dflt := by
      by_cases hlt : v.getD dflt < effective root l
      · rw [if_pos hlt]
        show (if v.getD dflt = 0 then root else v.getD dflt) ≤ _
        rw [if_neg (by omega)]
        exact Nat.le_refl _
      · rw [if_neg hlt]
        show effective root l ≤ _
        omega
    generalize (if v.getD dflt < effective root l then v.getD dflt else l.level) = lev at heff ⊢
    unfold written
    have hz : ((l.handlers.filter (fun h => decide (h.level ≤ level))).map (·.file)).count none = 0 := by
      rw [List.count_eq_zero]
      intro hc
      obtain ⟨a, ha, e⟩ := List.mem_map.1 hc
      exact hl a ((List.mem_filter.1 ha).1) e
    by_cases hle : v.getD dflt ≤ level
    · rw [if_pos (Nat.le_trans heff hle), if_pos hle, List.filter_append, List.map_append, List.count_append, hz]
      simp [hle]
    · rw [if_neg hle]
      split
      · rw [List.filter_append, List.map_append, List.count_append, hz]
        simp [hle]
      · rfl
  · have hany : (toConsole root dflt l v).handlers.any (fun h => h.file.isNone) = true := by
      rw [he]
      simp
    show (if (toConsole root dflt l v).handlers.any (fun h => h.file.isNone) then toConsole root dflt l v else _) = _
    rw [if_pos hany]

/-- **C205, nothing is lost.** A call keeps the handlers there are, in their order and with their levels, and adds one at most. -/
theorem C205_keeps (l : Logger F) (c : Call F) : ∃ r, (call abs root dflt l c).handlers = l.handlers ++ r ∧ r.length ≤ 1 := by
  cases c with
  | console v =>
    show ∃ r, (toConsole root dflt l v).handlers = _ ∧ _
    unfold toConsole
    split
    · exact ⟨[], (List.append_nil _).symm, by simp⟩
    · exact ⟨[⟨none, v.getD dflt⟩], rfl, by simp⟩
  | file f v =>
    show ∃ r, (toFile abs dflt l f v).handlers = _ ∧ _
    unfold toFile
    split
    · exact ⟨[], (List.append_nil _).symm, by simp⟩
    · exact ⟨[⟨some (abs f), v.getD dflt⟩], rfl, by simp⟩

/-- **C205, no message is lost.** What was written before is written after any call as well, to the same places (if the level for the console is not 0,
which gives the choice to the root logger). -/
theorem C205_more (l : Logger F) (c : Call F) (hc : ∀ v, c = .console v → 0 < v.getD dflt) (level : Nat) :
    (written root l level).Sublist (written root (call abs root dflt l c) level) := by
  obtain ⟨r, hr, _⟩ := C205_keeps abs root dflt l c
  have he : effective root (call abs root dflt l c) ≤ effective root l := by
    cases c with
    | console v =>
      have hv := hc v rfl
      show effective root (toConsole root dflt l v) ≤ _
      unfold toConsole
      split
      · exact Nat.le_refl _
      · by_cases hlt : v.getD dflt < effective root l
        · rw [if_pos hlt]
          show (if v.getD dflt = 0 then root else v.getD dflt) ≤ _
          rw [if_neg (by omega)]
          omega
        · rw [if_neg hlt]
          exact Nat.le_refl _
    | file f v =>
      show effective root (toFile abs dflt l f v) ≤ _
      unfold toFile
      split <;> exact Nat.le_refl _
  unfold written
  by_cases h : effective root l ≤ level
  · rw [if_pos h, if_pos (Nat.le_trans he h), hr, List.filter_append, List.map_append]
    exact List.sublist_append_left _ _
  · rw [if_neg h]
    exact List.nil_sublist _

example : (written 30 (⟨10, [⟨some 7, 20⟩]⟩ : Logger Nat) 25).Sublist (written 30 (call (fun n => n) 30 30 ⟨10, [⟨some 7, 20⟩]⟩ (.console (some 5))) 25) :=
  C205_more _ 30 30 _ _ (fun v h => by cases h; decide) 25

example : ((setup (F := Nat) (fun n => n) 30 30 [.console (some 10), .file 7 none, .console none, .file 7 (some 10), .file 8 none]).handlers.map (·.file)).count (some 7) ≤ 1 ∧
    some 7 ∈ (setup (F := Nat) (fun n => n) 30 30 [.console (some 10), .file 7 none, .console none, .file 7 (some 10), .file 8 none]).handlers.map (·.file) := by
  have := (C205_once (F := Nat) (fun n => n) 30 30 [.console (some 10), .file 7 none, .console none, .file 7 (some 10), .file 8 none]).2 (fun _ _ _ => rfl) 7
  exact ⟨this.1, this.2.2 ⟨none, by simp⟩⟩

example : (written 30 (toConsole 30 30 (⟨0, [⟨some 7, 30⟩]⟩ : Logger Nat) (some 10)) 20).count none = 1 :=
  (C205_console 30 30 (⟨0, [⟨some 7, 30⟩]⟩ : Logger Nat) (by intro h hh; simp only [List.mem_singleton] at hh; rw [hh]; decide) (some 10) (by decide) 20).1

/-- **C205, what goes wrong.** A name that is not absolute is not recognised: called n times with it, every message is written n times to the file. -/
theorem C205_fails_relative (f : F) (v : Option Nat) (hf : ∀ g, abs g ≠ f) (n : Nat) (level : Nat) (hr : root ≤ level) (hv : v.getD dflt ≤ level) :
    (written root (setup abs root dflt (List.replicate n (Call.file f v))) level).count (some (abs f)) = n := by
  have hs : setup abs root dflt (List.replicate n (Call.file f v)) = ⟨0, List.replicate n ⟨some (abs f), v.getD dflt⟩⟩ := by
    induction n with
    | zero => rfl
    | succ n ih =>
      rw [List.replicate_succ', ls_snoc, ih]
      show toFile abs dflt _ f v = _
      unfold toFile
      rw [if_neg, List.replicate_succ']
      intro hc
      obtain ⟨a, ha, e⟩ := List.any_eq_true.1 hc
      rw [(List.mem_replicate.1 ha).2] at e
      simp only [decide_eq_true_eq] at e
      exact hf f (Option.some.inj e)
  rw [hs]
  unfold written effective
  simp [hr, hv]

example : ∀ g : Nat, (g + 100 : Nat) ≠ 7 := by omega

/-- **C205, what goes wrong.** Asking for a file does not lower the level of the logger: messages of the level asked for but below that of the logger go
nowhere. And a second call for the same place does not change its level. -/
theorem C205_fails_level (l : Logger F) (f : F) (v : Option Nat) (level : Nat) (h : level < effective root l) :
    written root (toFile abs dflt l f v) level = [] ∧
      ∀ w, abs f = f → toFile abs dflt (toFile abs dflt l f v) f w = toFile abs dflt l f v := by
  have he : effective root (toFile abs dflt l f v) = effective root l := by
    unfold toFile
    split <;> rfl
  refine ⟨?_, fun w ha => ?_⟩
  · unfold written
    rw [he, if_neg (by omega)]
  · have hm : some f ∈ (toFile abs dflt l f v).handlers.map (·.file) := by
      rw [ls_places_file]
      split
      · assumption
      · rw [ha]; simp
    obtain ⟨a, ha2, e⟩ := List.mem_map.1 hm
    have hany : (toFile abs dflt l f v).handlers.any (fun h => decide (h.file = some f)) = true := List.any_eq_true.2 ⟨a, ha2, by simpa using e⟩
    show (if (toFile abs dflt l f v).handlers.any (fun h => decide (h.file = some f)) then toFile abs dflt l f v else _) = _
    rw [if_pos hany]

example : (10 : Nat) < effective 30 (toConsole 30 30 (⟨0, []⟩ : Logger Nat) none) := by decide

end Larch.Props
