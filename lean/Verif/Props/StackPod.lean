import Verif.Model.StackPod
import Verif.Props.PodLoad
import Verif.Props.Vault

/-!
# C179: a stacked pod gives, for each alternative, the data its latest bunch names
-/

namespace Larch.Props

open Larch.Pods Larch.StackPod

/-- The name under which a bunch is kept: as it is in memory, with dots replaced in a file. -/
def keptAs (b : Bunches) (n : String) : List Char :=
  match b with
  | .memory _ => n.toList
  | .vault _ => Larch.Vault.safe n.toList

/-- The operation does not define the bunch anew. -/
def Leaves (b : Bunches) (n : String) (o : StackPod.Op) : Prop :=
  ∀ m r, o = .setBunch m (.dict r) → keptAs b m ≠ keptAs b n

/-- What is in the column of an alternative: the data that the dictionary names for it, or what the text `0` gives. -/
def ColumnOf {L O A : Type} (sx : Syn L O) (lg : Lang L O A) (ps : List (Store A)) (d : Dict) (alt : Alt) (a : A) : Prop :=
  (∃ s, d.lookup alt = some s ∧ Denotes sx lg ps s a) ∨ (d.lookup alt = none ∧ Denotes sx lg ps "0" a)

/-! ## The bunches over a history -/

/-- Two bunches of the same kind. -/
def SameKind : Bunches → Bunches → Prop
  | .memory _, .memory _ => True
  | .vault _, .vault _ => True
  | _, _ => False

theorem sp_kept {b c : Bunches} (h : SameKind b c) (n : String) : keptAs b n = keptAs c n := by
  cases b <;> cases c <;> first | rfl | exact h.elim

theorem sp_kind_refl (b : Bunches) : SameKind b b := by cases b <;> trivial

theorem sp_kind_trans {a b c : Bunches} (h : SameKind a b) (k : SameKind b c) : SameKind a c := by
  cases a <;> cases b <;> cases c <;> trivial

theorem sp_kind_step (w : World) (o : StackPod.Op) : SameKind w.bunches (step w o).bunches := by
  cases o with
  | setBunch n d =>
    cases d with
    | dict r =>
      show SameKind w.bunches (w.bunches.set w.dicts n r)
      cases w.bunches <;> trivial
    | other => exact sp_kind_refl _
  | _ => exact sp_kind_refl _

theorem sp_kind_run (ops : List StackPod.Op) : ∀ w : World, SameKind w.bunches (StackPod.run w ops).bunches := by
  induction ops with
  | nil => intro w; exact sp_kind_refl _
  | cons o r ih => intro w; exact sp_kind_trans (sp_kind_step w o) (ih (step w o))

theorem sp_run_append (w : World) (a b : List StackPod.Op) : StackPod.run w (a ++ b) = StackPod.run (StackPod.run w a) b := by
  simp [StackPod.run, List.foldl_append]

theorem sp_toList {a b : String} (h : a.toList = b.toList) : a = b := String.toList_inj.1 h

/-- In memory: the reference kept under a name. -/
def refOf (w : World) (n : String) : Option Nat :=
  match w.bunches with
  | .memory m => m.lookup n
  | .vault _ => none

theorem sp_ref_step (w : World) (o : StackPod.Op) (n : String) (hm : ∃ m, w.bunches = .memory m) (h : Leaves w.bunches n o) :
    refOf (step w o) n = refOf w n := by
  obtain ⟨m, hm⟩ := hm
  cases o with
  | setBunch k d =>
    cases d with
    | dict r =>
      have hk := h k r rfl
      rw [hm] at hk
      have hne : n ≠ k := by rintro rfl; exact hk rfl
      have hb : (n == k) = false := by simpa using hne
      simp [refOf, step, hm, Bunches.set, List.lookup_cons, hb]
    | other => rfl
  | _ => rfl

theorem sp_memory_run (ops : List StackPod.Op) (n : String) : ∀ w : World, (∃ m, w.bunches = .memory m) → (∀ o ∈ ops, Leaves w.bunches n o) →
    refOf (StackPod.run w ops) n = refOf w n := by
  induction ops with
  | nil => intro w _ _; rfl
  | cons o r ih =>
    intro w hm h
    have hk := sp_kind_step w o
    have hm' : ∃ m, (step w o).bunches = .memory m := by
      obtain ⟨m, hm⟩ := hm
      rw [hm] at hk
      cases hb : (step w o).bunches with
      | memory m' => exact ⟨m', rfl⟩
      | vault v => rw [hb] at hk; exact hk.elim
    have := ih (step w o) hm' (fun p hp k q hq => by
      rw [← sp_kept hk, ← sp_kept hk]; exact h p (List.mem_cons_of_mem _ hp) k q hq)
    show refOf (StackPod.run (step w o) r) n = _
    rw [this]
    exact sp_ref_step w o n hm (h o List.mem_cons_self)

theorem sp_vault_step (w : World) (o : StackPod.Op) (n : String) (hv : ∃ v, w.bunches = .vault v) (h : Leaves w.bunches n o) :
    (step w o).lookup n = w.lookup n := by
  obtain ⟨v, hv⟩ := hv
  cases o with
  | setBunch k d =>
    cases d with
    | dict r =>
      have hk := h k r rfl
      rw [hv] at hk
      have hne : Larch.Vault.safe n.toList ≠ Larch.Vault.safe k.toList := fun e => hk e.symm
      simp only [World.lookup, step, hv, Bunches.set, Larch.Vault.getItem, Larch.Vault.older, vt_set, if_neg hne]
    | other => rfl
  | setAlts r => rfl
  | editDict r d => simp only [World.lookup, step, hv]
  | editList r d => rfl

theorem sp_vault_run (ops : List StackPod.Op) (n : String) : ∀ w : World, (∃ v, w.bunches = .vault v) → (∀ o ∈ ops, Leaves w.bunches n o) →
    (StackPod.run w ops).lookup n = w.lookup n := by
  induction ops with
  | nil => intro w _ _; rfl
  | cons o r ih =>
    intro w hm h
    have hk := sp_kind_step w o
    have hm' : ∃ m, (step w o).bunches = .vault m := by
      obtain ⟨m, hm⟩ := hm
      rw [hm] at hk
      cases hb : (step w o).bunches with
      | vault m' => exact ⟨m', rfl⟩
      | memory v => rw [hb] at hk; exact hk.elim
    have := ih (step w o) hm' (fun p hp k q hq => by
      rw [← sp_kept hk, ← sp_kept hk]; exact h p (List.mem_cons_of_mem _ hp) k q hq)
    show (StackPod.run (step w o) r).lookup n = _
    rw [this]
    exact sp_vault_step w o n hm (h o List.mem_cons_self)

/-- **C179.**  Without storage, the bunch is the dictionary last given under its name, as that dictionary is when the data are read. -/
theorem C179_bunch_in_memory (w : World) (hm : ∃ m, w.bunches = .memory m) (before later : List StackPod.Op) (n : String) (r : Nat)
    (hl : ∀ o ∈ later, Leaves w.bunches n o) :
    (StackPod.run w (before ++ .setBunch n (.dict r) :: later)).lookup n =
      some ((StackPod.run w (before ++ .setBunch n (.dict r) :: later)).dicts r) := by
  have hk := sp_kind_run (before ++ [.setBunch n (.dict r)]) w
  have hk1 := sp_kind_run before w
  set w1 := StackPod.run w before with hw1
  have e : StackPod.run w (before ++ .setBunch n (.dict r) :: later) = StackPod.run (step w1 (.setBunch n (.dict r))) later := by
    rw [sp_run_append]; rfl
  have hk2 : SameKind w.bunches (step w1 (.setBunch n (.dict r))).bunches := by
    have : StackPod.run w (before ++ [.setBunch n (.dict r)]) = step w1 (.setBunch n (.dict r)) := by rw [sp_run_append]; rfl
    rw [this] at hk; exact hk
  obtain ⟨m, hm⟩ := hm
  have hm1 : ∃ m, w1.bunches = .memory m := by
    rw [hm] at hk1
    cases hb : w1.bunches with
    | memory m' => exact ⟨m', rfl⟩
    | vault v => rw [hb] at hk1; exact hk1.elim
  obtain ⟨m1, hm1⟩ := hm1
  have hm2 : (step w1 (.setBunch n (.dict r))).bunches = .memory ((n, r) :: m1) := by simp [step, hm1, Bunches.set]
  have href := sp_memory_run later n (step w1 (.setBunch n (.dict r))) ⟨_, hm2⟩ (fun o ho k q hq => by
    rw [← sp_kept hk2, ← sp_kept hk2]; exact hl o ho k q hq)
  have hr : refOf (step w1 (.setBunch n (.dict r))) n = some r := by simp [refOf, hm2]
  rw [hr] at href
  rw [e]
  generalize StackPod.run (step w1 (.setBunch n (.dict r))) later = z at href
  unfold refOf at href
  cases hb : z.bunches with
  | vault v => rw [hb] at href; cases href
  | memory m' =>
    rw [hb] at href
    simp only [World.lookup, hb, href, Option.map_some]

/-- **C179.**  With storage, the bunch is the dictionary last given under its name, as that dictionary was when it was given. -/
theorem C179_bunch_stored (w : World) (hv : ∃ v, w.bunches = .vault v) (before later : List StackPod.Op) (n : String) (r : Nat)
    (hl : ∀ o ∈ later, Leaves w.bunches n o) :
    (StackPod.run w (before ++ .setBunch n (.dict r) :: later)).lookup n = some ((StackPod.run w before).dicts r) := by
  have hk := sp_kind_run (before ++ [.setBunch n (.dict r)]) w
  have hk1 := sp_kind_run before w
  set w1 := StackPod.run w before with hw1
  have e : StackPod.run w (before ++ .setBunch n (.dict r) :: later) = StackPod.run (step w1 (.setBunch n (.dict r))) later := by
    rw [sp_run_append]; rfl
  have hk2 : SameKind w.bunches (step w1 (.setBunch n (.dict r))).bunches := by
    have : StackPod.run w (before ++ [.setBunch n (.dict r)]) = step w1 (.setBunch n (.dict r)) := by rw [sp_run_append]; rfl
    rw [this] at hk; exact hk
  obtain ⟨v, hv⟩ := hv
  have hv1 : ∃ m, w1.bunches = .vault m := by
    rw [hv] at hk1
    cases hb : w1.bunches with
    | vault m' => exact ⟨m', rfl⟩
    | memory v => rw [hb] at hk1; exact hk1.elim
  obtain ⟨v1, hv1⟩ := hv1
  have hv2 : (step w1 (.setBunch n (.dict r))).bunches = .vault (Larch.Vault.setItem v1 n.toList (w1.dicts r)) := by simp [step, hv1, Bunches.set]
  rw [e, sp_vault_run later n _ ⟨_, hv2⟩ (fun o ho k q hq => by rw [← sp_kept hk2, ← sp_kept hk2]; exact hl o ho k q hq)]
  have h := vt_entry ((v1.lookup (Larch.Vault.safe n.toList)).getD [] ++ [w1.dicts r]) 0
  simp only [List.reverse_append, List.reverse_singleton, List.singleton_append, List.getElem?_cons_zero] at h
  have h' : Larch.Vault.entry ((v1.lookup (Larch.Vault.safe n.toList)).getD [] ++ [w1.dicts r]) (-1) = .ok (w1.dicts r) := by simpa using h
  simp only [World.lookup, hv2, Larch.Vault.getItem, Larch.Vault.older, vt_set, if_true, h', Except.toOption]

/-- **C179.**  The alternatives are those of the list last given, as that list is when the data are read; what is no dictionary is refused, and
changes nothing. -/
theorem C179_alternatives (w : World) (before later : List StackPod.Op) (r : Nat) (hl : ∀ o ∈ later, ∀ q, o ≠ .setAlts q) :
    (StackPod.run w (before ++ .setAlts r :: later)).altcodes = (StackPod.run w (before ++ .setAlts r :: later)).lists r := by
  have e : StackPod.run w (before ++ .setAlts r :: later) = StackPod.run (step (StackPod.run w before) (.setAlts r)) later := by
    rw [sp_run_append]; rfl
  rw [e]
  have h : ∀ (ops : List StackPod.Op) (z : World), (∀ o ∈ ops, ∀ q, o ≠ .setAlts q) → (StackPod.run z ops).alts = z.alts := by
    intro ops
    induction ops with
    | nil => intro z _; rfl
    | cons o t ih =>
      intro z hz
      show (StackPod.run (step z o) t).alts = _
      rw [ih (step z o) (fun p hp => hz p (List.mem_cons_of_mem _ hp))]
      cases o with
      | setAlts q => exact absurd rfl (hz _ List.mem_cons_self q)
      | setBunch k d => cases d <;> rfl
      | _ => rfl
  have := h later (step (StackPod.run w before) (.setAlts r)) hl
  have h2 : (step (StackPod.run w before) (.setAlts r)).alts = some r := rfl
  rw [h2] at this
  simp only [World.altcodes, this]

/-- **C179.**  What is no dictionary is refused, and changes nothing; a dictionary is taken. -/
theorem C179_refuses (w : World) (n : String) (d : Def) : (setBunchErr d = some .type ∧ step w (.setBunch n d) = w) ∨
    (setBunchErr d = none ∧ (step w (.setBunch n d)).has n = true) := by
  cases d with
  | other => exact .inl ⟨rfl, rfl⟩
  | dict r =>
    refine .inr ⟨rfl, ?_⟩
    cases hb : w.bunches with
    | memory m => simp [World.has, step, hb, Bunches.set]
    | vault v => simp [World.has, step, hb, Bunches.set, Larch.Vault.contains, vt_set]

/-! ## The data -/

section

variable {L O A : Type} (sx : Syn L O) (lg : Lang L O A)

theorem sp_fill (ps : List (Store A)) (l : List String) : ∀ c, fill sx lg ps l = .ok c ↔ List.Forall₂ (Denotes sx lg ps) l c := by
  induction l with
  | nil =>
    intro c
    constructor
    · intro h; cases h; exact .nil
    · intro h; cases h; rfl
  | cons s r ih =>
    intro c
    simp only [fill]
    cases ha : loadItem sx lg ps s with
    | none =>
      constructor
      · intro h; cases h
      · intro h
        cases h with
        | cons h1 _ => rw [← pl_denotes, ha] at h1; cases h1
    | some a =>
      have huniq : ∀ b, Denotes sx lg ps s b → b = a := fun b hb => by rw [← pl_denotes, ha] at hb; exact (Option.some.inj hb).symm
      cases hf : fill sx lg ps r with
      | error e =>
        constructor
        · intro h; cases h
        · intro h
          cases h with
          | cons _ h2 => rw [← ih, hf] at h2; cases h2
      | ok t =>
        constructor
        · intro h; cases h; exact .cons ((pl_denotes sx lg ps s a).1 ha) ((ih t).1 hf)
        · intro h
          cases h with
          | cons h1 h2 =>
            rw [← ih, hf] at h2
            cases h2
            rw [huniq _ h1]

theorem sp_column (ps : List (Store A)) (d : Dict) (alt : Alt) (a : A) : Denotes sx lg ps (command d alt) a ↔ ColumnOf sx lg ps d alt a := by
  unfold command ColumnOf
  cases h : d.lookup alt with
  | none => simp
  | some s => simp

theorem sp_fill_map (ps : List (Store A)) (d : Dict) (alts : List Alt) (c : List A) :
    fill sx lg ps (alts.map (command d)) = .ok c ↔ List.Forall₂ (ColumnOf sx lg ps d) alts c := by
  rw [sp_fill, List.forall₂_map_left_iff]
  simp only [sp_column]

theorem sp_commands (w : World) (names : List String) : ∀ cs, w.allCommands (names.map .name) = .ok cs ↔
    List.Forall₂ (fun n c => ∃ d, w.lookup n = some d ∧ c = w.altcodes.map (command d)) names cs := by
  induction names with
  | nil =>
    intro cs
    constructor
    · intro h; cases h; exact .nil
    · intro h; cases h; rfl
  | cons n r ih =>
    intro cs
    simp only [List.map_cons, World.allCommands, World.commands]
    cases hd : w.lookup n with
    | none =>
      constructor
      · intro h; cases h
      · intro h
        cases h with
        | cons h1 _ => obtain ⟨d, h1, _⟩ := h1; rw [hd] at h1; cases h1
    | some d =>
      cases hr : w.allCommands (r.map .name) with
      | error e =>
        constructor
        · intro h; cases h
        · intro h
          cases h with
          | cons _ h2 => rw [← ih, hr] at h2; cases h2
      | ok t =>
        constructor
        · intro h; cases h; exact .cons ⟨d, hd, rfl⟩ ((ih t).1 hr)
        · intro h
          cases h with
          | cons h1 h2 =>
            obtain ⟨d', h1, rfl⟩ := h1
            rw [hd] at h1; cases h1
            rw [← ih, hr] at h2; cases h2
            rfl

theorem sp_same (w : World) : ∀ (names : List String) (cs : List (List String)),
    List.Forall₂ (fun n c => ∃ d, w.lookup n = some d ∧ c = w.altcodes.map (command d)) names cs → sameLength cs = true := by
  intro names cs h
  have hl : ∀ c ∈ cs, c.length = w.altcodes.length := by
    intro c hc
    induction h with
    | nil => cases hc
    | cons h1 _ ih =>
      rcases List.mem_cons.1 hc with rfl | hc
      · obtain ⟨d, _, rfl⟩ := h1; simp
      · exact ih hc
  cases cs with
  | nil => rfl
  | cons l r =>
    simp only [sameLength, List.all_eq_true, beq_iff_eq]
    intro c hc
    rw [hl c (List.mem_cons_of_mem _ hc), hl l List.mem_cons_self]

theorem sp_fillAll (ps : List (Store A)) (cs : List (List String)) : ∀ cube, fillAll sx lg ps cs = .ok cube ↔
    List.Forall₂ (fun l c => fill sx lg ps l = .ok c) cs cube := by
  induction cs with
  | nil =>
    intro c
    constructor
    · intro h; cases h; exact .nil
    · intro h; cases h; rfl
  | cons l r ih =>
    intro cube
    simp only [fillAll]
    cases hf : fill sx lg ps l with
    | error e =>
      constructor
      · intro h; cases h
      · intro h
        cases h with
        | cons h1 _ => rw [hf] at h1; cases h1
    | ok c =>
      cases hr : fillAll sx lg ps r with
      | error e =>
        constructor
        · intro h; cases h
        · intro h
          cases h with
          | cons _ h2 => rw [← ih, hr] at h2; cases h2
      | ok t =>
        constructor
        · intro h; cases h; exact .cons hf ((ih t).1 hr)
        · intro h
          cases h with
          | cons h1 h2 =>
            rw [hf] at h1; cases h1
            rw [← ih, hr] at h2; cases h2
            rfl

/-- **C179.**  `pod[names]` gives an array of data exactly when alternatives are set, each name is that of a bunch, and each expression can be
evaluated; then for each name, in the order asked, and each alternative, in the order of the list, it is what the bunch names for the alternative. -/
theorem C179_reads (ps : List (Store A)) (w : World) (names : List String) (hn : names ≠ []) (cube : List (List A)) :
    getItem sx lg ps w (names.map .name) = .ok cube ↔ w.altcodes ≠ [] ∧
      List.Forall₂ (fun n col => ∃ d, w.lookup n = some d ∧ List.Forall₂ (ColumnOf sx lg ps d) w.altcodes col) names cube := by
  unfold getItem
  by_cases ha : w.altcodes = []
  · simp [ha]
  · rw [if_neg ha]
    simp only [ne_eq, ha, not_false_eq_true, true_and]
    cases hc : w.allCommands (names.map .name) with
    | error e =>
      constructor
      · intro h; cases h
      · intro h
        have : ∃ cs, w.allCommands (names.map .name) = .ok cs := by
          simp only [sp_commands]
          clear hc hn
          induction h with
          | nil => exact ⟨[], .nil⟩
          | cons h1 _ ih =>
            obtain ⟨d, h1, _⟩ := h1
            obtain ⟨cs, ih⟩ := ih
            exact ⟨_ :: cs, .cons ⟨d, h1, rfl⟩ ih⟩
        obtain ⟨cs, h2⟩ := this
        rw [hc] at h2; cases h2
    | ok cs =>
      have h1 := (sp_commands w names cs).1 hc
      have h2 := sp_same w names cs h1
      have h3 : ¬ (cs = [] ∨ sameLength cs = false) := by
        rintro (h | h)
        · subst h; cases h1; exact hn rfl
        · rw [h2] at h; cases h
      show (if cs = [] ∨ sameLength cs = false then _ else fillAll sx lg ps cs) = _ ↔ _
      rw [if_neg h3, sp_fillAll]
      clear hc h2 h3 hn
      induction h1 generalizing cube with
      | nil =>
        constructor
        · intro h; cases h; exact .nil
        · intro h; cases h; exact .nil
      | cons h _ ih =>
        obtain ⟨d, hd, rfl⟩ := h
        constructor
        · intro h
          cases h with
          | cons h1 h2 => exact .cons ⟨d, hd, (sp_fill_map sx lg ps d _ _).1 h1⟩ ((ih _).1 h2)
        · intro h
          cases h with
          | cons h1 h2 =>
            obtain ⟨d', h1, h3⟩ := h1
            rw [hd] at h1; cases h1
            exact .cons ((sp_fill_map sx lg ps d _ _).2 h3) ((ih _).2 h2)

/-- **C179.**  `load_data_item` loads the same columns as `pod[name]`. -/
theorem C179_load (ps : List (Store A)) (w : World) (n : String) (col : List A) :
    loadDataItem sx lg ps w (.name n) = .ok col ↔ getItem sx lg ps w [.name n] = .ok [col] := by
  have h := C179_reads sx lg ps w [n] (by simp) [col]
  rw [List.map_singleton] at h
  rw [h]
  unfold loadDataItem
  by_cases ha : w.altcodes = []
  · simp [ha]
  · rw [if_neg ha]
    simp only [World.commands]
    cases hd : w.lookup n with
    | none => simp [hd]
    | some d => simp [hd, ha, sp_fill_map]

/-- **C179.**  The alternatives without an expression have zero, as long as no data item is named `0`. -/
theorem C179_zero (ps : List (Store A)) (hu : Unheld ps "0") (z : L) (hz : sx.parse "0" = some (.lit z)) (d : Dict) (alt : Alt) (a : A)
    (h : alt ∉ d.map Prod.fst) : ColumnOf sx lg ps d alt a ↔ a = lg.lit z := by
  have hl : d.lookup alt = none := by
    rw [List.lookup_eq_none_iff]
    intro e he
    simp only [bne_iff_ne, ne_eq]
    rintro rfl
    exact h (List.mem_map_of_mem he)
  have hi : ¬ Item ps "0" a := by
    rintro ⟨pre, p, post, rfl, _, h2⟩
    exact hu p (by simp) (pl_get_holds h2)
  simp only [ColumnOf, hl, reduceCtorEq, false_and, exists_false, true_and, false_or, Denotes, hi, hu, hz, Option.some.injEq]
  constructor
  · rintro ⟨e, rfl, he⟩; cases he; rfl
  · rintro rfl; exact ⟨_, rfl, .lit z⟩

end

/-- **C179.**  The shape of the pod is that of the data: the shape of the pods it stacks, and a column for each alternative. -/
theorem C179_shape {L O A : Type} (sx : Syn L O) (lg : Lang L O A) (podshape : List Nat) (ps : List (Store A)) (w : World) (names : List String)
    (hn : names ≠ []) (cube : List (List A)) (h : getItem sx lg ps w (names.map .name) = .ok cube) :
    ∀ col ∈ cube, w.shape podshape = podshape ++ [col.length] := by
  replace h := ((C179_reads sx lg ps w names hn cube).1 h).2
  intro col hc
  clear hn
  induction h with
  | nil => cases hc
  | cons h1 _ ih =>
    rcases List.mem_cons.1 hc with rfl | hc
    · obtain ⟨d, _, h2⟩ := h1
      rw [← h2.length_eq]; rfl
    · exact ih hc

/-! ## Examples, and where the code falls short -/

/-- Texts of one item, or the literal `0`. -/
def spSyn : Syn Nat Unit where
  tokens s := [s]
  parse s := if s = "0" then some (.lit 0) else some (.name s)
  sound s e h n hn := by
    split at h
    · cases h; cases hn
    · cases h; simpa [Expr.names] using hn

def spLang : Lang Nat Unit (List Nat) where
  lit n := [n, n]
  op _ _ _ := none
  fn _ := none
  const _ := none

/-- Travel times by car and by bus of two cases. -/
def timesData : List (Store (List Nat)) := [⟨0, [("cartime", [10, 12]), ("bustime", [30, 35])]⟩]

def timesDict : Dict := [(.int 1, "cartime"), (.int 2, "bustime")]

def noDict : Nat → Dict := fun _ => []

def noList : Nat → List Alt := fun _ => []

/-- A history that meets the hypotheses: the dictionary is changed after it was given, then the list of alternatives is set in another order. -/
def timesOps : List StackPod.Op :=
  [.editDict 0 timesDict, .setBunch "time" (.dict 0), .editDict 0 [(.int 1, "cartime")], .editList 5 [.int 3, .int 2, .int 1], .setAlts 5,
   .editDict 1 [], .editList 4 []]

example : (∃ m, (create noDict noList none).bunches = .memory m) ∧ (∃ v, (create noDict noList (some [])).bunches = .vault v) ∧
    (∀ o ∈ timesOps.drop 2, Leaves (create noDict noList none).bunches "time" o) ∧ Unheld timesData "0" ∧
    getItem spSyn spLang timesData (StackPod.run (create noDict noList none) timesOps) [.name "time"] = .ok [[[0, 0], [0, 0], [10, 12]]] ∧
    getItem spSyn spLang timesData (StackPod.run (create noDict noList (some [])) timesOps) [.name "time"] = .ok [[[0, 0], [30, 35], [10, 12]]] ∧
    getItem spSyn spLang timesData (StackPod.run (create noDict noList none) timesOps) [.name "cost"] = .error .key ∧
    getItem spSyn spLang timesData (create noDict noList none) [.name "time"] = .error .value := by
  refine ⟨⟨[], rfl⟩, ⟨[], rfl⟩, ?_, ?_, rfl, rfl, rfl, rfl⟩
  · intro o ho
    simp only [timesOps, List.drop_succ_cons, List.drop_zero, List.mem_cons, List.not_mem_nil, or_false] at ho
    intro m r hr
    rcases ho with rfl | rfl | rfl | rfl | rfl <;> cases hr
  · intro p hp
    simp only [timesData, List.mem_singleton] at hp
    subst hp
    simp [Holds]

/-- **C179, violated.**  A key that is no alternative is taken without a word: with the alternatives `1` and `2` and the keys `'1'` and `'2'` all the
data are zero. -/
theorem C179_fails_wrong_keys :
    getItem spSyn spLang timesData (StackPod.run (create noDict noList none)
      [.editDict 0 [(.str "1", "cartime"), (.str "2", "bustime")], .setBunch "time" (.dict 0), .editList 5 [.int 1, .int 2], .setAlts 5]) [.name "time"] =
      .ok [[[0, 0], [0, 0]]] := rfl

/-- **C179, violated.**  The zero of an alternative without expression is an expression too: if there is a data item named `0` (as a file of columns
without header gives), the alternative has its data. -/
theorem C179_fails_item_named_zero :
    getItem spSyn spLang [⟨0, [("cartime", [10, 12]), ("0", [7, 8])]⟩] (StackPod.run (create noDict noList none)
      [.editDict 0 [(.int 1, "cartime")], .setBunch "time" (.dict 0), .editList 5 [.int 1, .int 2], .setAlts 5]) [.name "time"] =
      .ok [[[10, 12], [7, 8]]] := rfl

/-- **C179, violated.**  In a pod with storage two bunches whose names differ by a dot are one: the first has the data of the second. -/
theorem C179_fails_dots :
    getItem spSyn spLang timesData (StackPod.run (create noDict noList (some []))
      [.editDict 0 [(.int 1, "cartime")], .setBunch "t.a" (.dict 0), .editDict 1 [(.int 1, "bustime")], .setBunch "t_a" (.dict 1),
       .editList 5 [.int 1], .setAlts 5]) [.name "t.a"] = .ok [[[30, 35]]] := rfl

end Larch.Props
