import Verif.Spec.Workbook

/-!
# C190, C191: what is written to a workbook
-/

set_option linter.unusedSimpArgs false

namespace Larch.Props
open Larch.Workbook Larch.Spec.Workbook

/-- What holds of a sheet while something is written at row `r` of it. -/
structure WbSpace (w : Writer) (s : String) (r : Nat) : Prop where
  proper : ∀ m ∈ w.marks, m.start ≤ m.stop
  here : ∀ m ∈ w.marks, m.sheet = s → m.stop ≤ r
  others : ∀ m ∈ w.marks, m.sheet ≠ s → m.stop ≤ startOf w m.sheet
  below : Below w.marks

/-- What holds between additions: `N` are the names of sheets. -/
structure WbInv (N : String → Prop) (w : Writer) : Prop where
  same : ∀ p ∈ w.sheets, p.1 = p.2
  known : ∀ p ∈ w.sheets, N p.1
  proper : ∀ m ∈ w.marks, m.start ≤ m.stop
  room : ∀ m ∈ w.marks, m.stop ≤ startOf w m.sheet
  below : Below w.marks
  links : w.marks.filterMap linkOf = w.toc

theorem wb_space (N : String → Prop) (w : Writer) (h : WbInv N w) (s : String) : WbSpace w s (startOf w s) :=
  ⟨h.proper, fun m hm e => e ▸ h.room m hm, fun m hm _ => h.room m hm, h.below⟩

theorem wb_more (w : Writer) (s : String) (r t : Nat) (h : WbSpace w s r) (ht : r ≤ t) : WbSpace w s t :=
  ⟨h.proper, fun m hm e => Nat.le_trans (h.here m hm e) ht, h.others, h.below⟩

theorem wb_mark (w v : Writer) (s : String) (r n : Nat) (x : What) (h : WbSpace w s r) (hm : v.marks = w.marks ++ [⟨s, r, r + n, x⟩])
    (hs : v.startrow = w.startrow) : WbSpace v s (r + n) := by
  refine ⟨?_, ?_, ?_, ?_⟩
  · intro m h'
    rw [hm] at h'
    rcases List.mem_append.1 h' with h' | h'
    · exact h.proper m h'
    · rw [List.mem_singleton.1 h']; exact Nat.le_add_right r n
  · intro m h' e
    rw [hm] at h'
    rcases List.mem_append.1 h' with h' | h'
    · exact Nat.le_trans (h.here m h' e) (Nat.le_add_right r n)
    · rw [List.mem_singleton.1 h']; exact Nat.le_refl _
  · intro m h' e
    rw [hm] at h'
    rcases List.mem_append.1 h' with h' | h'
    · have := h.others m h' e
      simpa only [startOf, hs] using this
    · rw [List.mem_singleton.1 h'] at e; exact absurd rfl e
  · unfold Below
    rw [hm, List.pairwise_append]
    refine ⟨h.below, List.pairwise_singleton _ _, ?_⟩
    intro a ha b hb e
    rw [List.mem_singleton.1 hb] at e ⊢
    exact h.here a ha e

theorem wb_set (w : Writer) (s : String) (r : Nat) (h : WbSpace w s r) :
    ∀ m ∈ w.marks, m.stop ≤ startOf (setStart w s r) m.sheet := by
  intro m hm
  unfold startOf setStart
  by_cases e : m.sheet = s
  · simp only [List.lookup_cons, e, beq_self_eq_true, Option.getD_some]
    exact h.here m hm e
  · rw [List.lookup_cons, show (m.sheet == s) = false by simpa using e]
    exact h.others m hm e

theorem wb_sheet (N : String → Prop) (w : Writer) (h : WbInv N w) (inj : ∀ s t, N s → N t → s.toLower = t.toLower → s = t) (name : String) (hn : N name) :
    sheetFor w name = some name := by
  unfold sheetFor
  cases hl : w.sheets.lookup name with
  | some s =>
    have : (name, s) ∈ w.sheets := by
      clear h
      generalize w.sheets = l at *
      induction l with
      | nil => simp at hl
      | cons p t ih =>
        obtain ⟨a, b⟩ := p
        rw [List.lookup_cons] at hl
        by_cases e : (name == a) = true
        · rw [e] at hl
          simp only [Option.some.injEq] at hl
          rw [beq_iff_eq] at e
          rw [e, hl]
          exact List.mem_cons_self
        · rw [show (name == a) = false by simpa using e] at hl
          exact List.mem_cons_of_mem _ (ih hl)
    exact (congrArg some (h.same _ this)).symm
  | none =>
    have : taken w name = false := by
      by_contra ht
      rw [Bool.not_eq_false] at ht
      unfold taken at ht
      rw [List.contains_iff_mem] at ht
      obtain ⟨p, hp, e⟩ := List.mem_map.1 ht
      have e1 := h.same p hp
      have e2 := inj p.1 name (h.known p hp) hn (by rw [e1]; exact e)
      clear h inj ht
      generalize w.sheets = l at *
      induction l with
      | nil => cases hp
      | cons q t ih =>
        obtain ⟨a, b⟩ := q
        rw [List.lookup_cons] at hl
        by_cases ea : (name == a) = true
        · rw [ea] at hl; cases hl
        · rw [show (name == a) = false by simpa using ea] at hl
          rcases List.mem_cons.1 hp with hp | hp
          · rw [hp] at e2; exact absurd (beq_iff_eq.2 e2.symm) ea
          · exact ih hl hp
    simp only [this]
    rfl

theorem wb_lookup_append (l : List (String × String)) (name s : String) (h : l.lookup name = none) :
    (l ++ [(name, s)]).lookup name = some s := by
  induction l with
  | nil => simp [List.lookup_cons]
  | cons q t ih =>
    obtain ⟨a, b⟩ := q
    rw [List.lookup_cons] at h
    rw [List.cons_append, List.lookup_cons]
    by_cases e : (name == a) = true
    · rw [e] at h; cases h
    · rw [show (name == a) = false by simpa using e] at h ⊢
      exact ih h

theorem wb_has (w : Writer) (name : String) : ((withSheet w name name).sheets.lookup name).isSome = true := by
  unfold withSheet
  by_cases h : (w.sheets.lookup name).isSome = true
  · rw [if_pos h]; exact h
  · rw [if_neg h]
    have h' : w.sheets.lookup name = none := by
      cases hq : w.sheets.lookup name with
      | none => rfl
      | some _ => rw [hq] at h; exact absurd rfl h
    show ((w.sheets ++ [(name, name)]).lookup name).isSome = true
    rw [wb_lookup_append _ _ _ h']
    rfl

theorem wb_with (N : String → Prop) (w : Writer) (h : WbInv N w) (name : String) (hn : N name) : WbInv N (withSheet w name name) := by
  unfold withSheet
  by_cases hl : (w.sheets.lookup name).isSome = true
  · rw [if_pos hl]; exact h
  · rw [if_neg hl]
    refine ⟨?_, ?_, h.proper, h.room, h.below, h.links⟩
    · intro p hp
      rcases List.mem_append.1 hp with hp | hp
      · exact h.same p hp
      · rw [List.mem_singleton.1 hp]
    · intro p hp
      rcases List.mem_append.1 hp with hp | hp
      · exact h.known p hp
      · rw [List.mem_singleton.1 hp]; exact hn

theorem wb_withEq (w : Writer) (name sheet : String) :
    (withSheet w name sheet).startrow = w.startrow ∧ (withSheet w name sheet).marks = w.marks ∧ (withSheet w name sheet).toc = w.toc
      ∧ (withSheet w name sheet).tables = w.tables ∧ (withSheet w name sheet).figures = w.figures ∧ (withSheet w name sheet).added = w.added := by
  unfold withSheet
  by_cases hl : (w.sheets.lookup name).isSome = true
  · rw [if_pos hl]; exact ⟨rfl, rfl, rfl, rfl, rfl, rfl⟩
  · rw [if_neg hl]; exact ⟨rfl, rfl, rfl, rfl, rfl, rfl⟩

theorem wb_blurb (w : Writer) (s : String) (r b : Nat) (h : WbSpace w s r) :
    WbSpace (putBlurb w s r b).1 s (putBlurb w s r b).2 ∧ (putBlurb w s r b).1.sheets = w.sheets ∧ (putBlurb w s r b).1.toc = w.toc
      ∧ (putBlurb w s r b).1.marks.filterMap linkOf = w.marks.filterMap linkOf ∧ (putBlurb w s r b).1.marks.filterMap bodyOf = w.marks.filterMap bodyOf
      ∧ (putBlurb w s r b).1.tables = w.tables ∧ (putBlurb w s r b).1.figures = w.figures ∧ (putBlurb w s r b).1.added = w.added := by
  unfold putBlurb
  by_cases hb : b = 0
  · rw [if_pos hb]; exact ⟨h, rfl, rfl, rfl, rfl, rfl, rfl, rfl⟩
  · rw [if_neg hb]
    refine ⟨wb_mark w _ s r b .blurb h rfl rfl, rfl, rfl, ?_, ?_, rfl, rfl, rfl⟩
    · show (w.marks ++ _).filterMap linkOf = _
      rw [List.filterMap_append]
      exact List.append_nil _
    · show (w.marks ++ _).filterMap bodyOf = _
      rw [List.filterMap_append]
      exact List.append_nil _

theorem wb_heading (w : Writer) (table : Bool) (name : String) (h : Option String) (r : Nat) (hw : WbSpace w name r) :
    WbSpace (putHeading w table name name h r).1 name (putHeading w table name name h r).2
      ∧ (putHeading w table name name h r).1.sheets = w.sheets ∧ (putHeading w table name name h r).1.added = w.added
      ∧ r ≤ (putHeading w table name name h r).2
      ∧ (putHeading w table name name h r).1.marks.filterMap bodyOf = w.marks.filterMap bodyOf
      ∧ ∃ toc, (putHeading w table name name h r).1.toc = w.toc ++ toc
        ∧ (putHeading w table name name h r).1.marks.filterMap linkOf = w.marks.filterMap linkOf ++ toc
        ∧ ∀ (c : Content) (b : Nat) (rest : List Addition), kindOf c = some table →
            headings w.tables w.figures (⟨c, name, h, b⟩ :: rest)
              = toc.map (fun e => (e.1, e.2.1)) ++ headings (putHeading w table name name h r).1.tables (putHeading w table name name h r).1.figures rest := by
  cases h with
  | none =>
    refine ⟨hw, rfl, rfl, Nat.le_refl _, rfl, [], (List.append_nil _).symm, (List.append_nil _).symm, ?_⟩
    intro c b rest hk
    cases table <;> simp only [headings, hk] <;> rfl
  | some t =>
    refine ⟨wb_mark w _ name r 2 _ hw rfl rfl, rfl, rfl, Nat.le_add_right r 2, ?_, [((caption (if table then "Table" else "Figure") (if table then w.tables else w.figures) t).1, name, r + 1)], rfl, ?_, ?_⟩
    · show (w.marks ++ _).filterMap bodyOf = _
      rw [List.filterMap_append]
      exact List.append_nil _
    · show (w.marks ++ _).filterMap linkOf = _
      rw [List.filterMap_append]
      rfl
    · intro c b rest hk
      by_cases ht : t = ""
      · subst ht
        cases table <;> simp [headings, hk, putHeading, caption]
      · cases table <;> simp [headings, hk, putHeading, caption, ht]

theorem wb_written (rows levels : Nat) (named header : Bool) :
    written rows levels header = heightOf (.frame rows levels named header) ∧ written rows levels header ≤ reserved rows levels named := by
  unfold written heightOf reserved
  by_cases hl : levels > 1 <;> cases header <;> cases named <;> simp only [hl, if_true, if_false, Bool.false_eq_true, reduceIte] <;> omega

/-- After the body, the blurb and the row for the next addition are written. -/
theorem wb_finish (N : String → Prop) (p : Writer) (name : String) (r n k b i : Nat) (hp : WbSpace p name r) (hk : n ≤ k)
    (hs : ∀ q ∈ p.sheets, q.1 = q.2) (hn : ∀ q ∈ p.sheets, N q.1) (hl : p.marks.filterMap linkOf = p.toc)
    (q : Writer × Nat) (hq : q = putBlurb (put p name r n (.body i)) name (r + k) b) :
    WbInv N { setStart q.1 name q.2 with added := i + 1 } ∧ q.1.toc = p.toc ∧ q.1.marks.filterMap bodyOf = p.marks.filterMap bodyOf ++ [(i, name, n)]
      ∧ q.1.tables = p.tables ∧ q.1.figures = p.figures := by
  have h1 := wb_mark p (put p name r n (.body i)) name r n (.body i) hp rfl rfl
  have h2 := wb_more _ _ _ (r + k) h1 (by omega)
  obtain ⟨a1, a2, a3, a4, a5, a6, a7, a8⟩ := wb_blurb _ _ _ b h2
  subst hq
  have e4 : (put p name r n (.body i)).marks.filterMap linkOf = p.marks.filterMap linkOf := by
    show (p.marks ++ _).filterMap linkOf = _
    rw [List.filterMap_append]
    exact List.append_nil _
  have e5 : (put p name r n (.body i)).marks.filterMap bodyOf = p.marks.filterMap bodyOf ++ [(i, name, n)] := by
    show (p.marks ++ _).filterMap bodyOf = _
    rw [List.filterMap_append]
    simp [bodyOf]
  refine ⟨⟨?_, ?_, a1.proper, wb_set _ _ _ a1, a1.below, ?_⟩, a3, a5.trans e5, a6, a7⟩
  · show ∀ q ∈ Writer.sheets (Prod.fst _), _
    rw [a2]; exact hs
  · show ∀ q ∈ Writer.sheets (Prod.fst _), _
    rw [a2]; exact hn
  · show List.filterMap linkOf (Writer.marks (Prod.fst _)) = Writer.toc (Prod.fst _)
    rw [a4, a3, e4]; exact hl

/-- An addition: it succeeds, what holds between additions holds afterwards, and the headings and bodies are as told. -/
theorem wb_add (N : String → Prop) (w : Writer) (h : WbInv N w) (inj : ∀ s t, N s → N t → s.toLower = t.toLower → s = t) (a : Addition)
    (hn : N a.sheet) (hd : Content.plain a.content = true) :
    ∃ v toc body, add w a.content a.sheet a.heading a.blurb = .ok v ∧ WbInv N v ∧ v.toc = w.toc ++ toc
      ∧ v.marks.filterMap bodyOf = w.marks.filterMap bodyOf ++ body
      ∧ ∀ rest, headings w.tables w.figures (a :: rest) = toc.map (fun e => (e.1, e.2.1)) ++ headings v.tables v.figures rest
        ∧ bodies w.added (a :: rest) = body ++ bodies v.added rest := by
  obtain ⟨c, name, hd', b⟩ := a
  dsimp only at hn hd ⊢
  have hsh := wb_sheet N w h inj name hn
  have hv := wb_with N w h name hn
  have hhas := wb_has w name
  obtain ⟨e1, e2, e3, e4, e5, e6⟩ := wb_withEq w name name
  have hsp := wb_space N _ hv name
  have hst : startOf (withSheet w name name) name = startOf w name := by unfold startOf; rw [e1]
  rw [hst] at hsp
  unfold add
  simp only [hsh]
  generalize withSheet w name name = u at *
  cases c with
  | dict rows => cases hd
  | other =>
    refine ⟨_, [], [], rfl, ⟨hv.same, hv.known, hv.proper, wb_set _ _ _ hsp, hv.below, hv.links⟩, ?_, ?_, ?_⟩
    · show u.toc = _
      rw [e3, List.append_nil]
    · show u.marks.filterMap bodyOf = _
      rw [e2, List.append_nil]
    · intro rest
      refine ⟨?_, ?_⟩
      · show headings w.tables w.figures _ = [] ++ headings u.tables u.figures rest
        rw [e4, e5]
        cases hd' <;> simp [headings, kindOf]
      · simp [bodies, kindOf]
  | picture height =>
    obtain ⟨b1, b2, b3, b4, b5, toc, b6, b7, b8⟩ := wb_heading u false name hd' _ hsp
    have hlk : (putHeading u false name name hd' (startOf w name)).1.marks.filterMap linkOf = (putHeading u false name name hd' (startOf w name)).1.toc := by
      rw [b7, b6, hv.links]
    obtain ⟨c1, c2, c3, c4, c5⟩ := wb_finish N _ name _ height (height + 3) b w.added b1 (by omega) (by rw [b2]; exact hv.same) (by rw [b2]; exact hv.known) hlk _ rfl
    refine ⟨_, toc, [(w.added, name, height)], rfl, ?_, ?_, ?_, ?_⟩
    · simp only [addPicture, b3, e6]
      exact c1
    · simp only [addPicture, b3, e6, setStart]
      rw [c2, b6, e3]
    · simp only [addPicture, b3, e6, setStart]
      rw [c3, b5, e2]
    · intro rest
      refine ⟨?_, ?_⟩
      · have := b8 (.picture height) b rest rfl
        rw [e4, e5] at this
        rw [this]
        simp only [addPicture, b3, e6, setStart]
        rw [c4, c5]
      · simp [bodies, kindOf, heightOf, addPicture, setStart, e6]
  | frame rows levels named header =>
    obtain ⟨b1, b2, b3, b4, b5, toc, b6, b7, b8⟩ := wb_heading u true name hd' _ hsp
    have hlk : (putHeading u true name name hd' (startOf w name)).1.marks.filterMap linkOf = (putHeading u true name name hd' (startOf w name)).1.toc := by
      rw [b7, b6, hv.links]
    obtain ⟨f1, f2⟩ := wb_written rows levels named header
    obtain ⟨c1, c2, c3, c4, c5⟩ := wb_finish N _ name _ (written rows levels header) (reserved rows levels named) b w.added b1 f2 (by rw [b2]; exact hv.same)
      (by rw [b2]; exact hv.known) hlk _ rfl
    have hnone : ((putHeading u true name name hd' (startOf w name)).1.sheets.lookup name).isNone = false := by
      rw [b2]
      cases hq : u.sheets.lookup name with
      | none => rw [hq] at hhas; cases hhas
      | some _ => rfl
    refine ⟨_, toc, [(w.added, name, heightOf (.frame rows levels named header))], ?_, c1, ?_, ?_, ?_⟩
    · simp only [addFrame, hnone, b3, e6]
      rfl
    · show Writer.toc (Prod.fst _) = _
      rw [c2, b6, e3]
    · show List.filterMap bodyOf (Writer.marks (Prod.fst _)) = _
      rw [c3, b5, e2, f1]
    · intro rest
      refine ⟨?_, ?_⟩
      · have := b8 (.frame rows levels named header) b rest rfl
        rw [e4, e5] at this
        rw [this]
        show _ = _ ++ headings (Writer.tables (Prod.fst _)) (Writer.figures (Prod.fst _)) rest
        rw [c4, c5]
      · simp [bodies, kindOf, setStart]

theorem wb_addAll (N : String → Prop) (inj : ∀ s t, N s → N t → s.toLower = t.toLower → s = t) (l : List Addition) :
    ∀ w, WbInv N w → (∀ a ∈ l, N a.sheet) → (∀ a ∈ l, Content.plain a.content = true) →
      ∃ v, addAll w l = .ok v ∧ WbInv N v ∧ v.toc.map (fun e => (e.1, e.2.1)) = w.toc.map (fun e => (e.1, e.2.1)) ++ headings w.tables w.figures l
        ∧ v.marks.filterMap bodyOf = w.marks.filterMap bodyOf ++ bodies w.added l := by
  induction l with
  | nil => intro w h _ _; exact ⟨w, rfl, h, (List.append_nil _).symm, (List.append_nil _).symm⟩
  | cons a r ih =>
    intro w h hn hp
    obtain ⟨v, toc, body, g1, g2, g3, g4, g5⟩ := wb_add N w h inj a (hn a List.mem_cons_self) (hp a List.mem_cons_self)
    obtain ⟨u, i1, i2, i3, i4⟩ := ih v g2 (fun x hx => hn x (List.mem_cons_of_mem _ hx)) (fun x hx => hp x (List.mem_cons_of_mem _ hx))
    refine ⟨u, ?_, i2, ?_, ?_⟩
    · simp only [addAll, g1]; exact i1
    · rw [i3, g3, (g5 r).1, List.map_append, List.append_assoc]
    · rw [i4, g4, (g5 r).2, List.append_assoc]

/-- C190: whatever frames and pictures are added to a new workbook, in whatever order, to whatever sheets (no two names of which differ in case only), with or without
headings and blurbs: every addition succeeds; on each sheet what is written comes one below the other, so nothing overwrites anything; the bodies are all there, in order,
on the sheets asked for, in full height; tables and figures are numbered in order, and the table of contents names each caption with the sheet and row where it is. -/
theorem C190_partial (l : List Addition) (ha : Apart l) (hp : ∀ a ∈ l, Content.plain a.content = true) :
    ∃ w, addAll fresh l = .ok w ∧ Below w.marks ∧ w.marks.filterMap bodyOf = bodies 0 l
      ∧ w.marks.filterMap linkOf = w.toc ∧ w.toc.map (fun e => (e.1, e.2.1)) = headings 1 1 l := by
  let N : String → Prop := fun s => s ∈ ["Contents", "_log_", "_metadata_"] ∨ ∃ a ∈ l, a.sheet = s
  have low : ∀ s ∈ ["Contents", "_log_", "_metadata_"], s.toLower ∈ ["contents", "_log_", "_metadata_"] := by decide +kernel
  have own : ∀ s ∈ ["Contents", "_log_", "_metadata_"], ∀ t ∈ ["Contents", "_log_", "_metadata_"], s.toLower = t.toLower → s = t := by decide +kernel
  have inj : ∀ s t, N s → N t → s.toLower = t.toLower → s = t := by
    rintro s t (hs | ⟨a, h1, rfl⟩) (ht | ⟨b, h2, rfl⟩) e
    · exact own s hs t ht e
    · exact absurd (e ▸ low s hs) (ha.1 b h2)
    · exact absurd (e ▸ low t ht) (ha.1 a h1)
    · exact ha.2 a h1 b h2 e
  have h0 : WbInv N fresh := by
    refine ⟨?_, ?_, ?_, ?_, List.Pairwise.nil, rfl⟩
    · decide
    · intro p hp
      exact Or.inl ((by decide : ∀ q ∈ fresh.sheets, q.1 ∈ ["Contents", "_log_", "_metadata_"]) p hp)
    · intro m hm; cases hm
    · intro m hm; cases hm
  obtain ⟨v, h1, h2, h3, h4⟩ := wb_addAll N inj l fresh h0 (fun a h => Or.inr ⟨a, h, rfl⟩) hp
  exact ⟨v, h1, h2.below, h4, h2.links, h3⟩

/-- The end of a fault-free history, for the examples. -/
def wb_end (l : List Addition) : Option Writer :=
  match addAll fresh l with
  | .ok w => some w
  | .error _ => none

theorem wb_ex (o : Option Writer) (P : Writer → Prop) [DecidablePred P] (h : o.map (fun w => decide (P w)) = some true) : ∃ w, o = some w ∧ P w := by
  cases o with
  | none => cases h
  | some w => exact ⟨w, rfl, of_decide_eq_true (Option.some.inj h)⟩

/-- A model's tab and another: two tables, a picture without and one with a heading, a table without a header. -/
def wb_some : List Addition :=
  [⟨.frame 7 2 true true, "Parameters", some "Estimates", 3⟩, ⟨.picture 20, "Charts", none, 0⟩, ⟨.frame 4 1 false false, "Parameters", some "", 0⟩,
   ⟨.picture 11, "Parameters", some "Shares", 1⟩, ⟨.other, "Charts", some "Lost", 0⟩, ⟨.frame 2 1 false true, "Charts", some "Data", 0⟩]

example : Apart wb_some ∧ (∀ a ∈ wb_some, Content.plain a.content = true)
    ∧ headings 1 1 wb_some = [("Table 1: Estimates", "Parameters"), ("", "Parameters"), ("Figure 1: Shares", "Parameters"), ("Table 2: Data", "Charts")]
    ∧ bodies 0 wb_some = [(0, "Parameters", 10), (1, "Charts", 20), (2, "Parameters", 4), (3, "Parameters", 11), (5, "Charts", 3)]
    ∧ (wb_end wb_some).map (fun w => w.toc)
      = some [("Table 1: Estimates", "Parameters", 1), ("", "Parameters", 18), ("Figure 1: Shares", "Parameters", 27), ("Table 2: Data", "Charts", 24)] := by
  refine ⟨⟨by decide +kernel, by decide +kernel⟩, by decide, by decide +kernel, by decide, by decide +kernel⟩

/-- C190: a nested dict leaves the row for the next addition where it was before: whatever comes next on that sheet is written over the dict. -/
theorem C190_fails_dict (w v : Writer) (rows b : Nat) (name : String) (h : Option String) (hs : sheetFor w name = some name)
    (hv : add w (.dict rows) name h b = .ok v) : startOf v name = startOf w name + b := by
  unfold add at hv
  simp only [hs] at hv
  unfold addDict at hv
  cases hq : addFrame (withSheet w name name) rows 1 false false name name h (startOf w name) b with
  | error e => rw [hq] at hv; cases hv
  | ok u =>
    rw [hq] at hv
    simp only [Except.map, Except.ok.injEq] at hv
    rw [← hv]
    unfold startOf setStart
    simp only [List.lookup_cons, beq_self_eq_true, Option.getD_some]
    unfold putBlurb
    by_cases hb : b = 0
    · rw [if_pos hb, hb]; exact (Nat.add_zero _).symm
    · rw [if_neg hb]

/-- A dict and a table on the same sheet. -/
def wb_dict : List Addition := [⟨.dict 5, "Notes", some "Settings", 0⟩, ⟨.frame 2 1 false true, "Notes", some "Data", 0⟩]

example : ∃ w, wb_end wb_dict = some w ∧ w.marks = [⟨"Notes", 0, 2, .heading "Table 1: Settings"⟩, ⟨"Notes", 2, 7, .body 0⟩,
    ⟨"Notes", 0, 2, .heading "Table 2: Data"⟩, ⟨"Notes", 2, 5, .body 1⟩] ∧ ¬ Below w.marks := by
  unfold Below
  exact wb_ex _ _ (by decide +kernel)

/-- C190: a dict with a heading and a blurb: the blurb is written over the heading. -/
theorem C190_fails_dict_blurb : ∃ w, wb_end [⟨.dict 5, "Notes", some "Settings", 2⟩] = some w
    ∧ (⟨"Notes", 0, 2, .heading "Table 1: Settings"⟩ : Mark) ∈ w.marks ∧ (⟨"Notes", 0, 2, .blurb⟩ : Mark) ∈ w.marks := by
  exact wb_ex _ _ (by decide +kernel)

/-- C190: a table for a sheet whose name differs in case only from one of the workbook cannot be added. -/
theorem C190_fails_case (w : Writer) (rows levels b : Nat) (named header : Bool) (name other : String) (h : Option String)
    (hn : w.sheets.lookup name = none) (hs : sheetFor w name = some other) (ho : other ≠ name) (hf : w.sheets.lookup other = none) :
    add w (.frame rows levels named header) name h b = .error .duplicateSheet := by
  unfold add
  simp only [hs]
  unfold addFrame
  have hl : (withSheet w name other).sheets.lookup other = none := by
    unfold withSheet
    rw [if_neg (by rw [hn]; exact Bool.false_ne_true)]
    show (w.sheets ++ [(name, other)]).lookup other = none
    rw [List.lookup_append, hf, Option.none_or, List.lookup_cons, show (other == name) = false by simpa using ho]
    rfl
  have hp : ∀ (u : Writer) (r : Nat), (putHeading u true name other h r).1.sheets = u.sheets := by
    intro u r; cases h <;> rfl
  rw [if_pos (by rw [hp, hl]; rfl)]

example : ∃ w, wb_end [⟨.frame 3 1 false true, "Data", none, 0⟩] = some w ∧ w.sheets.lookup "data" = none ∧ sheetFor w "data" = some "data2"
    ∧ w.sheets.lookup "data2" = none := by
  exact wb_ex _ _ (by decide +kernel)

/-- C190: two pictures for such a sheet are put in the same place, and the table of contents gives a sheet they are not on. -/
theorem C190_fails_case_picture : ∃ w, wb_end [⟨.picture 9, "Plot", none, 0⟩, ⟨.picture 5, "plot", some "One", 0⟩, ⟨.picture 6, "plot", some "Two", 0⟩] = some w
    ∧ (⟨"plot2", 2, 7, .body 1⟩ : Mark) ∈ w.marks ∧ (⟨"plot2", 2, 8, .body 2⟩ : Mark) ∈ w.marks
    ∧ w.toc = [("Figure 1: One", "plot", 1), ("Figure 2: Two", "plot", 1)] := by
  exact wb_ex _ _ (by decide +kernel)

/-! ## C191: embedded objects -/

theorem wb_pieces (n : Nat) : ∀ s : List Char, s.length ≤ n → (pieces n s).flatten = s := by
  induction n with
  | zero => intro s h; rw [List.length_eq_zero_iff.1 (Nat.le_zero.1 h)]; rfl
  | succ n ih =>
    intro s h
    cases s with
    | nil => rfl
    | cons a t =>
      show ((a :: t).take 30000 :: pieces n ((a :: t).drop 30000)).flatten = _
      rw [List.flatten_cons, ih _ (by rw [List.length_drop]; omega), List.take_append_drop]

theorem wb_pieces_few (n : Nat) : ∀ (s : List Char) (k : Nat), s.length ≤ k * 30000 → (pieces n s).length ≤ k := by
  induction n with
  | zero => intro s k _; exact Nat.zero_le _
  | succ n ih =>
    intro s k h
    cases s with
    | nil => exact Nat.zero_le _
    | cons a t =>
      cases k with
      | zero => simp at h
      | succ k =>
        show (pieces n ((a :: t).drop 30000)).length + 1 ≤ k + 1
        refine Nat.succ_le_succ (ih _ _ ?_)
        rw [List.length_drop]; omega

theorem wb_pieces_short (n : Nat) : ∀ s : List Char, ∀ p ∈ pieces n s, p.length ≤ 30000 := by
  induction n with
  | zero => intro s p hp; cases hp
  | succ n ih =>
    intro s p hp
    cases s with
    | nil => cases hp
    | cons a t =>
      rcases List.mem_cons.1 hp with hp | hp
      · rw [hp, List.length_take]; omega
      · exact ih _ p hp

/-- The rows after these objects are embedded. -/
def embedded (l : List (String × List Char)) : List MetaRow := l.foldl (fun rows e => addMetadata rows e.1 e.2) []

/-- The longest text there is room for. -/
def roomFor : Nat := 16382 * 30000

theorem wb_row (k : String) (s : List Char) (h : s.length ≤ roomFor) :
    Larch.Workbook.joined ⟨k, (pieces s.length s).length, (pieces s.length s).take 16382⟩ = s := by
  unfold Larch.Workbook.joined
  have h1 := wb_pieces_few s.length s 16382 h
  show (((pieces s.length s).take 16382).take (pieces s.length s).length).flatten = s
  rw [List.take_of_length_le h1, List.take_length]
  exact wb_pieces _ _ (Nat.le_refl _)

theorem wb_embedded (l : List (String × List Char)) : ∀ r : List MetaRow, l.foldl (fun rows e => addMetadata rows e.1 e.2) r
    = r ++ l.map (fun e => (⟨e.1, (pieces e.2.length e.2).length, (pieces e.2.length e.2).take 16382⟩ : MetaRow)) := by
  induction l with
  | nil => intro r; exact (List.append_nil r).symm
  | cons a t ih =>
    intro r
    rw [List.foldl_cons, ih]
    simp [addMetadata]

/-- C191: objects embedded in a workbook under different keys are all read back as they were, one by one and all together; another key is not found. -/
theorem C191_partial (l : List (String × List Char)) (hk : (l.map (fun e => e.1)).Nodup) (hl : ∀ e ∈ l, e.2.length ≤ roomFor) :
    (∀ e ∈ l, loadMetadata (embedded l) e.1 = some e.2 ∧ loadAll (embedded l) e.1 = some e.2)
      ∧ ∀ k, k ∉ l.map (fun e => e.1) → loadMetadata (embedded l) k = none ∧ loadAll (embedded l) k = none := by
  have he := wb_embedded l []
  rw [List.nil_append] at he
  have hf : ∀ (l : List (String × List Char)) (k : String), k ∉ l.map (fun e => e.1) →
      (l.map (fun e => (⟨e.1, (pieces e.2.length e.2).length, (pieces e.2.length e.2).take 16382⟩ : MetaRow))).filter (fun r => r.key = k) = [] := by
    intro l k hk
    rw [List.filter_eq_nil_iff]
    intro r hr
    obtain ⟨e, h1, rfl⟩ := List.mem_map.1 hr
    simp only [decide_eq_true_eq]
    intro h2
    exact hk (List.mem_map.2 ⟨e, h1, h2⟩)
  have all : ∀ (rows : List MetaRow) (k : String), loadAll rows k = ((rows.filter (fun r => r.key = k)).getLast?).map Larch.Workbook.joined := by
    intro rows k
    unfold loadAll
    rw [← List.head?_filter, ← List.head?_reverse, List.filter_reverse]
  have one : ∀ e ∈ l, (embedded l).filter (fun r => r.key = e.1) = [⟨e.1, (pieces e.2.length e.2).length, (pieces e.2.length e.2).take 16382⟩] := by
    intro e h
    unfold embedded
    rw [he]
    clear he hl
    induction l with
    | nil => cases h
    | cons a t ih =>
      rw [List.map_cons, List.nodup_cons] at hk
      rw [List.map_cons]
      rcases List.mem_cons.1 h with h | h
      · subst h
        rw [List.filter_cons_of_pos (p := fun r : MetaRow => decide (r.key = e.1)) (by simp), hf t _ hk.1]
      · have : a.1 ≠ e.1 := fun h2 => hk.1 (List.mem_map.2 ⟨e, h, h2.symm⟩)
        rw [List.filter_cons_of_neg (p := fun r : MetaRow => decide (r.key = e.1)) (by simpa using this)]
        exact ih hk.2 h
  refine ⟨?_, ?_⟩
  · intro e h
    have h1 := one e h
    refine ⟨?_, ?_⟩
    · unfold loadMetadata
      simp only [h1]
      exact congrArg some (wb_row _ _ (hl e h))
    · rw [all, h1]
      exact congrArg some (wb_row _ _ (hl e h))
  · intro k h
    have h1 : (embedded l).filter (fun r => r.key = k) = [] := by
      unfold embedded
      rw [he]
      exact hf l k h
    refine ⟨?_, ?_⟩
    · unfold loadMetadata; simp only [h1]
    · rw [all, h1]; rfl

example : (([("m", "gASV".toList), ("pd", "AAAA".toList)] : List (String × List Char)).map (fun e => e.1)).Nodup
    ∧ ∀ e ∈ ([("m", "gASV".toList), ("pd", "AAAA".toList)] : List (String × List Char)), e.2.length ≤ roomFor := by decide +kernel

/-- C191: embedding an object again under the same key: reading it by its key raises. -/
theorem C191_fails_again (l : List (String × List Char)) (k : String) (s t : List Char) (h : (k, s) ∈ l) :
    loadMetadata (embedded (l ++ [(k, t)])) k = none := by
  unfold loadMetadata embedded
  rw [wb_embedded, List.nil_append, List.map_append, List.filter_append]
  obtain ⟨a, b, rfl⟩ := List.append_of_mem h
  simp only [List.map_append, List.map_cons, List.map_nil, List.filter_append]
  rw [List.filter_cons_of_pos (p := fun r : MetaRow => decide (r.key = k)) (by simp),
    List.filter_cons_of_pos (p := fun r : MetaRow => decide (r.key = k)) (by simp), List.filter_nil]
  generalize (List.filter _ (List.map _ a)) = x
  generalize (List.filter _ (List.map _ b)) = y
  cases x with
  | nil => cases y <;> rfl
  | cons p q => cases q <;> rfl

/-- C191: read all together, the last object embedded under a key is given. -/
theorem C191_last (l : List (String × List Char)) (k : String) (t : List Char) (ht : t.length ≤ roomFor) :
    loadAll (embedded (l ++ [(k, t)])) k = some t := by
  unfold loadAll embedded
  rw [wb_embedded, List.nil_append, List.map_append, List.reverse_append]
  show (List.find? _ (_ :: _)).map _ = _
  rw [List.find?_cons_of_pos (by simp)]
  exact congrArg some (wb_row _ _ ht)

/-- C191: a longer object is not read back: the pieces there is no room for are missing. -/
theorem C191_fails_long (k : String) (s : List Char) (h : roomFor < s.length) : loadMetadata (embedded [(k, s)]) k ≠ some s := by
  unfold loadMetadata embedded
  rw [wb_embedded, List.nil_append]
  simp only [List.map_cons, List.map_nil]
  rw [List.filter_cons_of_pos (p := fun r : MetaRow => decide (r.key = k)) (by simp), List.filter_nil]
  intro e
  simp only [Option.some.injEq] at e
  have hlen : (Larch.Workbook.joined ⟨k, (pieces s.length s).length, (pieces s.length s).take 16382⟩).length ≤ roomFor := by
    unfold Larch.Workbook.joined
    have hs : ∀ p ∈ (((pieces s.length s).take 16382).take (pieces s.length s).length), p.length ≤ 30000 := fun p hp =>
      wb_pieces_short _ _ p (List.mem_of_mem_take (List.mem_of_mem_take hp))
    have hc : (((pieces s.length s).take 16382).take (pieces s.length s).length).length ≤ 16382 := by
      rw [List.length_take, List.length_take]; omega
    show ((((pieces s.length s).take 16382).take (pieces s.length s).length).flatten).length ≤ _
    generalize (((pieces s.length s).take 16382).take (pieces s.length s).length) = q at hs hc
    have : ∀ q : List (List Char), (∀ p ∈ q, p.length ≤ 30000) → q.flatten.length ≤ q.length * 30000 := by
      intro q
      induction q with
      | nil => intro _; exact Nat.zero_le _
      | cons a t ih =>
        intro hq
        rw [List.flatten_cons, List.length_append, List.length_cons]
        have h1 := hq a List.mem_cons_self
        have h2 := ih (fun p hp => hq p (List.mem_cons_of_mem _ hp))
        omega
    have h3 := this q hs
    exact Nat.le_trans h3 (Nat.mul_le_mul_right 30000 hc)
  rw [e] at hlen
  exact absurd hlen (Nat.not_le.2 h)

example : ∃ s : List Char, roomFor < s.length := ⟨List.replicate (roomFor + 1) 'a', by rw [List.length_replicate]; exact Nat.lt_succ_self _⟩

end Larch.Props
