import Verif.Model.Link
import Verif.Props.Slots

/-!
# C102: evaluations use the model's own specification and parameters and the data attached to it
-/

namespace Larch.Props

open Function Larch Larch.Kernel Larch.Spec Larch.Slots Larch.Link

/-- The value of the parameter named `n` in a model. -/
noncomputable def valueOf (m : Mdl) (n : String) : ℝ := ((m.frame.find? fun e => e.1 = n).map Prod.snd).getD 0

/-- Names occur once in the parameter frame. -/
def UniqueNames (w : World) : Prop := ∀ m, ((w.models m).frame.map Prod.fst).Nodup

/-- What an evaluation of `m` should work with: positions for the model's own specification in the labels of the data attached
to it, and the model's own values. -/
def Right (w : World) (m : Nat) (u : Used) : Prop :=
  ∃ d, (w.models m).data = some d ∧ u.cols = (w.dfs d).cols ∧ u.values = (w.models m).frame.map Prod.snd ∧
    numbaSlots (table (w.models m) u.cols) (w.models m).spec = some u.slots

/-- Histories in the compiled engine in which each `DataFrames` is given to one model only (`owner`) and no assignment of data
raised. -/
inductive Alone (init : String → ℝ) (owner : Nat → Nat) : World → Prop
  | start (w : World) (hd : ∀ m, (w.models m).data = none) (hn : UniqueNames w) : Alone init owner w
  | edit {w : World} (h : Alone init owner w) (m : Nat) (S : NSpec) : Alone init owner (edit w m S)
  | values {w : World} (h : Alone init owner w) (m : Nat) (v : String → ℝ) : Alone init owner (setValues w m v)
  | attach {w : World} (h : Alone init owner w) (m d : Nat) (ho : owner d = m) (hok : (attach init w m d).2 = true) :
      Alone init owner (attach init w m d).1
  | eval {w : World} (h : Alone init owner w) (m : Nat) : Alone init owner (eval init w m).1

/-- Histories in the numba engine (any number of models may share data) in which a model is only given data with the same labels
(`shape`). -/
inductive SameLabels (init : String → ℝ) (shape : Nat → Cols) : World → Prop
  | start (w : World) (hd : ∀ m, (w.models m).data = none ∧ (w.models m).fixed = none) (hn : UniqueNames w) : SameLabels init shape w
  | edit {w : World} (h : SameLabels init shape w) (m : Nat) (S : NSpec) : SameLabels init shape (edit w m S)
  | values {w : World} (h : SameLabels init shape w) (m : Nat) (v : String → ℝ) : SameLabels init shape (setValues w m v)
  | attach {w : World} (h : SameLabels init shape w) (m d : Nat) (hs : (w.dfs d).cols = shape m) :
      SameLabels init shape (attachN init w m d).1
  | eval {w : World} (h : SameLabels init shape w) (m : Nat) : SameLabels init shape (evalN init w m).1

/-! ## The parameter frame -/

theorem ensure_unique (init : String → ℝ) (f : List (String × ℝ)) (l : List String) (h : (f.map Prod.fst).Nodup) :
    ((ensure init f l).map Prod.fst).Nodup ∧ ∃ t, ensure init f l = f ++ t := by
  unfold ensure
  induction l generalizing f with
  | nil => exact ⟨h, [], by simp⟩
  | cons n l ih =>
    rw [List.foldl_cons]
    by_cases hn : n ∈ f.map Prod.fst
    · rw [if_pos hn]; exact ih f h
    · rw [if_neg hn]
      obtain ⟨h1, t, h2⟩ := ih (f ++ [(n, init n)]) (by
        rw [List.map_append, List.nodup_append]
        refine ⟨h, by simp, ?_⟩
        intro a ha b hb
        simp only [List.map_cons, List.map_nil, List.mem_singleton] at hb
        rintro rfl
        exact hn (hb ▸ ha))
      exact ⟨h1, (n, init n) :: t, by rw [h2]; simp⟩

theorem unique_rescan {init : String → ℝ} {w : World} (h : UniqueNames w) (m : Nat) : UniqueNames (rescan init w m) := by
  unfold rescan
  split
  · intro k
    by_cases hk : k = m
    · subst hk
      simp only [update_self]
      exact (ensure_unique init _ _ (h k)).1
    · simp only [update_of_ne hk]; exact h k
  · exact h

theorem rescan_dfs {init : String → ℝ} {w : World} {m : Nat} : (rescan init w m).dfs = w.dfs := by
  unfold rescan; split <;> rfl

theorem rescan_other {init : String → ℝ} {w : World} {m k : Nat} (h : k ≠ m) : (rescan init w m).models k = w.models k := by
  unfold rescan; split
  · simp only [update_of_ne h]
  · rfl

theorem rescan_self (init : String → ℝ) (w : World) (m : Nat) :
    ((rescan init w m).models m).spec = (w.models m).spec ∧ ((rescan init w m).models m).mangled = (w.models m).mangled ∧
      ((rescan init w m).models m).data = (w.models m).data ∧ ((rescan init w m).models m).fixed = (w.models m).fixed ∧
      ((w.models m).mangled = false → (rescan init w m).models m = w.models m) := by
  unfold rescan
  split
  · rename_i hm
    refine ⟨by simp [scan], by simp [scan], by simp [scan], by simp [scan], fun h => ?_⟩
    rw [h] at hm; cases hm
  · exact ⟨rfl, rfl, rfl, rfl, fun _ => rfl⟩

theorem laid_values {m : Mdl} (c : Cols) (h : (m.frame.map Prod.fst).Nodup) :
    LaidParams (table m c) (valueOf m) (fun k => (m.frame.map Prod.snd).getD k 0) := by
  intro k hk
  simp only [table, List.length_map] at hk
  simp only [table, List.getElem_map, List.getD_eq_getElem?_getD, List.getElem?_map, List.getElem?_eq_getElem hk, Option.map_some,
    Option.getD_some]
  unfold valueOf
  have : m.frame.find? (fun e => e.1 = m.frame[k].1) = some m.frame[k] := by
    have hf : ∀ (l : List (String × ℝ)) (hn : (l.map Prod.fst).Nodup) (e : String × ℝ), e ∈ l →
        l.find? (fun x => x.1 = e.1) = some e := by
      intro l hn e he
      induction l with
      | nil => cases he
      | cons x l ih =>
        simp only [List.map_cons, List.nodup_cons] at hn
        rcases List.mem_cons.1 he with rfl | he
        · simp
        · have hne : x.1 ≠ e.1 := fun hx => hn.1 (hx ▸ List.mem_map.2 ⟨e, he, rfl⟩)
          rw [List.find?_cons_of_neg (by simpa using hne)]
          exact ih hn.2 he
    exact hf _ h _ (List.getElem_mem hk)
  rw [this]; rfl

/-! ## The compiled engine -/

/-- The invariant: names are unique; data attached to a model belong to it; and a model that is not mangled is the one its data
are linked to, with current positions. -/
structure LInv (owner : Nat → Nat) (w : World) : Prop where
  unique : UniqueNames w
  own : ∀ m d, (w.models m).data = some d → owner d = m
  link : ∀ m d, (w.models m).data = some d → (w.models m).mangled = false →
    (w.dfs d).linked = some m ∧ numbaSlots (table (w.models m) (w.dfs d).cols) (w.models m).spec = some (w.dfs d).slots

theorem link_ok {w w' : World} {m d : Nat} (h : link w m d = (w', true)) :
    w'.models = w.models ∧ (∀ k, (w'.dfs k).cols = (w.dfs k).cols) ∧ (∀ k, k ≠ d → w'.dfs k = w.dfs k) ∧
      (w'.dfs d).linked = some m ∧ numbaSlots (table (w.models m) (w.dfs d).cols) (w.models m).spec = some (w'.dfs d).slots := by
  unfold link at h
  simp only at h
  cases hs : compiledSlots (table (w.models m) (w.dfs d).cols) (w.models m).spec with
  | none => rw [hs] at h; simp at h
  | some M =>
    rw [hs] at h
    simp only [Prod.mk.injEq, and_true] at h
    subst h
    refine ⟨rfl, ?_, ?_, ?_, ?_⟩
    · intro k
      by_cases hk : k = d
      · subst hk; simp
      · simp [update_of_ne hk]
    · intro k hk; simp [update_of_ne hk]
    · simp
    · simp only [update_self]
      unfold compiledSlots at hs
      split at hs
      · exact hs
      · cases hs

theorem link_fail {w w' : World} {m d : Nat} (h : link w m d = (w', false)) :
    w'.models = w.models ∧ (∀ k, (w'.dfs k).cols = (w.dfs k).cols) ∧ ∀ k, k ≠ d → w'.dfs k = w.dfs k := by
  unfold link at h
  simp only at h
  cases hs : compiledSlots (table (w.models m) (w.dfs d).cols) (w.models m).spec with
  | some M => rw [hs] at h; simp at h
  | none =>
    rw [hs] at h
    simp only [Prod.mk.injEq, and_true] at h
    subst h
    refine ⟨rfl, ?_, ?_⟩
    · intro k
      by_cases hk : k = d
      · subst hk; simp
      · simp [update_of_ne hk]
    · intro k hk; simp [update_of_ne hk]

theorem inv_rescan {init : String → ℝ} {owner : Nat → Nat} {w : World} (h : LInv owner w) (m : Nat) : LInv owner (rescan init w m) := by
  obtain ⟨-, r2, r3, -, r5⟩ := rescan_self init w m
  refine ⟨unique_rescan h.unique m, ?_, ?_⟩
  · intro k d hd
    by_cases hk : k = m
    · subst hk; rw [r3] at hd; exact h.own k d hd
    · rw [rescan_other hk] at hd; exact h.own k d hd
  · intro k d hd hm
    rw [rescan_dfs]
    by_cases hk : k = m
    · subst hk
      rw [r3] at hd; rw [r2] at hm
      rw [r5 hm]
      exact h.link k d hd hm
    · rw [rescan_other hk] at hd hm ⊢; exact h.link k d hd hm

/-- An evaluation from a state with the invariant. -/
theorem inv_eval {init : String → ℝ} {owner : Nat → Nat} {w : World} (h : LInv owner w) (m : Nat) :
    LInv owner (eval init w m).1 ∧ ∀ u, (eval init w m).2 = some u → Right (eval init w m).1 m u := by
  unfold Larch.Link.eval
  cases hd : (w.models m).data with
  | none => exact ⟨h, fun u hu => by simp at hu⟩
  | some d =>
    simp only
    cases hm : (w.models m).mangled with
    | false =>
      simp only [Bool.false_eq_true, if_false]
      refine ⟨h, fun u hu => ?_⟩
      rw [Option.some.injEq] at hu
      subst hu
      obtain ⟨h1, h2⟩ := h.link m d hd hm
      exact ⟨d, hd, rfl, by simp [readIn, h1], h2⟩
    | true =>
      simp only [if_true]
      obtain ⟨r1, r2, r3, -, -⟩ := rescan_self init w m
      have hR := inv_rescan (init := init) h m
      split
      · cases hl : link (rescan init w m) m d with
        | mk w' b =>
          cases b with
          | false =>
            obtain ⟨l1, l2, l3⟩ := link_fail hl
            refine ⟨⟨?_, ?_, ?_⟩, fun u hu => by simp at hu⟩
            · intro k; simp only [l1]; exact hR.unique k
            · intro k e he; simp only [l1] at he; exact hR.own k e he
            · intro k e he hke
              simp only [l1] at he hke ⊢
              have hkm : k ≠ m := by
                rintro rfl
                rw [r2, hm] at hke; cases hke
              have hed : e ≠ d := by
                rintro rfl
                exact hkm ((hR.own k e he).symm.trans (h.own m e hd))
              rw [l3 e hed]
              exact hR.link k e he hke
          | true =>
            obtain ⟨l1, l2, l3, l4, l5⟩ := link_ok hl
            have hdat : ∀ k e, ((update w'.models m { w'.models m with mangled := false }) k).data = some e →
                ((rescan init w m).models k).data = some e := by
              intro k e he
              by_cases hk : k = m
              · subst hk; simp only [update_self, l1] at he; exact he
              · simp only [update_of_ne hk, l1] at he; exact he
            have hfr : ∀ k, ((update w'.models m { w'.models m with mangled := false }) k).frame = ((rescan init w m).models k).frame := by
              intro k
              by_cases hk : k = m
              · subst hk; simp only [update_self, l1]
              · simp only [update_of_ne hk, l1]
            have hsp : ∀ k, ((update w'.models m { w'.models m with mangled := false }) k).spec = ((rescan init w m).models k).spec := by
              intro k
              by_cases hk : k = m
              · subst hk; simp only [update_self, l1]
              · simp only [update_of_ne hk, l1]
            refine ⟨⟨?_, ?_, ?_⟩, ?_⟩
            · intro k; simp only [hfr]; exact hR.unique k
            · intro k e he; exact hR.own k e (hdat k e he)
            · intro k e he hke
              have he' := hdat k e he
              simp only [table, hfr, hsp]
              by_cases hk : k = m
              · subst hk
                have : e = d := by rw [r3, hd, Option.some.injEq] at he'; exact he'.symm
                subst this
                refine ⟨l4, ?_⟩
                rw [l2]
                exact l5
              · simp only [update_of_ne hk, l1] at hke
                have hed : e ≠ d := by
                  rintro rfl
                  exact hk ((hR.own k e he').symm.trans (h.own m e hd))
                rw [l3 e hed]
                exact hR.link k e he' hke
            · intro u hu
              simp only [Option.some.injEq] at hu
              subst hu
              refine ⟨d, ?_, rfl, ?_, ?_⟩
              · simp only [update_self, l1, r3, hd]
              · simp only [readIn, l4]
              · simp only [table, hfr, hsp]
                rw [l2]
                exact l5
      · exact ⟨hR, fun u hu => by simp at hu⟩

theorem alone_inv {init : String → ℝ} {owner : Nat → Nat} {w : World} (h : Alone init owner w) : LInv owner w := by
  induction h with
  | start w hd hn =>
    exact ⟨hn, fun m d h => by rw [hd m] at h; (cases h), fun m d h => by rw [hd m] at h; (cases h)⟩
  | @edit w _ m S ih =>
    refine ⟨?_, ?_, ?_⟩
    · intro k
      by_cases hk : k = m
      · subst hk; simp only [edit, update_self]; exact ih.unique k
      · simp only [edit, update_of_ne hk]; exact ih.unique k
    · intro k d hd
      by_cases hk : k = m
      · subst hk; simp only [edit, update_self] at hd; exact ih.own k d hd
      · simp only [edit, update_of_ne hk] at hd; exact ih.own k d hd
    · intro k d hd hm
      by_cases hk : k = m
      · subst hk; simp only [edit, update_self] at hm; cases hm
      · simp only [edit, update_of_ne hk] at hd hm ⊢; exact ih.link k d hd hm
  | @values w _ m v ih =>
    have hnames : ((w.models m).frame.map fun e => (e.1, v e.1)).map Prod.fst = (w.models m).frame.map Prod.fst := by
      rw [List.map_map]; rfl
    refine ⟨?_, ?_, ?_⟩
    · intro k
      by_cases hk : k = m
      · subst hk; simp only [setValues, update_self, hnames]; exact ih.unique k
      · simp only [setValues, update_of_ne hk]; exact ih.unique k
    · intro k d hd
      by_cases hk : k = m
      · subst hk; simp only [setValues, update_self] at hd; exact ih.own k d hd
      · simp only [setValues, update_of_ne hk] at hd; exact ih.own k d hd
    · intro k d hd hm
      by_cases hk : k = m
      · subst hk
        simp only [setValues, update_self] at hd hm ⊢
        simp only [table, hnames]
        exact ih.link k d hd hm
      · simp only [setValues, update_of_ne hk] at hd hm ⊢; exact ih.link k d hd hm
  | @attach w _ m d ho hok ih =>
    unfold Larch.Link.attach at hok ⊢
    simp only at hok ⊢
    have hR := inv_rescan (init := init) ih m
    split at hok
    · rename_i hsuf
      rw [if_pos hsuf]
      cases hl : link { rescan init w m with models := update (rescan init w m).models m { (rescan init w m).models m with data := some d } } m d with
      | mk w' b =>
        rw [hl] at hok
        simp only at hok
        subst hok
        obtain ⟨l1, l2, l3, l4, l5⟩ := link_ok hl
        refine ⟨?_, ?_, ?_⟩
        · intro k
          simp only [l1]
          by_cases hk : k = m
          · subst hk; simp only [update_self]; exact hR.unique k
          · simp only [update_of_ne hk]; exact hR.unique k
        · intro k e he
          simp only [l1] at he
          by_cases hk : k = m
          · subst hk
            simp only [update_self, Option.some.injEq] at he
            subst he; exact ho
          · simp only [update_of_ne hk] at he; exact hR.own k e he
        · intro k e he hke
          simp only [l1] at he hke ⊢
          by_cases hk : k = m
          · subst hk
            simp only [update_self, Option.some.injEq] at he
            subst he
            exact ⟨l4, by rw [l2]; exact l5⟩
          · simp only [update_of_ne hk] at he hke ⊢
            have hed : e ≠ d := by
              rintro rfl
              exact hk ((hR.own k e he).symm.trans ho)
            rw [l3 e hed]
            exact hR.link k e he hke
    · cases hok
  | @eval w _ m ih => exact (inv_eval ih m).1

/-- **C102 (compiled engine), partial: each `DataFrames` is used by one model only and assignments of data do not raise** (see
`C102_fails_shared`, `C102_fails_after_error`).  After any such history an evaluation works with positions for the model's own
specification in its own data, and with its own parameter values. -/
theorem C102_compiled_partial {init : String → ℝ} {owner : Nat → Nat} {w : World} (h : Alone init owner w) (m : Nat) (u : Used)
    (hu : (eval init w m).2 = some u) : Right (eval init w m).1 m u :=
  (inv_eval (alone_inv h) m).2 u hu

/-! ## The numba engine -/

/-- The invariant: names are unique; attached data have the model's labels; stored positions are current. -/
structure InvN (shape : Nat → Cols) (w : World) : Prop where
  unique : UniqueNames w
  labels : ∀ m d, (w.models m).data = some d → (w.dfs d).cols = shape m
  fixed : ∀ m M, (w.models m).fixed = some M → (w.models m).mangled = false ∧
    numbaSlots (table (w.models m) (shape m)) (w.models m).spec = some M

theorem invN_rescan {init : String → ℝ} {shape : Nat → Cols} {w : World} (h : InvN shape w) (m : Nat) : InvN shape (rescan init w m) := by
  obtain ⟨-, r2, r3, r4, r5⟩ := rescan_self init w m
  refine ⟨unique_rescan h.unique m, ?_, ?_⟩
  · intro k d hd
    rw [rescan_dfs]
    by_cases hk : k = m
    · subst hk; rw [r3] at hd; exact h.labels k d hd
    · rw [rescan_other hk] at hd; exact h.labels k d hd
  · intro k M hM
    by_cases hk : k = m
    · subst hk
      rw [r4] at hM
      have h1 := h.fixed k M hM
      rw [r5 h1.1]; exact h1
    · rw [rescan_other hk] at hM ⊢; exact h.fixed k M hM

theorem invN_eval {init : String → ℝ} {shape : Nat → Cols} {w : World} (h : InvN shape w) (m : Nat) :
    InvN shape (evalN init w m).1 ∧ ∀ u, (evalN init w m).2 = some u → Right (evalN init w m).1 m u := by
  unfold evalN
  cases hd : (w.models m).data with
  | none => exact ⟨h, fun u hu => by simp at hu⟩
  | some d =>
    simp only
    have hR := invN_rescan (init := init) h m
    obtain ⟨r1, r2, r3, r4, r5⟩ := rescan_self init w m
    have hcols := h.labels m d hd
    split
    · exact ⟨hR, fun u hu => by simp at hu⟩
    · generalize hw1 : ({ rescan init w m with models := update (rescan init w m).models m { (rescan init w m).models m with mangled := false } } : World) = w1
      have e1 : ∀ k, k ≠ m → w1.models k = (rescan init w m).models k := by
        intro k hk; rw [← hw1]; simp only [update_of_ne hk]
      have e2 : w1.models m = { (rescan init w m).models m with mangled := false } := by rw [← hw1]; simp only [update_self]
      have e3 : w1.dfs = w.dfs := by rw [← hw1]; exact rescan_dfs
      have h1 : InvN shape w1 := by
        refine ⟨?_, ?_, ?_⟩
        · intro k
          by_cases hk : k = m
          · subst hk; rw [e2]; exact hR.unique k
          · rw [e1 k hk]; exact hR.unique k
        · intro k e he
          rw [e3]
          by_cases hk : k = m
          · subst hk; rw [e2] at he; simp only [r3] at he; exact h.labels k e he
          · rw [e1 k hk, rescan_other hk] at he; exact h.labels k e he
        · intro k M hM
          by_cases hk : k = m
          · subst hk
            rw [e2] at hM ⊢
            exact ⟨rfl, (hR.fixed k M hM).2⟩
          · rw [e1 k hk] at hM ⊢; exact hR.fixed k M hM
      have hdata : (w1.models m).data = some d := by rw [e2]; simp only [r3, hd]
      have hcols1 : (w1.dfs d).cols = shape m := by rw [e3]; exact hcols
      unfold computeN
      cases hf : (w1.models m).fixed with
      | some M =>
        refine ⟨h1, fun u hu => ?_⟩
        rw [Option.some.injEq] at hu
        subst hu
        refine ⟨d, hdata, rfl, rfl, ?_⟩
        rw [hcols1]
        exact (h1.fixed m M hf).2
      | none =>
        cases hM : numbaSlots (table (w1.models m) (w1.dfs d).cols) (w1.models m).spec with
        | none => exact ⟨h1, fun u hu => by simp at hu⟩
        | some M =>
          simp only
          refine ⟨⟨?_, ?_, ?_⟩, fun u hu => ?_⟩
          · intro k
            by_cases hk : k = m
            · subst hk; simp only [update_self]; exact h1.unique k
            · simp only [update_of_ne hk]; exact h1.unique k
          · intro k e he
            by_cases hk : k = m
            · subst hk; simp only [update_self] at he; exact h1.labels k e he
            · simp only [update_of_ne hk] at he; exact h1.labels k e he
          · intro k M' hM'
            by_cases hk : k = m
            · subst hk
              simp only [update_self, Option.some.injEq] at hM' ⊢
              subst hM'
              refine ⟨by rw [e2], ?_⟩
              rw [hcols1] at hM
              exact hM
            · simp only [update_of_ne hk] at hM' ⊢; exact h1.fixed k M' hM'
          · rw [Option.some.injEq] at hu
            subst hu
            refine ⟨d, by simp only [update_self]; exact hdata, rfl, by simp only [update_self], ?_⟩
            simp only [update_self, table]
            exact hM

theorem same_inv {init : String → ℝ} {shape : Nat → Cols} {w : World} (h : SameLabels init shape w) : InvN shape w := by
  induction h with
  | start w hd hn =>
    exact ⟨hn, fun m d h => by rw [(hd m).1] at h; (cases h), fun m M h => by rw [(hd m).2] at h; (cases h)⟩
  | @edit w _ m S ih =>
    refine ⟨?_, ?_, ?_⟩
    · intro k
      by_cases hk : k = m
      · subst hk; simp only [edit, update_self]; exact ih.unique k
      · simp only [edit, update_of_ne hk]; exact ih.unique k
    · intro k d hd
      by_cases hk : k = m
      · subst hk; simp only [edit, update_self] at hd; exact ih.labels k d hd
      · simp only [edit, update_of_ne hk] at hd; exact ih.labels k d hd
    · intro k M hM
      by_cases hk : k = m
      · subst hk; simp only [edit, update_self] at hM; cases hM
      · simp only [edit, update_of_ne hk] at hM ⊢; exact ih.fixed k M hM
  | @values w _ m v ih =>
    have hnames : ((w.models m).frame.map fun e => (e.1, v e.1)).map Prod.fst = (w.models m).frame.map Prod.fst := by
      rw [List.map_map]; rfl
    refine ⟨?_, ?_, ?_⟩
    · intro k
      by_cases hk : k = m
      · subst hk; simp only [setValues, update_self, hnames]; exact ih.unique k
      · simp only [setValues, update_of_ne hk]; exact ih.unique k
    · intro k d hd
      by_cases hk : k = m
      · subst hk; simp only [setValues, update_self] at hd; exact ih.labels k d hd
      · simp only [setValues, update_of_ne hk] at hd; exact ih.labels k d hd
    · intro k M hM
      by_cases hk : k = m
      · subst hk
        simp only [setValues, update_self] at hM ⊢
        simp only [table, hnames]
        exact ih.fixed k M hM
      · simp only [setValues, update_of_ne hk] at hM ⊢; exact ih.fixed k M hM
  | @attach w _ m d hs ih =>
    have hR := invN_rescan (init := init) ih m
    unfold attachN
    simp only
    split
    · refine ⟨?_, ?_, ?_⟩
      · intro k
        by_cases hk : k = m
        · subst hk; simp only [update_self]; exact hR.unique k
        · simp only [update_of_ne hk]; exact hR.unique k
      · intro k e he
        by_cases hk : k = m
        · subst hk
          simp only [update_self, Option.some.injEq] at he
          subst he
          simp only [rescan_dfs]; exact hs
        · simp only [update_of_ne hk] at he; exact hR.labels k e he
      · intro k M hM
        by_cases hk : k = m
        · subst hk; simp only [update_self] at hM ⊢; exact hR.fixed k M hM
        · simp only [update_of_ne hk] at hM ⊢; exact hR.fixed k M hM
    · exact hR
  | @eval w _ m ih => exact (invN_eval ih m).1

/-- **C102 (numba engine), partial: a model is only given data with the same labels in the same order** (see
`C102_fails_columns`).  After any such history, with any number of models sharing data, an evaluation works with positions for
the model's own specification in its data, and with its own parameter values. -/
theorem C102_numba_partial {init : String → ℝ} {shape : Nat → Cols} {w : World} (h : SameLabels init shape w) (m : Nat) (u : Used)
    (hu : (evalN init w m).2 = some u) : Right (evalN init w m).1 m u :=
  (invN_eval (same_inv h) m).2 u hu

/-! ## What this means for the utilities -/

/-- What `Right` gives for the compiled engine, with C101: the computed utilities are those of the model's own specification at its
own parameter values on the data attached to it, up to the common shift of the overflow guard (C73); here for dense data. -/
theorem C102_compiled_utility_partial {init : String → ℝ} {owner : Nat → Nat} {w : World} (h : Alone init owner w) (m : Nat) (u : Used)
    (hu : (eval init w m).2 = some u) :
    ∃ d, ((eval init w m).1.models m).data = some d ∧ u.cols = ((eval init w m).1.dfs d).cols ∧
      ∀ (_ : u.cols.ce = none) (_ : sufficient (table ((eval init w m).1.models m) u.cols) ((eval init w m).1.models m).spec = true)
        (co : String → X) (ca : Int → String → X) (hold : Nat → Bool) (C : Case) (_ : C.ce = none)
        (_ : LaidRow (u.cols.co.getD []) co C.co)
        (_ : ∀ j (h : j < u.cols.alts.length), LaidRow (u.cols.ca.getD []) (ca u.cols.alts[j]) (C.ca j))
        (_ : NFinite ((eval init w m).1.models m).spec u.cols.alts C.av co ca)
        (_ : NPositive ((eval init w m).1.models m).spec u.cols.alts C.av (valueOf ((eval init w m).1.models m)) ca),
        ∃ s : ℝ, ∀ j (hj : j < u.cols.alts.length),
          (Compiled.assemble (fun k => u.values.getD k 0) hold u.cols.alts.length u.slots C).U j =
            if C.av j then .fin (nUtility ((eval init w m).1.models m).spec (valueOf ((eval init w m).1.models m))
              (fun n => (co n).toReal) (fun a n => (ca a n).toReal) u.cols.alts[j] - s) else .ninf := by
  obtain ⟨d, hd, hc, hv, hs⟩ := C102_compiled_partial h m u hu
  have hI := (inv_eval (init := init) (alone_inv h) m).1
  refine ⟨d, hd, hc, ?_⟩
  intro hce hsuf co ca hold C hC hco hca hF hP
  have hcs : compiledSlots (table ((eval init w m).1.models m) u.cols) ((eval init w m).1.models m).spec = some u.slots := by
    unfold compiledSlots
    rw [if_pos hsuf]; exact hs
  have := C101_compiled_utility_partial hcs (Or.inr hce) (valueOf ((eval init w m).1.models m)) co ca
    (fun k => u.values.getD k 0) hold C C.av (by rw [hv]; exact laid_values u.cols (hI.unique m)) hco
    (fun _ => ⟨hC, fun j hj => ⟨rfl, hca j hj⟩⟩) (fun cols hcols => by simp only [table] at hcols; rw [hce] at hcols; cases hcols) hF hP
  exact this

/-- The same for the numba engine, whatever models share the data. -/
theorem C102_numba_utility_partial {init : String → ℝ} {shape : Nat → Cols} {w : World} (h : SameLabels init shape w) (m : Nat)
    (u : Used) (hu : (evalN init w m).2 = some u) :
    ∃ d, ((evalN init w m).1.models m).data = some d ∧ u.cols = ((evalN init w m).1.dfs d).cols ∧
      ∀ (_ : u.cols.ca.isSome) (co : String → X) (ca : Int → String → X) (hold : Nat → Bool) (C : Case) (_ : C.ce = none)
        (_ : LaidRow (u.cols.co.getD []) co C.co)
        (_ : ∀ j (h : j < u.cols.alts.length), LaidRow (u.cols.ca.getD []) (ca u.cols.alts[j]) (C.ca j))
        (_ : NFinite ((evalN init w m).1.models m).spec u.cols.alts C.av co ca)
        (_ : NPositive ((evalN init w m).1.models m).spec u.cols.alts C.av (valueOf ((evalN init w m).1.models m)) ca),
        ∀ j (hj : j < u.cols.alts.length),
          (assemble (fun k => u.values.getD k 0) hold u.cols.alts.length u.slots C).U j =
            if C.av j then .fin (nUtility ((evalN init w m).1.models m).spec (valueOf ((evalN init w m).1.models m))
              (fun n => (co n).toReal) (fun a n => (ca a n).toReal) u.cols.alts[j]) else .ninf := by
  obtain ⟨d, hd, hc, hv, hs⟩ := C102_numba_partial h m u hu
  have hI := (invN_eval (init := init) (same_inv h) m).1
  refine ⟨d, hd, hc, ?_⟩
  intro hcaS co ca hold C hC hco hca hF hP
  exact C101_numba_utility_partial hs (Or.inl hcaS) (valueOf ((evalN init w m).1.models m)) co ca
    (fun k => u.values.getD k 0) hold C hC (by rw [hv]; exact laid_values u.cols (hI.unique m)) hco hca hF hP

/-! ## Where the full statement fails -/

/-- A new model with one parameter `b` of value `x`. -/
def fresh (S : NSpec) (x : ℝ) : Mdl := ⟨S, [("b", x)], true, none, none⟩

/-- Two models with the specification `S` and values 1 and 2, and two `DataFrames` with the given labels. -/
def two (S : NSpec) (c0 c1 : Cols) : World :=
  ⟨fun m => if m = 0 then fresh S 1 else fresh S 2, fun d => if d = 0 then ⟨c0, none, ⟨[], none, [], []⟩⟩ else ⟨c1, none, ⟨[], none, [], []⟩⟩⟩

theorem two_unique (S : NSpec) (c0 c1 : Cols) : UniqueNames (two S c0 c1) := by
  intro m
  unfold two
  by_cases h : m = 0 <;> simp [h, fresh]

theorem two_data (S : NSpec) (c0 c1 : Cols) (m : Nat) : ((two S c0 c1).models m).data = none ∧ ((two S c0 c1).models m).fixed = none := by
  unfold two
  by_cases h : m = 0 <;> simp [h, fresh]

def costCols : Cols := ⟨[1, 2], none, some ["cost"], none⟩

/-- A constant-free case utility of alternative 2. -/
def incomeSpec : NSpec := { co := [(2, [{ param := "b", data := "income", scale := 1 }])], ca := [], q := [], qScale := none }

set_option linter.unusedSimpArgs false

/-- Runs a concrete history. -/
local macro "run" : tactic => `(tactic| simp [Larch.Link.eval, attach, attachN, evalN, computeN, link, rescan, scan, ensure, scanNames, two, fresh, costSpec, costCols, incomeSpec, table, sufficient, caOrCe, compiledSlots, numbaSlots, allOf, caSlot, getLoc, coSlots, coSlot, dictLoc, scaleSlot, readIn, leftover, fillCo, blank, setValues])

/-- **C102 violated (compiled engine, shared data).**  Two models are given the same `DataFrames`, the second after the first was
evaluated.  Evaluating the first again uses the parameter value of the second. -/
theorem C102_fails_shared (init : String → ℝ) :
    let w1 := (attach init (two costSpec costCols costCols) 0 0).1
    let w2 := (Larch.Link.eval init w1 0).1
    let w3 := (attach init w2 1 0).1
    ((Larch.Link.eval init w1 0).2.map Used.values = some [1]) ∧ (attach init w2 1 0).2 = true ∧
      (w3.models 0).frame = [("b", 1)] ∧ (Larch.Link.eval init w3 0).2.map Used.values = some [2] := by
  run

/-- **C102 violated (compiled engine, after an error).**  A model is evaluated, then given data without its alternative 2 (and
with `age` as first column), which raises.  The data is attached nevertheless, and the next evaluation succeeds: it puts the
coefficient of income on the age and in the utility of the first alternative. -/
theorem C102_fails_after_error (init : String → ℝ) :
    let w1 := (attach init (two incomeSpec ⟨[1, 2], some ["income"], none, none⟩ ⟨[1, 3], some ["age", "income"], none, none⟩) 0 0).1
    let w2 := (Larch.Link.eval init w1 0).1
    let w3 := (attach init w2 0 1).1
    (attach init w2 0 1).2 = false ∧ (w3.models 0).data = some 1 ∧
      (Larch.Link.eval init w3 0).2.map Used.slots = some ⟨[], none, [], [{ alt := 0, scale := 1, param := 0, data := some 0 }]⟩ := by
  run

/-- **C102 violated (numba engine, other columns).**  A model is evaluated, then given data whose columns are in another order.
The next evaluation multiplies the cost coefficient with the time. -/
theorem C102_fails_columns (init : String → ℝ) :
    let w1 := (attachN init (two costSpec ⟨[1, 2], none, some ["cost", "time"], none⟩ ⟨[1, 2], none, some ["time", "cost"], none⟩) 0 0).1
    let w2 := (evalN init w1 0).1
    let w3 := (attachN init w2 0 1).1
    (attachN init w2 0 1).2 = true ∧ (w3.models 0).data = some 1 ∧
      ((evalN init w3 0).2.map fun u => u.slots.ca.map fun t => (u.cols.ca.getD [])[t.data]?) = some [some "time"] := by
  run

/-! ## A concrete history -/

/-- Two models with their own data; the values of the first are changed after an evaluation. -/
example (init : String → ℝ) : ∃ w, Alone init (fun d => d) w ∧ (Larch.Link.eval init w 0).2.map Used.values = some [7] ∧
    (Larch.Link.eval init w 1).2.map Used.values = some [2] := by
  refine ⟨_, ((((Alone.start (two costSpec costCols costCols) (fun m => (two_data _ _ _ m).1) (two_unique _ _ _)).attach 0 0 rfl (by run)).attach 1 1 rfl (by run)).eval
    0).values 0 (fun _ => 7), by run, by run⟩

/-- Two models sharing data in the numba engine. -/
example (init : String → ℝ) : ∃ w, SameLabels init (fun _ => costCols) w ∧ (evalN init w 0).2.map Used.values = some [7] ∧
    (evalN init w 1).2.map Used.values = some [2] := by
  refine ⟨_, ((((SameLabels.start (two costSpec costCols costCols) (two_data _ _ _) (two_unique _ _ _)).attach 0 0 (by run)).attach 1 0 (by run)).eval
    0).values 0 (fun _ => 7), by run, by run⟩

end Larch.Props
