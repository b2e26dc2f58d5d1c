import Verif.Lemmas.Display
import Verif.Lemmas.Linear

/-!
# C115: printed linear functions
-/

namespace Larch.Props

open Larch.Py Larch.Linear Larch.Display

/-! ## What the text shows -/

theorem has_compE {N : Names} {env : Env} {p : String → ℝ} {dv : List Tok → ℝ} {l : List Comp} (hf : Faithful N env p dv l)
    {c : Comp} (hc : c ∈ l) : (compE N c).Has env (termVal p dv c) :=
  has_tail (x := p c.param) (hf.par c hc ▸ E.Has.var) (hf.dat c hc) (hf.lit c hc)

theorem has_all {α : Type} {env : Env} (l : List α) (f : α → E) (v : α → ℝ) (h : ∀ a ∈ l, (f a).Has env (v a)) :
    List.Forall₂ (fun e v => E.Has env e v) (l.map f) (l.map v) := by
  induction l with
  | nil => exact .nil
  | cons a l ih => exact .cons (h a (by simp)) (ih (fun b hb => h b (by simp [hb])))

theorem full_func (N : Names) (c : Comp) (l : List Comp) :
    Full (funcToks N (c :: l)) ((l.map (compE N)).foldl (fun a b => .bin .add a b) (compE N c)) :=
  full_sum (term_comp N c) (forall₂_map _ _ (term_comp N) l)

theorem full_code (N : Names) (c : Comp) (l : List Comp) :
    Full (codeToks N (c :: l)) ((l.map (compE N)).foldl (fun a b => .bin .add a b) (compE N c)) :=
  full_sum (t := Tok.lp :: (compToks N c ++ [Tok.rp])) (fac_paren (term_comp N c).full).term
    (forall₂_map (fun c => Tok.lp :: (compToks N c ++ [Tok.rp])) (compE N) (fun c => (fac_paren (term_comp N c).full).term) l)

theorem value_of_full {env : Env} {ts : List Tok} {e : E} {v : ℝ} (h : Full ts e) (hv : e.Has env v) (x : ℝ) :
    Py.Has env ts x ↔ x = v := by
  have h1 : Py.Has env ts v := ⟨e, h.reads, hv⟩
  exact ⟨fun hx => hx.det h1, fun hx => hx ▸ h1⟩

theorem has_funcE {N : Names} {env : Env} {p : String → ℝ} {dv : List Tok → ℝ} {c : Comp} {l : List Comp}
    (hf : Faithful N env p dv (c :: l)) :
    ((l.map (compE N)).foldl (fun a b => E.bin .add a b) (compE N c)).Has env (funcVal p dv (c :: l)) := by
  have := has_foldl _ _ (has_all l (compE N) (termVal p dv) (fun a ha => has_compE hf (by simp [ha]))) _ _
    (has_compE hf (c := c) (by simp))
  simpa [funcVal] using this

/-- **C115.** The text of a linear function (its `repr`, or `__code__`), read with Python's precedence, has exactly the value of
the function, for all parameter and data values. -/
theorem C115_shows_value (N : Names) (env : Env) (p : String → ℝ) (dv : List Tok → ℝ) (l : List Comp) (hl : l ≠ [])
    (hf : Faithful N env p dv l) (x : ℝ) :
    (Py.Has env (funcToks N l) x ↔ x = funcVal p dv l) ∧ (Py.Has env (codeToks N l) x ↔ x = funcVal p dv l) := by
  cases l with
  | nil => exact absurd rfl hl
  | cons c l => exact ⟨value_of_full (full_func N c l) (has_funcE hf) x, value_of_full (full_code N c l) (has_funcE hf) x⟩

/-! ## Reading back -/

/-- What Python computes for the printed component: a parameter when the term is just a parameter. -/
noncomputable def backObj (c : Comp) : Obj := if c.scale = 1 ∧ dataIsOne c = true then .par c.param else .comp c

/-- The expression the printed component reads as. -/
theorem eval_compE {N : Names} {ns : String → Option Obj} {l : List Comp} (hn : Namespace N ns l) (fm : Fmt) (txt : ℝ → String)
    {c : Comp} (hc : c ∈ l) :
    ∃ ex, toEx ns txt (compE N c) = some ex ∧ ex.eval fm = .ok (backObj c) := by
  have hp := hn.par c hc
  have hd := hn.dat c hc
  unfold compE tailE backObj
  by_cases h1 : c.scale = 1
  · by_cases h2 : dataIsOne c = true
    · refine ⟨.leaf (.par c.param), ?_, ?_⟩
      · simp [h1, h2, toEx, hp]
      · simp [h1, h2, Ex.eval]
    · refine ⟨.bin .mul (.leaf (.par c.param)) (.leaf (.dat c.data)), ?_, ?_⟩
      · simp [h1, h2, toEx, hp, hd]
      · rcases c with ⟨cp, cd, cs⟩
        simp only at h1 h2 ⊢
        subst h1
        simp [h2, Ex.eval, apply, mul, dispatch, mulSlot, Obj.kind, parMul, ok]
  · have h3 : ¬ (c.scale = 1 ∧ dataIsOne c = true) := fun h => h1 h.1
    have hone : ∀ d, dmul fm one d = d := fun d => by simp [dmul, isOne, isTxt, one]
    by_cases h2 : c.scale < 0
    · refine ⟨.bin .mul (.bin .mul (.leaf (.par c.param)) (.neg (.leaf (.num ⟨false, txt (-c.scale), -c.scale⟩))))
        (.leaf (.dat c.data)), ?_, ?_⟩
      · simp [h1, h2, toEx, hp, hd, numE]
      · simp [h3, Ex.eval, apply, mul, dispatch, mulSlot, Obj.kind, parMul, ok, Linear.neg, compMul, compMulDat, hone, Num.val]
    · refine ⟨.bin .mul (.bin .mul (.leaf (.par c.param)) (.leaf (.num ⟨false, txt c.scale, c.scale⟩)))
        (.leaf (.dat c.data)), ?_, ?_⟩
      · simp [h1, h2, toEx, hp, hd, numE]
      · simp [h3, Ex.eval, apply, mul, dispatch, mulSlot, Obj.kind, parMul, ok, compMul, compMulDat, hone, Num.val]

/-- The object stands for the list of terms. -/
def Stands : Obj → List Comp → Prop
  | .par s, l => l = [ofPar s]
  | .comp c, l => l = [c]
  | .func m, l => l = m ∧ 2 ≤ m.length
  | _, _ => False

/-- A term that is not dropped as zero and whose data, if it is the number one, is written `1`. -/
def Plain (c : Comp) : Prop := c.scale ≠ 0 ∧ isZero c.data = false ∧ (dataIsOne c = true → c.data = one)

theorem stands_back {c : Comp} (h : Plain c) : Stands (backObj c) [c] := by
  unfold backObj
  split
  · rename_i h1
    rcases c with ⟨cp, cd, cs⟩
    have := h.2.2 h1.2
    simp only at this h1
    simp [Stands, ofPar, this, h1.1]
  · rfl

theorem isZero_one : isZero one = false := by decide

theorem stands_add {fm : Fmt} {o : Obj} {l : List Comp} {c : Comp} (ho : Stands o l) (hl : ∀ d ∈ l, Plain d) (hc : Plain c) :
    ∃ o', add fm o (backObj c) = .ok o' ∧ Stands o' (l ++ [c]) := by
  have hb : backObj c = .par c.param ∧ c = ofPar c.param ∨ backObj c = .comp c := by
    unfold backObj
    split
    · rename_i h1
      left
      refine ⟨rfl, ?_⟩
      rcases c with ⟨cp, cd, cs⟩
      have := hc.2.2 h1.2
      simp only at this h1
      simp [ofPar, this, h1.1]
    · exact .inr rfl
  have hadd : ∀ a b : Comp, Plain a → Plain b → compAddComp a b = .func [a, b] := by
    intro a b ha hb
    simp [compAddComp, ha.1, hb.1, ha.2.1, hb.2.1]
  have hfadd : ∀ (m : List Comp) (b : Comp), Plain b → funcAddComp m b = .func (m ++ [b]) := by
    intro m b hb
    simp [funcAddComp, hb.1, hb.2.1]
  cases o with
  | par s =>
    have h1 : l = [ofPar s] := ho
    subst h1
    have hs := hl _ (List.mem_singleton.2 rfl)
    refine ⟨.func [ofPar s, c], ?_, by simp [Stands]⟩
    rcases hb with ⟨hb, he⟩ | hb
    · rw [hb]
      have := hadd (ofPar s) (ofPar c.param) hs (he ▸ hc)
      simp only [add, dispatch, addSlot, Obj.kind, parAdd, ok, this]
      rw [← he]
    · rw [hb]
      simp only [add, dispatch, addSlot, Obj.kind, parAdd, ok, hadd _ _ hs hc]
  | comp d =>
    have h1 : l = [d] := ho
    subst h1
    have hs := hl _ (List.mem_singleton.2 rfl)
    refine ⟨.func [d, c], ?_, by simp [Stands]⟩
    rcases hb with ⟨hb, he⟩ | hb
    · rw [hb]
      have := hadd d (ofPar c.param) hs (he ▸ hc)
      simp only [add, dispatch, addSlot, Obj.kind, compAdd, ok, this]
      rw [← he]
    · rw [hb]
      simp only [add, dispatch, addSlot, Obj.kind, compAdd, ok, hadd _ _ hs hc]
  | func m =>
    obtain ⟨rfl, h2⟩ := ho
    refine ⟨.func (l ++ [c]), ?_, by simp [Stands]; omega⟩
    rcases hb with ⟨hb, he⟩ | hb
    · rw [hb]
      have := hfadd l (ofPar c.param) (he ▸ hc)
      simp only [add, dispatch, addSlot, Obj.kind, funcAdd, ok, this]
      rw [← he]
    · rw [hb]
      simp only [add, dispatch, addSlot, Obj.kind, funcAdd, ok, hfadd _ _ hc]
  | num n => exact ho.elim
  | dat d => exact ho.elim
  | pm e => exact ho.elim

theorem eval_foldl {N : Names} {ns : String → Option Obj} (fm : Fmt) (txt : ℝ → String) : ∀ (l done : List Comp),
    Namespace N ns l → (∀ c ∈ l, Plain c) → (∀ c ∈ done, Plain c) → ∀ e ex o, toEx ns txt e = some ex → ex.eval fm = .ok o →
    Stands o done →
    ∃ ex' o', toEx ns txt ((l.map (compE N)).foldl (fun a b => E.bin .add a b) e) = some ex' ∧ ex'.eval fm = .ok o' ∧
      Stands o' (done ++ l) := by
  intro l
  induction l with
  | nil => intro done _ _ _ e ex o h1 h2 h3; exact ⟨ex, o, h1, h2, by simpa using h3⟩
  | cons c l ih =>
    intro done hn hp hd e ex o h1 h2 h3
    obtain ⟨exc, hc1, hc2⟩ := eval_compE hn fm txt (c := c) (by simp)
    obtain ⟨o', ha, hs⟩ := stands_add (fm := fm) h3 hd (hp c (by simp))
    have hn' : Namespace N ns l := ⟨fun d hd => hn.par d (by simp [hd]), fun d hd => hn.dat d (by simp [hd])⟩
    have h4 : toEx ns txt (.bin .add e (compE N c)) = some (.bin .add ex exc) := by simp [toEx, h1, hc1]
    have h5 : (Ex.bin .add ex exc).eval fm = .ok o' := by simp [Ex.eval, h2, hc2, apply, ha]
    have hd' : ∀ x ∈ done ++ [c], Plain x := by
      intro x hx
      rcases List.mem_append.1 hx with h | h
      · exact hd x h
      · exact (List.mem_singleton.1 h) ▸ hp c (by simp)
    obtain ⟨ex', o'', r1, r2, r3⟩ := ih (done ++ [c]) hn' (fun x hx => hp x (by simp [hx])) hd' _ _ _ h4 h5 hs
    exact ⟨ex', o'', by simpa using r1, r2, by simpa using r3⟩

theorem eval_funcE {N : Names} {ns : String → Option Obj} (fm : Fmt) (txt : ℝ → String) {c : Comp} {l : List Comp}
    (hn : Namespace N ns (c :: l)) (hp : ∀ d ∈ c :: l, Plain d) :
    ∃ ex o, toEx ns txt ((l.map (compE N)).foldl (fun a b => E.bin .add a b) (compE N c)) = some ex ∧ ex.eval fm = .ok o ∧
      Stands o (c :: l) := by
  obtain ⟨exc, hc1, hc2⟩ := eval_compE hn fm txt (c := c) (by simp)
  have hn' : Namespace N ns l := ⟨fun d hd => hn.par d (by simp [hd]), fun d hd => hn.dat d (by simp [hd])⟩
  have := eval_foldl fm txt l [c] hn' (fun x hx => hp x (by simp [hx])) (fun x hx => (List.mem_singleton.1 hx) ▸ hp c (by simp))
    _ _ _ hc1 hc2 (stands_back (hp c (by simp)))
  simpa using this

theorem coValue_stands {fm : Fmt} {o : Obj} {l : List Comp} (h : Stands o l) : coValue fm o = .ok l := by
  cases o with
  | par s =>
    have : l = [ofPar s] := h
    simp [this, coValue, mul, dispatch, mulSlot, Obj.kind, parMul, ok, toFunction, ofPar]
  | comp c => have : l = [c] := h; simp [this, coValue, toFunction]
  | func m => obtain ⟨rfl, _⟩ := h; simp [coValue, toFunction]
  | num n => exact h.elim
  | dat d => exact h.elim
  | pm e => exact h.elim

theorem toFunction_stands {o : Obj} {l : List Comp} (h : Stands o l) (hl : ∀ s, l ≠ [ofPar s]) : toFunction o = .ok l := by
  cases o with
  | par s => exact absurd h (hl s)
  | comp c => have : l = [c] := h; simp [this, toFunction]
  | func m => obtain ⟨rfl, _⟩ := h; simp [toFunction]
  | num n => exact h.elim
  | dat d => exact h.elim
  | pm e => exact h.elim

/-- **C115.** Evaluating the text of a linear function (`repr` or `__code__`) and assigning the result to an alternative's
utility gives back exactly the same terms, in the same order; assigning it to `utility_ca` also does, unless the function is a
single parameter.  (The terms are not zero, and a data expression that is the number one is written `1`.) -/
theorem C115_reads_back_partial (fm : Fmt) (N : Names) (ns : String → Option Obj) (txt : ℝ → String) (l : List Comp) (hl : l ≠ [])
    (hn : Namespace N ns l)
    (hz : ∀ c ∈ l, c.scale ≠ 0 ∧ c.data ≠ [.num "0" 0] ∧ c.data ≠ [.num "0.0" 0])
    (ht : ∀ c ∈ l, LitOk c.data)
    (h1 : ∀ c ∈ l, floatOf c.data = some 1 → c.data = one) :
    ∀ ts, ts = funcToks N l ∨ ts = codeToks N l →
    ∃ o, Evaluates fm ns txt ts o ∧ coValue fm o = .ok l ∧ ((∀ s, l ≠ [ofPar s]) → toFunction o = .ok l) := by
  have hp : ∀ c ∈ l, Plain c := by
    intro c hc
    refine ⟨(hz c hc).1, ?_, fun h => h1 c hc (by simpa [dataIsOne] using h)⟩
    obtain ⟨_, h2, h3⟩ := hz c hc
    have h4 := ht c hc
    cases hd : c.data with
    | nil => rfl
    | cons t ts =>
      cases ts with
      | cons u us => cases t <;> rfl
      | nil =>
        cases t with
        | num s v =>
          have h5 := (h4 s v hd).1
          by_cases e0 : s = "0"
          · subst e0; exact absurd (hd.trans (by rw [h5 (.inl rfl)])) h2
          · by_cases e1 : s = "0.0"
            · subst e1; exact absurd (hd.trans (by rw [h5 (.inr (.inl rfl))])) h3
            · simp [isZero, isTxt, e0, e1]
        | _ => rfl
  intro ts hts
  cases l with
  | nil => exact absurd rfl hl
  | cons c l =>
    obtain ⟨ex, o, r1, r2, r3⟩ := eval_funcE fm txt hn hp
    refine ⟨o, ⟨_, ex, ?_, r1, r2⟩, coValue_stands r3, toFunction_stands r3⟩
    rcases hts with rfl | rfl
    · exact (full_func N c l).reads
    · exact (full_code N c l).reads

/-- The result of evaluating a text is unique. -/
theorem C115_evaluation_unique (fm : Fmt) (ns : String → Option Obj) (txt : ℝ → String) (ts : List Tok) (o o' : Obj)
    (h : Evaluates fm ns txt ts o) (h' : Evaluates fm ns txt ts o') : o = o' := by
  obtain ⟨e, ex, h1, h2, h3⟩ := h
  obtain ⟨e', ex', h1', h2', h3'⟩ := h'
  have : e = e' := h1.det h1'
  subst this
  rw [h2] at h2'
  cases h2'
  rw [h3] at h3'
  cases h3'
  rfl

/-! ## A concrete function -/

/-- `P.a * X.t + P.b * -2.0 * X.u + P.c` -/
noncomputable def demoFunc : List Comp := [⟨"a", [.name "t"], 1⟩, ⟨"b", [.name "u"], -2⟩, ofPar "c"]

/-- Its leaves are written `P.a`, `X.t`, … -/
def demoNames : Names where
  par s := "P." ++ s
  dat d := match d with
    | [.name s] => "X." ++ s
    | _ => "X('1')"
  num _ := "2.0"

def demoNs (s : String) : Option Obj :=
  if s = "P.a" then some (.par "a") else if s = "P.b" then some (.par "b") else if s = "P.c" then some (.par "c")
  else if s = "X.t" then some (.dat [.name "t"]) else if s = "X.u" then some (.dat [.name "u"])
  else if s = "X('1')" then some (.dat one) else none

theorem demo_namespace : Namespace demoNames demoNs demoFunc := by
  constructor <;> intro c hc <;> simp only [demoFunc, List.mem_cons, List.not_mem_nil, or_false] at hc <;>
    rcases hc with rfl | rfl | rfl <;> simp [demoNames, demoNs, ofPar, one]

example (fm : Fmt) : ∃ o, Evaluates fm demoNs (fun _ => "2.0") (funcToks demoNames demoFunc) o ∧ coValue fm o = .ok demoFunc ∧
    toFunction o = .ok demoFunc := by
  obtain ⟨o, h1, h2, h3⟩ := C115_reads_back_partial fm demoNames demoNs (fun _ => "2.0") demoFunc (by simp [demoFunc]) demo_namespace
    (by intro c hc; simp only [demoFunc, List.mem_cons, List.not_mem_nil, or_false] at hc
        rcases hc with rfl | rfl | rfl <;> simp [ofPar, one])
    (by intro c hc; simp only [demoFunc, List.mem_cons, List.not_mem_nil, or_false] at hc
        rcases hc with rfl | rfl | rfl <;> simp [ofPar, one, LitOk])
    (by intro c hc; simp only [demoFunc, List.mem_cons, List.not_mem_nil, or_false] at hc
        rcases hc with rfl | rfl | rfl <;> simp [ofPar, one, floatOf]) _ (.inl rfl)
  exact ⟨o, h1, h2, h3 (by simp [demoFunc])⟩

/-! ## Where reading back fails -/

/-- A function that is a single parameter is printed as the parameter, and that text cannot be assigned to `utility_ca`: it
evaluates to a string, whose characters are not terms. -/
theorem C115_fails_single_parameter (fm : Fmt) (N : Names) (ns : String → Option Obj) (txt : ℝ → String) (s : String)
    (hs : ns (N.par s) = some (.par s)) :
    Evaluates fm ns txt (funcToks N [ofPar s]) (.par s) ∧ toFunction (.par s) = .error .typeError := by
  have hd : dataIsOne (ofPar s) = true := by simp [dataIsOne, ofPar, floatOf, one]
  have hr := (full_func N (ofPar s) []).reads
  refine ⟨⟨_, .leaf (.par s), hr, ?_, rfl⟩, rfl⟩
  have : compE N (ofPar s) = .var (N.par s) := by
    unfold compE tailE
    rw [if_pos (show (ofPar s).scale = 1 from rfl), if_pos hd]
    rfl
  simp [this, toEx, hs]

/-- A term with scale zero is printed, but gone after reading back. -/
theorem C115_fails_zero_term (fm : Fmt) (N : Names) (ns : String → Option Obj) (txt : ℝ → String) (c : Comp) (a : String) (d : List Tok)
    (hn : Namespace N ns [c, ⟨a, d, 0⟩]) (ho : c.scale ≠ 1) :
    ∃ o, Evaluates fm ns txt (funcToks N [c, ⟨a, d, 0⟩]) o ∧ coValue fm o = .ok [c] := by
  obtain ⟨ex, h1, h2⟩ := eval_compE hn fm txt (c := c) (by simp)
  obtain ⟨ex', h1', h2'⟩ := eval_compE hn fm txt (c := ⟨a, d, 0⟩) (by simp)
  have hb : backObj c = .comp c := by simp [backObj, ho]
  have hb' : backObj ⟨a, d, 0⟩ = .comp ⟨a, d, 0⟩ := by simp [backObj]
  refine ⟨.comp c, ⟨_, .bin .add ex ex', (full_func N c [⟨a, d, 0⟩]).reads, ?_, ?_⟩, by simp [coValue, toFunction]⟩
  · simp [toEx, h1, h1']
  · simp [Ex.eval, h2, h2', hb, hb', apply, add, dispatch, addSlot, Obj.kind, compAdd, ok, compAddComp]

/-- Data written `1.0` comes back as `1`: the terms are then not equal (`==` compares the data texts). -/
theorem C115_fails_unit_text (fm : Fmt) (N : Names) (ns : String → Option Obj) (txt : ℝ → String) (s : String)
    (hs : ns (N.par s) = some (.par s)) :
    ∃ o, Evaluates fm ns txt (funcToks N [⟨s, [.num "1.0" 1], 1⟩]) o ∧ coValue fm o = .ok [ofPar s] ∧
      (ofPar s).data ≠ [.num "1.0" 1] := by
  have hd : dataIsOne ⟨s, [.num "1.0" 1], 1⟩ = true := by simp [dataIsOne, floatOf]
  refine ⟨.par s, ⟨_, .leaf (.par s), (full_func N _ []).reads, ?_, rfl⟩, ?_, by simp [ofPar, one]⟩
  · have : compE N ⟨s, [.num "1.0" 1], 1⟩ = .var (N.par s) := by unfold compE tailE; simp [hd]
    simp [this, toEx, hs]
  · exact coValue_stands (show Stands (.par s) _ from rfl)

/-! ## The text of a reference -/

theorem litBody_append {s : List Char} (h : ∀ c ∈ s, c ≠ '\'' ∧ c ≠ '\\' ∧ c ≠ '\n') (r : List Char) :
    LitBody (s ++ '\'' :: r) s r := by
  induction s with
  | nil => exact .close
  | cons c s ih =>
    obtain ⟨h1, h2, h3⟩ := h c (by simp)
    exact .char h1 h2 h3 (ih (fun d hd => h d (by simp [hd])))

theorem litBody_det {b s r : List Char} (h : LitBody b s r) : ∀ {s' r'}, LitBody b s' r' → s = s' ∧ r = r' := by
  induction h with
  | close => intro s' r' h'; cases h' with
    | close => exact ⟨rfl, rfl⟩
    | char h1 => exact absurd rfl h1
  | char h1 h2 h3 _ ih => intro s' r' h'; cases h' with
    | close => exact absurd rfl h1
    | char _ _ _ h4 => obtain ⟨rfl, rfl⟩ := ih h4; exact ⟨rfl, rfl⟩

/-- The `repr` of a parameter or data reference whose name has no quote, backslash or line break reads back as that name (and no
other), whatever else is in it: blanks, operators, Python keywords. -/
theorem C115_reference_text_partial (kw : List Char → Bool) (pre : Char) (s : List Char)
    (h : ∀ c ∈ s, c ≠ '\'' ∧ c ≠ '\\' ∧ c ≠ '\n') (t : List Char) : RefReads kw pre (refText kw pre s) t ↔ t = s := by
  unfold refText
  split
  · rename_i hi
    simp only [Bool.and_eq_true, Bool.not_eq_true'] at hi
    have hid : Identifier kw s := by
      refine ⟨?_, hi.2⟩
      cases s with
      | nil => simp [identMatch] at hi
      | cons c cs =>
        have h2 := hi.1
        simp only [identMatch, Bool.and_eq_true, Bool.or_eq_true, List.all_eq_true] at h2
        refine ⟨c, cs, rfl, h2.1, ?_⟩
        rcases h2.2 with h3 | ⟨_, h4⟩
        · exact h3
        · have h4' : cs.getLast? = some '\n' := by simpa using h4
          have := List.mem_of_mem_getLast? (Option.mem_def.2 h4')
          exact absurd rfl (h '\n' (by simp [this])).2.2
    constructor
    · intro ht
      generalize hb : pre :: '.' :: s = b at ht
      cases ht with
      | attr _ => simp at hb; exact hb.symm
      | call _ => simp at hb
    · rintro rfl
      exact .attr hid
  · constructor
    · intro ht
      have hl := litBody_append h [')']
      have hs : (s ++ ['\'', ')']) = s ++ '\'' :: [')'] := rfl
      rw [hs] at ht
      generalize hb : pre :: '(' :: '\'' :: (s ++ '\'' :: [')']) = b at ht
      cases ht with
      | attr _ => simp at hb
      | call hb' =>
        simp only [List.cons.injEq, true_and] at hb
        subst hb
        exact (litBody_det hb' hl).1
    · rintro rfl
      exact .call (litBody_append h [')'])

theorem litBody_split {b s r : List Char} (h : LitBody b s r) : b = s ++ '\'' :: r ∧ '\'' ∉ s := by
  induction h with
  | close => simp
  | char h1 _ _ _ ih => exact ⟨by rw [ih.1]; rfl, by simp [Ne.symm h1, ih.2]⟩

theorem identMatch_no_quote {s : List Char} (h : '\'' ∈ s) : identMatch s = false := by
  cases hs : identMatch s with
  | false => rfl
  | true =>
    exfalso
    cases s with
    | nil => simp at h
    | cons c cs =>
      simp only [identMatch, Bool.and_eq_true, Bool.or_eq_true, List.all_eq_true] at hs
      obtain ⟨h1, h2⟩ := hs
      rcases List.mem_cons.1 h with rfl | h
      · simp [startChar] at h1
      · have hq : identChar '\'' = false := by decide
        rcases h2 with h2 | ⟨h2, h3⟩
        · rw [h2 _ h] at hq; cases hq
        · have h3' : cs.getLast? = some '\n' := by simpa using h3
          obtain ⟨ds, rfl⟩ := List.getLast?_eq_some_iff.1 h3'
          simp at h2 h
          rw [h2 _ h] at hq; cases hq

/-- A name with a quote in it, such as the data expression `mode == 'car'`, is printed as a text that is no reference at all: the
quotes are not escaped. -/
theorem C115_fails_quote (kw : List Char → Bool) (pre : Char) (s : List Char) (h : '\'' ∈ s) (t : List Char) :
    ¬ RefReads kw pre (refText kw pre s) t := by
  unfold refText
  rw [identMatch_no_quote h]
  simp only [Bool.false_and, Bool.false_eq_true, if_false]
  intro ht
  generalize hb : pre :: '(' :: '\'' :: (s ++ ['\'', ')']) = b at ht
  cases ht with
  | attr _ => simp at hb
  | @call b' _ hl =>
    simp only [List.cons.injEq, true_and] at hb
    subst hb
    obtain ⟨h1, h2⟩ := litBody_split hl
    have h3 : s ++ ['\'', ')'] = t ++ ['\'', ')'] := h1
    have := List.append_cancel_right h3
    exact h2 (this ▸ h)

example : RefReads (fun _ => false) 'X' "X('cost/inc')".toList "cost/inc".toList :=
  .call (litBody_append (s := "cost/inc".toList) (by decide) [')'])

example : refText (fun _ => false) 'X' "cost/inc".toList = "X('cost/inc')".toList := by decide +kernel

example : refText (fun _ => false) 'P' "ASC_1".toList = "P.ASC_1".toList := by decide +kernel

end Larch.Props
