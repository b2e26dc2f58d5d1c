import Verif.Model.Series
import Verif.Spec.Linear
import Verif.Lemmas.PyExpr
import Verif.Props.Recode
import Verif.Props.Linear
import Mathlib.Tactic.Positivity
import Mathlib.Analysis.SpecialFunctions.Trigonometric.Basic
import Mathlib.Tactic.Linarith
import Mathlib.Tactic.Ring
import Mathlib.Tactic.NormNum
import Mathlib.Tactic.FieldSimp
/-!
# C153, C154: polynomial and Fourier terms; normalized and expanded data

C153: `polynomial` and `fourier_series` are the linear functions their names say.
C154: `fourier_expansion` makes the columns to which the terms of `fourier_series` refer;
`normalize` gives mean zero and the standard deviation asked for.
-/

namespace Larch.Props

open Larch.Py Larch.Linear Larch.Series

/-! ## Specification -/

/-- The tokens are a product of factors (or a single factor): no operator weaker than `*` outside
of parentheses. -/
def IsProduct (x : List Tok) (e : E) : Prop := Rd (.bin 5) x e []

/-- The environment of real trigonometry. -/
def Trig (env : Env) : Prop :=
  env.var "pi" = Real.pi ∧ (∀ v, env.call "sin" v = Real.sin v) ∧ ∀ v, env.call "cos" v = Real.cos v

/-! ## Lemmas on reading -/

/-- A factor is not affected by a following `*`. -/
theorem se_ext {g ts e r} (h : Rd g ts e r) (s : List Tok) (hs : hd Tok.isPow s ∧ hd Tok.isLp s ∧ hd Tok.isUnary (.rp :: s)) :
    (r ≠ [] ∨ g = .un ∨ g = .pw ∨ g = .at) → Rd g (ts ++ s) e (r ++ s) := by
  have app : ∀ (p : Tok → Bool) (r : List Tok), r ≠ [] → hd p r → hd p (r ++ s) := by
    intro p r hr hp
    cases r with
    | nil => exact absurd rfl hr
    | cons t r => simpa [hd_cons] using hp
  have hemp : ∀ {l acc ts e r}, Rd (.loop l acc) ts e r → ts = [] → r = [] := by
    intro l acc ts e r h ht
    subst ht
    cases h with
    | stop _ => rfl
  induction h with
  | cmp0 h1 h2 ih =>
    intro hg
    rcases hg with hr | hg | hg | hg <;> first | cases hg | skip
    exact .cmp0 (ih (Or.inl hr)) (app _ _ hr h2)
  | cmp1 h1 h2 h3 ih1 ih2 =>
    intro hg
    rcases hg with hr | hg | hg | hg <;> first | cases hg | skip
    exact .cmp1 (by simpa using ih1 (Or.inl (by simp))) (ih2 (Or.inl hr)) (app _ _ hr h3)
  | @bin l ts e0 r1 e r' h1 h2 ih1 ih2 =>
    intro hg
    rcases hg with hr | hg | hg | hg <;> first | cases hg | skip
    have hr1 : r1 ≠ [] := fun hc => hr (hemp h2 hc)
    exact .bin (ih1 (Or.inl hr1)) (ih2 (Or.inl hr))
  | stop h1 =>
    intro hg
    rcases hg with hr | hg | hg | hg <;> first | cases hg | skip
    exact .stop (app _ _ hr h1)
  | @step l acc o r1 f r' e r'' h1 h2 h3 ih2 ih3 =>
    intro hg
    rcases hg with hr | hg | hg | hg <;> first | cases hg | skip
    have hr1 : r' ≠ [] := fun hc => hr (hemp h3 hc)
    exact .step h1 (ih2 (Or.inl hr1)) (ih3 (Or.inl hr))
  | neg h1 ih => intro _; exact .neg (ih (Or.inr (Or.inl rfl)))
  | pos h1 ih => intro _; exact .pos (ih (Or.inr (Or.inl rfl)))
  | inv h1 ih => intro _; exact .inv (ih (Or.inr (Or.inl rfl)))
  | @un ts e r h1 h2 ih =>
    intro _
    have hts : ts ≠ [] := by
      rintro rfl
      cases h2 with
      | pw0 h _ => cases h
      | pw1 h _ => cases h
    exact .un (app _ _ hts h1) (ih (Or.inr (Or.inr (Or.inl rfl))))
  | @pw0 ts e r h1 h2 ih =>
    intro _
    refine .pw0 (ih (Or.inr (Or.inr (Or.inr rfl)))) ?_
    cases r with
    | nil => simpa using hs.1
    | cons t r => simpa [hd_cons] using h2
  | pw1 h1 h2 ih1 ih2 =>
    intro _
    exact .pw1 (by simpa using ih1 (Or.inl (by simp))) (ih2 (Or.inr (Or.inl rfl)))
  | @var n r h1 =>
    intro _
    refine .var ?_
    cases r with
    | nil => simpa using hs.2.1
    | cons t r => simpa [hd_cons] using h1
  | call h1 ih => intro _; exact .call (by simpa using ih (Or.inl (by simp)))
  | num => intro _; exact .num
  | par h1 ih => intro _; exact .par (by simpa using ih (Or.inl (by simp)))

/-- A product can be continued by further factors. -/
theorem se_loop_ext {acc ts e} (s : List Tok) (hs : hd Tok.isPow s ∧ hd Tok.isLp s ∧ hd Tok.isUnary (.rp :: s)) {f r'}
    (hc : Rd (.loop 5 e) s f r') (h : Rd (.loop 5 acc) ts e []) : Rd (.loop 5 acc) (ts ++ s) f r' := by
  generalize hg : Goal.loop 5 acc = g at h
  generalize hr : ([] : List Tok) = r at h
  induction h generalizing acc with
  | stop h1 =>
    cases hg
    subst hr
    simpa using hc
  | step h1 h2 h3 ih2 ih3 =>
    cases hg
    exact .step h1 (se_ext h2 s hs (Or.inr (Or.inl (by simp [next])))) (ih3 hc rfl hr)
  | _ => cases hg

theorem se_product (x : List Tok) (e : E) (h : IsProduct x e) (t : String) (v : ℝ) :
    Rd .cmp (x ++ [.op .mul, .num t v, .op .mul, .name "pi", .rp]) (.bin .mul (.bin .mul e (.lit v)) (.var "pi")) [.rp] := by
  have hs : hd Tok.isPow [.op .mul, .num t v, .op .mul, .name "pi", .rp] ∧ hd Tok.isLp [.op .mul, .num t v, .op .mul, .name "pi", .rp] ∧
      hd Tok.isUnary (.rp :: [.op .mul, .num t v, .op .mul, .name "pi", .rp]) := by
    refine ⟨?_, ?_, ?_⟩ <;> rw [hd_cons] <;> rfl
  have tail : ∀ acc : E, Rd (.loop 5 acc) [.op .mul, .num t v, .op .mul, .name "pi", .rp]
      (.bin .mul (.bin .mul acc (.lit v)) (.var "pi")) [.rp] := by
    intro acc
    refine .step (r' := [.op .mul, .name "pi", .rp]) rfl ?_ (.step (r' := [.rp]) rfl ?_ (.stop ?_))
    · simp only [next, lt_self_iff_false, if_false]
      exact Rd.toUn .num (by rw [hd_cons]; rfl)
    · simp only [next, lt_self_iff_false, if_false]
      exact Rd.toUn (.var (by rw [hd_cons]; rfl)) (by rw [hd_cons]; rfl)
    · rw [hd_cons]; rfl
  have h5 : Rd (.bin 5) (x ++ [.op .mul, .num t v, .op .mul, .name "pi", .rp]) (.bin .mul (.bin .mul e (.lit v)) (.var "pi")) [.rp] := by
    unfold IsProduct at h
    cases h with
    | bin h1 h2 =>
      exact .bin (se_ext h1 _ hs (Or.inr (Or.inl (by simp [next])))) (se_loop_ext _ hs (tail e) h2)
  have up : ∀ l : Nat, 1 ≤ l → l < 5 → ∀ ts e, Rd (.bin (l + 1)) ts e [.rp] → Rd (.bin l) ts e [.rp] := by
    intro l _ hl ts e h
    refine .bin (by simpa [next, hl] using h) (.stop (by rw [hd_cons]; rfl))
  exact .cmp0 (up 1 (by decide) (by decide) _ _ (up 2 (by decide) (by decide) _ _ (up 3 (by decide) (by decide) _ _
    (up 4 (by decide) (by decide) _ _ h5)))) (by rw [hd_cons]; rfl)

/-- A single atom is an expression. -/
theorem se_atom {ts e} (h : Rd .at ts e []) : Reads ts e :=
  .cmp0 ((Rd.toUn h hd_nil).toBin _ 1 rfl (by omega) (fun m _ _ => hd_nil)) hd_nil

theorem se_fourier_reads (x : List Tok) (e : E) (h : IsProduct x e) (i : Nat) :
    Reads (fourierData x i) (.call (fourierFun i) (.bin .mul (.bin .mul e (.lit (fourierMult i))) (.var "pi"))) :=
  se_atom (.call (se_product x e h _ _))

theorem se_fourier_has (env : Env) (x : List Tok) (e : E) (h : IsProduct x e) (v : ℝ) (hv : e.Has env v) (i : Nat) :
    Py.Has env (fourierData x i) (env.call (fourierFun i) (v * (fourierMult i : ℝ) * env.var "pi")) := by
  refine ⟨_, se_fourier_reads x e h i, ?_⟩
  refine .call ?_
  exact .bin (o := .mul) (.bin (o := .mul) hv .lit (by rintro (h | h) <;> cases h)) .var (by rintro (h | h) <;> cases h)

theorem se_fun_has (env : Env) (x : List Tok) (v : ℝ) (h : Py.Has env x v) (f : String) :
    Py.Has env (funData x f) (env.call f v) := by
  obtain ⟨e, hr, he⟩ := h
  have : Rd .at (funData x f) (.call f e) [] := .call (by simpa [funData] using Rd.ext hr [])
  exact ⟨_, se_atom this, .call he⟩

theorem se_num_un (n : Num) : ∃ e, Rd .un n.toks e [] ∧ ∀ env, e.Has env n.val := by
  unfold Num.toks Num.val
  cases n.neg
  · exact ⟨_, Rd.toUn .num hd_nil, fun env => .lit⟩
  · exact ⟨_, .neg (Rd.toUn .num hd_nil), fun env => .neg .lit⟩

theorem se_pow_has (env : Env) (x : List Tok) (v : ℝ) (h : Py.Has env x v) (n : Num) (hn : n.val ≠ 1) :
    Py.Has env (powData x n) (env.pow v n.val) := by
  obtain ⟨e, hr, he⟩ := h
  obtain ⟨f, hf, hfv⟩ := se_num_un n
  have : powData x n = (.lp :: (x ++ [.rp])) ++ .op .pow :: n.toks := by simp [powData, hn]
  rw [this]
  refine ⟨_, reads_pow (e := e) (f := f) (fun r _ => ?_) hf, .bin (o := .pow) he (hfv env) (by rintro (h | h) <;> cases h)⟩
  have := Reads.paren hr r
  simpa using this

/-! ## Lemmas on the sums -/

theorem se_addTerm (fm : Fmt) (l : List Comp) (d : List Tok) (s : String) :
    addTerm fm (.ok (.func l)) d s = .ok (.func (if isZero d then l else l ++ [⟨s, d, 1⟩])) := by
  unfold addTerm
  have h1 : mul fm (.dat d) (.par s) = .ok (.comp ⟨s, d, 1⟩) := by
    simp [mul, dispatch, mulSlot, Obj.kind, datMul, ok]
  rw [h1]
  simp only [add, dispatch, addSlot, Obj.kind, funcAdd, funcAddComp, ok]
  by_cases h : isZero d = true <;> simp [h]

theorem se_funcHas_append {env : Env} {p : String → ℝ} {l m : List Comp} {x y : ℝ} (hl : FuncHas env p l x) (hm : FuncHas env p m y) :
    FuncHas env p (l ++ m) (x + y) := by
  induction hl with
  | nil => simpa using hm
  | cons hc _ ih => rw [List.cons_append, add_assoc]; exact .cons hc ih

theorem se_step (env : Env) (β : String → ℝ) (l : List Comp) (d : List Tok) (s : String) (y v : ℝ)
    (hl : FuncHas env β l y) (hd : Py.Has env d v) (hlit : LitOk d) :
    FuncHas env β (if isZero d then l else l ++ [⟨s, d, 1⟩]) (y + β s * v) := by
  by_cases hz : isZero d = true
  · have hv : v = 0 := by
      unfold isZero isTxt at hz
      cases d with
      | nil => simp at hz
      | cons t ts =>
        cases ts with
        | cons t' ts' => cases t <;> simp at hz
        | nil =>
          cases t <;> simp at hz
          rename_i tx w
          have hw := (hlit tx w rfl).1 (by rcases hz with h | h <;> simp [h])
          have h2 : Py.Has env [.num tx w] w := ⟨_, se_atom .num, .lit⟩
          rw [Has.det hd h2, hw]
    rw [if_pos hz, hv]
    simpa using hl
  · rw [if_neg hz]
    have : FuncHas env β [⟨s, d, 1⟩] (β s * v + 0) := .cons ⟨v, hd, by simp⟩ .nil
    rw [add_zero] at this
    exact se_funcHas_append hl this

/-- Adding terms one after the other adds their values. -/
theorem se_fold (fm : Fmt) (env : Env) (β : String → ℝ) {α : Type} (data : α → List Tok) (name : α → String) (val : α → ℝ) :
    ∀ (items : List α) (l : List Comp) (y : ℝ), FuncHas env β l y → (∀ a ∈ items, Py.Has env (data a) (val a) ∧ LitOk (data a)) →
      ∃ l', items.foldl (fun z a => addTerm fm z (data a) (name a)) (.ok (.func l)) = .ok (.func l') ∧
        FuncHas env β l' (y + (items.map fun a => β (name a) * val a).sum) := by
  intro items
  induction items with
  | nil => intro l y hl _; exact ⟨l, rfl, by simpa using hl⟩
  | cons a rest ih =>
    intro l y hl h
    obtain ⟨h1, h2⟩ := h a (by simp)
    obtain ⟨l', e, hh⟩ := ih _ _ (se_step env β l (data a) (name a) y (val a) hl h1 h2) (fun b hb => h b (by simp [hb]))
    refine ⟨l', ?_, ?_⟩
    · rw [List.foldl_cons, se_addTerm]; exact e
    · rw [List.map_cons, List.sum_cons, ← add_assoc]; exact hh

theorem se_long_lit (d : List Tok) (h : 2 ≤ d.length) : LitOk d := by
  intro t v hd
  rw [hd] at h
  simp at h

open Classical in
/-- C153: whatever expression `x` is (sums included), `polynomial(x, p, powers, funs)` evaluates to
the sum of the coefficients times the powers of its value and the functions of its value. -/
theorem C153_polynomial_value (fm : Fmt) (env : Env) (β : String → ℝ) (x : List Tok) (v : ℝ) (hx : Py.Has env x v) (hlit : LitOk x)
    (p : String) (powers : List (Num × String)) (funs : List (String × String)) :
    ∃ l, polynomial fm x p powers funs = .ok (.func l) ∧
      FuncHas env β l ((powers.map fun q => β (p ++ q.2) * (if q.1.val = 1 then v else env.pow v q.1.val)).sum +
        (funs.map fun q => β (p ++ q.2) * env.call q.1 v).sum) := by
  obtain ⟨l1, e1, h1⟩ := se_fold fm env β (fun q : Num × String => powData x q.1) (fun q => p ++ q.2)
    (fun q => if q.1.val = 1 then v else env.pow v q.1.val) powers [] 0 .nil (fun q _ => by
      by_cases hq : q.1.val = 1
      · simp only [powData, hq, if_true]
        exact ⟨hx, hlit⟩
      · simp only [hq, if_false]
        refine ⟨se_pow_has env x v hx q.1 hq, se_long_lit _ ?_⟩
        simp only [powData, hq, if_false, List.length_cons, List.length_append]
        omega)
  obtain ⟨l2, e2, h2⟩ := se_fold fm env β (fun q : String × String => funData x q.1) (fun q => p ++ q.2)
    (fun q => env.call q.1 v) funs l1 _ h1 (fun q _ => ⟨se_fun_has env x v hx q.1, se_long_lit _ (by simp [funData])⟩)
  refine ⟨l2, ?_, by rw [zero_add] at h2; exact h2⟩
  unfold polynomial
  simp only
  rw [e1]
  exact e2

/-- C153: with the default powers this is `β x + β_Squared x² + β_Cubed x³`. -/
theorem C153_polynomial_default (fm : Fmt) (env : Env) (β : String → ℝ) (x : List Tok) (v : ℝ) (hx : Py.Has env x v) (hlit : LitOk x)
    (hpow : ∀ a b : ℝ, ∀ n : Nat, b = n → env.pow a b = a ^ n) (p : String) :
    ∃ l, polynomial fm x p defaultPowers [] = .ok (.func l) ∧
      FuncHas env β l (β p * v + β (p ++ "_Squared") * v ^ 2 + β (p ++ "_Cubed") * v ^ 3) := by
  obtain ⟨l, e, h⟩ := C153_polynomial_value fm env β x v hx hlit p defaultPowers []
  refine ⟨l, e, ?_⟩
  have h2 : env.pow v 2 = v ^ 2 := hpow v 2 2 (by norm_num)
  have h3 : env.pow v 3 = v ^ 3 := hpow v 3 3 (by norm_num)
  have : ((defaultPowers.map fun q => β (p ++ q.2) * (@ite ℝ (q.1.val = 1) (Classical.propDecidable _) v (env.pow v q.1.val))).sum +
      (([] : List (String × String)).map fun q => β (p ++ q.2) * env.call q.1 v).sum) =
      β p * v + β (p ++ "_Squared") * v ^ 2 + β (p ++ "_Cubed") * v ^ 3 := by
    simp [defaultPowers, Num.val, h2, h3]
    ring
  rw [← this]
  exact h

/-- C153: if `x` is a product, `fourier_series(x, p, length)` evaluates to the sum of its
coefficients times the sine or cosine of `2kπ` times the value of `x`. -/
theorem C153_fourier_value_partial (fm : Fmt) (env : Env) (β : String → ℝ) (x : List Tok) (e : E) (hp : IsProduct x e) (v : ℝ)
    (hv : e.Has env v) (p : String) (length : Nat) :
    ∃ l, fourierSeries fm x p length = .ok (.func l) ∧
      FuncHas env β l (((List.range length).map fun i =>
        β ((if i % 2 = 0 then "sin" else "cos") ++ "_" ++ toString (2 * (i / 2 + 1)) ++ "π" ++ p) *
          env.call (if i % 2 = 0 then "sin" else "cos") (v * ((2 * (i / 2 + 1) : Nat) : ℝ) * env.var "pi")).sum) := by
  obtain ⟨l, h1, h2⟩ := se_fold fm env β (fourierData x) (fourierParam p)
    (fun i => env.call (fourierFun i) (v * (fourierMult i : ℝ) * env.var "pi")) (List.range length) [] 0 .nil
    (fun i _ => ⟨se_fourier_has env x e hp v hv i, se_long_lit _ (by simp [fourierData])⟩)
  refine ⟨l, h1, ?_⟩
  rw [zero_add] at h2
  have hf : ∀ i, fourierFun i = (if i % 2 = 0 then "sin" else "cos") := by
    intro i
    unfold fourierFun
    by_cases h : i % 2 = 0 <;> simp [h]
  have hm : ∀ i, fourierMult i = 2 * (i / 2 + 1) := fun i => by unfold fourierMult; omega
  have he : ((List.range length).map fun i => β (fourierParam p i) * env.call (fourierFun i) (v * (fourierMult i : ℝ) * env.var "pi")) =
      ((List.range length).map fun i => β ((if i % 2 = 0 then "sin" else "cos") ++ "_" ++ toString (2 * (i / 2 + 1)) ++ "π" ++ p) *
          env.call (if i % 2 = 0 then "sin" else "cos") (v * ((2 * (i / 2 + 1) : Nat) : ℝ) * env.var "pi")) := by
    apply List.map_congr_left
    intro i _
    unfold fourierParam
    rw [hf i, hm i]
  rw [← he]
  exact h2

/-- C153: under real trigonometry the series has period one in the data. -/
theorem C153_fourier_period (fm : Fmt) (env env' : Env) (ht : Trig env) (ht' : Trig env') (β : String → ℝ) (x : List Tok) (e : E)
    (hp : IsProduct x e) (v : ℝ) (k : ℤ) (hv : e.Has env v) (hv' : e.Has env' (v + k)) (p : String) (length : Nat) :
    ∃ l y, fourierSeries fm x p length = .ok (.func l) ∧ FuncHas env β l y ∧ FuncHas env' β l y := by
  obtain ⟨l, h1, h2⟩ := C153_fourier_value_partial fm env β x e hp v hv p length
  obtain ⟨l', h1', h2'⟩ := C153_fourier_value_partial fm env' β x e hp (v + k) hv' p length
  rw [h1] at h1'
  cases h1'
  refine ⟨l, _, h1, h2, ?_⟩
  convert h2' using 2
  apply List.map_congr_left
  intro i _
  congr 1
  have harg : (v + k) * ((2 * (i / 2 + 1) : Nat) : ℝ) * Real.pi = v * ((2 * (i / 2 + 1) : Nat) : ℝ) * Real.pi + ((k * (i / 2 + 1 : Nat) : ℤ) : ℝ) * (2 * Real.pi) := by
    generalize i / 2 = j
    push_cast
    ring
  by_cases h : i % 2 = 0
  · simp only [h, if_true]
    rw [ht.2.1, ht'.2.1, ht.1, ht'.1, harg, Real.sin_add_int_mul_two_pi]
  · simp only [h, if_false]
    rw [ht.2.2, ht'.2.2, ht.1, ht'.1, harg, Real.cos_add_int_mul_two_pi]

/-- C153: the coefficients of a series have different names. -/
theorem C153_fourier_names_distinct (p : String) (length : Nat) : ((List.range length).map (fourierParam p)).Nodup := by
  refine List.Nodup.map ?_ List.nodup_range
  intro i j h
  unfold fourierParam at h
  have h1 : fourierFun i ++ "_" ++ toString (fourierMult i) = fourierFun j ++ "_" ++ toString (fourierMult j) := by
    have := congrArg String.toList h
    simp only [String.toList_append, List.append_assoc] at this
    apply String.toList_inj.1
    simp only [String.toList_append, List.append_assoc]
    have h2 := congrArg (fun l => l) this
    have h3 : (fourierFun i).toList ++ ("_".toList ++ (toString (fourierMult i)).toList) ++ ("π".toList ++ p.toList) =
        (fourierFun j).toList ++ ("_".toList ++ (toString (fourierMult j)).toList) ++ ("π".toList ++ p.toList) := by
      simpa using h2
    exact List.append_cancel_right h3
  have hl : (fourierFun i).toList.length = 3 ∧ (fourierFun j).toList.length = 3 := by
    unfold fourierFun
    constructor <;> split <;> rfl
  have h2 := congrArg String.toList h1
  simp only [String.toList_append, List.append_assoc] at h2
  obtain ⟨hf, hr⟩ := List.append_inj h2 (by rw [hl.1, hl.2])
  have hr2 : (toString (fourierMult i)).toList = (toString (fourierMult j)).toList := by simpa using hr
  have hm : fourierMult i = fourierMult j := repr_inj (String.toList_inj.1 hr2)
  have hpar : i % 2 = j % 2 := by
    have hf' := String.toList_inj.1 hf
    unfold fourierFun at hf'
    by_cases hi : i % 2 ≠ 0 <;> by_cases hj : j % 2 ≠ 0 <;> simp [hi, hj] at hf' <;> omega
  unfold fourierMult at hm
  omega

/-- C153 fails: the text of a sum is put into the series without parentheses: only its last term is
multiplied, and the series is not that of the value of `x`. -/
theorem C153_fails_sum (fm : Fmt) (β : String → ℝ) (hβ : β "sin_2πs" ≠ 0) :
    ∃ (env : Env) (v : ℝ), Trig env ∧ Py.Has env [.name "a", .op .add, .name "b"] v ∧
      ∃ l, fourierSeries fm [.name "a", .op .add, .name "b"] "s" 1 = .ok (.func l) ∧
        ¬ FuncHas env β l (β "sin_2πs" * Real.sin (v * 2 * Real.pi)) := by
  let env : Env := { var := fun s => if s = "pi" then Real.pi else if s = "a" then 1 / 2 else 0, call := fun f v => if f = "sin" then Real.sin v else Real.cos v, fdiv := fun _ _ => 0, band := fun _ _ => 0, bor := fun _ _ => 0, bxor := fun _ _ => 0, pow := fun _ _ => 0, inv := fun _ => 0 }
  have hat : ∀ s : String, ∀ r, hd Tok.isLp r → hd Tok.isPow r → Rd .un ([.name s] ++ r) (.var s) r :=
    fun s r h1 h2 => Rd.toUn (.var h1) h2
  refine ⟨env, 1 / 2 + 0, ⟨rfl, fun v => rfl, fun v => rfl⟩, ⟨_, reads_bin .add (by decide) (hat "a") (hat "b"), ?_⟩, ?_⟩
  · exact .bin (o := .add) .var .var (by rintro (h | h) <;> cases h)
  · refine ⟨_, by simp only [fourierSeries, List.range_one, List.foldl_cons, List.foldl_nil]; exact se_addTerm fm [] _ _, ?_⟩
    have hz : isZero (fourierData [.name "a", .op .add, .name "b"] 0) = false := rfl
    rw [hz]
    simp only [Bool.false_eq_true, if_false, List.nil_append]
    have hread : Py.Has env (fourierData [.name "a", .op .add, .name "b"] 0) (Real.sin (1 / 2)) := by
      have htail : Rd (.bin 5) [.name "b", .op .mul, .num "2" 2, .op .mul, .name "pi", .rp]
          (.bin .mul (.bin .mul (.var "b") (.lit 2)) (.var "pi")) [.rp] := by
        refine .bin (r := [.op .mul, .num "2" 2, .op .mul, .name "pi", .rp]) ?_ (.step (r' := [.op .mul, .name "pi", .rp]) rfl ?_ (.step (r' := [.rp]) rfl ?_ (.stop ?_)))
        · simp only [next, lt_self_iff_false, if_false]
          exact Rd.toUn (.var (by rw [hd_cons]; rfl)) (by rw [hd_cons]; rfl)
        · simp only [next, lt_self_iff_false, if_false]
          exact Rd.toUn .num (by rw [hd_cons]; rfl)
        · simp only [next, lt_self_iff_false, if_false]
          exact Rd.toUn (.var (by rw [hd_cons]; rfl)) (by rw [hd_cons]; rfl)
        · rw [hd_cons]; rfl
      have h4 : Rd (.bin 4) ([.name "a", .op .add, .name "b"] ++ [.op .mul, .num "2" 2, .op .mul, .name "pi", .rp])
          (.bin .add (.var "a") (.bin .mul (.bin .mul (.var "b") (.lit 2)) (.var "pi"))) [.rp] := by
        refine .bin (r := [.op .add, .name "b", .op .mul, .num "2" 2, .op .mul, .name "pi", .rp]) ?_ (.step (r' := [.rp]) rfl ?_ (.stop ?_))
        · have : Rd .un (.name "a" :: [.op .add, .name "b", .op .mul, .num "2" 2, .op .mul, .name "pi", .rp]) (.var "a") _ :=
            Rd.toUn (.var (by rw [hd_cons]; rfl)) (by rw [hd_cons]; rfl)
          exact this.toNext 4 (fun m h1 h2 => by
            have : m = 5 := by omega
            subst this
            rw [hd_cons]; rfl)
        · simpa [next] using htail
        · rw [hd_cons]; rfl
      have up : ∀ l : Nat, l < 5 → ∀ ts e, Rd (.bin (l + 1)) ts e [.rp] → Rd (.bin l) ts e [.rp] := by
        intro l hl ts e h
        refine .bin (by simpa [next, hl] using h) (.stop (by rw [hd_cons]; rfl))
      have hcmp := Rd.cmp0 (up 1 (by decide) _ _ (up 2 (by decide) _ _ (up 3 (by decide) _ _ h4))) (by rw [hd_cons]; rfl)
      have hat : Rd .at (fourierData [.name "a", .op .add, .name "b"] 0) (.call "sin" (.bin .add (.var "a") (.bin .mul (.bin .mul (.var "b") (.lit 2)) (.var "pi")))) [] := by
        have : fourierData [.name "a", .op .add, .name "b"] 0 = .name "sin" :: .lp :: ([.name "a", .op .add, .name "b"] ++ [.op .mul, .num "2" 2, .op .mul, .name "pi", .rp]) := by
          have h2 : fourierMult 0 = 2 := rfl
          have h3 : toString (2 : Nat) = "2" := by decide
          simp [fourierData, fourierFun, h2, h3]
        rw [this]
        exact .call hcmp
      refine ⟨_, se_atom hat, ?_⟩
      have hb : ∀ o : BOp, o = .add ∨ o = .mul → ∀ y : ℝ, (o = .div ∨ o = .fdiv → y ≠ 0) := by
        rintro o (rfl | rfl) y (h | h) <;> cases h
      have := E.Has.call (env := env) (f := "sin") (E.Has.bin (o := .add) (E.Has.var (env := env) (s := "a"))
        (E.Has.bin (o := .mul) (E.Has.bin (o := .mul) (E.Has.var (env := env) (s := "b")) (E.Has.lit (env := env) (v := 2)) (hb _ (Or.inr rfl) _)) (E.Has.var (env := env) (s := "pi")) (hb _ (Or.inr rfl) _)) (hb _ (Or.inl rfl) _))
      have hval : env.call "sin" (BOp.add.val env (env.var "a") (BOp.mul.val env (BOp.mul.val env (env.var "b") 2) (env.var "pi"))) = Real.sin (1 / 2) := by
        simp [env, BOp.val]
      rw [hval] at this
      exact this
    intro hbad
    have hname : fourierParam "s" 0 = "sin_2πs" := by decide
    have hgood : FuncHas env β [⟨fourierParam "s" 0, fourierData [.name "a", .op .add, .name "b"] 0, 1⟩] (β "sin_2πs" * Real.sin (1 / 2) + 0) :=
      .cons ⟨_, hread, by rw [hname]; simp⟩ .nil
    have := C23_value_unique env β (.func _) hgood hbad
    have h0 : Real.sin ((1 / 2 + 0) * 2 * Real.pi) = 0 := by
      have : ((1 / 2 + 0) * 2 * Real.pi : ℝ) = Real.pi := by ring
      rw [this, Real.sin_pi]
    rw [h0, mul_zero, add_zero] at this
    have hpos : 0 < Real.sin (1 / 2) :=
      Real.sin_pos_of_pos_of_lt_pi (by norm_num) (by have := Real.two_le_pi; linarith)
    rcases mul_eq_zero.1 this with h | h
    · exact hβ h
    · exact hpos.ne' h

/-! ## Expanded data -/

/-- C154: the columns which `fourier_expansion` makes have the names to which the terms of
`fourier_series` refer, in the same order. -/
theorem C154_names_agree (base : List Tok) (length : Nat) :
    expansionNames base length = (List.range length).map (fourierData base) := by
  rfl

/-- C154: and each of them holds what the name means as an expression, if the base is a product. -/
theorem C154_columns_mean_their_names (env : Env) (ht : Trig env) (x : List Tok) (e : E) (hp : IsProduct x e) (v : ℝ)
    (hv : e.Has env v) (length i : Nat) (hi : i < length) :
    ∃ name y, (expansionNames x length)[i]? = some name ∧ (expansionRow Real.sin Real.cos Real.pi v length)[i]? = some y ∧
      Py.Has env name y := by
  refine ⟨fourierData x i, (if i % 2 ≠ 0 then Real.cos else Real.sin) (v * ((i / 2 + 1) * 2 : Nat) * Real.pi), by simp [expansionNames, hi, fourierData, fourierFun, fourierMult], by simp [expansionRow, hi], ?_⟩
  have h := se_fourier_has env x e hp v hv i
  convert h using 1
  unfold fourierFun fourierMult
  rw [ht.1]
  by_cases h2 : i % 2 = 0
  · simp only [h2, ne_eq, not_true_eq_false, if_false]
    rw [ht.2.1]
  · simp only [h2, ne_eq, not_false_eq_true, if_true]
    rw [ht.2.2]

/-! ## Normalized data -/

theorem se_sum_affine (m s : ℝ) (l : List ℝ) : (l.map fun a => (a - m) / s).sum = (l.sum - l.length * m) / s := by
  induction l with
  | nil => simp
  | cons a l ih =>
    simp only [List.map_cons, List.sum_cons, ih, List.length_cons, Nat.cast_add, Nat.cast_one]
    ring

theorem se_sum_squares (m s : ℝ) (l : List ℝ) : (l.map fun a => ((a - m) / s) ^ 2).sum = (l.map fun a => (a - m) ^ 2).sum / s ^ 2 := by
  induction l with
  | nil => simp
  | cons a l ih =>
    simp only [List.map_cons, List.sum_cons, ih]
    ring

theorem se_squares_zero (m : ℝ) (l : List ℝ) : (l.map fun a => (a - m) ^ 2).sum = 0 ↔ ∀ a ∈ l, a = m := by
  induction l with
  | nil => simp
  | cons a l ih =>
    have h1 : 0 ≤ (l.map fun a => (a - m) ^ 2).sum := List.sum_nonneg (by
      intro y hy
      obtain ⟨b, _, rfl⟩ := List.mem_map.1 hy
      positivity)
    simp only [List.map_cons, List.sum_cons, List.mem_cons, forall_eq_or_imp]
    rw [← ih]
    constructor
    · intro h
      have h2 : (a - m) ^ 2 = 0 := by nlinarith [sq_nonneg (a - m)]
      refine ⟨by have := pow_eq_zero_iff (n := 2) (by decide) |>.1 h2; linarith, by nlinarith⟩
    · rintro ⟨rfl, h⟩
      simp [h]

theorem se_std_zero (x : List (Option ℝ)) : nanstd x = 0 ↔ ∀ a b, some a ∈ x → some b ∈ x → a = b := by
  have hmem : ∀ a, a ∈ present x ↔ some a ∈ x := by
    intro a; simp [present]
  have hnn : 0 ≤ ((present x).map fun v => (v - nanmean x) ^ 2).sum := List.sum_nonneg (by
      intro y hy
      obtain ⟨b, _, rfl⟩ := List.mem_map.1 hy
      positivity)
  have h1 : nanstd x = 0 ↔ ∀ a ∈ present x, a = nanmean x := by
    unfold nanstd
    rw [Real.sqrt_eq_zero (by positivity)]
    rw [← se_squares_zero]
    by_cases hl : present x = []
    · simp [hl]
    · have : ((present x).length : ℝ) ≠ 0 := by
        exact_mod_cast (List.length_pos_iff.2 hl).ne'
      rw [div_eq_zero_iff]
      simp [this]
  rw [h1]
  constructor
  · intro h a b ha hb
    rw [h a ((hmem a).2 ha), h b ((hmem b).2 hb)]
  · intro h a ha
    have hall : ∀ b ∈ present x, b = a := fun b hb => h b a ((hmem b).1 hb) ((hmem a).1 ha)
    have hsum : (present x).sum = (present x).length * a := by
      have : present x = List.replicate (present x).length a := List.eq_replicate_iff.2 ⟨rfl, hall⟩
      rw [this]
      simp
    have hpos : ((present x).length : ℝ) ≠ 0 := by
      exact_mod_cast (List.length_pos_of_mem ha).ne'
    unfold nanmean
    rw [hsum]
    field_simp

/-- C154: if two values differ, `normalize` leaves missing entries missing and in place, and the
others have mean zero and, as their mean square, the inverse square of `std_div`. -/
theorem C154_normalize (x : List (Option ℝ)) (stdDiv : ℝ) (hd : stdDiv ≠ 0) (a b : ℝ) (ha : some a ∈ x) (hb : some b ∈ x) (hab : a ≠ b) :
    (normalize x stdDiv).map Option.isSome = x.map Option.isSome ∧
    (present (normalize x stdDiv)).sum = 0 ∧
    ((present (normalize x stdDiv)).map fun v => v ^ 2).sum * stdDiv ^ 2 = (present x).length ∧
    (present (normalize x stdDiv)).length = (present x).length := by
  have hs : nanstd x ≠ 0 := fun h => hab ((se_std_zero x).1 h a b ha hb)
  have hsd : nanstd x * stdDiv ≠ 0 := mul_ne_zero hs hd
  have hnorm : normalize x stdDiv = x.map (Option.map fun v => (v - nanmean x) / (nanstd x * stdDiv)) := by
    unfold Series.normalize
    simp only [hsd, if_false]
    apply List.map_congr_left
    intro o _
    cases o <;> rfl
  have hpres : present (normalize x stdDiv) = (present x).map fun v => (v - nanmean x) / (nanstd x * stdDiv) := by
    rw [hnorm]
    unfold present
    rw [List.filterMap_map, List.map_filterMap]
    rfl
  have hpos : ((present x).length : ℝ) ≠ 0 := by
    have : a ∈ present x := by simp [present, ha]
    exact_mod_cast (List.length_pos_of_mem this).ne'
  refine ⟨?_, ?_, ?_, by rw [hpres, List.length_map]⟩
  · rw [hnorm, List.map_map]
    apply List.map_congr_left
    intro o _
    cases o <;> rfl
  · rw [hpres, se_sum_affine]
    unfold nanmean
    field_simp
    simp
  · rw [hpres, List.map_map]
    have h1 := se_sum_squares (nanmean x) (nanstd x * stdDiv) (present x)
    have h2 : ((fun v : ℝ => v ^ 2) ∘ fun v => (v - nanmean x) / (nanstd x * stdDiv)) = fun a => ((a - nanmean x) / (nanstd x * stdDiv)) ^ 2 := rfl
    rw [h2, h1]
    have hnn : 0 ≤ ((present x).map fun v => (v - nanmean x) ^ 2).sum := List.sum_nonneg (by
      intro y hy
      obtain ⟨c, _, rfl⟩ := List.mem_map.1 hy
      positivity)
    have hsq : nanstd x ^ 2 = ((present x).map fun v => (v - nanmean x) ^ 2).sum / (present x).length := by
      unfold nanstd
      rw [Real.sq_sqrt (by positivity)]
    have hS : ((present x).map fun v => (v - nanmean x) ^ 2).sum = nanstd x ^ 2 * (present x).length := by
      rw [hsq]; field_simp
    rw [hS]
    field_simp

/-- C154 fails: on data which are all alike nothing finite is left. -/
theorem C154_fails_constant (x : List (Option ℝ)) (stdDiv : ℝ) (h : ∀ a b, some a ∈ x → some b ∈ x → a = b) :
    ∀ o ∈ normalize x stdDiv, o = none := by
  intro o ho
  unfold Series.normalize at ho
  have : nanstd x * stdDiv = 0 := by rw [(se_std_zero x).2 h, zero_mul]
  simp only [this, if_true, List.mem_map] at ho
  obtain ⟨v, _, rfl⟩ := ho
  cases v <;> rfl

/-! ## Non-vacuity -/

/-- A product of two names, one of them in parentheses with a sum. -/
example : IsProduct [.name "a", .op .mul, .lp, .name "b", .op .add, .name "c", .rp] (.bin .mul (.var "a") (.bin .add (.var "b") (.var "c"))) := by
  have hat : ∀ s : String, ∀ r, hd Tok.isLp r → hd Tok.isPow r → Rd .un ([.name s] ++ r) (.var s) r :=
    fun s r h1 h2 => Rd.toUn (.var h1) h2
  have hin := Reads.paren (reads_bin .add (by decide) (hat "b") (hat "c")) []
  refine .bin (r := [.op .mul, .lp, .name "b", .op .add, .name "c", .rp]) ?_ (.step (r' := []) rfl ?_ (.stop hd_nil))
  · simp only [next, lt_self_iff_false, if_false]
    exact Rd.toUn (.var (by rw [hd_cons]; rfl)) (by rw [hd_cons]; rfl)
  · simp only [next, lt_self_iff_false, if_false]
    exact Rd.toUn hin hd_nil

/-- A sum, to which `polynomial` applies as well. -/
example (env : Env) : Py.Has env [.name "a", .op .add, .name "b"] (env.var "a" + env.var "b") ∧ LitOk [.name "a", .op .add, .name "b"] := by
  have hat : ∀ s : String, ∀ r, hd Tok.isLp r → hd Tok.isPow r → Rd .un ([.name s] ++ r) (.var s) r :=
    fun s r h1 h2 => Rd.toUn (.var h1) h2
  exact ⟨⟨_, reads_bin .add (by decide) (hat "a") (hat "b"), .bin (o := .add) .var .var (by rintro (h | h) <;> cases h)⟩, se_long_lit _ (by simp)⟩

/-- Trigonometry exists, at any data value. -/
example (w : ℝ) : ∃ env : Env, Trig env ∧ env.var "a" = w :=
  ⟨{ var := fun s => if s = "pi" then Real.pi else w, call := fun f v => if f = "sin" then Real.sin v else Real.cos v, fdiv := fun _ _ => 0, band := fun _ _ => 0, bor := fun _ _ => 0, bxor := fun _ _ => 0, pow := fun _ _ => 0, inv := fun _ => 0 }, ⟨rfl, fun _ => rfl, fun _ => rfl⟩, rfl⟩

example : some (1 : ℝ) ∈ [some 1, none, some 3] ∧ some (3 : ℝ) ∈ [some 1, none, some 3] ∧ (1 : ℝ) ≠ 3 := by
  refine ⟨by simp, by simp, by norm_num⟩

end Larch.Props
