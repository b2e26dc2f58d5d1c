import Verif.Lemmas.LinearVal

/-!
# C23, C25: building utility expressions
-/

namespace Larch.Props

open Larch.Py Larch.Linear

/-! ## C23 -/

/-- The operand combinations for which the operators are right.  The excluded ones: `X("00") + ...`, `0 - P`,
`P * (P * number)` and products of data that start a boolean shortcut that is not justified. -/
def NodeOk (env : Env) : POp → Obj → Obj → Prop
  | .add, a, _ => ∀ d, a = .dat d → isTxt "00" d = false
  | .sub, a, b => ∀ n s, a = .num n → b = .par s → n.val ≠ 0
  | .mul, a, b => (∀ s c, a = .par s → b = .comp c → s = "_" ∨ c.param = "_") ∧ ∀ d ∈ a.datas, ∀ e ∈ b.datas, MulOk env d e
  | .div, _, _ => True

/-- Every operator of the expression is applied to such operands. -/
noncomputable def SafeEx (fm : Fmt) (env : Env) : Ex → Prop
  | .leaf _ => True
  | .neg e => SafeEx fm env e
  | .bin o a b => SafeEx fm env a ∧ SafeEx fm env b ∧ ∀ x y, a.eval fm = .ok x → b.eval fm = .ok y → NodeOk env o x y

theorem apply_val {env : Env} {p : String → ℝ} {fm : Fmt} (hp : p "_" = 1) {o : POp} {a b r : Obj} (ha : a.LitOk)
    (hb : b.LitOk) (hn : NodeOk env o a b) (h : apply fm o a b = .ok r) {x y : ℝ} (hx : a.Has env p x)
    (hy : b.Has env p y) (hd : o = .div → y ≠ 0) : r.Has env p (opVal o x y) ∧ r.LitOk := by
  cases o with
  | add => exact add_val hp ha hb hn h hx hy
  | sub => exact sub_val hp ha hb hn h hx hy
  | mul => exact mul_val hp ha hb hn.1 hn.2 h hx hy
  | div => exact div_val ha hb h hx hy (hd rfl)

/-- If larch returns an object for an expression (and does not raise), that object's value is the value of the expression.
Missing for the full claim: the operand combinations excluded by `NodeOk`, which the real code gets wrong (`C23_fails_…`
below), and that the placeholder parameter `_` be 1. -/
theorem C23_value_partial (fm : Fmt) (env : Env) (p : String → ℝ) (hp : p "_" = 1) (e : Ex) (hl : e.All Obj.LitOk)
    (hs : SafeEx fm env e) {r : Obj} (h : e.eval fm = .ok r) {v : ℝ} (hv : e.Has env p v) : r.Has env p v := by
  suffices r.Has env p v ∧ r.LitOk from this.1
  induction e generalizing r v with
  | leaf o => cases h; cases hv; exact ⟨by assumption, hl⟩
  | neg e ih =>
    cases hv with
    | neg hv =>
      simp only [Ex.eval] at h
      split at h
      · rename_i a ha
        obtain ⟨h1, h2⟩ := ih hl hs ha hv
        exact neg_val h2 h h1
      · cases h
  | bin o a b iha ihb =>
    cases hv with
    | bin hx hy hd =>
      simp only [Ex.eval] at h
      split at h
      · rename_i x y h1 h2
        obtain ⟨h3, h4⟩ := iha hl.1 hs.1 h1 hx
        obtain ⟨h5, h6⟩ := ihb hl.2 hs.2.1 h2 hy
        exact apply_val hp h4 h6 (hs.2.2 _ _ h1 h2) h h3 h5 hd
      · cases h
      · cases h

/-- The value of an object is unique, so the above determines it. -/
theorem C23_value_unique (env : Env) (p : String → ℝ) (o : Obj) {x y : ℝ} (hx : o.Has env p x) (hy : o.Has env p y) :
    x = y := by
  have comp : ∀ c : Comp, ∀ x y, c.Has env p x → c.Has env p y → x = y := by
    rintro c x y ⟨u, h1, rfl⟩ ⟨v, h2, rfl⟩
    rw [h1.det h2]
  cases o with
  | num n => cases hx; cases hy; rfl
  | par s => cases hx; cases hy; rfl
  | dat d => exact Py.Has.det hx hy
  | comp c => exact comp c _ _ hx hy
  | func l =>
    simp only [Obj.Has] at hx hy
    induction hx generalizing y with
    | nil => cases hy; rfl
    | cons h1 _ ih =>
      cases hy with
      | cons h2 h3 => rw [comp _ _ _ h1 h2, ih h3]
  | pm e =>
    simp only [Obj.Has] at hx hy
    induction hx generalizing y with
    | ref => cases hy; rfl
    | num => cases hy; rfl
    | noop => cases hy; rfl
    | add _ _ h1 h2 => cases hy with | add a b => rw [h1 a, h2 b]
    | sub _ _ h1 h2 => cases hy with | sub a b => rw [h1 a, h2 b]
    | mul _ _ h1 h2 => cases hy with | mul a b => rw [h1 a, h2 b]
    | div _ _ _ h1 h2 => cases hy with | div a b => rw [h1 a, h2 b]

/-- The operators on data references that have no arithmetic shortcut: `& | ^ //` and unary `~`.  `**` is the same except for a
signed number on the left. -/
theorem C23_data_operators (fm : Fmt) (env : Env) (o : BOp) (ho : o ≠ .pow) (a b : List Tok) {x y : ℝ} (ha : Py.Has env a x)
    (hb : Py.Has env b y) (hd : o = .div ∨ o = .fdiv → y ≠ 0) :
    Py.Has env (dbin fm o a b) (o.val env x y) ∧ Py.Has env (dinv fm a) (env.inv x) :=
  ⟨dbin_has ho ha hb hd, dinv_has ha⟩

theorem C23_data_power_partial (fm : Fmt) (env : Env) (a b : List Tok) {x y : ℝ} (ha : Py.Has env a x)
    (hb : Py.Has env b y) (hs : ∀ t v, a ≠ [.op .sub, .num t v] ∧ a ≠ [.op .add, .num t v]) :
    Py.Has env (dbin fm .pow a b) (env.pow x y) := dbin_pow_has ha hb hs

/-- Parameters, components and functions: the building blocks of a linear-in-parameters utility. -/
def IsTerm : Obj → Prop
  | .par _ => True
  | .comp _ => True
  | .func _ => True
  | _ => False

/-- What they may be multiplied with. -/
def IsFactor : Obj → Prop
  | .num _ => True
  | .dat _ => True
  | _ => False

/-- `+` and `-` of such terms and multiplication of a term by data or a number (on either side) never raise, and give a term
again. -/
theorem C23_terms_never_raise (fm : Fmt) (a b : Obj) (ha : IsTerm a) :
    (IsTerm b → (∃ r, add fm a b = .ok r ∧ IsTerm r) ∧ ∃ r, sub fm a b = .ok r ∧ IsTerm r) ∧
    (IsFactor b → (∃ r, mul fm a b = .ok r ∧ IsTerm r) ∧ ∃ r, mul fm b a = .ok r ∧ IsTerm r) := by
  have t1 : ∀ c d, IsTerm (compAddComp c d) := by
    intro c d; unfold compAddComp; split
    · trivial
    · split <;> trivial
  have t2 : ∀ l d, IsTerm (funcAddComp l d) := by
    intro c d; unfold funcAddComp; split <;> trivial
  have t3 : ∀ (d : List Tok) (l : List Comp), ∃ m, mulEach l (fun c => ok (.comp (compMulDat fm c d))) = ok (.func m) := by
    intro d l
    induction l with
    | nil => exact ⟨[], rfl⟩
    | cons c cs ih =>
      obtain ⟨m, hm⟩ := ih
      exact ⟨compMulDat fm c d :: m, by simp only [ok] at hm; simp [mulEach, hm, ok]⟩
  constructor
  · intro hb
    constructor
    · cases a <;> cases b <;> simp only [IsTerm] at ha hb <;>
        exact ⟨_, rfl, by first | exact t1 _ _ | exact t2 _ _ | trivial⟩
    · cases a <;> cases b <;> simp only [IsTerm] at ha hb <;> exact ⟨_, rfl, trivial⟩
  · intro hb
    constructor
    · cases a <;> cases b <;> simp only [IsTerm, IsFactor] at ha hb
      case func.dat l d =>
        obtain ⟨m, hm⟩ := t3 d l
        simp only [ok] at hm
        exact ⟨.func m, by simp only [mul, dispatch, mulSlot, Obj.kind, funcMul, hm, ok], trivial⟩
      all_goals exact ⟨_, rfl, trivial⟩
    · cases a <;> cases b <;> simp only [IsTerm, IsFactor] at ha hb <;> exact ⟨_, rfl, trivial⟩

/-! ### Where it fails -/

/-- `0 - P.a` returns `P.a`. -/
theorem C23_fails_zero_minus (fm : Fmt) (s : String) : sub fm (.num zeroNum) (.par s) = .ok (.par s) := by
  simp [sub, dispatch, subSlot, Obj.kind, parSub, zeroNum, Num.val, ok]

/-- So the value is wrong whenever the parameter is not zero. -/
theorem C23_fails_zero_minus_value (fm : Fmt) (env : Env) (p : String → ℝ) (s : String) (h : p s ≠ 0) :
    ∃ r, sub fm (.num zeroNum) (.par s) = .ok r ∧ ∀ v, r.Has env p v → v ≠ 0 - p s := by
  refine ⟨_, C23_fails_zero_minus fm s, ?_⟩
  intro v hv hv'
  cases hv
  apply h
  linarith

theorem zz_has (env : Env) : Py.Has env [.num "0" 0, .op .add, .num "00" 0] 0 := by
  have h : Py.Has env [.num "0" 0, .op .add, .num "00" 0] (0 + 0) := by
    refine ⟨_, reads_bin .add (by simp) (a := [.num "0" 0]) (b := [.num "00" 0]) (fun r hr hp => Rd.toUn .num hp) (fun r hr hp => Rd.toUn .num hp), .bin .lit .lit (by simp)⟩
  simpa using h

/-- `X("00") + X.b` drops `b`. -/
theorem C23_fails_double_zero (fm : Fmt) (hf : fm.bareU "00" = true) (env : Env) (p : String → ℝ) (b : String) (h : env.var b ≠ 0) :
    ∃ r, add fm (.dat [.num "00" 0]) (.dat [.name b]) = .ok r ∧ r.Has env p 0 ∧
      (Obj.dat [.num "00" 0]).Has env p 0 ∧ (Obj.dat [.name b]).Has env p (env.var b) ∧ (0 : ℝ) ≠ 0 + env.var b := by
  refine ⟨.dat [.num "0" 0, .op .add, .num "00" 0], ?_, zz_has env, ⟨_, reads_num _ _, .lit⟩, ⟨_, reads_name _, .var⟩, ?_⟩
  · simp [add, dispatch, addSlot, Obj.kind, datAdd, isZero, isTxt, datAddToks, ok, parenthize, hf]
  · rw [zero_add]; exact h.symm

/-- `(-5) ** X.b` (a number on the left) reads as `-(5 ** b)`. -/
theorem C23_fails_negative_base (fm : Fmt) (hf : fm.bareS "5" = true) (env : Env) (b : String)
    (h : env.pow (-5) (env.var b) ≠ -env.pow 5 (env.var b)) :
    ∀ v, Py.Has env (dbin fm .pow [.op .sub, .num "5" 5] [.name b]) v → v ≠ env.pow (-5) (env.var b) := by
  intro v hv hv'
  have : Py.Has env (dbin fm .pow [.op .sub, .num "5" 5] [.name b]) (-env.pow 5 (env.var b)) := by
    have e1 : dbin fm .pow [.op .sub, .num "5" 5] [.name b] = [.op .sub, .num "5" 5, .op .pow, .name b] := by
      simp [dbin, parenthize, hf]
    rw [e1]
    refine ⟨.neg (.bin .pow (.lit 5) (.var b)), reads_of_un (.neg (.un (fun t ht => by simp at ht; subst ht; rfl) (.pw1 .num ?_))), .neg (.bin .lit .var (by simp))⟩
    exact Rd.toUn (.var hd_nil) hd_nil
  exact h (by rw [← hv', hv.det this])

/-- `P.a * (P.b * 2)` is an object with no numeric value. -/
theorem C23_fails_nested_product (fm : Fmt) (env : Env) (p : String → ℝ) (a b : String) (ha : a ≠ "_") (hb : b ≠ "_")
    (n : Num) : ∃ x r, mul fm (.par b) (.num n) = .ok x ∧ mul fm (.par a) x = .ok r ∧ (∃ v, x.Has env p v) ∧
      ∀ v, ¬ r.Has env p v := by
  refine ⟨.comp ⟨b, one, n.val⟩, .pm (.bin .mul (.ref a) (.lin ⟨b, one, n.val⟩)), ?_, ?_, ⟨_, 1, one_has, rfl⟩, ?_⟩
  · simp [mul, dispatch, mulSlot, Obj.kind, parMul, ok]
  · simp [mul, dispatch, mulSlot, Obj.kind, parMul, ok, ha, hb]
  · intro v hv
    cases hv with
    | mul _ h => cases h

/-- Tokens of `boolean(a)+boolean(b)`. -/
def boolSum : List Tok := [.name "boolean", .lp, .name "a", .rp, .op .add, .name "boolean", .lp, .name "b", .rp]

theorem boolCall_at (s t : String) (r : List Tok) : Rd .at (.name s :: .lp :: .name t :: .rp :: r) (.call s (.var t)) r :=
  .call (.cmp0 (Rd.toBin (Rd.toUn (.var (fun x hx => by simp at hx; subst hx; rfl)) (fun x hx => by simp at hx; subst hx; rfl)) _ 1 rfl (by omega) (fun _ _ _ x hx => by simp at hx; subst hx; rfl)) (fun x hx => by simp at hx; subst hx; rfl))

theorem boolSum_has (env : Env) : Py.Has env boolSum (env.call "boolean" (env.var "a") + env.call "boolean" (env.var "b")) := by
  refine ⟨_, reads_bin .add (by simp) (a := [.name "boolean", .lp, .name "a", .rp]) (b := [.name "boolean", .lp, .name "b", .rp])
    (fun r hr hp => Rd.toUn (boolCall_at _ _ _) hp) (fun r hr hp => Rd.toUn (boolCall_at _ _ _) hp), .bin (.call .var) (.call .var) (by simp)⟩

/-- Squaring the sum of two booleans gives the sum again (the text starts with `boolean(` and ends with `)`): wrong by a factor
of two where both are true. -/
theorem C23_fails_boolean_square (fm : Fmt) (env : Env) (p : String → ℝ) (h1 : env.call "boolean" (env.var "a") = 1)
    (h2 : env.call "boolean" (env.var "b") = 1) :
    mul fm (.dat boolSum) (.dat boolSum) = .ok (.dat boolSum) ∧ (Obj.dat boolSum).Has env p 2 ∧ (2 : ℝ) ≠ 2 * 2 := by
  refine ⟨?_, ?_, by norm_num⟩
  · simp [mul, dispatch, mulSlot, Obj.kind, datMul, ok, dmul, isOne, isTxt, boolSum, shortcut, isBool]
  · have := boolSum_has env
    rw [h1, h2] at this
    norm_num at this
    exact this

/-- Tokens of `boolean(a==s)`. -/
def boolEq (a s : String) : List Tok := [.name "boolean", .lp, .name a, .eqeq, .name s, .rp]

theorem boolEq_has (env : Env) (a s : String) : Py.Has env (boolEq a s) (env.call "boolean" (if env.var a = env.var s then 1 else 0)) := by
  refine ⟨.call "boolean" (.eq (.var a) (.var s)), reads_of_un (Rd.toUn (.call ?_) hd_nil), .call (.eq .var .var)⟩
  refine .cmp1 (Rd.toBin (Rd.toUn (.var ?_) ?_) _ 1 rfl (by omega) ?_) (Rd.toBin (Rd.toUn (.var ?_) ?_) _ 1 rfl (by omega) ?_) ?_ <;>
    first
    | (intro x hx; simp at hx; subst hx; rfl)
    | (intro _ _ _ x hx; simp at hx; subst hx; rfl)

/-- `boolean(a==b) * boolean(a==c)` is 0, even where `b` and `c` are equal. -/
theorem C23_fails_boolean_exclusive (fm : Fmt) (env : Env) (p : String → ℝ) (a b c : String) (hbc : b ≠ c)
    (h1 : env.var a = env.var b) (h2 : env.var a = env.var c) (h3 : env.call "boolean" 1 = 1) :
    mul fm (.dat (boolEq a b)) (.dat (boolEq a c)) = .ok (.dat [.num "0" 0]) ∧ (Obj.dat [.num "0" 0]).Has env p 0 ∧
      (Obj.dat (boolEq a b)).Has env p 1 ∧ (Obj.dat (boolEq a c)).Has env p 1 := by
  refine ⟨?_, ⟨_, reads_num _ _, .lit⟩, ?_, ?_⟩
  · have e1 : boolmatch (boolEq a b) = some ([.name a], [.name b]) := by
      simp [boolmatch, isBool, boolEq, splitEq, Tok.isEqeq]
    have e2 : boolmatch (boolEq a c) = some ([.name a], [.name c]) := by
      simp [boolmatch, isBool, boolEq, splitEq, Tok.isEqeq]
    have e3 : shortcut (boolEq a b) (boolEq a c) = some [.num "0" 0] := by
      unfold shortcut
      rw [if_neg (by simp [boolEq, hbc]), e1, e2]
      simp [hbc]
    have e4 : ∀ s, isOne (boolEq a s) = false := by intro s; simp [isOne, isTxt, boolEq]
    simp [mul, dispatch, mulSlot, Obj.kind, datMul, ok, dmul, e3, e4]
  · have := boolEq_has env a b
    rwa [if_pos h1, h3] at this
  · have := boolEq_has env a c
    rwa [if_pos h2, h3] at this

/-- Adding data to a parameter makes the model mention a parameter named `_`, which is an ordinary free parameter. -/
theorem C23_placeholder (fm : Fmt) (d : List Tok) (s : String) (h : isZero d = false) :
    add fm (.dat d) (.par s) = .ok (.func [⟨"_", d, 1⟩, ofPar s]) := by
  have h1 : isZero one = false := by simp [isZero, isTxt, one]
  simp [add, dispatch, addSlot, Obj.kind, datAdd, ok, compAddComp, h, h1, ofPar]

/-! ### Examples -/

/-- The boolean shortcuts are right when `boolean` returns 0 or 1 and the operands are calls of it on the same expression. -/
example (env : Env) (a : String) (h : ∀ x, env.call "boolean" x = 0 ∨ env.call "boolean" x = 1) :
    MulOk env [.name "boolean", .lp, .name a, .rp] [.name "boolean", .lp, .name a, .rp] := by
  intro r hr x y hx hy
  have e : shortcut [.name "boolean", .lp, .name a, .rp] [.name "boolean", .lp, .name a, .rp] = some [.name "boolean", .lp, .name a, .rp] := by
    simp [shortcut, isBool]
  rw [e] at hr
  cases hr
  have h1 : Py.Has env [.name "boolean", .lp, .name a, .rp] (env.call "boolean" (env.var a)) :=
    ⟨_, reads_of_un (Rd.toUn (boolCall_at _ _ _) hd_nil), .call .var⟩
  rw [hx.det h1, hy.det h1]
  rcases h (env.var a) with h | h
  · rw [h, mul_zero]; rw [h] at h1; exact h1
  · rw [h, mul_one]; rw [h] at h1; exact h1

/-- Data names that are not calls start no shortcut. -/
theorem mulOk_names (env : Env) (a b : String) : MulOk env [.name a] [.name b] := by
  intro r hr
  simp [shortcut, isBool, boolmatch] at hr

/-- The expression `P.b0 + P.b1 * X.a - (X.a * X.c) * P.b2`. -/
def exTree : Ex :=
  .bin .sub (.bin .add (.leaf (.par "b0")) (.bin .mul (.leaf (.par "b1")) (.leaf (.dat [.name "a"]))))
    (.bin .mul (.bin .mul (.leaf (.dat [.name "a"])) (.leaf (.dat [.name "c"]))) (.leaf (.par "b2")))

example (fm : Fmt) (env : Env) : exTree.All Obj.LitOk ∧ SafeEx fm env exTree ∧ (∃ r, exTree.eval fm = .ok r) := by
  have e1 : Ex.eval fm (.bin .mul (.leaf (.par "b1")) (.leaf (.dat [.name "a"]))) = .ok (.comp ⟨"b1", [.name "a"], 1⟩) := by
    simp [Ex.eval, apply, mul, dispatch, mulSlot, Obj.kind, parMul, ok]
  have e2 : Ex.eval fm (.bin .mul (.leaf (.dat [.name "a"])) (.leaf (.dat [.name "c"]))) = .ok (.dat [.name "a", .op .mul, .name "c"]) := by
    simp [Ex.eval, apply, mul, dispatch, mulSlot, Obj.kind, datMul, ok, dmul, isOne, isTxt, shortcut, isBool, boolmatch, dbin, parenthize]
  have e3 : Ex.eval fm (.bin .add (.leaf (.par "b0")) (.bin .mul (.leaf (.par "b1")) (.leaf (.dat [.name "a"])))) =
      .ok (.func [ofPar "b0", ⟨"b1", [.name "a"], 1⟩]) := by
    rw [Ex.eval, e1]
    simp [Ex.eval, apply, add, dispatch, addSlot, Obj.kind, parAdd, ok, compAddComp, isZero, isTxt, ofPar, one]
  have e4 : Ex.eval fm (.bin .mul (.bin .mul (.leaf (.dat [.name "a"])) (.leaf (.dat [.name "c"]))) (.leaf (.par "b2"))) =
      .ok (.comp ⟨"b2", [.name "a", .op .mul, .name "c"], 1⟩) := by
    rw [Ex.eval, e2]
    simp [Ex.eval, apply, mul, dispatch, mulSlot, Obj.kind, datMul, ok]
  refine ⟨?_, ⟨⟨trivial, ⟨trivial, trivial, ?_⟩, ?_⟩, ⟨⟨trivial, trivial, ?_⟩, trivial, ?_⟩, ?_⟩, ?_⟩
  · simp [exTree, Ex.All, Obj.LitOk, LitOk]
  · intro x y hx hy; cases hx; cases hy
    exact ⟨by simp, by simp [Obj.datas]⟩
  · intro x y hx hy; cases hx; simp [NodeOk]
  · intro x y hx hy; cases hx; cases hy
    exact ⟨by simp, by simp [Obj.datas, mulOk_names]⟩
  · intro x y hx hy; cases hy
    rw [e2] at hx; cases hx
    exact ⟨by simp, by simp [Obj.datas]⟩
  · intro x y hx hy
    rw [e3] at hx; cases hx
    simp [NodeOk]
  · unfold exTree
    rw [Ex.eval, e3, e4]
    exact ⟨_, by simp [apply, sub, dispatch, subSlot, Obj.kind, funcSub, ok]; rfl⟩

/-! ## C25 -/

theorem removeLoop_spec (q : Comp → Bool) : ∀ (i : Nat) (l : List Comp), i ≤ l.length →
    removeLoop q i l = (l.take i).filter (fun c => !q c) ++ l.drop i := by
  intro i
  induction i with
  | zero => intro l _; simp [removeLoop]
  | succ i ih =>
    intro l hi
    have hi' : i < l.length := hi
    have e1 : l[i]? = some l[i] := List.getElem?_eq_getElem hi'
    rw [removeLoop, e1]
    simp only
    have e2 : l.take (i + 1) = l.take i ++ [l[i]] := by rw [List.take_add_one, e1]; rfl
    split
    · rename_i hq
      rw [ih _ (by rw [List.length_eraseIdx]; split <;> omega)]
      rw [List.eraseIdx_eq_take_drop_succ, e2, List.filter_append]
      have e3 : (List.take i (List.take i l ++ List.drop (i + 1) l)) = l.take i := by
        rw [List.take_append_of_le_length (by simp; omega), List.take_take, Nat.min_self]
      have e4 : (List.drop i (List.take i l ++ List.drop (i + 1) l)) = l.drop (i + 1) := by
        rw [List.drop_append_of_le_length (by simp; omega), List.drop_take, Nat.sub_self]; rfl
      rw [e3, e4]
      simp [hq]
    · rename_i hq
      rw [ih _ (by omega), e2, List.filter_append, List.drop_eq_getElem_cons hi']
      simp [hq]

/-- `remove_data(d)` leaves exactly the terms whose data is not `d`, in order; `remove_param(s)` those with another parameter. -/
theorem C25_remove (l : List Comp) :
    (∀ d, ∃ keep : Comp → Bool, (∀ c, keep c = true ↔ c.data ≠ d) ∧ removeData d l = l.filter keep) ∧
    (∀ s, ∃ keep : Comp → Bool, (∀ c, keep c = true ↔ c.param ≠ s) ∧ removeParam s l = l.filter keep) := by
  classical
  constructor
  · intro d
    refine ⟨fun c => !decide (c.data = d), by simp, ?_⟩
    unfold removeData
    rw [removeLoop_spec _ _ _ (Nat.le_refl _)]
    simp
  · intro s
    refine ⟨fun c => !(c.param == s), by simp, ?_⟩
    unfold removeParam
    rw [removeLoop_spec _ _ _ (Nat.le_refl _)]
    simp

example (a b c d : List Tok) : removeParam "x" [⟨"x", a, 1⟩, ⟨"y", b, 1⟩, ⟨"x", c, 2⟩, ⟨"x", d, 2⟩] = [⟨"y", b, 1⟩] := by
  simp [removeParam, removeLoop]

end Larch.Props
