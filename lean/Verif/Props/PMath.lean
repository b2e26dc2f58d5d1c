import Verif.Model.PMath
import Verif.Lemmas.PyExpr
import Mathlib.Tactic.FieldSimp
import Mathlib.Tactic.Ring
import Mathlib.Tactic.NormNum
import Mathlib.Tactic.Linarith

/-!
# C24: printing parameter arithmetic
-/

namespace Larch.Props

open Larch.Py Larch.Linear

/-- No operand is a linear component (these are not values). -/
def Pure : PM → Prop
  | .lin _ => False
  | .bin _ l r => Pure l ∧ Pure r
  | _ => True

/-- `-` (or `/`) never has a sum (or product) as its right operand. -/
def NoRightChain : PM → Prop
  | .bin o l r => NoRightChain l ∧ NoRightChain r ∧
    ((o = .sub ∨ o = .div) → ∀ o' a b, r = .bin o' a b → o'.prec ≠ o.prec)
  | _ => True

noncomputable def leafE : PM → E
  | .ref s => .var s
  | .noop s => .var s
  | .num v => if v < 0 then .neg (.lit (-v)) else .lit v
  | _ => .lit 0

mutual
/-- How the printed expression reads. -/
noncomputable def rd : PM → E
  | .bin o l r => join (rd l) o r
  | x => leafE x
/-- How `acc op …` reads when the printed form of the operand follows without parentheses where it has none. -/
noncomputable def join (acc : E) (o : POp) : PM → E
  | .bin o' a b => if o'.prec = o.prec then join (join acc o a) o' b else .bin o.tok acc (join (rd a) o' b)
  | x => .bin o.tok acc (leafE x)
end

/-- What may follow an operand of a chain of level `l`. -/
def OkAfter (l : Nat) (rest : List Tok) : Prop :=
  hd Tok.isLp rest ∧ hd Tok.isPow rest ∧ ∀ m, l < m → m ≤ 5 → hd (Tok.isOpAt m) rest

theorem okAfter_op (o : POp) (ts : List Tok) : OkAfter o.tok.level (.op o.tok :: ts) := by
  refine ⟨by simp [hd_cons, Tok.isLp], ?_, fun m h1 h2 => ?_⟩
  · rw [hd_cons]; cases o <;> rfl
  · rw [hd_cons]; simp [Tok.isOpAt]; omega

theorem okAfter_nil (l : Nat) : OkAfter l [] := ⟨hd_nil, hd_nil, fun _ _ _ => hd_nil⟩

theorem level_prec (o : POp) : o.tok.level + 6 = o.prec := by cases o <;> rfl

theorem prec_bin (o : POp) (a b : PM) : (PM.bin o a b).prec = o.prec := by cases o <;> rfl

/-- The printed form of an operand of `o`. -/
noncomputable def opd (txt : ℝ → String) (o : POp) (e : PM) : List Tok := parenthizeRepr e.prec o.prec (e.repr txt)

theorem opd_same (txt : ℝ → String) {o o' : POp} (h : o.prec = o'.prec) (e : PM) : opd txt o e = opd txt o' e := by
  unfold opd; rw [h]

theorem repr_bin (txt : ℝ → String) (o : POp) (a b : PM) :
    (PM.bin o a b).repr txt = opd txt o a ++ .op o.tok :: opd txt o b := rfl

theorem num_reads (txt : ℝ → String) (v : ℝ) : Reads (numToks txt v) (leafE (.num v)) := by
  simp only [numToks, leafE]
  split
  · exact .cmp0 ((Rd.neg (Rd.toUn .num hd_nil)).toBin _ 1 rfl (by omega) (fun _ _ _ => hd_nil)) hd_nil
  · exact .cmp0 ((Rd.toUn .num hd_nil).toBin _ 1 rfl (by omega) (fun _ _ _ => hd_nil)) hd_nil

theorem levels_of_lt {o o' : POp} (h : o.prec < o'.prec) : o.tok.level = 4 ∧ o'.tok.level = 5 := by
  cases o <;> cases o' <;> simp [POp.prec] at h <;> exact ⟨rfl, rfl⟩

/-- Leaves are read as unary expressions. -/
theorem leaf_un (txt : ℝ → String) (o : POp) (e : PM) (hp : Pure e) (hl : ∀ o' a b, e ≠ .bin o' a b)
    (rest : List Tok) (h1 : hd Tok.isLp rest) (h2 : hd Tok.isPow rest) : Rd .un (opd txt o e ++ rest) (leafE e) rest := by
  cases e with
  | ref s =>
    have : opd txt o (.ref s) = [.name s] := by cases o <;> rfl
    rw [this]
    exact Rd.toUn (.var h1) h2
  | noop s =>
    have : opd txt o (.noop s) = [.name s] := by cases o <;> rfl
    rw [this]
    exact Rd.toUn (.var h1) h2
  | num v =>
    have h0 := num_reads txt v
    have : opd txt o (.num v) = .lp :: (numToks txt v ++ [.rp]) := by cases o <;> rfl
    rw [this]
    have := h0.paren rest
    simpa using Rd.toUn this h2
  | lin c => exact absurd hp (by simp [Pure])
  | bin o' a b => exact absurd rfl (hl o' a b)

theorem rd_leaf {e : PM} (hl : ∀ o' a b, e ≠ .bin o' a b) : rd e = leafE e := by
  cases e <;> first | rfl | (exact absurd rfl (hl _ _ _))

theorem join_leaf {e : PM} (hl : ∀ o' a b, e ≠ .bin o' a b) (acc : E) (o : POp) :
    join acc o e = .bin o.tok acc (leafE e) := by
  cases e <;> first | rfl | (exact absurd rfl (hl _ _ _))

/-- The reading of a printed expression, alone or inside a chain. -/
theorem print_reads (txt : ℝ → String) (e : PM) (hp : Pure e) :
    (∀ o a b, e = .bin o a b → ∀ rest E r', OkAfter o.tok.level rest → Rd (.loop o.tok.level (rd e)) rest E r' →
      Rd (.bin o.tok.level) (e.repr txt ++ rest) E r') ∧
    (∀ (o : POp) acc rest E r', OkAfter o.tok.level rest → Rd (.loop o.tok.level (join acc o e)) rest E r' →
      Rd (.loop o.tok.level acc) (.op o.tok :: (opd txt o e ++ rest)) E r') ∧
    (∀ (o : POp) R E r', OkAfter o.tok.level R → Rd (.loop o.tok.level (rd e)) R E r' →
      Rd (.bin o.tok.level) (opd txt o e ++ R) E r') := by
  induction e with
  | ref s =>
    have hl : ∀ o' a b, (PM.ref s) ≠ .bin o' a b := by intros; simp
    refine ⟨fun o a b h => absurd h (hl o a b), fun o acc rest E r' ho h => ?_, fun o R E r' ho h => ?_⟩
    · rw [join_leaf hl] at h
      exact .step rfl ((leaf_un txt o _ hp hl rest ho.1 ho.2.1).toNext _ ho.2.2) h
    · rw [rd_leaf hl] at h
      exact .bin ((leaf_un txt o _ hp hl R ho.1 ho.2.1).toNext _ ho.2.2) h
  | num v =>
    have hl : ∀ o' a b, (PM.num v) ≠ .bin o' a b := by intros; simp
    refine ⟨fun o a b h => absurd h (hl o a b), fun o acc rest E r' ho h => ?_, fun o R E r' ho h => ?_⟩
    · rw [join_leaf hl] at h
      exact .step rfl ((leaf_un txt o _ hp hl rest ho.1 ho.2.1).toNext _ ho.2.2) h
    · rw [rd_leaf hl] at h
      exact .bin ((leaf_un txt o _ hp hl R ho.1 ho.2.1).toNext _ ho.2.2) h
  | lin c => exact absurd hp (by simp [Pure])
  | noop s =>
    have hl : ∀ o' a b, (PM.noop s) ≠ .bin o' a b := by intros; simp
    refine ⟨fun o a b h => absurd h (hl o a b), fun o acc rest E r' ho h => ?_, fun o R E r' ho h => ?_⟩
    · rw [join_leaf hl] at h
      exact .step rfl ((leaf_un txt o _ hp hl rest ho.1 ho.2.1).toNext _ ho.2.2) h
    · rw [rd_leaf hl] at h
      exact .bin ((leaf_un txt o _ hp hl R ho.1 ho.2.1).toNext _ ho.2.2) h
  | bin o' a b iha ihb =>
    obtain ⟨hpa, hpb⟩ := hp
    obtain ⟨a1, a2, a3⟩ := iha hpa
    obtain ⟨b1, b2, b3⟩ := ihb hpb
    have one : ∀ rest E r', OkAfter o'.tok.level rest → Rd (.loop o'.tok.level (rd (.bin o' a b))) rest E r' →
        Rd (.bin o'.tok.level) ((PM.bin o' a b).repr txt ++ rest) E r' := by
      intro rest E r' ho h
      rw [repr_bin, List.append_assoc, List.cons_append]
      exact a3 o' _ E r' (okAfter_op o' _) (b2 o' (rd a) rest E r' ho h)
    have full : Reads ((PM.bin o' a b).repr txt) (rd (.bin o' a b)) := by
      have := one [] _ [] (okAfter_nil _) (.stop hd_nil)
      rw [List.append_nil] at this
      exact .cmp0 (Rd.down _ this (by cases o' <;> simp [POp.tok, BOp.level]) (by cases o' <;> simp [POp.tok, BOp.level])) hd_nil
    have paren : ∀ (o : POp), o'.prec < o.prec → ∀ rest, OkAfter o.tok.level rest →
        Rd (next o.tok.level) (opd txt o (.bin o' a b) ++ rest) (rd (.bin o' a b)) rest := by
      intro o hlt rest ho
      have : opd txt o (.bin o' a b) = .lp :: ((PM.bin o' a b).repr txt ++ [.rp]) := by
        unfold opd parenthizeRepr
        rw [prec_bin, if_pos hlt]
      rw [this]
      have := full.paren rest
      exact (show Rd .un _ _ _ by simpa using Rd.toUn this ho.2.1).toNext _ ho.2.2
    have higher : ∀ (o : POp), o.prec < o'.prec → ∀ rest, OkAfter o.tok.level rest →
        Rd (next o.tok.level) (opd txt o (.bin o' a b) ++ rest) (rd (.bin o' a b)) rest := by
      intro o hlt rest ho
      have e1 : opd txt o (.bin o' a b) = (PM.bin o' a b).repr txt := by
        unfold opd parenthizeRepr
        rw [prec_bin, if_neg (by omega)]
      obtain ⟨e4, e5⟩ := levels_of_lt hlt
      rw [e1, e4]
      rw [e4] at ho
      rw [e5] at one
      exact one rest _ rest ⟨ho.1, ho.2.1, fun m h1 h2 => by omega⟩ (.stop (ho.2.2 5 (by omega) (by omega)))
    refine ⟨fun o x y h => ?_, fun o acc rest E r' ho h => ?_, fun o R E r' ho h => ?_⟩
    · cases h
      exact one
    · rcases Nat.lt_trichotomy o'.prec o.prec with hlt | heq | hgt
      · have hj : join acc o (.bin o' a b) = .bin o.tok acc (rd (.bin o' a b)) := by
          simp only [join, rd]; rw [if_neg (by omega)]
        rw [hj] at h
        exact .step rfl (paren o hlt rest ho) h
      · have hj : join acc o (.bin o' a b) = join (join acc o a) o' b := by
          simp only [join]; rw [if_pos heq]
        rw [hj] at h
        have e1 : opd txt o (.bin o' a b) = opd txt o a ++ .op o'.tok :: opd txt o' b := by
          unfold opd
          rw [parenthizeRepr, prec_bin, if_neg (by omega), repr_bin, opd_same txt heq a]
          rfl
        have hlev : o.tok.level = o'.tok.level := by
          have h1 := level_prec o; have h2 := level_prec o'; omega
        rw [e1, List.append_assoc, List.cons_append]
        refine a2 o acc _ E r' (by rw [hlev]; exact okAfter_op o' _) ?_
        rw [hlev] at h ho ⊢
        exact b2 o' _ rest E r' ho h
      · have hj : join acc o (.bin o' a b) = .bin o.tok acc (rd (.bin o' a b)) := by
          simp only [join, rd]; rw [if_neg (by omega)]
        rw [hj] at h
        exact .step rfl (higher o hgt rest ho) h
    · rcases Nat.lt_trichotomy o'.prec o.prec with hlt | heq | hgt
      · exact .bin (paren o hlt R ho) h
      · have e1 : opd txt o (.bin o' a b) = (PM.bin o' a b).repr txt := by
          unfold opd parenthizeRepr
          rw [prec_bin, if_neg (by omega)]
        have hlev : o.tok.level = o'.tok.level := by
          have h1 := level_prec o; have h2 := level_prec o'; omega
        rw [e1]
        rw [hlev] at h ho ⊢
        exact one R E r' ho h
      · exact .bin (higher o hgt R ho) h

/-- The printed expression reads as `rd e`. -/
theorem repr_reads (txt : ℝ → String) (e : PM) (hp : Pure e) : Reads (e.repr txt) (rd e) := by
  cases e with
  | ref s => exact .cmp0 ((Rd.toUn (.var hd_nil) hd_nil).toBin _ 1 rfl (by omega) (fun _ _ _ => hd_nil)) hd_nil
  | noop s => exact .cmp0 ((Rd.toUn (.var hd_nil) hd_nil).toBin _ 1 rfl (by omega) (fun _ _ _ => hd_nil)) hd_nil
  | num v =>
    exact num_reads txt v
  | lin c => exact absurd hp (by simp [Pure])
  | bin o a b =>
    have := (print_reads txt (.bin o a b) hp).1 o a b rfl [] _ [] (okAfter_nil _) (.stop hd_nil)
    rw [List.append_nil] at this
    exact .cmp0 (Rd.down _ this (by cases o <;> simp [POp.tok, BOp.level]) (by cases o <;> simp [POp.tok, BOp.level])) hd_nil

/-! ## Values -/

/-- The value of `x o y` (`y ≠ 0` for divisions, see `PM.Has`). -/
noncomputable def pval : POp → ℝ → ℝ → ℝ
  | .add, x, y => x + y
  | .sub, x, y => x - y
  | .mul, x, y => x * y
  | .div, x, y => x / y

theorem has_bin_iff {p : String → ℝ} {o : POp} {l r : PM} {z : ℝ} :
    PM.Has p (.bin o l r) z ↔ ∃ x y, PM.Has p l x ∧ PM.Has p r y ∧ (o = .div → y ≠ 0) ∧ z = pval o x y := by
  constructor
  · intro h
    cases h with
    | add h1 h2 => exact ⟨_, _, h1, h2, by simp, rfl⟩
    | sub h1 h2 => exact ⟨_, _, h1, h2, by simp, rfl⟩
    | mul h1 h2 => exact ⟨_, _, h1, h2, by simp, rfl⟩
    | div h1 h2 h3 => exact ⟨_, _, h1, h2, fun _ => h3, rfl⟩
  · rintro ⟨x, y, h1, h2, h3, rfl⟩
    cases o
    · exact .add h1 h2
    · exact .sub h1 h2
    · exact .mul h1 h2
    · exact .div h1 h2 (h3 rfl)

theorem ehas_bin_iff {env : Env} {o : POp} {a b : E} {z : ℝ} :
    E.Has env (.bin o.tok a b) z ↔ ∃ x y, E.Has env a x ∧ E.Has env b y ∧ (o = .div → y ≠ 0) ∧ z = pval o x y := by
  constructor
  · intro h
    cases h with
    | bin h1 h2 h3 =>
      refine ⟨_, _, h1, h2, fun ho => h3 (by subst ho; exact Or.inl rfl), ?_⟩
      cases o <;> rfl
  · rintro ⟨x, y, h1, h2, h3, rfl⟩
    have : pval o x y = o.tok.val env x y := by cases o <;> rfl
    rw [this]
    refine .bin h1 h2 (fun ho => h3 ?_)
    cases o <;> simp_all [POp.tok]

theorem leaf_has {env : Env} {e : PM} (hp : Pure e) (hl : ∀ o' a b, e ≠ .bin o' a b) {x : ℝ} :
    (leafE e).Has env x ↔ PM.Has env.var e x := by
  cases e with
  | ref s => constructor <;> (intro h; cases h; constructor)
  | noop s => constructor <;> (intro h; cases h; constructor)
  | num v =>
    simp only [leafE]
    split
    · constructor
      · intro h
        cases h with
        | neg h => cases h; rw [neg_neg]; exact .num
      · intro h
        cases h
        have := E.Has.neg (env := env) (E.Has.lit (v := -x))
        rwa [neg_neg] at this
    · constructor
      · intro h; cases h; exact .num
      · intro h; cases h; exact .lit
  | lin c => exact absurd hp (by simp [Pure])
  | bin o a b => exact absurd rfl (hl o a b)

/-- Rotating `y o (x o' z)` to `(y o x) o' z`, for `o` a sum or product and `o'` of the same kind. -/
theorem pval_assoc {o o' : POp} (h : o'.prec = o.prec) (ho : ¬ (o = .sub ∨ o = .div)) (y x z : ℝ) :
    pval o' (pval o y x) z = pval o y (pval o' x z) := by
  cases o <;> cases o' <;> simp [POp.prec] at h ho ⊢ <;> simp only [pval] <;> ring

theorem join_rd_has {env : Env} (e : PM) (hp : Pure e) (hg : NoRightChain e) :
    (∀ x, (rd e).Has env x ↔ PM.Has env.var e x) ∧
    (∀ acc o, ((o = .sub ∨ o = .div) → ∀ o' a b, e = .bin o' a b → o'.prec ≠ o.prec) → ∀ z,
      ((join acc o e).Has env z ↔
        ∃ y x, acc.Has env y ∧ PM.Has env.var e x ∧ (o = .div → x ≠ 0) ∧ z = pval o y x)) := by
  induction e with
  | bin o' a b iha ihb =>
    obtain ⟨hpa, hpb⟩ := hp
    obtain ⟨hga, hgb, hg0⟩ := hg
    obtain ⟨ra, ja⟩ := iha hpa hga
    obtain ⟨rb, jb⟩ := ihb hpb hgb
    have hrd : ∀ x, (rd (.bin o' a b)).Has env x ↔ PM.Has env.var (.bin o' a b) x := by
      intro x
      simp only [rd]
      rw [jb (rd a) o' hg0 x, has_bin_iff]
      constructor
      · rintro ⟨y, x, h1, h2, h3, h4⟩
        exact ⟨y, x, (ra y).mp h1, h2, h3, h4⟩
      · rintro ⟨y, x, h1, h2, h3, h4⟩
        exact ⟨y, x, (ra y).mpr h1, h2, h3, h4⟩
    refine ⟨hrd, fun acc o hc z => ?_⟩
    by_cases heq : o'.prec = o.prec
    · have ho : ¬ (o = .sub ∨ o = .div) := fun h => hc h o' a b rfl heq
      simp only [join, heq, if_true]
      rw [jb _ o' hg0 z]
      have hod : o ≠ .div := fun h => ho (Or.inr h)
      constructor
      · rintro ⟨w, xb, h1, h2, h3, rfl⟩
        rw [ja acc o (fun h => absurd h ho) w] at h1
        obtain ⟨y, xa, k1, k2, k3, rfl⟩ := h1
        exact ⟨y, pval o' xa xb, k1, has_bin_iff.mpr ⟨xa, xb, k2, h2, h3, rfl⟩, fun h => absurd h hod,
          pval_assoc heq ho _ _ _⟩
      · rintro ⟨y, x, h1, h2, h3, rfl⟩
        obtain ⟨xa, xb, k1, k2, k3, rfl⟩ := has_bin_iff.mp h2
        exact ⟨pval o y xa, xb, (ja acc o (fun h => absurd h ho) _).mpr ⟨y, xa, h1, k1, fun h => absurd h hod, rfl⟩, k2, k3,
          (pval_assoc heq ho _ _ _).symm⟩
    · have hj : join acc o (.bin o' a b) = .bin o.tok acc (rd (.bin o' a b)) := by
        simp only [join, rd]; rw [if_neg heq]
      rw [hj, ehas_bin_iff]
      constructor
      · rintro ⟨y, x, h1, h2, h3, h4⟩; exact ⟨y, x, h1, (hrd x).mp h2, h3, h4⟩
      · rintro ⟨y, x, h1, h2, h3, h4⟩; exact ⟨y, x, h1, (hrd x).mpr h2, h3, h4⟩
  | lin c => exact absurd hp (by simp [Pure])
  | _ =>
    refine ⟨fun x => ?_, fun acc o _ z => ?_⟩
    · rw [rd_leaf (by intros; simp)]
      exact leaf_has hp (by intros; simp)
    · rw [join_leaf (by intros; simp), ehas_bin_iff]
      constructor
      · rintro ⟨y, x, h1, h2, h3, h4⟩
        exact ⟨y, x, h1, (leaf_has hp (by intros; simp)).mp h2, h3, h4⟩
      · rintro ⟨y, x, h1, h2, h3, h4⟩
        exact ⟨y, x, h1, (leaf_has hp (by intros; simp)).mpr h2, h3, h4⟩

/-- **C24.** The printed form of a parameter expression, read as Python, has exactly the value of the expression (and
raises exactly when it does), provided no `-` has a sum or difference and no `/` has a product or quotient as its
right operand.  Missing for the full property: such right operands, where it fails (`C24_fails_subtract`). -/
theorem C24_printing_partial (txt : ℝ → String) (env : Env) (e : PM) (hp : Pure e) (hg : NoRightChain e) (x : ℝ) :
    Py.Has env (e.repr txt) x ↔ PM.Has env.var e x := by
  rw [← (join_rd_has (env := env) e hp hg).1 x]
  constructor
  · rintro ⟨e', h1, h2⟩
    rw [Reads.det (repr_reads txt e hp) h1]
    exact h2
  · intro h
    exact ⟨_, repr_reads txt e hp, h⟩

/-- `(a + b) * c - 2 / d` satisfies the hypotheses. -/
example : let e := PM.bin .sub (.bin .mul (.bin .add (.ref "a") (.ref "b")) (.ref "c")) (.bin .div (.num 2) (.ref "d"))
    Pure e ∧ NoRightChain e := by
  simp [Pure, NoRightChain, POp.prec]

/-- **C24 violated.** `a - (b - c)` is printed as `a - b - c`, whose value is another one whenever `c ≠ 0`. -/
theorem C24_fails_subtract (txt : ℝ → String) (env : Env) (a b c : String) (hc : env.var c ≠ 0) :
    let e := PM.bin .sub (.ref a) (.bin .sub (.ref b) (.ref c))
    PM.Has env.var e (env.var a - (env.var b - env.var c)) ∧
    Py.Has env (e.repr txt) (env.var a - env.var b - env.var c) ∧
    ¬ Py.Has env (e.repr txt) (env.var a - (env.var b - env.var c)) := by
  intro e
  have h2 : Py.Has env (e.repr txt) (env.var a - env.var b - env.var c) := by
    refine ⟨_, repr_reads txt e (by simp [e, Pure]), ?_⟩
    have : rd e = .bin .sub (.bin .sub (.var a) (.var b)) (.var c) := by
      simp [e, rd, join, leafE, POp.tok]
    rw [this]
    exact .bin (.bin .var .var (by simp)) .var (by simp)
  refine ⟨.sub .ref (.sub .ref .ref), h2, fun h => hc ?_⟩
  have := h2.det h
  linarith

/-- **C24 violated (division).** `a / (b / c)` is printed as `a / b / c`. -/
theorem C24_fails_divide (txt : ℝ → String) (env : Env) (a b c : String) (ha : env.var a = 1) (hb : env.var b = 1)
    (hc : env.var c = 2) :
    let e := PM.bin .div (.ref a) (.bin .div (.ref b) (.ref c))
    PM.Has env.var e 2 ∧ ¬ Py.Has env (e.repr txt) 2 := by
  intro e
  have h2 : Py.Has env (e.repr txt) (env.var a / env.var b / env.var c) := by
    refine ⟨_, repr_reads txt e (by simp [e, Pure]), ?_⟩
    have : rd e = .bin .div (.bin .div (.var a) (.var b)) (.var c) := by
      simp [e, rd, join, leafE, POp.tok]
    rw [this]
    exact .bin (.bin .var .var (by simp [hb])) .var (by simp [hc])
  constructor
  · have : (2 : ℝ) = env.var a / (env.var b / env.var c) := by rw [ha, hb, hc]; norm_num
    rw [this]
    exact .div .ref (.div .ref .ref (by rw [hc]; norm_num)) (by rw [hb, hc]; norm_num)
  · intro h
    have := h2.det h
    rw [ha, hb, hc] at this
    norm_num at this

/-- **C24 violated (no value).** The product of a parameter and a scaled parameter has no numeric value at all: the linear
component is stored as operand as it stands (`linear.pyx:143-149`). -/
theorem C24_fails_component (p : String → ℝ) (a : String) (c : Comp) (x : ℝ) :
    ¬ PM.Has p (.bin .mul (.ref a) (.lin c)) x := by
  intro h
  rw [has_bin_iff] at h
  obtain ⟨_, _, _, h, _⟩ := h
  cases h

end Larch.Props
