import Verif.Spec.Display
import Verif.Lemmas.PyExpr
import Mathlib.Tactic.Linarith
import Mathlib.Tactic.Ring
import Mathlib.Tactic.NormNum

/-! # Reading sums of products -/

namespace Larch.Display

open Larch.Py Larch.Linear

/-- Text that ends an expression. -/
def End (r : List Tok) : Prop := r = [] ∨ ∃ s, r = .rp :: s

theorem End.hd {r : List Tok} (h : End r) {q : Tok → Bool} (hq : q .rp = false) : hd q r := by
  rcases h with rfl | ⟨s, rfl⟩
  · exact hd_nil
  · exact hd_cons.2 hq

/-- What may follow a term: an end or a plus. -/
def After (r : List Tok) : Prop := End r ∨ ∃ s, r = .op .add :: s

theorem After.hd {r : List Tok} (h : After r) {q : Tok → Bool} (hq : q .rp = false) (hp : q (.op .add) = false) : hd q r := by
  rcases h with h | ⟨s, rfl⟩
  · exact h.hd hq
  · exact hd_cons.2 hp

/-- The text is a factor. -/
def Fac (ts : List Tok) (e : E) : Prop := ∀ r, hd Tok.isLp r → hd Tok.isPow r → Rd .un (ts ++ r) e r

/-- The text is a product. -/
def Term (ts : List Tok) (e : E) : Prop := ∀ r, After r → Rd (.bin 5) (ts ++ r) e r

/-- The text is a complete expression. -/
def Full (ts : List Tok) (e : E) : Prop := ∀ r, End r → Rd .cmp (ts ++ r) e r

theorem Full.reads {ts e} (h : Full ts e) : Reads ts e := by
  have := h [] (.inl rfl)
  rwa [List.append_nil] at this

theorem mul_hd (s : List Tok) : hd Tok.isLp (.op .mul :: s) ∧ hd Tok.isPow (.op .mul :: s) :=
  ⟨hd_cons.2 rfl, hd_cons.2 rfl⟩

theorem prod_loop : ∀ (fs : List (List Tok)) (es : List E), List.Forall₂ Fac fs es → ∀ acc r, After r →
    Rd (.loop 5 acc) (fs.flatMap (fun u => .op .mul :: u) ++ r) (es.foldl (fun a b => .bin .mul a b) acc) r := by
  intro fs es h
  induction h with
  | nil => intro acc r hr; exact .stop (hr.hd rfl rfl)
  | @cons f e fs es hf _ ih =>
    intro acc r hr
    have h1 : (List.flatMap (fun u => Tok.op .mul :: u) (f :: fs) ++ r) =
        .op .mul :: (f ++ (fs.flatMap (fun u => .op .mul :: u) ++ r)) := by simp
    rw [h1]
    refine .step (o := .mul) rfl (f := e) (r' := fs.flatMap (fun u => .op .mul :: u) ++ r) ?_ (ih _ r hr)
    have hrest : hd Tok.isLp (fs.flatMap (fun u => Tok.op .mul :: u) ++ r) ∧
        hd Tok.isPow (fs.flatMap (fun u => Tok.op .mul :: u) ++ r) := by
      cases fs with
      | nil => exact ⟨by simpa using hr.hd rfl rfl, by simpa using hr.hd rfl rfl⟩
      | cons g gs => simpa using mul_hd _
    exact hf _ hrest.1 hrest.2

theorem term_prod {f : List Tok} {e : E} {fs : List (List Tok)} {es : List E} (hf : Fac f e)
    (h : List.Forall₂ Fac fs es) :
    Term (f ++ fs.flatMap (fun u => .op .mul :: u)) (es.foldl (fun a b => .bin .mul a b) e) := by
  intro r hr
  rw [List.append_assoc]
  have hrest : hd Tok.isLp (fs.flatMap (fun u => Tok.op .mul :: u) ++ r) ∧
      hd Tok.isPow (fs.flatMap (fun u => Tok.op .mul :: u) ++ r) := by
    cases fs with
    | nil => exact ⟨by simpa using hr.hd rfl rfl, by simpa using hr.hd rfl rfl⟩
    | cons g gs => simpa using mul_hd _
  exact .bin (hf _ hrest.1 hrest.2) (prod_loop fs es h e r hr)

theorem sum_loop : ∀ (ts : List (List Tok)) (es : List E), List.Forall₂ Term ts es → ∀ acc r, End r →
    Rd (.loop 4 acc) (ts.flatMap (fun u => .op .add :: u) ++ r) (es.foldl (fun a b => .bin .add a b) acc) r := by
  intro ts es h
  induction h with
  | nil => intro acc r hr; exact .stop (hr.hd rfl)
  | @cons t e ts es ht _ ih =>
    intro acc r hr
    have h1 : (List.flatMap (fun u => Tok.op .add :: u) (t :: ts) ++ r) =
        .op .add :: (t ++ (ts.flatMap (fun u => .op .add :: u) ++ r)) := by simp
    rw [h1]
    refine .step (o := .add) rfl (f := e) (r' := ts.flatMap (fun u => .op .add :: u) ++ r) ?_ (ih _ r hr)
    refine ht _ ?_
    cases ts with
    | nil => exact .inl (by simpa using hr)
    | cons g gs => exact .inr ⟨_, by simp; rfl⟩

theorem Rd.below {ts e r} (h : Rd (.bin 4) ts e r) (hr : End r) : Rd .cmp ts e r := by
  have h3 : Rd (.bin 3) ts e r := .bin h (.stop (hr.hd rfl))
  have h2 : Rd (.bin 2) ts e r := .bin h3 (.stop (hr.hd rfl))
  have h1 : Rd (.bin 1) ts e r := .bin h2 (.stop (hr.hd rfl))
  exact .cmp0 h1 (hr.hd rfl)

/-- A sum of terms reads as the sum, left to right. -/
theorem full_sum {t : List Tok} {e : E} {ts : List (List Tok)} {es : List E} (ht : Term t e)
    (h : List.Forall₂ Term ts es) : Full (joinPlus (t :: ts)) (es.foldl (fun a b => .bin .add a b) e) := by
  intro r hr
  refine Rd.below ?_ hr
  rw [joinPlus, List.append_assoc]
  refine .bin ?_ (sum_loop ts es h e r hr)
  refine ht _ ?_
  cases ts with
  | nil => exact .inl (by simpa using hr)
  | cons g gs => exact .inr ⟨_, by simp; rfl⟩

theorem fac_name (s : String) : Fac [.name s] (.var s) := fun r h1 h2 => Rd.toUn (.var h1) h2

/-- The expression of a printed number. -/
noncomputable def numE (v : ℝ) : E := if v < 0 then .neg (.lit (-v)) else .lit v

theorem fac_num (txt : ℝ → String) (v : ℝ) : Fac (numToks txt v) (numE v) := by
  intro r _ h2
  unfold numToks numE
  split
  · exact .neg (Rd.toUn .num h2)
  · exact Rd.toUn .num h2

theorem fac_call {f : String} {ts : List Tok} {e : E} (h : Full ts e) : Fac (.name f :: .lp :: (ts ++ [.rp])) (.call f e) := by
  intro r _ h2
  refine Rd.toUn ?_ h2
  have := h (.rp :: r) (.inr ⟨_, rfl⟩)
  simpa using Rd.call (s := f) this

theorem fac_paren {ts : List Tok} {e : E} (h : Full ts e) : Fac (.lp :: (ts ++ [.rp])) e := by
  intro r _ h2
  refine Rd.toUn ?_ h2
  have := h (.rp :: r) (.inr ⟨_, rfl⟩)
  simpa using Rd.par this

theorem Term.full {ts e} (h : Term ts e) : Full ts e := by
  have := full_sum h (List.Forall₂.nil)
  simpa [joinPlus] using this

theorem Fac.term {ts e} (h : Fac ts e) : Term ts e := by
  have := term_prod h (List.Forall₂.nil)
  simpa using this

/-! ## The expressions of printed terms -/

open Classical in
/-- How a printed component reads, after the expression of its parameter. -/
noncomputable def tailE (N : Names) (c : Comp) (e : E) : E :=
  if c.scale = 1 then if dataIsOne c then e else .bin .mul e (.var (N.dat c.data))
  else .bin .mul (.bin .mul e (numE c.scale)) (.var (N.dat c.data))

theorem term_tail (N : Names) (c : Comp) {f : List Tok} {e : E} (hf : Fac f e) : Term (f ++ compTail N c) (tailE N c e) := by
  unfold compTail tailE scaledTail
  split
  · split
    · simpa using hf.term
    · have := term_prod hf (fs := [[.name (N.dat c.data)]]) (es := [.var (N.dat c.data)])
        (.cons (fac_name _) .nil)
      simpa using this
  · have := term_prod hf (fs := [numToks N.num c.scale, [.name (N.dat c.data)]]) (es := [numE c.scale, .var (N.dat c.data)])
      (.cons (fac_num _ _) (.cons (fac_name _) .nil))
    simpa using this

noncomputable def compE (N : Names) (c : Comp) : E := tailE N c (.var (N.par c.param))

theorem term_comp (N : Names) (c : Comp) : Term (compToks N c) (compE N c) := term_tail N c (fac_name _)

noncomputable def expE (N : Names) (c : Comp) : E := tailE N c (.call "exp" (.var (N.par c.param)))

theorem term_exp (N : Names) (c : Comp) : Term (expToks N c) (expE N c) :=
  term_tail N c (f := [.name "exp", .lp, .name (N.par c.param), .rp])
    (fac_call (ts := [.name (N.par c.param)]) (fac_name _).term.full)

theorem forall₂_map {α : Type} {R : List Tok → E → Prop} (f : α → List Tok) (g : α → E) (h : ∀ a, R (f a) (g a)) :
    ∀ l : List α, List.Forall₂ R (l.map f) (l.map g)
  | [] => .nil
  | a :: l => .cons (h a) (forall₂_map f g h l)

/-! ## Values -/

theorem has_numE (env : Env) (v : ℝ) : (numE v).Has env v := by
  unfold numE
  split
  · have := E.Has.neg (env := env) (E.Has.lit (v := -v))
    rwa [neg_neg] at this
  · exact .lit

theorem has_tail {N : Names} {env : Env} {dv : List Tok → ℝ} {c : Comp} {e : E} {x : ℝ} (h : e.Has env x)
    (hd : env.var (N.dat c.data) = dv c.data) (hl : ∀ v, floatOf c.data = some v → dv c.data = v) :
    (tailE N c e).Has env (c.scale * x * dv c.data) := by
  have hv : (E.var (N.dat c.data)).Has env (dv c.data) := hd ▸ .var
  unfold tailE
  split
  · rename_i h1
    rw [h1, one_mul]
    split
    · rename_i h2
      have : dv c.data = 1 := hl 1 (by simpa [dataIsOne] using h2)
      rw [this, mul_one]
      exact h
    · exact E.Has.bin (o := .mul) h hv (by simp)
  · have h1 := E.Has.bin (o := .mul) h (has_numE env c.scale) (by simp)
    have h2 := E.Has.bin (o := .mul) h1 hv (by simp)
    have h3 : c.scale * x * dv c.data = BOp.val env .mul (BOp.val env .mul x c.scale) (dv c.data) := by
      simp only [BOp.val]; ring
    rw [h3]
    exact h2

theorem has_foldl {env : Env} : ∀ (es : List E) (vs : List ℝ), List.Forall₂ (fun e v => e.Has env v) es vs → ∀ e x,
    e.Has env x → (es.foldl (fun a b => E.bin .add a b) e).Has env (x + vs.sum) := by
  intro es vs h
  induction h with
  | nil => intro e x hx; simpa using hx
  | @cons f v es vs hf _ ih =>
    intro e x hx
    have := ih (.bin .add e f) (x + v) (E.Has.bin (o := .add) hx hf (by simp))
    simpa [add_assoc] using this

end Larch.Display
