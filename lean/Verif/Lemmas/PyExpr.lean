import Verif.Spec.PyExpr

namespace Larch.Py

theorem hd_cons {p : Tok → Bool} {t : Tok} {r : List Tok} : hd p (t :: r) ↔ p t = false := by
  simp [hd]

theorem hd_nil {p : Tok → Bool} : hd p [] := by simp [hd]

/-- Reading is deterministic. -/
theorem Rd.det {g ts e r} (h : Rd g ts e r) : ∀ {e' r'}, Rd g ts e' r' → e = e' ∧ r = r' := by
  induction h with
  | cmp0 h1 h2 ih =>
    intro e' r' h
    cases h with
    | cmp0 g1 g2 => exact ih g1
    | cmp1 g1 g2 g3 =>
      obtain ⟨_, rfl⟩ := ih g1
      simp [hd_cons, Tok.isEqeq] at h2
  | cmp1 h1 h2 h3 ih1 ih2 =>
    intro e' r' h
    cases h with
    | cmp0 g1 g2 =>
      obtain ⟨_, rfl⟩ := ih1 g1
      simp [hd_cons, Tok.isEqeq] at g2
    | cmp1 g1 g2 g3 =>
      obtain ⟨rfl, h⟩ := ih1 g1
      cases h
      obtain ⟨rfl, rfl⟩ := ih2 g2
      exact ⟨rfl, rfl⟩
  | bin h1 h2 ih1 ih2 =>
    intro e' r' h
    cases h with
    | bin g1 g2 =>
      obtain ⟨rfl, rfl⟩ := ih1 g1
      exact ih2 g2
  | stop h1 =>
    intro e' r' h
    cases h with
    | stop _ => exact ⟨rfl, rfl⟩
    | step g1 g2 g3 => simp [hd_cons, Tok.isOpAt, g1] at h1
  | step h1 h2 h3 ih2 ih3 =>
    intro e' r' h
    cases h with
    | stop g1 => simp [hd_cons, Tok.isOpAt, h1] at g1
    | step g1 g2 g3 =>
      obtain ⟨rfl, rfl⟩ := ih2 g2
      exact ih3 g3
  | neg h1 ih =>
    intro e' r' h
    cases h with
    | neg g1 => obtain ⟨rfl, rfl⟩ := ih g1; exact ⟨rfl, rfl⟩
    | un g1 g2 => simp [hd_cons, Tok.isUnary] at g1
  | pos h1 ih =>
    intro e' r' h
    cases h with
    | pos g1 => obtain ⟨rfl, rfl⟩ := ih g1; exact ⟨rfl, rfl⟩
    | un g1 g2 => simp [hd_cons, Tok.isUnary] at g1
  | inv h1 ih =>
    intro e' r' h
    cases h with
    | inv g1 => obtain ⟨rfl, rfl⟩ := ih g1; exact ⟨rfl, rfl⟩
    | un g1 g2 => simp [hd_cons, Tok.isUnary] at g1
  | un h1 h2 ih =>
    intro e' r' h
    cases h with
    | neg g1 => simp [hd_cons, Tok.isUnary] at h1
    | pos g1 => simp [hd_cons, Tok.isUnary] at h1
    | inv g1 => simp [hd_cons, Tok.isUnary] at h1
    | un g1 g2 => exact ih g2
  | pw0 h1 h2 ih =>
    intro e' r' h
    cases h with
    | pw0 g1 g2 => exact ih g1
    | pw1 g1 g2 =>
      obtain ⟨_, rfl⟩ := ih g1
      simp [hd_cons, Tok.isPow] at h2
  | pw1 h1 h2 ih1 ih2 =>
    intro e' r' h
    cases h with
    | pw0 g1 g2 =>
      obtain ⟨_, rfl⟩ := ih1 g1
      simp [hd_cons, Tok.isPow] at g2
    | pw1 g1 g2 =>
      obtain ⟨rfl, h⟩ := ih1 g1
      cases h
      obtain ⟨rfl, rfl⟩ := ih2 g2
      exact ⟨rfl, rfl⟩
  | var h1 =>
    intro e' r' h
    cases h with
    | var _ => exact ⟨rfl, rfl⟩
    | call g1 => simp [hd_cons, Tok.isLp] at h1
  | call h1 ih =>
    intro e' r' h
    cases h with
    | var g1 => simp [hd_cons, Tok.isLp] at g1
    | call g1 =>
      obtain ⟨rfl, h⟩ := ih g1
      cases h
      exact ⟨rfl, rfl⟩
  | num =>
    intro e' r' h
    cases h
    exact ⟨rfl, rfl⟩
  | par h1 ih =>
    intro e' r' h
    cases h with
    | par g1 =>
      obtain ⟨rfl, h⟩ := ih g1
      cases h
      exact ⟨rfl, rfl⟩

theorem Reads.det {ts e e'} (h : Reads ts e) (h' : Reads ts e') : e = e' := (Rd.det h h').1

theorem E.Has.det {env : Env} {e : E} {x : ℝ} (h : e.Has env x) : ∀ {y}, e.Has env y → x = y := by
  induction h with
  | var => intro y h; cases h; rfl
  | lit => intro y h; cases h; rfl
  | call _ ih => intro y h; cases h with | call g => rw [ih g]
  | neg _ ih => intro y h; cases h with | neg g => rw [ih g]
  | pos _ ih => intro y h; cases h with | pos g => rw [ih g]
  | inv _ ih => intro y h; cases h with | inv g => rw [ih g]
  | bin _ _ _ ih1 ih2 => intro y h; cases h with | bin g1 g2 _ => rw [ih1 g1, ih2 g2]
  | eq _ _ ih1 ih2 => intro y h; cases h with | eq g1 g2 => rw [ih1 g1, ih2 g2]

theorem Has.det {env : Env} {ts : List Tok} {x y : ℝ} (h : Has env ts x) (h' : Has env ts y) : x = y := by
  obtain ⟨e, h1, h2⟩ := h
  obtain ⟨e', h1', h2'⟩ := h'
  rw [Reads.det h1' h1] at h2'
  exact h2.det h2'

theorem hd_append {p : Tok → Bool} {r s : List Tok} (hr : hd p r) (hs : hd p s) : hd p (r ++ s) := by
  cases r with
  | nil => simpa using hs
  | cons t r => simpa [hd_cons] using hr

/-- A reading is not affected by what follows a closing parenthesis. -/
theorem Rd.ext {g ts e r} (h : Rd g ts e r) (s : List Tok) : Rd g (ts ++ .rp :: s) e (r ++ .rp :: s) := by
  have hs : ∀ p : Tok → Bool, p .rp = false → hd p (.rp :: s) := fun p hp => hd_cons.mpr hp
  induction h with
  | cmp0 h1 h2 ih => exact .cmp0 ih (hd_append h2 (hs _ rfl))
  | cmp1 h1 h2 h3 ih1 ih2 => exact .cmp1 (by simpa using ih1) ih2 (hd_append h3 (hs _ rfl))
  | bin h1 h2 ih1 ih2 => exact .bin ih1 ih2
  | stop h1 => exact .stop (hd_append h1 (hs _ rfl))
  | step h1 h2 h3 ih2 ih3 => exact .step h1 ih2 ih3
  | neg h1 ih => exact .neg ih
  | pos h1 ih => exact .pos ih
  | inv h1 ih => exact .inv ih
  | un h1 h2 ih => exact .un (hd_append h1 (hs _ rfl)) ih
  | pw0 h1 h2 ih => exact .pw0 ih (hd_append h2 (hs _ rfl))
  | pw1 h1 h2 ih1 ih2 => exact .pw1 (by simpa using ih1) ih2
  | var h1 => exact .var (hd_append h1 (hs _ rfl))
  | call h1 ih => exact .call (by simpa using ih)
  | num => exact .num
  | par h1 ih => exact .par (by simpa using ih)

/-- A complete expression in parentheses is an atom. -/
theorem Reads.paren {ts e} (h : Reads ts e) (rest : List Tok) : Rd .at (.lp :: (ts ++ .rp :: rest)) e rest :=
  .par (by simpa using Rd.ext h rest)

/-- An atom followed by something that is not `**` and not starting with a unary sign is a unary expression. -/
theorem Rd.toUn {ts e r} (h : Rd .at ts e r) (hp : hd Tok.isPow r) : Rd .un ts e r := by
  refine .un ?_ (.pw0 h hp)
  cases h <;> simp [hd_cons, Tok.isUnary]

/-- Going down to a weaker level when no operator of a level in between follows. -/
theorem Rd.toBin {ts e r} (h : Rd .un ts e r) : ∀ (k l : Nat), 5 - l = k → l ≤ 5 →
    (∀ m, l ≤ m → m ≤ 5 → hd (Tok.isOpAt m) r) → Rd (.bin l) ts e r := by
  intro k
  induction k with
  | zero =>
    intro l hk hl hr
    have : l = 5 := by omega
    subst this
    exact .bin (by simpa [next] using h) (.stop (hr 5 (by omega) (by omega)))
  | succ k ih =>
    intro l hk hl hr
    have hlt : l < 5 := by omega
    refine .bin ?_ (.stop (hr l (by omega) (by omega)))
    simp only [next, hlt, if_true]
    exact ih (l + 1) (by omega) (by omega) (fun m h1 h2 => hr m (by omega) h2)

theorem Rd.toNext {ts e r} (h : Rd .un ts e r) (l : Nat) (hr : ∀ m, l < m → m ≤ 5 → hd (Tok.isOpAt m) r) :
    Rd (next l) ts e r := by
  unfold next
  split
  · exact h.toBin _ (l + 1) rfl (by omega) (fun m h1 h2 => hr m (by omega) h2)
  · exact h

/-- A complete chain of level `l` is a complete chain of every weaker level. -/
theorem Rd.down {ts e} (l : Nat) (h : Rd (.bin l) ts e []) (hl : 1 ≤ l) (hl5 : l ≤ 5) : Rd (.bin 1) ts e [] := by
  induction l, hl using Nat.le_induction with
  | base => exact h
  | succ l hl ih =>
    refine ih (.bin ?_ (.stop hd_nil)) (by omega)
    simp only [next, show l < 5 by omega, if_true]
    exact h

/-- `a op b` with unary operands reads as the operation. -/
theorem reads_bin {a b : List Tok} {e f : E} (o : BOp) (ho : o ≠ .pow)
    (ha : ∀ r, hd Tok.isLp r → hd Tok.isPow r → Rd .un (a ++ r) e r)
    (hb : ∀ r, hd Tok.isLp r → hd Tok.isPow r → Rd .un (b ++ r) f r) : Reads (a ++ .op o :: b) (.bin o e f) := by
  have hl : 1 ≤ o.level ∧ o.level ≤ 5 := by cases o <;> simp_all [BOp.level]
  refine .cmp0 (Rd.down o.level ?_ hl.1 hl.2) hd_nil
  have hpow : hd Tok.isPow (.op o :: b) := by
    rw [hd_cons]; cases o <;> simp_all [Tok.isPow]
  have h1 := (ha (.op o :: b) (by simp [hd_cons, Tok.isLp]) hpow).toNext o.level (by
    intro m h1 h2
    rw [hd_cons]
    simp [Tok.isOpAt]; omega)
  have h2 := (hb [] hd_nil hd_nil).toNext o.level (fun m _ _ => hd_nil)
  rw [List.append_nil] at h2
  exact .bin h1 (.step rfl h2 (.stop hd_nil))

/-- `a ** b` with an atom on the left. -/
theorem reads_pow {a b : List Tok} {e f : E}
    (ha : ∀ r, hd Tok.isLp r → Rd .at (a ++ r) e r) (hb : Rd .un b f []) : Reads (a ++ .op .pow :: b) (.bin .pow e f) := by
  have h1 := ha (.op .pow :: b) (by simp [hd_cons, Tok.isLp])
  have hu : hd Tok.isUnary (a ++ .op .pow :: b) := by
    generalize a ++ .op .pow :: b = ts at h1
    cases h1 <;> simp [hd_cons, Tok.isUnary]
  exact .cmp0 ((Rd.un hu (.pw1 h1 hb)).toBin _ 1 rfl (by omega) (fun m _ _ => hd_nil)) hd_nil

end Larch.Py
