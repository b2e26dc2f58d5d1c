import Verif.Spec.Linear
import Verif.Lemmas.PyExpr
import Mathlib.Tactic.Ring
import Mathlib.Tactic.Linarith

namespace Larch.Linear

open Larch.Py

theorem rd_ne_nil {g ts e r} (h : Rd g ts e r) (hg : ∀ l acc, g ≠ .loop l acc) : ts ≠ [] := by
  induction h with
  | cmp0 _ _ ih => exact ih (by simp)
  | cmp1 _ _ _ ih _ => exact ih (by simp)
  | bin _ _ ih _ => exact ih (by intro l acc; unfold next; split <;> simp)
  | stop _ => exact absurd rfl (hg _ _)
  | step _ _ _ _ _ => simp
  | neg _ _ => simp
  | pos _ _ => simp
  | inv _ _ => simp
  | un _ _ ih => exact ih (by simp)
  | pw0 _ _ ih => exact ih (by simp)
  | pw1 _ _ ih _ => exact ih (by simp)
  | var _ => simp
  | call _ _ => simp
  | num => simp
  | par _ _ => simp

theorem reads_of_un {ts e} (h : Rd .un ts e []) : Reads ts e :=
  .cmp0 (h.toBin _ 1 rfl (by omega) (fun _ _ _ => hd_nil)) hd_nil

theorem reads_name (s : String) : Reads [.name s] (.var s) := reads_of_un (Rd.toUn (.var hd_nil) hd_nil)
theorem reads_num (t : String) (v : ℝ) : Reads [.num t v] (.lit v) := reads_of_un (Rd.toUn .num hd_nil)
theorem reads_neg (t : String) (v : ℝ) : Reads [.op .sub, .num t v] (.neg (.lit v)) :=
  reads_of_un (.neg (Rd.toUn .num hd_nil))
theorem reads_pos (t : String) (v : ℝ) : Reads [.op .add, .num t v] (.pos (.lit v)) :=
  reads_of_un (.pos (Rd.toUn .num hd_nil))

/-- A parenthized expression is an atom, unless it is a signed number left bare. -/
theorem paren_at (fm : Fmt) (signs : Bool) {a : List Tok} {e : E} (h : Reads a e)
    (hs : signs = true ∨ ∀ t v, a ≠ [.op .sub, .num t v] ∧ a ≠ [.op .add, .num t v]) (r : List Tok) (hr : hd Tok.isLp r) :
    Rd .at (parenthize fm signs a ++ r) e r := by
  unfold parenthize
  split
  · exact absurd rfl (rd_ne_nil h (by simp))
  · rw [Reads.det h (reads_name _)]; exact .var hr
  · split
    · rw [Reads.det h (reads_num _ _)]; exact .num
    · exact h.paren r
  · split
    · rename_i t v hb
      rcases hs with hs | hs
      · simp [hs] at hb
      · exact absurd rfl (hs t v).1
    · exact h.paren r
  · split
    · rename_i t v hb
      rcases hs with hs | hs
      · simp [hs] at hb
      · exact absurd rfl (hs t v).2
    · exact h.paren r
  · have := h.paren r
    simpa using this

theorem paren_un (fm : Fmt) (signs : Bool) {a : List Tok} {e : E} (h : Reads a e) (r : List Tok)
    (hr : hd Tok.isLp r) (hp : hd Tok.isPow r) : Rd .un (parenthize fm signs a ++ r) e r := by
  by_cases h1 : ∃ t v, a = [.op .sub, .num t v]
  · obtain ⟨t, v, rfl⟩ := h1
    unfold parenthize
    simp only
    split
    · rw [Reads.det h (reads_neg _ _)]
      exact .neg (Rd.toUn .num hp)
    · exact Rd.toUn (h.paren r) hp
  by_cases h2 : ∃ t v, a = [.op .add, .num t v]
  · obtain ⟨t, v, rfl⟩ := h2
    unfold parenthize
    simp only
    split
    · rw [Reads.det h (reads_pos _ _)]
      exact .pos (Rd.toUn .num hp)
    · exact Rd.toUn (h.paren r) hp
  · refine Rd.toUn (paren_at fm signs h (Or.inr fun t v => ⟨fun hc => h1 ⟨t, v, hc⟩, fun hc => h2 ⟨t, v, hc⟩⟩) r hr) hp

variable {env : Env} {p : String → ℝ} {fm : Fmt}

theorem dbin_has {o : BOp} (ho : o ≠ .pow) {a b : List Tok} {x y : ℝ} (ha : Py.Has env a x) (hb : Py.Has env b y)
    (hd : o = .div ∨ o = .fdiv → y ≠ 0) : Py.Has env (dbin fm o a b) (o.val env x y) := by
  obtain ⟨e, h1, h2⟩ := ha
  obtain ⟨f, h3, h4⟩ := hb
  exact ⟨_, reads_bin o ho (fun r => paren_un fm false h1 r) (fun r => paren_un fm true h3 r), .bin h2 h4 hd⟩

theorem dbin_pow_has {a b : List Tok} {x y : ℝ} (ha : Py.Has env a x) (hb : Py.Has env b y)
    (hs : ∀ t v, a ≠ [.op .sub, .num t v] ∧ a ≠ [.op .add, .num t v]) :
    Py.Has env (dbin fm .pow a b) (env.pow x y) := by
  obtain ⟨e, h1, h2⟩ := ha
  obtain ⟨f, h3, h4⟩ := hb
  have := paren_un fm true h3 [] hd_nil hd_nil
  rw [List.append_nil] at this
  exact ⟨_, reads_pow (fun r hr => paren_at fm false h1 (Or.inr hs) r hr) this, .bin h2 h4 (by simp)⟩

theorem dneg_has {a : List Tok} {x : ℝ} (ha : Py.Has env a x) : Py.Has env (dneg fm a) (-x) := by
  obtain ⟨e, h1, h2⟩ := ha
  have := paren_un fm true h1 [] hd_nil hd_nil
  rw [List.append_nil] at this
  exact ⟨_, reads_of_un (.neg this), .neg h2⟩

theorem dinv_has {a : List Tok} {x : ℝ} (ha : Py.Has env a x) : Py.Has env (dinv fm a) (env.inv x) := by
  obtain ⟨e, h1, h2⟩ := ha
  have := paren_un fm true h1 [] hd_nil hd_nil
  rw [List.append_nil] at this
  exact ⟨_, reads_of_un (.inv this), .inv h2⟩

theorem toks_has (n : Num) : Py.Has env n.toks n.val := by
  unfold Num.toks Num.val
  split
  · exact ⟨_, reads_neg _ _, .neg .lit⟩
  · exact ⟨_, reads_num _ _, .lit⟩

theorem one_has : Py.Has env one 1 := ⟨_, reads_num _ _, .lit⟩

theorem num_has_iff {t : String} {v x : ℝ} : Py.Has env [.num t v] x ↔ x = v := by
  constructor
  · intro h
    exact h.det ⟨_, reads_num t v, .lit⟩
  · rintro rfl
    exact ⟨_, reads_num t _, .lit⟩

theorem isTxt_iff {t : String} {d : List Tok} : isTxt t d = true ↔ ∃ v, d = [.num t v] := by
  constructor
  · intro h
    unfold isTxt at h
    split at h
    · rename_i t' v
      exact ⟨v, by simp at h; rw [h]⟩
    · simp at h
  · rintro ⟨v, rfl⟩
    simp [isTxt]

theorem one_litOk : LitOk one := by
  intro t v h
  simp [one] at h
  obtain ⟨rfl, rfl⟩ := h
  simp

theorem isOne_has {d : List Tok} (hl : LitOk d) (h : isOne d = true) {x : ℝ} (hx : Py.Has env d x) : x = 1 := by
  simp only [isOne, Bool.or_eq_true, isTxt_iff] at h
  rcases h with ⟨v, rfl⟩ | ⟨v, rfl⟩
  · rw [num_has_iff.mp hx]; exact (hl _ _ rfl).2 (Or.inl rfl)
  · rw [num_has_iff.mp hx]; exact (hl _ _ rfl).2 (Or.inr rfl)

theorem isZero_has {d : List Tok} (hl : LitOk d) (h : isZero d = true) {x : ℝ} (hx : Py.Has env d x) : x = 0 := by
  simp only [isZero, Bool.or_eq_true, isTxt_iff] at h
  rcases h with ⟨v, rfl⟩ | ⟨v, rfl⟩
  · rw [num_has_iff.mp hx]; exact (hl _ _ rfl).1 (Or.inl rfl)
  · rw [num_has_iff.mp hx]; exact (hl _ _ rfl).1 (Or.inr (Or.inl rfl))

theorem dbin_litOk (o : BOp) (a b : List Tok) : LitOk (dbin fm o a b) := by
  intro t v h
  have := congrArg List.length h
  unfold dbin at h
  cases ha : parenthize fm false a with
  | nil => rw [ha] at h; simp at h
  | cons t ts => rw [ha] at h; simp at h

theorem dneg_litOk (a : List Tok) : LitOk (dneg fm a) := by
  intro t v h
  simp [dneg] at h

/-- The boolean shortcuts are right for these two data expressions. -/
def MulOk (env : Env) (a b : List Tok) : Prop :=
  ∀ r, shortcut a b = some r → ∀ x y, Py.Has env a x → Py.Has env b y → Py.Has env r (x * y)

theorem isBool_litOk {a : List Tok} (h : isBool a = true) : LitOk a := by
  intro t v h'
  subst h'
  simp [isBool] at h

theorem dmul_has {a b : List Tok} (ha : LitOk a) (hb : LitOk b) (hm : MulOk env a b) {x y : ℝ} (hx : Py.Has env a x)
    (hy : Py.Has env b y) : Py.Has env (dmul fm a b) (x * y) := by
  unfold dmul
  split
  · rename_i h; rw [isOne_has ha h hx, one_mul]; exact hy
  · split
    · rename_i h; rw [isOne_has hb h hy, mul_one]; exact hx
    · split
      · rename_i r hr; exact hm r hr x y hx hy
      · exact dbin_has (by simp) hx hy (by simp)

theorem dmul_litOk {a b : List Tok} (ha : LitOk a) (hb : LitOk b) : LitOk (dmul fm a b) := by
  unfold dmul
  split
  · exact hb
  · split
    · exact ha
    · split
      · rename_i r hr
        unfold shortcut at hr
        split at hr
        · cases hr; exact ha
        · split at hr
          · split at hr
            · cases hr
              intro t v h
              simp at h
              obtain ⟨rfl, rfl⟩ := h
              simp
            · cases hr
          · cases hr
      · exact dbin_litOk _ _ _

/-! ## Functions -/

theorem func_append {l m : List Comp} {x y : ℝ} (h1 : FuncHas env p l x) (h2 : FuncHas env p m y) :
    FuncHas env p (l ++ m) (x + y) := by
  induction h1 with
  | nil => simpa using h2
  | cons hc _ ih =>
    have := FuncHas.cons hc ih
    rwa [← add_assoc] at this

theorem func_single {c : Comp} {x : ℝ} (h : c.Has env p x) : FuncHas env p [c] x := by
  have := FuncHas.cons h .nil
  rwa [add_zero] at this

theorem func_map {l : List Comp} {x : ℝ} (f : Comp → Comp) (k : ℝ)
    (hf : ∀ c ∈ l, ∀ v, c.Has env p v → (f c).Has env p (k * v)) (h : FuncHas env p l x) :
    FuncHas env p (l.map f) (k * x) := by
  induction h with
  | nil => rw [mul_zero]; exact .nil
  | @cons c cs x y hc _ ih =>
    have := FuncHas.cons (hf c (by simp) x hc) (ih (fun c hc => hf c (by simp [hc])))
    rwa [← mul_add] at this

theorem comp_neg_has {c : Comp} {x : ℝ} (h : c.Has env p x) : c.neg.Has env p (-x) := by
  obtain ⟨v, h1, rfl⟩ := h
  exact ⟨v, h1, by simp [Comp.neg]⟩

theorem func_neg {l : List Comp} {x : ℝ} (h : FuncHas env p l x) : FuncHas env p (l.map Comp.neg) (-x) := by
  have := func_map Comp.neg (-1) (fun c _ v hv => by rw [neg_one_mul]; exact comp_neg_has hv) h
  rwa [neg_one_mul] at this

theorem ofPar_has (s : String) : (ofPar s).Has env p (p s) := ⟨1, one_has, by simp [ofPar]⟩

theorem ph_has (hp : p "_" = 1) {d : List Tok} {x : ℝ} (h : Py.Has env d x) : (⟨"_", d, 1⟩ : Comp).Has env p x :=
  ⟨x, h, by simp [hp]⟩

open Classical in
theorem negl_has {c : Comp} (hl : LitOk c.data) (h : (isZero c.data || decide (c.scale = 0)) = true) {x : ℝ}
    (hx : c.Has env p x) : x = 0 := by
  obtain ⟨v, h1, rfl⟩ := hx
  simp only [Bool.or_eq_true, decide_eq_true_eq] at h
  rcases h with h | h
  · rw [isZero_has hl h h1, mul_zero]
  · rw [h]; ring

theorem compAddComp_has {c d : Comp} (hc : LitOk c.data) (hd : LitOk d.data) {x y : ℝ} (hx : c.Has env p x)
    (hy : d.Has env p y) : (compAddComp c d).Has env p (x + y) := by
  unfold compAddComp
  split
  · rename_i h; rw [negl_has hd h hy, add_zero]; exact hx
  · split
    · rename_i h; rw [negl_has hc h hx, zero_add]; exact hy
    · exact FuncHas.cons hx (func_single hy)

theorem compAddComp_litOk {c d : Comp} (hc : LitOk c.data) (hd : LitOk d.data) : (compAddComp c d).LitOk := by
  unfold compAddComp
  split
  · exact hc
  · split
    · exact hd
    · intro e he
      simp at he
      rcases he with rfl | rfl
      · exact hc
      · exact hd

theorem funcAddComp_has {l : List Comp} {d : Comp} (hd : LitOk d.data) {x y : ℝ} (hx : FuncHas env p l x)
    (hy : d.Has env p y) : (funcAddComp l d).Has env p (x + y) := by
  unfold funcAddComp
  split
  · rename_i h; rw [negl_has hd h hy, add_zero]; exact hx
  · exact func_append hx (func_single hy)

theorem funcAddComp_litOk {l : List Comp} {d : Comp} (hl : ∀ c ∈ l, LitOk c.data) (hd : LitOk d.data) :
    (funcAddComp l d).LitOk := by
  unfold funcAddComp
  split
  · exact hl
  · intro e he
    simp at he
    rcases he with he | rfl
    · exact hl e he
    · exact hd

/-! ## Parameter arithmetic -/

theorem floatOf_has {d : List Tok} {v x : ℝ} (h : floatOf d = some v) (hx : Py.Has env d x) : x = v := by
  unfold floatOf at h
  split at h
  · cases h; exact hx.det ⟨_, reads_num _ _, .lit⟩
  · cases h; exact hx.det ⟨_, reads_neg _ _, .neg .lit⟩
  · cases h; exact hx.det ⟨_, reads_pos _ _, .pos .lit⟩
  · cases h

theorem comp_pmath_has {c : Comp} (hl : LitOk c.data) {e : PM} (h : c.asPmath = .ok e) {x : ℝ} (hx : c.Has env p x) :
    PM.Has p e x := by
  obtain ⟨v, h1, rfl⟩ := hx
  unfold Comp.asPmath at h
  split at h
  · rename_i h1'
    obtain ⟨w, hw⟩ := isTxt_iff.mp h1'
    have : v = 1 := by
      rw [hw] at h1 hl
      rw [num_has_iff.mp h1]
      exact (hl _ _ rfl).2 (Or.inl rfl)
    subst this
    split at h
    · rename_i hs; cases h; rw [hs]; simpa using PM.Has.noop (p := p)
    · cases h
      have := PM.Has.mul (p := p) (.ref (s := c.param)) (.num (v := c.scale))
      rw [mul_one, mul_comm]; exact this
  · split at h
    · rename_i w hw
      have := floatOf_has hw h1
      subst this
      split at h
      · rename_i hs; cases h
        have : c.scale * p c.param * v = p c.param := by
          rw [mul_right_comm, mul_comm c.scale v, hs, one_mul]
        rw [this]; exact .noop
      · cases h
        have := PM.Has.mul (p := p) (.ref (s := c.param)) (.num (v := v * c.scale))
        have e : c.scale * p c.param * v = p c.param * (v * c.scale) := by ring
        rw [e]; exact this
    · cases h

theorem addAll_has : ∀ (l : List Comp) (x : PM) (e : PM), (∀ c ∈ l, LitOk c.data) → addAll x l = .ok e →
    ∀ u v, PM.Has p x u → FuncHas env p l v → PM.Has p e (u + v) := by
  intro l
  induction l with
  | nil =>
    intro x e _ h u v hu hv
    cases h; cases hv
    rwa [add_zero]
  | cons c cs ih =>
    intro x e hl h u v hu hv
    unfold addAll at h
    cases hc : c.asPmath with
    | error _ => rw [hc] at h; cases h
    | ok y =>
      rw [hc] at h
      cases hv with
      | cons h1 h2 =>
        rw [← add_assoc]
        exact ih _ e (fun d hd => hl d (by simp [hd])) h _ _ (.add hu (comp_pmath_has (hl c (by simp)) hc h1)) h2

theorem func_pmath_has {l : List Comp} (hl : ∀ c ∈ l, LitOk c.data) {e : PM} (h : funcPmath l = .ok e) {x : ℝ}
    (hx : FuncHas env p l x) : PM.Has p e x := by
  unfold funcPmath at h
  split at h
  · cases hx with
    | nil => simp at h; subst h; exact .num
    | @cons c cs u v h1 h2 =>
      simp only at h
      cases hc : c.asPmath with
      | error _ => rw [hc] at h; cases h
      | ok y =>
        rw [hc] at h
        exact addAll_has cs y e (fun d hd => hl d (by simp [hd])) h _ _ (comp_pmath_has (hl c (by simp)) hc h1) h2
  · cases h

end Larch.Linear
