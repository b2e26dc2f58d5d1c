import Verif.Spec.Evaluate
import Verif.Lemmas.LinearVal
import Verif.Props.PValue

/-!
# C122: evaluating and rewriting a linear function
-/

namespace Larch.Props

open Larch.Linear Larch.Py Larch.Evaluate

theorem ev_get_some {ns : NS} {k : List Tok} {x : ℝ} (h : nsGet ns k = some x) : (k, x) ∈ ns := by
  unfold nsGet at h
  rw [Option.map_eq_some_iff] at h
  obtain ⟨q, hq, rfl⟩ := h
  have h1 := List.mem_of_find?_eq_some hq
  have h2 := List.find?_some hq
  have h3 : q.1 = k := by simpa using h2
  rw [← h3]; exact h1

theorem ev_get_none {ns : NS} {k : List Tok} : nsGet ns k = none ↔ ∀ x, (k, x) ∉ ns := by
  unfold nsGet
  rw [Option.map_eq_none_iff, List.find?_eq_none]
  constructor
  · intro h x hx
    exact h _ hx (by simp)
  · rintro h ⟨k', x⟩ hq hk
    have : k' = k := by simpa using hk
    subst this
    exact h x hq

theorem ev_describes_get {env : Env} {ns : NS} (h : Describes env ns) {k : List Tok} {x : ℝ} (hk : nsGet ns k = some x) :
    ∃ s, k = [.name s] ∧ x = env.var s := h k x (ev_get_some hk)

theorem ev_var {env : Env} {ns kw : NS} (h1 : Describes env ns) (h2 : Describes env kw) {s : String}
    (hs : (evalVar ns kw s).isSome) : evalVar ns kw s = some (env.var s) := by
  unfold evalVar at *
  cases hk : nsGet kw [.name s] with
  | some x =>
    obtain ⟨t, ht, hx⟩ := ev_describes_get h2 hk
    simp only [List.cons.injEq, Tok.name.injEq, and_true] at ht
    subst ht
    simp [hx]
  | none =>
    cases hn : nsGet ns [.name s] with
    | some x =>
      obtain ⟨t, ht, hx⟩ := ev_describes_get h1 hn
      simp only [List.cons.injEq, Tok.name.injEq, and_true] at ht
      subst ht
      simp [hx]
    | none => simp [hk, hn] at hs

/-- The value of an expression depends on its variables only. -/
theorem ev_vars {env env' : Env} (hc : env'.call = env.call) (hf : env'.fdiv = env.fdiv) (ha : env'.band = env.band)
    (ho : env'.bor = env.bor) (hx : env'.bxor = env.bxor) (hp : env'.pow = env.pow) (hi : env'.inv = env.inv) {e : E}
    (hv : ∀ s ∈ vars e, env'.var s = env.var s) {x : ℝ} (h : e.Has env x) : e.Has env' x := by
  induction h with
  | @var s => rw [← hv s (by simp [vars])]; exact .var
  | lit => exact .lit
  | call _ ih => rw [← hc]; exact .call (ih hv)
  | neg _ ih => exact .neg (ih hv)
  | pos _ ih => exact .pos (ih hv)
  | inv _ ih => rw [← hi]; exact .inv (ih hv)
  | @bin o a b x y _ _ h0 i1 i2 =>
    have e1 : o.val env x y = o.val env' x y := by cases o <;> simp [BOp.val, hf, ha, ho, hx, hp]
    rw [e1]
    exact .bin (i1 (fun s hs => hv s (by simp [vars, hs]))) (i2 (fun s hs => hv s (by simp [vars, hs]))) h0
  | eq _ _ i1 i2 => exact .eq (i1 (fun s hs => hv s (by simp [vars, hs]))) (i2 (fun s hs => hv s (by simp [vars, hs])))

theorem ev_name_has {env : Env} {s : String} {x : ℝ} : Py.Has env [.name s] x ↔ x = env.var s := by
  constructor
  · intro h
    exact h.det ⟨_, reads_name s, .var⟩
  · rintro rfl
    exact ⟨_, reads_name s, .var⟩

theorem ev_data {env : Env} {ns kw : NS} (h1 : Describes env ns) (h2 : Describes env kw) {d : List Tok}
    (hcov : ∀ e, Reads d e → ∀ s ∈ vars e, ∃ x, ([Tok.name s], x) ∈ ns ++ kw) (x : ℝ) :
    DataVal env ns kw d x ↔ Py.Has env d x := by
  have hsome : ∀ e, Reads d e → ∀ s ∈ vars e, (evalVar ns kw s).isSome := by
    intro e he s hs
    obtain ⟨y, hy⟩ := hcov e he s hs
    rw [List.mem_append] at hy
    unfold evalVar
    cases hk : nsGet kw [.name s] with
    | some _ => simp
    | none =>
      cases hn : nsGet ns [.name s] with
      | some _ => simp
      | none =>
        rcases hy with hy | hy
        · exact absurd hy (ev_get_none.1 hn y)
        · exact absurd hy (ev_get_none.1 hk y)
  have henv : ∀ e, Reads d e → ∀ s ∈ vars e, (evalEnv env ns kw).var s = env.var s := by
    intro e he s hs
    have := ev_var h1 h2 (hsome e he s hs)
    simp [evalEnv, this]
  constructor
  · intro h
    cases h with
    | direct h =>
      obtain ⟨s, rfl, rfl⟩ := ev_describes_get h1 h
      exact ev_name_has.2 rfl
    | keyword _ h =>
      obtain ⟨s, rfl, rfl⟩ := ev_describes_get h2 h
      exact ev_name_has.2 rfl
    | expression _ _ hr _ hh =>
      exact ⟨_, hr, ev_vars (env := evalEnv env ns kw) (env' := env) rfl rfl rfl rfl rfl rfl rfl (fun s hs => (henv _ hr s hs).symm) hh⟩
  · rintro ⟨e, hr, hh⟩
    cases hn : nsGet ns d with
    | some y =>
      obtain ⟨s, rfl, rfl⟩ := ev_describes_get h1 hn
      have : x = env.var s := ev_name_has.1 ⟨e, hr, hh⟩
      subst this
      exact .direct hn
    | none =>
      cases hk : nsGet kw d with
      | some y =>
        obtain ⟨s, rfl, rfl⟩ := ev_describes_get h2 hk
        have : x = env.var s := ev_name_has.1 ⟨e, hr, hh⟩
        subst this
        exact .keyword hn hk
      | none => exact .expression hn hk hr (hsome e hr) (ev_vars (env := env) (env' := evalEnv env ns kw) rfl rfl rfl rfl rfl rfl rfl (henv e hr) hh)

/-- **C122.** If the namespaces describe the data (each name with one value) and have all the variables, `evaluate` gives the sum of
scale × parameter × data, and with `exp_params` the sum of scale × exp(parameter) × data. -/
theorem C122_evaluate (env : Env) (getter : String → Option ℝ) (p : String → ℝ) (ns kw : NS) (l : List Comp)
    (h1 : Describes env ns) (h2 : Describes env kw) (hcov : Covers ns kw l) (hp : ∀ c ∈ l, getter c.param = some (p c.param)) (x : ℝ) :
    (FuncVal getter env (some ns) kw false l x ↔ FuncHas env p l x) ∧
    (FuncVal getter env (some ns) kw true l x ↔ FuncHas env (fun s => Real.exp (p s)) l x) := by
  have main : ∀ b : Bool, ∀ q : String → ℝ, (∀ s, q s = paramFactor b (p s)) → ∀ x,
      FuncVal getter env (some ns) kw b l x ↔ FuncHas env q l x := by
    intro b q hq
    induction l with
    | nil =>
      intro x
      constructor
      · intro h; cases h; exact .nil
      · intro h; cases h; exact .nil
    | cons c cs ih =>
      have ih' := ih (fun c hc => hcov c (by simp [hc])) (fun c hc => hp c (by simp [hc]))
      have hd := ev_data h1 h2 (hcov c (by simp))
      intro x
      constructor
      · intro h
        cases h with
        | @cons _ _ u y hc hcs =>
          refine .cons ?_ ((ih' _).1 hcs)
          cases hc with
          | @mk _ _ r v hdat hg =>
            rw [hp c (by simp)] at hg
            cases hg
            exact ⟨v, (hd v).1 hdat, by rw [hq]⟩
      · intro h
        cases h with
        | @cons _ _ u y hc hcs =>
          refine .cons ?_ ((ih' _).2 hcs)
          obtain ⟨v, hv, rfl⟩ := hc
          rw [hq]
          exact .mk ((hd v).2 hv) (hp c (by simp))
  exact ⟨main false p (fun _ => rfl) x, main true _ (fun _ => rfl) x⟩

/-- **C122.** With a model as the source of the parameters, these are the model's current values. -/
theorem C122_model_values (m : Params.Mentions) (f : Params.Frame) (hnd : f.names.Nodup) (p : String → ℝ) (ns : List String)
    (h : PVal.Holds f p ns) (n : String) (hn : n ∈ ns) : modelGetter m f n = some (p n) := by
  obtain ⟨r, hr, hname, hv⟩ := h n hn
  have h1 := pv_row_of_mem hnd hr
  rw [hname] at h1
  have h2 := C20_keeps m false f hnd n r h1
  simp [modelGetter, PVal.leafValue, PVal.scanFor, PVal.exprValue, PVal.frameGet, h2, hv, PVal.orDefault, finiteOf]

/-- **C122.** A function without data evaluates to its `pvalue`. -/
theorem C122_agrees_with_pvalue (m : Params.Mentions) (f : Params.Frame) (hnd : f.names.Nodup) (p : String → ℝ) (env : Env) (l : List Comp)
    (hne : l ≠ []) (hl : ∀ c ∈ l, c.data = [.num "1" 1]) (h : PVal.Holds f p (l.map Comp.param)) (x : ℝ) :
    FuncVal (modelGetter m f) env (some []) [] false l x ↔ (PVal.leafValue m none f (.func l)).2 = .ok (.fin x) := by
  rw [(C122_evaluate env (modelGetter m f) p [] [] l (by simp [Describes]) (by simp [Describes]) ?_ ?_ x).1,
    (C121_linear m none f p hnd).2 l hne hl h]
  · simp only [Except.ok.injEq, X.fin.injEq]
    have : ∀ l : List Comp, (∀ c ∈ l, c.data = [.num "1" 1]) → ∀ x, FuncHas env p l x ↔ (l.map (fun c => c.scale * p c.param)).sum = x := by
      intro l
      induction l with
      | nil =>
        intro _ x
        constructor
        · intro h; cases h; rfl
        · intro h; simp at h; subst h; exact .nil
      | cons c cs ih =>
        intro hl x
        have ih' := ih (fun c hc => hl c (by simp [hc]))
        rw [List.map_cons, List.sum_cons]
        constructor
        · intro h
          cases h with
          | cons h1 h2 =>
            obtain ⟨v, hv, rfl⟩ := h1
            rw [hl c (by simp)] at hv
            rw [num_has_iff.1 hv, (ih' _).1 h2, mul_one]
        · rintro rfl
          refine .cons ⟨1, ?_, by rw [mul_one]⟩ ((ih' _).2 rfl)
          rw [hl c (by simp)]
          exact num_has_iff.2 rfl
    exact this l hl x
  · intro c hc e he s hs
    rw [hl c hc] at he
    have := he.det (reads_num "1" 1)
    subst this
    simp [vars] at hs
  · intro c hc
    exact C122_model_values m f hnd p _ h c.param (List.mem_map_of_mem hc)

/-- **C122.** `reformat_param` renames the parameters and nothing else: the new function's value at `p` is the old one's with
every parameter read under its new name. -/
theorem C122_rename (env : Env) (p : String → ℝ) (sub cont : Option (String → String)) (l : List Comp) (x : ℝ) :
    (FuncHas env p (reformatParam sub cont l) x ↔ FuncHas env (fun s => p (cont.getD id (sub.getD id s))) l x) ∧
    (reformatParam sub cont l).map (fun c => (c.data, c.scale)) = l.map (fun c => (c.data, c.scale)) ∧
    (reformatParam sub cont l).map Comp.param = l.map (fun c => cont.getD id (sub.getD id c.param)) := by
  refine ⟨?_, by simp [reformatParam], by simp [reformatParam]⟩
  induction l generalizing x with
  | nil =>
    constructor
    · intro h; cases h; exact .nil
    · intro h; cases h; exact .nil
  | cons c cs ih =>
    constructor
    · intro h
      cases h with
      | cons h1 h2 => exact .cons h1 ((ih _).1 h2)
    · intro h
      cases h with
      | cons h1 h2 => exact .cons h1 ((ih _).2 h2)

theorem ev_call_has {env : Env} {g : String} {d : List Tok} {x : ℝ} (h : Py.Has env d x) :
    Py.Has env (.name g :: .lp :: (d ++ [.rp])) (env.call g x) := by
  obtain ⟨e, hr, hh⟩ := h
  refine ⟨.call g e, ?_, .call hh⟩
  have h1 : Rd .cmp (d ++ .rp :: []) e ([] ++ .rp :: []) := Rd.ext hr []
  exact reads_of_un (Rd.toUn (.call h1) hd_nil)

theorem ev_call_inv {env : Env} {g : String} {d : List Tok} {e0 : E} (h0 : Reads d e0) {y : ℝ}
    (h : Py.Has env (.name g :: .lp :: (d ++ [.rp])) y) : ∃ x, Py.Has env d x ∧ y = env.call g x := by
  obtain ⟨e, hr, hh⟩ := h
  have h1 : Rd .cmp (d ++ .rp :: []) e0 ([] ++ .rp :: []) := Rd.ext h0 []
  have h2 := hr.det (reads_of_un (Rd.toUn (.call h1) hd_nil))
  subst h2
  cases hh with
  | call hx => exact ⟨_, ⟨e0, h0, hx⟩, rfl⟩

/-- **C122.** `reformat_data` rewrites the data items, first by the pattern and then by the container, and nothing else. -/
theorem C122_data_parts (sub cont : Option (List Tok → List Tok)) (l : List Comp) :
    (reformatData sub cont l).map (fun c => (c.param, c.scale)) = l.map (fun c => (c.param, c.scale)) ∧
    (reformatData sub cont l).map Comp.data = l.map (fun c => match cont, sub with
      | some g, some h => g (h c.data)
      | some g, none => g c.data
      | none, some h => h c.data
      | none, none => c.data) := by
  constructor
  · simp [reformatData]
  · cases sub <;> cases cont <;> simp [reformatData]

example : (reformatData (some List.reverse) (some (fun d => .lp :: d)) [⟨"c", [.name "a", .name "b"], 2⟩]).map Comp.data =
    [[.lp, .name "b", .name "a"]] := by simp [reformatData]

/-- **C122.** `reformat_data('g({})')` applies the function to every data item. -/
theorem C122_data_function_partial (env : Env) (p : String → ℝ) (g : String) (l : List Comp) (hl : ∀ c ∈ l, ∃ e, Reads c.data e) (x : ℝ) :
    FuncHas env p (reformatData none (some (fun d => .name g :: .lp :: (d ++ [.rp]))) l) x ↔
      ∃ vs : List ℝ, List.Forall₂ (fun c v => Py.Has env c.data v) l vs ∧
        x = (List.zipWith (fun c v => c.scale * p c.param * env.call g v) l vs).sum := by
  induction l generalizing x with
  | nil =>
    constructor
    · intro h; cases h; exact ⟨[], .nil, rfl⟩
    · rintro ⟨vs, h, rfl⟩
      cases h
      exact .nil
  | cons c cs ih =>
    have ih' := ih (fun c hc => hl c (by simp [hc]))
    constructor
    · intro h
      cases h with
      | cons h1 h2 =>
        obtain ⟨v, hv, rfl⟩ := h1
        obtain ⟨e, he⟩ := hl c (by simp)
        obtain ⟨u, hu, rfl⟩ := ev_call_inv he hv
        obtain ⟨vs, hvs, rfl⟩ := (ih' _).1 h2
        exact ⟨u :: vs, .cons hu hvs, by simp⟩
    · rintro ⟨vs, h, rfl⟩
      cases h with
      | @cons _ v _ vs h1 h2 =>
        rw [List.zipWith_cons_cons, List.sum_cons]
        refine .cons ⟨env.call g v, ev_call_has h1, rfl⟩ ((ih' _).2 ⟨vs, h2, rfl⟩)

/-! ## Where the code does not have the property -/

/-- Without `x_namespace` (the default), `evaluate` raises for every function that has a term, whatever the keyword arguments. -/
theorem C122_fails_without_namespace (getter : String → Option ℝ) (env : Env) (kw : NS) (b : Bool) (l : List Comp) (hl : l ≠ []) (x : ℝ) :
    ¬ FuncVal getter env none kw b l x := by
  intro h
  cases h with
  | nil => exact hl rfl
  | cons h1 _ => cases h1

/-- A name given in both namespaces: data that is just the name has the value of `x_namespace`, an expression with it the value of
the keyword argument; here the data `x` is 1 and the data `x + 0` is 5. -/
theorem C122_fails_two_values (env : Env) (getter : String → Option ℝ) (hp : getter "b" = some 1) :
    FuncVal getter env (some [([.name "x"], 1)]) [([.name "x"], 5)] false [⟨"b", [.name "x"], 1⟩] 1 ∧
    FuncVal getter env (some [([.name "x"], 1)]) [([.name "x"], 5)] false
      [⟨"b", [.name "x", .op .add, .num "0" 0], 1⟩] 5 := by
  constructor
  · have h := CompVal.mk (getter := getter) (base := env) (kw := [([.name "x"], 5)]) (expParams := false)
      (ns := [([.name "x"], 1)]) (c := ⟨"b", [.name "x"], 1⟩) (v := 1) (.direct (by simp [nsGet])) hp
    have := FuncVal.cons h .nil
    simpa [paramFactor] using this
  · have hr : Reads [.name "x", .op .add, .num "0" 0] (.bin .add (.var "x") (.lit 0)) := by
      have h1 : Rd .un [.name "x", .op .add, .num "0" 0] (.var "x") [.op .add, .num "0" 0] :=
        Rd.toUn (.var (hd_cons.2 rfl)) (hd_cons.2 rfl)
      have h2 : Rd .un [.num "0" 0] (.lit 0) [] := Rd.toUn .num hd_nil
      exact reads_bin (a := [.name "x"]) (b := [.num "0" 0]) .add (by simp) (fun r hr1 hr2 => Rd.toUn (.var hr1) hr2) (fun r hr1 hr2 => Rd.toUn .num hr2)
    have h := CompVal.mk (getter := getter) (base := env) (kw := [([.name "x"], 5)]) (expParams := false)
      (ns := [([.name "x"], 1)]) (c := ⟨"b", [.name "x", .op .add, .num "0" 0], 1⟩) (v := 5)
      (.expression (by simp [nsGet]) (by simp [nsGet]) hr (by simp [vars, evalVar, nsGet]) (by
        have := E.Has.bin (env := evalEnv env [([.name "x"], 1)] [([.name "x"], 5)]) (o := .add)
          (E.Has.var (s := "x")) (E.Has.lit (v := 0)) (by simp)
        simpa [BOp.val, evalEnv, evalVar, nsGet] using this)) hp
    have := FuncVal.cons h .nil
    simpa [paramFactor] using this

/-- Data written without a parameter (`X.x + P.b * X.y`) gets the parameter `_`, which a scanned model takes for an ordinary
parameter with value 0: its term contributes 0 instead of `x`. -/
theorem C122_fails_placeholder (m : Params.Mentions) (f : Params.Frame) (hnd : f.names.Nodup) (hm : f.mangled = true) (env : Env) (d : String)
    (h : "_" ∉ f.names) (hu : "_" ∈ m.utility) (x : ℝ) :
    FuncVal (modelGetter m f) env (some [([.name d], x)]) [] false [⟨"_", [.name d], 1⟩] 0 ∧
    (x ≠ 0 → ¬ FuncVal (modelGetter m f) env (some [([.name d], x)]) [] false [⟨"_", [.name d], 1⟩] x) := by
  have hg : modelGetter m f "_" = some 0 := by
    unfold modelGetter
    rw [(C121_name m none f hnd hm "_").2.1 h (by simp [hu])]
    rfl
  constructor
  · have hh := CompVal.mk (getter := modelGetter m f) (base := env) (kw := []) (expParams := false)
      (ns := [([.name d], x)]) (c := ⟨"_", [.name d], 1⟩) (v := x) (.direct (by simp [nsGet])) hg
    have := FuncVal.cons hh .nil
    simpa [paramFactor] using this
  · intro hx hv
    generalize hy : x = y at hv
    cases hv with
    | cons h1 h2 =>
      cases h2
      cases h1 with
      | mk h3 h4 =>
        rw [hg] at h4
        cases h4
        simp [paramFactor] at hy
        exact hx hy

/-- `reformat_data('{} * 2')` of the data `a + b` is `a + b * 2`, not `(a + b) * 2`. -/
theorem C122_fails_data_container (env : Env) (p : String → ℝ) (hp : p "c" = 1) (ha : env.var "a" = 1) (hb : env.var "b" = 1) (x : ℝ) :
    FuncHas env p (reformatData none (some (fun d => d ++ [.op .mul, .num "2" 2])) [⟨"c", [.name "a", .op .add, .name "b"], 1⟩]) x ↔ x = 3 := by
  have hr : Reads [.name "a", .op .add, .name "b", .op .mul, .num "2" 2] (.bin .add (.var "a") (.bin .mul (.var "b") (.lit 2))) := by
    have nx : ∀ {ts e r} (l : Nat), Rd .un ts e r → (∀ m, l < m → m ≤ 5 → hd (Tok.isOpAt m) r) → Rd (next l) ts e r :=
      fun l h hr => Rd.toNext h l hr
    have h1 : Rd .un [.name "a", .op .add, .name "b", .op .mul, .num "2" 2] (.var "a") [.op .add, .name "b", .op .mul, .num "2" 2] :=
      Rd.toUn (.var (hd_cons.2 rfl)) (hd_cons.2 rfl)
    have h2 : Rd .un [.name "b", .op .mul, .num "2" 2] (.var "b") [.op .mul, .num "2" 2] :=
      Rd.toUn (.var (hd_cons.2 rfl)) (hd_cons.2 rfl)
    have h3 : Rd .un [.num "2" 2] (.lit 2) [] := Rd.toUn .num hd_nil
    have h4 : Rd (.bin 5) [.name "b", .op .mul, .num "2" 2] (.bin .mul (.var "b") (.lit 2)) [] :=
      .bin (nx 5 h2 (by intro m h1 h2; omega)) (.step rfl (nx 5 h3 (by intro m h1 h2; omega)) (.stop hd_nil))
    have h5 : Rd (.bin 4) [.name "a", .op .add, .name "b", .op .mul, .num "2" 2] (.bin .add (.var "a") (.bin .mul (.var "b") (.lit 2))) [] := by
      refine .bin (nx 4 h1 ?_) (.step rfl h4 (.stop hd_nil))
      intro m hm1 hm2
      have : m = 5 := by omega
      subst this
      exact hd_cons.2 rfl
    exact .cmp0 (Rd.down 4 h5 (by omega) (by omega)) hd_nil
  have hv : Py.Has env [.name "a", .op .add, .name "b", .op .mul, .num "2" 2] 3 := by
    refine ⟨_, hr, ?_⟩
    have := E.Has.bin (env := env) (o := .add) (E.Has.var (s := "a"))
      (E.Has.bin (env := env) (o := .mul) (E.Has.var (s := "b")) (E.Has.lit (v := 2)) (by simp)) (by simp)
    simp only [BOp.val, ha, hb] at this
    have e3 : (1 : ℝ) + 1 * 2 = 3 := by norm_num
    rwa [e3] at this
  constructor
  · intro h
    cases h with
    | cons h1 h2 =>
      cases h2
      obtain ⟨v, hv', rfl⟩ := h1
      have := hv.det hv'
      subst this
      simp [hp]
  · rintro rfl
    have : FuncHas env p [⟨"c", [.name "a", .op .add, .name "b", .op .mul, .num "2" 2], 1⟩] (1 * p "c" * 3 + 0) :=
      .cons ⟨3, hv, rfl⟩ .nil
    simpa [hp, reformatData] using this

/-! ## A concrete case -/

/-- `P.b * X.x * 2 + P.c * X("log(y)")` at `b = 3`, `c = 1`, `x = 5`, `y = 1`. -/
example (base : Env) (hb : base.var "x" = 5) (hy : base.var "y" = 1) (hl : base.call "log" 1 = 0) :
    FuncVal (fun s => some (if s = "b" then 3 else 1)) base (some [([.name "x"], 5)]) [([.name "y"], 1)] false
      [⟨"b", [.name "x"], 2⟩, ⟨"c", [.name "log", .lp, .name "y", .rp], 1⟩] 30 := by
  have hrl : Reads [.name "log", .lp, .name "y", .rp] (.call "log" (.var "y")) := by
    have h1 : Rd .cmp ([.name "y"] ++ .rp :: []) (.var "y") ([] ++ .rp :: []) := Rd.ext (reads_name "y") []
    exact reads_of_un (Rd.toUn (.call h1) hd_nil)
  rw [(C122_evaluate base (fun s => some (if s = "b" then 3 else 1)) (fun s => if s = "b" then 3 else 1) [([.name "x"], 5)]
    [([.name "y"], 1)] _ (by intro k x h; simp at h; exact ⟨"x", h.1, by rw [h.2, hb]⟩)
    (by intro k x h; simp at h; exact ⟨"y", h.1, by rw [h.2, hy]⟩) ?_ (by simp) 30).1]
  · have h1 : Py.Has base [.name "x"] 5 := ev_name_has.2 hb.symm
    have h2 : Py.Has base [.name "log", .lp, .name "y", .rp] 0 := by
      have := ev_call_has (g := "log") (ev_name_has.2 rfl : Py.Has base [.name "y"] (base.var "y"))
      rw [hy, hl] at this
      exact this
    have h3 : FuncHas base (fun s => if s = "b" then 3 else 1) [⟨"b", [.name "x"], 2⟩, ⟨"c", [.name "log", .lp, .name "y", .rp], 1⟩]
        (2 * 3 * 5 + (1 * 1 * 0 + 0)) := .cons ⟨5, h1, by simp⟩ (.cons ⟨0, h2, by simp⟩ .nil)
    norm_num at h3
    exact h3
  · intro c hc e he s hs
    simp only [List.mem_cons, List.not_mem_nil, or_false] at hc
    rcases hc with rfl | rfl
    · have := he.det (reads_name "x")
      subst this
      simp only [vars, List.mem_singleton] at hs
      subst hs
      exact ⟨5, by simp⟩
    · have := he.det hrl
      subst this
      simp only [vars, List.mem_singleton] at hs
      subst hs
      exact ⟨1, by simp⟩

end Larch.Props
