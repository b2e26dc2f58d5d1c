import Verif.Props.Display

/-!
# C116: the tables of utility functions
-/

namespace Larch.Props

open Larch.Py Larch.Linear Larch.Display

/-! ## The rows, as a sum of terms -/

/-- A plus before every term, or before all but the first. -/
def plusAll (b : Bool) (ts : List (List Tok)) : List Tok :=
  if b then ts.flatMap (fun u => .op .add :: u) else joinPlus ts

theorem plusAll_cons (b : Bool) (t : List Tok) (ts : List (List Tok)) :
    plusAll b (t :: ts) = (if b then .op .add :: t else t) ++ plusAll true ts := by
  cases b <;> simp [plusAll, joinPlus]

theorem plusAll_append (b : Bool) (ts us : List (List Tok)) :
    plusAll b (ts ++ us) = plusAll b ts ++ plusAll (b || !ts.isEmpty) us := by
  cases ts with
  | nil => simp [plusAll, joinPlus]
  | cons t ts =>
    rw [List.cons_append, plusAll_cons, plusAll_cons]
    simp [plusAll]

/-- The text of the rows written so far. -/
def St.text (s : St) : List Tok := s.rows.flatMap Prod.snd

theorem putTerms_spec (ts : List (List Tok)) : ∀ s : St,
    (putTerms s ts).line = s.line + ts.length ∧ (putTerms s ts).plus = (s.plus || !ts.isEmpty) ∧
    St.text (putTerms s ts) = St.text s ++ plusAll s.plus ts ∧
    (putTerms s ts).rows.map Prod.fst = s.rows.map Prod.fst ++ List.range' s.line ts.length := by
  induction ts with
  | nil => intro s; simp [putTerms, plusAll, joinPlus]
  | cons t ts ih =>
    intro s
    obtain ⟨h1, h2, h3, h4⟩ := ih (s.put t)
    have he : putTerms s (t :: ts) = putTerms (s.put t) ts := rfl
    rw [he]
    refine ⟨?_, ?_, ?_, ?_⟩
    · rw [h1]; simp [St.put]; omega
    · rw [h2]; simp [St.put]
    · rw [h3, plusAll_cons]
      have h5 : St.text (s.put t) = St.text s ++ (if s.plus then .op .add :: t else t) := by
        simp [St.text, St.put]
      rw [h5]
      simp [St.put]
    · rw [h4]
      simp [St.put, List.range'_succ]

/-- The quantity term. -/
noncomputable def quantityTerm (N : Names) (f : Formula) : List Tok :=
  quantityHead f.qscale ++ joinPlus (f.quantity.map (expToks N)) ++ [.rp]

/-- The terms of a formula. -/
noncomputable def formulaTerms (N : Names) (f : Formula) : List (List Tok) :=
  f.ca.map (compToks N) ++ f.co.map (compToks N) ++ (if f.quantity.isEmpty then [] else [quantityTerm N f])

theorem putQuantity_spec (N : Names) (s : St) (f : Formula) :
    St.text (putQuantity N s f) = St.text s ++ plusAll s.plus (if f.quantity.isEmpty then [] else [quantityTerm N f]) ∧
    ∃ n, (putQuantity N s f).rows.map Prod.fst = s.rows.map Prod.fst ++ List.range' s.line n := by
  unfold putQuantity
  cases hq : f.quantity.isEmpty with
  | true => exact ⟨by simp [plusAll, joinPlus], 0, by simp⟩
  | false =>
    simp only [Bool.false_eq_true, if_false]
    obtain ⟨h1, _, h3, h4⟩ := putTerms_spec (f.quantity.map (expToks N)) (s.put (quantityHead f.qscale)).blank
    refine ⟨?_, 1 + f.quantity.length + 1, ?_⟩
    · have h5 : ∀ t : St, St.text t.close = St.text t ++ [.rp] := by intro t; simp [St.text, St.close]
      rw [h5, h3]
      have h6 : St.text (s.put (quantityHead f.qscale)).blank =
          St.text s ++ (if s.plus then .op .add :: quantityHead f.qscale else quantityHead f.qscale) := by
        simp [St.text, St.put, St.blank]
      rw [h6, plusAll_cons]
      have h7 : ((s.put (quantityHead f.qscale)).blank).plus = false := rfl
      rw [h7]
      cases s.plus <;> simp [plusAll, quantityTerm]
    · simp only [St.close, List.map_append, List.map_cons, List.map_nil]
      rw [h4, h1]
      have e1 : 1 + f.quantity.length + 1 = (f.quantity.length + 1) + 1 := by omega
      rw [e1, List.range'_concat, List.range'_succ]
      simp [St.put, St.blank]
      omega

theorem rows_text (N : Names) (f : Formula) : (rowsOf N f).flatMap Prod.snd = joinPlus (formulaTerms N f) := by
  obtain ⟨_, h2, h3, _⟩ := putTerms_spec (f.ca.map (compToks N)) ⟨1, false, []⟩
  obtain ⟨_, k2, k3, _⟩ := putTerms_spec (f.co.map (compToks N)) (putTerms ⟨1, false, []⟩ (f.ca.map (compToks N)))
  have h5 := (putQuantity_spec N (putTerms (putTerms ⟨1, false, []⟩ (f.ca.map (compToks N))) (f.co.map (compToks N))) f).1
  have h0 : St.text ⟨1, false, []⟩ = [] := rfl
  have : (rowsOf N f).flatMap Prod.snd =
      St.text (putQuantity N (putTerms (putTerms ⟨1, false, []⟩ (f.ca.map (compToks N))) (f.co.map (compToks N))) f) := rfl
  rw [this, h5, k3, h3, k2, h2, h0, List.nil_append]
  have h6 : joinPlus (formulaTerms N f) = plusAll false (formulaTerms N f) := rfl
  rw [h6, formulaTerms, plusAll_append, plusAll_append]
  have h7 : ∀ l m : List (List Tok), (l ++ m).isEmpty = (l.isEmpty && m.isEmpty) := by
    intro l m; cases l <;> simp
  rw [h7]
  simp

/-! ## Reading a sum -/

theorem full_terms (ts : List (List Tok)) (es : List E) (h : List.Forall₂ Display.Term ts es) (hne : ts ≠ []) {env : Env}
    {vs : List ℝ} (hv : List.Forall₂ (fun e v => E.Has env e v) es vs) :
    ∃ e, Full (joinPlus ts) e ∧ e.Has env vs.sum := by
  cases h with
  | nil => exact absurd rfl hne
  | cons ht hts =>
    cases hv with
    | cons hv hvs => exact ⟨_, full_sum ht hts, by simpa using has_foldl _ _ hvs _ _ hv⟩

/-- How a list of texts reads and what it is worth. -/
def Worth (env : Env) (ts : List (List Tok)) (vs : List ℝ) : Prop :=
  ∃ es, List.Forall₂ Display.Term ts es ∧ List.Forall₂ (fun e v => E.Has env e v) es vs

theorem Worth.append {env : Env} {ts us : List (List Tok)} {vs ws : List ℝ} (h : Worth env ts vs) (h' : Worth env us ws) :
    Worth env (ts ++ us) (vs ++ ws) := by
  obtain ⟨es, h1, h2⟩ := h
  obtain ⟨fs, h3, h4⟩ := h'
  exact ⟨es ++ fs, List.rel_append h1 h3, List.rel_append h2 h4⟩

theorem worth_single {env : Env} {t : List Tok} {e : E} {v : ℝ} (h : Display.Term t e) (hv : e.Has env v) : Worth env [t] [v] :=
  ⟨[e], .cons h .nil, .cons hv .nil⟩

theorem worth_value {env : Env} {ts : List (List Tok)} {vs : List ℝ} (h : Worth env ts vs) (hne : ts ≠ []) (x : ℝ) :
    Py.Has env (joinPlus ts) x ↔ x = vs.sum := by
  obtain ⟨es, h1, h2⟩ := h
  obtain ⟨e, h3, h4⟩ := full_terms ts es h1 hne h2
  exact value_of_full h3 h4 x

theorem worth_comps {N : Names} {env : Env} {p : String → ℝ} {dv : List Tok → ℝ} {l : List Comp} (hf : Faithful N env p dv l) :
    Worth env (l.map (compToks N)) (l.map (termVal p dv)) :=
  ⟨_, forall₂_map _ _ (term_comp N) l, has_all l (compE N) _ (fun _ ha => has_compE hf ha)⟩

theorem worth_exps {N : Names} {env : Env} {p : String → ℝ} {dv : List Tok → ℝ} {l : List Comp} (hf : Faithful N env p dv l)
    (he : env.call "exp" = Real.exp) :
    Worth env (l.map (expToks N)) (l.map (fun c => c.scale * Real.exp (p c.param) * dv c.data)) := by
  refine ⟨_, forall₂_map _ _ (term_exp N) l, has_all l (expE N) _ (fun c hc => ?_)⟩
  refine has_tail ?_ (hf.dat c hc) (hf.lit c hc)
  have := E.Has.call (f := "exp") (E.Has.var (env := env) (s := N.par c.param))
  rw [hf.par c hc, he] at this
  exact this

/-- `log( … )`, with or without a scale parameter. -/
theorem worth_log {env : Env} {ts : List Tok} {e : E} {v : ℝ} (q : Option String) (qv : ℝ) (hq : ∀ s, q = some s → env.var s = qv)
    (hq1 : q = none → qv = 1) (h : Full ts e) (hv : e.Has env v) (hl : env.call "log" = Real.log) :
    Worth env [quantityHead q ++ ts ++ [.rp]] [qv * Real.log v] := by
  have hc : Fac (.name "log" :: .lp :: (ts ++ [.rp])) (.call "log" e) := fac_call h
  have hcv : (E.call "log" e).Has env (Real.log v) := by
    have := E.Has.call (f := "log") hv
    rwa [hl] at this
  cases q with
  | none =>
    refine worth_single (e := .call "log" e) ?_ ?_
    · simpa [quantityHead] using hc.term
    · simpa [hq1 rfl] using hcv
  | some s =>
    refine worth_single (e := .bin .mul (.var s) (.call "log" e)) ?_ ?_
    · have := term_prod (fac_name s) (fs := [.name "log" :: .lp :: (ts ++ [.rp])]) (es := [.call "log" e]) (.cons hc .nil)
      simpa [quantityHead] using this
    · have := E.Has.bin (o := .mul) (E.Has.var (env := env) (s := s)) hcv (by simp)
      rw [hq s rfl] at this
      exact this

theorem worth_quantity {N : Names} {env : Env} {p : String → ℝ} {dv : List Tok → ℝ} {f : Formula}
    (hf : Faithful N env p dv f.quantity) (he : env.call "exp" = Real.exp) (hl : env.call "log" = Real.log)
    (hq : ∀ s, f.qscale = some s → env.var s = p s) :
    ∃ vs, Worth env (if f.quantity.isEmpty then [] else [quantityTerm N f]) vs ∧ vs.sum = quantityPart p dv f.quantity f.qscale := by
  cases hq0 : f.quantity with
  | nil => exact ⟨[], ⟨[], .nil, .nil⟩, by simp [quantityPart]⟩
  | cons c l =>
    have hw := worth_exps (hq0 ▸ hf) he
    obtain ⟨es, h1, h2⟩ := hw
    obtain ⟨e, h3, h4⟩ := full_terms _ es h1 (by simp) h2
    have := worth_log f.qscale (scaleVal p f.qscale) (fun s hs => by simp only [hs]; exact hq s hs) (fun hs => by simp [hs, scaleVal]) h3 h4 hl
    exact ⟨_, by simpa only [quantityTerm, hq0, List.isEmpty_cons, Bool.false_eq_true, if_false] using this,
      by simp [quantityPart, quantityVal]⟩

/-! ## C116 -/

/-- **C116.** The rows `_utility_functions_as_frame` writes for an alternative, read one after the other as one Python
expression, have exactly the value of the alternative's systematic utility: the sum of its terms plus the scale parameter times
the logarithm of the quantity function. -/
theorem C116_rows_value (N : Names) (env : Env) (p : String → ℝ) (dv : List Tok → ℝ) (f : Formula)
    (hne : f.ca ≠ [] ∨ f.co ≠ [] ∨ f.quantity ≠ [])
    (h1 : Faithful N env p dv f.ca) (h2 : Faithful N env p dv f.co) (h3 : Faithful N env p dv f.quantity)
    (he : env.call "exp" = Real.exp) (hl : env.call "log" = Real.log) (hq : ∀ s, f.qscale = some s → env.var s = p s) (x : ℝ) :
    Py.Has env ((rowsOf N f).flatMap Prod.snd) x ↔ x = utility p dv f.ca f.co f.quantity f.qscale := by
  rw [rows_text]
  obtain ⟨vs, hw, hs⟩ := worth_quantity h3 he hl hq
  have h := ((worth_comps h1).append (worth_comps h2)).append hw
  have hn : formulaTerms N f ≠ [] := by
    unfold formulaTerms
    intro h
    simp only [List.append_eq_nil_iff, List.map_eq_nil_iff] at h
    rcases hne with hne | hne | hne
    · exact hne h.1.1
    · exact hne h.1.2
    · have h2 := h.2
      cases hq0 : f.quantity with
      | nil => exact hne hq0
      | cons c l => simp [hq0] at h2
  rw [show joinPlus (formulaTerms N f) = joinPlus (f.ca.map (compToks N) ++ f.co.map (compToks N) ++
    (if f.quantity.isEmpty then [] else [quantityTerm N f])) from rfl, worth_value h hn x]
  simp [utility, funcVal, hs, add_assoc]

/-- The lines of an alternative are numbered 1, 2, 3, … -/
theorem C116_rows_numbered (N : Names) (f : Formula) : ∃ n, (rowsOf N f).map Prod.fst = List.range' 1 n := by
  obtain ⟨h1, _, _, h4⟩ := putTerms_spec (f.ca.map (compToks N)) ⟨1, false, []⟩
  obtain ⟨k1, _, _, k4⟩ := putTerms_spec (f.co.map (compToks N)) (putTerms ⟨1, false, []⟩ (f.ca.map (compToks N)))
  obtain ⟨n, hn⟩ := (putQuantity_spec N (putTerms (putTerms ⟨1, false, []⟩ (f.ca.map (compToks N))) (f.co.map (compToks N))) f).2
  refine ⟨f.ca.length + f.co.length + n, ?_⟩
  unfold rowsOf
  rw [hn, k4, h4, k1, h1]
  simp only [List.map_nil, List.nil_append, List.length_map, List.range'_append_1]
  have e1 : 1 + f.ca.length = 1 + 1 * f.ca.length := by omega
  have e2 : 1 + f.ca.length + f.co.length = 1 + 1 * (f.ca.length + f.co.length) := by omega
  rw [e2, List.range'_append]

theorem filter_labels {α β : Type} [DecidableEq α] (l : List α) (hl : l.Nodup) (f : α → List β) (a : α) :
    ((l.flatMap (fun b => (f b).map (fun r => (b, r)))).filter (fun r => r.1 = a)).map Prod.snd =
      if a ∈ l then f a else [] := by
  induction l with
  | nil => simp
  | cons b l ih =>
    obtain ⟨hb, hl⟩ := List.nodup_cons.1 hl
    rw [List.flatMap_cons, List.filter_append, List.map_append, ih hl]
    by_cases hab : b = a
    · subst hab
      have : List.filter (fun r => decide (r.1 = b)) (List.map (fun r => (b, r)) (f b)) = List.map (fun r => (b, r)) (f b) := by
        rw [List.filter_eq_self]
        simp
      rw [this]
      simp [hb]
    · have : List.filter (fun r => decide (r.1 = a)) (List.map (fun r => (b, r)) (f b)) = [] := by
        rw [List.filter_eq_nil_iff]
        simp [hab]
      rw [this]
      simp [Ne.symm hab]

/-- **C116.** When utilities are given by alternative, the table has, for every alternative of the data (of the utility functions
when no data is attached) that the `subset` does not exclude, the rows of that alternative's formula, and no others. -/
theorem C116_table (N : Names) (m : Spec) (known subset : Option (List Int)) (hco : m.co ≠ [])
    (hk : (known.getD (m.co.map Prod.fst)).Nodup) (a : Int) :
    ((frame N m known subset).filter (fun r => r.1.1 = some a)).map (fun r => (r.1.2, r.2)) =
      if a ∈ known.getD (m.co.map Prod.fst) ∧ (∀ s, subset = some s → a ∈ s) then
        rowsOf N ⟨m.ca, (m.co.lookup a).getD [], m.quantity, m.qscale⟩ else [] := by
  have hform : m.formula a = ⟨m.ca, (m.co.lookup a).getD [], m.quantity, m.qscale⟩ := by
    have : ∀ l : List (Int × List Comp), (l.find? (fun kv => kv.1 == a)).map Prod.snd = l.lookup a := by
      intro l
      induction l with
      | nil => rfl
      | cons kv l ih =>
        by_cases h : kv.1 = a
        · subst h; simp [List.lookup]
        · have h' : (a == kv.1) = false := by simpa using fun h2 => h h2.symm
          simp [List.lookup, h, h', ih]
    simp only [Spec.formula, Spec.coOf, this]
  have halts : m.alts known subset = ((known.getD (m.co.map Prod.fst)).filter (inSubset subset)).map some := by
    unfold Spec.alts
    cases hm : m.co with
    | nil => exact absurd hm hco
    | cons _ _ => simp
  have hnd : (m.alts known subset).Nodup := by
    rw [halts]
    exact (hk.filter _).map (Option.some_injective _)
  have := filter_labels (m.alts known subset) hnd (fun a => rowsOf N (m.formulaAt a)) (some a)
  have hmem : some a ∈ m.alts known subset ↔ a ∈ known.getD (m.co.map Prod.fst) ∧ (∀ s, subset = some s → a ∈ s) := by
    rw [halts]
    cases subset <;> simp [inSubset]
  have hfr : frame N m known subset = ((m.alts known subset).flatMap (fun b => (rowsOf N (m.formulaAt b)).map (fun r => (b, r)))).map (fun r => ((r.1, r.2.1), r.2.2)) := by
    unfold frame
    rw [List.map_flatMap]
    simp [Function.comp_def]
  rw [hfr, List.filter_map, List.map_map]
  refine Eq.trans (b := _) ?_ (this.trans ?_)
  · rfl
  · by_cases h : some a ∈ m.alts known subset
    · rw [if_pos h, if_pos (hmem.1 h)]; exact congrArg (rowsOf N) hform
    · rw [if_neg h, if_neg (fun h' => h (hmem.2 h'))]

/-- Without utilities by alternative there is one formula, labelled `*`. -/
theorem C116_table_star (N : Names) (m : Spec) (known subset : Option (List Int)) (hco : m.co = []) :
    frame N m known subset = (rowsOf N ⟨m.ca, [], m.quantity, m.qscale⟩).map (fun r => ((none, r.1), r.2)) := by
  simp [frame, Spec.alts, hco, Spec.formulaAt]

/-! ## The HTML table -/

/-- How a component of the HTML table reads after the expression of its parameter. -/
noncomputable def xmlTailE (N : Names) (c : Comp) (e : E) : E :=
  let e' := if c.scale = 1 then e else .bin .mul e (numE c.scale)
  if dataIsOne c then e' else .bin .mul e' (.var (N.dat c.data))

theorem term_xml (N : Names) (c : Comp) {f : List Tok} {e : E} (hf : Fac f e) :
    Display.Term (f ++ (xmlScale N c ++ xmlData N c)) (xmlTailE N c e) := by
  unfold xmlScale xmlData xmlTailE
  by_cases h1 : c.scale = 1 <;> by_cases h2 : dataIsOne c = true <;> simp only [h1, h2, if_true, if_false, Bool.false_eq_true]
  · simpa using hf.term
  · simpa using term_prod hf (fs := [[.name (N.dat c.data)]]) (es := [.var (N.dat c.data)]) (.cons (fac_name _) .nil)
  · simpa using term_prod hf (fs := [numToks N.num c.scale]) (es := [numE c.scale]) (.cons (fac_num _ _) .nil)
  · simpa using term_prod hf (fs := [numToks N.num c.scale, [.name (N.dat c.data)]]) (es := [numE c.scale, .var (N.dat c.data)])
      (.cons (fac_num _ _) (.cons (fac_name _) .nil))

theorem has_xmlTail {N : Names} {env : Env} {dv : List Tok → ℝ} {c : Comp} {e : E} {x : ℝ} (h : e.Has env x)
    (hd : env.var (N.dat c.data) = dv c.data) (hl : ∀ v, floatOf c.data = some v → dv c.data = v) :
    (xmlTailE N c e).Has env (c.scale * x * dv c.data) := by
  have hv : (E.var (N.dat c.data)).Has env (dv c.data) := hd ▸ .var
  have h1 : (if c.scale = 1 then e else .bin .mul e (numE c.scale)).Has env (c.scale * x) := by
    split
    · rename_i h1; rw [h1, one_mul]; exact h
    · have := E.Has.bin (o := .mul) h (has_numE env c.scale) (by simp)
      rw [show c.scale * x = BOp.val env .mul x c.scale from by simp only [BOp.val]; ring]
      exact this
  unfold xmlTailE
  simp only
  split
  · rename_i h2
    have : dv c.data = 1 := hl 1 (by simpa [dataIsOne] using h2)
    rw [this, mul_one]
    exact h1
  · exact E.Has.bin (o := .mul) h1 hv (by simp)

theorem fac_pos {ts : List Tok} {e : E} (h : Fac ts e) : Fac (.op .add :: ts) (.pos e) := fun r h1 h2 => .pos (h r h1 h2)

/-- A list of texts, also with a plus before the first. -/
def Worth' (env : Env) (ts : List (List Tok)) (vs : List ℝ) : Prop :=
  Worth env ts vs ∧ Worth env (ts.map (fun t => .op .add :: t)) vs

theorem Worth'.append {env : Env} {ts us : List (List Tok)} {vs ws : List ℝ} (h : Worth' env ts vs) (h' : Worth' env us ws) :
    Worth' env (ts ++ us) (vs ++ ws) :=
  ⟨h.1.append h'.1, by rw [List.map_append]; exact h.2.append h'.2⟩

/-- The text with a plus before every term. -/
theorem worth'_value {env : Env} {ts : List (List Tok)} {vs : List ℝ} (h : Worth' env ts vs) (hne : ts ≠ []) :
    ∃ e, Full (plusAll true ts) e ∧ e.Has env vs.sum := by
  obtain ⟨⟨es, h1, h2⟩, ⟨fs, h3, h4⟩⟩ := h
  cases ts with
  | nil => exact absurd rfl hne
  | cons t ts =>
    cases h1 with
    | cons h1 h1' =>
      cases h2 with
      | cons h2 h2' =>
        cases h3 with
        | cons h3 h3' =>
          cases h4 with
          | cons h4 h4' =>
            exact ⟨_, by simpa [plusAll, joinPlus] using full_sum h3 h1', by simpa using has_foldl _ _ h2' _ _ h4⟩

theorem worth'_xml {N : Names} {env : Env} {p : String → ℝ} {dv : List Tok → ℝ} {l : List Comp} (hf : Faithful N env p dv l) :
    Worth' env (l.map (xmlToks N false)) (l.map (termVal p dv)) := by
  constructor
  · refine ⟨_, forall₂_map _ (fun c => xmlTailE N c (.var (N.par c.param))) (fun c => ?_) l, has_all l _ _ (fun c hc => ?_)⟩
    · simpa [xmlToks] using term_xml N c (fac_name (N.par c.param))
    · exact has_xmlTail (x := p c.param) (hf.par c hc ▸ E.Has.var) (hf.dat c hc) (hf.lit c hc)
  · rw [List.map_map]
    refine ⟨_, forall₂_map _ (fun c => xmlTailE N c (.pos (.var (N.par c.param)))) (fun c => ?_) l,
      has_all l _ _ (fun c hc => ?_)⟩
    · simpa [xmlToks] using term_xml N c (fac_pos (fac_name (N.par c.param)))
    · exact has_xmlTail (x := p c.param) (.pos (hf.par c hc ▸ E.Has.var)) (hf.dat c hc) (hf.lit c hc)

theorem worth'_xml_exp {N : Names} {env : Env} {p : String → ℝ} {dv : List Tok → ℝ} {l : List Comp} (hf : Faithful N env p dv l)
    (he : env.call "exp" = Real.exp) (hs : ∀ c ∈ l, c.scale = 1) :
    Worth' env (l.map (xmlToks N true)) (l.map (fun c => c.scale * Real.exp (p c.param) * dv c.data)) := by
  have hfac : ∀ c : Comp, Fac [.name "exp", .lp, .name (N.par c.param), .rp] (.call "exp" (.var (N.par c.param))) :=
    fun c => fac_call (ts := [.name (N.par c.param)]) (fac_name _).term.full
  have hcall : ∀ c ∈ l, (E.call "exp" (.var (N.par c.param))).Has env (Real.exp (p c.param)) := by
    intro c hc
    have := E.Has.call (f := "exp") (E.Has.var (env := env) (s := N.par c.param))
    rwa [hf.par c hc, he] at this
  have htok : ∀ c ∈ l, xmlToks N true c = [.name "exp", .lp, .name (N.par c.param), .rp] ++ (xmlScale N c ++ xmlData N c) := by
    intro c hc
    simp [xmlToks, xmlScale, hs c hc]
  constructor
  · rw [List.map_congr_left htok]
    exact ⟨_, forall₂_map _ (fun c => xmlTailE N c (.call "exp" (.var (N.par c.param)))) (fun c => term_xml N c (hfac c)) l,
      has_all l _ _ (fun c hc => has_xmlTail (hcall c hc) (hf.dat c hc) (hf.lit c hc))⟩
  · rw [List.map_map, List.map_congr_left (g := fun c =>
      (.op .add :: [.name "exp", .lp, .name (N.par c.param), .rp]) ++ (xmlScale N c ++ xmlData N c))
      (fun c hc => by simp [htok c hc])]
    exact ⟨_, forall₂_map _ (fun c => xmlTailE N c (.pos (.call "exp" (.var (N.par c.param)))))
      (fun c => term_xml N c (fac_pos (hfac c))) l,
      has_all l _ _ (fun c hc => has_xmlTail (.pos (hcall c hc)) (hf.dat c hc) (hf.lit c hc))⟩

theorem xmlPart_eq (N : Names) (l : List Comp) : xmlPart N l = plusAll true (l.map (xmlToks N false)) := by
  cases l with
  | nil => simp [xmlPart, plusAll]
  | cons c l => simp [xmlPart, xmlFunc, plusAll, joinPlus]

/-- The quantity term of the HTML table. -/
noncomputable def xmlQTerm (N : Names) (f : Formula) : List Tok :=
  quantityHead (f.qscale.map N.par) ++ plusAll true (f.quantity.map (xmlToks N true)) ++ [.rp]

theorem xmlCell_eq (N : Names) (f : Formula) : xmlCell N f =
    plusAll true (f.ca.map (xmlToks N false) ++ f.co.map (xmlToks N false) ++
      (if f.quantity.isEmpty then [] else [xmlQTerm N f])) := by
  unfold xmlCell xmlQuantity
  rw [xmlPart_eq, xmlPart_eq, plusAll_append, plusAll_append]
  simp only [Bool.true_or]
  congr 1
  cases hq : f.quantity with
  | nil => simp [plusAll]
  | cons c l => simp [plusAll, xmlQTerm, xmlFunc, joinPlus, hq]

theorem worth'_log {env : Env} {ts : List Tok} {e : E} {v : ℝ} (q : Option String) (qv : ℝ) (hq : ∀ s, q = some s → env.var s = qv)
    (hq1 : q = none → qv = 1) (h : Full ts e) (hv : e.Has env v) (hl : env.call "log" = Real.log) :
    Worth' env [quantityHead q ++ ts ++ [.rp]] [qv * Real.log v] := by
  refine ⟨worth_log q qv hq hq1 h hv hl, ?_⟩
  have hc : Fac (.name "log" :: .lp :: (ts ++ [.rp])) (.call "log" e) := fac_call h
  have hcv : (E.call "log" e).Has env (Real.log v) := by
    have := E.Has.call (f := "log") hv
    rwa [hl] at this
  cases q with
  | none =>
    refine worth_single (e := .pos (.call "log" e)) ?_ ?_
    · simpa [quantityHead] using (fac_pos hc).term
    · simpa [hq1 rfl] using E.Has.pos hcv
  | some s =>
    refine worth_single (e := .bin .mul (.pos (.var s)) (.call "log" e)) ?_ ?_
    · have := term_prod (fac_pos (fac_name s)) (fs := [.name "log" :: .lp :: (ts ++ [.rp])]) (es := [.call "log" e]) (.cons hc .nil)
      simpa [quantityHead] using this
    · have := E.Has.bin (o := .mul) (E.Has.pos (E.Has.var (env := env) (s := s))) hcv (by simp)
      rw [hq s rfl] at this
      exact this

theorem has_unique {env : Env} {ts : List Tok} {e : E} {v : ℝ} (h : Full ts e) (hv : e.Has env v) : Py.Has env ts v :=
  ⟨e, h.reads, hv⟩

/-- **C116.** A cell of the HTML table of `utility_functions()`, read as a Python expression, also has the value of the
systematic utility, as long as no term of the quantity function has a scale. -/
theorem C116_html_value_partial (N : Names) (env : Env) (p : String → ℝ) (dv : List Tok → ℝ) (f : Formula)
    (hne : f.ca ≠ [] ∨ f.co ≠ [] ∨ f.quantity ≠ [])
    (h1 : Faithful N env p dv f.ca) (h2 : Faithful N env p dv f.co) (h3 : Faithful N env p dv f.quantity)
    (he : env.call "exp" = Real.exp) (hl : env.call "log" = Real.log)
    (hq : ∀ s, f.qscale = some s → env.var (N.par s) = p s) (hs : ∀ c ∈ f.quantity, c.scale = 1) (x : ℝ) :
    Py.Has env (xmlCell N f) x ↔ x = utility p dv f.ca f.co f.quantity f.qscale := by
  have hw : ∃ vs, Worth' env (if f.quantity.isEmpty then [] else [xmlQTerm N f]) vs ∧
      vs.sum = quantityPart p dv f.quantity f.qscale := by
    cases hq0 : f.quantity with
    | nil => exact ⟨[], ⟨⟨[], .nil, .nil⟩, ⟨[], .nil, .nil⟩⟩, by simp [quantityPart]⟩
    | cons c l =>
      have h4 := worth'_xml_exp (hq0 ▸ h3) he (hq0 ▸ hs)
      obtain ⟨e, h5, h6⟩ := worth'_value h4 (by simp)
      have := worth'_log (f.qscale.map N.par) (scaleVal p f.qscale) (fun s hs => by
          cases hqs : f.qscale with
          | none => simp [hqs] at hs
          | some t => simp [hqs] at hs; subst hs; exact hq t hqs) (fun hs => by
          cases hqs : f.qscale with
          | none => rfl
          | some t => simp [hqs] at hs) h5 h6 hl
      exact ⟨_, by simpa only [xmlQTerm, hq0, List.isEmpty_cons, Bool.false_eq_true, if_false] using this,
        by simp [quantityPart, quantityVal]⟩
  obtain ⟨vs, hw, hsum⟩ := hw
  have h := ((worth'_xml h1).append (worth'_xml h2)).append hw
  have hn : f.ca.map (xmlToks N false) ++ f.co.map (xmlToks N false) ++
      (if f.quantity.isEmpty then [] else [xmlQTerm N f]) ≠ [] := by
    intro h
    simp only [List.append_eq_nil_iff, List.map_eq_nil_iff] at h
    rcases hne with hne | hne | hne
    · exact hne h.1.1
    · exact hne h.1.2
    · have h2 := h.2
      cases hq0 : f.quantity with
      | nil => exact hne hq0
      | cons c l => simp [hq0] at h2
  obtain ⟨e, h5, h6⟩ := worth'_value h hn
  rw [xmlCell_eq, value_of_full h5 h6 x]
  simp [utility, funcVal, hsum, add_assoc]

/-! ## A concrete model -/

/-- `utility_ca = P.a * X.t`, `utility_co[1] = P.b * -2.0 * X.u`, `quantity_ca = P.c * X.q`, with a scale parameter. -/
noncomputable def demoFormula : Formula :=
  ⟨[⟨"a", [.name "t"], 1⟩], [⟨"b", [.name "u"], -2⟩], [⟨"c", [.name "q"], 1⟩], some "theta"⟩

noncomputable def demoEnv : Env where
  var s := if s = "P.a" then 3 else if s = "P.b" then 5 else if s = "theta" ∨ s = "P.theta" then 2 else if s = "X.t" then 7
    else if s = "X.q" then 4 else 0
  call f := if f = "exp" then Real.exp else Real.log
  fdiv _ _ := 0
  band _ _ := 0
  bor _ _ := 0
  bxor _ _ := 0
  pow _ _ := 0
  inv _ := 0

noncomputable def demoP (s : String) : ℝ := if s = "a" then 3 else if s = "b" then 5 else if s = "theta" then 2 else 0
noncomputable def demoDv (d : List Tok) : ℝ :=
  match d with
  | [.name s] => if s = "t" then 7 else if s = "q" then 4 else 0
  | _ => 0

theorem demo_faithful : Faithful demoNames demoEnv demoP demoDv demoFormula.ca ∧
    Faithful demoNames demoEnv demoP demoDv demoFormula.co ∧ Faithful demoNames demoEnv demoP demoDv demoFormula.quantity := by
  refine ⟨⟨?_, ?_, ?_⟩, ⟨?_, ?_, ?_⟩, ⟨?_, ?_, ?_⟩⟩ <;> intro c hc <;>
    simp only [demoFormula, List.mem_singleton] at hc <;> subst hc <;>
    simp [demoNames, demoEnv, demoP, demoDv, floatOf]

example (x : ℝ) : Py.Has demoEnv ((rowsOf demoNames demoFormula).flatMap Prod.snd) x ↔
    x = utility demoP demoDv demoFormula.ca demoFormula.co demoFormula.quantity demoFormula.qscale :=
  C116_rows_value demoNames demoEnv demoP demoDv demoFormula (.inl (by simp [demoFormula])) demo_faithful.1 demo_faithful.2.1
    demo_faithful.2.2 rfl (by simp [demoEnv]) (by intro s hs; simp [demoFormula] at hs; subst hs; simp [demoEnv, demoP]) x

example (x : ℝ) : Py.Has demoEnv (xmlCell demoNames demoFormula) x ↔
    x = utility demoP demoDv demoFormula.ca demoFormula.co demoFormula.quantity demoFormula.qscale :=
  C116_html_value_partial demoNames demoEnv demoP demoDv demoFormula (.inl (by simp [demoFormula])) demo_faithful.1
    demo_faithful.2.1 demo_faithful.2.2 rfl (by simp [demoEnv])
    (by intro s hs; simp [demoFormula] at hs; subst hs; simp [demoEnv, demoP, demoNames])
    (by intro c hc; simp [demoFormula] at hc; simp [hc]) x

/-- The value is `3·7 − 2·5·0 + 2·log(exp(0)·4)`. -/
example : utility demoP demoDv demoFormula.ca demoFormula.co demoFormula.quantity demoFormula.qscale = 21 + 2 * Real.log 4 := by
  simp [utility, demoFormula, funcVal, termVal, quantityPart, quantityVal, scaleVal, demoP, demoDv]
  norm_num

example (x : ℝ) : Py.Has demoEnv (funcToks demoNames demoFormula.ca) x ↔ x = 21 := by
  rw [(C115_shows_value demoNames demoEnv demoP demoDv demoFormula.ca (by simp [demoFormula]) demo_faithful.1 x).1]
  simp [funcVal, termVal, demoFormula, demoP, demoDv]
  norm_num

example : (frame demoNames ⟨demoFormula.ca, [(1, demoFormula.co), (2, [])], demoFormula.quantity, none⟩ (some [1, 2, 3])
    (some [2, 3])).map (fun r => r.1) = [(some 2, 1), (some 2, 2), (some 2, 3), (some 2, 4), (some 3, 1), (some 3, 2), (some 3, 3),
      (some 3, 4)] := by
  simp [frame, Spec.alts, inSubset, Spec.formulaAt, Spec.formula, Spec.coOf, rowsOf, putQuantity, putTerms, St.put, St.blank,
    St.close, demoFormula]

/-! ## Where the HTML table is wrong -/

/-- The HTML table writes the scale of a quantity term inside the exponential: `P(c)` with data `X.q` and scale 2 is shown as
`log( + exp(P.c * 2.0) * X.q)`, while `exp(P.c) * 2 * X.q` is computed (and shown by the other table). -/
theorem C116_fails_html_quantity (N : Names) (env : Env) (p : String → ℝ) (dv : List Tok → ℝ) (a d : String)
    (hf : Faithful N env p dv [⟨a, [.name d], 2⟩]) (he : env.call "exp" = Real.exp) (hl : env.call "log" = Real.log)
    (hp : p a = 0) (hd : dv [.name d] = 1) :
    Py.Has env (xmlCell N ⟨[], [], [⟨a, [.name d], 2⟩], none⟩) 0 ∧ utility p dv [] [] [⟨a, [.name d], 2⟩] none = Real.log 2 ∧
    Real.log 2 ≠ 0 := by
  refine ⟨?_, by simp [utility, funcVal, quantityPart, quantityVal, scaleVal, hp, hd], ?_⟩
  · have h20 : ¬ ((2 : ℝ) < 0) := by norm_num
    have h1 := hf.par ⟨a, [.name d], 2⟩ (by simp)
    have h2 := hf.dat ⟨a, [.name d], 2⟩ (by simp)
    have hin : Full [.name (N.par a), .op .mul, .num (N.num 2) 2] (.bin .mul (.var (N.par a)) (numE 2)) := by
      have := (term_prod (fac_name (N.par a)) (fs := [numToks N.num 2]) (es := [numE 2]) (.cons (fac_num _ _) .nil)).full
      simpa [numToks, h20] using this
    have hex := fac_call (f := "exp") hin
    have hpr := term_prod (fac_pos hex) (fs := [[.name (N.dat [.name d])]]) (es := [.var (N.dat [.name d])])
      (.cons (fac_name _) .nil)
    have hlog := (fac_pos (fac_call (f := "log") hpr.full)).term.full
    have htok : xmlCell N ⟨[], [], [⟨a, [.name d], 2⟩], none⟩ =
        .op .add :: .name "log" :: .lp :: (.op .add :: .name "exp" :: .lp :: ([.name (N.par a), .op .mul, .num (N.num 2) 2] ++ [.rp]) ++
          [[Tok.name (N.dat [.name d])]].flatMap (fun u => .op .mul :: u) ++ [.rp]) := by
      simp [xmlCell, xmlPart, xmlQuantity, quantityHead, xmlFunc, joinPlus, xmlToks, xmlScale, xmlData, dataIsOne, floatOf, numToks, h20]
    rw [htok]
    refine has_unique hlog ?_
    have v1 := E.Has.bin (o := .mul) (E.Has.var (env := env) (s := N.par a)) (has_numE env 2) (by simp)
    have v2 := E.Has.pos (E.Has.call (f := "exp") v1)
    have v3 := E.Has.bin (o := .mul) v2 (E.Has.var (env := env) (s := N.dat [.name d])) (by simp)
    have v4 := E.Has.pos (E.Has.call (f := "log") v3)
    have : (0 : ℝ) = env.call "log" (BOp.val env .mul (env.call "exp" (BOp.val env .mul (env.var (N.par a)) 2))
        (env.var (N.dat [.name d]))) := by
      rw [he, hl, h1, h2]
      simp [BOp.val, hp, hd]
    rw [this]
    exact v4
  · exact (Real.log_pos (by norm_num)).ne'

end Larch.Props
