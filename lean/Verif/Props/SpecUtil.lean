import Verif.Model.SpecUtil
import Verif.Lemmas.LinearVal

/-!
# C96: the utility built from a spec file is the one written there
-/

namespace Larch.Props

open Larch.Py Larch.Linear Larch.SpecUtil

variable {fm : Fmt} {env : Env} {p : String → ℝ}

/-- Components and functions. -/
def Lin : Obj → Prop
  | .comp _ => True
  | .func _ => True
  | _ => False

/-- ... and the number zero. -/
def Lin0 : Obj → Prop
  | .num n => n.val = 0
  | .comp _ => True
  | .func _ => True
  | _ => False

theorem Lin.lin0 {o : Obj} (h : Lin o) : Lin0 o := by cases o <;> first | exact h | exact h.elim

theorem lin_compAddComp (c d : Comp) : Lin (compAddComp c d) := by
  unfold compAddComp; split
  · trivial
  · split <;> trivial

theorem lin_funcAddComp (l : List Comp) (d : Comp) : Lin (funcAddComp l d) := by
  unfold funcAddComp; split <;> trivial

theorem lin_add {a b : Obj} (ha : Lin0 a) (hb : Lin b) {x y : ℝ} (hx : Good env p a x) (hy : Good env p b y) :
    ∃ r, add fm a b = .ok r ∧ Lin r ∧ Good env p r (x + y) := by
  cases a with
  | num n =>
    have h0 : n.val = 0 := ha
    have hx0 : x = 0 := by have : x = n.val := hx.1; rw [this, h0]
    subst hx0
    rw [zero_add]
    cases b with
    | comp c => exact ⟨.comp c, by simp [add, dispatch, Obj.kind, addSlot, compAdd, h0, Linear.ok], trivial, hy⟩
    | func l => exact ⟨.func l, by simp [add, dispatch, Obj.kind, addSlot, funcAdd, h0, Linear.ok], trivial, hy⟩
    | _ => exact hb.elim
  | comp c =>
    cases b with
    | comp d => exact ⟨compAddComp c d, by simp [add, dispatch, Obj.kind, addSlot, compAdd, Linear.ok], lin_compAddComp c d, compAddComp_good hx.2 hy.2 hx.1 hy.1⟩
    | func l =>
      exact ⟨.func (c :: l), by simp [add, dispatch, Obj.kind, addSlot, compAdd, Linear.ok], trivial, .cons hx.1 hy.1,
        litOk_cons hx.2 hy.2⟩
    | _ => exact hb.elim
  | func l =>
    cases b with
    | comp d => exact ⟨funcAddComp l d, by simp [add, dispatch, Obj.kind, addSlot, funcAdd, Linear.ok], lin_funcAddComp l d, funcAddComp_good hx.2 hy.2 hx.1 hy.1⟩
    | func m =>
      exact ⟨.func (l ++ m), by simp [add, dispatch, Obj.kind, addSlot, funcAdd, Linear.ok], trivial, func_append hx.1 hy.1,
        litOk_append hx.2 hy.2⟩
    | _ => exact hb.elim
  | _ => exact ha.elim

theorem lin_sum : ∀ (rs : List (Except Exc Obj)) (vs : List ℝ) (acc : Obj) (z : ℝ),
    List.Forall₂ (fun q v => ∃ o, q = .ok o ∧ Lin o ∧ Good env p o v) rs vs → Lin0 acc → Good env p acc z →
    ∃ r, sumObjs fm acc rs = .ok r ∧ Lin0 r ∧ Good env p r (z + vs.sum) := by
  intro rs
  induction rs with
  | nil =>
    intro vs acc z h ha hg
    cases h
    exact ⟨acc, rfl, ha, by simpa using hg⟩
  | cons q rs ih =>
    intro vs acc z h ha hg
    cases h with
    | cons hq hrs =>
      rename_i v vs
      obtain ⟨o, rfl, h1, h2⟩ := hq
      obtain ⟨a', h3, h4, h5⟩ := lin_add (fm := fm) ha h1 hg h2
      obtain ⟨r, h6, h7, h8⟩ := ih vs a' (z + v) hrs h4.lin0 h5
      refine ⟨r, by simp [sumObjs, h3, h6], h7, ?_⟩
      rwa [add_assoc, ← List.sum_cons] at h8

theorem segTest_litOk (seg : String) (v : Num) : LitOk (segTest seg v) := by
  intro t w h
  simp [segTest] at h

theorem segTest_isBool (seg : String) (v : Num) : isBool (segTest seg v) = false := by
  simp [segTest, isBool]

theorem segTest_isOne (seg : String) (v : Num) : isOne (segTest seg v) = false := by
  simp [segTest, isOne, isTxt]

theorem segTest_mulOk (d : List Tok) (seg : String) (v : Num) : MulOk env d (segTest seg v) := by
  intro r h
  exfalso
  have hb : boolmatch (segTest seg v) = none := by unfold boolmatch; rw [segTest_isBool]; simp
  unfold shortcut at h
  split at h
  · rename_i hh
    rw [hh.1, segTest_isBool] at hh
    simp at hh
  · rw [hb] at h
    cases hd : boolmatch d <;> simp [hd] at h

open Classical in
/-- The segment test evaluates to 1 when the segment variable has the identifier's value, otherwise to 0. -/
theorem segTest_has (seg : String) (v : Num) : Py.Has env (segTest seg v) (if env.var seg = v.val then 1 else 0) := by
  have h1 : Rd (.bin 1) (segTest seg v) (.var seg) (.eqeq :: v.toks) := by
    refine Rd.toBin (Rd.toUn (.var ?_) ?_) _ 1 rfl (by omega) ?_
    all_goals simp [hd_cons, Tok.isLp, Tok.isPow, Tok.isOpAt]
  by_cases hn : v.neg = true
  · have e : v.toks = [.op .sub, .num v.txt v.abs] := by simp [Num.toks, hn]
    have hv : v.val = -v.abs := by simp [Num.val, hn]
    rw [e] at h1
    refine ⟨.eq (.var seg) (.neg (.lit v.abs)), .cmp1 h1 ?_ hd_nil, ?_⟩
    · exact Rd.toBin (.neg (Rd.toUn .num hd_nil)) _ 1 rfl (by omega) (fun _ _ _ => hd_nil)
    · rw [hv]
      exact .eq .var (.neg .lit)
  · have e : v.toks = [.num v.txt v.abs] := by simp [Num.toks, hn]
    have hv : v.val = v.abs := by simp [Num.val, hn]
    rw [e] at h1
    refine ⟨.eq (.var seg) (.lit v.abs), .cmp1 h1 ?_ hd_nil, ?_⟩
    · exact Rd.toBin (Rd.toUn .num hd_nil) _ 1 rfl (by omega) (fun _ _ _ => hd_nil)
    · rw [hv]
      exact .eq .var .lit

theorem mulEach_dat (l : List Comp) (d : List Tok) :
    mulEach l (fun c => Linear.ok (.comp (compMulDat fm c d))) = Linear.ok (.func (l.map (fun c => compMulDat fm c d))) := by
  induction l with
  | nil => rfl
  | cons c cs ih =>
    unfold mulEach
    rw [ih]
    rfl

/-- A sum of terms times a test that is not a simplifiable boolean. -/
theorem lin_mul {a : Obj} (ha : Lin0 a) {d : List Tok} (hd : LitOk d) (h1 : isOne d = false) (hm : ∀ e, MulOk env e d) {x y : ℝ}
    (hx : Good env p a x) (hy : Py.Has env d y) : ∃ r, mul fm a (.dat d) = .ok r ∧ Lin r ∧ Good env p r (x * y) := by
  cases a with
  | num n =>
    have h0 : n.val = 0 := ha
    have hx0 : x = 0 := by have : x = n.val := hx.1; rw [this, h0]
    subst hx0
    obtain ⟨h2, h3⟩ := dmul_one_has (fm := fm) hd hy
    refine ⟨.comp ⟨"_", dmul fm one d, 0⟩, ?_, trivial, ⟨y, h2, by simp⟩, h3⟩
    simp [mul, dispatch, Obj.kind, mulSlot, datMul, h0, h1, Linear.ok]
  | comp c =>
    refine ⟨.comp (compMulDat fm c d), ?_, trivial, compMulDat_val (fm := fm) hx.2 hd (hm _) hx.1 hy⟩
    simp [mul, dispatch, Obj.kind, mulSlot, compMul, Linear.ok]
  | func l =>
    have e : mul fm (.func l) (.dat d) = .ok (.func (l.map (fun c => compMulDat fm c d))) := by
      simp only [mul, dispatch, Obj.kind, mulSlot, funcMul]
      rw [mulEach_dat]
      rfl
    refine ⟨_, e, trivial, ?_⟩
    rw [mul_comm]
    refine func_map_good _ (fun c hc v hv => ?_) (fun c hc => dmul_litOk (hx.2 c hc) hd) hx.1
    rw [mul_comm]
    exact compMulDat_val (hx.2 c hc) hd (hm _) hv hy
  | _ => exact ha.elim

/-- What a spec row says: the coefficient times the value of its expression, if it has one and is not ignored. -/
noncomputable def rowTerm (p : String → ℝ) (ignore : List Tok → Bool) (col : String) (r : SpecRow) (x : ℝ) : ℝ :=
  match r.coef col with
  | none => 0
  | some c => if ignore r.x = true then 0 else p c * x

/-- The utility a column of the spec describes, given the values of the expressions of its rows. -/
noncomputable def colUtility (p : String → ℝ) (ignore : List Tok → Bool) (col : String) (rows : List SpecRow) (xs : List ℝ) : ℝ :=
  (List.zipWith (rowTerm p ignore col) rows xs).sum

/-- The rows and the values of their expressions: each expression is Python arithmetic with that value, in the data of a case
(and alternative). -/
def RowsHave (env : Env) (rows : List SpecRow) (xs : List ℝ) : Prop :=
  List.Forall₂ (fun r x => LitOk r.x ∧ Py.Has env r.x x) rows xs

theorem terms_vals (ignore : List Tok → Bool) (col : String) {rows : List SpecRow} {xs : List ℝ} (h : RowsHave env rows xs) :
    ∃ vs, List.Forall₂ (fun q v => ∃ o, q = .ok o ∧ Lin o ∧ Good env p o v) (terms fm ignore col rows) vs ∧
      vs.sum = colUtility p ignore col rows xs := by
  induction h with
  | nil => exact ⟨[], .nil, by simp [colUtility]⟩
  | @cons r x rows xs h1 _ ih =>
    obtain ⟨vs, h2, h3⟩ := ih
    have e : colUtility p ignore col (r :: rows) (x :: xs) = rowTerm p ignore col r x + colUtility p ignore col rows xs := by
      simp [colUtility]
    by_cases hi : ignore r.x = true
    · refine ⟨vs, by simpa [terms, hi] using h2, ?_⟩
      rw [e, h3, rowTerm]
      cases r.coef col <;> simp [hi]
    · cases hc : r.coef col with
      | none =>
        refine ⟨vs, by simpa [terms, hi, hc] using h2, ?_⟩
        rw [e, h3, rowTerm, hc, zero_add]
      | some c =>
        refine ⟨p c * x :: vs, ?_, ?_⟩
        · have ht : terms fm ignore col (r :: rows) = mul fm (.par c) (.dat r.x) :: terms fm ignore col rows := by
            simp [terms, hi, hc]
          rw [ht]
          refine .cons ⟨.comp ⟨c, r.x, 1⟩, ?_, trivial, ⟨x, h1.2, by simp⟩, h1.1⟩ h2
          simp [mul, dispatch, Obj.kind, mulSlot, parMul, Linear.ok]
        · rw [List.sum_cons, e, h3, rowTerm, hc]
          simp [hi]

theorem zero_good : Good env p (.num zeroNum) 0 := ⟨by simp [Obj.Has, zeroNum, Num.val], trivial⟩

theorem utility_good (ignore : List Tok → Bool) (col : String) {rows : List SpecRow} {xs : List ℝ} (h : RowsHave env rows xs) :
    ∃ u, utility fm ignore col rows = .ok u ∧ Lin0 u ∧ Good env p u (colUtility p ignore col rows xs) := by
  obtain ⟨vs, h1, h2⟩ := terms_vals (fm := fm) (p := p) ignore col h
  obtain ⟨r, h3, h4, h5⟩ := lin_sum (fm := fm) _ vs (.num zeroNum) 0 h1 (by simp [Lin0, zeroNum, Num.val]) zero_good
  rw [zero_add, h2] at h5
  exact ⟨r, h3, h4, h5⟩

/-- A sum of terms can be assigned as a utility function, which then has the same value. -/
theorem toFunc_good {o : Obj} (h : Lin0 o) {z : ℝ} (hz : Good env p o z) : ∃ l, toFunc o = some l ∧ FuncHas env p l z := by
  cases o with
  | num n =>
    have h0 : n.val = 0 := h
    have : z = n.val := hz.1
    rw [this, h0]
    exact ⟨[], by simp [toFunc, h0], .nil⟩
  | comp c => exact ⟨[c], rfl, func_single hz.1⟩
  | func l => exact ⟨l, rfl, hz.1⟩
  | _ => exact h.elim

/-- **C96 (one column).** For every spec, column and set of ignored labels, building the utility does not raise, the result can be
assigned to a model's utility, and its value, for any parameter values, is the sum over the rows with a coefficient and a label not
ignored, of the parameter times the expression of the row. -/
theorem C96_value (fm : Fmt) (env : Env) (p : String → ℝ) (ignore : List Tok → Bool) (col : String) (rows : List SpecRow)
    (xs : List ℝ) (h : RowsHave env rows xs) :
    ∃ u l, utility fm ignore col rows = .ok u ∧ toFunc u = some l ∧ FuncHas env p l (colUtility p ignore col rows xs) := by
  obtain ⟨u, h1, h2, h3⟩ := utility_good (fm := fm) (p := p) ignore col h
  obtain ⟨l, h4, h5⟩ := toFunc_good h2 h3
  exact ⟨u, l, h1, h4, h5⟩

open Classical in
/-- **C96 (segments).** With a dictionary of columns: the value is the sum, over the columns whose identifier equals the value of the
segment variable, of the utility of the column. -/
theorem C96_segments (fm : Fmt) (env : Env) (p : String → ℝ) (ignore : List Tok → Bool) (rows : List SpecRow)
    (cols : List (String × Num)) (seg : String) (xs : List ℝ) (h : RowsHave env rows xs) :
    ∃ u l, segUtility fm ignore rows cols (some seg) = some (.ok u) ∧ toFunc u = some l ∧
      FuncHas env p l
        ((cols.filter (fun c => decide (env.var seg = c.2.val))).map (fun c => colUtility p ignore c.1 rows xs)).sum := by
  have key : ∀ cols : List (String × Num), ∃ vs,
      List.Forall₂ (fun q v => ∃ o, q = .ok o ∧ Lin o ∧ Good env p o v) (cols.map (segPart fm ignore rows seg)) vs ∧
      vs.sum = ((cols.filter (fun c => decide (env.var seg = c.2.val))).map (fun c => colUtility p ignore c.1 rows xs)).sum := by
    intro cols
    induction cols with
    | nil => exact ⟨[], .nil, by simp⟩
    | cons c cols ih =>
      obtain ⟨vs, h1, h2⟩ := ih
      obtain ⟨u, h3, h4, h5⟩ := utility_good (fm := fm) (p := p) ignore c.1 h
      obtain ⟨r, h6, h7, h8⟩ := lin_mul (fm := fm) h4 (segTest_litOk seg c.2) (segTest_isOne seg c.2)
        (fun e => segTest_mulOk e seg c.2) h5 (segTest_has seg c.2)
      refine ⟨_ :: vs, .cons ⟨r, by simp [segPart, h3, h6], h7, h8⟩ h1, ?_⟩
      rw [List.sum_cons, h2]
      by_cases hv : env.var seg = c.2.val
      · rw [List.filter_cons_of_pos (by simpa using hv)]
        simp [hv]
      · rw [List.filter_cons_of_neg (by simpa using hv)]
        simp [hv]
  obtain ⟨vs, h1, h2⟩ := key cols
  obtain ⟨r, h3, h4, h5⟩ := lin_sum (fm := fm) _ vs (.num zeroNum) 0 h1 (by simp [Lin0, zeroNum, Num.val]) zero_good
  rw [zero_add, h2] at h5
  obtain ⟨l, h6, h7⟩ := toFunc_good h4 h5
  exact ⟨r, l, by simp [segUtility, h3], h6, h7⟩

/-- **C96 (the case's own segment).** When the identifiers are different numbers, a case in the segment of one of the columns gets
exactly the utility of that column, and a case in no listed segment gets zero. -/
theorem C96_own_segment (fm : Fmt) (env : Env) (p : String → ℝ) (ignore : List Tok → Bool) (rows : List SpecRow)
    (cols : List (String × Num)) (hd : (cols.map (fun c => c.2.val)).Nodup) (seg : String) (xs : List ℝ)
    (h : RowsHave env rows xs) :
    ∃ u l z, segUtility fm ignore rows cols (some seg) = some (.ok u) ∧ toFunc u = some l ∧ FuncHas env p l z ∧
      (∀ c ∈ cols, env.var seg = c.2.val → z = colUtility p ignore c.1 rows xs) ∧
      ((∀ c ∈ cols, env.var seg ≠ c.2.val) → z = 0) := by
  classical
  obtain ⟨u, l, h1, h2, h3⟩ := C96_segments fm env p ignore rows cols seg xs h
  refine ⟨u, l, _, h1, h2, h3, ?_, ?_⟩
  · intro c hc hv
    have : cols.filter (fun c => decide (env.var seg = c.2.val)) = [c] := by
      clear h1 h2 h3
      induction cols with
      | nil => cases hc
      | cons d cols ih =>
        rw [List.map_cons, List.nodup_cons] at hd
        rcases List.mem_cons.1 hc with rfl | hc'
        · rw [List.filter_cons_of_pos (by simpa using hv)]
          congr 1
          rw [List.filter_eq_nil_iff]
          intro e he
          simp only [decide_eq_true_eq]
          intro hh
          exact hd.1 (List.mem_map.2 ⟨e, he, by rw [← hh, hv]⟩)
        · rw [List.filter_cons_of_neg]
          · exact ih hd.2 hc'
          · simp only [decide_eq_true_eq]
            intro hh
            exact hd.1 (List.mem_map.2 ⟨c, hc', by rw [← hv, hh]⟩)
    rw [this]
    simp
  · intro hn
    have : cols.filter (fun c => decide (env.var seg = c.2.val)) = [] := by
      rw [List.filter_eq_nil_iff]
      intro e he
      simpa using hn e he
    rw [this]
    simp

/-- **C96 (segment variable).** A dictionary of columns without a segment variable is refused. -/
theorem C96_no_segment (fm : Fmt) (ignore : List Tok → Bool) (rows : List SpecRow) (cols : List (String × Num)) :
    segUtility fm ignore rows cols none = none := rfl

theorem setKey_get {α : Type} (d : List (Int × α)) (k : Int) (v : α) (j : Int) :
    ((setKey d k v).find? (fun e => e.1 = j)).map Prod.snd = if j = k then some v else (d.find? (fun e => e.1 = j)).map Prod.snd := by
  unfold setKey
  by_cases hk : k ∈ d.map Prod.fst
  · rw [if_pos hk]
    induction d with
    | nil => simp at hk
    | cons e d ih =>
      by_cases he : e.1 = k
      · by_cases hj : j = k
        · simp [he, hj]
        · have hkj : ¬ k = j := fun h => hj h.symm
          have hmap : (d.map (fun e => if e.1 = k then (k, v) else e)).find? (fun e => decide (e.1 = j)) = d.find? (fun e => decide (e.1 = j)) := by
            clear hk ih
            induction d with
            | nil => rfl
            | cons f d ih2 =>
              by_cases hf : f.1 = k
              · have h3 : ¬ f.1 = j := fun h => hkj (hf.symm.trans h)
                simp only [List.map_cons, hf, if_true, List.find?_cons]
                simp only [hkj, decide_false]
                exact ih2
              · simp only [List.map_cons, hf, if_false, List.find?_cons]
                rw [ih2]
          have h4 : ¬ e.1 = j := fun h => hkj (he.symm.trans h)
          simp only [List.map_cons, he, if_true, List.find?_cons, hkj, decide_false, if_neg hj]
          rw [hmap]
      · have hkd : k ∈ d.map Prod.fst := by
          simp only [List.map_cons, List.mem_cons] at hk
          rcases hk with hk | hk
          · exact absurd hk.symm he
          · exact hk
        simp only [List.map_cons, if_neg he, List.find?_cons]
        by_cases hej : e.1 = j
        · have : ¬ j = k := fun h => he (hej.trans h)
          simp [hej, this]
        · simp only [hej, decide_false]
          exact ih hkd
  · rw [if_neg hk, List.find?_append]
    by_cases hj : j = k
    · subst hj
      have : d.find? (fun e => decide (e.1 = j)) = none := by
        rw [List.find?_eq_none]
        intro e he
        simp only [decide_eq_true_eq]
        intro h
        exact hk (List.mem_map.2 ⟨e, he, h⟩)
      simp [this]
    · have : ¬ k = j := fun h => hj h.symm
      simp [hj, this]

/-- **C96 (per alternative).** The dictionary of utilities has exactly the given codes, and for each code the utility of the last
column given for it. -/
theorem C96_alternatives (fm : Fmt) (ignore : List Tok → Bool) (rows : List SpecRow) (cols : List (String × Int)) (k : Int) :
    ((dictUtility fm ignore rows cols).find? (fun e => e.1 = k)).map Prod.snd =
      (cols.reverse.find? (fun c => c.2 = k)).map (fun c => utility fm ignore c.1 rows) := by
  have key : ∀ (cols : List (String × Int)) (d : List (Int × Except Exc Obj)),
      ((cols.foldl (fun d c => setKey d c.2 (utility fm ignore c.1 rows)) d).find? (fun e => e.1 = k)).map Prod.snd =
        ((cols.reverse.find? (fun c => c.2 = k)).map (fun c => utility fm ignore c.1 rows)).or
          ((d.find? (fun e => e.1 = k)).map Prod.snd) := by
    intro cols
    induction cols with
    | nil => intro d; simp
    | cons c cols ih =>
      intro d
      rw [List.foldl_cons, ih, setKey_get, List.reverse_cons, List.find?_append]
      cases hf : cols.reverse.find? (fun c => decide (c.2 = k)) with
      | some e => simp
      | none =>
        by_cases hk : c.2 = k
        · simp [hk]
        · have : ¬ k = c.2 := fun h => hk h.symm
          simp [hk, this]
  unfold dictUtility
  rw [key]
  cases (cols.reverse.find? (fun c => decide (c.2 = k))).map (fun c => utility fm ignore c.1 rows) <;> simp

/-- A spec with two rows and two columns, the first of which has no coefficients. -/
def demoSpec : List SpecRow :=
  [⟨[.name "dist"], fun c => if c = "work" then some "b_dist" else none⟩,
   ⟨[.name "time", .op .mul, .name "cost"], fun c => if c = "work" then some "b_tc" else none⟩]

/-- **C96 violated (placeholder).** A column without coefficients in front of one with several: the utility gets a term whose
parameter is the placeholder `_`, which is not in the spec (its factor is 0). -/
theorem C96_fails_placeholder (fm : Fmt) :
    ∃ d l, segUtility fm (fun _ => false) demoSpec [("school", ⟨false, "1", 1⟩), ("work", ⟨false, "2", 2⟩)] (some "segment") =
      some (.ok (.func (⟨"_", d, 0⟩ :: l))) ∧ ∀ r ∈ demoSpec, ∀ c, r.coef c ≠ some "_" := by
  have hu1 : utility fm (fun _ => false) "school" demoSpec = .ok (.num zeroNum) := by
    simp [utility, terms, demoSpec, sumObjs]
  have hz : zeroNum.val = 0 := by simp [zeroNum, Num.val]
  have hu2 : utility fm (fun _ => false) "work" demoSpec =
      .ok (.func [⟨"b_dist", [.name "dist"], 1⟩, ⟨"b_tc", [.name "time", .op .mul, .name "cost"], 1⟩]) := by
    simp [utility, terms, demoSpec, sumObjs, mul, dispatch, Obj.kind, mulSlot, parMul, add, addSlot, compAdd, Linear.ok, hz,
      compAddComp, isZero, isTxt]
  have e : ∀ v, mul fm (.num zeroNum) (.dat (segTest "segment" v)) = .ok (.comp ⟨"_", dmul fm one (segTest "segment" v), 0⟩) := by
    intro v
    simp [mul, dispatch, Obj.kind, mulSlot, datMul, hz, segTest_isOne, Linear.ok]
  have e2 : ∀ l v, mul fm (.func l) (.dat (segTest "segment" v)) =
      .ok (.func (l.map (fun c => compMulDat fm c (segTest "segment" v)))) := by
    intro l v
    simp only [mul, dispatch, Obj.kind, mulSlot, funcMul]
    rw [mulEach_dat]
    rfl
  have e3 : ∀ c, add fm (.num zeroNum) (.comp c) = .ok (.comp c) := by
    intro c
    simp [add, dispatch, Obj.kind, addSlot, compAdd, hz, Linear.ok]
  have e4 : ∀ c l, add fm (.comp c) (.func l) = .ok (.func (c :: l)) := by
    intro c l
    simp [add, dispatch, Obj.kind, addSlot, compAdd, Linear.ok]
  refine ⟨dmul fm one (segTest "segment" ⟨false, "1", 1⟩), ([⟨"b_dist", [.name "dist"], 1⟩,
    ⟨"b_tc", [.name "time", .op .mul, .name "cost"], 1⟩] : List Comp).map (fun c => compMulDat fm c (segTest "segment" ⟨false, "2", 2⟩)), ?_, ?_⟩
  · simp only [segUtility, List.map_cons, List.map_nil, segPart, hu1, hu2, e, e2, sumObjs, e3, e4]
  · intro r hr c
    simp only [demoSpec, List.mem_cons, List.not_mem_nil, or_false] at hr
    rcases hr with rfl | rfl <;> by_cases hc : c = "work" <;> simp [hc]

example : RowsHave ⟨fun s => if s = "dist" then 3 else 2, fun _ x => x, fun x _ => x, fun x _ => x, fun x _ => x, fun x _ => x, fun x _ => x, fun x => x⟩
    [⟨[.name "dist"], fun _ => some "b"⟩] [3] := by
  refine .cons ⟨?_, .var "dist", ?_, ?_⟩ .nil
  · intro t v h; simp at h
  · exact .cmp0 (Rd.toBin (Rd.toUn (.var hd_nil) hd_nil) _ 1 rfl (by omega) (fun _ _ _ => hd_nil)) hd_nil
  · have := @E.Has.var ⟨fun s => if s = "dist" then 3 else 2, fun _ x => x, fun x _ => x, fun x _ => x, fun x _ => x, fun x _ => x, fun x _ => x, fun x => x⟩ "dist"
    simpa using this

end Larch.Props
