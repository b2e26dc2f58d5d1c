import Verif.Spec.Columnize

/-!
# C169: data expressions mean what is written
-/

namespace Larch.Props

open Larch.Columnize Larch.ColumnizeSpec

variable {V : Type}

theorem cz_append (F : Frame) (a b : List Tok) : rewrite F (a ++ b) = rewrite F a ++ rewrite F b := by simp [rewrite]

theorem cz_op (F : Frame) (o : String) : rewrite F [.op o] = [.op o] := rfl

theorem cz_name (F : Frame) (n : String) (h : ¬ Frame.has F n) : rewrite F [.name n] = [.name n] := by
  unfold Frame.has at h
  push Not at h
  simp [rewrite, rewriteTok, h.1, h.2]

theorem cz_up (G : Grammar) (ts : List Tok) (e : Expr) : ∀ k, Parses G (.expr k) ts e → Parses G (.expr 0) ts e
  | 0, h => h
  | k + 1, h => cz_up G ts e k (Parses.up h)

/-- C169: what is evaluated after rewriting the tokens of an expression is the expression with each name of a column or level replaced, at the same place
in the same structure, whatever operators stand around it. -/
theorem C169_rewrite (G : Grammar) (F : Frame) (c : Cat) (ts : List Tok) (e : Expr) (h : Parses G c ts e) (hl : ∀ s ∈ labels e, ¬ Frame.has F s) :
    Parses G c (rewrite F ts) (subst F e) := by
  induction h with
  | name s =>
    unfold subst rewrite
    simp only [List.flatMap_singleton, rewriteTok]
    split_ifs with h1 h2
    · exact Parses.index (us := [.str s]) (Parses.name "df") (cz_up G _ _ _ (Parses.str s))
    · refine Parses.attr (ts := [.name "df", .op ".", .name "index", .op ".", .name "get_level_values", .op "(", .str s, .op ")"]) ?_
      refine Parses.call (ts := [.name "df", .op ".", .name "index", .op ".", .name "get_level_values"]) (us := [.str s]) ?_ ?_
      · exact Parses.attr (ts := [.name "df", .op ".", .name "index"]) (Parses.attr (Parses.name "df"))
      · exact Parses.lastArg (cz_up G _ _ _ (Parses.str s))
    · exact Parses.name s
  | str s => exact Parses.str s
  | num s => exact Parses.num s
  | paren _ ih =>
    rw [cz_append, cz_append, cz_op, cz_op]
    exact Parses.paren (ih hl)
  | @attr ts e s _ ih =>
    have hs : ¬ Frame.has F s := hl s (by simp [labels])
    rw [cz_append, show ([.op ".", .name s] : List Tok) = [.op "."] ++ [.name s] from rfl, cz_append, cz_op, cz_name F s hs]
    exact Parses.attr (ih (fun t ht => hl t (by simp [labels, ht])))
  | index _ _ ih1 ih2 =>
    rw [cz_append, cz_append, cz_append, cz_op, cz_op]
    exact Parses.index (ih1 (fun t ht => hl t (by simp [labels, ht]))) (ih2 (fun t ht => hl t (by simp [labels, ht])))
  | call _ _ ih1 ih2 =>
    rw [cz_append, cz_append, cz_append, cz_op, cz_op]
    exact Parses.call (ih1 (fun t ht => hl t (by simp [labels, ht]))) (ih2 (fun t ht => hl t (by simp [labels, ht])))
  | noArgs => exact Parses.noArgs
  | lastArg _ ih => exact Parses.lastArg (ih (fun t ht => hl t (by simp [labels, ht])))
  | arg _ _ ih1 ih2 =>
    rw [cz_append, cz_append, cz_op]
    exact Parses.arg (ih1 (fun t ht => hl t (by simp [labels, ht]))) (ih2 (fun t ht => hl t (by simp [labels, ht])))
  | @lastKwarg ts e s _ ih =>
    have hs : ¬ Frame.has F s := hl s (by simp [labels])
    rw [cz_append, show ([.name s, .op "="] : List Tok) = [.name s] ++ [.op "="] from rfl, cz_append, cz_op, cz_name F s hs]
    exact Parses.lastKwarg (ih (fun t ht => hl t (by simp [labels, ht])))
  | @kwarg ts us e rest s _ _ ih1 ih2 =>
    have hs : ¬ Frame.has F s := hl s (by simp [labels])
    rw [cz_append, cz_append, cz_append, show ([.name s, .op "="] : List Tok) = [.name s] ++ [.op "="] from rfl, cz_append, cz_op, cz_op, cz_name F s hs]
    exact Parses.kwarg (ih1 (fun t ht => hl t (by simp [labels, ht]))) (ih2 (fun t ht => hl t (by simp [labels, ht])))
  | un h _ ih =>
    rw [cz_append, cz_op]
    exact Parses.un h (ih hl)
  | bin h _ _ ih1 ih2 =>
    rw [cz_append, cz_append, cz_op]
    exact Parses.bin h (ih1 (fun t ht => hl t (by simp [labels, ht]))) (ih2 (fun t ht => hl t (by simp [labels, ht])))
  | up _ ih => exact Parses.up (ih hl)

theorem cz_ev (S : Sem V) (F : Frame) (df : V) (col level : String → V) (D : Data S F df col level) (e : Expr) (hc : Clean F e) :
    ev S (scope S df) (subst F e) = meaning S F col level e := by
  unfold meaning
  induction e with
  | name n =>
    unfold subst
    have hn := hc n (by simp [vars])
    split_ifs with h1 h2
    · have hs : scope S df "df" = .ok df := by simp [scope]
      simp only [ev, hs, lookup, if_pos h1, Except.bind]
      exact D.cols n h1
    · obtain ⟨ix, g, l, e1, e2, e3, e4⟩ := D.levels n h2
      have hs : scope S df "df" = .ok df := by simp [scope]
      simp only [ev, hs, lookup, if_neg h1, if_pos h2, Except.bind, e1, e2, e3, e4]
    · have h3 : n ∉ internals ∧ n ≠ "df" := by
        rcases hn with h | h
        · unfold Frame.has at h; tauto
        · exact h
      simp only [ev, scope, lookup, if_neg h1, if_neg h2, if_neg h3.1, if_neg h3.2]
  | str s => rfl
  | num s => rfl
  | attr e s ih => simp only [subst, ev]; rw [ih (fun n hn => hc n (by simp [vars, hn]))]
  | index e i ih1 ih2 => simp only [subst, ev]; rw [ih1 (fun n hn => hc n (by simp [vars, hn])), ih2 (fun n hn => hc n (by simp [vars, hn]))]
  | call e i ih1 ih2 => simp only [subst, ev]; rw [ih1 (fun n hn => hc n (by simp [vars, hn])), ih2 (fun n hn => hc n (by simp [vars, hn]))]
  | noArgs => rfl
  | arg e i ih1 ih2 => simp only [subst, ev]; rw [ih1 (fun n hn => hc n (by simp [vars, hn])), ih2 (fun n hn => hc n (by simp [vars, hn]))]
  | kwarg s e i ih1 ih2 => simp only [subst, ev]; rw [ih1 (fun n hn => hc n (by simp [vars, hn])), ih2 (fun n hn => hc n (by simp [vars, hn]))]
  | un o e ih => simp only [subst, ev]; rw [ih (fun n hn => hc n (by simp [vars, hn]))]
  | bin o e i ih1 ih2 => simp only [subst, ev]; rw [ih1 (fun n hn => hc n (by simp [vars, hn])), ih2 (fun n hn => hc n (by simp [vars, hn]))]

/-- C169: the value of an expression is that which it has when each name stands for the column, the level or the function it names, made a series. -/
theorem C169_meaning (S : Sem V) (F : Frame) (df : V) (col level : String → V) (D : Data S F df col level) (text : String) (e : Expr) (hc : Clean F e) (ht : text ∉ F.cols) :
    columnize S F df text (some (subst F e)) = (meaning S F col level e).bind (fun v => .ok (S.series F v)) := by
  unfold columnize
  simp only [if_neg ht]
  rw [cz_ev S F df col level D e hc]

/-- C169: a column of exactly the name given is returned unchanged. -/
theorem C169_natural (S : Sem V) (F : Frame) (df : V) (col level : String → V) (D : Data S F df col level) (text : String) (p : Option Expr) (ht : text ∈ F.cols) :
    columnize S F df text p = .ok (col text) := by
  unfold columnize
  rw [if_pos ht]
  exact D.cols text ht

/-- C169: an expression with a name that is nowhere known raises when it gets there. -/
theorem C169_unknown (S : Sem V) (F : Frame) (df : V) (col level : String → V) (D : Data S F df col level) (n : String) (h1 : ¬ Frame.has F n) (h2 : n ∉ functions)
    (h3 : n ∉ internals) (h4 : n ≠ "df") : columnize S F df n (some (subst F (.name n))) = .error .name := by
  have hc : Clean F (.name n) := by
    intro m hm
    simp only [vars, List.mem_singleton] at hm
    subst hm
    exact Or.inr ⟨h3, h4⟩
  unfold Frame.has at h1
  push Not at h1
  rw [C169_meaning S F df col level D n _ hc h1.1]
  simp [meaning, ev, lookup, h1.1, h1.2, h2, Except.bind]

theorem cz_bind1 {x x' : Except Err V} {f : V → Except Err V} {v : V} (hx : ∀ w, x' = .ok w → x = .ok w ∨ x = .error .name) (hb : x'.bind f = .ok v) :
    x.bind f = .ok v ∨ x.bind f = .error .name := by
  cases x' with
  | error e => simp [Except.bind] at hb
  | ok w =>
    rcases hx w rfl with h | h
    · rw [h]; exact Or.inl hb
    · rw [h]; exact Or.inr rfl

theorem cz_bind2 {x x' y y' : Except Err V} {f : V → V → Except Err V} {v : V} (hx : ∀ w, x' = .ok w → x = .ok w ∨ x = .error .name)
    (hy : ∀ w, y' = .ok w → y = .ok w ∨ y = .error .name) (hb : x'.bind (fun a => y'.bind (fun b => f a b)) = .ok v) :
    x.bind (fun a => y.bind (fun b => f a b)) = .ok v ∨ x.bind (fun a => y.bind (fun b => f a b)) = .error .name := by
  cases x' with
  | error e => simp [Except.bind] at hb
  | ok w =>
    cases y' with
    | error e => simp [Except.bind] at hb
    | ok u =>
      rcases hx w rfl with h | h
      · rcases hy u rfl with h' | h'
        · rw [h, h']; exact Or.inl hb
        · rw [h, h']; exact Or.inr rfl
      · rw [h]; exact Or.inr rfl

/-- Two lookups, the second knowing more. -/
theorem cz_more (S : Sem V) (env env' : String → Except Err V) (h : ∀ n, env n = env' n ∨ env n = .error .name) (e : Expr) (v : V) (hv : ev S env' e = .ok v) :
    ev S env e = .ok v ∨ ev S env e = .error .name := by
  induction e generalizing v with
  | name n =>
    simp only [ev] at hv ⊢
    rcases h n with h | h
    · rw [h]; exact Or.inl hv
    · exact Or.inr h
  | str s => exact Or.inl hv
  | num s => exact Or.inl hv
  | attr e s ih => exact cz_bind1 ih hv
  | noArgs => exact Or.inl hv
  | un o e ih => exact cz_bind1 ih hv
  | index a b ih1 ih2 => exact cz_bind2 ih1 ih2 hv
  | call a b ih1 ih2 => exact cz_bind2 ih1 ih2 hv
  | arg a b ih1 ih2 => exact cz_bind2 ih1 ih2 hv
  | kwarg s a b ih1 ih2 => exact cz_bind2 ih1 ih2 hv
  | bin o a b ih1 ih2 => exact cz_bind2 ih1 ih2 hv

/-- The frame with the columns of the other joined. -/
def joined (F : Frame) (B : List String) : Frame := ⟨F.cols ++ B, F.levels⟩

/-- C169: with a second frame behind the first, an expression that has a value when the names of both are known gets that value. -/
theorem C169_backing (S : Sem V) (F : Frame) (B : List String) (df df2 : V) (col level : String → V) (D : Data S F df col level) (D2 : Data S (joined F B) df2 col level)
    (hB : ∀ n ∈ B, n ∉ F.levels ∧ n ∉ functions) (hser : S.series (joined F B) = S.series F) (text : String) (e : Expr) (hc : Clean F e)
    (ht : text ∈ F.cols ++ B → e = .name text) (v : V) (hv : meaning S (joined F B) col level e = .ok v) :
    backed (columnize S F df text (some (subst F e))) (columnize S (joined F B) df2 text (some (subst (joined F B) e))) = .ok (S.series F v) := by
  have hc2 : Clean (joined F B) e := by
    intro n hn
    rcases hc n hn with h | h
    · left
      unfold Frame.has at h ⊢
      simp only [joined, List.mem_append]
      tauto
    · exact Or.inr h
  have hnat : ∀ n, n ∈ F.cols ++ B → e = .name n → v = col n ∧ S.series F (col n) = col n := by
    intro n hn he
    subst he
    have hl : lookup S (joined F B) col level n = .ok (col n) := if_pos hn
    simp only [meaning, ev, hl, Except.ok.injEq] at hv
    exact ⟨hv.symm, by rw [← hser]; exact D2.series n hn⟩
  have second : columnize S (joined F B) df2 text (some (subst (joined F B) e)) = .ok (S.series F v) := by
    by_cases hin : text ∈ F.cols ++ B
    · rw [C169_natural S (joined F B) df2 col level D2 text _ hin]
      obtain ⟨h1, h2⟩ := hnat text hin (ht hin)
      rw [h1, h2]
    · rw [C169_meaning S (joined F B) df2 col level D2 text e hc2 hin, hv, ← hser]
      rfl
  rw [second]
  by_cases hin : text ∈ F.cols
  · rw [C169_natural S F df col level D text _ hin]
    obtain ⟨h1, h2⟩ := hnat text (List.mem_append_left _ hin) (ht (List.mem_append_left _ hin))
    rw [h1, h2]
    rfl
  · rw [C169_meaning S F df col level D text e hc hin]
    have henv : ∀ n, lookup S F col level n = lookup S (joined F B) col level n ∨ lookup S F col level n = .error .name := by
      intro n
      by_cases hb : n ∈ B
      · obtain ⟨h1, h2⟩ := hB n hb
        by_cases hf : n ∈ F.cols
        · left; simp [lookup, joined, hf]
        · right; simp [lookup, hf, h1, h2]
      · left
        by_cases hf : n ∈ F.cols
        · exact (if_pos hf : lookup S F col level n = .ok (col n)).trans (if_pos (show n ∈ (joined F B).cols from List.mem_append_left _ hf) : lookup S (joined F B) col level n = .ok (col n)).symm
        · have hf2 : n ∉ (joined F B).cols := by simp [joined, hf, hb]
          unfold lookup
          rw [if_neg hf, if_neg hf2]
          rfl
    rcases cz_more S _ _ henv e v hv with h | h
    · rw [meaning, h]; rfl
    · rw [meaning, h]; rfl

/-- C169 fails: a name that is no column but a variable of the function (as `name`, `debug`, `j`) or a builtin (as `id`, `type`, `sum`) is not
reported: the expression has that thing's value, even when the second frame has a column of this name. -/
theorem C169_fails_internal (S : Sem V) (F : Frame) (df : V) (n : String) (h1 : ¬ Frame.has F n) (h2 : n ∉ functions) (h3 : n ∈ internals) (h4 : n ≠ "df") (second : Except Err V) :
    backed (columnize S F df n (some (subst F (.name n)))) second = .ok (S.series F (S.glob n)) := by
  unfold Frame.has at h1
  push Not at h1
  simp [columnize, subst, h1.1, h1.2, ev, scope, h2, h3, h4, Except.bind, backed]

/-- C169 fails: an attribute with the name of a column is taken for it: `x.max` becomes `x.df['max']`. -/
theorem C169_fails_attribute (G : Grammar) (F : Frame) (x a : String) (ha : a ∈ F.cols) :
    Parses G (.expr G.top) (rewrite F [.name x, .op ".", .name a]) (.index (.attr (subst F (.name x)) "df") (.str a)) := by
  have hx := C169_rewrite G F _ _ _ (Parses.name (G := G) x) (by simp [labels])
  have : rewrite F [.name x, .op ".", .name a] = rewrite F [.name x] ++ [.op ".", .name "df"] ++ [.op "["] ++ [.str a] ++ [.op "]"] := by
    rw [show ([.name x, .op ".", .name a] : List Tok) = [.name x] ++ ([.op "."] ++ [.name a]) from rfl, cz_append, cz_append, cz_op]
    have : rewrite F [.name a] = [.name "df", .op "[", .str a, .op "]"] := by simp [rewrite, rewriteTok, ha]
    rw [this]
    simp
  rw [this]
  exact Parses.index (Parses.attr hx) (cz_up G _ _ _ (Parses.str a))

/-- C169 fails: a name that is a level of the index and a column of the second frame means the level or the column, depending on the other names. -/
theorem C169_fails_level (S : Sem V) (F : Frame) (B : List String) (df df2 : V) (col level : String → V) (D : Data S F df col level) (D2 : Data S (joined F B) df2 col level)
    (n b o : String) (hn : n ∈ F.levels) (hnc : n ∉ F.cols) (hnB : n ∈ B) (hb : b ∈ B) (hbF : ¬ Frame.has F b) (hbf : b ∉ functions) (hbi : b ∉ internals) (hbd : b ≠ "df")
    (text : String) (ht : text ∉ F.cols ++ B) :
    backed (columnize S F df n (some (subst F (.name n)))) (columnize S (joined F B) df2 n (some (subst (joined F B) (.name n)))) = .ok (S.series F (level n)) ∧
      backed (columnize S F df text (some (subst F (.bin o (.name n) (.name b))))) (columnize S (joined F B) df2 text (some (subst (joined F B) (.bin o (.name n) (.name b))))) =
        (S.bin o (col n) (col b)).bind (fun v => .ok (S.series (joined F B) v)) := by
  have hbF' := hbF
  unfold Frame.has at hbF'
  push Not at hbF'
  constructor
  · have hc : Clean F (.name n) := by
      intro m hm
      simp only [vars, List.mem_singleton] at hm
      subst hm
      exact Or.inl (Or.inr hn)
    rw [C169_meaning S F df col level D n _ hc hnc]
    simp [meaning, ev, lookup, hn, hnc, Except.bind, backed]
  · have hc : Clean F (.bin o (.name n) (.name b)) := by
      intro m hm
      simp only [vars, List.mem_append, List.mem_singleton] at hm
      rcases hm with rfl | rfl
      · exact Or.inl (Or.inr hn)
      · exact Or.inr ⟨hbi, hbd⟩
    have hc2 : Clean (joined F B) (.bin o (.name n) (.name b)) := by
      intro m hm
      simp only [vars, List.mem_append, List.mem_singleton] at hm
      left; left
      rcases hm with rfl | rfl <;> simp [joined, hnB, hb]
    rw [C169_meaning S F df col level D text _ hc (fun h => ht (List.mem_append_left _ h)), C169_meaning S (joined F B) df2 col level D2 text _ hc2 ht]
    simp [meaning, ev, lookup, hn, hnc, hbF', hbf, Except.bind, backed, joined, hnB, hb]

/-! ## An example: a frame with columns `cost` and `income`, numbers for its one row -/

/-- Values: the frame, numbers, texts. -/
inductive EVal where
  | frame
  | text (s : String)
  | number (n : Nat)
  | nothing
deriving DecidableEq

def eSem : Sem EVal where
  glob _ := .nothing
  str s := .text s
  num s := .number s.length
  attr _ _ := .error .other
  index
    | .frame, .text "cost" => .ok (.number 6)
    | .frame, .text "income" => .ok (.number 2)
    | _, _ => .error .other
  call _ _ := .error .other
  noArgs := .nothing
  arg _ _ := .nothing
  kwarg _ _ _ := .nothing
  un _ v := .ok v
  bin
    | "/", .number a, .number b => .ok (.number (a / b))
    | _, _, _ => .error .other
  series _ v := v

theorem cz_example_data : Data eSem ⟨["cost", "income"], []⟩ .frame (fun n => if n = "cost" then .number 6 else .number 2) (fun _ => .nothing) where
  cols := by intro n hn; simp only [List.mem_cons, List.not_mem_nil, or_false] at hn; rcases hn with rfl | rfl <;> rfl
  levels := by intro n hn; simp at hn
  series := by intro n _; rfl

example : columnize eSem ⟨["cost", "income"], []⟩ .frame "cost/income" (some (subst ⟨["cost", "income"], []⟩ (.bin "/" (.name "cost") (.name "income")))) = .ok (.number 3) := by
  rw [C169_meaning eSem _ .frame _ _ cz_example_data "cost/income" _ (by unfold Clean Frame.has; decide) (by decide)]
  rfl

example : Parses ⟨fun o => if o = "/" then some 5 else none, fun _ => none, 9⟩ (.expr 5) (rewrite ⟨["cost", "income"], []⟩ [.name "cost", .op "/", .name "income"])
    (.bin "/" (.index (.name "df") (.str "cost")) (.index (.name "df") (.str "income"))) := by
  apply C169_rewrite ⟨fun o => if o = "/" then some 5 else none, fun _ => none, 9⟩ ⟨["cost", "income"], []⟩ (.expr 5) _ (.bin "/" (.name "cost") (.name "income"))
  · refine Parses.bin (ts := [.name "cost"]) (us := [.name "income"]) rfl ?_ ?_
    · exact Parses.up (Parses.up (Parses.up (Parses.up (Parses.name (G := ⟨fun o => if o = "/" then some 5 else none, fun _ => none, 9⟩) "cost"))))
    · exact Parses.up (Parses.up (Parses.up (Parses.name (G := ⟨fun o => if o = "/" then some 5 else none, fun _ => none, 9⟩) "income")))
  · simp [labels]

end Larch.Props
