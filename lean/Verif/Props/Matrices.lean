import Verif.Spec.Matrices
import Verif.Props.ParamsOps

/-!
# C166: stored matrices are labelled with their parameters; C167: locking several values
-/

namespace Larch.Props

open Larch.Params Larch.Persist Larch.Matrices Larch.MatricesSpec

variable {α : Type}

/-- Names each once and in order. -/
def InOrder (l : List String) : Prop := l.Nodup ∧ l.Pairwise (· ≤ ·)

theorem mx_scan_order (m : Mentions) (rows : List Row) (h : (rows.map Row.name).Nodup) : InOrder ((scanAll m rows).map Row.name) := by
  refine ⟨scan_nodup m rows h, ?_⟩
  rw [List.pairwise_map]
  unfold scanAll
  exact List.pairwise_insertionSort (fun a b : Row => a.name ≤ b.name) _

theorem mx_unmangle (m : Mentions) (force : Bool) (f : Frame) (h : InOrder f.names) :
    InOrder (unmangle m force f).names ∧ ∀ n ∈ f.names, n ∈ (unmangle m force f).names := by
  have h1 := mx_scan_order m f.rows h.1
  have h2 : ∀ n ∈ f.names, n ∈ (scanAll m f.rows).map Row.name := fun n hn => (scan_mem m f.rows n).2 (Or.inl hn)
  unfold unmangle
  cases force <;> cases hm : f.mangled <;> simp only [hm, mangle, clearBest, Bool.false_eq_true, if_false, if_true, Bool.or_false, Bool.or_true, Bool.false_or] <;>
    first | exact ⟨h1, h2⟩ | exact ⟨h, fun n hn => hn⟩

theorem mx_kwargs (m : Mentions) (f : Frame) (kw : List (String × X)) (h : InOrder f.names) :
    InOrder (setKwargs m f kw).names ∧ ∀ n ∈ f.names, n ∈ (setKwargs m f kw).names := by
  unfold setKwargs
  split
  · exact ⟨h, fun n hn => hn⟩
  · have hn : ∀ rows : List Row, (kw.foldl setNamed rows).map Row.name = rows.map Row.name := by
      intro rows
      rw [setNamed_fold, List.map_map]
      congr 1
      funext r; exact named_name kw r
    simp only [Frame.names]
    rw [hn]
    split
    · exact ⟨mx_scan_order m f.rows h.1, fun n hn => (scan_mem m f.rows n).2 (Or.inl hn)⟩
    · exact ⟨h, fun n hn => hn⟩

theorem mx_array_names (respect : Bool) (f : Frame) (vs : List X) : (setArray respect f vs).1.names = f.names := by
  unfold setArray
  split_ifs with h1 h2
  · rfl
  · rfl
  · simp only [Frame.names, List.map_map]
    have hl : vs.length = f.rows.length := not_not.1 h1
    have : (Row.name ∘ fun p : Row × X => if (p.1.free || !respect) = true then { p.1 with value := p.2 } else p.1) = Row.name ∘ Prod.fst := by
      funext p
      simp only [Function.comp]
      split <;> rfl
    rw [this, ← List.map_map, List.map_fst_zip (by omega)]

theorem mx_values (m : Mentions) (f : Frame) (a : Arg) (respect : Bool) (kw : List (String × X)) (h : InOrder f.names) :
    InOrder (setValues m f a respect kw).1.names ∧ ∀ n ∈ f.names, n ∈ (setValues m f a respect kw).1.names := by
  have harr : ∀ vs, InOrder (match setArray respect f vs with
      | (f1, some e) => (f1, some e)
      | (f1, none) => (setKwargs m f1 kw, (none : Option String))).1.names ∧ ∀ n ∈ f.names, n ∈ (match setArray respect f vs with
      | (f1, some e) => (f1, some e)
      | (f1, none) => (setKwargs m f1 kw, (none : Option String))).1.names := by
    intro vs
    have hn := mx_array_names respect f vs
    rcases hs : setArray respect f vs with ⟨f1, _ | e⟩ <;> rw [hs] at hn
    · simp only at hn ⊢
      rw [← hn] at h ⊢
      exact mx_kwargs m f1 kw h
    · simp only at hn ⊢
      rw [hn]
      exact ⟨h, fun n hn => hn⟩
  unfold setValues
  cases a with
  | none => exact mx_kwargs m f kw h
  | dict d => exact mx_kwargs m f _ h
  | scalar x =>
    have := mx_kwargs m (setScalar respect f x) kw (by rw [setScalar_names]; exact h)
    rw [setScalar_names] at this
    exact this
  | arr vs => exact harr vs
  | key s =>
    simp only
    cases resolveKey f s with
    | error e => exact ⟨h, fun n hn => hn⟩
    | ok vs => exact harr vs

theorem mx_removed (m : Mentions) (f : Frame) : InOrder (removeUnused m f).names := by
  have h := (mx_unmangle m true { unmangle m true f with rows := [] } ⟨List.nodup_nil, List.Pairwise.nil⟩).1
  unfold removeUnused
  simp only [Frame.names, List.map_map] at h ⊢
  rw [List.map_congr_left (g := Row.name) (fun r _ => by simp only [Function.comp]; split <;> rfl)]
  exact h

/-- In every history the names of the frame are distinct and sorted. -/
theorem mx_order (s : St α) (op : Matrices.Op α) (h : InOrder s.f.names) : InOrder (step s op).f.names := by
  cases op with
  | edit m => exact h
  | look => exact (mx_unmangle s.m false s.f h).1
  | values a kw => exact (mx_values s.m s.f a true kw h).1
  | removeUnused => exact mx_removed s.m s.f
  | compute c => exact (mx_unmangle s.m false s.f h).1

theorem mx_grow (s : St α) (op : Matrices.Op α) (h : InOrder s.f.names) (hr : removes op = false) : ∀ n ∈ s.f.names, n ∈ (step s op).f.names := by
  cases op with
  | edit m => exact fun n hn => hn
  | look => exact (mx_unmangle s.m false s.f h).2
  | values a kw => exact (mx_values s.m s.f a true kw h).2
  | removeUnused => simp [removes] at hr
  | compute c => exact (mx_unmangle s.m false s.f h).2

theorem mx_last_compute (c : Calc α) : ∀ ops : List (Matrices.Op α), lastCalc (ops ++ [.compute c]) = some c
  | [] => rfl
  | o :: ops => by
    simp only [List.cons_append, lastCalc, mx_last_compute c ops]

theorem mx_last_other (op : Matrices.Op α) (h : ∀ c, op ≠ .compute c) : ∀ ops : List (Matrices.Op α), lastCalc (ops ++ [op]) = lastCalc ops
  | [] => by
    cases op with
    | compute c => exact absurd rfl (h c)
    | _ => rfl
  | o :: ops => by
    simp only [List.cons_append, lastCalc, mx_last_other op h ops]

theorem mx_store (N : List String) (c : Calc α) (mats : Key → Option (List (List α))) :
    store N c mats .covariance = some (square N (Calc.final c)) ∧ store N c mats .robust = some (square N c.rob) ∧
      store N c mats .hessian = (if c.preserve then some (square N c.hess) else mats .hessian) ∧ store N c mats .constrained = mats .constrained := by
  unfold store Calc.final
  rcases hc : c.con with _ | s <;> cases hp : c.preserve <;> simp [put]

/-- What the arrays kept are, `N` being the names of the last calculation. -/
def Kept (s : St α) (c : Calc α) (N : List String) : Prop :=
  InOrder N ∧ s.mats .covariance = some (square N (Calc.final c)) ∧ s.mats .robust = some (square N c.rob) ∧
    (c.preserve = true → s.mats .hessian = some (square N c.hess))

theorem mx_inv (m : Mentions) (ops : List (Matrices.Op α)) : InOrder (run (fresh m) ops : St α).f.names ∧
    (lastCalc ops = none → ∀ k, (run (fresh m) ops : St α).mats k = none) ∧
    ∀ c, lastCalc ops = some c → ∃ N, Kept (run (fresh m) ops : St α) c N ∧ ((∀ op ∈ ops, removes op = false) → ∀ n ∈ N, n ∈ (run (fresh m) ops : St α).f.names) := by
  induction ops using List.reverseRecOn with
  | nil => exact ⟨⟨List.nodup_nil, List.Pairwise.nil⟩, fun _ _ => rfl, fun c hc => by simp [lastCalc] at hc⟩
  | append_singleton ops op ih =>
    obtain ⟨h1, h2, h3⟩ := ih
    have hrun : (run (fresh m) (ops ++ [op]) : St α) = step (run (fresh m) ops) op := by simp [run]
    rw [hrun]
    refine ⟨mx_order _ op h1, ?_, ?_⟩
    · intro hl k
      cases op with
      | compute c => rw [mx_last_compute] at hl; simp at hl
      | _ => rw [mx_last_other _ (by simp)] at hl; exact h2 hl k
    · intro c hl
      by_cases hcalc : ∃ c', op = .compute c'
      · obtain ⟨c', rfl⟩ := hcalc
        rw [mx_last_compute] at hl
        simp only [Option.some.injEq] at hl
        subst hl
        obtain ⟨s1, s2, s3, _⟩ := mx_store (unmangle (run (fresh m) ops : St α).m false (run (fresh m) ops : St α).f).names c' (run (fresh m) ops : St α).mats
        refine ⟨(unmangle (run (fresh m) ops : St α).m false (run (fresh m) ops : St α).f).names, ⟨(mx_unmangle _ false _ h1).1, s1, s2, fun hp => ?_⟩, fun _ n hn => hn⟩
        rw [hp, if_pos rfl] at s3
        exact s3
      · have hl' : lastCalc ops = some c := by
          cases op with
          | compute c' => exact absurd ⟨c', rfl⟩ hcalc
          | _ => rw [mx_last_other _ (by simp)] at hl; exact hl
        have hm : (step (run (fresh m) ops : St α) op).mats = (run (fresh m) ops : St α).mats := by
          cases op with
          | compute c' => exact absurd ⟨c', rfl⟩ hcalc
          | _ => rfl
        obtain ⟨N, ⟨hN, k1, k2, k3⟩, hsub⟩ := h3 c hl'
        refine ⟨N, ⟨hN, by rw [hm]; exact k1, by rw [hm]; exact k2, by rw [hm]; exact k3⟩, fun hr n hn => ?_⟩
        exact mx_grow _ op h1 (hr op (by simp)) n (hsub (fun o ho => hr o (by simp [ho])) n hn)

theorem mx_same {N M : List String} (hN : InOrder N) (hM : InOrder M) (hs : ∀ n ∈ N, n ∈ M) (hl : N.length = M.length) : N = M := by
  have hsub : N.Subperm M := List.subperm_of_subset hN.1 hs
  have hp : N.Perm M := hsub.perm_of_length_le (by omega)
  exact hp.eq_of_pairwise (le := (· ≤ ·)) (fun a b _ _ h1 h2 => le_antisymm h1 h2) hN.2 hM.2

theorem mx_square (N : List String) (g : String → String → α) : Shows ⟨N, square N g⟩ g := by
  intro a ha b hb
  unfold at? square
  simp only [List.getElem?_map]
  have hia := List.idxOf_lt_length_of_mem ha
  have hib := List.idxOf_lt_length_of_mem hb
  rw [List.getElem?_eq_getElem hia, List.getElem_idxOf]
  simp only [Option.map_some, List.getElem?_map]
  rw [List.getElem?_eq_getElem hib, List.getElem_idxOf]
  rfl

theorem mx_read_ok (s : St α) (k : Key) (x : List (List α)) (hk : s.mats k = some x) (hl : x.length = s.f.names.length) : readMat s k = some (.ok ⟨s.f.names, x⟩) := by
  unfold readMat
  rw [hk]
  exact if_pos hl

theorem mx_read (s : St α) (k : Key) (g : String → String → α) (N : List String) (hN : InOrder N) (hs : InOrder s.f.names) (hsub : ∀ n ∈ N, n ∈ s.f.names)
    (hk : s.mats k = some (square N g)) : Labels s k g ∧ (readMat s k = some (.error "ValueError") → ∃ n ∈ s.f.names, n ∉ N) := by
  have hlen : (square N g).length = N.length := by simp [square]
  unfold Labels readMat
  rw [hk]
  simp only [hlen]
  by_cases hl : N.length = s.f.names.length
  · have := mx_same hN hs hsub hl
    rw [if_pos hl]
    refine ⟨Or.inr ⟨_, rfl, rfl, ?_⟩, by simp⟩
    rw [this]
    exact mx_square _ g
  · rw [if_neg hl]
    refine ⟨Or.inl rfl, fun _ => ?_⟩
    by_contra hc
    push Not at hc
    apply hl
    have h1 := (List.subperm_of_subset hN.1 hsub).length_le
    have h2 := (List.subperm_of_subset hs.1 hc).length_le
    omega

/-- C166: after every history of edits, value changes and calculations that never removes parameters, `covariance_matrix` and
`robust_covariance_matrix` are those of the last calculation, each number under the names of its two parameters (or reading raises, because parameters were
added since). -/
theorem C166_covariance (m : Mentions) (ops : List (Matrices.Op α)) (hr : ∀ op ∈ ops, removes op = false) (c : Calc α) (hc : lastCalc ops = some c) :
    Labels (run (fresh m) ops) .covariance (Calc.final c) ∧ Labels (run (fresh m) ops) .robust c.rob := by
  obtain ⟨h1, _, h3⟩ := mx_inv m ops
  obtain ⟨N, ⟨hN, k1, k2, _⟩, hsub⟩ := h3 c hc
  exact ⟨(mx_read _ _ _ N hN h1 (hsub hr) k1).1, (mx_read _ _ _ N hN h1 (hsub hr) k2).1⟩

/-- C166: so is `hessian_matrix` when the last calculation was told to keep it. -/
theorem C166_hessian (m : Mentions) (ops : List (Matrices.Op α)) (hr : ∀ op ∈ ops, removes op = false) (c : Calc α) (hc : lastCalc ops = some c)
    (hp : c.preserve = true) : Labels (run (fresh m) ops) .hessian c.hess := by
  obtain ⟨h1, _, h3⟩ := mx_inv m ops
  obtain ⟨N, ⟨hN, _, _, k3⟩, hsub⟩ := h3 c hc
  exact (mx_read _ _ _ N hN h1 (hsub hr) (k3 hp)).1

/-- C166: directly after a calculation nothing raises. -/
theorem C166_at_once (m : Mentions) (ops : List (Matrices.Op α)) (c : Calc α) : ∃ fr, readMat (run (fresh m) (ops ++ [.compute c])) .covariance = some (.ok fr) ∧
    fr.labels = (run (fresh m) (ops ++ [.compute c]) : St α).f.names ∧ Shows fr (Calc.final c) := by
  have hrun : (run (fresh m) (ops ++ [.compute c]) : St α) = step (run (fresh m) ops) (.compute c) := by simp [run]
  obtain ⟨s1, _⟩ := mx_store (unmangle (run (fresh m) ops : St α).m false (run (fresh m) ops : St α).f).names c (run (fresh m) ops : St α).mats
  rw [hrun]
  exact ⟨_, mx_read_ok (step (run (fresh m) ops) (.compute c)) .covariance _ s1 (by simp [square, step]), rfl, mx_square _ _⟩

/-- C166: without a calculation there is nothing. -/
theorem C166_nothing (m : Mentions) (ops : List (Matrices.Op α)) (hc : lastCalc ops = none) (k : Key) : readMat (run (fresh m) ops : St α) k = none := by
  unfold readMat
  rw [(mx_inv m ops).2.1 hc k]

/-- C166 fails: `constrained_covariance_matrix` is always `None`. -/
theorem C166_fails_constrained (m : Mentions) (ops : List (Matrices.Op α)) : readMat (run (fresh m) ops : St α) .constrained = none := by
  have : ∀ s : St α, s.mats .constrained = none → (ops.foldl step s).mats .constrained = none := by
    induction ops with
    | nil => exact fun s h => h
    | cons op ops ih =>
      intro s h
      apply ih
      cases op with
      | compute c => exact ((mx_store _ c _).2.2.2).trans h
      | _ => exact h
  unfold readMat
  rw [show (run (fresh m) ops : St α).mats .constrained = none from this _ rfl]

theorem mx_scan_nil (m : Mentions) (l : List String) (hl : InOrder l) (hm : ∀ n, n ∈ l ↔ n ∈ m.utility ∨ n ∈ m.quantity ∨ n ∈ m.logsum) (rows : List Row)
    (hr : (rows.map Row.name).Nodup) (hs : ∀ n ∈ rows.map Row.name, n ∈ l) : (scanAll m rows).map Row.name = l := by
  have h1 := mx_scan_order m rows hr
  have h2 : ∀ n, n ∈ (scanAll m rows).map Row.name ↔ n ∈ l := by
    intro n
    rw [scan_mem, hm]
    constructor
    · rintro (h | h)
      · exact (hm n).1 (hs n h)
      · exact h
    · exact Or.inr
  have hp : ((scanAll m rows).map Row.name).Perm l := (List.perm_ext_iff_of_nodup h1.1 hl.1).2 h2
  exact hp.eq_of_pairwise (le := (· ≤ ·)) (fun a b _ _ h3 h4 => le_antisymm h3 h4) h1.2 hl.2

/-- C166 fails: with a parameter replaced by another and the unused one removed, the old numbers are shown under the new name: the model
mentions `a`, `b` when the covariance is calculated, then `a`, `c`, and the variance of `b` is shown as that of `c`. -/
theorem C166_fails_removed (c : Calc α) : ∃ fr : Square α, readMat (run (fresh ⟨["a", "b"], [], []⟩) [.compute c, .edit ⟨["a", "c"], [], []⟩, .removeUnused]) .covariance = some (.ok fr) ∧
    fr.labels = ["a", "c"] ∧ at? fr "c" "c" = some (Calc.final c "b" "b") := by
  have hab : InOrder ["a", "b"] := ⟨by decide, by simp⟩
  have hac : InOrder ["a", "c"] := ⟨by decide, by simp⟩
  have n1 : (unmangle ⟨["a", "b"], [], []⟩ false (fresh ⟨["a", "b"], [], []⟩ : St α).f).names = ["a", "b"] := by
    show ((scanAll ⟨["a", "b"], [], []⟩ []).map Row.name) = _
    exact mx_scan_nil _ _ hab (by simp) [] (by simp) (by simp)
  have n2 : ∀ f : Frame, (removeUnused ⟨["a", "c"], [], []⟩ f).names = ["a", "c"] := by
    intro f
    have h : (scanAll ⟨["a", "c"], [], []⟩ []).map Row.name = ["a", "c"] := mx_scan_nil _ _ hac (by simp) [] (by simp) (by simp)
    refine Eq.trans ?_ h
    unfold removeUnused
    simp only [Frame.names, List.map_map]
    rw [List.map_congr_left (g := Row.name) (fun r _ => by simp only [Function.comp]; split <;> rfl)]
    rfl
  refine ⟨⟨["a", "c"], square ["a", "b"] (Calc.final c)⟩, ?_, rfl, ?_⟩
  · obtain ⟨s1, _⟩ := mx_store ["a", "b"] c (fresh ⟨["a", "b"], [], []⟩ : St α).mats
    have hrun : (run (fresh ⟨["a", "b"], [], []⟩) [.compute c, .edit ⟨["a", "c"], [], []⟩, .removeUnused] : St α)
        = step (step (step (fresh ⟨["a", "b"], [], []⟩) (.compute c)) (.edit ⟨["a", "c"], [], []⟩)) .removeUnused := by simp only [run, List.foldl]
    have hm : ∀ s : St α, (step (step s (.edit ⟨["a", "c"], [], []⟩)) .removeUnused).mats = s.mats := fun s => by simp only [step]
    have hn : ∀ s : St α, (step (step s (.edit ⟨["a", "c"], [], []⟩)) .removeUnused).f.names = ["a", "c"] := fun s => by simp only [step]; exact n2 _
    have hc : (step (fresh ⟨["a", "b"], [], []⟩) (.compute c) : St α).mats .covariance = some (square ["a", "b"] (Calc.final c)) := by
      simp only [step]
      rw [show (fresh ⟨["a", "b"], [], []⟩ : St α).m = ⟨["a", "b"], [], []⟩ from rfl, n1]
      exact s1
    rw [hrun]
    have := mx_read_ok _ .covariance _ ((congrFun (hm _) _).trans hc) (by rw [hn]; simp [square])
    rw [hn] at this
    exact this
  · simp [at?, square, List.idxOf, List.findIdx, List.findIdx.go]

/-- C166 fails: calculated again without `preserve_hessian`, `hessian_matrix` remains that of the earlier calculation. -/
theorem C166_fails_hessian (m : Mentions) (ops : List (Matrices.Op α)) (c c' : Calc α) (hp : c.preserve = true) (hp' : c'.preserve = false) :
    ∃ fr, readMat (run (fresh m) (ops ++ [.compute c] ++ [.compute c'])) .hessian = some (.ok fr) ∧ Shows fr c.hess := by
  have hrun : (run (fresh m) (ops ++ [.compute c] ++ [.compute c']) : St α) = step (step (run (fresh m) ops) (.compute c)) (.compute c') := by simp [run]
  rw [hrun]
  generalize (run (fresh m) ops : St α) = s
  have hf : unmangle s.m false (unmangle s.m false s.f) = unmangle s.m false s.f := (C20_idempotent s.m s.f).1
  obtain ⟨_, _, s3, _⟩ := mx_store (unmangle s.m false s.f).names c s.mats
  obtain ⟨_, _, t3, _⟩ := mx_store (unmangle s.m false s.f).names c' (store (unmangle s.m false s.f).names c s.mats)
  rw [hp, if_pos rfl] at s3
  rw [hp', if_neg (by simp), s3] at t3
  have hm : (step (step s (.compute c)) (.compute c')).mats .hessian = some (square (unmangle s.m false s.f).names c.hess) := by
    show store (unmangle s.m false (unmangle s.m false s.f)).names c' _ _ = _
    rw [hf]
    exact t3
  have hn : (step (step s (.compute c)) (.compute c')).f.names = (unmangle s.m false s.f).names := by
    show (unmangle s.m false (unmangle s.m false s.f)).names = _
    rw [hf]
  have := mx_read_ok _ _ _ hm (by rw [hn]; simp [square])
  rw [hn] at this
  exact ⟨_, this, mx_square _ _⟩

example : ∃ fr : Square ℕ, readMat (run (fresh ⟨["b", "a"], [], []⟩) [.look, .values (.scalar (.fin 1)) [], .compute ⟨fun _ _ => 0, fun a b => a.length + b.length, fun _ _ => 1, none, false⟩]) .covariance
    = some (.ok fr) ∧ Shows fr (fun a b => a.length + b.length) := by
  obtain ⟨fr, h1, _, h2⟩ := C166_at_once ⟨["b", "a"], [], []⟩ [.look, .values (.scalar (.fin 1)) []] (⟨fun _ _ => 0, fun a b => a.length + b.length, fun _ _ => 1, none, false⟩ : Calc ℕ)
  exact ⟨fr, h1, h2⟩

/-! ## C167 -/

theorem mx_lock_other (m : Mentions) (f : Frame) (n k : String) (v : X) (hk : n ≠ k) (hm : k ∈ f.names) : rowOf (lockValue m f k v).1.rows n = rowOf f.rows n := by
  unfold lockValue setValue
  simp only [List.any_cons, Kw.isInit, Kw.isNull, Bool.false_or, Bool.true_or, if_true, if_pos hm]
  exact foldKw_other _ n k hk _ _

theorem mx_lock_mem (m : Mentions) (f : Frame) (k : String) (v : X) (n : String) (hnd : f.names.Nodup) (hm : k ∈ f.names) (hn : n ∈ f.names) : n ∈ (lockValue m f k v).1.names := by
  by_cases h : n = k
  · subst h
    obtain ⟨r, hr, _⟩ := (C19_lock m f n v hnd).2
    by_contra hc
    rw [get_none.mpr hc] at hr
    simp at hr
  · by_contra hc
    have := get_none.mpr hc
    rw [mx_lock_other m f n k v h hm] at this
    exact get_none.mp this hn

theorem mx_present {f : Frame} {n : String} (h : n ∈ f.names) : ∃ r, rowOf f.rows n = some r := by
  rcases hr : rowOf f.rows n with _ | r
  · exact absurd h (get_none.mp hr)
  · exact ⟨r, rfl⟩

/-- The value a parameter is to be locked at. -/
def target (f : Frame) (n : String) : LockTo → Option X
  | .num x => some x
  | .null => (rowOf f.rows n).map Row.null

theorem mx_lockTo (m : Mentions) (f : Frame) (n : String) (v : LockTo) (x : X) (hf : f.mangled = false) (hn : n ∈ f.names) (hx : target f n v = some x) :
    lockTo m f n v = lockValue m f n x := by
  cases v with
  | num y => simp only [target, Option.some.injEq] at hx; subst hx; rfl
  | null =>
    obtain ⟨r, hr⟩ := mx_present hn
    simp only [target, hr, Option.map_some, Option.some.injEq] at hx
    subst hx
    have hu : unmangle m false f = f := by simp [unmangle, hf]
    simp [lockTo, lockNull, hu, hr]

theorem mx_lock_mangled (m : Mentions) (f : Frame) (n : String) (v : X) (hn : n ∈ f.names) : (lockValue m f n v).1.mangled = f.mangled := by
  unfold lockValue setValue
  simp only [List.any_cons, Kw.isInit, Kw.isNull, Bool.false_or, Bool.true_or, if_true, if_pos hn]

theorem mx_named (m : Mentions) : ∀ (kw : List (String × LockTo)) (f : Frame), f.mangled = false → f.names.Nodup → (∀ e ∈ kw, e.1 ∈ f.names) → (kw.map Prod.fst).Nodup →
    (lockNamed m f kw).2 = none ∧ (∀ e ∈ kw, ∀ x, target f e.1 e.2 = some x → LockedAt (lockNamed m f kw).1 e.1 x) ∧
      (∀ n, n ∉ kw.map Prod.fst → rowOf (lockNamed m f kw).1.rows n = rowOf f.rows n)
  | [], f, _, _, _, _ => ⟨rfl, by simp, fun _ _ => rfl⟩
  | (k, v) :: kw, f, hf, hnd, hmem, hk => by
    have hkm : k ∈ f.names := hmem (k, v) (by simp)
    obtain ⟨r, hr⟩ := mx_present hkm
    obtain ⟨x, hx⟩ : ∃ x, target f k v = some x := by
      cases v with
      | num y => exact ⟨y, rfl⟩
      | null => exact ⟨r.null, by simp [target, hr]⟩
    have hlock := mx_lockTo m f k v x hf hkm hx
    have hL := C19_lock m f k x hnd
    rw [List.map_cons, List.nodup_cons] at hk
    have ih := mx_named m kw (lockValue m f k x).1 ((mx_lock_mangled m f k x hkm).trans hf) (setValue_nodup m f k _ hnd)
      (fun e he => mx_lock_mem m f k x e.1 hnd hkm (hmem e (by simp [he]))) hk.2
    have heq : lockNamed m f ((k, v) :: kw) = lockNamed m (lockValue m f k x).1 kw := by
      rw [lockNamed, hlock]
      rcases hh : lockValue m f k x with ⟨f1, _ | e⟩
      · rfl
      · rw [hh] at hL; simp at hL
    rw [heq]
    refine ⟨ih.1, ?_, ?_⟩
    · rintro ⟨n, w⟩ he0 y hy
      rcases List.mem_cons.1 he0 with h | he
      · obtain ⟨rfl, rfl⟩ := Prod.mk.inj h
        rw [hx] at hy
        simp only [Option.some.injEq] at hy
        subst hy
        obtain ⟨r', hr', hh⟩ := hL.2
        exact ⟨r', by rw [ih.2.2 n hk.1]; exact hr', hh⟩
      · have hne : n ≠ k := by
          rintro rfl
          exact hk.1 (List.mem_map.2 ⟨(n, w), he, rfl⟩)
        apply ih.2.1 (n, w) he y
        cases w with
        | num z => simp only [target] at hy ⊢; exact hy
        | null =>
          simp only [target] at hy ⊢
          rw [mx_lock_other m f n k x hne hkm]
          exact hy
    · intro n hn
      simp only [List.map_cons, List.mem_cons, not_or] at hn
      rw [ih.2.2 n hn.2, mx_lock_other m f n k x hn.1 hkm]

theorem mx_current (m : Mentions) : ∀ (ns : List String) (f : Frame), f.names.Nodup → (∀ n ∈ ns, n ∈ f.names) →
    (lockCurrent m f ns).2 = none ∧ (lockCurrent m f ns).1.mangled = f.mangled ∧ (lockCurrent m f ns).1.names.Nodup ∧
      (∀ n ∈ f.names, n ∈ (lockCurrent m f ns).1.names) ∧
      (∀ n ∈ ns, ∀ r, rowOf f.rows n = some r → LockedAt (lockCurrent m f ns).1 n r.value) ∧
      (∀ n, n ∉ ns → rowOf (lockCurrent m f ns).1.rows n = rowOf f.rows n)
  | [], f, hnd, _ => ⟨rfl, rfl, hnd, fun _ h => h, by simp, fun _ _ => rfl⟩
  | k :: ns, f, hnd, hmem => by
    have hkm : k ∈ f.names := hmem k (by simp)
    obtain ⟨r, hr⟩ := mx_present hkm
    have hL := C19_lock m f k r.value hnd
    obtain ⟨i1, i2, i3, i4, i5, i6⟩ := mx_current m ns (lockValue m f k r.value).1 (setValue_nodup m f k _ hnd)
      (fun n hn => mx_lock_mem m f k r.value n hnd hkm (hmem n (by simp [hn])))
    have heq : lockCurrent m f (k :: ns) = lockCurrent m (lockValue m f k r.value).1 ns := by
      rw [lockCurrent, hr]
      simp only
      rcases hh : lockValue m f k r.value with ⟨f1, _ | e⟩
      · rfl
      · rw [hh] at hL; simp at hL
    rw [heq]
    refine ⟨i1, i2.trans (mx_lock_mangled m f k _ hkm), i3, fun n hn => i4 n (mx_lock_mem m f k _ n hnd hkm hn), ?_, ?_⟩
    · intro n hn r' hr'
      by_cases hnk : n = k
      · subst hnk
        rw [hr] at hr'
        simp only [Option.some.injEq] at hr'
        subst hr'
        by_cases hin : n ∈ ns
        · obtain ⟨r2, h2, h3⟩ := hL.2
          have := i5 n hin r2 h2
          rw [h3.1] at this
          exact this
        · obtain ⟨r2, h2, h3⟩ := hL.2
          exact ⟨r2, by rw [i6 n hin]; exact h2, h3⟩
      · rcases List.mem_cons.1 hn with h | h
        · exact absurd h hnk
        · exact i5 n h r' (by rw [mx_lock_other m f n k _ hnk hkm]; exact hr')
    · intro n hn
      simp only [List.mem_cons, not_or] at hn
      rw [i6 n hn.2, mx_lock_other m f n k _ hn.1 hkm]

/-- C167: `lock_values(*names, **values)` on existing parameters locks each named parameter at its current value, each keyword's parameter at the
value given, and changes no other parameter. -/
theorem C167_lock_values (m : Mentions) (f : Frame) (hf : f.mangled = false) (hnd : f.names.Nodup) (names : List String) (kw : List (String × LockTo))
    (hn : ∀ n ∈ names, n ∈ f.names) (hk : ∀ e ∈ kw, e.1 ∈ f.names) (hkn : (kw.map Prod.fst).Nodup) (hdis : ∀ e ∈ kw, e.1 ∉ names) :
    (lockValues m f names kw).2 = none ∧
      (∀ n ∈ names, ∀ r, rowOf f.rows n = some r → LockedAt (lockValues m f names kw).1 n r.value) ∧
      (∀ n x, (n, .num x) ∈ kw → LockedAt (lockValues m f names kw).1 n x) ∧
      (∀ n r, (n, .null) ∈ kw → rowOf f.rows n = some r → LockedAt (lockValues m f names kw).1 n r.null) ∧
      ∀ n, n ∉ names → n ∉ kw.map Prod.fst → rowOf (lockValues m f names kw).1.rows n = rowOf f.rows n := by
  obtain ⟨i1, i2, i3, i4, i5, i6⟩ := mx_current m names f hnd hn
  obtain ⟨j1, j2, j3⟩ := mx_named m kw (lockCurrent m f names).1 (i2.trans hf) i3 (fun e he => i4 e.1 (hk e he)) hkn
  have heq : lockValues m f names kw = lockNamed m (lockCurrent m f names).1 kw := by
    unfold lockValues
    rcases hh : lockCurrent m f names with ⟨f1, _ | e⟩
    · rfl
    · rw [hh] at i1; simp at i1
  rw [heq]
  refine ⟨j1, ?_, ?_, ?_, ?_⟩
  · intro n hnn r hr
    obtain ⟨r2, h2, h3⟩ := i5 n hnn r hr
    refine ⟨r2, ?_, h3⟩
    rw [j3 n (fun hc => ?_)]
    · exact h2
    · obtain ⟨e, he, rfl⟩ := List.mem_map.1 hc
      exact hdis e he hnn
  · intro n x hx
    exact j2 (n, .num x) hx x rfl
  · intro n r hx hr
    exact j2 (n, .null) hx r.null (by simp only [target]; rw [i6 n (hdis (n, .null) hx), hr]; rfl)
  · intro n h1 h2
    rw [j3 n h2, i6 n h1]

/-- C167: a name that is in no row raises. -/
theorem C167_unknown (m : Mentions) (f : Frame) (n : String) (rest : List String) (kw : List (String × LockTo)) (hn : n ∉ f.names) :
    lockValues m f (n :: rest) kw = (f, some "KeyError") := by
  simp [lockValues, lockCurrent, get_none.mpr hn]

/-- C167 fails: on a model whose utility was just written, a parameter it mentions is not found, although `model.pf` has it, and `lock_value` with a number
accepts it. -/
theorem C167_fails_unscanned (m : Mentions) (f : Frame) (n : String) (x : X) (hnd : f.names.Nodup) (hf : f.mangled = true) (hn : n ∉ f.names) (hm : n ∈ m.utility) :
    (lockValues m f [n] []).2 = some "KeyError" ∧ n ∈ (unmangle m false f).names ∧ (lockValue m f n x).2 = none := by
  refine ⟨by rw [C167_unknown m f n [] [] hn], ?_, (C19_lock m f n x hnd).1⟩
  exact ((C20_names_unique m f hnd hf).2.2 n).2 (Or.inr (Or.inl hm))

/-- C167 fails: when a later name is unknown, the earlier ones are locked nevertheless. -/
theorem C167_fails_half_done (m : Mentions) (f : Frame) (hnd : f.names.Nodup) (a b : String) (r : Row) (ha : rowOf f.rows a = some r) (hb : b ∉ f.names) :
    (lockValues m f [a, b] []).2 = some "KeyError" ∧ LockedAt (lockValues m f [a, b] []).1 a r.value := by
  have ham : a ∈ f.names := by
    by_contra hc
    rw [get_none.mpr hc] at ha
    simp at ha
  have hL := C19_lock m f a r.value hnd
  have hbn : rowOf (lockValue m f a r.value).1.rows b = none := by
    rw [mx_lock_other m f b a _ (fun h => hb (h ▸ ham)) ham]
    exact get_none.mpr hb
  have heq : lockValues m f [a, b] [] = ((lockValue m f a r.value).1, some "KeyError") := by
    unfold lockValues
    rw [lockCurrent, ha]
    simp only
    rcases hh : lockValue m f a r.value with ⟨f1, _ | e⟩
    · rw [hh] at hbn
      simp only at hbn
      simp [lockCurrent, hbn]
    · rw [hh] at hL; simp at hL
  rw [heq]
  exact ⟨rfl, hL.2⟩

/-- A frame with three parameters. -/
def threeRows : Frame := ⟨[⟨"a", .fin 1, .fin 0, .fin 0, .ninf, .pinf, some 0, .nan⟩, ⟨"b", .fin 2, .fin 0, .fin 5, .ninf, .pinf, some 0, .nan⟩,
  ⟨"c", .fin 3, .fin 0, .fin 0, .ninf, .pinf, some 0, .nan⟩], false, false, .ninf, .fin 0⟩

example (m : Mentions) : LockedAt (lockValues m threeRows ["a"] [("b", .null)]).1 "a" (.fin 1) ∧ LockedAt (lockValues m threeRows ["a"] [("b", .null)]).1 "b" (.fin 5) := by
  obtain ⟨_, h1, _, h2, _⟩ := C167_lock_values m threeRows rfl (by simp [threeRows, Frame.names]) ["a"] [("b", .null)] (by simp [threeRows, Frame.names]) (by simp [threeRows, Frame.names]) (by simp) (by simp)
  exact ⟨h1 "a" (by simp) _ rfl, h2 "b" _ (by simp) rfl⟩

end Larch.Props
