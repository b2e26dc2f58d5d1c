import Verif.Model.Joint
import Verif.Props.ParamsStats2
import Verif.Props.Request

/-!
# C128: the joint table of several models shows each model in its own column
-/

namespace Larch.Props

open Larch.Joint Larch.Params

section joint
variable (srt : List String → List String) (matchp : String → String → Bool)

/-- **C128 (rows).** Every parameter of every model has exactly one row, in the first category one of whose patterns matches it, or in "Other". -/
theorem C128_rows (hs : ∀ l, (srt l).Perm l) (ordering : List (String × List String)) (models : List Mod) :
    ((index srt matchp ordering models).map Prod.snd).Nodup ∧
    ∀ c p, (c, p) ∈ index srt matchp ordering models ↔
      (∃ m ∈ models, ∃ e ∈ m.params, e.1 = p) ∧ c = categoryOf matchp ordering p := by
  have hnd : (names models).Nodup := keysOf_nodup _
  obtain ⟨h1, h2⟩ := C89_partition srt matchp hs ordering (names models) hnd
  refine ⟨h2.nodup_iff.2 hnd, fun c p => ?_⟩
  rw [index, h1]
  refine and_congr_left fun _ => ?_
  rw [names, mem_keysOf]
  simp

/-! ## Cells -/

theorem jt_put (t : Table) (r h r' h' : Key) (c : Cell) :
    (put t r h c).cell r' h' = if r' = r ∧ h' = h then c else t.cell r' h' := rfl

/-- What `tryPut` leaves in a cell. -/
theorem jt_tryPut (t : Table) (r h r' h' : Key) (o : Option X) :
    (tryPut t r h o).cell r' h' = if r' = r ∧ h' = h then o.elim (t.cell r' h') .num else t.cell r' h' := by
  cases o with
  | none => simp [tryPut]
  | some x => simp [tryPut, jt_put]

/-- A step that writes only into the columns of its model. -/
def Local (S : Table → Mod → Table) (F : Mod → Key → Key → Cell → Cell) : Prop :=
  ∀ t m r h, (S t m).cell r h = if h.1 = m.title then F m r h (t.cell r h) else t.cell r h

theorem jt_fold_other {S : Table → Mod → Table} {F} (hS : Local S F) (models : List Mod) (t : Table) (r h : Key)
    (hn : ∀ m ∈ models, m.title ≠ h.1) : (models.foldl S t).cell r h = t.cell r h := by
  induction models generalizing t with
  | nil => rfl
  | cons m ms ih =>
    rw [List.foldl_cons, ih _ (fun x hx => hn x (by simp [hx])), hS, if_neg (fun e => hn m (by simp) e.symm)]

theorem jt_fold {S : Table → Mod → Table} {F} (hS : Local S F) (models : List Mod) (hnd : (models.map Mod.title).Nodup) (t : Table)
    (m : Mod) (hm : m ∈ models) (r h : Key) (hh : h.1 = m.title) : (models.foldl S t).cell r h = F m r h (t.cell r h) := by
  induction models generalizing t with
  | nil => simp at hm
  | cons a ms ih =>
    rw [List.map_cons, List.nodup_cons] at hnd
    rw [List.foldl_cons]
    rcases List.mem_cons.1 hm with rfl | hm'
    · rw [jt_fold_other hS ms _ r h, hS, if_pos hh]
      intro x hx e
      exact hnd.1 (List.mem_map.2 ⟨x, hx, by rw [e, hh]⟩)
    · rw [ih hnd.2 _ hm', hS, if_neg]
      intro e
      exact hnd.1 (List.mem_map.2 ⟨m, hm', by rw [← hh, e]⟩)

/-- The values of a parameter in a model's table. -/
def valueIn (m : Mod) (p : String) : Option (X × Option X) := m.params.lookup p

/-- What the parameter loop leaves in a cell. -/
noncomputable def paramCell (idx : List Key) (tStats : Bool) (m : Mod) (r h : Key) (old : Cell) : Cell :=
  if r ∈ idx then
    if h.2 = "Param" then (valueIn m r.2).elim old (fun v => .num v.1)
    else if h.2 = "t-Stat" ∧ tStats = true then ((valueIn m r.2).bind Prod.snd).elim old .num
    else old
  else old

theorem jt_paramOne (idx : List Key) (tStats : Bool) (title : String) (t : Table) (e : String × X × Option X) (r h : Key) :
    (paramOne idx tStats title t e).cell r h =
      if r ∈ idx ∧ r.2 = e.1 ∧ h.1 = title then
        if h.2 = "Param" then .num e.2.1 else if h.2 = "t-Stat" ∧ tStats = true then e.2.2.elim (t.cell r h) .num else t.cell r h
      else t.cell r h := by
  obtain ⟨h1, h2⟩ := h
  obtain ⟨p, v, s⟩ := e
  cases tStats <;> cases s <;> simp only [paramOne, putParam, Prod.mk.injEq] <;> by_cases a : r ∈ idx <;> by_cases b : r.2 = p <;>
    by_cases c : h1 = title <;> by_cases d : h2 = "Param" <;> by_cases d' : h2 = "t-Stat" <;> simp [a, b, c, d, d'] <;> simp_all

theorem jt_params (idx : List Key) (tStats : Bool) (title : String) (r h : Key) : ∀ (ps : List (String × X × Option X)) (t : Table),
    (ps.map Prod.fst).Nodup →
    (ps.foldl (paramOne idx tStats title) t).cell r h =
      if r ∈ idx ∧ h.1 = title then
        if h.2 = "Param" then (ps.lookup r.2).elim (t.cell r h) (fun v => .num v.1)
        else if h.2 = "t-Stat" ∧ tStats = true then ((ps.lookup r.2).bind Prod.snd).elim (t.cell r h) .num
        else t.cell r h
      else t.cell r h := by
  intro ps
  induction ps with
  | nil => intro t _; simp
  | cons e ps ih =>
    intro t hnd
    rw [List.map_cons, List.nodup_cons] at hnd
    rw [List.foldl_cons, ih _ hnd.2, jt_paramOne]
    obtain ⟨p, v, s⟩ := e
    by_cases b : r.2 = p
    · have hno : ps.lookup r.2 = none := by
        rw [List.lookup_eq_none_iff]
        intro q hq
        have : q.1 ≠ p := fun e => hnd.1 (List.mem_map.2 ⟨q, hq, e⟩)
        simp [b, Ne.symm this]
      have hyes : ((p, v, s) :: ps).lookup r.2 = some (v, s) := by rw [b]; simp [List.lookup]
      rw [hno, hyes]
      by_cases a : r ∈ idx <;> by_cases c : h.1 = title <;> by_cases d : h.2 = "Param" <;>
        by_cases d' : h.2 = "t-Stat" ∧ tStats = true <;> simp [a, b, c, d, d']
      all_goals simp_all
    · have hyes : ((p, v, s) :: ps).lookup r.2 = ps.lookup r.2 := by
        rw [List.lookup_cons]
        have : (r.2 == p) = false := by simpa using b
        rw [this]
      rw [hyes]
      simp [b]

theorem jt_param_local (idx : List Key) (tStats : Bool) (models : List Mod) (hp : ∀ m ∈ models, (m.params.map Prod.fst).Nodup) :
    ∀ m ∈ models, ∀ t r h, (paramStep idx tStats t m).cell r h =
      if h.1 = m.title then paramCell idx tStats m r h (t.cell r h) else t.cell r h := by
  intro m hm t r h
  rw [paramStep, jt_params idx tStats m.title r h m.params t (hp m hm)]
  unfold paramCell valueIn
  by_cases a : r ∈ idx <;> by_cases c : h.1 = m.title <;> simp [a, c]

/-- The same with the step made local for models outside the list. -/
theorem jt_param_fold (idx : List Key) (tStats : Bool) (models : List Mod) (hp : ∀ m ∈ models, (m.params.map Prod.fst).Nodup)
    (hnd : (models.map Mod.title).Nodup) (t : Table) (m : Mod) (hm : m ∈ models) (r h : Key) (hh : h.1 = m.title) :
    (models.foldl (paramStep idx tStats) t).cell r h = paramCell idx tStats m r h (t.cell r h) := by
  classical
  let S : Table → Mod → Table := fun t m =>
    if (m.params.map Prod.fst).Nodup then paramStep idx tStats t m
    else ⟨t.rows, fun r h => if h.1 = m.title then paramCell idx tStats m r h (t.cell r h) else t.cell r h⟩
  have hS : Local S (paramCell idx tStats) := by
    intro t m r h
    by_cases hd : (m.params.map Prod.fst).Nodup
    · simp only [S, if_pos hd]
      exact jt_param_local idx tStats [m] (by simpa using hd) m (by simp) t r h
    · simp only [S, if_neg hd]
  have : ∀ (ms : List Mod) (t : Table), (∀ m ∈ ms, (m.params.map Prod.fst).Nodup) →
      ms.foldl (paramStep idx tStats) t = ms.foldl S t := by
    intro ms
    induction ms with
    | nil => intros; rfl
    | cons a ms ih =>
      intro t h
      rw [List.foldl_cons, List.foldl_cons, ih _ (fun x hx => h x (by simp [hx]))]
      have : S t a = paramStep idx tStats t a := if_pos (h a (by simp))
      rw [this]
  rw [this models t hp]
  exact jt_fold hS models hnd t m hm r h hh

/-- What the loop over the bases leaves in a cell. -/
theorem jt_bases (f : Mod → String) (cat : String) (g : Mod → Option X) (h : Key) (r h' : Key) : ∀ (bases : List Mod) (t : Table),
    (bases.foldl (fun t b => tryPut t (cat, f b) h (g b)) t).cell r h' =
      if h' = h ∧ r.1 = cat then ((bases.reverse.find? (fun b => f b == r.2 && (g b).isSome)).bind g).elim (t.cell r h') .num
      else t.cell r h' := by
  intro bases
  induction bases with
  | nil => intro t; simp
  | cons b bs ih =>
    intro t
    rw [List.foldl_cons, ih, jt_tryPut, List.reverse_cons, List.find?_append]
    by_cases a : h' = h ∧ r.1 = cat
    · rw [if_pos a, if_pos a]
      cases hf : bs.reverse.find? (fun b => f b == r.2 && (g b).isSome) with
      | some x =>
        have hx := List.find?_some hf
        simp only [Bool.and_eq_true] at hx
        obtain ⟨y, hy⟩ := Option.isSome_iff_exists.1 hx.2
        simp [hy]
      | none =>
        simp only [Option.bind_none, Option.elim_none, Option.none_or]
        by_cases e : f b = r.2
        · have hr : r = (cat, f b) := Prod.ext a.2 e.symm
          rw [if_pos ⟨hr, a.1⟩]
          cases hg : g b with
          | none => simp [hg]
          | some y => simp [e, hg]
        · rw [if_neg (fun hh => e (by rw [hh.1]))]
          simp [e]
    · rw [if_neg a, if_neg a, if_neg]
      rintro ⟨rfl, hh⟩
      exact a ⟨hh, rfl⟩

/-- What the log likelihood loop leaves in a cell. -/
noncomputable def llCell (bases : List Mod) (m : Mod) (r h : Key) (old : Cell) : Cell :=
  if h.2 = "Param" ∧ r.1 = "Log Likelihood" then
    ((bases.reverse.find? (fun b => b.title == r.2 && b.recent.isSome)).bind Mod.recent).elim
      (if r.2 = "Nil" then (cached m.cNil).elim old .num else if r.2 = "Null" then (cached m.cNull).elim old .num
       else if r.2 = "Converged" then m.recent.elim old .num else old) .num
  else old

theorem jt_ll_local (bases : List Mod) : Local (llStep bases) (llCell bases) := by
  intro t m r h
  rw [llStep, jt_bases (fun b => b.title) "Log Likelihood" Mod.recent]
  obtain ⟨r1, r2⟩ := r
  obtain ⟨h1, h2⟩ := h
  simp only [jt_tryPut, llCell, Prod.mk.injEq]
  by_cases a : h1 = m.title <;> by_cases b : h2 = "Param" <;> by_cases c : r1 = "Log Likelihood" <;> simp [a, b, c]
  congr 1
  by_cases d : r2 = "Nil"
  · simp [d]
  · by_cases d' : r2 = "Null"
    · simp [d']
    · simp [d, d']

/-- What the rho squared loop leaves in a cell. -/
noncomputable def rhoCell (loglike : Bool) (bases : List Mod) (m : Mod) (r h : Key) (old : Cell) : Cell :=
  if h.2 = "Param" ∧ r.1 = "Rho Squared" then
    ((bases.reverse.find? (fun b => ("vs " ++ b.title) == r.2 && (rho m.recent (compLL loglike bases b.title)).isSome)).bind
      (fun b => rho m.recent (compLL loglike bases b.title))).elim
      (if r.2 = "vs Nil" then (rho m.now (cached m.cNil)).elim old .num
       else if r.2 = "vs Null" then (rho m.now (cached m.cNull)).elim old .num else old) .num
  else old

theorem jt_rho_local (loglike : Bool) (bases : List Mod) : Local (rhoStep loglike bases) (rhoCell loglike bases) := by
  intro t m r h
  rw [rhoStep, jt_bases (fun b => "vs " ++ b.title) "Rho Squared" (fun b => rho m.recent (compLL loglike bases b.title))]
  obtain ⟨r1, r2⟩ := r
  obtain ⟨h1, h2⟩ := h
  simp only [jt_tryPut, rhoCell, Prod.mk.injEq]
  by_cases a : h1 = m.title <;> by_cases b : h2 = "Param" <;> by_cases c : r1 = "Rho Squared" <;> simp [a, b, c]
  congr 1
  by_cases d : r2 = "vs Nil"
  · simp [d]
  · by_cases d' : r2 = "vs Null"
    · simp [d']
    · simp [d, d']

/-- The parts of the table. -/
noncomputable def jtParams (ordering : List (String × List String)) (tStats : Bool) (models : List Mod) : Table :=
  models.foldl (paramStep (index srt matchp ordering models) tStats) ⟨index srt matchp ordering models, fun _ _ => .blank⟩

theorem jt_rule (t : Table) (r h : Key) : (rule t).cell r h = if r = ("----", "----") then .line else t.cell r h := rfl

/-- A cell of the whole table. -/
theorem jt_cell (ordering : List (String × List String)) (tStats loglike rhosq : Bool) (bases models : List Mod)
    (hnd : (models.map Mod.title).Nodup) (m : Mod) (hm : m ∈ models) (r h : Key) (hh : h.1 = m.title) (hr : r ≠ ("----", "----")) :
    (joint srt matchp ordering tStats loglike rhosq bases models).cell r h =
      (fun c => if rhosq then rhoCell loglike bases m r h c else c)
        ((fun c => if loglike then llCell bases m r h c else c) ((jtParams srt matchp ordering tStats models).cell r h)) := by
  unfold joint
  have h1 : (if loglike || rhosq then rule (jtParams srt matchp ordering tStats models) else jtParams srt matchp ordering tStats models).cell r h
      = (jtParams srt matchp ordering tStats models).cell r h := by
    split_ifs
    · rw [jt_rule, if_neg hr]
    · rfl
  cases rhosq <;> cases loglike
  · rfl
  · simp only [Bool.true_or, if_true, Bool.false_eq_true, if_false] at h1 ⊢
    rw [jt_fold (jt_ll_local bases) models hnd _ m hm r h hh]
    exact congrArg _ h1
  · simp only [Bool.or_true, if_true, Bool.false_eq_true, if_false] at h1 ⊢
    rw [jt_fold (jt_rho_local false bases) models hnd _ m hm r h hh]
    exact congrArg _ h1
  · simp only [Bool.or_true, if_true] at h1 ⊢
    rw [jt_fold (jt_rho_local true bases) models hnd _ m hm r h hh, jt_fold (jt_ll_local bases) models hnd _ m hm r h hh]
    exact congrArg _ (congrArg _ h1)

/-- **C128 (values).** With different titles: in the row of a parameter, the column of a model shows that model's value of it and its t statistic if
there is one, and is blank if the model has no such parameter; whatever else is shown below. -/
theorem C128_values (ordering : List (String × List String)) (tStats loglike rhosq : Bool) (bases models : List Mod)
    (hnd : (models.map Mod.title).Nodup) (hp : ∀ m ∈ models, (m.params.map Prod.fst).Nodup) (m : Mod) (hm : m ∈ models) (c p : String)
    (hc : c ≠ "----" ∧ c ≠ "Log Likelihood" ∧ c ≠ "Rho Squared") (hrow : (c, p) ∈ index srt matchp ordering models) :
    (joint srt matchp ordering tStats loglike rhosq bases models).cell (c, p) (m.title, "Param") =
        (m.params.lookup p).elim .blank (fun v => .num v.1) ∧
    (joint srt matchp ordering tStats loglike rhosq bases models).cell (c, p) (m.title, "t-Stat") =
        if tStats then ((m.params.lookup p).bind Prod.snd).elim .blank .num else .blank := by
  have hr : (c, p) ≠ (("----", "----") : Key) := fun e => hc.1 (congrArg Prod.fst e)
  constructor
  · rw [jt_cell srt matchp ordering tStats loglike rhosq bases models hnd m hm (c, p) (m.title, "Param") rfl hr]
    have e1 : ∀ x, rhoCell loglike bases m (c, p) (m.title, "Param") x = x := fun x => by simp [rhoCell, hc.2.2]
    have e2 : ∀ x, llCell bases m (c, p) (m.title, "Param") x = x := fun x => by simp [llCell, hc.2.1]
    simp only [e1, e2, ite_self]
    rw [jtParams, jt_param_fold _ tStats models hp hnd _ m hm _ _ rfl]
    simp [paramCell, hrow, valueIn]
  · rw [jt_cell srt matchp ordering tStats loglike rhosq bases models hnd m hm (c, p) (m.title, "t-Stat") rfl hr]
    have e1 : ∀ x, rhoCell loglike bases m (c, p) (m.title, "t-Stat") x = x := fun x => by simp [rhoCell]
    have e2 : ∀ x, llCell bases m (c, p) (m.title, "t-Stat") x = x := fun x => by simp [llCell]
    simp only [e1, e2, ite_self]
    rw [jtParams, jt_param_fold _ tStats models hp hnd _ m hm _ _ rfl]
    simp [paramCell, hrow, valueIn]

/-- A row that is no parameter's is blank after the parameter loop. -/
theorem jt_blank (ordering : List (String × List String)) (tStats : Bool) (models : List Mod)
    (hnd : (models.map Mod.title).Nodup) (hp : ∀ m ∈ models, (m.params.map Prod.fst).Nodup) (m : Mod) (hm : m ∈ models) (r h : Key)
    (hh : h.1 = m.title) (hrow : r ∉ index srt matchp ordering models) :
    (jtParams srt matchp ordering tStats models).cell r h = .blank := by
  rw [jtParams, jt_param_fold _ tStats models hp hnd _ m hm _ _ hh]
  simp [paramCell, hrow]

/-- Every row of the index has a category of the ordering, or "Other". -/
theorem jt_category (hs : ∀ l, (srt l).Perm l) (ordering : List (String × List String)) (models : List Mod) (cat p : String)
    (ho : ∀ e ∈ ordering, e.1 ≠ cat) (hcat : cat ≠ "Other") : (cat, p) ∉ index srt matchp ordering models := by
  intro hin
  have hc := ((C128_rows srt matchp hs ordering models).2 cat p).1 hin
  have := hc.2
  unfold categoryOf at this
  split at this
  · next e he => exact ho e (List.mem_of_find?_eq_some he) this.symm
  · exact hcat this

/-- **C128 (statistics).** With different titles: the column of a model shows, below, the log likelihood of its own last estimation, its own null
and nil log likelihoods where these have been computed (and blank where not), and the log likelihoods of the bases. -/
theorem C128_loglikes (hs : ∀ l, (srt l).Perm l) (ordering : List (String × List String)) (tStats rhosq : Bool) (bases models : List Mod)
    (hnd : (models.map Mod.title).Nodup) (hp : ∀ m ∈ models, (m.params.map Prod.fst).Nodup) (m : Mod) (hm : m ∈ models)
    (ho : ∀ e ∈ ordering, e.1 ≠ "Log Likelihood")
    (hb : (bases.map Mod.title).Nodup ∧ ∀ b ∈ bases, b.title ≠ "Converged" ∧ b.title ≠ "Null" ∧ b.title ≠ "Nil") :
    (joint srt matchp ordering tStats true rhosq bases models).cell ("Log Likelihood", "Converged") (m.title, "Param") =
      m.recent.elim .blank .num ∧
    (joint srt matchp ordering tStats true rhosq bases models).cell ("Log Likelihood", "Null") (m.title, "Param") =
      (open Classical in if m.cNull = .fin 0 then .blank else .num m.cNull) ∧
    (joint srt matchp ordering tStats true rhosq bases models).cell ("Log Likelihood", "Nil") (m.title, "Param") =
      (open Classical in if m.cNil = .fin 0 then .blank else .num m.cNil) ∧
    ∀ b ∈ bases, (joint srt matchp ordering tStats true rhosq bases models).cell ("Log Likelihood", b.title) (m.title, "Param") =
      b.recent.elim .blank .num := by
  classical
  have key : ∀ s, (joint srt matchp ordering tStats true rhosq bases models).cell ("Log Likelihood", s) (m.title, "Param") =
      llCell bases m ("Log Likelihood", s) (m.title, "Param") .blank := by
    intro s
    rw [jt_cell srt matchp ordering tStats true rhosq bases models hnd m hm ("Log Likelihood", s) (m.title, "Param") rfl (by simp),
      jt_blank srt matchp ordering tStats models hnd hp m hm _ _ rfl (jt_category srt matchp hs ordering models _ _ ho (by decide))]
    have e1 : ∀ x, rhoCell true bases m ("Log Likelihood", s) (m.title, "Param") x = x := fun x => by simp [rhoCell]
    simp [e1]
  have nobase : ∀ s, (∀ b ∈ bases, b.title ≠ s) → bases.reverse.find? (fun b => b.title == s && b.recent.isSome) = none := by
    intro s hn
    rw [List.find?_eq_none]
    intro b hb'
    simp [hn b (by simpa using hb')]
  have c0 : ∀ x : X, (cached x).elim Cell.blank .num = if x = .fin 0 then Cell.blank else .num x := by
    intro x
    unfold cached
    by_cases hx : x = .fin 0 <;> simp [hx]
  refine ⟨?_, ?_, ?_, ?_⟩
  · rw [key, llCell, nobase _ (fun b hb' => (hb.2 b hb').1)]; simp
  · rw [key, llCell, nobase _ (fun b hb' => (hb.2 b hb').2.1)]; simp [c0]
  · rw [key, llCell, nobase _ (fun b hb' => (hb.2 b hb').2.2)]; simp [c0]
  · intro b hb'
    rw [key, llCell]
    have e : ∀ o : Option Mod, o.bind Mod.recent = b.recent → ((o.bind Mod.recent).elim
        (if b.title = "Nil" then (cached m.cNil).elim Cell.blank .num else if b.title = "Null" then (cached m.cNull).elim .blank .num
         else if b.title = "Converged" then m.recent.elim .blank .num else .blank) .num) = b.recent.elim .blank .num := by
      intro o ho'
      rw [ho', if_neg (hb.2 b hb').2.2, if_neg (hb.2 b hb').2.1, if_neg (hb.2 b hb').1]
    simp only [and_self, if_true]
    refine e _ ?_
    cases hr : b.recent with
    | none =>
      have : bases.reverse.find? (fun x => x.title == b.title && x.recent.isSome) = none := by
        rw [List.find?_eq_none]
        intro x hx
        by_cases ht : x.title = b.title
        · have : x = b := List.inj_on_of_nodup_map hb.1 (by simpa using hx) hb' ht
          simp [this, hr]
        · simp [ht]
      rw [this]; rfl
    | some y =>
      obtain ⟨x, hx⟩ : ∃ x, bases.reverse.find? (fun x => x.title == b.title && x.recent.isSome) = some x := by
        rw [← Option.isSome_iff_exists, List.find?_isSome]
        exact ⟨b, by simpa using hb', by simp [hr]⟩
      have hp := List.find?_some hx
      simp only [Bool.and_eq_true, beq_iff_eq] at hp
      have : x = b := List.inj_on_of_nodup_map hb.1 (by simpa using List.mem_of_find?_eq_some hx) hb' hp.1
      rw [hx, this]; exact hr

/-- **C128 fails for models with the same title** (models without a title are all called "Untitled").  The column of such a model shows, for every
parameter that both have, the value of the other model. -/
theorem C128_fails_titles (ordering : List (String × List String)) (m m' : Mod) (ht : m.title = m'.title)
    (hp : (m.params.map Prod.fst).Nodup) (hp' : (m'.params.map Prod.fst).Nodup) (c p : String) (v' : X × Option X)
    (hv' : m'.params.lookup p = some v') (hrow : (c, p) ∈ index srt matchp ordering [m, m']) (tStats : Bool) :
    (joint srt matchp ordering tStats false false [] [m, m']).cell (c, p) (m.title, "Param") = .num v'.1 := by
  have : (joint srt matchp ordering tStats false false [] [m, m']).cell (c, p) (m.title, "Param") =
      (paramStep (index srt matchp ordering [m, m']) tStats (paramStep (index srt matchp ordering [m, m']) tStats
        ⟨index srt matchp ordering [m, m'], fun _ _ => .blank⟩ m) m').cell (c, p) (m.title, "Param") := rfl
  rw [this, jt_param_local _ tStats [m'] (by simpa using hp') m' (by simp), if_pos ht]
  simp [paramCell, hrow, valueIn, hv']

/-- **C128 fails for a base without the rows of log likelihoods.** With `loglike=False`, `rhosq=True` the rho squared with respect to a base is
not shown, even though both models were estimated. -/
theorem C128_fails_rho_base (hs : ∀ l, (srt l).Perm l) (ordering : List (String × List String)) (tStats : Bool) (b m : Mod)
    (hp : (m.params.map Prod.fst).Nodup) (ho : ∀ e ∈ ordering, e.1 ≠ "Rho Squared") (hb : b.title ≠ "Null" ∧ b.title ≠ "Nil") :
    (joint srt matchp ordering tStats false true [b] [m]).cell ("Rho Squared", "vs " ++ b.title) (m.title, "Param") = .blank := by
  rw [jt_cell srt matchp ordering tStats false true [b] [m] (by simp) m (by simp) _ (m.title, "Param") rfl (by simp),
    jt_blank srt matchp ordering tStats [m] (by simp) (by simpa using hp) m (by simp) _ _ rfl
      (jt_category srt matchp hs ordering [m] _ _ ho (by decide))]
  have inj : ∀ s, "vs " ++ b.title = "vs " ++ s → b.title = s := by
    intro s h
    have := congrArg String.toList h
    simp only [String.toList_append, List.append_cancel_left_eq] at this
    exact String.toList_inj.1 this
  have n1 : "vs " ++ b.title ≠ "vs Nil" := fun h => hb.2 (inj "Nil" h)
  have n2 : "vs " ++ b.title ≠ "vs Null" := fun h => hb.1 (inj "Null" h)
  simp [rhoCell, n1, n2, compLL, rho]

/-- **C128 (rho squared).** With the rows of log likelihoods: the rho squared with respect to a base compares the last estimations of the
two; the one with respect to the null model uses the log likelihood at the present values. -/
theorem C128_rho (hs : ∀ l, (srt l).Perm l) (ordering : List (String × List String)) (tStats : Bool) (bases models : List Mod)
    (hnd : (models.map Mod.title).Nodup) (hp : ∀ m ∈ models, (m.params.map Prod.fst).Nodup) (m : Mod) (hm : m ∈ models)
    (ho : ∀ e ∈ ordering, e.1 ≠ "Rho Squared") (hbn : (bases.map Mod.title).Nodup) (hbt : ∀ b ∈ bases, b.title ≠ "Null" ∧ b.title ≠ "Nil") :
    (∀ b ∈ bases, ∀ ll base, m.recent = some ll → b.recent = some base →
      (joint srt matchp ordering tStats true true bases models).cell ("Rho Squared", "vs " ++ b.title) (m.title, "Param") =
        .num (.fin 1 - ll / base)) ∧
    (∀ ll, m.now = some ll → m.cNull ≠ .fin 0 →
      (joint srt matchp ordering tStats true true bases models).cell ("Rho Squared", "vs Null") (m.title, "Param") =
        .num (.fin 1 - ll / m.cNull)) := by
  have inj : ∀ s s', "vs " ++ s = "vs " ++ s' → s = s' := by
    intro s s' h
    have := congrArg String.toList h
    simp only [String.toList_append, List.append_cancel_left_eq] at this
    exact String.toList_inj.1 this
  have key : ∀ s, (joint srt matchp ordering tStats true true bases models).cell ("Rho Squared", s) (m.title, "Param") =
      rhoCell true bases m ("Rho Squared", s) (m.title, "Param") .blank := by
    intro s
    rw [jt_cell srt matchp ordering tStats true true bases models hnd m hm ("Rho Squared", s) (m.title, "Param") rfl (by simp),
      jt_blank srt matchp ordering tStats models hnd hp m hm _ _ rfl (jt_category srt matchp hs ordering models _ _ ho (by decide))]
    have e1 : ∀ x, llCell bases m ("Rho Squared", s) (m.title, "Param") x = x := fun x => by simp [llCell]
    simp [e1]
  have comp : ∀ b ∈ bases, ∀ base, b.recent = some base → compLL true bases b.title = some base := by
    intro b hb base hbr
    obtain ⟨x, hx⟩ : ∃ x, bases.reverse.find? (fun x => x.title == b.title && x.recent.isSome) = some x := by
      rw [← Option.isSome_iff_exists, List.find?_isSome]
      exact ⟨b, by simpa using hb, by simp [hbr]⟩
    have hp := List.find?_some hx
    simp only [Bool.and_eq_true, beq_iff_eq] at hp
    have : x = b := List.inj_on_of_nodup_map hbn (by simpa using List.mem_of_find?_eq_some hx) hb hp.1
    simp [compLL, hx, this, hbr]
  constructor
  · intro b hb ll base hll hbr
    have hrho : rho m.recent (compLL true bases b.title) = some (.fin 1 - ll / base) := by
      rw [comp b hb base hbr, hll]; rfl
    obtain ⟨x, hx⟩ : ∃ x, bases.reverse.find? (fun x => ("vs " ++ x.title) == ("vs " ++ b.title) &&
        (rho m.recent (compLL true bases x.title)).isSome) = some x := by
      rw [← Option.isSome_iff_exists, List.find?_isSome]
      exact ⟨b, by simpa using hb, by simp [hrho]⟩
    have hp := List.find?_some hx
    simp only [Bool.and_eq_true, beq_iff_eq] at hp
    have hxb : x = b := List.inj_on_of_nodup_map hbn (by simpa using List.mem_of_find?_eq_some hx) hb (inj _ _ hp.1)
    rw [key, rhoCell]
    simp only [and_self, if_true]
    rw [hx]
    simp [hxb, hrho]
  · intro ll hll hne
    have nob : bases.reverse.find? (fun x => ("vs " ++ x.title) == "vs Null" && (rho m.recent (compLL true bases x.title)).isSome) = none := by
      rw [List.find?_eq_none]
      intro x hx
      have : "vs " ++ x.title ≠ "vs Null" := fun h => (hbt x (by simpa using hx)).1 (inj x.title "Null" h)
      simp [this]
    rw [key, rhoCell]
    simp only [and_self, if_true]
    rw [nob]
    simp [cached, hne, hll, rho]

/-- **C128 fails after the parameters changed.** In the column of one model, the log likelihood shown as "Converged" and the rho squared shown
with respect to the null model do not fit together when the model's present values are not those of its last estimation. -/
theorem C128_fails_rho_null (hs : ∀ l, (srt l).Perm l) (ordering : List (String × List String)) (tStats : Bool)
    (ho : ∀ e ∈ ordering, e.1 ≠ "Log Likelihood" ∧ e.1 ≠ "Rho Squared") :
    ∃ m : Mod, ∃ ll null r : ℝ,
      (joint srt matchp ordering tStats true true [] [m]).cell ("Log Likelihood", "Converged") (m.title, "Param") = .num (.fin ll) ∧
      (joint srt matchp ordering tStats true true [] [m]).cell ("Log Likelihood", "Null") (m.title, "Param") = .num (.fin null) ∧
      (joint srt matchp ordering tStats true true [] [m]).cell ("Rho Squared", "vs Null") (m.title, "Param") = .num (.fin r) ∧
      r ≠ 1 - ll / null := by
  let m : Mod := ⟨"a", [], some (.fin (-5)), .fin (-10), .fin 0, some (.fin (-8))⟩
  have h1 := C128_loglikes srt matchp hs ordering tStats true [] [m] (by simp) (by simp [m]) m (by simp) (fun e he => (ho e he).1) (by simp)
  have h2 := (C128_rho srt matchp hs ordering tStats [] [m] (by simp) (by simp [m]) m (by simp) (fun e he => (ho e he).2) (by simp)
    (by simp)).2 (.fin (-8)) rfl (by simp [m])
  refine ⟨m, -5, -10, 1 - (-8) / (-10), h1.1, ?_, ?_, by norm_num⟩
  · rw [h1.2.1, if_neg (by simp [m])]
  · rw [h2]
    show Cell.num (X.fin 1 - X.fin (-8) / X.fin (-10)) = _
    congr 1
    rw [X.fin_div (by norm_num), X.fin_sub]

end joint

/-- Two models that share one parameter. -/
noncomputable def jtA : Mod := ⟨"A", [("cost", .fin (-1), some (.fin (-4))), ("time", .fin (-2), none)], some (.fin (-5)), .fin (-10), .fin 0, none⟩
noncomputable def jtB : Mod := ⟨"B", [("cost", .fin (-3), none)], some (.fin (-7)), .fin 0, .fin 0, none⟩

example : index id (fun _ _ => true) [("Parameters", [".*"])] [jtA, jtB] = [("Parameters", "cost"), ("Parameters", "time")] := by
  simp [index, names, jtA, jtB, pfoTuples, ordLoop, catLoop, Request.keysOf]

/-- The hypotheses of `C128_values` are met, and its conclusion is not trivial. -/
example : (joint id (fun _ _ => true) [("Parameters", [".*"])] true true true [jtB] [jtA, jtB]).cell ("Parameters", "cost") ("B", "Param") =
    .num (.fin (-3)) ∧
    (joint id (fun _ _ => true) [("Parameters", [".*"])] true true true [jtB] [jtA, jtB]).cell ("Parameters", "time") ("B", "Param") = .blank := by
  have hi : index id (fun _ _ => true) [("Parameters", [".*"])] [jtA, jtB] = [("Parameters", "cost"), ("Parameters", "time")] := by
    simp [index, names, jtA, jtB, pfoTuples, ordLoop, catLoop, Request.keysOf]
  have h : ∀ p, ("Parameters", p) ∈ index id (fun _ _ => true) [("Parameters", [".*"])] [jtA, jtB] →
      (joint id (fun _ _ => true) [("Parameters", [".*"])] true true true [jtB] [jtA, jtB]).cell ("Parameters", p) (jtB.title, "Param") =
        (jtB.params.lookup p).elim .blank (fun v => .num v.1) := fun p hp =>
    (C128_values id (fun _ _ => true) [("Parameters", [".*"])] true true true [jtB] [jtA, jtB] (by simp [jtA, jtB]) (by simp [jtA, jtB])
      jtB (by simp) "Parameters" p (by decide) hp).1
  refine ⟨(h "cost" (by simp [hi])).trans ?_, (h "time" (by simp [hi])).trans ?_⟩
  · simp [jtB]
  · simp [jtB, List.lookup]

end Larch.Props
