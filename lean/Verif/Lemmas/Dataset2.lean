import Verif.Lemmas.Dataset

/-! # The stages of `from_idca` -/

namespace Larch.DatasetM

set_option linter.unusedSectionVars false

variable {κ K : Type} [DecidableEq κ] [Field K] [LinearOrder K]

/-- The value of a variable. -/
def Var.at (x : Var κ K) (c : κ) (a : Label) : Option K :=
  match x.arr with
  | .ca v => v c a
  | .co v => v c

theorem read_eq (ds : DS κ K) (k : String) (c : κ) (a : Label) :
    ds.read k c a = (ds.vars.lookup k).map (fun x => x.at c a) := by
  unfold DS.read Var.at
  cases h : ds.vars.lookup k with
  | none => rfl
  | some x => obtain ⟨d, v | v⟩ := x <;> rfl

theorem crackVar_num {cases : List κ} {alts : List Label} {d : Dt} (hd : d ≠ .other) (v : κ → Label → Option K) :
    crackVar cases alts ⟨d, .ca v⟩ =
      if dissolves cases alts v then ⟨d, .co (fun c => minOf (present alts v c))⟩ else ⟨d, .ca v⟩ := by
  cases d <;> first | exact absurd rfl hd | rfl

/-- The labels of the cases and of the alternatives. -/
def casesOf (f : Frame κ K) : List κ := (f.rows.map Prod.fst).dedup

/-- The labels of the alternatives that are in use. -/
def altsOf (f : Frame κ K) : List Label :=
  ((List.range f.levels.length).filter (fun i => decide (i ∈ f.rows.map Prod.snd))).filterMap f.labelOf

/-- A column before the fill: dense, perhaps dissolved, then converted. -/
def baseVar (junk : K) (f : Frame κ K) (crack : Bool) (col : Col K) : Var κ K :=
  castVar junk col.dtype
    (if crack then crackVar (casesOf f) (altsOf f) ⟨col.dtype, .ca (f.dense col)⟩ else ⟨col.dtype, .ca (f.dense col)⟩)

/-- All columns before the fill. -/
def baseVars (junk : K) (f : Frame κ K) (crack : Bool) : List (String × Var κ K) :=
  f.cols.map (fun nc => (nc.1, baseVar junk f crack nc.2))

theorem baseVars_names (junk : K) (f : Frame κ K) (crack : Bool) :
    (baseVars junk f crack).map Prod.fst = f.cols.map Prod.fst := by
  unfold baseVars
  rw [List.map_map]
  rfl

theorem typeOf_of_mem {f : Frame κ K} (hok : f.Ok) {k : String} {col : Col K} (h : (k, col) ∈ f.cols) :
    f.typeOf k = some col.dtype := by
  unfold Frame.typeOf
  rw [lookup_of_mem hok.names h]
  rfl

theorem stage_base {junk : K} {f : Frame κ K} {ds : DS κ K} {crack : Bool} (hok : f.Ok) (h : toDataset f = .ok ds) :
    f.rows.Nodup ∧
    setDtypes junk f (if crack then crackDS ds else ds) = ⟨casesOf f, altsOf f, baseVars junk f crack, []⟩ := by
  unfold toDataset at h
  split at h
  · rename_i hn
    injection h with h
    subst h
    refine ⟨hn, ?_⟩
    have key : ∀ (g : Col K → Var κ K) (cols : List (String × Col K)), (∀ p ∈ cols, p ∈ f.cols) →
        (cols.map (fun nc => (nc.1, g nc.2))).map (fun nv =>
            match f.typeOf nv.1 with
            | none => nv
            | some d => (nv.1, castVar junk d nv.2)) =
          cols.map (fun nc => (nc.1, castVar junk nc.2.dtype (g nc.2))) := by
      intro g cols hc
      rw [List.map_map]
      refine List.map_congr_left (fun p hp => ?_)
      obtain ⟨k, col⟩ := p
      simp only [Function.comp_apply]
      rw [typeOf_of_mem hok (hc _ hp)]
    cases crack with
    | false =>
      simp only [Bool.false_eq_true, if_false, setDtypes, baseVars, baseVar, casesOf, altsOf]
      exact congrArg (fun vs => (⟨_, _, vs, []⟩ : DS κ K)) (key (fun c => ⟨c.dtype, .ca (f.dense c)⟩) f.cols (fun p hp => hp))
    | true =>
      simp only [if_true, setDtypes, crackDS, baseVars, baseVar, casesOf, altsOf, List.map_map]
      have := key (fun c => crackVar (casesOf f) (altsOf f) ⟨c.dtype, .ca (f.dense c)⟩) f.cols (fun p hp => hp)
      rw [List.map_map] at this
      simp only [casesOf, altsOf] at this
      exact congrArg (fun vs => (⟨_, _, vs, []⟩ : DS κ K)) this
  · cases h

theorem stage_names {ds ds' : DS κ K} {names : Option Names} (h : nameAlts ds names = .ok ds') :
    ds'.cases = ds.cases ∧ ds'.alts = ds.alts ∧ ds'.vars = ds.vars := by
  unfold nameAlts at h
  split at h
  · injection h with h; subst h; exact ⟨rfl, rfl, rfl⟩
  · unfold setAltnames at h
    split at h
    · injection h with h; subst h; exact ⟨rfl, rfl, rfl⟩
    · split at h
      · injection h with h; subst h; exact ⟨rfl, rfl, rfl⟩
      · cases h

theorem fromIdca_stages {junk : K} {f f' : Frame κ K} {crack : Bool} {names : Option Names} {avail : String}
    {fill : Option (Fill K)} {ds : DS κ K} (hok : f.Ok)
    (h : fromIdca junk f crack names avail fill = .ok (ds, f')) :
    ∃ names' ds1, relabel f names = .ok (f', names') ∧ f'.Ok ∧ f'.rows.Nodup ∧
      nameAlts ⟨casesOf f', altsOf f', baseVars junk f' crack, []⟩ names' = .ok ds1 ∧
      ds1.cases = casesOf f' ∧ ds1.alts = altsOf f' ∧ ds1.vars = baseVars junk f' crack ∧
      addAvail f' avail fill ds1 = .ok ds := by
  unfold fromIdca at h
  cases hr : relabel f names with
  | error e => rw [hr] at h; cases h
  | ok p =>
    obtain ⟨g, names'⟩ := p
    rw [hr] at h
    simp only [bind, Except.bind] at h
    have hok' := (relabel_spec hok hr).1
    cases ht : toDataset g with
    | error e => rw [ht] at h; cases h
    | ok ds0 =>
      rw [ht] at h
      simp only at h
      obtain ⟨hn, hb⟩ := stage_base (junk := junk) (crack := crack) hok' ht
      rw [hb] at h
      cases hna : nameAlts (⟨casesOf g, altsOf g, baseVars junk g crack, []⟩ : DS κ K) names' with
      | error e => rw [hna] at h; cases h
      | ok ds1 =>
        rw [hna] at h
        simp only at h
        cases ha : addAvail g avail fill ds1 with
        | error e => rw [ha] at h; cases h
        | ok ds2 =>
          rw [ha] at h
          simp only at h
          injection h with h
          injection h with h1 h2
          subst h1
          subst h2
          obtain ⟨e1, e2, e3⟩ := stage_names hna
          exact ⟨names', ds1, rfl, hok', hn, hna, e1, e2, e3, ha⟩

theorem at_fillWith {mask : κ → Label → Bool} {fill : Fill K} {k : String} {x y : Var κ K} {c : κ} {a : Label}
    (h : fillWith mask fill k x = .ok y) (hm : mask c a = true) : y.at c a = x.at c a := by
  unfold fillWith at h
  split at h
  · injection h with h; subst h; rfl
  · rename_i v hv
    split at h
    · cases h
    · injection h with h; subst h; rfl
    · injection h with h
      subst h
      simp [Var.at, whereFill, hm, hv]

theorem mem_of_lookup {α β : Type} [DecidableEq α] {k : α} {x : β} : ∀ {l : List (α × β)}, l.lookup k = some x →
    (k, x) ∈ l := by
  intro l
  induction l with
  | nil => intro h; cases h
  | cons p t ih =>
    intro h
    obtain ⟨a, b⟩ := p
    rw [List.lookup_cons] at h
    by_cases hk : k = a
    · subst hk
      simp only [BEq.rfl, Option.some.injEq] at h
      subst h
      simp
    · have : (k == a) = false := by simpa using hk
      simp only [this] at h
      exact List.mem_cons_of_mem _ (ih h)

/-- The data variables in the end: at a cell that has a row, what they were before the fill; at the other cells, filled or
not. -/
theorem addAvail_cols {f : Frame κ K} {avail : String} {fill : Option (Fill K)} {ds ds' : DS κ K}
    (hn : (ds.vars.map Prod.fst).Nodup) (hav : avail = "_avail_" ∨ "_avail_" ∉ ds.vars.map Prod.fst)
    (h : addAvail f avail fill ds = .ok ds') {k : String} {x : Var κ K} (hk : (k, x) ∈ ds.vars) :
    ds'.cases = ds.cases ∧ ds'.alts = ds.alts ∧ ds'.coords = ds.coords ∧
    ∃ y, ds'.vars.lookup k = some y ∧
      (∀ c a, (f.find c a).isSome → y.at c a = x.at c a) ∧
      (fill = none → y = x) ∧
      (∀ g, fill = some g → avail = "_avail_" → avail ∉ ds.vars.map Prod.fst →
        f.rows.length < ds.cases.length * ds.alts.length →
        fillWith (fun c a => (f.find c a).isSome) g k x = .ok y) := by
  have hlk := lookup_of_mem hn hk
  unfold addAvail at h
  split at h
  · rename_i hc
    rw [putVar_new hc.1] at h
    cases fill with
    | none =>
      simp only at h
      injection h with h
      subst h
      exact ⟨rfl, rfl, rfl, x, lookup_append_of_some hlk, fun _ _ _ => rfl, fun _ => rfl, fun g hg => by cases hg⟩
    | some g =>
      simp only [bind, Except.bind] at h
      cases hl : fillLoop g (ds.vars ++ [(avail, availVar f)]) with
      | error e => rw [hl] at h; cases h
      | ok out =>
        rw [hl] at h
        simp only at h
        injection h with h
        subst h
        refine ⟨rfl, rfl, rfl, ?_⟩
        rcases hav with rfl | hav
        · obtain ⟨vars', w, hout, hnames, hspec, -⟩ := fillLoop_spec hn hc.1 hl
          obtain ⟨y, hy, hy'⟩ := hspec k x hk
          have hmask : (fun c a => decide ((fun c a => some (if (f.find c a).isSome then (1 : K) else 0)) c a ≠ some 0))
              = fun c a => (f.find c a).isSome := by
            funext c a
            by_cases hs : (f.find c a).isSome = true <;> simp [hs]
          refine ⟨y, ?_, ?_, (fun hx => nomatch hx), ?_⟩
          · simp only [hout]
            exact lookup_append_of_some (lookup_of_mem (by rw [hnames]; exact hn) hy')
          · intro c a hs
            rw [hmask] at hy
            exact at_fillWith hy hs
          · intro g' hg' _ _ _
            injection hg' with hg'
            subst hg'
            rw [hmask] at hy
            exact hy
        · by_cases hname : avail = "_avail_"
          · subst hname
            obtain ⟨vars', w, hout, hnames, hspec, -⟩ := fillLoop_spec hn hc.1 hl
            obtain ⟨y, hy, hy'⟩ := hspec k x hk
            have hmask : (fun c a => decide ((fun c a => some (if (f.find c a).isSome then (1 : K) else 0)) c a ≠ some 0))
                = fun c a => (f.find c a).isSome := by
              funext c a
              by_cases hs : (f.find c a).isSome = true <;> simp [hs]
            refine ⟨y, ?_, ?_, (fun hx => nomatch hx), ?_⟩
            · simp only [hout]
              exact lookup_append_of_some (lookup_of_mem (by rw [hnames]; exact hn) hy')
            · intro c a hs
              rw [hmask] at hy
              exact at_fillWith hy hs
            · intro g' hg' _ _ _
              injection hg' with hg'
              subst hg'
              rw [hmask] at hy
              exact hy
          · have hno : "_avail_" ∉ (ds.vars ++ [(avail, availVar f)]).map Prod.fst := by
              simp only [List.map_append, List.map_cons, List.map_nil, List.mem_append, List.mem_singleton, not_or]
              exact ⟨hav, fun e => hname e.symm⟩
            have := fillLoop_other hno hl
            subst this
            exact ⟨x, lookup_append_of_some hlk, fun _ _ _ => rfl, fun _ => rfl,
              fun g' _ hx => absurd hx hname⟩
  · rename_i hc
    injection h with h
    subst h
    exact ⟨rfl, rfl, rfl, x, hlk, fun _ _ _ => rfl, fun _ => rfl,
      fun g _ _ h1 h2 => absurd ⟨h1, h2⟩ hc⟩

/-- The availability variable in the end. -/
theorem addAvail_avail {f : Frame κ K} {avail : String} {fill : Option (Fill K)} {ds ds' : DS κ K}
    (hn : (ds.vars.map Prod.fst).Nodup) (hnew : avail ∉ ds.vars.map Prod.fst)
    (hsparse : f.rows.length < ds.cases.length * ds.alts.length) (h : addAvail f avail fill ds = .ok ds') :
    (fill = none → ds'.vars.lookup avail = some (availVar f)) ∧
    (∀ g, fill = some g → avail = "_avail_" → ∃ w, ds'.vars.lookup avail = some w ∧
      fillWith (fun c a => (f.find c a).isSome) g avail (availVar f) = .ok w) := by
  unfold addAvail at h
  rw [if_pos ⟨hnew, hsparse⟩, putVar_new hnew] at h
  constructor
  · rintro rfl
    simp only at h
    injection h with h
    subst h
    simp only
    rw [lookup_append_of_notMem hnew]
    simp
  · rintro g rfl rfl
    simp only [bind, Except.bind] at h
    cases hl : fillLoop g (ds.vars ++ [("_avail_", availVar f)]) with
    | error e => rw [hl] at h; cases h
    | ok out =>
      rw [hl] at h
      simp only at h
      injection h with h
      subst h
      obtain ⟨vars', w, hout, hnames, -, hw⟩ := fillLoop_spec hn hnew hl
      refine ⟨w, ?_, ?_⟩
      · simp only [hout]
        rw [lookup_append_of_notMem (by rw [hnames]; exact hnew)]
        simp
      · have hmask : (fun c a => decide ((fun c a => some (if (f.find c a).isSome then (1 : K) else 0)) c a ≠ some 0))
            = fun c a => (f.find c a).isSome := by
          funext c a
          by_cases hs : (f.find c a).isSome = true <;> simp [hs]
        rw [hmask] at hw
        exact hw

theorem mem_casesOf {f : Frame κ K} {i : Nat} {c : κ} {a : Label} (h : f.RowAt i c a) : c ∈ casesOf f := by
  obtain ⟨p, hp, -⟩ := h
  unfold casesOf
  rw [List.mem_dedup]
  exact List.mem_map.2 ⟨_, List.mem_of_getElem? hp, rfl⟩

theorem mem_altsOf {f : Frame κ K} (a : Label) : a ∈ altsOf f ↔ ∃ i c, f.RowAt i c a := by
  unfold altsOf
  simp only [List.mem_filterMap, List.mem_filter, List.mem_range, decide_eq_true_eq, List.mem_map, Frame.labelOf]
  constructor
  · rintro ⟨j, ⟨hj, r, hr, rfl⟩, ha⟩
    obtain ⟨i, hi⟩ := List.getElem?_of_mem hr
    exact ⟨i, r.1, r.2, hi, ha⟩
  · rintro ⟨i, c, code, hr, ha⟩
    exact ⟨code, ⟨(List.getElem?_eq_some_iff.1 ha).1, (c, code), List.mem_of_getElem? hr, rfl⟩, ha⟩

theorem mem_present {f : Frame κ K} {col : Col K} {c : κ} {x : K} (h : x ∈ present (altsOf f) (f.dense col) c) :
    ∃ j b, f.RowAt j c b ∧ col.vals[j]? = some (some x) := by
  unfold present at h
  obtain ⟨b, -, hb⟩ := List.mem_filterMap.1 h
  unfold Frame.dense at hb
  split at hb
  · cases hb
  · rename_i j hj
    refine ⟨j, b, find_some hj, ?_⟩
    cases hv : col.vals[j]? with
    | none => rw [hv] at hb; cases hb
    | some o => rw [hv] at hb; simp at hb; rw [hb]

end Larch.DatasetM
