import Verif.Spec.Dataset
import Mathlib.Algebra.Order.BigOperators.Group.List
import Mathlib.Tactic.Ring
import Mathlib.Tactic.Linarith
import Mathlib.Tactic.Positivity
import Mathlib.Tactic.FieldSimp

/-! # Lemmas about dataset construction -/

namespace Larch.DatasetM

set_option linter.unusedSectionVars false

section basic
variable {κ K : Type}

theorem getElem?_arange1 (n i : Nat) : (arange1 n)[i]? = if i < n then some (Label.int (i + 1 : Nat)) else none := by
  unfold arange1
  by_cases h : i < n
  · simp [h]
  · simp [h]

theorem arange1_length (n : Nat) : (arange1 n).length = n := by simp [arange1]

theorem arange1_nodup (n : Nat) : (arange1 n).Nodup := by
  unfold arange1
  refine List.Nodup.map ?_ List.nodup_range
  intro a b h
  simp only [Label.int.injEq] at h
  omega

theorem all_isInt (l : List Label) : l.all isInt = true ↔ ∀ x ∈ l, ∃ i, x = Label.int i := by
  rw [List.all_eq_true]
  refine forall₂_congr (fun x _ => ?_)
  cases x <;> simp [isInt]

theorem not_all_isInt (l : List Label) : l.all isInt = false ↔ ∃ x ∈ l, ∃ s, x = Label.str s := by
  rw [List.all_eq_false]
  constructor
  · rintro ⟨x, hx, h⟩
    refine ⟨x, hx, ?_⟩
    cases x <;> simp [isInt] at h ⊢
  · rintro ⟨x, hx, s, rfl⟩
    exact ⟨_, hx, by simp [isInt]⟩

/-- A list walked through with `mapM` in `Option`. -/
theorem mapM_some {α β : Type} {g : α → Option β} : ∀ {l : List α} {l' : List β}, l.mapM g = some l' →
    l'.length = l.length ∧ ∀ (i : Nat) (x : α), l[i]? = some x → ∃ y, g x = some y ∧ l'[i]? = some y := by
  intro l
  induction l with
  | nil =>
    intro l' h
    simp only [List.mapM_nil, Option.pure_def, Option.some.injEq] at h
    subst h
    simp
  | cons a t ih =>
    intro l' h
    rw [List.mapM_cons] at h
    simp only [Option.bind_eq_bind, Option.pure_def, Option.bind_eq_some_iff] at h
    obtain ⟨b, hb, t', ht, h⟩ := h
    injection h with h
    subst h
    obtain ⟨hl, hi⟩ := ih ht
    refine ⟨by simp [hl], fun i x hx => ?_⟩
    cases i with
    | zero =>
      simp only [List.getElem?_cons_zero, Option.some.injEq] at hx
      subst hx
      exact ⟨b, hb, by simp⟩
    | succ i =>
      simp only [List.getElem?_cons_succ] at hx ⊢
      exact hi i x hx

theorem catCode_some {l : List String} {a : Label} {c : Nat} (h : catCode l a = some c) :
    ∃ s, a = .str s ∧ l[c]? = some s ∧ (∀ i < c, l[i]? ≠ some s) ∧ c < l.length := by
  cases a with
  | int i => simp [catCode] at h
  | str s =>
    simp only [catCode] at h
    split at h
    · rename_i hs
      injection h with h
      subst h
      have hlt : l.idxOf s < l.length := List.idxOf_lt_length_iff.2 hs
      refine ⟨s, rfl, ?_, ?_, hlt⟩
      · rw [List.getElem?_eq_getElem hlt]
        simp
      · intro i hi he
        have := List.not_of_lt_findIdx (p := (· == s)) (xs := l) (i := i) hi
        rw [List.getElem?_eq_getElem (by omega)] at he
        simp at he
        simp [he] at this
    · cases h

/-- What `relabel` does: the caller's frame afterwards has the same cases, rows and columns; only the labels of the
alternatives may change, and only if some are text. -/
theorem relabel_spec {f f' : Frame κ K} {names names' : Option Names} (hok : f.Ok)
    (h : relabel f names = .ok (f', names')) :
    f'.Ok ∧ f'.cols = f.cols ∧ f'.rows.map Prod.fst = f.rows.map Prod.fst ∧
      (∀ i c a, f.RowAt i c a → ∃ b, f'.RowAt i c b ∧ f.NewLabel names a b) ∧
      ((∀ l ∈ f.levels, ∃ i, l = .int i) → f' = f ∧ names' = names) := by
  unfold relabel at h
  by_cases hi : f.levels.all isInt = true
  · rw [if_pos hi] at h
    injection h with h
    injection h with h1 h2
    subst h1
    subst h2
    have hi' := (all_isInt _).1 hi
    exact ⟨hok, rfl, rfl, fun i c a hr => ⟨a, hr, Or.inl ⟨hi', rfl⟩⟩, fun _ => ⟨rfl, rfl⟩⟩
  · have hi' : f.levels.all isInt = false := by simpa using hi
    have hs := (not_all_isInt _).1 hi'
    have hcontra : ¬ (∀ l ∈ f.levels, ∃ i, l = .int i) := fun hc => hi ((all_isInt _).2 hc)
    rw [if_neg hi] at h
    match names, h with
    | none, h =>
      injection h with h
      injection h with h1 h2
      subst h1
      refine ⟨⟨arange1_nodup _, ?_, hok.lengths, hok.names, hok.ints⟩, rfl, rfl, ?_, fun hc => absurd hc hcontra⟩
      · intro r hr
        simp only [arange1_length]
        exact hok.codes r hr
      · rintro i c a ⟨code, hr, hl⟩
        have hlt : code < f.levels.length := hok.codes _ (List.mem_of_getElem? hr)
        exact ⟨.int (code + 1 : Nat), ⟨code, hr, by simp [getElem?_arange1, hlt]⟩,
          Or.inr ⟨hs, code, hl, rfl⟩⟩
    | some (.seq l), h =>
      simp only at h
      split at h
      · cases h
      · rename_i rows hrows
        injection h with h
        injection h with h1 h2
        subst h1
        obtain ⟨hlen, hget⟩ := mapM_some hrows
        have hmap : rows.map Prod.fst = f.rows.map Prod.fst := by
          apply List.ext_getElem?
          intro i
          simp only [List.getElem?_map]
          cases hx : f.rows[i]? with
          | none =>
            have : rows[i]? = none := by
              rw [List.getElem?_eq_none_iff] at hx ⊢
              omega
            simp [this]
          | some r =>
            obtain ⟨y, hy, hy'⟩ := hget i r hx
            rw [hy']
            simp only [Option.map_eq_some_iff] at hy
            obtain ⟨c, -, rfl⟩ := hy
            simp
        refine ⟨⟨arange1_nodup _, ?_, ?_, hok.names, hok.ints⟩, rfl, hmap, ?_, fun hc => absurd hc hcontra⟩
        · intro r hr
          simp only [arange1_length]
          obtain ⟨i, hi⟩ := List.getElem?_of_mem hr
          have hlt : i < f.rows.length := by
            have h0 := (List.getElem?_eq_some_iff.1 hi).1
            exact hlen ▸ h0
          obtain ⟨y, hy, hy'⟩ := hget i _ (List.getElem?_eq_getElem hlt)
          rw [hi] at hy'
          injection hy' with hy'
          subst hy'
          simp only [Option.map_eq_some_iff, Option.bind_eq_some_iff] at hy
          obtain ⟨c, ⟨lab, -, hc⟩, rfl⟩ := hy
          exact (catCode_some hc).choose_spec.2.2.2
        · intro nc hnc
          rw [hlen]
          exact hok.lengths nc hnc
        · rintro i c a ⟨code, hr, hl⟩
          obtain ⟨y, hy, hy'⟩ := hget i _ hr
          simp only [Option.map_eq_some_iff, Option.bind_eq_some_iff, Frame.labelOf, hl] at hy
          obtain ⟨c', ⟨lab, hlab, hc⟩, rfl⟩ := hy
          injection hlab with hlab
          subst hlab
          obtain ⟨s, hs1, hs2, hs3, hs4⟩ := catCode_some hc
          exact ⟨.int (c' + 1 : Nat), ⟨c', hy', by simp [getElem?_arange1, hs4]⟩,
            Or.inr ⟨hs, s, c', hs1, hs2, hs3, rfl⟩⟩

end basic

section find
variable {κ K : Type} [DecidableEq κ]

theorem find_some {f : Frame κ K} {c : κ} {a : Label} {i : Nat} (h : f.find c a = some i) : f.RowAt i c a := by
  unfold Frame.find at h
  simp only at h
  split at h
  · rename_i hlt
    injection h with h
    subst h
    have := List.findIdx_getElem (w := hlt)
    simp only [Bool.and_eq_true, decide_eq_true_eq] at this
    generalize List.findIdx (fun r => decide (r.1 = c) && decide (f.labelOf r.2 = some a)) f.rows = j at *
    refine ⟨(f.rows[j]).2, ?_, this.2⟩
    rw [List.getElem?_eq_getElem hlt]
    rw [← this.1]
  · cases h

theorem rowAt_unique {f : Frame κ K} (hok : f.Ok) (hn : f.rows.Nodup) {i j : Nat} {c : κ} {a : Label}
    (hi : f.RowAt i c a) (hj : f.RowAt j c a) : i = j := by
  obtain ⟨p, hp, hp'⟩ := hi
  obtain ⟨q, hq, hq'⟩ := hj
  have hpq : p = q := by
    obtain ⟨h1, h1'⟩ := List.getElem?_eq_some_iff.1 hp'
    obtain ⟨h2, h2'⟩ := List.getElem?_eq_some_iff.1 hq'
    exact (hok.levels.getElem_inj_iff).1 (h1'.trans h2'.symm)
  subst hpq
  obtain ⟨h1, h1'⟩ := List.getElem?_eq_some_iff.1 hp
  obtain ⟨h2, h2'⟩ := List.getElem?_eq_some_iff.1 hq
  exact (hn.getElem_inj_iff).1 (h1'.trans h2'.symm)

theorem find_isSome {f : Frame κ K} {i : Nat} {c : κ} {a : Label} (hr : f.RowAt i c a) : (f.find c a).isSome := by
  obtain ⟨p, hp, hp'⟩ := hr
  unfold Frame.find
  have : f.rows.findIdx (fun r => decide (r.1 = c) && decide (f.labelOf r.2 = some a)) < f.rows.length := by
    apply List.findIdx_lt_length_of_exists
    exact ⟨_, List.mem_of_getElem? hp, by simp [Frame.labelOf, hp']⟩
  simp [this]

theorem find_eq {f : Frame κ K} (hok : f.Ok) (hn : f.rows.Nodup) {i : Nat} {c : κ} {a : Label}
    (hr : f.RowAt i c a) : f.find c a = some i := by
  obtain ⟨j, hj⟩ := Option.isSome_iff_exists.1 (find_isSome hr)
  rw [hj, rowAt_unique hok hn (find_some hj) hr]

theorem find_none {f : Frame κ K} {c : κ} {a : Label} (h : ∀ i, ¬ f.RowAt i c a) : f.find c a = none := by
  cases hx : f.find c a with
  | none => rfl
  | some i => exact absurd (find_some hx) (h i)

theorem dense_row {f : Frame κ K} (hok : f.Ok) (hn : f.rows.Nodup) {i : Nat} {c : κ} {a : Label}
    (hr : f.RowAt i c a) {col : Col K} {x : Option K} (hx : col.vals[i]? = some x) : f.dense col c a = x := by
  unfold Frame.dense
  rw [find_eq hok hn hr]
  simp [hx]

theorem dense_absent {f : Frame κ K} {c : κ} {a : Label} (h : ∀ i, ¬ f.RowAt i c a) (col : Col K) :
    f.dense col c a = none := by
  unfold Frame.dense
  rw [find_none h]

end find

section lookups
variable {α β : Type}

theorem lookup_map {γ : Type} [DecidableEq α] (g : α → β → γ) (k : α) : ∀ l : List (α × β),
    (l.map (fun p => (p.1, g p.1 p.2))).lookup k = (l.lookup k).map (g k) := by
  intro l
  induction l with
  | nil => rfl
  | cons p t ih =>
    obtain ⟨a, b⟩ := p
    simp only [List.map_cons, List.lookup_cons]
    by_cases h : k = a
    · subst h; simp
    · have : (k == a) = false := by simpa using h
      simp [this, ih]

theorem lookup_of_mem [DecidableEq α] {k : α} {x : β} : ∀ {l : List (α × β)}, (l.map Prod.fst).Nodup → (k, x) ∈ l →
    l.lookup k = some x := by
  intro l
  induction l with
  | nil => intro _ h; cases h
  | cons p t ih =>
    intro hn h
    obtain ⟨a, b⟩ := p
    simp only [List.map_cons, List.nodup_cons] at hn
    rw [List.lookup_cons]
    rcases List.mem_cons.1 h with h | h'
    · injection h with h1 h2
      subst h1; subst h2; simp
    · have hka : k ≠ a := by
        rintro rfl
        exact hn.1 (List.mem_map.2 ⟨(k, x), h', rfl⟩)
      have : (k == a) = false := by simpa using hka
      simp [this, ih hn.2 h']

theorem lookup_append_of_notMem [DecidableEq α] {k : α} : ∀ {l l' : List (α × β)}, k ∉ l.map Prod.fst →
    (l ++ l').lookup k = l'.lookup k := by
  intro l l' h
  induction l with
  | nil => rfl
  | cons p t ih =>
    obtain ⟨a, b⟩ := p
    simp only [List.map_cons, List.mem_cons, not_or] at h
    have : (k == a) = false := by simpa using h.1
    simp [List.lookup_cons, this, ih h.2]

theorem lookup_none_of_notMem [DecidableEq α] {k : α} {l : List (α × β)} (h : k ∉ l.map Prod.fst) :
    l.lookup k = none := by
  have := lookup_append_of_notMem (l' := []) h
  simpa using this

theorem lookup_append_of_some [DecidableEq α] {k : α} {x : β} : ∀ {l l' : List (α × β)}, l.lookup k = some x →
    (l ++ l').lookup k = some x := by
  intro l l' h
  induction l with
  | nil => cases h
  | cons p t ih =>
    obtain ⟨a, b⟩ := p
    rw [List.cons_append, List.lookup_cons]
    rw [List.lookup_cons] at h
    by_cases hk : k = a
    · subst hk; simpa using h
    · have : (k == a) = false := by simpa using hk
      simp only [this] at h ⊢
      exact ih h

end lookups

section fill
variable {κ K : Type} [DecidableEq κ] [Field K] [LinearOrder K]

/-- Filling one variable with a given mask. -/
def fillWith (mask : κ → Label → Bool) (fill : Fill K) (k : String) (x : Var κ K) : Except Err (Var κ K) :=
  match x.arr with
  | .co _ => .ok x
  | .ca v =>
    match fillerFor fill k x.dtype with
    | .error e => .error e
    | .ok none => .ok x
    | .ok (some y) => .ok ⟨x.dtype, .ca (whereFill mask y v)⟩

theorem putVar_mid {pre suf : List (String × Var κ K)} {k : String} {x y : Var κ K}
    (h1 : k ∉ pre.map Prod.fst) (h2 : k ∉ suf.map Prod.fst) :
    putVar (pre ++ (k, x) :: suf) k y = pre ++ (k, y) :: suf := by
  unfold putVar
  have hm : k ∈ (pre ++ (k, x) :: suf).map Prod.fst := by simp
  rw [if_pos hm]
  simp only [List.map_append, List.map_cons, if_true]
  have aux : ∀ l : List (String × Var κ K), k ∉ l.map Prod.fst →
      l.map (fun nv => if nv.1 = k then (k, y) else nv) = l := by
    intro l hl
    induction l with
    | nil => rfl
    | cons p t ih =>
      simp only [List.map_cons, List.mem_cons, not_or] at hl
      simp only [List.map_cons]
      rw [if_neg (fun e => hl.1 e.symm), ih hl.2]
  rw [aux pre h1, aux suf h2]

theorem putVar_new {vars : List (String × Var κ K)} {k : String} {x : Var κ K} (h : k ∉ vars.map Prod.fst) :
    putVar vars k x = vars ++ [(k, x)] := by
  unfold putVar
  rw [if_neg h]

theorem fillStep_mid {fill : Fill K} {pre suf : List (String × Var κ K)} {k : String} {x : Var κ K}
    {mask : κ → Label → Bool} (h1 : k ∉ pre.map Prod.fst) (h2 : k ∉ suf.map Prod.fst)
    (hm : availMask (pre ++ (k, x) :: suf) = .ok mask) :
    fillStep fill (pre ++ (k, x) :: suf) k =
      match fillWith mask fill k x with
      | .error e => .error e
      | .ok y => .ok (pre ++ (k, y) :: suf) := by
  unfold fillStep
  rw [lookup_append_of_notMem h1]
  simp only [List.lookup_cons, BEq.rfl, fillWith]
  cases hx : x.arr with
  | co v => simp
  | ca v =>
    simp only
    cases hf : fillerFor fill k x.dtype with
    | error e => rfl
    | ok o =>
      cases o with
      | none => rfl
      | some y =>
        simp only [hm, bind, Except.bind]
        rw [putVar_mid h1 h2]

/-- The availability mask of the dataset before the availability variable itself is filled. -/
theorem availMask_last {vars : List (String × Var κ K)} {v : κ → Label → Option K} {d : Dt}
    (h : "_avail_" ∉ vars.map Prod.fst) :
    availMask (vars ++ [("_avail_", ⟨d, .ca v⟩)]) = .ok (fun c a => decide (v c a ≠ some 0)) := by
  unfold availMask
  rw [lookup_append_of_notMem h]
  simp

/-- The loop over all the variables but the last, the availability variable. -/
theorem fillLoop_body {fill : Fill K} {v : κ → Label → Option K} {d : Dt} (rest : List (String × Var κ K)) :
    ∀ (pre : List (String × Var κ K)) (out : List (String × Var κ K)),
      ((pre ++ rest).map Prod.fst).Nodup → "_avail_" ∉ (pre ++ rest).map Prod.fst →
      (rest.map Prod.fst).foldlM (fun vs k => fillStep fill vs k) (pre ++ rest ++ [("_avail_", ⟨d, .ca v⟩)])
        = .ok out →
      ∃ rest' : List (String × Var κ K), out = pre ++ rest' ++ [("_avail_", ⟨d, .ca v⟩)] ∧
        rest'.map Prod.fst = rest.map Prod.fst ∧
        ∀ k x, (k, x) ∈ rest → ∃ y, fillWith (fun c a => decide (v c a ≠ some 0)) fill k x = .ok y ∧ (k, y) ∈ rest' := by
  induction rest with
  | nil =>
    intro pre out _ _ h
    simp only [List.map_nil, List.foldlM_nil, pure, Except.pure] at h
    injection h with h
    exact ⟨[], by simpa using h.symm, rfl, by simp⟩
  | cons p t ih =>
    intro pre out hn ha h
    obtain ⟨k, x⟩ := p
    have hn' : (pre.map Prod.fst ++ k :: t.map Prod.fst).Nodup := by simpa using hn
    have ha' : "_avail_" ∉ pre.map Prod.fst ∧ "_avail_" ≠ k ∧ "_avail_" ∉ t.map Prod.fst := by
      simpa [not_or] using ha
    have hk1 : k ∉ pre.map Prod.fst := fun hc =>
      (List.nodup_append.1 hn').2.2 k hc k (by simp) rfl
    have hk2 : k ∉ (t ++ [("_avail_", (⟨d, .ca v⟩ : Var κ K))]).map Prod.fst := by
      have : k ∉ t.map Prod.fst := (List.nodup_cons.1 (List.nodup_append.1 hn').2.1).1
      simp only [List.map_append, List.map_cons, List.map_nil, List.mem_append, List.mem_singleton, not_or]
      exact ⟨this, fun e => ha'.2.1 e.symm⟩
    have hm : availMask (pre ++ (k, x) :: (t ++ [("_avail_", (⟨d, .ca v⟩ : Var κ K))]))
        = .ok (fun c a => decide (v c a ≠ some 0)) := by
      have := availMask_last (v := v) (d := d) ha
      simpa using this
    simp only [List.map_cons, List.foldlM_cons] at h
    have e1 : pre ++ (k, x) :: t ++ [("_avail_", (⟨d, .ca v⟩ : Var κ K))]
        = pre ++ (k, x) :: (t ++ [("_avail_", ⟨d, .ca v⟩)]) := by simp
    rw [e1, fillStep_mid hk1 hk2 hm] at h
    cases hf : fillWith (fun c a => decide (v c a ≠ some 0)) fill k x with
    | error e => rw [hf] at h; cases h
    | ok y =>
      rw [hf] at h
      simp only [bind, Except.bind] at h
      have e2 : pre ++ (k, y) :: (t ++ [("_avail_", (⟨d, .ca v⟩ : Var κ K))])
          = (pre ++ [(k, y)]) ++ t ++ [("_avail_", ⟨d, .ca v⟩)] := by simp
      rw [e2] at h
      obtain ⟨rest', hout, hnames, hspec⟩ := ih (pre ++ [(k, y)]) out (by simpa using hn') (by
        simp only [List.map_append, List.map_cons, List.map_nil, List.mem_append, List.mem_singleton, not_or]
        exact ⟨⟨ha'.1, ha'.2.1⟩, ha'.2.2⟩) h
      refine ⟨(k, y) :: rest', by simpa using hout, by simp [hnames], ?_⟩
      intro k' x' hmem
      rcases List.mem_cons.1 hmem with hmem | hmem
      · injection hmem with h1 h2
        subst h1; subst h2
        exact ⟨y, hf, by simp⟩
      · obtain ⟨y', hy', hy''⟩ := hspec k' x' hmem
        exact ⟨y', hy', List.mem_cons_of_mem _ hy''⟩

/-- The whole loop, when the availability variable has the default name. -/
theorem fillLoop_spec {fill : Fill K} {v : κ → Label → Option K} {d : Dt} {vars out : List (String × Var κ K)}
    (hn : (vars.map Prod.fst).Nodup) (ha : "_avail_" ∉ vars.map Prod.fst)
    (h : fillLoop fill (vars ++ [("_avail_", ⟨d, .ca v⟩)]) = .ok out) :
    ∃ vars' : List (String × Var κ K), ∃ w, out = vars' ++ [("_avail_", w)] ∧
      vars'.map Prod.fst = vars.map Prod.fst ∧
      (∀ k x, (k, x) ∈ vars → ∃ y, fillWith (fun c a => decide (v c a ≠ some 0)) fill k x = .ok y ∧ (k, y) ∈ vars') ∧
      fillWith (fun c a => decide (v c a ≠ some 0)) fill "_avail_" ⟨d, .ca v⟩ = .ok w := by
  unfold fillLoop at h
  rw [List.map_append, List.foldlM_append] at h
  cases hb : (vars.map Prod.fst).foldlM (fun vs k => fillStep fill vs k) (vars ++ [("_avail_", ⟨d, .ca v⟩)]) with
  | error e =>
    rw [hb] at h
    cases h
  | ok mid =>
    rw [hb] at h
    obtain ⟨vars', hmid, hnames, hspec⟩ := fillLoop_body vars [] mid (by simpa using hn) (by simpa using ha)
      (by simpa using hb)
    simp only [List.nil_append] at hmid
    subst hmid
    have ha' : "_avail_" ∉ vars'.map Prod.fst := by rw [hnames]; exact ha
    have hm := availMask_last (v := v) (d := d) ha'
    simp only [bind, Except.bind, List.map_cons, List.map_nil, List.foldlM_cons, List.foldlM_nil] at h
    rw [fillStep_mid ha' (by simp) hm] at h
    cases hf : fillWith (fun c a => decide (v c a ≠ some 0)) fill "_avail_" (⟨d, .ca v⟩ : Var κ K) with
    | error e => rw [hf] at h; cases h
    | ok w =>
      rw [hf] at h
      simp only [pure, Except.pure] at h
      injection h with h
      exact ⟨vars', w, h.symm, hnames, hspec, rfl⟩

/-- The loop when no variable is called `_avail_`: it either fails or does nothing. -/
theorem fillLoop_other {fill : Fill K} {vars out : List (String × Var κ K)} (ha : "_avail_" ∉ vars.map Prod.fst)
    (h : fillLoop fill vars = .ok out) : out = vars := by
  unfold fillLoop at h
  have hm : availMask vars = .error Err.key := by
    unfold availMask
    rw [lookup_none_of_notMem ha]
  have step : ∀ k out, fillStep fill vars k = .ok out → out = vars := by
    intro k out h
    unfold fillStep at h
    split at h
    · injection h with h; exact h.symm
    · split at h
      · injection h with h; exact h.symm
      · cases hf : fillerFor fill k _ with
        | error e => rw [hf] at h; cases h
        | ok o =>
          rw [hf] at h
          cases o with
          | none => simp only [bind, Except.bind] at h; injection h with h; exact h.symm
          | some y => rw [hm] at h; simp [bind, Except.bind] at h
  generalize vars.map Prod.fst = ks at h
  induction ks with
  | nil =>
    simp only [List.foldlM_nil, pure, Except.pure] at h
    injection h with h
    exact h.symm
  | cons k t ih =>
    simp only [List.foldlM_cons] at h
    cases hs : fillStep fill vars k with
    | error e => rw [hs] at h; cases h
    | ok mid =>
      rw [hs] at h
      have := step k mid hs
      subst this
      exact ih h

end fill

section variance
variable {K : Type} [Field K] [LinearOrder K] [IsStrictOrderedRing K]

theorem minOf_mem {xs : List K} {m : K} (h : minOf xs = some m) : m ∈ xs := by
  cases xs with
  | nil => cases h
  | cons x t =>
    simp only [minOf, Option.some.injEq] at h
    subst h
    have : ∀ (l : List K) (z : K), l.foldl min z ∈ z :: l := by
      intro l
      induction l with
      | nil => intro z; simp
      | cons a l ih =>
        intro z
        simp only [List.foldl_cons]
        have := ih (min z a)
        rcases List.mem_cons.1 this with h | h
        · rcases min_choice z a with hc | hc
          · rw [h, hc]; simp
          · rw [h, hc]; simp
        · simp [h]
    exact this t x

theorem minOf_le {xs : List K} {m : K} (h : minOf xs = some m) : ∀ x ∈ xs, m ≤ x := by
  cases xs with
  | nil => cases h
  | cons x t =>
    simp only [minOf, Option.some.injEq] at h
    subst h
    have : ∀ (l : List K) (z : K), ∀ x ∈ z :: l, l.foldl min z ≤ x := by
      intro l
      induction l with
      | nil => intro z x hx; simp at hx; simp [hx]
      | cons a l ih =>
        intro z x hx
        simp only [List.foldl_cons]
        have h0 := ih (min z a) (min z a) (by simp)
        rcases List.mem_cons.1 hx with rfl | hx
        · exact h0.trans (min_le_left _ _)
        · rcases List.mem_cons.1 hx with rfl | hx
          · exact h0.trans (min_le_right _ _)
          · exact ih (min z a) x (by simp [hx])
    exact this t x

theorem minOf_isSome {xs : List K} (h : xs ≠ []) : ∃ m, minOf xs = some m := by
  cases xs with
  | nil => exact absurd rfl h
  | cons x t => exact ⟨_, rfl⟩

theorem sq_le_sum (m : K) : ∀ (xs : List K) (x : K), x ∈ xs → (x - m) ^ 2 ≤ (xs.map (fun x => (x - m) ^ 2)).sum := by
  intro xs
  induction xs with
  | nil => intro x h; cases h
  | cons a t ih =>
    intro x h
    have hnn : 0 ≤ (t.map (fun x => (x - m) ^ 2)).sum := List.sum_nonneg (by
      intro y hy
      obtain ⟨z, -, rfl⟩ := List.mem_map.1 hy
      positivity)
    simp only [List.map_cons, List.sum_cons]
    rcases List.mem_cons.1 h with rfl | h
    · linarith
    · have := ih x h
      have h2 : 0 ≤ (a - m) ^ 2 := by positivity
      linarith

/-- Values with a small variance are close to each other. -/
theorem close_of_variance {xs : List K} {s : K} (hs : variance xs = some s) (hlt : s < (tol : K) ^ 2) {x y : K}
    (hx : x ∈ xs) (hy : y ∈ xs) : (x - y) ^ 2 < 4 * xs.length * (tol : K) ^ 2 := by
  unfold variance at hs
  split at hs
  · cases hs
  · rename_i hne
    injection hs with hs
    have hn : (0 : K) < xs.length := by
      have : 0 < xs.length := List.length_pos_iff.2 hne
      exact_mod_cast this
    rw [← hs, div_lt_iff₀ hn] at hlt
    have h1 := sq_le_sum (mean xs) xs x hx
    have h2 := sq_le_sum (mean xs) xs y hy
    have h3 : (x - y) ^ 2 ≤ 2 * (x - mean xs) ^ 2 + 2 * (y - mean xs) ^ 2 := by
      nlinarith [sq_nonneg ((x - mean xs) + (y - mean xs))]
    nlinarith

theorem dissolves_iff {κ : Type} {cases : List κ} {alts : List Label} {v : κ → Label → Option K}
    (h : dissolves cases alts v = true) {c : κ} (hc : c ∈ cases) {x y : K} (hx : x ∈ present alts v c)
    (hy : y ∈ present alts v c) : (x - y) ^ 2 < 4 * alts.length * (tol : K) ^ 2 := by
  unfold dissolves at h
  simp only [Bool.and_eq_true, Bool.not_eq_true', List.all_eq_true, decide_eq_true_eq, List.mem_filterMap] at h
  have hne : present alts v c ≠ [] := List.ne_nil_of_mem hx
  obtain ⟨s, hs⟩ : ∃ s, variance (present alts v c) = some s := by
    unfold variance
    rw [if_neg hne]
    exact ⟨_, rfl⟩
  have hlt := h.2 s ⟨c, hc, hs⟩
  have h1 := close_of_variance hs hlt hx hy
  have hle : ((present alts v c).length : K) ≤ alts.length := by
    exact_mod_cast List.length_filterMap_le _ _
  have ht : (0 : K) ≤ (tol : K) ^ 2 := by positivity
  nlinarith

end variance

end Larch.DatasetM
