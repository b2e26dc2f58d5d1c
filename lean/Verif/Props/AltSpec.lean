import Verif.Model.AltSpec

/-!
# C134: the alternatives given to a dataset are its alternatives
-/

namespace Larch.Props

open Larch.AltSpec
open Larch.DatasetM (Label isInt)

variable {K : Type}

/-! ## specification -/

/-- A list of alternatives: integer codes and text names. -/
def CodesAndNames (pairs : List (Label × Label)) : Prop :=
  pairs ≠ [] ∧ ∀ p ∈ pairs, (∃ i, p.1 = .int i) ∧ ∃ s, p.2 = .str s

/-- The ways to say it: a mapping or a series, from codes to names or from names to codes. -/
inductive SaysPairs (pairs : List (Label × Label)) : Alts → Prop
  | byCode : SaysPairs pairs (.mapping (pairs.map Prod.fst) (pairs.map Prod.snd))
  | byName : SaysPairs pairs (.mapping (pairs.map Prod.snd) (pairs.map Prod.fst))
  | seriesByCode (n i : Option String) : SaysPairs pairs (.series n i (pairs.map Prod.fst) (pairs.map Prod.snd))
  | seriesByName (n i : Option String) : SaysPairs pairs (.series n i (pairs.map Prod.snd) (pairs.map Prod.fst))

/-! ## proofs -/

theorem al_setCoord_new {d : String} {l : List Label} {o : Data K} (h : o.dims.lookup d = none) :
    setCoord d l o = .ok { o with dims := (d, l.length) :: o.dims, coords := (d, l) :: o.coords } := by
  unfold setCoord; rw [h]

theorem al_setCoord_old {d : String} {l : List Label} {o : Data K} (h : o.dims.lookup d = some l.length) :
    setCoord d l o = .ok { o with coords := (d, l) :: o.coords.filter fun c => c.1 ≠ d } := by
  unfold setCoord; rw [h]; simp

theorem al_allInt_codes {pairs : List (Label × Label)} (h : CodesAndNames pairs) : allInt (pairs.map Prod.fst) = true := by
  unfold allInt
  rw [Bool.and_eq_true]
  constructor
  · cases pairs with
    | nil => exact absurd rfl h.1
    | cons a b => rfl
  · rw [List.all_eq_true]
    intro x hx
    obtain ⟨p, hp, rfl⟩ := List.mem_map.mp hx
    obtain ⟨⟨i, hi⟩, -⟩ := h.2 p hp
    rw [hi]; rfl

theorem al_allInt_names {pairs : List (Label × Label)} (h : CodesAndNames pairs) : allInt (pairs.map Prod.snd) = false := by
  unfold allInt
  cases pairs with
  | nil => exact absurd rfl h.1
  | cons a b =>
    obtain ⟨-, s, hs⟩ := h.2 a (by simp)
    simp [hs, isInt]

theorem al_pairs {d : String} {pairs : List (Label × Label)} {k v : List Label} {o : Data K} (hd : o.dims.lookup d = none)
    (hkv : (k = pairs.map Prod.fst ∧ v = pairs.map Prod.snd) ∨ (k = pairs.map Prod.snd ∧ v = pairs.map Prod.fst))
    (h : CodesAndNames pairs) :
    initPairs d k v o = .ok { o with
      dims := (d, pairs.length) :: o.dims, coords := (d, pairs.map Prod.fst) :: o.coords, altid := some d,
      altNames := some (d, pairs.map Prod.snd) } := by
  unfold initPairs
  have hd' : ({ o with altid := some d } : Data K).dims.lookup d = none := hd
  rcases hkv with ⟨rfl, rfl⟩ | ⟨rfl, rfl⟩
  · rw [al_allInt_names h]
    simp only [Bool.false_and, Bool.false_eq_true, if_false]
    rw [al_setCoord_new hd']
    simp [Except.bind, setNames, List.lookup]
  · rw [al_allInt_names h, al_allInt_codes h]
    simp only [Bool.not_false, Bool.and_self, if_true]
    rw [al_setCoord_new hd']
    simp [Except.bind, setNames, List.lookup]

theorem al_zip (pairs : List (Label × Label)) : (pairs.map Prod.fst).zip (pairs.map Prod.snd) = pairs := by
  induction pairs with
  | nil => rfl
  | cons a b ih => simp [ih]

theorem al_lookup_none {α : Type} {l : List (String × α)} {d : String} (h : d ∉ l.map Prod.fst) : l.lookup d = none := by
  induction l with
  | nil => rfl
  | cons a b ih =>
    simp only [List.map_cons, List.mem_cons, not_or] at h
    rw [List.lookup]
    have : (d == a.1) = false := by simpa using h.1
    rw [this]
    exact ih h.2

/-- C134: alternatives given as codes and names, in whatever way, are those of the dataset, each code with its name, and no data change
(for a dataset that has no alternatives of its own). -/
theorem C134_mapping (o : Data K) (pairs : List (Label × Label)) (h : CodesAndNames pairs) (alts : Alts) (hs : SaysPairs pairs alts)
    (hnew : o.dims.map Prod.fst = o.caseid.toList) (hn : ∀ n i k v, alts = .series n i k v → orElse n (orElse i "_altid_") ∉ o.caseid.toList)
    (hm : "_altid_" ∉ o.caseid.toList) :
    ∃ o', initFor none alts o = .ok o' ∧ altsMapping o' = .ok pairs ∧ altids o' = .ok (pairs.map Prod.fst) ∧
      o'.vars = o.vars ∧ o'.caseid = o.caseid := by
  have done : ∀ d k v, d ∉ o.caseid.toList →
      ((k = pairs.map Prod.fst ∧ v = pairs.map Prod.snd) ∨ (k = pairs.map Prod.snd ∧ v = pairs.map Prod.fst)) →
      ∃ o', initPairs d k v o = .ok o' ∧ altsMapping o' = .ok pairs ∧ altids o' = .ok (pairs.map Prod.fst) ∧
      o'.vars = o.vars ∧ o'.caseid = o.caseid := by
    intro d k v hd hkv
    refine ⟨_, al_pairs (al_lookup_none (by rw [hnew]; exact hd)) hkv h, ?_, ?_, rfl, rfl⟩
    · simp [altsMapping, altids, List.lookup, Except.map, al_zip]
    · simp [altids, List.lookup]
  cases hs with
  | byCode => exact done _ _ _ hm (.inl ⟨rfl, rfl⟩)
  | byName => exact done _ _ _ hm (.inr ⟨rfl, rfl⟩)
  | seriesByCode n i => exact done _ _ _ (hn n i _ _ rfl) (.inl ⟨rfl, rfl⟩)
  | seriesByName n i => exact done _ _ _ (hn n i _ _ rfl) (.inr ⟨rfl, rfl⟩)

/-- C134: a list of codes. -/
theorem C134_array (o : Data K) (codes : List Label) (hnew : "_altid_" ∉ o.dims.map Prod.fst) (hnames : o.altNames = none) :
    ∃ o', initFor none (.array none codes) o = .ok o' ∧ altids o' = .ok codes ∧ altsMapping o' = .ok (codes.zip codes) ∧ o'.vars = o.vars := by
  have hd : ({ o with altid := some "_altid_" } : Data K).dims.lookup "_altid_" = none := al_lookup_none hnew
  refine ⟨{ o with dims := ("_altid_", codes.length) :: o.dims, coords := ("_altid_", codes) :: o.coords, altid := some "_altid_" },
    ?_, ?_, ?_, rfl⟩
  · show setCoord "_altid_" codes { o with altid := some "_altid_" } = _
    rw [al_setCoord_new hd]
  · simp [altids, List.lookup]
  · simp [altsMapping, altids, List.lookup, Except.map, hnames]

/-- C134: `set_altids` makes the given codes the alternatives and touches no data, or raises if the dimension exists with another size. -/
theorem C134_set_altids (o : Data K) (codes : List Label) (arrName dimName : Option String) :
    (∃ o', setAltids codes arrName dimName o = .ok o' ∧ altids o' = .ok codes ∧ o'.vars = o.vars) ∨
    (setAltids codes arrName dimName o = .error .size ∧ ∃ d k, o.dims.lookup d = some k ∧ k ≠ codes.length) := by
  unfold setAltids
  generalize orElse dimName (orElse arrName (o.altid.getD "_altid_")) = d
  simp only
  cases hd : o.dims.lookup d with
  | none =>
    refine .inl ⟨{ o with dims := (d, codes.length) :: o.dims, coords := (d, codes) :: o.coords, altid := some d }, ?_, ?_, rfl⟩
    · rw [al_setCoord_new hd]; simp [Except.bind, setAltid]
    · simp [altids, List.lookup]
  | some k =>
    by_cases hk : k = codes.length
    · subst hk
      refine .inl ⟨{ o with coords := (d, codes) :: o.coords.filter (fun c => c.1 ≠ d), altid := some d }, ?_, ?_, rfl⟩
      · rw [al_setCoord_old hd]
        have : d ∈ o.dims.map Prod.fst := by
          by_contra hc
          rw [al_lookup_none hc] at hd
          simp at hd
        simp only [Except.bind, setAltid]
        rw [if_neg (not_not.mpr this)]
      · simp [altids, List.lookup]
    · refine .inr ⟨?_, d, k, hd, hk⟩
      unfold setCoord
      rw [hd]
      simp [hk, Except.bind]

/-- C134: the cases must be a dimension of the data. -/
theorem C134_caseid (o : Data K) (c : String) (alts : Alts) :
    (c ∈ o.dims.map Prod.fst → ∀ o', initFor (some c) alts o = .ok o' → o'.caseid = some c) ∧
    (c ∉ o.dims.map Prod.fst → initFor (some c) alts o = .error .noDim) := by
  have keepPairs : ∀ (d : String) (k v : List Label) (o o' : Data K), initPairs d k v o = .ok o' → o'.caseid = o.caseid := by
    have keepSet : ∀ (d : String) (l : List Label) (o o' : Data K), setCoord d l o = .ok o' → o'.caseid = o.caseid := by
      intro d l o o' h
      unfold setCoord at h
      split at h
      · split at h
        · cases h; rfl
        · cases h
      · cases h; rfl
    have keepNames : ∀ (d : String) (l : List Label) (o o' : Data K), setNames d l o = .ok o' → o'.caseid = o.caseid := by
      intro d l o o' h
      unfold setNames at h
      split at h
      · cases h; rfl
      · cases h
    intro d k v o o' h
    unfold initPairs at h
    split at h
    · cases h1 : setCoord d v { o with altid := some d } with
      | error e => rw [h1] at h; simp [Except.bind] at h
      | ok o1 =>
        rw [h1] at h
        rw [keepNames d k o1 o' h, keepSet _ _ _ _ h1]
    · cases h1 : setCoord d k { o with altid := some d } with
      | error e => rw [h1] at h; simp [Except.bind] at h
      | ok o1 =>
        rw [h1] at h
        rw [keepNames d v o1 o' h, keepSet _ _ _ _ h1]
  constructor
  · intro hc o' h
    unfold initFor initCase at h
    simp only [hc, if_true, Except.bind] at h
    cases alts with
    | none => cases h; rfl
    | dim d => cases h; rfl
    | mapping k v => exact (keepPairs _ _ _ _ _ h).trans rfl
    | series n i k v => exact (keepPairs _ _ _ _ _ h).trans rfl
    | array nm codes =>
      unfold initAlts at h
      simp only at h
      split at h
      · cases h
      · unfold setCoord at h
        split at h
        · split at h
          · cases h; rfl
          · cases h
        · cases h; rfl
  · intro hc
    unfold initFor initCase
    simp [hc, Except.bind]

/-! ## what does not hold -/

/-- Data for three alternatives. -/
def threeAlts : Data Int :=
  { dims := [("_altid_", 3)], coords := [("_altid_", [.int 1, .int 2, .int 3])], vars := [("cost", "_altid_", [10, 20, 30])],
    caseid := none, altid := some "_altid_", groupid := none, altNames := none }

/-- C134 fails for data that have alternatives already: names given in another order move the data of one alternative to another. -/
theorem C134_fails_relabel : ∃ (o o' : Data Int) (pairs : List (Label × Label)), CodesAndNames pairs ∧
    altids o = .ok [.int 1, .int 2, .int 3] ∧ (pairs.map Prod.fst).Perm [.int 1, .int 2, .int 3] ∧
    initFor none (.mapping (pairs.map Prod.fst) (pairs.map Prod.snd)) o = .ok o' ∧
    valueFor o "_altid_" "cost" (.int 1) = some 10 ∧ valueFor o' "_altid_" "cost" (.int 1) = some 30 := by
  refine ⟨threeAlts, { threeAlts with
      coords := [("_altid_", [.int 3, .int 2, .int 1])], altNames := some ("_altid_", [.str "bus", .str "car", .str "walk"]) },
    [(.int 3, .str "bus"), (.int 2, .str "car"), (.int 1, .str "walk")], ?_, rfl, by decide, rfl, by decide, by decide⟩
  refine ⟨by simp, ?_⟩
  intro p hp
  simp at hp
  rcases hp with rfl | rfl | rfl <;> exact ⟨⟨_, rfl⟩, _, rfl⟩

/-- C134 fails for the name of a dimension that is not there: it is accepted, and there are no alternatives. -/
theorem C134_fails_unknown_dim : ∃ o o' : Data Int, initFor none (.dim "alternatives") o = .ok o' ∧
    "alternatives" ∉ o.dims.map Prod.fst ∧ altids o = .ok [.int 1, .int 2, .int 3] ∧ altids o' = .error .key :=
  ⟨threeAlts, { threeAlts with altid := some "alternatives" }, rfl, by decide, rfl, rfl⟩

/-- C134 fails for an index without a name. -/
theorem C134_fails_index (o : Data K) (codes : List Label) : initFor none (.array (some none) codes) o = .error .noName := rfl

/-- C134 fails for `dc.CASEID = name`: the check is made only for data with a group dimension. -/
theorem C134_fails_set_caseid : (∃ o o' : Data Int, setCaseid (some "nothere") o = .ok o' ∧ "nothere" ∉ o.dims.map Prod.fst) ∧
    ∃ o : Data Int, o.groupid = some "households" ∧ setCaseid (some "persons") o = .error .noDim :=
  ⟨⟨threeAlts, { threeAlts with caseid := some "nothere" }, rfl, by decide⟩,
    { threeAlts with groupid := some "households" }, rfl, rfl⟩

/-- Merging two tables of case labels, as `xarray.merge` does with `join`: union or intersection. -/
def joinCases (opts : Opts) (l : List (List Int)) : Except Fault (Data Int) :=
  match l with
  | [a, b] =>
    let cs := if opts.join = "inner" then a.filter (· ∈ b) else a ++ b.filter (· ∉ a)
    .ok { dims := [("caseid", cs.length)], coords := [("caseid", cs.map Label.int)], vars := [], caseid := none, altid := none,
          groupid := none, altNames := none }
  | _ => .error .size

/-- C134 fails for `larch.merge(..., join="inner")`: the cases that are in one of the objects only are kept. -/
theorem C134_fails_merge_join : ∃ o o' : Data Int,
    merge joinCases { stdOpts with join := "inner" } (some "caseid") .none [[1, 2], [2, 3]] = .ok o ∧ o.coords = [("caseid", [.int 1, .int 2, .int 3])] ∧
    joinCases { stdOpts with join := "inner" } [[1, 2], [2, 3]] = .ok o' ∧ o'.coords = [("caseid", [.int 2])] :=
  ⟨_, _, rfl, rfl, rfl, rfl⟩

/-- C134, `larch.merge`: with the default options the merged data with the cases and alternatives asked for. -/
theorem C134_merge_partial {O : Type} (xr : Opts → List O → Except Fault (Data K)) (caseid : Option String) (alts : Alts) (l : List O)
    (o : Data K) (h : xr ⟨"no_conflicts", "outer", none, "override"⟩ l = .ok o) :
    merge xr ⟨"no_conflicts", "outer", none, "override"⟩ caseid alts l = initFor caseid alts o := by
  unfold merge
  show (xr ⟨"no_conflicts", "outer", none, "override"⟩ l).bind _ = _
  rw [h]; rfl

/-! ## the hypotheses are met -/

/-- Data by case only. -/
def casesOnly : Data Int :=
  { dims := [("caseid", 2)], coords := [("caseid", [.int 5, .int 6])], vars := [("income", "caseid", [3, 4])], caseid := some "caseid",
    altid := none, groupid := none, altNames := none }

example : CodesAndNames [(.int 1, .str "car"), (.int 2, .str "bus")] ∧
    SaysPairs [(.int 1, .str "car"), (.int 2, .str "bus")] (.mapping [.str "car", .str "bus"] [.int 1, .int 2]) ∧
    casesOnly.dims.map Prod.fst = casesOnly.caseid.toList ∧ "_altid_" ∉ casesOnly.caseid.toList ∧ casesOnly.altNames = none := by
  refine ⟨⟨by simp, ?_⟩, .byName, rfl, by decide, rfl⟩
  intro p hp
  simp at hp
  rcases hp with rfl | rfl <;> exact ⟨⟨_, rfl⟩, _, rfl⟩

end Larch.Props
