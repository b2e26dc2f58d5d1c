import Verif.Model.MergeIn
import Mathlib.Data.List.Nodup
import Mathlib.Data.List.Perm.Basic

/-!
# C162: merging a table into a pod
-/

namespace Larch.Props

open Larch.MergeIn

variable {V : Type} [DecidableEq V]

/-- A pod of `n` cases: every variable has `n` values, and names are distinct. -/
structure PodOf (p : Pod V) (n : Nat) : Prop where
  size : p.size = some n
  lengths : ∀ e ∈ p.vars, e.2.length = n
  nodup : (p.vars.map Prod.fst).Nodup

/-- The value of a variable for case `i`. -/
def podValue (p : Pod V) (name : String) (i : Nat) : Option V := (p.vars.lookup name).bind (fun arr => arr[i]?)

/-- The name under which the caller asks for a column. -/
def askedAs (a : Args) (col : String) : Option String :=
  match a.names with
  | none => some col
  | some m => m.lookup col

/-- The columns imported, with their names in the pod and in the table. -/
def imports (a : Args) (p : Pod V) (cols : List (String × String)) : List (String × String) :=
  (cols.filterMap (fun e => (askedAs a e.1).map (fun new => (new, e.2)))).filter (fun e => e.1 ∉ p.vars.map Prod.fst)

theorem mg_importAs (a : Args) (p : Pod V) (col : String) (h : a.names = none ∨ a.overwrite = false) :
    importAs a p col = (askedAs a col).bind (fun new => if new ∈ p.vars.map Prod.fst then none else some new) := by
  unfold importAs askedAs
  cases hn : a.names with
  | none => rfl
  | some m =>
    rcases h with h | h
    · rw [hn] at h; cases h
    · have : ∀ new, (new ∈ p.vars.map Prod.fst ∧ a.overwrite = false) ↔ new ∈ p.vars.map Prod.fst := fun new => ⟨fun q => q.1, fun q => ⟨q, h⟩⟩
      simp only [this]

theorem mg_import (na : V) (a : Args) (h : a.names = none ∨ a.overwrite = false) (rows : List (Option (Row V))) :
    ∀ (cols : List (String × String)) (p : Pod V), p.size = some rows.length →
      ((cols.filterMap (fun e => askedAs a e.1))).Nodup →
      importCols na a rows cols p =
        ({ vars := p.vars ++ (imports a p cols).map (fun e => (e.1, colValues na rows e.2)), size := some rows.length }, none)
  | [], p, hs, _ => by simp [importCols, imports, ← hs]
  | (col, src) :: r, p, hs, hn => by
    have hlen : (colValues na rows src).length = rows.length := by simp [colValues]
    unfold importCols
    rw [mg_importAs a p col h]
    cases ha : askedAs a col with
    | none =>
      simp only [Option.bind_none]
      have := mg_import na a h rows r p hs (by simpa [ha] using hn)
      rw [this]
      simp [imports, ha]
    | some new =>
      simp only [Option.bind_some]
      have hn' : new ∉ r.filterMap (fun e => askedAs a e.1) ∧ (r.filterMap (fun e => askedAs a e.1)).Nodup := by
        simpa [ha] using hn
      by_cases hm : new ∈ p.vars.map Prod.fst
      · rw [if_pos hm]
        have := mg_import na a h rows r p hs hn'.2
        simp only
        rw [this]
        have : imports a p ((col, src) :: r) = imports a p r := by
          unfold imports
          simp only [List.filterMap_cons, ha, Option.map_some]
          rw [List.filter_cons_of_neg (by simpa using hm)]
        rw [this]
      · rw [if_neg hm]
        have hadd : addArray p new (colValues na rows src) =
            .ok { vars := p.vars ++ [(new, colValues na rows src)], size := some rows.length } := by
          unfold addArray
          rw [if_neg (by rw [hlen, hs]; simp), if_neg hm, hlen]
        simp only [hadd]
        rw [mg_import na a h rows r _ rfl hn'.2]
        have h1 : imports a p ((col, src) :: r) = (new, src) :: imports a p r := by
          unfold imports
          simp only [List.filterMap_cons, ha, Option.map_some]
          rw [List.filter_cons_of_pos (by simpa using hm)]
        have h2 : imports a { vars := p.vars ++ [(new, colValues na rows src)], size := some rows.length } r = imports a p r := by
          unfold imports
          refine List.filter_congr ?_
          intro e he
          obtain ⟨x, hx, hex⟩ := List.mem_filterMap.1 he
          have : e.1 ≠ new := by
            rintro rfl
            apply hn'.1
            cases hq : askedAs a x.1 with
            | none => rw [hq] at hex; cases hex
            | some y =>
              rw [hq] at hex
              simp only [Option.map_some, Option.some.injEq] at hex
              exact List.mem_filterMap.2 ⟨x, hx, by rw [hq, ← hex]⟩
          simp [this]
        rw [h1, h2]
        simp

/-- The first row of the table which fits case `i`. -/
def fitting (na : V) (a : Args) (p : Pod V) (on : List String) (t : Table V) (i : Nat) : Option (Row V) :=
  t.rows.find? (fun r => rowKey a r = caseKey na p on i)

/-- Every case fits at most one row, or duplicates of the key columns are to be dropped. -/
def Unambiguous (na : V) (a : Args) (p : Pod V) (on : List String) (t : Table V) (n : Nat) : Prop :=
  (a.dedupe = true ∧ a.otherOn.isSome = true) ∨
    (a.dedupe = false ∧ ∀ i < n, (t.rows.filter (fun r => rowKey a r = caseKey na p on i)).length ≤ 1)

theorem mg_first {κ : Type} [DecidableEq κ] (key : Row V → κ) (k : κ) : ∀ (rows : List (Row V)) (seen : List κ),
    (firstOnly key seen rows).filter (fun r => key r = k) = if k ∈ seen then [] else (rows.find? (fun r => key r = k)).toList
  | [], seen => by simp [firstOnly]
  | r :: rs, seen => by
    unfold firstOnly
    by_cases hr : key r ∈ seen
    · rw [if_pos hr, mg_first key k rs seen]
      split_ifs with hk
      · rfl
      · rw [List.find?_cons_of_neg]
        simp only [decide_eq_true_eq]
        rintro rfl
        exact hk hr
    · rw [if_neg hr]
      by_cases hk : key r = k
      · subst hk
        rw [List.filter_cons_of_pos (by simp), mg_first key (key r) rs (key r :: seen), if_pos (by simp), if_neg hr,
          List.find?_cons_of_pos (by simp)]
        rfl
      · rw [List.filter_cons_of_neg (by simpa using hk), mg_first key k rs (key r :: seen), List.find?_cons_of_neg (by simpa using hk)]
        have : k ∈ key r :: seen ↔ k ∈ seen := by
          simp only [List.mem_cons, or_iff_right_iff_imp]
          rintro rfl
          exact absurd rfl hk
        simp [this]

theorem mg_find_toList {α : Type} (f : α → Bool) (l : List α) (h : (l.filter f).length ≤ 1) : l.filter f = (l.find? f).toList := by
  induction l with
  | nil => rfl
  | cons x l ih =>
    by_cases hx : f x = true
    · rw [List.filter_cons_of_pos hx] at h ⊢
      rw [List.find?_cons_of_pos hx]
      simp only [List.length_cons] at h
      have : (l.filter f) = [] := List.length_eq_zero_iff.1 (by omega)
      rw [this]; rfl
    · rw [List.filter_cons_of_neg hx] at h ⊢
      rw [List.find?_cons_of_neg hx, ih h]

theorem mg_matched (na : V) (a : Args) (p : Pod V) (on : List String) (t : Table V) (n : Nat)
    (h : Unambiguous na a p on t n) (i : Nat) (hi : i < n) : matched na a p on (deduped a t) i = [fitting na a p on t i] := by
  have hf : (deduped a t).rows.filter (fun r => rowKey a r = caseKey na p on i) = (fitting na a p on t i).toList := by
    rcases h with ⟨hd, ho⟩ | ⟨hd, ho⟩
    · obtain ⟨o, hoo⟩ := Option.isSome_iff_exists.1 ho
      have hk : (fun r : Row V => rowKey a r) = fun r => o.map r.cell := by
        funext r; simp [rowKey, hoo]
      simp only [deduped, hd, if_true, fitting]
      have := mg_first (V := V) (fun r : Row V => o.map r.cell) (caseKey na p on i) t.rows []
      simp only [List.not_mem_nil, if_false] at this
      have hk' : ∀ r : Row V, rowKey a r = o.map r.cell := fun r => by simp [rowKey, hoo]
      simp only [hk', hoo, Option.getD_some]
      exact this
    · simp only [deduped, hd, Bool.false_eq_true, if_false, fitting]
      exact mg_find_toList _ _ (ho i hi)
  unfold matched
  rw [hf]
  cases fitting na a p on t i <;> rfl

theorem mg_rows (na : V) (a : Args) (p : Pod V) (on : List String) (hon : a.selfOn = some on) (t : Table V) (n : Nat)
    (hs : p.size = some n) (h : Unambiguous na a p on t n) :
    resultRows na a p (deduped a t) = (List.range n).map (fitting na a p on t) := by
  unfold resultRows
  rw [hon, hs]
  simp only [Option.getD_some]
  rw [List.map_eq_flatMap]
  refine List.flatMap_congr ?_
  intro i hi
  exact mg_matched na a p on t n h i (List.mem_range.1 hi)

theorem mg_merge (na : V) (a : Args) (p : Pod V) (on : List String) (hon : a.selfOn = some on) (t : Table V) (n : Nat)
    (hp : PodOf p n) (hk : ∀ c ∈ on, c ∈ p.vars.map Prod.fst) (h : Unambiguous na a p on t n)
    (hw : a.names = none ∨ a.overwrite = false) (hn : ((resultCols a t).filterMap (fun e => askedAs a e.1)).Nodup) :
    mergeIn na a p t = ({ vars := p.vars ++ (imports a p (resultCols a t)).map (fun e =>
      (e.1, colValues na ((List.range n).map (fitting na a p on t)) e.2)), size := some n }, none) := by
  unfold mergeIn
  rw [if_neg (by rw [hon]; simpa using hk), mg_rows na a p on hon t n hp.size h]
  have := mg_import na a hw ((List.range n).map (fitting na a p on t)) (resultCols a t) p (by simpa using hp.size) hn
  rw [this]
  simp

theorem mg_lookup {α : Type} (l : List (String × α)) (k : String) (v : α) (hn : (l.map Prod.fst).Nodup) (h : (k, v) ∈ l) :
    l.lookup k = some v := by
  induction l with
  | nil => cases h
  | cons e l ih =>
    obtain ⟨a, b⟩ := e
    rw [List.map_cons, List.nodup_cons] at hn
    rw [List.lookup_cons]
    rcases List.mem_cons.1 h with h' | h'
    · obtain ⟨rfl, rfl⟩ := Prod.mk.inj h'
      simp
    · have : k ≠ a := by
        rintro rfl
        exact hn.1 (List.mem_map.2 ⟨_, h', rfl⟩)
      rw [show (k == a) = false from by simpa using this]
      exact ih hn.2 h'

/-- C162: when every case fits at most one row, or duplicates are dropped, merging does not raise; every variable the pod had keeps
its values, and the variables added are the columns asked for whose names are not taken.  In these every case has the cell of the
first row with its key, or a missing value when there is no such row. -/
theorem C162_merged (na : V) (a : Args) (p : Pod V) (on : List String) (hon : a.selfOn = some on) (t : Table V) (n : Nat)
    (hp : PodOf p n) (hk : ∀ c ∈ on, c ∈ p.vars.map Prod.fst) (h : Unambiguous na a p on t n)
    (hw : a.names = none ∨ a.overwrite = false) (hn : ((resultCols a t).filterMap (fun e => askedAs a e.1)).Nodup) :
    (mergeIn na a p t).2 = none ∧ PodOf (mergeIn na a p t).1 n ∧
      (∀ name ∈ p.vars.map Prod.fst, ∀ i, podValue (mergeIn na a p t).1 name i = podValue p name i) ∧
      ∀ col src new, (col, src) ∈ resultCols a t → askedAs a col = some new → new ∉ p.vars.map Prod.fst → ∀ i < n,
        podValue (mergeIn na a p t).1 new i = some (match fitting na a p on t i with | some r => r.cell src | none => na) := by
  rw [mg_merge na a p on hon t n hp hk h hw hn]
  have hnd : ((p.vars ++ (imports a p (resultCols a t)).map (fun e =>
      (e.1, colValues na ((List.range n).map (fitting na a p on t)) e.2))).map Prod.fst).Nodup := by
    rw [List.map_append, List.nodup_append]
    refine ⟨hp.nodup, ?_, ?_⟩
    · rw [List.map_map]
      have : (imports a p (resultCols a t)).map (Prod.fst ∘ fun e => (e.1, colValues na ((List.range n).map (fitting na a p on t)) e.2)) =
          ((resultCols a t).filterMap (fun e => askedAs a e.1)).filter (fun x => x ∉ p.vars.map Prod.fst) := by
        unfold imports
        generalize resultCols a t = cols
        clear hn
        induction cols with
        | nil => rfl
        | cons e r ih =>
          cases hq : askedAs a e.1 with
          | none => simpa [hq] using ih
          | some x =>
            simp only [List.filterMap_cons, hq, Option.map_some]
            by_cases hx : x ∈ p.vars.map Prod.fst
            · rw [List.filter_cons_of_neg (by simpa using hx), List.filter_cons_of_neg (by simpa using hx)]
              exact ih
            · rw [List.filter_cons_of_pos (by simpa using hx), List.filter_cons_of_pos (by simpa using hx), List.map_cons, ih]
              rfl
      rw [this]
      exact hn.filter _
    · intro x hx y hy
      rw [List.map_map] at hy
      obtain ⟨e, he, rfl⟩ := List.mem_map.1 hy
      have := (List.mem_filter.1 he).2
      simp only [decide_eq_true_eq] at this
      rintro rfl
      exact this hx
  refine ⟨rfl, ⟨rfl, ?_, hnd⟩, ?_, ?_⟩
  · intro e he
    rcases List.mem_append.1 he with he | he
    · exact hp.lengths e he
    · obtain ⟨x, _, rfl⟩ := List.mem_map.1 he
      simp [colValues]
  · intro name hname i
    obtain ⟨e, he, rfl⟩ := List.mem_map.1 hname
    unfold podValue
    rw [mg_lookup _ e.1 e.2 hnd (List.mem_append_left _ he), mg_lookup _ e.1 e.2 hp.nodup he]
  · intro col src new hcol hnew hfree i hi
    have hm : (new, src) ∈ imports a p (resultCols a t) := by
      unfold imports
      refine List.mem_filter.2 ⟨List.mem_filterMap.2 ⟨(col, src), hcol, by simp [hnew]⟩, by simpa using hfree⟩
    unfold podValue
    rw [mg_lookup _ new _ hnd (List.mem_append_right _ (List.mem_map.2 ⟨_, hm, rfl⟩))]
    simp only [colValues, Option.bind_some, List.map_map]
    rw [List.getElem?_map, List.getElem?_range hi]
    simp only [Option.map_some, Function.comp]
    cases fitting na a p on t i <;> rfl

/-- C162: in particular, with no `names` given, a column of the table whose name no variable of the pod has becomes a variable: each case
has the cell of the row whose key columns hold the values the case has for its own keys, or a missing value when there is no such row. -/
theorem C162_column (na : V) (p : Pod V) (t : Table V) (n : Nat) (on other : List String) (suffix : String)
    (hp : PodOf p n) (hk : ∀ c ∈ on, c ∈ p.vars.map Prod.fst) (ht : t.names.Nodup) (hs : ∀ c ∈ t.names, c ++ suffix ∉ t.names)
    (h : ∀ (i : Nat), i < n → ∀ (r1 r2 : Row V) (k1 k2 : Nat), t.rows[k1]? = some r1 → t.rows[k2]? = some r2 →
      (∀ (k : Nat) (a b : String), on[k]? = some a → other[k]? = some b → podValue p a i = some (r1.cell b)) →
      (∀ (k : Nat) (a b : String), on[k]? = some a → other[k]? = some b → podValue p a i = some (r2.cell b)) → k1 = k2)
    (hlen : on.length = other.length) (c : String) (hc : c ∈ t.names) (hfree : c ∉ p.vars.map Prod.fst) (i : Nat) (hi : i < n) :
    (∀ r ∈ t.rows, (∀ (k : Nat) (a b : String), on[k]? = some a → other[k]? = some b → podValue p a i = some (r.cell b)) →
      podValue (mergeIn na { selfOn := some on, otherOn := some other, suffix := suffix } p t).1 c i = some (r.cell c)) ∧
    ((∀ r ∈ t.rows, ∃ (k : Nat) (a b : String), on[k]? = some a ∧ other[k]? = some b ∧ podValue p a i ≠ some (r.cell b)) →
      podValue (mergeIn na { selfOn := some on, otherOn := some other, suffix := suffix } p t).1 c i = some na) := by
  have hval : ∀ a ∈ on, ∀ j < n, ∃ v, podValue p a j = some v ∧ ((p.vars.lookup a).bind (fun arr => arr[j]?)).getD na = v := by
    intro a ha j hj
    obtain ⟨e, he, rfl⟩ := List.mem_map.1 (hk a ha)
    have hl := mg_lookup p.vars e.1 e.2 hp.nodup he
    have hlt : j < e.2.length := by rw [hp.lengths e he]; exact hj
    refine ⟨e.2[j], ?_, ?_⟩
    · simp [podValue, hl, hlt]
    · simp [hl, hlt]
  have hkey : ∀ j < n, ∀ r : Row V, (other.map r.cell = caseKey na p on j ↔
      ∀ (k : Nat) (a b : String), on[k]? = some a → other[k]? = some b → podValue p a j = some (r.cell b)) := by
    intro j hj r
    constructor
    · intro he k a b ha hb
      obtain ⟨v, hv1, hv2⟩ := hval a (List.mem_of_getElem? ha) j hj
      have := congrArg (fun l : List V => l[k]?) he
      simp only [caseKey, List.getElem?_map, ha, hb, Option.map_some, Option.some.injEq] at this
      rw [hv1, this, hv2]
    · intro he
      apply List.ext_getElem?
      intro k
      simp only [caseKey, List.getElem?_map]
      rcases hon : on[k]? with _ | a
      · have : other[k]? = none := by
          rw [List.getElem?_eq_none_iff] at hon ⊢
          omega
        rw [this]; rfl
      · have : k < other.length := by
          have := (List.getElem?_eq_some_iff.1 hon).1
          omega
        have hb := List.getElem?_eq_getElem this
        rw [hb]
        obtain ⟨v, hv1, hv2⟩ := hval a (List.mem_of_getElem? hon) j hj
        have := he k a _ hon hb
        rw [hv1] at this
        simp only [Option.map_some, Option.some.injEq] at this ⊢
        rw [hv2, this]
  generalize ha : ({ selfOn := some on, otherOn := some other, suffix := suffix } : Args) = a
  have hrk : ∀ r : Row V, rowKey a r = other.map r.cell := fun r => by subst ha; rfl
  have hu : Unambiguous na a p on t n := by
    right
    refine ⟨by subst ha; rfl, ?_⟩
    intro j hj
    by_contra hgt
    obtain ⟨k1, k2, h12, hk2, e1, e2⟩ : ∃ k1 k2 : Nat, k1 < k2 ∧ k2 < t.rows.length ∧
        (∃ r, t.rows[k1]? = some r ∧ rowKey a r = caseKey na p on j) ∧ (∃ r, t.rows[k2]? = some r ∧ rowKey a r = caseKey na p on j) := by
      generalize t.rows = rows at hgt
      clear h
      induction rows with
      | nil => simp at hgt
      | cons r rs ih =>
        by_cases hr : rowKey a r = caseKey na p on j
        · rw [List.filter_cons_of_pos (by simpa using hr)] at hgt
          rcases hf : rs.filter (fun r => decide (rowKey a r = caseKey na p on j)) with _ | ⟨x, l⟩
          · rw [hf] at hgt; simp at hgt
          · have hx : x ∈ rs.filter (fun r => decide (rowKey a r = caseKey na p on j)) := by rw [hf]; simp
            obtain ⟨hx1, hx2⟩ := List.mem_filter.1 hx
            obtain ⟨k, hk', hkx⟩ := List.getElem_of_mem hx1
            refine ⟨0, k + 1, by omega, by simpa using hk', ⟨r, by simp, hr⟩, ⟨x, ?_, by simpa using hx2⟩⟩
            rw [List.getElem?_cons_succ, List.getElem?_eq_getElem hk', hkx]
        · rw [List.filter_cons_of_neg (by simpa using hr)] at hgt
          obtain ⟨k1, k2, h1, h2, h3, h4⟩ := ih hgt
          exact ⟨k1 + 1, k2 + 1, by omega, by simpa using h2, by simpa using h3, by simpa using h4⟩
    obtain ⟨r1, e1, f1⟩ := e1
    obtain ⟨r2, e2, f2⟩ := e2
    have := h j hj r1 r2 k1 k2 e1 e2 ((hkey j hj r1).1 (by rw [← hrk]; exact f1)) ((hkey j hj r2).1 (by rw [← hrk]; exact f2))
    omega
  have hcols : resultCols a t = (t.names.filter (fun c => (c, c) ∉ on.zip other)).map (fun c => (if c ∈ on then c ++ suffix else c, c)) := by
    subst ha; rfl
  have hask : ∀ x, askedAs a x = some x := by subst ha; intro x; rfl
  have hn : ((resultCols a t).filterMap (fun e => askedAs a e.1)).Nodup := by
    have : (fun e : String × String => askedAs a e.1) = fun e => some e.1 := by funext e; exact hask e.1
    rw [this, List.filterMap_eq_map', hcols, List.map_map]
    refine List.Nodup.map_on ?_ (ht.filter _)
    intro x hx y hy hxy
    have hx' := (List.mem_filter.1 hx).1
    have hy' := (List.mem_filter.1 hy).1
    simp only [Function.comp] at hxy
    split_ifs at hxy with h1 h2 h2
    · exact String.append_left_inj suffix |>.1 hxy
    · exact absurd (hxy ▸ hy') (hs x hx')
    · exact absurd (hxy.symm ▸ hx') (hs y hy')
    · exact hxy
  obtain ⟨_, _, _, hfin⟩ := C162_merged na a p on (by subst ha; rfl) t n hp hk hu (Or.inl (by subst ha; rfl)) hn
  have hcon : c ∉ on := fun hco => hfree (hk c hco)
  have hmem : (c, c) ∈ resultCols a t := by
    rw [hcols]
    refine List.mem_map.2 ⟨c, List.mem_filter.2 ⟨hc, ?_⟩, by rw [if_neg hcon]⟩
    simp only [decide_eq_true_eq]
    intro hz
    exact hcon (List.of_mem_zip hz).1
  have hmain := hfin c c c hmem (hask c) hfree i hi
  constructor
  · intro r hr hfit
    rcases hq : fitting na a p on t i with _ | r'
    · have := List.find?_eq_none.1 hq r hr
      simp only [decide_eq_true_eq] at this
      exact absurd (by rw [hrk]; exact (hkey i hi r).2 hfit) this
    · have hr' := List.mem_of_find?_eq_some hq
      have hkr := List.find?_some hq
      simp only [decide_eq_true_eq] at hkr
      obtain ⟨k1, hk1⟩ := List.getElem?_of_mem hr
      obtain ⟨k2, hk2⟩ := List.getElem?_of_mem hr'
      have := h i hi r r' k1 k2 hk1 hk2 hfit ((hkey i hi r').1 (by rw [← hrk]; exact hkr))
      subst this
      rw [hk1] at hk2
      cases hk2
      rw [hmain, hq]
  · intro hno
    rcases hq : fitting na a p on t i with _ | r'
    · rw [hmain, hq]
    · have hr' := List.mem_of_find?_eq_some hq
      have hkr := List.find?_some hq
      simp only [decide_eq_true_eq] at hkr
      obtain ⟨k, x, y, h1, h2, h3⟩ := hno r' hr'
      exact absurd ((hkey i hi r').1 (by rw [← hrk]; exact hkr) k x y h1 h2) h3

theorem mg_long (na : V) (a : Args) (p : Pod V) (on : List String) (t : Table V) (n : Nat) (i : Nat) (hi : i < n)
    (h2 : 1 < (t.rows.filter (fun r => rowKey a r = caseKey na p on i)).length) :
    n < ((List.range n).flatMap (matched na a p on t)).length := by
  have hone : ∀ j, 1 ≤ (matched na a p on t j).length := by
    intro j
    unfold matched
    split_ifs with h
    · simp
    · rw [List.length_map]
      rcases hl : (t.rows.filter (fun r => rowKey a r = caseKey na p on j)) with _ | ⟨x, l⟩
      · rw [hl] at h; simp at h
      · simp
  have htwo : 2 ≤ (matched na a p on t i).length := by
    unfold matched
    rw [if_neg, List.length_map]
    · exact h2
    · intro he
      rw [List.isEmpty_iff] at he
      rw [he] at h2
      simp at h2
  clear h2
  have hge : ∀ m, m ≤ ((List.range m).flatMap (matched na a p on t)).length := by
    intro m
    induction m with
    | zero => simp
    | succ m ih =>
      rw [List.range_succ, List.flatMap_append, List.length_append]
      have := hone m
      simp only [List.flatMap_cons, List.flatMap_nil, List.append_nil]
      omega
  induction n with
  | zero => omega
  | succ m ih =>
    rw [List.range_succ, List.flatMap_append, List.length_append]
    simp only [List.flatMap_cons, List.flatMap_nil, List.append_nil]
    by_cases him : i = m
    · subst him
      have := hge i
      omega
    · have h1 := ih (by omega)
      have := hone m
      omega

/-- C162: when some case fits several rows and duplicates are not dropped, merging raises and leaves the pod as it was, unless no
column is to be imported anyway. -/
theorem C162_several (na : V) (a : Args) (p : Pod V) (on : List String) (hon : a.selfOn = some on) (t : Table V) (n : Nat)
    (hp : PodOf p n) (hk : ∀ c ∈ on, c ∈ p.vars.map Prod.fst) (hd : a.dedupe = false) (i : Nat) (hi : i < n)
    (h2 : 1 < (t.rows.filter (fun r => rowKey a r = caseKey na p on i)).length) :
    (mergeIn na a p t).1 = p ∧ ((∃ e ∈ resultCols a t, importAs a p e.1 ≠ none) → (mergeIn na a p t).2 = some .incompatibleShape) := by
  have hrows : n < (resultRows na a p (deduped a t)).length := by
    unfold resultRows deduped
    rw [hon, hd, hp.size]
    exact mg_long na a p on t n i hi h2
  have : ∀ cols, importCols na a (resultRows na a p (deduped a t)) cols p =
      (p, if ∃ e ∈ cols, importAs a p e.1 ≠ none then some .incompatibleShape else none) := by
    intro cols
    induction cols with
    | nil => simp [importCols]
    | cons e r ih =>
      obtain ⟨col, src⟩ := e
      unfold importCols
      cases hc : importAs a p col with
      | none =>
        have hiff : (∃ e ∈ (col, src) :: r, importAs a p e.1 ≠ none) ↔ ∃ e ∈ r, importAs a p e.1 ≠ none := by
          constructor
          · rintro ⟨e, he, h⟩
            rcases List.mem_cons.1 he with rfl | he
            · exact absurd hc h
            · exact ⟨e, he, h⟩
          · rintro ⟨e, he, h⟩
            exact ⟨e, List.mem_cons_of_mem _ he, h⟩
        simp only [ih, hiff]
      | some new =>
        have : addArray p new (colValues na (resultRows na a p (deduped a t)) src) = .error .incompatibleShape := by
          unfold addArray
          rw [if_pos]
          refine ⟨by rw [hp.size]; simp, ?_⟩
          rw [hp.size]
          simp only [colValues, List.length_map, ne_eq, Option.some.injEq]
          omega
        simp [this, hc]
  unfold mergeIn
  rw [if_neg (by rw [hon]; simpa using hk), this]
  exact ⟨rfl, fun h => by simp [h]⟩

/-- C162 fails: with `overwrite=True` an existing variable is not overwritten: merging raises and the pod stays. -/
theorem C162_fails_overwrite (na : V) (a : Args) (p : Pod V) (on : List String) (hon : a.selfOn = some on) (t : Table V) (n : Nat)
    (hp : PodOf p n) (hk : ∀ c ∈ on, c ∈ p.vars.map Prod.fst) (h : Unambiguous na a p on t n) (c new : String)
    (hm : a.names = some [(c, new)]) (hw : a.overwrite = true) (hnew : new ∈ p.vars.map Prod.fst)
    (hc : ∃ src, (c, src) ∈ resultCols a t) : mergeIn na a p t = (p, some .nodeError) := by
  unfold mergeIn
  rw [if_neg (by rw [hon]; simpa using hk), mg_rows na a p on hon t n hp.size h]
  obtain ⟨src, hsrc⟩ := hc
  revert hsrc
  generalize resultCols a t = cols
  intro hsrc
  induction cols with
  | nil => cases hsrc
  | cons e r ih =>
    obtain ⟨col, s⟩ := e
    unfold importCols
    by_cases hcc : col = c
    · subst hcc
      have h1 : importAs a p col = some new := by simp [importAs, hm, hw]
      have h2 : addArray p new (colValues na ((List.range n).map (fitting na a p on t)) s) = .error .nodeError := by
        unfold addArray
        rw [if_neg (by rw [hp.size]; simp [colValues]), if_pos hnew]
      simp only [h1, h2]
    · have h1 : importAs a p col = none := by
        simp only [importAs, hm, List.lookup_cons]
        rw [show (col == c) = false from by simpa using hcc]
        rfl
      simp only [h1]
      refine ih ?_
      rcases List.mem_cons.1 hsrc with h | h
      · injection h with h _
        exact absurd h.symm hcc
      · exact h

/-- C162 fails: a column which has the name of a variable of the pod is not imported under that name with the suffix: when all columns are
like this, and are not keys, the pod stays as it was, and nothing is raised. -/
theorem C162_fails_suffix (na : V) (a : Args) (p : Pod V) (on : List String) (hon : a.selfOn = some on) (t : Table V)
    (hk : ∀ c ∈ on, c ∈ p.vars.map Prod.fst) (hn : a.names = none)
    (ht : ∀ c ∈ t.names, c ∈ p.vars.map Prod.fst ∧ (c ∈ on → (c, c) ∈ on.zip (a.otherOn.getD []))) : mergeIn na a p t = (p, none) := by
  unfold mergeIn
  rw [if_neg (by rw [hon]; simpa using hk)]
  have : ∀ cols : List (String × String), (∀ e ∈ cols, e.1 ∈ p.vars.map Prod.fst) →
      importCols na a (resultRows na a p (deduped a t)) cols p = (p, none) := by
    intro cols
    induction cols with
    | nil => intro _; rfl
    | cons e r ih =>
      intro h
      obtain ⟨col, s⟩ := e
      unfold importCols
      have : importAs a p col = none := by
        simp only [importAs, hn]
        rw [if_pos (h (col, s) (by simp))]
      simp only [this]
      exact ih (fun e he => h e (by simp [he]))
  refine this _ ?_
  intro e he
  unfold resultCols at he
  rw [hon] at he
  obtain ⟨c, hc, rfl⟩ := List.mem_map.1 he
  obtain ⟨h1, h2⟩ := List.mem_filter.1 hc
  simp only [decide_eq_true_eq] at h2
  by_cases hco : c ∈ on
  · exact absurd ((ht c h1).2 hco) h2
  · simp only [if_neg hco]
    exact (ht c h1).1

/-- C162 fails: with keys in the index, `other_dedupe` drops rows of other keys which have the same cells: the case with such a key gets a
missing value although its row is in the table. -/
theorem C162_fails_dedupe_index (na : V) (a : Args) (p : Pod V) (on : List String) (i : Nat) (hd : a.dedupe = true)
    (ho : a.otherOn = none) (r1 r2 : Row V) (names : List String) (hl : r1.label ≠ r2.label) (hc : ∀ c ∈ names, r1.cell c = r2.cell c)
    (hi : caseKey na p on i = r2.label) :
    matched na a p on (deduped a ⟨names, [r1, r2]⟩) i = [none] ∧ fitting na a p on ⟨names, [r1, r2]⟩ i = some r2 := by
  have hm : names.map r2.cell = names.map r1.cell := List.map_congr_left (fun c h => (hc c h).symm)
  constructor
  · simp [matched, deduped, hd, ho, firstOnly, hm, rowKey, hi, hl]
  · simp [fitting, rowKey, ho, hi, hl]

/-- C162 fails: `other_dedupe` drops the rows from the table of the caller. -/
theorem C162_fails_dedupe_in_place (a : Args) (hd : a.dedupe = true) (on : List String) (ho : a.otherOn = some on) (t : Table V) (r1 r2 : Row V)
    (hr : t.rows = [r1, r2]) (hk : on.map r1.cell = on.map r2.cell) : (deduped a t).rows = [r1] := by
  simp [deduped, hd, ho, hr, firstOnly, hk]

/-- Two cases with zones 7 and 8, and a table of zones. -/
def zonePod : Pod Nat := ⟨[("zone", [7, 8]), ("size", [1, 2])], some 2⟩
def zoneTable : Table Nat := ⟨["zone", "jobs"], [⟨[0], fun c => if c = "zone" then 8 else 50⟩, ⟨[1], fun c => if c = "zone" then 9 else 60⟩]⟩
def zoneArgs : Args := { selfOn := some ["zone"], otherOn := some ["zone"] }

example : PodOf zonePod 2 ∧ Unambiguous 0 zoneArgs zonePod ["zone"] zoneTable 2 ∧
    ((resultCols zoneArgs zoneTable).filterMap (fun e => askedAs zoneArgs e.1)).Nodup :=
  ⟨⟨rfl, by decide, by decide⟩, Or.inr ⟨rfl, by decide⟩, by decide⟩

example : (mergeIn 0 zoneArgs zonePod zoneTable).1.vars = [("zone", [7, 8]), ("size", [1, 2]), ("jobs", [0, 50])] := by decide

end Larch.Props
