import Verif.Model.FromIdce
import Verif.Props.Choices

/-!
# C182: a container made of one frame of rows
-/

namespace Larch.Props

open Larch.Frames Larch.Choices Larch.ServiceData Larch.FromIdce

/-- The rows are those of the frame, in the order of cases and alternatives. -/
def RowsOf (f : MF (String → Int)) (l : List ((Int × Int) × (String → Int))) : Prop :=
  f.rows.Perm l ∧ f.rows.Pairwise (fun a b => lexLe a.1 b.1 = true)

/-- The container holds the rows of the frame as the data of the alternatives, in one of the two formats. -/
def HasRows (a : Answer) (l : List ((Int × Int) × (String → Int))) : Prop :=
  (∃ f, a.ce = some f ∧ a.ca = none ∧ RowsOf f l) ∨ (∃ f, a.ca = some f ∧ a.ce = none ∧ RowsOf f l)

/-- The column has one value in each case. -/
def ConstantCol (t : Tab2) (s : String) : Prop := ∀ r ∈ t.mf.rows, ∀ q ∈ t.mf.rows, r.1.1 = q.1.1 → r.2 s = q.2 s

/-- A frame of rows with ids of cases `ids` and of alternatives `codes`. -/
structure TallFrame (t : Tab2) (ids codes : List Int) : Prop where
  regular : Regular t.mf
  cases : CasesOf t.mf ids
  alts : t.mf.lev1 = codes
  nonempty : codes ≠ []
  names : t.names.Nodup

theorem fi_constant (t : Tab2) (s : String) : constantIn t s = true ↔ ConstantCol t s := by
  unfold constantIn ConstantCol
  simp only [List.all_eq_true, Bool.or_eq_true, Bool.not_eq_true', decide_eq_false_iff_not, decide_eq_true_eq]
  constructor
  · intro h r hr q hq e
    exact (h r hr q hq).resolve_left (fun hn => hn e)
  · intro h r hr q hq
    by_cases e : r.1.1 = q.1.1
    · exact .inr (h r hr q hq e)
    · exact .inl e

theorem fi_lexLe_total (a b : Int × Int) : lexLe a b = true ∨ lexLe b a = true := by
  simp only [lexLe, Bool.or_eq_true, Bool.and_eq_true, decide_eq_true_eq]
  omega

theorem fi_lexLe_trans {a b c : Int × Int} (h : lexLe a b = true) (k : lexLe b c = true) : lexLe a c = true := by
  simp only [lexLe, Bool.or_eq_true, Bool.and_eq_true, decide_eq_true_eq] at *
  omega

theorem fi_mono_rows {l : List ((Int × Int) × (String → Int))} (h : isMonoLex (l.map Prod.fst) = true) :
    l.Pairwise (fun a b => lexLe a.1 b.1 = true) := by
  unfold isMonoLex at h
  simpa [List.pairwise_map] using h

theorem fi_setCe (f : MF (String → Int)) : RowsOf (setCe f) f.rows := by
  unfold setCe RowsOf
  split_ifs with h
  · exact ⟨List.Perm.refl _, fi_mono_rows h⟩
  · unfold sortMF
    constructor
    · exact List.perm_insertionSort _ _
    · have : Std.Total (fun (a b : (Int × Int) × (String → Int)) => lexLe a.1 b.1 = true) := ⟨fun a b => fi_lexLe_total a.1 b.1⟩
      have : IsTrans ((Int × Int) × (String → Int)) (fun a b => lexLe a.1 b.1 = true) := ⟨fun a b c => fi_lexLe_trans⟩
      exact List.pairwise_insertionSort _ _

theorem fi_rows (x : Choices.Args) (t : Tab2) (hx : x.alts = some t) (c : Option (Co (String → Int))) (ch : Option Table) :
    HasRows ⟨c, (ca x).map (fun t => t.mf), ceSet x, ch, none, none⟩ t.mf.rows := by
  unfold HasRows ceSet ca ce
  rw [hx]
  cases h : isIdce t.mf with
  | true =>
    refine .inl ⟨setCe t.mf, ?_, ?_, fi_setCe _⟩
    · simp [Option.filter, h]
    · simp [Option.filter, h]
  | false =>
    refine .inr ⟨t.mf, ?_, ?_, List.Perm.refl _, ?_⟩
    · simp [Option.filter, h]
    · simp [Option.filter, h]
    · simp only [isIdce, Bool.or_eq_false_iff, Bool.not_eq_false'] at h
      exact fi_mono_rows h.2

theorem fi_contain (x : Choices.Args) (hw : x.wt = .absent) (hv : x.av = .absent) (codes : List Int) (ha : AltSet x codes)
    (t : Tab2) (hx : x.alts = some t) (ch : Option Table) (hc : choices x = some ch) :
    ∃ a, contain x = some a ∧ a.ch = ch ∧ a.co = x.co.map (fun f => setSorted f.rows) ∧ a.wt = none ∧ a.av = none ∧ HasRows a t.mf.rows := by
  have hk := ch_known ha
  have hac : altCodes x = some codes := by
    unfold altCodes
    rw [hc, Option.bind_some, hk]
    rfl
  have h1 : weights x = some none := by
    unfold weights
    rw [hac, Option.bind_some, hc, Option.bind_some]
    simp only [hw]
  have h2 : availability x = some none := by
    unfold availability
    rw [hac, Option.bind_some, hc, Option.bind_some, h1, Option.bind_some]
    simp only [hv]
  refine ⟨⟨x.co.map (fun f => setSorted f.rows), (ca x).map (fun t => t.mf), ceSet x, ch, none, none⟩, ?_, rfl, rfl, rfl, rfl, ?_⟩
  · unfold contain
    rw [hc, Option.bind_some, h1, Option.bind_some, h2, Option.map_some]
  · exact fi_rows x t hx _ _

theorem fi_absent (x : Choices.Args) (h : x.ch = .absent) {codes : List Int} (ha : AltSet x codes) : choices x = some none := by
  unfold choices
  have h1 : encode x = some .nothing := by unfold encode; rw [h]
  have h2 : fromAlts x .nothing = some .nothing := by unfold fromAlts; simp only [h]
  rw [h1, Option.bind_some, h2, Option.bind_some, ch_known ha, Option.bind_some]
  have h3 : fromCo x (some codes) .nothing = (.nothing, some codes) := by unfold fromCo; simp only [h]
  rw [h3]
  rfl

theorem fi_case_rows {t : Tab2} {ids : List Int} (hc : CasesOf t.mf ids) : (caseFrame t).rows.map Prod.fst = ids := by
  have : uniq (t.mf.rows.map (fun r => r.1.1)) = ids := by
    refine sorted_dedup_eq hc.sorted (fun c => ?_)
    rw [hc.mem, List.mem_map]
  simp [caseFrame, List.map_map, Function.comp_def, this]

/-- The arguments that `from_idce` gives to the constructor. -/
theorem fi_args {t : Tab2} {ids codes : List Int} (h : TallFrame t ids codes) (crack : Bool) (cols : List String) (ch : Choice) :
    CaseSet { alts := some ⟨cols, (frameOf t crack).mf⟩, co := coOf t crack, ch := ch } ids ∧
    AltSet { alts := some ⟨cols, (frameOf t crack).mf⟩, co := coOf t crack, ch := ch } codes := by
  have hmf : (frameOf t crack).mf = t.mf := by cases crack <;> rfl
  rw [hmf]
  refine ⟨⟨h.cases.sorted, ?_, ?_, .inr (by simp)⟩, ⟨?_, .inl rfl, ?_, .inr (by simp)⟩⟩
  · intro f hf
    cases crack with
    | false => cases hf
    | true =>
      cases hf
      rw [fi_case_rows h.cases]
  · intro u hu
    cases hu
    exact ⟨h.regular, h.cases, by show t.mf.lev1 ≠ []; rw [h.alts]; exact h.nonempty⟩
  · rw [← h.alts]; exact h.regular.lev1
  · intro u hu
    cases hu
    exact h.alts

theorem fi_wide {t : Tab2} {ids codes : List Int} (h : TallFrame t ids codes) (crack : Bool) (cols : List String) (s : String)
    (g : Int → Int → Int) (hg : ∀ r ∈ t.mf.rows, g r.1.1 r.1.2 = r.2 s) (h0 : ∀ i ∈ ids, ∀ a ∈ codes, (∀ r ∈ t.mf.rows, r.1 ≠ (i, a)) → g i a = 0) :
    ∃ u, unstack (column2 t s) = some u ∧
      Holds (choices { alts := some ⟨cols, (frameOf t crack).mf⟩, co := coOf t crack, ch := .wide u }) ids codes g := by
  have hfst : (column2 t s).map Prod.fst = t.mf.rows.map Prod.fst := by simp [column2, List.map_map, Function.comp_def]
  have hmem : ∀ c, c ∈ ids ↔ ∃ r ∈ column2 t s, r.1.1 = c := by
    intro c
    rw [h.cases.mem]
    constructor
    · rintro ⟨r, hr, rfl⟩; exact ⟨(r.1, r.2 s), List.mem_map.mpr ⟨r, hr, rfl⟩, rfl⟩
    · rintro ⟨r, hr, rfl⟩; obtain ⟨q, hq, rfl⟩ := List.mem_map.mp hr; exact ⟨q, hq, rfl⟩
  have hg' : ∀ r ∈ column2 t s, g r.1.1 r.1.2 = r.2 := by
    intro r hr; obtain ⟨q, hq, rfl⟩ := List.mem_map.mp hr; exact hg q hq
  obtain ⟨u, hu, hcols, hcm, hids, hw, hcell⟩ := ch_unstack (by rw [hfst]; exact h.regular.nodup) h.cases.sorted hmem g hg'
  refine ⟨u, hu, ?_⟩
  obtain ⟨hi, ha⟩ := fi_args h crack cols (.wide u)
  have hsub : ∀ c ∈ u.cols, c ∈ codes := by
    intro c hc
    obtain ⟨r, hr, rfl⟩ := (hcm c).1 hc
    obtain ⟨q, hq, rfl⟩ := List.mem_map.mp hr
    rw [← h.alts]
    exact (h.regular.rows q hq).2
  have hz : ∀ i ∈ ids, ∀ a ∈ codes, (¬ ∃ v, ((i, a), v) ∈ column2 t s) → g i a = 0 := by
    intro i hi' a hac hn
    exact h0 i hi' a hac (fun r hr he => hn ⟨r.2 s, List.mem_map.mpr ⟨r, hr, by rw [he]⟩⟩)
  have hri : ∀ r ∈ u.rows, r.1 ∈ ids := fun r hr => hids ▸ List.mem_map.mpr ⟨r, hr, rfl⟩
  have hval : ∀ r ∈ u.rows, ∀ (p : Nat) a, u.cols[p]? = some a → r.2[p]? = some (g r.1 a) := by
    intro r hr p a hp
    have ham : a ∈ u.cols := List.mem_of_getElem? hp
    have hidx := ch_idxOf hcols hp
    have hlt : p < r.2.length := by
      rw [hw r hr]
      exact (List.getElem?_eq_some_iff.1 hp).1
    have hd : r.2.getD (u.cols.idxOf a) 0 = g r.1 a := by
      rcases hcell r hr a ham with ⟨_, e⟩ | ⟨hn, e⟩
      · exact e
      · rw [e, hz r.1 (hri r hr) a (hsub a ham) hn]
    rw [hidx, List.getD_eq_getElem?_getD, List.getElem?_eq_getElem hlt] at hd
    rw [List.getElem?_eq_getElem hlt]
    simpa using hd
  have hout : ∀ i ∈ ids, ∀ a, a ∉ u.cols → a ∈ codes → g i a = 0 := by
    intro i hi' a hau hac
    refine hz i hi' a hac (fun ⟨v, hv⟩ => hau ((hcm a).2 ⟨_, hv, rfl⟩))
  -- outside of `codes` the value does not matter
  have hw2 := C135_wide { alts := some ⟨cols, (frameOf t crack).mf⟩, co := coOf t crack, ch := .wide u } ids codes hi ha u rfl hcols hsub
    (by rw [hids]) hw (fun i a => if a ∈ codes then g i a else 0)
    (fun r hr p a hp => by rw [if_pos (hsub a (List.mem_of_getElem? hp))]; exact hval r hr p a hp)
    (fun i hi' a hau => by
      by_cases hac : a ∈ codes
      · rw [if_pos hac]; exact hout i hi' a hau hac
      · rw [if_neg hac])
  obtain ⟨v, h1, h2, h3, h4⟩ := hw2
  refine ⟨v, h1, h2, h3, fun k p i a hk hp => ?_⟩
  rw [h4 k p i a hk hp]
  show some (if a ∈ codes then g i a else 0) = _
  rw [if_pos (List.mem_of_getElem? hp)]

/-- **C182.**  Without `crack`: the container has the columns of the frame but the choice (or those asked for), with the rows in order, no data of
cases, and as choices the value of the choice column for each case and alternative, zero where there is no row. -/
theorem C182_rows {t : Tab2} {ids codes : List Int} (h : TallFrame t ids codes) (s : String) (hs : s ∈ t.names) (columns : Option (List String))
    (hc : ∀ l, columns = some l → ∀ c ∈ l, c ∈ t.names) (g : Int → Int → Int) (hg : ∀ r ∈ t.mf.rows, g r.1.1 r.1.2 = r.2 s)
    (h0 : ∀ i ∈ ids, ∀ a ∈ codes, (∀ r ∈ t.mf.rows, r.1 ≠ (i, a)) → g i a = 0) :
    ∃ r, fromIdce t (some s) columns false = some r ∧ r.names = columns.getD (t.names.erase s) ∧ r.coNames = [] ∧ r.answer.co = none ∧
      Holds (some r.answer.ch) ids codes g ∧ HasRows r.answer t.mf.rows ∧ r.answer.wt = none ∧ r.answer.av = none := by
  obtain ⟨u, hu, hh⟩ := fi_wide h false (columnsOf t (some s) columns) s g hg h0
  have ha := (fi_args h false (columnsOf t (some s) columns) (.wide u)).2
  have hh' := hh
  obtain ⟨v, hv, _⟩ := hh
  obtain ⟨a, h1, h2, h3, h4, h5, h6⟩ := fi_contain _ rfl rfl codes ha _ rfl _ hv
  have hcols : columnsOf t (some s) columns = columns.getD (t.names.erase s) := by cases columns <;> rfl
  have hall : (columnsOf t (some s) columns).all (fun c => t.names.contains c) = true := by
    rw [List.all_eq_true]
    intro c hcm
    rw [List.contains_iff_mem]
    rw [hcols] at hcm
    cases columns with
    | none => exact List.mem_of_mem_erase hcm
    | some l => exact hc l rfl c hcm
  refine ⟨⟨columnsOf t (some s) columns, [], a⟩, ?_, hcols, rfl, by rw [h3]; rfl, ?_, h6, h4, h5⟩
  · unfold fromIdce
    show (if (columnsOf t (some s) columns).all (fun c => t.names.contains c) = true then _ else none) = _
    rw [if_pos hall]
    show ((if s ∈ t.names then (unstack (column2 t s)).map Choice.wide else none).bind _) = _
    rw [if_pos hs, hu, Option.map_some, Option.bind_some]
    exact (congrArg (Option.map _) h1).trans rfl
  · rw [h2, ← hv]; exact hh'

/-- **C182.**  With `crack`, and a choice that varies within some case: the columns that are constant within each case are data of the cases, each
case with its value; the others but the choice are data of the alternatives; the choices are as without. -/
theorem C182_crack {t : Tab2} {ids codes : List Int} (h : TallFrame t ids codes) (s : String) (hs : s ∈ t.names) (hv : ¬ ConstantCol t s)
    (g : Int → Int → Int) (hg : ∀ r ∈ t.mf.rows, g r.1.1 r.1.2 = r.2 s)
    (h0 : ∀ i ∈ ids, ∀ a ∈ codes, (∀ r ∈ t.mf.rows, r.1 ≠ (i, a)) → g i a = 0) :
    ∃ r, fromIdce t (some s) none true = some r ∧
      (∀ c, c ∈ r.names ↔ c ∈ t.names ∧ c ≠ s ∧ ¬ ConstantCol t c) ∧ (∀ c, c ∈ r.coNames ↔ c ∈ t.names ∧ ConstantCol t c) ∧
      Holds (some r.answer.ch) ids codes g ∧ HasRows r.answer t.mf.rows ∧
      ∃ f, r.answer.co = some f ∧ f.map Prod.fst = ids ∧ ∀ e ∈ f, ∀ q ∈ t.mf.rows, q.1.1 = e.1 → ∀ c ∈ r.coNames, e.2 c = q.2 c := by
  have hsk : s ∈ (altFrame t).names := by
    simp only [altFrame, List.mem_filter]
    refine ⟨hs, ?_⟩
    cases hc : constantIn t s with
    | false => rfl
    | true => exact absurd ((fi_constant t s).1 hc) hv
  obtain ⟨u, hu, hh⟩ := fi_wide h true ((altFrame t).names.erase s) s g hg h0
  have hia := fi_args h true ((altFrame t).names.erase s) (.wide u)
  have hh' := hh
  obtain ⟨v, hvv, _⟩ := hh
  obtain ⟨a, h1, h2, h3, h4, h5, h6⟩ := fi_contain _ rfl rfl codes hia.2 _ rfl _ hvv
  have hnd : (altFrame t).names.Nodup := h.names.filter _
  have hall : ((altFrame t).names.erase s).all (fun c => (altFrame t).names.contains c) = true := by
    rw [List.all_eq_true]
    intro c hcm
    rw [List.contains_iff_mem]
    exact List.mem_of_mem_erase hcm
  have hmono : isMono ((caseFrame t).rows.map Prod.fst) = true := by
    rw [fi_case_rows h.cases]
    unfold isMono
    rw [decide_eq_true_eq]
    exact h.cases.sorted.imp (fun hab => le_of_lt hab)
  refine ⟨⟨(altFrame t).names.erase s, (caseFrame t).names, a⟩, ?_, ?_, ?_, ?_, h6, (caseFrame t).rows, ?_, fi_case_rows h.cases, ?_⟩
  · unfold fromIdce
    show (if ((altFrame t).names.erase s).all (fun c => (altFrame t).names.contains c) = true then _ else none) = _
    rw [if_pos hall]
    show ((if s ∈ (altFrame t).names then (unstack (column2 t s)).map Choice.wide else none).bind _) = _
    rw [if_pos hsk, hu, Option.map_some, Option.bind_some]
    exact (congrArg (Option.map _) h1).trans rfl
  · intro c
    rw [hnd.mem_erase_iff]
    simp only [altFrame, List.mem_filter, Bool.not_eq_true', ← fi_constant, Bool.not_eq_true]
    tauto
  · intro c
    simp only [caseFrame, List.mem_filter, ← fi_constant]
  · rw [h2, ← hvv]; exact hh'
  · rw [h3]
    show some (setSorted (caseFrame t).rows) = _
    unfold setSorted
    rw [if_pos hmono]
  · intro e he q hq hqe c hc
    have hcc : ConstantCol t c := by
      have : c ∈ (caseFrame t).names := hc
      simp only [caseFrame, List.mem_filter] at this
      exact (fi_constant t c).1 this.2
    simp only [caseFrame, List.mem_map] at he
    obtain ⟨i, _, rfl⟩ := he
    dsimp only at hqe ⊢
    cases hf : t.mf.rows.find? (fun r => r.1.1 == i) with
    | none =>
      rw [List.find?_eq_none] at hf
      exact absurd (by simpa using hqe) (hf q hq)
    | some w =>
      have hw := List.find?_some hf
      have hwm := List.mem_of_find?_eq_some hf
      simp only [Option.map_some, Option.getD_some]
      exact hcc w hwm q hq (by rw [hqe]; simpa using hw)

/-- **C182.**  Without a choice asked for there are no choices, and all columns are data. -/
theorem C182_no_choice {t : Tab2} {ids codes : List Int} (h : TallFrame t ids codes) :
    ∃ r, fromIdce t none none false = some r ∧ r.names = t.names ∧ r.answer.ch = none ∧ r.answer.co = none ∧ HasRows r.answer t.mf.rows := by
  have ha := (fi_args h false t.names .absent).2
  obtain ⟨a, h1, h2, h3, h4, h5, h6⟩ := fi_contain _ rfl rfl codes ha _ rfl _ (fi_absent _ rfl ha)
  refine ⟨⟨t.names, [], a⟩, ?_, rfl, h2, by rw [h3]; rfl, h6⟩
  unfold fromIdce
  show (if t.names.all (fun c => t.names.contains c) = true then _ else none) = _
  rw [if_pos (by rw [List.all_eq_true]; intro c hc; rw [List.contains_iff_mem]; exact hc)]
  have e : FromIdce.choiceOf (frameOf t false) none = some .absent := rfl
  rw [e, Option.bind_some]
  exact (congrArg (Option.map _) h1).trans rfl

/-- **C182.**  A choice or a column that is not in the frame is an exception. -/
theorem C182_missing (t : Tab2) (s : String) (columns : Option (List String)) (crack : Bool)
    (h : s ∉ t.names ∨ ∃ l c, columns = some l ∧ c ∈ l ∧ c ∉ t.names) : fromIdce t (some s) columns crack = none := by
  have hsub : ∀ c, c ∈ (frameOf t crack).names → c ∈ t.names := by
    intro c hc
    cases crack with
    | false => exact hc
    | true => exact (List.mem_filter.1 hc).1
  unfold fromIdce
  dsimp only
  split_ifs with hall
  · rcases h with h | ⟨l, c, rfl, hc, hn⟩
    · show ((if s ∈ (frameOf t crack).names then _ else none).bind _) = none
      rw [if_neg (fun hh => h (hsub s hh))]
      rfl
    · rw [List.all_eq_true] at hall
      have := hall c hc
      rw [List.contains_iff_mem] at this
      exact absurd (hsub c this) hn
  · rfl

/-! ## Examples, and where the code falls short -/

/-- Two cases; the second has only one alternative. -/
def walkOrBus : Tab2 :=
  ⟨["chosen", "time", "age"], ⟨[3, 7], [1, 2], [((7, 2), fun s => if s = "chosen" then 1 else if s = "time" then 20 else 55),
    ((3, 1), fun s => if s = "chosen" then 0 else if s = "time" then 10 else 40),
    ((3, 2), fun s => if s = "chosen" then 1 else if s = "time" then 15 else 40)], 3⟩⟩

example : TallFrame walkOrBus [3, 7] [1, 2] ∧ ¬ ConstantCol walkOrBus "chosen" ∧ ConstantCol walkOrBus "age" ∧
    (fromIdce walkOrBus (some "chosen") none true).map (fun r => (r.names, r.coNames, r.answer.ch)) =
      some (["time"], ["age"], some ⟨[1, 2], [(3, [0, 1]), (7, [0, 1])]⟩) :=
  ⟨⟨⟨by decide, by decide, by decide, by decide⟩, ⟨by decide, fun c => by
      simp [walkOrBus]; omega⟩, rfl, by decide, by decide⟩, by unfold ConstantCol; decide, by unfold ConstantCol; decide, by decide +kernel⟩

/-- Two cases with one alternative each. -/
def captive : Tab2 :=
  ⟨["chosen", "time"], ⟨[3, 7], [1, 2], [((3, 1), fun s => if s = "chosen" then 1 else 10), ((7, 2), fun s => if s = "chosen" then 1 else 20)], 2⟩⟩

/-- **C182, violated.**  With `crack` the choice can be moved to the cases, and is not found then: if each case has one alternative, say. -/
theorem C182_fails_choice_moved : (fromIdce captive (some "chosen") none true).isNone = true ∧
    (fromIdce captive (some "chosen") none false).isSome = true := by decide +kernel

/-- **C182, violated.**  With `crack`, asking for a column that is constant within each case raises; and the columns that are, and are not asked for,
are imported. -/
theorem C182_fails_columns : (fromIdce walkOrBus (some "chosen") (some ["time", "age"]) true).isNone = true ∧
    (fromIdce walkOrBus (some "chosen") (some ["time", "age"]) false).isSome = true ∧
    (fromIdce walkOrBus (some "chosen") (some ["time"]) true).map (fun r => (r.names, r.coNames)) = some (["time"], ["age"]) := by decide +kernel

end Larch.Props
