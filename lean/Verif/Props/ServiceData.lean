import Verif.Model.ServiceData
import Verif.Props.PodSelect
import Verif.Props.ChoicesAv

/-!
# C178: a data service answers a request with the data asked for
-/

namespace Larch.Props

open Larch.PodSelect Larch.Frames Larch.Choices Larch.ServiceData

/-- The expressions of case data in a request. -/
def coAsked (codes : List Int) (r : Req) : List String :=
  r.co.getD [] ++ (r.choiceCo.map (choiceTexts codes)).getD [] ++ r.choiceCode.toList ++ r.weight.toList

/-- The expressions of data of the alternatives in a request. -/
def caAsked (r : Req) : List String := r.ca.getD [] ++ r.choiceCa.toList ++ r.availCa.toList

/-- The service has everything asked for: the expression `v` has the value `V v c` for case `c`, and `W v c a` for case `c` and alternative `a`. -/
structure Serves (d : Svc Int) (r : Req) (V : String → Int → Int) (W : String → Int → Int → Int) : Prop where
  co : ∀ v ∈ coAsked d.codes r, d.co v = some ((List.range d.n).map (fun (c : Nat) => V v c))
  ca : ∀ v ∈ caAsked r, d.ca v = some ((List.range d.n).map (fun (c : Nat) => d.codes.map (fun a => W v c a)))

theorem sd_take {β : Type} (n : Nat) (f : Int → β) : ∀ ps : List Int, (∀ c ∈ ps, 0 ≤ c ∧ c < n) →
    takeAt ((List.range n).map (fun (c : Nat) => f c)) ps = some (ps.map f)
  | [], _ => rfl
  | c :: r, h => by
    have hc := h c (by simp)
    have hr := sd_take n f r (fun x hx => h x (by simp [hx]))
    unfold takeAt at hr ⊢
    rw [List.mapM_cons, hr]
    have : ((List.range n).map (fun (c : Nat) => f c))[c.toNat]? = some (f c) := by
      rw [List.getElem?_map, List.getElem?_range (by omega), Option.map_some, Int.toNat_of_nonneg hc.1]
    rw [this]
    rfl

theorem sd_read {β : Type} {n : Nat} {s : Sel} {ps : List Int} (hp : positions s n = some ps) (f : Int → β) :
    readCol n s ((List.range n).map (fun (c : Nat) => f c)) = some (ps.map f) := by
  unfold readCol
  rw [C120_reserved_rows _ _ _ hp, hp]
  simp [sd_take n f ps (ps_in_range hp)]

theorem sd_mapM {β γ : Type} (f : β → Option γ) (g : β → γ) (l : List β) (h : ∀ v ∈ l, f v = some (g v)) : l.mapM f = some (l.map g) := by
  induction l with
  | nil => rfl
  | cons a r ih => rw [List.mapM_cons, h a (by simp), ih (fun v hv => h v (by simp [hv]))]; rfl

theorem sd_rowOf {β : Type} (vars : List String) (f : String → Int → β) (ps : List Int) {i : Nat} {c : Int} (h : ps[i]? = some c) :
    rowOf (vars.map (fun v => ps.map (f v))) i = vars.map (fun v => f v c) := by
  unfold rowOf
  rw [List.filterMap_map]
  induction vars with
  | nil => rfl
  | cons v r ih => rw [List.filterMap_cons]; simp only [Function.comp, List.getElem?_map, h, Option.map_some]; rw [List.map_cons, ← ih]; simp [h]

theorem sd_zipIdx {ι β : Type} (ps : List ι) (g : ι → Nat → β) (f : ι → β) (h : ∀ (i : Nat) (c : ι), ps[i]? = some c → g c i = f c) :
    ps.zipIdx.map (fun e => (e.1, g e.1 e.2)) = ps.map (fun c => (c, f c)) := by
  apply List.ext_getElem?
  intro i
  rw [List.getElem?_map, List.getElem?_map, List.getElem?_zipIdx]
  cases hc : ps[i]? with
  | none => rfl
  | some c => simp [h i c hc]

theorem sd_frameCO {d : Svc Int} {s : Option Sel} {ps : List Int} (hp : positions (d.pick s) d.n = some ps) (V : String → Int → Int) (vars : List String)
    (h : ∀ v ∈ vars, d.co v = some ((List.range d.n).map (fun (c : Nat) => V v c))) :
    d.frameCO s vars = some (ps.map (fun c => (c, vars.map (fun v => V v c)))) := by
  unfold Svc.frameCO Svc.arrayCO Svc.caseindexes
  rw [sd_mapM _ (fun v => ps.map (V v)) vars (fun v hv => by rw [h v hv, Option.bind_some, sd_read hp]), Option.bind_some, hp, Option.map_some,
    sd_zipIdx ps (fun _ i => rowOf (vars.map (fun v => ps.map (V v))) i) _ (fun i c hc => sd_rowOf vars V ps hc)]

theorem sd_product (ps codes : List Int) : productIndex ps codes = ps ×ˢ codes := rfl

theorem sd_flat (ps codes : List Int) (w : Int → Int → Int) :
    (productIndex ps codes).zip (ps.map (fun c => codes.map (w c))).flatten = (productIndex ps codes).map (fun e => (e, w e.1 e.2)) := by
  induction ps with
  | nil => rfl
  | cons c r ih =>
    simp only [productIndex, List.flatMap_cons, List.map_cons, List.flatten_cons, List.map_append] at ih ⊢
    rw [List.zip_append (by simp), ih]
    congr 1
    rw [List.zip_map', List.map_map]
    rfl

theorem sd_nonempty {ps codes : List Int} (h1 : ps ≠ []) (h2 : codes ≠ []) : productIndex ps codes ≠ [] := by
  obtain ⟨a, l, rfl⟩ := List.exists_cons_of_ne_nil h1
  obtain ⟨b, m, rfl⟩ := List.exists_cons_of_ne_nil h2
  simp [productIndex]

theorem sd_frameCA {d : Svc Int} {s : Option Sel} {ps : List Int} (hp : positions (d.pick s) d.n = some ps) (hne : ps ≠ []) (hc : d.codes ≠ [])
    (w : Int → Int → Int) (v : String) (h : d.ca v = some ((List.range d.n).map (fun (c : Nat) => d.codes.map (fun a => w c a)))) :
    d.frameCA s v = some ((productIndex ps d.codes).map (fun e => (e, w e.1 e.2))) := by
  unfold Svc.frameCA Svc.arrayCA Svc.caseindexes
  have h1 := sd_read hp (fun c => d.codes.map (fun a => w c a))
  rw [h, Option.bind_some, h1, Option.bind_some, hp, Option.bind_some]
  have hl : (productIndex ps d.codes).length = (ps.map (fun c => d.codes.map (w c))).flatten.length := by
    simp [productIndex, List.length_flatMap, List.length_flatten, List.map_map, Function.comp_def]
  have h0 : (ps.map (fun c => d.codes.map (w c))).flatten ≠ [] := by
    intro h0
    rw [h0] at hl
    exact sd_nonempty hne hc (List.length_eq_zero_iff.mp hl)
  rw [if_neg h0, if_pos hl, sd_flat]

theorem sd_field (vars : List String) (f : String → Int) {v : String} (hv : v ∈ vars) : field vars (vars.map f) v = f v := by
  unfold field
  induction vars with
  | nil => cases hv
  | cons a r ih =>
    rw [List.map_cons, List.zip_cons_cons, List.lookup_cons]
    by_cases e : v = a
    · subst e; simp
    · rw [show (v == a) = false by simpa using e]
      exact ih ((List.mem_cons.mp hv).resolve_left e)

theorem sd_uniq {l : List Int} (h : l.Pairwise (· < ·)) : uniq l = l := by
  unfold uniq
  exact sorted_dedup_eq h (fun _ => Iff.rfl)

theorem sd_mem {ps codes : List Int} {e : Int × Int} : e ∈ productIndex ps codes ↔ e.1 ∈ ps ∧ e.2 ∈ codes := by
  rw [sd_product, List.mem_product]

theorem sd_mono {ps codes : List Int} (h1 : ps.Pairwise (· < ·)) (h2 : codes.Pairwise (· < ·)) :
    (productIndex ps codes).Pairwise (fun a b => lexLe a b = true ∧ a ≠ b) := by
  induction ps with
  | nil => exact List.Pairwise.nil
  | cons c r ih =>
    rw [List.pairwise_cons] at h1
    show ((codes.map (fun a => (c, a))) ++ productIndex r codes).Pairwise _
    rw [List.pairwise_append]
    refine ⟨?_, ih h1.2, ?_⟩
    · rw [List.pairwise_map]
      exact h2.imp (fun {a b} hab => ⟨by simp [lexLe, le_of_lt hab], fun h => (ne_of_lt hab) (Prod.ext_iff.mp h).2⟩)
    · intro a ha b hb
      obtain ⟨x, _, rfl⟩ := List.mem_map.mp ha
      have := h1.1 _ (sd_mem.mp hb).1
      exact ⟨by simp [lexLe, this], fun h => (ne_of_lt this) (by rw [← h])⟩

theorem sd_regular {β : Type} (d : Svc Int) {ps : List Int} (h1 : ps.Pairwise (· < ·)) (h2 : d.codes.Pairwise (· < ·)) (n : Nat)
    {rows : List ((Int × Int) × β)} (hr : rows.map Prod.fst = productIndex ps d.codes) (hne : d.codes ≠ []) :
    Regular (indexed d ps n rows) ∧ CasesOf (indexed d ps n rows) ps ∧ isIdce (indexed d ps n rows) = false := by
  have hu1 := sd_uniq h1
  have hu2 := sd_uniq h2
  refine ⟨⟨?_, ?_, ?_, ?_⟩, ⟨h1, ?_⟩, ?_⟩
  · show (uniq ps).Pairwise _; rw [hu1]; exact h1
  · show (uniq d.codes).Pairwise _; rw [hu2]; exact h2
  · intro r h
    have := sd_mem.mp (hr ▸ List.mem_map_of_mem h)
    exact ⟨by show r.1.1 ∈ uniq ps; rw [hu1]; exact this.1, by show r.1.2 ∈ uniq d.codes; rw [hu2]; exact this.2⟩
  · show (rows.map Prod.fst).Nodup
    rw [hr]
    exact (sd_mono h1 h2).imp (fun h => h.2)
  · intro c
    obtain ⟨a, ha⟩ := List.exists_mem_of_ne_nil _ hne
    constructor
    · intro hc
      have : (c, a) ∈ rows.map Prod.fst := by rw [hr]; exact sd_mem.mpr ⟨hc, ha⟩
      obtain ⟨r, hr1, hr2⟩ := List.mem_map.mp this
      exact ⟨r, hr1, by rw [hr2]⟩
    · rintro ⟨r, hr1, rfl⟩
      exact (sd_mem.mp (hr ▸ List.mem_map_of_mem hr1)).1
  · unfold isIdce
    have hl : rows.length = (uniq ps).length * (uniq d.codes).length := by
      rw [← List.length_map (f := Prod.fst), hr, hu1, hu2, sd_product, List.length_product]
    have hm : isMonoLex ((indexed d ps n rows).rows.map Prod.fst) = true := by
      show isMonoLex (rows.map Prod.fst) = true
      rw [hr]
      unfold isMonoLex
      exact decide_eq_true ((sd_mono h1 h2).imp (fun h => h.1))
    rw [hm]
    simp [indexed, hl]

theorem sd_coFrame {d : Svc Int} {s : Option Sel} {ps : List Int} (hp : positions (d.pick s) d.n = some ps) (V : String → Int → Int) (vars : List String)
    (h : ∀ v ∈ vars, d.co v = some ((List.range d.n).map (fun (c : Nat) => V v c))) (hnd : vars.Nodup) :
    coFrame d s vars = some ⟨vars, ps.map (fun c => (c, field vars (vars.map (fun v => V v c))))⟩ := by
  unfold coFrame
  rw [if_pos hnd, sd_frameCO hp V vars h, Option.map_some, List.map_map]
  rfl

theorem sd_across (vars : List String) (f : String → Int × Int → Int) (l : List (Int × Int)) {i : Nat} {e : Int × Int} (h : l[i]? = some e) :
    across (vars.map (fun v => l.map (fun e => (e, f v e)))) i = vars.map (fun v => f v e) := by
  unfold across
  rw [List.filterMap_map]
  have : ((fun c : List ((Int × Int) × Int) => (c[i]?).map Prod.snd) ∘ fun v => l.map (fun e => (e, f v e))) = fun v => some (f v e) := by
    funext v
    simp [h]
  rw [this]
  induction vars with
  | nil => rfl
  | cons v r ih => simp

theorem sd_caFrame {d : Svc Int} {s : Option Sel} {ps : List Int} (hp : positions (d.pick s) d.n = some ps) (hne : ps ≠ []) (hc : d.codes ≠ [])
    (W : String → Int → Int → Int) (vars : List String)
    (h : ∀ v ∈ vars, d.ca v = some ((List.range d.n).map (fun (c : Nat) => d.codes.map (fun a => W v c a)))) (hnd : vars.Nodup) :
    caFrame d s vars = some ⟨vars, indexed d ps vars.length
      ((productIndex ps d.codes).map (fun e => (e, field vars (vars.map (fun v => W v e.1 e.2)))))⟩ := by
  unfold caFrame
  rw [if_pos hnd, sd_mapM _ (fun v => (productIndex ps d.codes).map (fun e => (e, W v e.1 e.2))) vars
    (fun v hv => sd_frameCA hp hne hc (W v) v (h v hv)), Option.bind_some]
  unfold Svc.caseindexes
  rw [hp, Option.bind_some, if_neg (sd_nonempty hne hc),
    sd_zipIdx (productIndex ps d.codes) (fun _ i => field vars (across (vars.map (fun v => (productIndex ps d.codes).map (fun e => (e, W v e.1 e.2)))) i))
      (fun e => field vars (vars.map (fun v => W v e.1 e.2)))
      (fun i e he => by rw [sd_across vars (fun v e => W v e.1 e.2) _ he])]

theorem sd_single {d : Svc Int} {s : Option Sel} {ps : List Int} (hp : positions (d.pick s) d.n = some ps) (V : Int → Int) (v : String)
    (h : d.co v = some ((List.range d.n).map (fun (c : Nat) => V c))) : single d s v = some (ps.map (fun c => (c, V c))) := by
  unfold single
  rw [sd_frameCO hp (fun _ => V) [v] (fun u hu => by rw [List.mem_singleton.mp hu]; exact h), Option.map_some, List.map_map]
  rfl

theorem sd_tall {d : Svc Int} {s : Option Sel} {ps : List Int} (hp : positions (d.pick s) d.n = some ps) (hne : ps ≠ []) (hc : d.codes ≠ [])
    (w : Int → Int → Int) (v : String) (h : d.ca v = some ((List.range d.n).map (fun (c : Nat) => d.codes.map (fun a => w c a)))) :
    tallFrame d s v = some (indexed d ps 1 ((productIndex ps d.codes).map (fun e => (e, w e.1 e.2)))) := by
  unfold tallFrame Svc.caseindexes
  rw [sd_frameCA hp hne hc w v h, Option.bind_some, hp, Option.map_some]

/-- The constructor's arguments have the selected cases and the alternatives of the service. -/
structure Sets (d : Svc Int) (ps : List Int) (x : Choices.Args) : Prop where
  cases : CaseSet x ps
  alts : AltSet x d.codes

theorem sd_fst {β : Type} (l : List (Int × Int)) (f : Int × Int → β) : (l.map (fun e => (e, f e))).map Prod.fst = l := by
  rw [List.map_map]; exact List.map_id l

/-- What is asked for as choices: the share of the choice of alternative `a` in case `c`. -/
def choiceAsked (V : String → Int → Int) (W : String → Int → Int → Int) (r : Req) (c a : Int) : Int :=
  match r.choiceCa, r.choiceCo, r.choiceCode with
  | some v, _, _ => W v c a
  | none, some defs, _ => ((defs.lookup a).map (fun v => V v c)).getD 0
  | none, none, some v => if V v c = a then 1 else 0
  | none, none, none => 0

/-- A request asks for choices. -/
def asksChoice (r : Req) : Prop := r.choiceCa ≠ none ∨ r.choiceCo ≠ none ∨ r.choiceCode ≠ none

/-- What the answer should be, for the cases `ps`. -/
structure Answers (codes ps : List Int) (r : Req) (V : String → Int → Int) (W : String → Int → Int → Int) (o : Answer) : Prop where
  co : ∀ vars, r.co = some vars → ∃ f, o.co = some f ∧ f.map Prod.fst = ps ∧ ∀ row ∈ f, ∀ v ∈ vars, row.2 v = V v row.1
  ca : ∀ vars, r.ca = some vars → ∃ f, o.ca = some f ∧ f.rows.map Prod.fst = ps.flatMap (fun c => codes.map (fun a => (c, a))) ∧
    ∀ row ∈ f.rows, ∀ v ∈ vars, row.2 v = W v row.1.1 row.1.2
  ce : o.ce = none
  ch : asksChoice r → Holds (some o.ch) ps codes (choiceAsked V W r)
  noCh : ¬ asksChoice r → o.ch = none
  wt : ∀ v, r.weight = some v → o.wt = some (ps.map (fun c => (c, V v c)))
  noWt : r.weight = none → o.wt = none
  av : ∀ v, r.availCa = some v → Holds (some o.av) ps codes (fun c a => int8 (W v c a))
  noAv : r.availCa = none → o.av = none

theorem sd_holds {o : Option (Option Table)} {ids codes : List Int} {g g' : Int → Int → Int} (h : Holds o ids codes g)
    (he : ∀ i, ∀ a ∈ codes, g i a = g' i a) : Holds o ids codes g' := by
  obtain ⟨t, h1, h2, h3, h4⟩ := h
  exact ⟨t, h1, h2, h3, fun k p i a hk hp => by rw [← he i a (List.mem_of_getElem? hp)]; exact h4 k p i a hk hp⟩

theorem sd_choice {d : Svc Int} {s : Option Sel} {r : Req} {ps : List Int} {V : String → Int → Int} {W : String → Int → Int → Int}
    (hp : positions (d.pick s) d.n = some ps) (hps : ps.Pairwise (· < ·)) (hne : ps ≠ []) (hcodes : d.codes.Pairwise (· < ·)) (hcne : d.codes ≠ [])
    (hs : Serves d r V W) (hz : ∀ c, V "0" c = 0) (x : Choices.Args) (hx : ∀ ch v w, Sets d ps { x with ch := ch, av := v, wt := w }) :
    ∃ ch, choiceOf d s r x = some ch ∧ ∀ v w, (asksChoice r → Holds (choices { x with ch := ch, av := v, wt := w }) ps d.codes (choiceAsked V W r)) ∧
      (¬ asksChoice r → choices { x with ch := ch, av := v, wt := w } = some none) := by
  have hx0 := hx x.ch x.av x.wt
  unfold choiceOf
  cases h1 : r.choiceCa with
  | some v =>
    have hf := sd_tall hp hne hcne (W v) v (hs.ca v (by simp [caAsked, h1]))
    simp only [hf, Option.bind_some]
    have hreg := sd_regular d hps hcodes 1 (sd_fst (productIndex ps d.codes) (fun e => W v e.1 e.2)) hcne
    have hk : knownCodes x = some (some d.codes) := ch_known hx0.alts
    rw [hk, Option.bind_some]
    have key := ch_tall x ps d.codes hx0.cases hx0.alts _ hreg.1 hreg.2.1
      (by intro e he; obtain ⟨e', he', rfl⟩ := List.mem_map.mp he; exact (sd_mem.mp he').2) (W v)
      (by intro e he; obtain ⟨e', he', rfl⟩ := List.mem_map.mp he; rfl)
      (by intro i hi a ha hno; exact absurd rfl (hno _ (List.mem_map_of_mem (sd_mem.mpr ⟨hi, ha⟩))))
    obtain ⟨t, ht, hrest⟩ := key
    obtain ⟨t', ht', ht2⟩ := Option.map_eq_some_iff.mp ht
    obtain ⟨t0, hu, hset⟩ := Option.bind_eq_some_iff.mp ht'
    cases ht2
    refine ⟨.wide t0, by rw [hu]; rfl, fun av w => ⟨fun _ => ⟨t, ?_, ?_⟩, fun h => absurd (Or.inl (by simp [h1])) h⟩⟩
    · show (knownCodes x).bind (fun k => (setCh x k t0).map some) = _
      rw [hk, Option.bind_some, hset]
      rfl
    · have : choiceAsked V W r = W v := by funext c a; simp [choiceAsked, h1]
      rw [this]
      exact hrest
  | none =>
    cases h2 : r.choiceCo with
    | some defs =>
      have hf := sd_frameCO hp V (choiceTexts d.codes defs) (fun v hv => hs.co v (by simp [coAsked, h2, hv]))
      simp only [hf, Option.map_some]
      refine ⟨_, rfl, fun av w => ⟨fun _ => ?_, fun h => absurd (Or.inr (Or.inl (by simp [h2]))) h⟩⟩
      refine sd_holds (g := fun c a => if a ∈ d.codes then choiceAsked V W r c a else 0) ?_ (fun i a ha => by simp [ha])
      refine C135_wide _ ps d.codes (hx _ _ _).cases (hx _ _ _).alts _ rfl hcodes (fun c hc => hc) ?_ ?_ _ ?_ ?_
      · simp [List.map_map, Function.comp_def]
      · intro e he
        obtain ⟨c, _, rfl⟩ := List.mem_map.mp he
        simp [choiceTexts]
      · intro e he p a hpa
        obtain ⟨c, _, rfl⟩ := List.mem_map.mp he
        have hpa' : d.codes[p]? = some a := hpa
        rw [if_pos (List.mem_of_getElem? hpa')]
        simp only [choiceTexts, List.map_map, List.getElem?_map, hpa', Option.map_some, choiceAsked, h1, h2, Function.comp]
        cases defs.lookup a with
        | none => simp [hz]
        | some v => rfl
      · intro i _ a ha
        exact if_neg ha
    | none =>
      cases h3 : r.choiceCode with
      | some v =>
        have hf := sd_single hp (V v) v (hs.co v (by simp [coAsked, h3]))
        simp only [hf, Option.map_some]
        refine ⟨_, rfl, fun av w => ⟨fun _ => ?_, fun h => absurd (Or.inr (Or.inr (by simp [h3]))) h⟩⟩
        refine sd_holds (g := fun c a => if a ∈ d.codes then choiceAsked V W r c a else 0) ?_ (fun i a ha => by simp [ha])
        refine C135_wide _ ps d.codes (hx _ _ _).cases (hx _ _ _).alts _ rfl hcodes (fun c hc => hc) ?_ ?_ _ ?_ ?_
        · simp [List.map_map, Function.comp_def]
        · intro e he
          obtain ⟨c, hc, rfl⟩ := List.mem_map.mp he
          simp [oneHot]
        · intro e he p a hpa
          obtain ⟨c, hc, rfl⟩ := List.mem_map.mp he
          obtain ⟨c', _, rfl⟩ := List.mem_map.mp hc
          have hpa' : d.codes[p]? = some a := hpa
          rw [if_pos (List.mem_of_getElem? hpa')]
          simp [oneHot, choiceAsked, h1, h2, h3, hpa', eq_comm]
        · intro i _ a ha
          exact if_neg ha
      | none =>
        refine ⟨.absent, rfl, fun av w => ⟨fun h => absurd h (by simp [asksChoice, h1, h2, h3]), fun _ => ?_⟩⟩
        have hk : knownCodes x = some (some d.codes) := ch_known hx0.alts
        show (knownCodes x).bind (fun _ => some none) = _
        rw [hk]
        rfl

/-- **C178.**  A request is answered with the data asked for, when cases are selected in increasing order, the codes of the alternatives are in
increasing order, all expressions can be read, names are asked for once, some data of the cases or the alternatives are asked for, and availability
is not asked for by expressions of case data: rows for exactly the selected cases, labelled with their positions, in order, with the values of the
expressions for that case (and alternative); choices from the expression asked for, 0 for alternatives without one; availability as stored in
one byte; nothing that is not asked for. -/
theorem C178_answer (d : Svc Int) (s : Option Sel) (r : Req) (ps : List Int) (V : String → Int → Int) (W : String → Int → Int → Int)
    (hp : positions (d.pick s) d.n = some ps) (hps : ps.Pairwise (· < ·)) (hne : ps ≠ []) (hcodes : d.codes.Pairwise (· < ·)) (hcne : d.codes ≠ [])
    (hs : Serves d r V W) (hz : ∀ c, V "0" c = 0) (hnco : (r.co.getD []).Nodup) (hnca : (r.ca.getD []).Nodup)
    (hdata : r.co ≠ none ∨ r.ca ≠ none) (hav : r.availCa ≠ none ∨ r.availCo = none) :
    ∃ o, makeDataframes d s r = some o ∧ Answers d.codes ps r V W o := by
  obtain ⟨c, hc, hcP⟩ : ∃ c, coPart d s r = some c ∧
      c = r.co.map (fun vars => ⟨vars, ps.map (fun c => (c, field vars (vars.map (fun v => V v c))))⟩) := by
    unfold coPart
    cases h : r.co with
    | none => exact ⟨_, rfl, rfl⟩
    | some vars => exact ⟨_, by simp only [sd_coFrame hp V vars (fun v hv => hs.co v (by simp [coAsked, h, hv])) (by simpa [h] using hnco)]; rfl, rfl⟩
  obtain ⟨a, ha, haP⟩ : ∃ a, caPart d s r = some a ∧ a = r.ca.map (fun vars => ⟨vars, indexed d ps vars.length
      ((productIndex ps d.codes).map (fun e => (e, field vars (vars.map (fun v => W v e.1 e.2)))))⟩) := by
    unfold caPart
    cases h : r.ca with
    | none => exact ⟨_, rfl, rfl⟩
    | some vars =>
      exact ⟨_, by simp only [sd_caFrame hp hne hcne W vars (fun v hv => hs.ca v (by simp [caAsked, h, hv])) (by simpa [h] using hnca)]; rfl, rfl⟩
  have hreg : ∀ t, a = some t → Regular t.mf ∧ CasesOf t.mf ps ∧ isIdce t.mf = false ∧ t.mf.lev1 = d.codes := by
    intro t ht
    rw [haP] at ht
    obtain ⟨vars, _, rfl⟩ := Option.map_eq_some_iff.mp ht
    obtain ⟨h1, h2, h3⟩ := sd_regular d hps hcodes vars.length
      (sd_fst (productIndex ps d.codes) (fun e => field vars (vars.map (fun v => W v e.1 e.2)))) hcne
    exact ⟨h1, h2, h3, sd_uniq hcodes⟩
  have hx : ∀ ch v w, Sets d ps { codes := some d.codes, co := c, alts := a, ch := ch, av := v, wt := w } := by
    intro ch v w
    refine ⟨⟨hps, ?_, ?_, ?_⟩, ⟨hcodes, Or.inr rfl, fun t ht => (hreg t ht).2.2.2, Or.inl (by simp)⟩⟩
    · intro f hf
      rw [show (_ : Option Tab1) = c from rfl, hcP] at hf
      obtain ⟨vars, _, rfl⟩ := Option.map_eq_some_iff.mp hf
      simp [List.map_map, Function.comp_def]
    · intro t ht
      obtain ⟨h1, h2, _, h4⟩ := hreg t ht
      exact ⟨h1, h2, by rw [h4]; exact hcne⟩
    · rcases hdata with h | h
      · left; show c ≠ none; rw [hcP]; simpa using h
      · right; show a ≠ none; rw [haP]; simpa using h
  obtain ⟨ch, hch, hchP⟩ := sd_choice hp hps hne hcodes hcne hs hz { codes := some d.codes, co := c, alts := a } hx
  obtain ⟨w, hw, hwP⟩ : ∃ w, weightOf d s r = some w ∧
      w = (match r.weight with | some v => Weight.series (ps.map (fun c => (c, V v c))) | none => .absent) := by
    unfold weightOf
    cases h : r.weight with
    | none => exact ⟨_, rfl, rfl⟩
    | some v => exact ⟨_, by simp only [sd_single hp (V v) v (hs.co v (by simp [coAsked, h]))]; rfl, rfl⟩
  obtain ⟨v, hv, hvP⟩ : ∃ v, availOf d s r = some v ∧ v = (match r.availCa with
      | some e => Avail.tall (indexed d ps 1 ((productIndex ps d.codes).map (fun p => (p, int8 (W e p.1 p.2)))))
      | none => .absent) := by
    unfold availOf
    cases h : r.availCa with
    | none =>
      have h' : r.availCo = none := hav.resolve_left (by simp [h])
      exact ⟨.absent, by simp only [h'], rfl⟩
    | some e =>
      refine ⟨_, by simp only [sd_tall hp hne hcne (W e) e (hs.ca e (by simp [caAsked, h]))]; rfl, ?_⟩
      simp only [indexed, List.map_map]
      rfl
  obtain ⟨hch1, hch2⟩ := hchP v w
  have hxx := hx ch v w
  generalize hX : ({ codes := some d.codes, co := c, alts := a, ch := ch, av := v, wt := w } : Choices.Args) = x at hxx
  have hargs : argsOf d s r = some x := by
    unfold argsOf
    rw [ha, Option.bind_some, hc, Option.bind_some, hch, Option.bind_some, hw, Option.bind_some, hv, Option.map_some, ← hX]
  have hXch : ({ ({ codes := some d.codes, co := c, alts := a } : Choices.Args) with ch := ch, av := v, wt := w } : Choices.Args) = x := hX
  rw [hXch] at hch1 hch2
  obtain ⟨C, hC, hCl⟩ : ∃ C, choices x = some C ∧ ∀ t, C = some t → t.rows.map Prod.fst = ps := by
    by_cases hq : asksChoice r
    · obtain ⟨t, h1, _, h3, _⟩ := hch1 hq
      exact ⟨_, h1, fun t' ht' => by cases ht'; exact h3⟩
    · exact ⟨_, hch2 hq, fun t' ht' => by cases ht'⟩
  have hwt : x.wt = w := by rw [← hX]
  have hxav : x.av = v := by rw [← hX]
  have hxco : x.co = c := by rw [← hX]
  have hxal : x.alts = a := by rw [← hX]
  obtain ⟨K, hK, hKs, hKn⟩ : ∃ K, weights x = some K ∧ (∀ u, r.weight = some u → K = some (ps.map (fun c => (c, V u c)))) ∧
      (r.weight = none → K = none) := by
    cases h : r.weight with
    | none =>
      rw [h] at hwP
      refine ⟨none, ?_, fun u hu => (by cases hu), fun _ => rfl⟩
      unfold weights
      rw [aw_altCodes hxx.alts hC, Option.bind_some, hC, Option.bind_some, hwt, hwP]
    | some u =>
      rw [h] at hwP
      have := (C136_weights_partial x ps d.codes hxx.cases hxx.alts C hC (V u)).1 _ (hwt.trans hwP) (by simp [List.map_map, Function.comp_def])
        (by intro q hq; obtain ⟨i, _, rfl⟩ := List.mem_map.mp hq; rfl)
      exact ⟨_, this, fun u' hu' => by cases hu'; rfl, fun h' => by cases h'⟩
  have hlab : Labelled x ps := by
    refine ⟨C, K, hC, hK, ?_⟩
    cases hCC : C with
    | some t => exact Or.inr (Or.inr (Or.inl ⟨t, rfl, hCl t hCC⟩))
    | none =>
      cases hw' : r.weight with
      | none => exact Or.inr (Or.inl ⟨rfl, hKn hw'⟩)
      | some u => exact Or.inr (Or.inr (Or.inr ⟨_, rfl, hKs u hw', by simp [List.map_map, Function.comp_def]⟩))
  obtain ⟨A, hA, hAs, hAn⟩ : ∃ A, availability x = some A ∧
      (∀ u, r.availCa = some u → Holds (some A) ps d.codes (fun c a => int8 (W u c a))) ∧ (r.availCa = none → A = none) := by
    cases h : r.availCa with
    | none =>
      rw [h] at hvP
      refine ⟨none, ?_, fun u hu => (by cases hu), fun _ => rfl⟩
      unfold availability
      rw [aw_start hxx.alts hC hK]
      simp only [hxav, hvP]
    | some u =>
      rw [h] at hvP
      have hr := sd_regular d hps hcodes 1 (sd_fst (productIndex ps d.codes) (fun p => int8 (W u p.1 p.2))) hcne
      have := C136_tall x ps d.codes hxx.cases hxx.alts hlab _ (hxav.trans hvP) hr.1 hr.2.1
        (by
          intro b
          obtain ⟨i, hi⟩ := List.exists_mem_of_ne_nil _ hne
          constructor
          · intro hb
            exact ⟨_, List.mem_map_of_mem (sd_mem.mpr ⟨hi, hb⟩ : (i, b) ∈ _), rfl⟩
          · rintro ⟨q, hq, rfl⟩
            obtain ⟨e, he, rfl⟩ := List.mem_map.mp hq
            exact (sd_mem.mp he).2)
        (by simp [indexed, sd_product, List.length_product]) (fun c a => int8 (W u c a))
        (by intro q hq; obtain ⟨e, he, rfl⟩ := List.mem_map.mp hq; rfl)
      obtain ⟨t, ht, hrest⟩ := this
      exact ⟨some t, ht, fun u' hu' => by cases hu'; exact ⟨t, rfl, hrest⟩, fun h' => by cases h'⟩
  refine ⟨⟨x.co.map (fun f => setSorted f.rows), (ca x).map (fun t => t.mf), ceSet x, C, K, A⟩, ?_, ?_⟩
  · unfold makeDataframes contain
    rw [hargs, Option.bind_some, hC, Option.bind_some, hK, Option.bind_some, hA, Option.map_some]
  · have hmono : ∀ (f : Int → String → Int), setSorted (ps.map (fun c => (c, f c))) = ps.map (fun c => (c, f c)) := by
      intro f
      unfold setSorted isMono
      rw [if_pos]
      refine decide_eq_true ?_
      rw [List.map_map]
      show ((ps.map id)).Pairwise _
      rw [List.map_id]
      exact hps.imp le_of_lt
    refine ⟨?_, ?_, ?_, ?_, ?_, hKs, hKn, hAs, hAn⟩
    · intro vars hvars
      refine ⟨_, by simp only [hxco, hcP, hvars, Option.map_some]; rfl, ?_, ?_⟩
      · rw [hmono]; simp [List.map_map, Function.comp_def]
      · rw [hmono]
        intro row hrow u hu
        obtain ⟨i, _, rfl⟩ := List.mem_map.mp hrow
        exact sd_field vars (fun v => V v i) hu
    · intro vars hvars
      have hax : x.alts = some ⟨vars, indexed d ps vars.length
          ((productIndex ps d.codes).map (fun e => (e, field vars (vars.map (fun v => W v e.1 e.2)))))⟩ := by rw [hxal, haP, hvars]; rfl
      have hcax := ch_ca.mpr ⟨hax, (hreg _ (hxal ▸ hax)).2.2.1⟩
      refine ⟨_, by simp only [hcax, Option.map_some]; rfl, sd_fst _ _, ?_⟩
      intro row hrow u hu
      obtain ⟨e, _, rfl⟩ := List.mem_map.mp hrow
      exact sd_field vars (fun v => W v e.1 e.2) hu
    · show ceSet x = none
      unfold ceSet
      cases hce : ce x with
      | none => rfl
      | some t =>
        obtain ⟨e1, e2⟩ := ch_ce.mp hce
        rw [hxal] at e1
        rw [(hreg t e1).2.2.1] at e2
        cases e2
    · intro hq
      have := hch1 hq
      rwa [hC] at this
    · intro hq
      have := hch2 hq
      rw [hC] at this
      exact Option.some.inj this

/-- **C178 (nothing is guessed).**  If an expression asked for cannot be read, there is no answer. -/
theorem C178_unreadable (d : Svc Int) (s : Option Sel) (r : Req)
    (h : (∃ v ∈ r.co.getD [], d.co v = none) ∨ (∃ v ∈ r.ca.getD [], d.ca v = none) ∨ (∃ v, r.weight = some v ∧ d.co v = none) ∨
      (∃ v, r.availCa = some v ∧ d.ca v = none) ∨ (∃ v, r.choiceCa = some v ∧ d.ca v = none) ∨
      (∃ defs a v, r.choiceCa = none ∧ r.choiceCo = some defs ∧ a ∈ d.codes ∧ defs.lookup a = some v ∧ d.co v = none) ∨
      (∃ v, r.choiceCa = none ∧ r.choiceCo = none ∧ r.choiceCode = some v ∧ d.co v = none)) : makeDataframes d s r = none := by
  have hco : ∀ vars, (∃ v ∈ vars, d.co v = none) → d.frameCO s vars = none := by
    rintro vars ⟨v, hv, hn⟩
    unfold Svc.frameCO Svc.arrayCO
    have : vars.mapM (fun v => (d.co v).bind (readCol d.n (d.pick s))) = none := by
      rw [Option.eq_none_iff_forall_not_mem]
      intro l hl
      have hF := (ps_mapM_some _ vars l).mp hl
      obtain ⟨i, hi, rfl⟩ := List.getElem_of_mem hv
      have := (List.forall₂_iff_get.mp hF).2 i hi (hF.length_eq ▸ hi)
      simp only [List.get_eq_getElem, hn] at this
      cases this
    rw [this]; rfl
  have hca : ∀ v, d.ca v = none → d.frameCA s v = none := by
    intro v hn
    unfold Svc.frameCA Svc.arrayCA
    rw [hn]; rfl
  unfold makeDataframes
  suffices hargs : argsOf d s r = none by rw [hargs]; rfl
  unfold argsOf
  rcases h with ⟨v, hv, hn⟩ | ⟨v, hv, hn⟩ | ⟨v, hv, hn⟩ | ⟨v, hv, hn⟩ | ⟨v, hv, hn⟩ | ⟨defs, a, v, h0, hd, ha, hl, hn⟩ | ⟨v, h0, h1, hv, hn⟩
  · have : coPart d s r = none := by
      unfold coPart
      cases hr : r.co with
      | none => rw [hr] at hv; cases hv
      | some vars =>
        rw [hr] at hv
        simp [coFrame, hco vars ⟨v, hv, hn⟩]
    cases caPart d s r <;> simp [this]
  · have : caPart d s r = none := by
      unfold caPart
      cases hr : r.ca with
      | none => rw [hr] at hv; cases hv
      | some vars =>
        rw [hr, Option.getD_some] at hv
        have : vars.mapM (fun v => d.frameCA s v) = none := by
          rw [Option.eq_none_iff_forall_not_mem]
          intro l hl
          have hF := (ps_mapM_some _ vars l).mp hl
          obtain ⟨i, hi, rfl⟩ := List.getElem_of_mem hv
          have := (List.forall₂_iff_get.mp hF).2 i hi (hF.length_eq ▸ hi)
          simp only [List.get_eq_getElem] at this
          rw [hca _ hn] at this
          cases this
        simp [caFrame, this]
    simp [this]
  · have : weightOf d s r = none := by
      unfold weightOf
      simp [hv, single, hco [v] ⟨v, by simp, hn⟩]
    simp [this]
  · have : availOf d s r = none := by
      unfold availOf
      simp [hv, tallFrame, hca v hn]
    simp [this]
  · have : ∀ x, choiceOf d s r x = none := by
      intro x
      unfold choiceOf
      simp [hv, tallFrame, hca v hn]
    simp [this]
  · have : ∀ x, choiceOf d s r x = none := by
      intro x
      unfold choiceOf
      simp [h0, hd, hco (choiceTexts d.codes defs) ⟨v, List.mem_map.mpr ⟨a, ha, by rw [hl]; rfl⟩, hn⟩]
    simp [this]
  · have : ∀ x, choiceOf d s r x = none := by
      intro x
      unfold choiceOf
      simp [h0, h1, hv, single, hco [v] ⟨v, by simp, hn⟩]
    simp [this]

/-- **C178 (validation).**  `validate_dataservice` accepts exactly the requests whose kinds of data the object offers, without availability by
expressions of case data; such a request, unless availability is given by an expression of the alternatives as well, is never answered either. -/
theorem C178_validate (o : Offers) (r : Req) :
    (validate o r = true ↔ ((r.ca ≠ none ∨ r.choiceCa ≠ none ∨ r.availCa ≠ none) → o.idca = true) ∧
      ((r.co ≠ none ∨ (r.choiceCa = none ∧ (r.choiceCo ≠ none ∨ r.choiceCode ≠ none)) ∨ r.weight ≠ none) → o.idco = true) ∧
      (r.availCa ≠ none ∨ r.availCo = none)) ∧
    (∀ d s, r.availCa = none → r.availCo ≠ none → makeDataframes d s r = none) := by
  constructor
  · obtain ⟨ca, co, cca, cco, cc, w, aa, ac⟩ := r
    obtain ⟨x, y⟩ := o
    unfold validate needsCa needsCo
    cases ca <;> cases co <;> cases cca <;> cases cco <;> cases cc <;> cases w <;> cases aa <;> cases ac <;> cases x <;> cases y <;> simp
  · intro d s h1 h2
    obtain ⟨defs, hd⟩ := Option.ne_none_iff_exists'.mp h2
    have : availOf d s r = none := by unfold availOf; simp [h1, hd]
    unfold makeDataframes argsOf
    simp [this]

/-! ## Where it fails -/

/-- A service with three cases: `x` of the cases, `w` weights, `y` the choice, `t` and `a` of the alternatives. -/
def smallService (codes : List Int) : Svc Int where
  n := 3
  sel := .all
  co := fun v => if v = "x" then some [10, 20, 30] else if v = "w" then some [1, 2, 3] else if v = "y" then some [1, 2, 7] else
    if v = "0" then some [0, 0, 0] else none
  ca := fun v => if v = "t" then some [[11, 12], [21, 22], [31, 32]] else if v = "a" then some [[1, 0], [256, 1], [1, 1]] else none
  codes := codes

/-- The values of an answer: of `x` of the cases, of `t` of the alternatives, choices, weights, availability. -/
structure Shown where
  x : Option (List (Int × Int))
  t : Option (List ((Int × Int) × Int))
  ch : Option Table
  wt : Option (List (Int × Int))
  av : Option Table
deriving DecidableEq

def shown (o : Answer) : Shown :=
  ⟨o.co.map (fun f => f.map (fun r => (r.1, r.2 "x"))), (o.ca.or o.ce).map (fun f => f.rows.map (fun r => (r.1, r.2 "t"))), o.ch, o.wt, o.av⟩

/-- **C178 fails (cases selected in another order).**  With the cases selected as `[2, 0]`, the data of the cases and choices are put in increasing
order but the weights are not: case 0 is weighted with the weight of case 2. -/
theorem C178_fails_selection_order :
    (makeDataframes (smallService [1, 2]) (some (.index [2, 0])) { co := some ["x"], choiceCode := some "y", weight := some "w" }).map shown =
      some ⟨some [(0, 10), (2, 30)], none, some ⟨[1, 2], [(0, [1, 0]), (2, [0, 0])]⟩, some [(2, 3), (0, 1)], none⟩ := by decide +kernel

/-- **C178 fails (order of the codes).**  With the alternatives 2, 1 of the service in this order, the columns of choices are in this order, and
those of availability in increasing order, so that the availability of alternative 1 is used for alternative 2; and if data of the alternatives
are asked for, there is no answer at all. -/
theorem C178_fails_code_order :
    (makeDataframes (smallService [2, 1]) (some (.index [0])) { co := some ["x"], choiceCode := some "y", availCa := some "a" }).map shown =
      some ⟨some [(0, 10)], none, some ⟨[2, 1], [(0, [0, 1])]⟩, none, some ⟨[1, 2], [(0, [0, 1])]⟩⟩ ∧
    makeDataframes (smallService [2, 1]) (some (.index [0])) { ca := some ["t"] } = none := by
  refine ⟨by decide +kernel, ?_⟩
  have h : ((makeDataframes (smallService [2, 1]) (some (.index [0])) { ca := some ["t"] }).map shown) = none := by decide +kernel
  exact Option.map_eq_none_iff.mp h

/-- **C178 fails (unknown code).**  A case whose choice has no alternative gets no choice, silently; and availability of 256 is stored as 0. -/
theorem C178_fails_silent :
    (makeDataframes (smallService [1, 2]) none { co := some ["x"], choiceCode := some "y", availCa := some "a" }).map shown =
      some ⟨some [(0, 10), (1, 20), (2, 30)], none, some ⟨[1, 2], [(0, [1, 0]), (1, [0, 1]), (2, [0, 0])]⟩, none,
        some ⟨[1, 2], [(0, [1, 0]), (1, [0, 1]), (2, [1, 1])]⟩⟩ := by decide +kernel

/-- **C178 fails (names).**  A service without names of the alternatives gives a container that says it has no alternatives. -/
theorem C178_fails_names (codes : List Int) : alternativesOf codes [] = [] := by simp [alternativesOf]

/-! ## The hypotheses can be met -/

/-- A request for everything. -/
def fullRequest : Req := { ca := some ["t"], co := some ["x"], choiceCo := some [(2, "y")], weight := some "w", availCa := some "a" }

example : positions ((smallService [1, 2]).pick (some (.mask [true, false, true]))) 3 = some [0, 2] ∧ ([0, 2] : List Int).Pairwise (· < ·) ∧
    Serves (smallService [1, 2]) fullRequest
      (fun v c => if v = "x" then 10 * c + 10 else if v = "w" then c + 1 else if v = "y" then (if c = 2 then 7 else c + 1) else 0)
      (fun v c a => if v = "t" then 10 * c + 10 + a else if c = 0 ∧ a = 2 then 0 else if c = 1 ∧ a = 1 then 256 else 1) := by
  refine ⟨by decide, by decide, ⟨?_, ?_⟩⟩
  · intro v hv
    have : v = "x" ∨ v = "0" ∨ v = "y" ∨ v = "w" := by simpa [coAsked, fullRequest, smallService, choiceTexts, List.lookup_cons] using hv
    rcases this with rfl | rfl | rfl | rfl <;> decide +kernel
  · intro v hv
    have : v = "t" ∨ v = "a" := by simpa [caAsked, fullRequest] using hv
    rcases this with rfl | rfl <;> decide +kernel

example : (makeDataframes (smallService [1, 2]) (some (.mask [true, false, true])) fullRequest).map shown =
    some ⟨some [(0, 10), (2, 30)], some [((0, 1), 11), ((0, 2), 12), ((2, 1), 31), ((2, 2), 32)], some ⟨[1, 2], [(0, [0, 1]), (2, [0, 7])]⟩,
      some [(0, 1), (2, 3)], some ⟨[1, 2], [(0, [1, 0]), (2, [1, 1])]⟩⟩ := by decide +kernel

example : (∃ v ∈ (fullRequest.co.map (fun _ => ["z"])).getD [], (smallService [1, 2]).co v = none) ∧ validate ⟨true, true⟩ fullRequest = true ∧
    validate ⟨false, true⟩ fullRequest = false := by
  refine ⟨⟨"z", by simp [fullRequest], by decide⟩, by decide, by decide⟩

end Larch.Props
