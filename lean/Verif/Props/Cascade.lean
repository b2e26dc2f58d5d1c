import Verif.Model.Cascade
import Verif.Props.Graph
import Verif.Props.GraphSlots
import Mathlib.Algebra.BigOperators.Group.Finset.Basic
import Mathlib.Algebra.BigOperators.Group.Finset.Sigma
import Mathlib.Data.Rat.Defs

/-!
# C82: availability and choices rolled up to nests
-/

namespace Larch.Props

open Larch.Graph Larch.Cascade

variable {K : Type}

/-- `e` is `n` itself or below it. -/
def Under (g : G) (n e : Int) : Prop := Relation.ReflTransGen (Child g) n e

/-! ## The loops -/

theorem fold_parents (op : K → K → K) (dn : Int) (ps : List Int) (hnd : ps.Nodup) (hdn : dn ∉ ps) (r : Int → K) (n : Int) :
    ps.foldl (fun r up => fun n => if n = up then op (r up) (r dn) else r n) r n = if n ∈ ps then op (r n) (r dn) else r n := by
  induction ps generalizing r with
  | nil => simp
  | cons p ps ih =>
    obtain ⟨hp, hnd⟩ := List.nodup_cons.mp hnd
    rw [List.mem_cons, not_or] at hdn
    rw [List.foldl_cons, ih hnd hdn.2]
    by_cases hn : n = p
    · subst hn
      simp [hp]
    · simp [hn, hdn.1]

theorem rollNode_eq (op : K → K → K) {g : G} (hg : Valid g) (ha : Acyclic g) (r : Int → K) (dn n : Int) [Decidable (Child g n dn)] :
    rollNode op g r dn n = if Child g n dn then op (r n) (r dn) else r n := by
  unfold rollNode
  rw [fold_parents op dn _ (nodup_parents hg dn) (fun h => ha dn (Relation.TransGen.single (mem_parents.mp h)))]
  simp only [mem_parents]

open Classical in
theorem roll_unchanged (op : K → K → K) {g : G} (hg : Valid g) (ha : Acyclic g) (l : List Int) (n : Int) (h : ∀ c ∈ l, ¬ Child g n c)
    (r : Int → K) : roll op g l r n = r n := by
  induction l generalizing r with
  | nil => rfl
  | cons c l ih =>
    unfold roll at *
    rw [List.foldl_cons, ih (fun d hd => h d (List.mem_cons_of_mem _ hd)), rollNode_eq op hg ha, if_neg (h c List.mem_cons_self)]

open Classical in
/-- Every node ends up with its own start value combined with the final values of its children. -/
theorem roll_spec (op : K → K → K) {g : G} (hg : Valid g) (ha : Acyclic g) (l : List Int)
    (hord : ∀ l1 d l2, l = l1 ++ d :: l2 → ∀ c ∈ d :: l2, ¬ Child g d c) (r : Int → K) (n : Int) :
    roll op g l r n = (l.filter (fun c => decide (Child g n c))).foldl (fun acc c => op acc (roll op g l r c)) (r n) := by
  induction l generalizing r with
  | nil => rfl
  | cons d l ih =>
    have hstep : ∀ m, roll op g (d :: l) r m = roll op g l (rollNode op g r d) m := fun m => rfl
    have hd : roll op g (d :: l) r d = r d := roll_unchanged op hg ha _ _ (hord [] d l rfl) r
    have ih' := ih (fun l1 d' l2 h => hord (d :: l1) d' l2 (by rw [h]; rfl)) (rollNode op g r d)
    rw [hstep, ih', rollNode_eq op hg ha]
    rw [List.filter_cons]
    by_cases hc : Child g n d
    · rw [if_pos hc, if_pos (by simpa using hc), List.foldl_cons, hd]
      rfl
    · rw [if_neg hc, if_neg (by simpa using hc)]
      rfl

theorem order_suffix {g : G} {std : List Int} (hnd : std.Nodup) (hb : ∀ u v, Child g u v → Before std v u) (ha : Acyclic g) :
    ∀ l1 d l2, std = l1 ++ d :: l2 → ∀ c ∈ d :: l2, ¬ Child g d c := by
  rintro l1 d l2 h c hc hch
  rcases List.mem_cons.mp hc with rfl | hc
  · exact ha _ (Relation.TransGen.single hch)
  · obtain ⟨x, y, z, hxyz⟩ := hb d c hch
    -- `c` stands before `d` and after it
    have hbefore : std.idxOf c < std.idxOf d := by
      rw [hxyz]
      have hnd' := hnd
      rw [hxyz] at hnd'
      have hcx : c ∉ x := by
        intro hx
        have := (List.nodup_append.mp (List.append_assoc x _ _ ▸ hnd')).2.2 c hx c (by simp)
        exact this rfl
      have hdx : d ∉ x ∧ d ≠ c ∧ d ∉ y := by
        have h1 := (List.nodup_append.mp hnd').2.2
        refine ⟨fun hx => h1 d (by simp [hx]) d (by simp) rfl, fun e => h1 c (by simp) d (by simp) e.symm,
          fun hy => h1 d (by simp [hy]) d (by simp) rfl⟩
      have e1 : (x ++ c :: y ++ d :: z).idxOf c = x.length := by
        rw [List.append_assoc, List.idxOf_append_of_notMem hcx]; simp
      have e2 : x.length < (x ++ c :: y ++ d :: z).idxOf d := by
        rw [List.append_assoc, List.idxOf_append_of_notMem hdx.1, List.cons_append, List.idxOf_cons_ne _ (Ne.symm hdx.2.1)]
        omega
      omega
    have hafter : std.idxOf d < std.idxOf c := by
      rw [h]
      have hnd' := hnd
      rw [h] at hnd'
      have h1 := (List.nodup_append.mp hnd')
      have hd1 : d ∉ l1 := fun hx => h1.2.2 d hx d (by simp) rfl
      have hc1 : c ∉ l1 := fun hx => h1.2.2 c hx c (by simp [hc]) rfl
      have hne : d ≠ c := fun e => (List.nodup_cons.mp h1.2.1).1 (e ▸ hc)
      rw [List.idxOf_append_of_notMem hd1, List.idxOf_append_of_notMem hc1, List.idxOf_cons_self, List.idxOf_cons_ne _ hne]
      omega
    omega

/-- What is needed of a graph: valid, without cycles, suggested order naming nodes once. -/
structure Proper (g : G) : Prop where
  valid : Valid g
  acyclic : Acyclic g
  nodup : g.suggested.Nodup
  sub : ∀ e ∈ g.suggested, e ∈ g.nodes

theorem idxOf_alts {alts rest : List Int} {n : Int} (hnd : (alts ++ rest).Nodup) (hn : n ∈ alts ++ rest) :
    (alts ++ rest).idxOf n < alts.length ↔ n ∈ alts := by
  constructor
  · intro h
    by_contra hc
    rw [List.idxOf_append_of_notMem hc] at h
    omega
  · intro h
    rw [List.idxOf_append_of_mem h]
    exact List.idxOf_lt_length_of_mem h

theorem foldl_or (l : List Int) (R : Int → Bool) (b : Bool) : l.foldl (fun acc c => acc || R c) b = true ↔ b = true ∨ ∃ c ∈ l, R c = true := by
  induction l generalizing b with
  | nil => simp
  | cons a l ih =>
    rw [List.foldl_cons, ih]
    simp only [Bool.or_eq_true, List.mem_cons, exists_eq_or_imp, or_assoc]

/-- The availability of the alternative at position `k` among the alternatives of the graph. -/
def avOf (alts : List Int) (av : List Bool) (e : Int) : Bool := decide (e ∈ alts) && av.getD (alts.idxOf e) false

/-- **C82 (availability).** `data_av_cascade` marks a node of the graph as available exactly if some available alternative is the node itself or
lies below it (in any number of levels, also in networks). -/
theorem C82_availability (g : G) (hg : Proper g) (alts : List Int) (hal : elementals g = some alts) (av : List Bool)
    (hlen : av.length = alts.length) :
    ∃ r, avCascade g av = some r ∧ ∀ n ∈ g.nodes, r n = true ↔ ∃ e, Under g n e ∧ avOf alts av e = true := by
  obtain ⟨alts', rest, he, hstd, hperm, hmem, hb⟩ := C13_standard_order g hg.valid hg.acyclic hg.nodup hg.sub
  rw [hal] at he; cases he
  have hnd : (alts ++ rest).Nodup := hperm.nodup_iff.mpr hg.valid.nodup
  refine ⟨_, by unfold avCascade; rw [hal, hstd]; simp only [Option.bind_some]; rw [if_pos hlen], ?_⟩
  have hord := order_suffix hnd hb hg.acyclic
  set R := roll (fun a b => a || b) g (alts ++ rest) (start false (alts ++ rest) alts.length av) with hR
  have hstart : ∀ n ∈ g.nodes, start false (alts ++ rest) alts.length av n = avOf alts av n := by
    intro n hn
    have hn' : n ∈ alts ++ rest := hperm.mem_iff.mpr hn
    unfold start avOf
    by_cases hna : n ∈ alts
    · rw [if_pos ((idxOf_alts hnd hn').mpr hna), List.idxOf_append_of_mem hna]; simp [hna]
    · rw [if_neg (fun h => hna ((idxOf_alts hnd hn').mp h))]; simp [hna]
  have hspec : ∀ n ∈ g.nodes, R n = true ↔ avOf alts av n = true ∨ ∃ c, Child g n c ∧ R c = true := by
    intro n hn
    rw [hR, roll_spec _ hg.valid hg.acyclic _ hord, foldl_or, hstart n hn]
    refine or_congr_right ?_
    constructor
    · rintro ⟨c, hc, h⟩; rw [List.mem_filter] at hc; exact ⟨c, by simpa using hc.2, h⟩
    · rintro ⟨c, hc, h⟩
      refine ⟨c, List.mem_filter.mpr ⟨?_, by simpa using hc⟩, h⟩
      obtain ⟨e, hee, -, rfl⟩ := hc
      exact hperm.mem_iff.mpr (hg.valid.ends e hee).2
  intro n
  induction n using (wf_child hg.valid hg.acyclic).induction with
  | _ n ih =>
    intro hn
    rw [hspec n hn]
    constructor
    · rintro (h | ⟨c, hc, h⟩)
      · exact ⟨n, Relation.ReflTransGen.refl, h⟩
      · have hcn : c ∈ g.nodes := by obtain ⟨e, hee, -, rfl⟩ := hc; exact (hg.valid.ends e hee).2
        obtain ⟨e, hu, hav⟩ := (ih c hc hcn).mp h
        exact ⟨e, Relation.ReflTransGen.head hc hu, hav⟩
    · rintro ⟨e, hu, hav⟩
      rcases hu.cases_head with rfl | ⟨c, hc, hu⟩
      · exact Or.inl hav
      · have hcn : c ∈ g.nodes := by obtain ⟨e, hee, -, rfl⟩ := hc; exact (hg.valid.ends e hee).2
        exact Or.inr ⟨c, hc, (ih c hc hcn).mpr ⟨e, hu, hav⟩⟩

/-! ## Choices -/

section
variable [AddCommMonoid K]

theorem foldl_add (l : List Int) (R : Int → K) (b : K) : l.foldl (fun acc c => acc + R c) b = b + (l.map R).sum := by
  induction l generalizing b with
  | nil => simp
  | cons a l ih => rw [List.foldl_cons, ih]; simp [add_assoc]

/-- The choice of the alternative at its position. -/
def chOf (alts : List Int) (ch : List K) (e : Int) : K := if e ∈ alts then ch.getD (alts.idxOf e) 0 else 0

open Classical in
/-- **C82 (choices, by level).** `data_ch_cascade` leaves the choices of alternatives as they are, and gives every nest the sum over its children. -/
theorem C82_choice_levels (g : G) (hg : Proper g) (alts : List Int) (hal : elementals g = some alts) (ch : List K)
    (hlen : ch.length = alts.length) :
    ∃ r, chCascade g ch = some r ∧ (∀ e ∈ alts, r e = chOf alts ch e) ∧
      ∀ n ∈ g.nodes, n ∉ alts → r n = ∑ c ∈ g.nodes.toFinset.filter (fun c => Child g n c), r c := by
  obtain ⟨alts', rest, he, hstd, hperm, hmem, hb⟩ := C13_standard_order g hg.valid hg.acyclic hg.nodup hg.sub
  rw [hal] at he; cases he
  have hnd : (alts ++ rest).Nodup := hperm.nodup_iff.mpr hg.valid.nodup
  refine ⟨_, by unfold chCascade; rw [hstd]; simp only [Option.bind_some]; rw [if_pos (by rw [hlen, List.length_append]; omega)], ?_, ?_⟩
  · intro e hea
    have hno : ∀ c ∈ alts ++ rest, ¬ Child g e c := fun c _ => ((hmem e).mp hea).2 c
    rw [roll_unchanged _ hg.valid hg.acyclic _ _ hno]
    unfold start chOf
    rw [hlen, if_pos ((idxOf_alts hnd (List.mem_append_left _ hea)).mpr hea), if_pos hea, List.idxOf_append_of_mem hea]
  · intro n hn hna
    have hn' : n ∈ alts ++ rest := hperm.mem_iff.mpr hn
    rw [roll_spec _ hg.valid hg.acyclic _ (order_suffix hnd hb hg.acyclic), foldl_add]
    have h0 : start 0 (alts ++ rest) ch.length ch n = 0 := by
      unfold start
      rw [hlen, if_neg (fun h => hna ((idxOf_alts hnd hn').mp h))]
    rw [h0, zero_add]
    rw [← List.sum_toFinset _ (hnd.filter _)]
    apply Finset.sum_congr _ (fun _ _ => rfl)
    ext c
    simp only [List.mem_toFinset, List.mem_filter, decide_eq_true_eq, Finset.mem_filter]
    rw [hperm.mem_iff]

open Classical in
/-- **C82 (choices in a tree).** In a nesting tree every node gets the sum of the choices of the alternatives at or below it; the root gets the
total of the case. -/
theorem C82_choice_totals_tree (g : G) (hg : Proper g) (ht : IsTree g) (alts : List Int) (hal : elementals g = some alts) (ch : List K)
    (hlen : ch.length = alts.length) :
    ∃ r, chCascade g ch = some r ∧
      (∀ n ∈ g.nodes, r n = ∑ e ∈ alts.toFinset.filter (fun e => Under g n e), chOf alts ch e) ∧ r g.root = ch.sum := by
  obtain ⟨r, hr, halt, hnest⟩ := C82_choice_levels g hg alts hal ch hlen
  obtain ⟨alts', rest, he, hstd, hperm, hmem, hb⟩ := C13_standard_order g hg.valid hg.acyclic hg.nodup hg.sub
  rw [hal] at he; cases he
  have hmain : ∀ n ∈ g.nodes, r n = ∑ e ∈ alts.toFinset.filter (fun e => Under g n e), chOf alts ch e := by
    intro n
    induction n using (wf_child hg.valid hg.acyclic).induction with
    | _ n ih =>
      intro hn
      by_cases hna : n ∈ alts
      · rw [halt n hna]
        have hset : alts.toFinset.filter (fun e => Under g n e) = {n} := by
          ext e
          simp only [Finset.mem_filter, List.mem_toFinset, Finset.mem_singleton]
          constructor
          · rintro ⟨_, hu⟩
            rcases hu.cases_head with rfl | ⟨c, hc, _⟩
            · rfl
            · exact absurd hc (((hmem n).mp hna).2 c)
          · rintro rfl; exact ⟨hna, Relation.ReflTransGen.refl⟩
        rw [hset, Finset.sum_singleton]
      · rw [hnest n hn hna]
        have hkids : ∀ c ∈ g.nodes.toFinset.filter (fun c => Child g n c), r c =
            ∑ e ∈ alts.toFinset.filter (fun e => Under g c e), chOf alts ch e := by
          intro c hc
          simp only [Finset.mem_filter, List.mem_toFinset] at hc
          exact ih c hc.2 hc.1
        rw [Finset.sum_congr rfl hkids, ← Finset.sum_biUnion]
        · apply Finset.sum_congr _ (fun _ _ => rfl)
          ext e
          simp only [Finset.mem_biUnion, Finset.mem_filter, List.mem_toFinset]
          constructor
          · rintro ⟨c, ⟨_, hc⟩, hea, hu⟩
            exact ⟨hea, Relation.ReflTransGen.head hc hu⟩
          · rintro ⟨hea, hu⟩
            rcases hu.cases_head with rfl | ⟨c, hc, hu⟩
            · exact absurd hea hna
            · refine ⟨c, ⟨?_, hc⟩, hea, hu⟩
              obtain ⟨x, hx, -, rfl⟩ := hc
              exact (hg.valid.ends x hx).2
        · intro c1 hc1 c2 hc2 hne
          simp only [Finset.coe_filter, Set.mem_setOf_eq, List.mem_toFinset] at hc1 hc2
          apply Finset.disjoint_left.mpr
          intro e h1 h2
          simp only [Finset.mem_filter] at h1 h2
          -- two children of `n` above `e`: one lies below the other, so has two parents or a cycle
          have hline : ∀ a b, Under g a e → Under g b e → Under g a b ∨ Under g b a := by
            intro a b h1 h2
            induction h1 using Relation.ReflTransGen.head_induction_on with
            | refl => exact Or.inr h2
            | head hac _ ih =>
              rcases ih with h | h
              · exact Or.inl (Relation.ReflTransGen.head hac h)
              · rcases h.cases_tail with rfl | ⟨m, hm, hmc⟩
                · exact Or.inl (Relation.ReflTransGen.single hac)
                · exact Or.inr (ht.one _ _ _ hac hmc ▸ hm)
          have hno : ∀ a b, Child g n a → Child g n b → a ≠ b → ¬ Under g a b := by
            intro a b hna hnb hab hu
            rcases hu.cases_tail with e | ⟨m, hm, hmb⟩
            · exact hab e.symm
            · have : m = n := ht.one _ _ _ hmb hnb
              rw [this] at hm
              exact ht.acyclic n (Relation.TransGen.head' hna hm)
          rcases hline c1 c2 h1.2 h2.2 with h | h
          · exact hno c1 c2 hc1.2 hc2.2 hne h
          · exact hno c2 c1 hc2.2 hc1.2 (Ne.symm hne) h
  refine ⟨r, hr, hmain, ?_⟩
  rw [hmain g.root ht.rooted.1]
  have hreach : ∀ n ∈ g.nodes, Under g g.root n := by
    intro n
    induction n using (wf_parent hg.valid hg.acyclic).induction with
    | _ n ih =>
      intro hn
      by_cases hroot : n = g.root
      · rw [hroot]; exact Relation.ReflTransGen.refl
      · obtain ⟨p, hp⟩ := ht.rooted.2 n hn hroot
        have hpn : p ∈ g.nodes := by obtain ⟨x, hx, rfl, -⟩ := hp; exact (hg.valid.ends x hx).1
        exact (ih p hp hpn).tail hp
  have hall : alts.toFinset.filter (fun e => Under g g.root e) = alts.toFinset := by
    apply Finset.filter_true_of_mem
    intro e he
    exact hreach e ((hmem e).mp (List.mem_toFinset.mp he)).1
  have hnda : alts.Nodup := (List.nodup_append.mp (hperm.nodup_iff.mpr hg.valid.nodup)).1
  rw [hall, List.sum_toFinset _ hnda]
  congr 1
  apply List.ext_getElem (by simp [hlen])
  intro i h1 h2
  rw [List.length_map] at h1
  rw [List.getElem_map]
  unfold chOf
  rw [if_pos (List.getElem_mem h1), hnda.idxOf_getElem i h1, List.getD_eq_getElem?_getD, List.getElem?_eq_getElem h2]
  rfl

end

/-! ## The numba engine -/

theorem slotRoll_append (op : K → K → K) (ps : List (Nat × Nat)) (p : Nat × Nat) (r : Nat → K) (k : Nat) :
    slotRoll op (ps ++ [p]) r k = if k = p.1 then op (slotRoll op ps r p.1) (slotRoll op ps r p.2) else slotRoll op ps r k := by
  simp [slotRoll]

/-- Every slot ends up with its own start value combined with the final values of the slots of its children. -/
theorem slotRoll_spec (op : K → K → K) (r : Nat → K) (ps : List (Nat × Nat)) :
    (ps.map Prod.fst).Pairwise (· ≤ ·) → (∀ p ∈ ps, p.2 < p.1) → ∀ k,
      slotRoll op ps r k = ((ps.filter (fun p => decide (p.1 = k))).map Prod.snd).foldl (fun acc c => op acc (slotRoll op ps r c)) (r k) := by
  induction ps using List.reverseRecOn with
  | nil => intro _ _ k; rfl
  | append_singleton ps p ih =>
    intro hs hlt k
    rw [List.map_append, List.pairwise_append] at hs
    have hle : ∀ q ∈ ps, q.1 ≤ p.1 := fun q hq => hs.2.2 _ (List.mem_map_of_mem hq) p.1 (by simp)
    have hlt' : ∀ q ∈ ps, q.2 < q.1 := fun q hq => hlt q (List.mem_append_left _ hq)
    have ihk := ih hs.1 hlt'
    have hp : p.2 < p.1 := hlt p (by simp)
    have hsame : ∀ c < p.1, slotRoll op (ps ++ [p]) r c = slotRoll op ps r c := by
      intro c hc
      rw [slotRoll_append, if_neg (by omega)]
    have hcongr : ∀ (l : List Nat) (a : K), (∀ c ∈ l, c < p.1) →
        l.foldl (fun acc c => op acc (slotRoll op (ps ++ [p]) r c)) a = l.foldl (fun acc c => op acc (slotRoll op ps r c)) a := by
      intro l
      induction l with
      | nil => intro a _; rfl
      | cons c l ihl =>
        intro a h
        rw [List.foldl_cons, List.foldl_cons, hsame c (h c (by simp)), ihl _ (fun d hd => h d (List.mem_cons_of_mem _ hd))]
    have hkids : ∀ c ∈ (ps.filter (fun q => decide (q.1 = k))).map Prod.snd, c < p.1 := by
      intro c hc
      obtain ⟨q, hq, rfl⟩ := List.mem_map.1 hc
      have hq' := List.mem_filter.1 hq
      have h1 := hlt' q hq'.1
      have h2 := hle q hq'.1
      omega
    rw [List.filter_append, List.map_append, List.foldl_append, hcongr _ _ hkids, ← ihk k, slotRoll_append]
    by_cases hk : k = p.1
    · subst hk
      simp only [List.filter_cons, decide_true, if_true, List.filter_nil, List.map_cons, List.map_nil, List.foldl_cons,
        List.foldl_nil]
      rw [hsame p.2 hp]
    · have hk' : ¬ p.1 = k := fun h => hk h.symm
      simp [hk, hk']

theorem fold_perm (op : K → K → K) (hop : ∀ a b c, op (op a b) c = op (op a c) b) {α : Type} (f : α → K) {l l' : List α} (h : l.Perm l')
    (a : K) : l.foldl (fun acc c => op acc (f c)) a = l'.foldl (fun acc c => op acc (f c)) a := by
  haveI : RightCommutative (fun acc c => op acc (f c)) := ⟨fun a b c => hop a (f b) (f c)⟩
  exact h.foldl_eq a

open Classical in
/-- The loop over the edge arrays gives every node what the loop over the nodes of the compiled engine gives it. -/
theorem slotRoll_eq_roll (op : K → K → K) (hop : ∀ a b c, op (op a b) c = op (op a c) b) {g : G} (hg : Proper g) {std : List Int}
    (hnd : std.Nodup) (hperm : std.Perm g.nodes) (hb : ∀ u v, Child g u v → Before std v u) {ps : List (Nat × Nat)}
    (hps : ps.Perm (g.edges.map fun e => (std.idxOf e.u, std.idxOf e.v))) (hs : (ps.map Prod.fst).Pairwise (· ≤ ·))
    (hlt : ∀ p ∈ ps, p.2 < p.1) (r : Int → K) (s : Nat → K) (hrs : ∀ n ∈ g.nodes, s (std.idxOf n) = r n) :
    ∀ n ∈ g.nodes, slotRoll op ps s (std.idxOf n) = roll op g std r n := by
  intro n
  induction n using (wf_child hg.valid hg.acyclic).induction with
  | _ n ih =>
    intro hn
    have hn' : n ∈ std := hperm.mem_iff.2 hn
    rw [slotRoll_spec op s ps hs hlt, roll_spec op hg.valid hg.acyclic std (order_suffix hnd hb hg.acyclic), hrs n hn]
    have hinj : ∀ e ∈ g.edges, (decide (std.idxOf e.u = std.idxOf n)) = decide (e.u = n) := by
      intro e he
      have hu : e.u ∈ std := hperm.mem_iff.2 (hg.valid.ends e he).1
      congr 1
      rw [eq_iff_iff]
      exact List.idxOf_inj hu
    have h1 : ((ps.filter (fun p => decide (p.1 = std.idxOf n))).map Prod.snd).Perm
        (((g.outEdges n).map Edge.v).map (fun v => std.idxOf v)) := by
      refine ((hps.filter _).map _).trans ?_
      rw [List.filter_map, List.map_map, List.map_map, G.outEdges]
      have hf : g.edges.filter ((fun p : Nat × Nat => decide (p.1 = std.idxOf n)) ∘ fun e => (std.idxOf e.u, std.idxOf e.v)) =
          g.edges.filter (fun e => e.u = n) := by
        apply List.filter_congr
        intro e he
        exact hinj e he
      rw [hf]
      exact List.Perm.refl _
    rw [fold_perm op hop (slotRoll op ps s) h1, List.foldl_map]
    have h2 : ((g.outEdges n).map Edge.v).Perm (std.filter (fun c => decide (Child g n c))) := by
      rw [List.perm_ext_iff_of_nodup (nodup_children hg.valid n) (hnd.filter _)]
      intro c
      rw [mem_children, List.mem_filter, decide_eq_true_eq]
      constructor
      · intro hc
        refine ⟨?_, hc⟩
        obtain ⟨e, he, -, rfl⟩ := hc
        exact hperm.mem_iff.2 (hg.valid.ends e he).2
      · exact fun h => h.2
    have h3 : ∀ (l : List Int) (a : K), (∀ c ∈ l, Child g n c) →
        l.foldl (fun acc c => op acc (slotRoll op ps s (std.idxOf c))) a = l.foldl (fun acc c => op acc (roll op g std r c)) a := by
      intro l
      induction l with
      | nil => intro a _; rfl
      | cons c l ihl =>
        intro a h
        have hc := h c (by simp)
        have hcn : c ∈ g.nodes := by obtain ⟨e, he, -, rfl⟩ := hc; exact (hg.valid.ends e he).2
        rw [List.foldl_cons, List.foldl_cons, ih c hc hcn, ihl _ (fun d hd => h d (List.mem_cons_of_mem _ hd))]
    rw [h3 _ _ (fun c hc => mem_children.1 hc)]
    exact fold_perm op hop (roll op g std r) h2 _

/-- Everything the arrays of the graph provide. -/
theorem cascade_setup {g : G} (hg : Proper g) {alts : List Int} (hal : elementals g = some alts) :
    ∃ rest up dn first, standardSort g = some (alts ++ rest) ∧ edgeSlotArrays g (alts ++ rest) = some (up, dn, first) ∧
      (alts ++ rest).Nodup ∧ (alts ++ rest).Perm g.nodes ∧ (∀ u v, Child g u v → Before (alts ++ rest) v u) ∧
      (up.zip dn).Perm (g.edges.map fun e => ((alts ++ rest).idxOf e.u, (alts ++ rest).idxOf e.v)) ∧
      ((up.zip dn).map Prod.fst).Pairwise (· ≤ ·) ∧ ∀ p ∈ up.zip dn, p.2 < p.1 := by
  obtain ⟨alts', rest, he, hstd, hperm, -, hb⟩ := C13_standard_order g hg.valid hg.acyclic hg.nodup hg.sub
  rw [hal] at he; cases he
  obtain ⟨std, up, dn, first, start, num, hstd', hE, -, hl1, hl2, -, -, -, hps, hsort, hlt, -⟩ :=
    C15_arrays g hg.valid hg.acyclic hg.nodup hg.sub (fun _ => none)
  rw [hstd] at hstd'
  injection hstd' with hstd'
  subst hstd'
  refine ⟨rest, up, dn, first, hstd, hE, hperm.nodup_iff.2 hg.valid.nodup, hperm, hb, hps, ?_, fun p hp => (hlt p hp).1⟩
  rw [List.map_fst_zip (by omega)]
  exact hsort

/-- C82, the numba engine, choices: for every graph without cycles and every case, `array_ch_cascade` gives every node the same value as the
compiled engine (so that the theorems above hold for it, and the violations too). -/
theorem C82_numba_choices [AddCommMonoid K] (g : G) (hg : Proper g) (alts : List Int) (hal : elementals g = some alts) (ch : List K)
    (hlen : ch.length = alts.length) :
    ∃ std r s, standardSort g = some std ∧ chCascade g ch = some r ∧ nbCascade (fun a b => a + b) 0 g ch = some s ∧
      ∀ n ∈ g.nodes, s (std.idxOf n) = r n := by
  obtain ⟨rest, up, dn, first, hstd, hE, hnd, hperm, hb, hps, hs, hlt⟩ := cascade_setup hg hal
  refine ⟨alts ++ rest, _, _, hstd, ?_, ?_, slotRoll_eq_roll (fun a b => a + b) (fun a b c => by rw [add_right_comm]) hg hnd hperm hb hps hs hlt
    (start 0 (alts ++ rest) ch.length ch) (fun k => if k < alts.length then ch.getD k 0 else 0) ?_⟩
  · simp only [chCascade, hstd, Option.bind_some]
    rw [if_pos (by rw [hlen, List.length_append]; omega)]
  · simp only [nbCascade, hal, hstd, Option.bind_some, hlen, if_true, hE, Option.map_some]
  · intro n hn
    simp only [start, hlen]

/-- C82, the numba engine, availability: the same. -/
theorem C82_numba_availability (g : G) (hg : Proper g) (alts : List Int) (hal : elementals g = some alts) (av : List Bool)
    (hlen : av.length = alts.length) :
    ∃ std r s, standardSort g = some std ∧ avCascade g av = some r ∧ nbCascade (fun a b => a || b) false g av = some s ∧
      ∀ n ∈ g.nodes, s (std.idxOf n) = r n := by
  obtain ⟨rest, up, dn, first, hstd, hE, hnd, hperm, hb, hps, hs, hlt⟩ := cascade_setup hg hal
  refine ⟨alts ++ rest, _, _, hstd, ?_, ?_, slotRoll_eq_roll (fun a b => a || b) (fun a b c => by rw [Bool.or_right_comm]) hg hnd hperm hb hps hs hlt
    (start false (alts ++ rest) alts.length av) (fun k => if k < alts.length then av.getD k false else false) ?_⟩
  · simp only [avCascade, hal, hstd, Option.bind_some, hlen, if_true]
  · simp only [nbCascade, hal, hstd, Option.bind_some, hlen, if_true, hE, Option.map_some]
  · intro n hn
    simp only [start]

/-! ## Witnesses -/

/-- The hypotheses of the theorems are met by the demo graph of C12 (nest 6 = {4, 5} within nest 11 = {6, 3} below the root 99). -/
example : Proper (run (new 0) demoOps) ∧ IsTree (run (new 0) demoOps) ∧ elementals (run (new 0) demoOps) = some [1, 2, 3, 4, 5] :=
  ⟨⟨C12_valid _ _ _, demo_acyclic, by decide +kernel, by decide +kernel⟩, demo_tree, by decide +kernel⟩

example : (avCascade (run (new 0) demoOps) [false, false, false, true, false]).map (fun r => [1, 2, 3, 4, 5, 6, 11, 99].map r) =
    some [false, false, false, true, false, true, true, true] := by decide +kernel

/-- Root 0; nest 10 with alternatives 1, 2; alternative 3 beside it. -/
def treeDemo : G := run (new 0 []) [.addNode 1 {}, .addNode 2 {}, .addNode 3 {}, .addNode 10 { children := [1, 2] }]

/-- The same, with alternative 2 also in a second nest 11 (a network). -/
def netDemo : G := run treeDemo [.addNode 11 { children := [2, 3] }]

example : (avCascade treeDemo [false, true, false]).map (fun r => [1, 2, 3, 10, 0].map r) = some [false, true, false, true, true] ∧
    (avCascade treeDemo [false, false, true]).map (fun r => [1, 2, 3, 10, 0].map r) = some [false, false, true, false, true] := by decide +kernel

example : (chCascade treeDemo ([0, 1, 0] : List ℤ)).map (fun r => [1, 2, 3, 10, 0].map r) = some [0, 1, 0, 1, 1] := by decide +kernel

/-- **C82 fails for networks**: the choice of an alternative in two nests counts twice at the root. -/
theorem C82_fails_network : (chCascade netDemo ([0, 1, 0] : List ℤ)).map (fun r => [1, 2, 3, 10, 11, 0].map r) = some [0, 1, 0, 1, 1, 2] := by
  decide +kernel

/-- **C82 fails for choices already given for nests** (`set_data_ch_wide`): rolling the rolled-up choices again counts them again. -/
theorem C82_fails_again : (chCascade treeDemo ([0, 1, 0, 1, 1] : List ℤ)).map (fun r => [1, 2, 3, 10, 0].map r) = some [0, 1, 0, 2, 3] := by
  decide +kernel

example : (nbCascade (fun a b => a + b) 0 treeDemo ([0, 1, 0] : List ℤ)).map (fun r => [0, 1, 2, 3, 4].map r) = some [0, 1, 0, 1, 1] ∧
    standardSort treeDemo = some [1, 2, 3, 10, 0] := by decide +kernel

end Larch.Props
