import Verif.Props.Omx

/-!
# C107, C108: importing tables into a matrix file, and reading cells into a frame
-/

namespace Larch.Props

open Larch Larch.Omx Larch.Omx.Spec

variable {α : Type}

/-! ## Matrices from tables -/

theorem lastAt_append (off : Int) (a b : List (Int × Int × α)) (i j : Nat) :
    lastAt off (a ++ b) i j = (lastAt off b i j).or (lastAt off a i j) := by
  unfold lastAt
  rw [List.filter_append, List.getLast?_append]
  cases (List.filter _ b).getLast? <;> simp

theorem lastAt_single (off : Int) (e : Int × Int × α) (i j : Nat) :
    lastAt off [e] i j = if e.1 = i + off ∧ e.2.1 = j + off then some e.2.2 else none := by
  unfold lastAt
  by_cases h : e.1 = i + off ∧ e.2.1 = j + off
  · simp [h]
  · rw [if_neg h, List.filter_cons, if_neg (by simpa using h)]; simp

theorem assign_shifted (ob : Bool) (l : List (Int × Int × α)) (m : Mat α) (h : InRange (base ob) m.shape l) :
    ∃ m', assign m (shifted ob l) = some m' ∧ m'.shape = m.shape ∧
      ∀ i j, m'.cell i j = (lastAt (base ob) l i j).getD (m.cell i j) := by
  induction l generalizing m with
  | nil => exact ⟨m, rfl, rfl, fun i j => rfl⟩
  | cons e l ih =>
    obtain ⟨r, c, v⟩ := e
    obtain ⟨h1, h2, h3, h4⟩ := h _ List.mem_cons_self
    simp only at h1 h2 h3 h4
    have hb : (if ob then (1 : Int) else 0) = base ob := rfl
    have hstep : assign m (shifted ob ((r, c, v) :: l)) =
        assign ⟨m.shape, fun i j => if i = (r - base ob).toNat ∧ j = (c - base ob).toNat then v else m.cell i j⟩ (shifted ob l) := by
      simp only [shifted, List.map_cons, hb]
      rw [assign, if_pos ⟨by omega, by omega, by omega, by omega⟩]
    rw [hstep]
    obtain ⟨m', e1, e2, e3⟩ := ih ⟨m.shape, fun i j => if i = (r - base ob).toNat ∧ j = (c - base ob).toNat then v else m.cell i j⟩
      (fun e he => h e (List.mem_cons_of_mem _ he))
    refine ⟨m', e1, e2, fun i j => ?_⟩
    rw [e3, show (r, c, v) :: l = [(r, c, v)] ++ l from rfl, lastAt_append, lastAt_single]
    cases lastAt (base ob) l i j with
    | some x => rfl
    | none =>
      simp only [Option.getD_none, Option.none_or]
      by_cases hc : r = i + base ob ∧ c = j + base ob
      · rw [if_pos hc, if_pos ⟨by omega, by omega⟩]; rfl
      · rw [if_neg hc, if_neg (by rintro ⟨a, b⟩; exact hc ⟨by omega, by omega⟩)]; rfl

theorem importChunks_spec (ob : Bool) (chunks : List (List (Int × Int × α))) (m : Mat α) (h : InRange (base ob) m.shape chunks.flatten) :
    ∃ m', importChunks ob chunks m = some m' ∧ m'.shape = m.shape ∧
      ∀ i j, m'.cell i j = (lastAt (base ob) chunks.flatten i j).getD (m.cell i j) := by
  induction chunks generalizing m with
  | nil => exact ⟨m, rfl, rfl, fun i j => rfl⟩
  | cons c r ih =>
    rw [List.flatten_cons] at h
    obtain ⟨m1, a1, a2, a3⟩ := assign_shifted ob c m (fun e he => h e (List.mem_append_left _ he))
    obtain ⟨m2, b1, b2, b3⟩ := ih m1 (by rw [a2]; exact fun e he => h e (List.mem_append_right _ he))
    refine ⟨m2, by rw [importChunks, a1]; exact b1, b2.trans a2, fun i j => ?_⟩
    rw [b3, a3, List.flatten_cons, lastAt_append]
    cases lastAt (base ob) r.flatten i j <;> rfl

theorem get_replace {β : Type} (g : List (String × β)) (n k : String) (v : β) :
    Omx.get (g.map (fun e => if e.1 = n then (n, v) else e)) k = if k = n then (Omx.get g n).map (fun _ => v) else Omx.get g k := by
  induction g with
  | nil => by_cases h : k = n <;> simp [Omx.get, h]
  | cons e g ih =>
    unfold Omx.get at ih ⊢
    rw [List.map_cons, List.find?_cons]
    by_cases he : e.1 = n
    · simp only [he, if_true]
      by_cases hk : k = n
      · subst hk; simp [he]
      · have : (n == k) = false := by simp [Ne.symm hk]
        simp only [this, ih, if_neg hk]
        rw [List.find?_cons]
        simp [he, this]
    · simp only [he, if_false]
      by_cases hk : k = n
      · subst hk
        have : (e.1 == k) = false := by simp [he]
        simp only [this, ih, if_true]
        rw [List.find?_cons]
        simp [this]
      · simp only [if_neg hk] at ih ⊢
        rw [List.find?_cons]
        by_cases hek : e.1 = k
        · simp [hek]
        · have : (e.1 == k) = false := by simp [hek]
          simp only [this]
          exact ih

/-- The contents a matrix has before the import: what is there, or zeros. -/
theorem blank_spec [Zero α] {f : File α} (hv : Matrices f) (n : String) (hs : f.shape ≠ (0, 0)) (x : Option (Nat × Nat))
    (hx : x = none ∨ x = some f.shape) :
    ∃ m, (Omx.addBlankMatrix f n x).2 = true ∧ Omx.get (Omx.addBlankMatrix f n x).1.data n = some m ∧ m.shape = f.shape ∧
      (∀ i j, m.cell i j = ((Omx.get f.data n).map (fun m => m.cell i j)).getD 0) ∧
      (∀ k, k ≠ n → Omx.get (Omx.addBlankMatrix f n x).1.data k = Omx.get f.data k) ∧
      (Omx.addBlankMatrix f n x).1.lookup = f.lookup ∧ (Omx.addBlankMatrix f n x).1.shape = f.shape := by
  cases hg : Omx.get f.data n with
  | some m =>
    have : Omx.addBlankMatrix f n x = (f, true) := by
      unfold Omx.addBlankMatrix
      rw [if_pos (by rw [omx_has_get, hg]; rfl)]
    rw [this]
    exact ⟨m, rfl, hg, hv _ (omx_get_mem hg), fun _ _ => rfl, fun _ _ => rfl, rfl, rfl⟩
  | none =>
    have : Omx.addBlankMatrix f n x = ({ f.read with data := put f.data n ⟨f.shape, fun _ _ => 0⟩ }, true) := by
      unfold Omx.addBlankMatrix
      rw [if_neg (by rw [omx_has_get, hg]; simp), if_neg hs]
      rcases hx with rfl | rfl
      · rfl
      · simp
    rw [this]
    refine ⟨⟨f.shape, fun _ _ => 0⟩, rfl, ?_, rfl, fun _ _ => rfl, fun k hk => ?_, rfl, ?_⟩
    · show Omx.get (put f.data n _) n = _
      rw [omx_get_put, if_pos rfl]
    · show Omx.get (put f.data n _) k = _
      rw [omx_get_put, if_neg hk]
    · refine shape_of rfl ?_
      intro e he
      rcases (omx_mem_put _ _ _ _).1 he with ⟨he, _⟩ | rfl
      · exact hv e he
      · rfl

/-- **C107.** `import_datatable` with any chunk size: each cell of the matrix is the value of the last row for it in the table, and what it
was before (zero in a new matrix) if there is none; nothing else in the file changes. -/
theorem C107_import [Zero α] (f : File α) (hv : Matrices f) (hs : f.shape ≠ (0, 0)) (n : String) (ob : Bool)
    (chunks : List (List (Int × Int × α))) (hr : InRange (base ob) f.shape chunks.flatten) :
    ∃ f' m, importDatatable f n ob chunks = some f' ∧ Omx.get f'.data n = some m ∧ m.shape = f.shape ∧
      (∀ i j, m.cell i j = (lastAt (base ob) chunks.flatten i j).getD (((Omx.get f.data n).map (fun m => m.cell i j)).getD 0)) ∧
      (∀ k, k ≠ n → Omx.get f'.data k = Omx.get f.data k) ∧ f'.lookup = f.lookup := by
  obtain ⟨m, b1, b2, b3, b4, b5, b6, b7⟩ := blank_spec hv n hs none (Or.inl rfl)
  obtain ⟨m', c1, c2, c3⟩ := importChunks_spec ob chunks m (by rw [b3]; exact hr)
  refine ⟨⟨(Omx.addBlankMatrix f n none).1.attr, (Omx.addBlankMatrix f n none).1.data.map (fun e => if e.1 = n then (n, m') else e),
    (Omx.addBlankMatrix f n none).1.lookup⟩, m', ?_, ?_, c2.trans b3, fun i j => by rw [c3, b4], ?_, ?_⟩
  · unfold importDatatable
    simp only [b1, if_true, b2, Option.bind_some, c1, Option.map_some]
  · rw [get_replace, if_pos rfl, b2]; rfl
  · intro k hk
    rw [get_replace, if_neg hk]; exact b5 k hk
  · exact b6

/-- **C107.** The chunk size does not matter. -/
theorem C107_chunks [Zero α] (f : File α) (hv : Matrices f) (hs : f.shape ≠ (0, 0)) (n : String) (ob : Bool)
    (a b : List (List (Int × Int × α))) (hab : a.flatten = b.flatten) (hr : InRange (base ob) f.shape a.flatten) :
    (importDatatable f n ob a).map (fun g => (Omx.get g.data n).map (fun m => m.cell)) =
      (importDatatable f n ob b).map (fun g => (Omx.get g.data n).map (fun m => m.cell)) := by
  obtain ⟨f1, m1, a1, a2, _, a4, _⟩ := C107_import f hv hs n ob a hr
  obtain ⟨f2, m2, b1, b2, _, b4, _⟩ := C107_import f hv hs n ob b (hab ▸ hr)
  rw [a1, b1]
  simp only [Option.map_some, a2, b2]
  congr 2
  funext i j
  rw [a4, b4, hab]

/-- **C107, partial.** `import_datatable_3d` does the same for a matrix that does not exist yet (or holds zeros where the table has no row). -/
theorem C107_import3d_partial [Zero α] (f : File α) (hv : Matrices f) (hs : f.shape ≠ (0, 0)) (n : String) (ob : Bool)
    (chunks : List (List (Int × Int × α))) (hr : InRange (base ob) f.shape chunks.flatten) :
    ∃ f' m, importDatatable3d f n ob chunks = some f' ∧ Omx.get f'.data n = some m ∧ m.shape = f.shape ∧
      (∀ i j, m.cell i j = (lastAt (base ob) chunks.flatten i j).getD 0) ∧
      (∀ k, k ≠ n → Omx.get f'.data k = Omx.get f.data k) ∧ f'.lookup = f.lookup := by
  have hv' : Matrices f.read := fun e he => (hv e he).trans (shape_read f).symm
  obtain ⟨m, b1, b2, b3, b4, b5, b6, b7⟩ := blank_spec hv' n (by rw [shape_read]; exact hs) (some f.shape)
    (Or.inr (by rw [shape_read]))
  obtain ⟨m', c1, c2, c3⟩ := importChunks_spec ob chunks ⟨f.shape, fun _ _ => (0 : α)⟩ hr
  rw [shape_read] at b3
  refine ⟨⟨(Omx.addBlankMatrix f.read n (some f.shape)).1.attr,
    (Omx.addBlankMatrix f.read n (some f.shape)).1.data.map (fun e => if e.1 = n then (n, m') else e),
    (Omx.addBlankMatrix f.read n (some f.shape)).1.lookup⟩, m', ?_, ?_, c2, c3, ?_, ?_⟩
  · unfold importDatatable3d
    simp only [c1, Option.bind_some, b1, if_true, b2]
    rw [if_pos (b3.trans c2.symm)]
  · rw [get_replace, if_pos rfl, b2]; rfl
  · intro k hk
    rw [get_replace, if_neg hk]; exact b5 k hk
  · exact b6

/-- **C107 fails: `import_datatable_3d` and an existing matrix.** It is documented as "functionally the same"; but it sets to zero the cells
the table does not have. -/
theorem C107_fails_3d : ∃ (f : File Nat) (chunks : List (List (Int × Int × Nat))) (i j : Nat), Valid f ∧ InRange 1 f.shape chunks.flatten ∧
    (importDatatable f "t" true chunks).map (fun g => (Omx.get g.data "t").map (fun m => m.cell i j)) = some (some 5) ∧
    (importDatatable3d f "t" true chunks).map (fun g => (Omx.get g.data "t").map (fun m => m.cell i j)) = some (some 0) := by
  refine ⟨(Omx.addMatrix Omx.empty "t" ⟨(2, 2), fun _ _ => 5⟩ false false).1, [[(2, 2, 7)]], 0, 0,
    addMatrix_valid empty_valid _ _ _ (fun _ => Or.inl rfl), ?_, by decide +kernel, by decide +kernel⟩
  intro e he
  simp only [List.flatten_cons, List.flatten_nil, List.append_nil, List.mem_singleton] at he
  subst he
  simp [Omx.addMatrix, Omx.empty, File.shape, put, has]

example : ∃ (f : File Nat) (chunks : List (List (Int × Int × Nat))), Matrices f ∧ f.shape ≠ (0, 0) ∧ InRange (base true) f.shape chunks.flatten ∧
    chunks.length = 2 := by
  refine ⟨(Omx.addMatrix Omx.empty "t" ⟨(2, 2), fun _ _ => 5⟩ false false).1, [[(2, 2, 7), (1, 2, 3)], [(2, 1, 4)]],
    (addMatrix_valid empty_valid _ _ _ (fun _ => Or.inl rfl)).matrices, by decide +kernel, ?_, rfl⟩
  intro e he
  have hs : (Omx.addMatrix Omx.empty "t" (⟨(2, 2), fun _ _ => 5⟩ : Mat Nat) false false).1.shape = (2, 2) := by decide +kernel
  rw [hs]
  simp only [List.flatten_cons, List.flatten_nil, List.append_nil, List.cons_append, List.nil_append, List.mem_cons, List.not_mem_nil,
    or_false] at he
  rcases he with rfl | rfl | rfl <;> simp [base]

/-! ## Lookups from tables -/

theorem lastZone_append (off : Int) (a b : List (Int × α)) (i : Nat) :
    lastZone off (a ++ b) i = (lastZone off b i).or (lastZone off a i) := by
  unfold lastZone
  rw [List.filter_append, List.getLast?_append]
  cases (List.filter _ b).getLast? <;> simp

theorem lastZone_single (off : Int) (e : Int × α) (i : Nat) :
    lastZone off [e] i = if e.1 = i + off then some e.2 else none := by
  unfold lastZone
  by_cases h : e.1 = i + off
  · simp [h]
  · rw [if_neg h, List.filter_cons, if_neg (by simpa using h)]; simp

theorem assignAt_spec (ix1 : Int) (l : List (Int × α)) (v : Vec α) (h : ∀ e ∈ l, ix1 ≤ e.1 ∧ e.1 < v.len + ix1) :
    ∃ v', assignAt v ix1 l = some v' ∧ v'.len = v.len ∧ ∀ i, v'.cell i = (lastZone ix1 l i).getD (v.cell i) := by
  induction l generalizing v with
  | nil => exact ⟨v, rfl, rfl, fun _ => rfl⟩
  | cons e l ih =>
    obtain ⟨z, x⟩ := e
    obtain ⟨h1, h2⟩ := h _ List.mem_cons_self
    simp only at h1 h2
    have hstep : assignAt v ix1 ((z, x) :: l) = assignAt ⟨v.len, fun i => if i = (z - ix1).toNat then x else v.cell i⟩ ix1 l := by
      rw [assignAt, if_pos ⟨by omega, by omega⟩]
    rw [hstep]
    obtain ⟨v', e1, e2, e3⟩ := ih ⟨v.len, fun i => if i = (z - ix1).toNat then x else v.cell i⟩ (fun e he => h e (List.mem_cons_of_mem _ he))
    refine ⟨v', e1, e2, fun i => ?_⟩
    rw [e3, show (z, x) :: l = [(z, x)] ++ l from rfl, lastZone_append, lastZone_single]
    cases lastZone ix1 l i with
    | some y => rfl
    | none =>
      simp only [Option.getD_none, Option.none_or]
      by_cases hc : z = i + ix1
      · rw [if_pos hc, if_pos (by omega)]; rfl
      · rw [if_neg hc, if_neg (by omega)]; rfl

theorem lookupsFold (ix1 : Int) (drop : Option Int) (chunks : List (List (Int × α))) (v : Vec α)
    (h : ∀ e ∈ chunks.flatten, drop ≠ some e.1 → ix1 ≤ e.1 ∧ e.1 < v.len + ix1) :
    ∃ v', chunks.foldlM (fun v c => assignAt v ix1 (c.filter (fun e => drop != some e.1))) v = some v' ∧ v'.len = v.len ∧
      ∀ i, v'.cell i = (lastZone ix1 (chunks.flatten.filter (fun e => drop != some e.1)) i).getD (v.cell i) := by
  induction chunks generalizing v with
  | nil => exact ⟨v, rfl, rfl, fun _ => rfl⟩
  | cons c r ih =>
    rw [List.flatten_cons] at h
    obtain ⟨v1, a1, a2, a3⟩ := assignAt_spec ix1 (c.filter (fun e => drop != some e.1)) v (by
      intro e he
      have := List.mem_filter.1 he
      exact h e (List.mem_append_left _ this.1) (by simpa using this.2))
    obtain ⟨v2, b1, b2, b3⟩ := ih v1 (by rw [a2]; exact fun e he => h e (List.mem_append_right _ he))
    refine ⟨v2, by rw [List.foldlM_cons, a1]; exact b1, b2.trans a2, fun i => ?_⟩
    rw [b3, a3, List.flatten_cons, List.filter_append, lastZone_append]
    cases lastZone ix1 (r.flatten.filter (fun e => drop != some e.1)) i <;> rfl

/-- **C107.** `import_datatable_as_lookups` with zone numbers, any chunk size: position `i` of the lookup is the value of the last row of
zone `zone_ix1 + i` (zero if there is none); rows of the dropped zone are ignored. -/
theorem C107_lookups_zone [Zero α] (nRows : Nat) (ix1 : Int) (drop : Option Int) (chunks : List (List (Int × α)))
    (h : ∀ e ∈ chunks.flatten, drop ≠ some e.1 → ix1 ≤ e.1 ∧ e.1 < nRows + ix1) :
    ∃ v, lookupsByZone nRows ix1 drop chunks = some v ∧ v.len = nRows ∧
      ∀ i, v.cell i = (lastZone ix1 (chunks.flatten.filter (fun e => drop != some e.1)) i).getD 0 :=
  lookupsFold ix1 drop chunks ⟨nRows, fun _ => 0⟩ h

/-- **C107, partial.** Without zone numbers, a table that is read in one chunk gives its values in order. -/
theorem C107_lookups_order_partial [Zero α] (l : List α) :
    ∃ v, lookupsByOrder l.length [l] = some v ∧ v.len = l.length ∧ ∀ i, (h : i < l.length) → v.cell i = l[i] := by
  refine ⟨⟨l.length, fun i => (l[i]?).getD 0⟩, ?_, rfl, fun i h => by simp [h]⟩
  simp [lookupsByOrder, assignFront]

/-- **C107 fails: several chunks without zone numbers.** Every chunk is written at the start of the lookup: the first value is that of the
second chunk, and the end of the lookup stays zero. -/
theorem C107_fails_order [Zero α] (a b : List α) (hb : b ≠ []) :
    ∃ v, lookupsByOrder (a.length + b.length) [a, b] = some v ∧ v.cell 0 = b.head hb ∧
      ∀ i, a.length ≤ i → b.length ≤ i → v.cell i = 0 := by
  refine ⟨⟨a.length + b.length, fun i => (b[i]?).getD ((a[i]?).getD 0)⟩, ?_, ?_, ?_⟩
  · simp [lookupsByOrder, assignFront]
  · cases b with
    | nil => exact absurd rfl hb
    | cons x b => rfl
  · intro i h1 h2
    simp [List.getElem?_eq_none h1, List.getElem?_eq_none h2]

/-- A table of three rows in two chunks: the lookup is `30, 20, 0`. -/
example : (lookupsByOrder 3 [[10, 20], [30]]).map (fun v => (List.range 3).map v.cell) = some [30, 20, 0] := by decide +kernel

example : (lookupsByZone 3 1 (some 0) [[(1, 10), (0, 99)], [(3, 30)]]).map (fun v => (List.range 3).map v.cell) = some [10, 0, 30] := by
  decide +kernel

/-! ## Cells into frames -/

section frames

variable {β γ : Type}

theorem cells_spec (f : File α) (n : String) (m : Mat α) (rows cols : List Nat) (hm : Omx.get f.data n = some m)
    (hl : Omx.get f.lookup n = none) (hlen : rows.length = cols.length) (hr : ∀ r ∈ rows, r < m.shape.1) (hc : ∀ c ∈ cols, c < m.shape.2) :
    cells f n rows cols = some (List.zipWith m.cell rows cols) := by
  unfold cells
  rw [(C106_getitem f n).1 m hm hl]
  simp only
  rw [if_pos ⟨hlen, hr, hc⟩]

theorem columns_spec (f : File α) (hv : Matrices f) (names : List String) (rows cols : List Nat) (hlen : rows.length = cols.length)
    (hr : ∀ r ∈ rows, r < f.shape.1) (hc : ∀ c ∈ cols, c < f.shape.2)
    (hn : ∀ n ∈ names, (Omx.get f.data n).isSome ∧ Omx.get f.lookup n = none) :
    ∃ data, columns f rows cols names = some data ∧ Pulled f rows cols names data := by
  induction names with
  | nil => exact ⟨[], rfl, rfl, fun e he => absurd he List.not_mem_nil⟩
  | cons n names ih =>
    obtain ⟨data, h1, h2, h3⟩ := ih (fun k hk => hn k (List.mem_cons_of_mem _ hk))
    obtain ⟨hs, hl⟩ := hn n List.mem_cons_self
    obtain ⟨m, hm⟩ := Option.isSome_iff_exists.1 hs
    have hsh : m.shape = f.shape := hv _ (omx_get_mem hm)
    have hcell := cells_spec f n m rows cols hm hl hlen (by rw [hsh]; exact hr) (by rw [hsh]; exact hc)
    refine ⟨(n, List.zipWith m.cell rows cols) :: data, ?_, by rw [List.map_cons, h2], ?_⟩
    · rw [columns, hcell, Option.bind_some, h1, Option.map_some]
    · intro e he
      rcases List.mem_cons.1 he with rfl | he
      · refine ⟨m, hm, by simp [hlen], fun k hr hc => ?_⟩
        simp [List.getElem?_zipWith, hr, hc]
      · exact h3 e he

/-- What is needed to read the cells. -/
def Readable (f : File α) (rows cols : List Nat) (names : List String) : Prop :=
  Matrices f ∧ rows.length = cols.length ∧ (∀ r ∈ rows, r < f.shape.1) ∧ (∀ c ∈ cols, c < f.shape.2) ∧ names ≠ [] ∧
    ∀ n ∈ names, (Omx.get f.data n).isSome ∧ Omx.get f.lookup n = none

theorem readable_cols {f : File α} {rows cols : List Nat} {names : List String} (h : Readable f rows cols names) :
    ∃ data, columns f rows cols names = some data ∧ Pulled f rows cols names data :=
  columns_spec f h.1 names rows cols h.2.1 h.2.2.1 h.2.2.2.1 h.2.2.2.2.2

/-- **C108.** With an index: row `k` has label `labels[k]` and the cells at `(rows[k], cols[k])`, for arrays, lists and Series, which need
not share their labels. -/
theorem C108_given (f : File α) (row col : Idx β) (rows cols : List Nat) (names : List String) (labels : List β)
    (h : Readable f rows cols names) (hrow : row = .array rows ∨ row = .list rows ∨ ∃ l, row = .series rows l)
    (hcol : col = .array cols ∨ col = .list cols ∨ ∃ l, col = .series cols l) (hl : labels.length = rows.length) :
    ∃ data, getRc f row col names (.given labels) = some (labels.map Label.one, data) ∧ Pulled f rows cols names data := by
  obtain ⟨data, h1, h2⟩ := readable_cols h
  refine ⟨data, ?_, h2⟩
  rcases hrow with rfl | rfl | ⟨l, rfl⟩ <;> rcases hcol with rfl | rfl | ⟨l', rfl⟩ <;>
    simp [getRc, Idx.positions, h.2.2.2.2.1, h1, hl]

/-- **C108.** Without an index: the labels of the row Series. -/
theorem C108_series (f : File α) (col : Idx β) (rows cols : List Nat) (names : List String) (labels : List β)
    (h : Readable f rows cols names) (hcol : col = .array cols ∨ col = .list cols ∨ ∃ l, col = .series cols l)
    (hl : labels.length = rows.length) :
    ∃ data, getRc f (.series rows labels) col names .none = some (labels.map Label.one, data) ∧ Pulled f rows cols names data := by
  obtain ⟨data, h1, h2⟩ := readable_cols h
  refine ⟨data, ?_, h2⟩
  rcases hcol with rfl | rfl | ⟨l', rfl⟩ <;>
    simp [getRc, Idx.positions, Idx.attr, h.2.2.2.2.1, h1, hl]

/-- **C108.** Without an index and for arrays: the labels are the row and column positions. -/
theorem C108_arrays (f : File α) (rows cols : List Nat) (names : List String) (h : Readable f rows cols names) :
    ∃ data, getRc (β := β) f (.array rows) (.array cols) names .none = some (List.zipWith Label.rc rows cols, data) ∧
      Pulled f rows cols names data := by
  obtain ⟨data, h1, h2⟩ := readable_cols h
  refine ⟨data, ?_, h2⟩
  simp [getRc, Idx.positions, Idx.attr, h.2.2.2.2.1, h1]

/-- **C108.** An integer stands for every row (or column); the labels are those of the other argument. -/
theorem C108_int (f : File α) (i : Nat) (cols : List Nat) (names : List String) (labels : List β)
    (h : Readable f (List.replicate cols.length i) cols names) (hl : labels.length = cols.length) :
    (∃ data, getRc f (.int i) (.series cols labels) names .none = some (labels.map Label.one, data) ∧
      Pulled f (List.replicate cols.length i) cols names data) ∧
    (∃ data, getRc (β := β) f (.int i) (.array cols) names .none =
        some (List.zipWith Label.rc (List.replicate cols.length i) cols, data) ∧
      Pulled f (List.replicate cols.length i) cols names data) := by
  obtain ⟨data, h1, h2⟩ := readable_cols h
  refine ⟨⟨data, ?_, h2⟩, ⟨data, ?_, h2⟩⟩ <;>
    simp [getRc, Idx.positions, Idx.attr, Idx.size, h.2.2.2.2.1, h1, hl]

/-- **C108 fails: `index='rc'`.** The documented way to get a row-and-column index always raises. -/
theorem C108_fails_rc (f : File α) (row col : Idx β) (names : List String) : getRc f row col names .rc = none := by
  unfold getRc
  simp only
  split_ifs
  · rfl
  · cases columns f _ _ names <;> rfl

/-- **C108 fails: lists.** "array-like" arguments that are Python lists raise unless an index is given. -/
theorem C108_fails_list (f : File α) (rows : List Nat) (col : Idx β) (names : List String) :
    getRc f (.list rows) col names .none = none := by
  unfold getRc
  simp only
  split_ifs
  · rfl
  · cases columns f _ _ names <;> rfl

theorem join_unique [DecidableEq β] {δ : Type} (left : List (β × γ)) (col : List δ) (hu : (left.map Prod.fst).Nodup)
    (hlen : col.length = left.length) : Omx.join left ((left.map Prod.fst).zip col) = List.zipWith (fun l c => (l.1, l.2, c)) left col := by
  have gen : ∀ (sub : List (β × γ)) (right : List (β × δ)) (c : List δ), c.length = sub.length →
      (∀ k (hk : k < sub.length) (hc : k < c.length), right.filter (fun r => r.1 = sub[k].1) = [(sub[k].1, c[k])]) →
      sub.flatMap (fun l => (right.filter (fun r => r.1 = l.1)).map (fun r => (l.1, l.2, r.2))) =
        List.zipWith (fun l c => (l.1, l.2, c)) sub c := by
    intro sub
    induction sub with
    | nil => intro right c hc _; simp
    | cons a sub ih =>
      intro right c hc hf
      cases c with
      | nil => simp at hc
      | cons x c =>
        rw [List.flatMap_cons, List.zipWith_cons_cons]
        have h0 := hf 0 (by simp) (by simp)
        simp only [List.getElem_cons_zero] at h0
        rw [h0, ih right c (by simpa using hc) (fun k hk hc' => by
          have := hf (k + 1) (by simpa using hk) (by simpa using hc')
          simpa using this)]
        rfl
  unfold Omx.join
  refine gen left _ col hlen ?_
  have filt : ∀ (ks : List β) (c : List δ), ks.Nodup → c.length = ks.length → ∀ k (hk : k < ks.length) (hc : k < c.length),
      (ks.zip c).filter (fun r => r.1 = ks[k]) = [(ks[k], c[k])] := by
    intro ks
    induction ks with
    | nil => intro c _ _ k hk; simp at hk
    | cons a ks ih =>
      intro c hn hlen k hk hc
      cases c with
      | nil => simp at hlen
      | cons x c =>
        rw [List.nodup_cons] at hn
        rw [List.zip_cons_cons]
        cases k with
        | zero =>
          simp only [List.getElem_cons_zero]
          rw [List.filter_cons, if_pos (by simp)]
          congr 1
          rw [List.filter_eq_nil_iff]
          intro e he
          have : e.1 ∈ ks := (List.of_mem_zip (show (e.1, e.2) ∈ ks.zip c from he)).1
          simp only [decide_eq_true_eq]
          exact fun hea => hn.1 (hea ▸ this)
        | succ k =>
          simp only [List.getElem_cons_succ]
          have hk' : k < ks.length := by simpa using hk
          have hne : a ≠ ks[k] := fun h => hn.1 (h ▸ List.getElem_mem hk')
          rw [List.filter_cons, if_neg (by simpa using hne)]
          exact ih c hn.2 (by simpa using hlen) k hk' (by simpa using hc)
  intro k hk hc
  have := filt (left.map Prod.fst) col hu (by simpa using hlen) k (by simpa using hk) hc
  simpa using this

/-- **C108, partial.** `join_rc_dataframe` on a frame with distinct index labels: each row keeps its place, its label and its columns, and
gets its own cell. -/
theorem C108_join_partial [DecidableEq β] (f : File α) (df : List (β × γ × Nat × Nat)) (n : String) (m : Mat α)
    (hm : Omx.get f.data n = some m) (h : Readable f (df.map (fun e => e.2.2.1)) (df.map (fun e => e.2.2.2)) [n])
    (hu : (df.map Prod.fst).Nodup) :
    joinRc f df n = some (df.map (fun e => (e.1, e.2.1, m.cell e.2.2.1 e.2.2.2))) := by
  obtain ⟨hv, hlen, hr, hc, _, hn⟩ := h
  have hl := (hn n (by simp)).2
  have hsh : m.shape = f.shape := hv _ (omx_get_mem hm)
  have hcell := cells_spec f n m (df.map (fun e => e.2.2.1)) (df.map (fun e => e.2.2.2)) hm hl hlen
    (by rw [hsh]; exact hr) (by rw [hsh]; exact hc)
  unfold joinRc getRc
  simp only [Idx.positions, columns, hcell, Option.bind_some, Option.map_some, List.length_map, List.cons_ne_nil, if_false, if_true]
  have e1 : df.map Prod.fst = (df.map (fun e => (e.1, e.2.1))).map Prod.fst := by simp
  rw [e1, join_unique _ _ (by rw [← e1]; exact hu) (by simp)]
  congr 1
  clear hu e1 hcell hc hr hlen hn
  induction df with
  | nil => rfl
  | cons e df ih => simp [ih]

/-- **C108 fails: repeated labels.** If two rows of the frame share a label (say, the frame has one row per trip, indexed by person), each is
joined to the cells of both: two rows become four. -/
theorem C108_fails_join : ∃ (f : File Nat) (df : List (Nat × Unit × Nat × Nat)), Valid f ∧ df.length = 2 ∧
    joinRc f df "t" = some [(7, (), 0), (7, (), 1), (7, (), 0), (7, (), 1)] := by
  refine ⟨(Omx.addMatrix Omx.empty "t" ⟨(2, 2), fun _ j => j⟩ false false).1, [(7, (), 0, 0), (7, (), 0, 1)],
    addMatrix_valid empty_valid _ _ _ (fun _ => Or.inl rfl), rfl, by decide +kernel⟩

example : Readable (Omx.addMatrix Omx.empty "t" (⟨(2, 2), fun _ j => j⟩ : Mat Nat) false false).1 [0, 1] [1, 1] ["t"] := by
  have hs : (Omx.addMatrix Omx.empty "t" (⟨(2, 2), fun _ j => j⟩ : Mat Nat) false false).1.shape = (2, 2) := by decide +kernel
  refine ⟨(addMatrix_valid empty_valid _ _ _ (fun _ => Or.inl rfl)).matrices, rfl, ?_, ?_, by simp, ?_⟩
  · rw [hs]; simp
  · rw [hs]; simp
  · intro n hn
    rw [List.mem_singleton] at hn
    subst hn
    exact ⟨by decide +kernel, rfl⟩

end frames

end Larch.Props
