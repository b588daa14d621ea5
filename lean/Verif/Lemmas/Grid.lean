import Verif.Lemmas.LatticeCode

/-!
# Tools for lattices on a square grid
-/

namespace Plaquette

theorem inB_of {L : Lattice} {p : Pos} (r c : Nat) (hr : L.rows = r) (hc : L.cols = c)
    (h : 0 ≤ p.1 ∧ 0 ≤ p.2 ∧ p.1 < r ∧ p.2 < c) : L.InB p := by
  unfold Lattice.InB; rw [hr, hc]; exact h

/-- Entries of a list made from some of the directions have distinct data qubits. -/
theorem filterMap_data_nodup {α : Type} {l : List α} {f : α → Option LEdge} (hl : l.Nodup)
    (h : ∀ a b e e', f a = some e → f b = some e' → e.data = e'.data → a = b) : ((l.filterMap f).map LEdge.data).Nodup := by
  induction l with
  | nil => simp
  | cons a l ih =>
    rw [List.nodup_cons] at hl
    cases hf : f a with
    | none => rw [List.filterMap_cons_none hf]; exact ih hl.2
    | some e =>
      rw [List.filterMap_cons_some hf, List.map_cons, List.nodup_cons]
      refine ⟨?_, ih hl.2⟩
      intro hm
      obtain ⟨e', he', hd⟩ := List.mem_map.mp hm
      obtain ⟨b, hb, hfb⟩ := List.mem_filterMap.mp he'
      have := h a b e e' hf hfb hd.symm
      exact hl.1 (this ▸ hb)

/-- All pairs in the order of two nested loops. -/
def pairs (is js : List Int) : List Pos := is.flatMap fun i => js.map fun j => (i, j)

theorem mem_pairs {is js : List Int} {p : Pos} : p ∈ pairs is js ↔ p.1 ∈ is ∧ p.2 ∈ js := by
  obtain ⟨a, b⟩ := p
  simp [pairs]

theorem pairs_nodup {is js : List Int} (hi : is.Nodup) (hj : js.Nodup) : (pairs is js).Nodup := nodup_pairs hi hj

theorem loop2_eq {σ : Type} (f : σ → Int → Int → Except Err σ) (s : σ) (is js : List Int) :
    loop2 f s is js = loopE (fun s (p : Pos) => f s p.1 p.2) s (pairs is js) := by
  rw [loop2, pairs, loopE_flatMap]
  apply loopE_congr
  intro s i _
  rw [loopE_map]

/-- Cells of given positions, of the kind `k`. -/
def cellsOf (k : Pos → Option StabGroup) (ps : List Pos) : List (Pos × Option StabGroup) := ps.map fun p => (p, k p)

/-- The data qubits among the positions. -/
def dataOf (k : Pos → Option StabGroup) (ps : List Pos) : List Pos := cellData (cellsOf k ps)

/-- The stabilisers among the positions. -/
def stabsOf (k : Pos → Option StabGroup) (ps : List Pos) : List (Pos × StabGroup) := cellStabs (cellsOf k ps)

theorem mem_dataOf {k : Pos → Option StabGroup} {ps : List Pos} {p : Pos} : p ∈ dataOf k ps ↔ p ∈ ps ∧ k p = none := by
  simp only [dataOf, cellData, cellsOf, List.filterMap_map, List.mem_filterMap, Function.comp]
  constructor
  · rintro ⟨a, ha, h⟩
    by_cases hk : k a = none
    · rw [if_pos hk] at h
      simp only [Option.some.injEq] at h
      subst h
      exact ⟨ha, hk⟩
    · rw [if_neg hk] at h; simp at h
  · rintro ⟨h1, h2⟩
    exact ⟨p, h1, by rw [if_pos h2]⟩

theorem mem_stabsOf {k : Pos → Option StabGroup} {ps : List Pos} {s : Pos × StabGroup} :
    s ∈ stabsOf k ps ↔ s.1 ∈ ps ∧ k s.1 = some s.2 := by
  obtain ⟨p, g⟩ := s
  simp only [stabsOf, cellStabs, cellsOf, List.filterMap_map, List.mem_filterMap, Function.comp]
  constructor
  · rintro ⟨a, ha, h⟩
    simp only [Option.map_eq_some_iff] at h
    obtain ⟨g', h1, h2⟩ := h
    simp only [Prod.mk.injEq] at h2
    obtain ⟨rfl, rfl⟩ := h2
    exact ⟨ha, h1⟩
  · rintro ⟨h1, h2⟩
    exact ⟨p, h1, by simp [h2]⟩

theorem dataOf_eq (k : Pos → Option StabGroup) (ps : List Pos) : dataOf k ps = ps.filter fun p => k p = none := by
  induction ps with
  | nil => rfl
  | cons p ps ih =>
    simp only [dataOf, cellData, cellsOf, List.map_cons] at ih ⊢
    by_cases h : k p = none
    · rw [List.filterMap_cons_some (b := p) (by simp [h]), ih, List.filter_cons_of_pos (by simp [h])]
    · rw [List.filterMap_cons_none (by simp [h]), ih, List.filter_cons_of_neg (by simp [h])]

theorem stabsOf_fst (k : Pos → Option StabGroup) (ps : List Pos) :
    (stabsOf k ps).map Prod.fst = ps.filter fun p => k p ≠ none := by
  induction ps with
  | nil => rfl
  | cons p ps ih =>
    simp only [stabsOf, cellStabs, cellsOf, List.map_cons] at ih ⊢
    cases h : k p with
    | none => rw [List.filterMap_cons_none (by simp), ih, List.filter_cons_of_neg (by simp [h])]
    | some g => rw [List.filterMap_cons_some (b := (p, g)) (by simp), List.map_cons, ih, List.filter_cons_of_pos (by simp [h])]

theorem dataOf_nodup {k : Pos → Option StabGroup} {ps : List Pos} (h : ps.Nodup) : (dataOf k ps).Nodup := by
  rw [dataOf_eq]; exact h.filter _

theorem stabsOf_nodup {k : Pos → Option StabGroup} {ps : List Pos} (h : ps.Nodup) : ((stabsOf k ps).map Prod.fst).Nodup := by
  rw [stabsOf_fst]; exact h.filter _

theorem length_data_stabs (k : Pos → Option StabGroup) (ps : List Pos) :
    (dataOf k ps).length + (stabsOf k ps).length = ps.length := by
  rw [← List.length_map (f := Prod.fst) (as := stabsOf k ps), stabsOf_fst, dataOf_eq]
  induction ps with
  | nil => rfl
  | cons p ps ih =>
    by_cases h : k p = none
    · rw [List.filter_cons_of_pos (by simp [h]), List.filter_cons_of_neg (by simp [h])]; simp at ih ⊢; omega
    · rw [List.filter_cons_of_neg (by simp [h]), List.filter_cons_of_pos (by simp [h])]; simp at ih ⊢; omega

theorem loop_kind (k : Pos → Option StabGroup) (ps : List Pos) (L : Lattice) (hb : ∀ p ∈ ps, L.InB p) (hn : ps.Nodup)
    (hd : ∀ p ∈ ps, p ∉ L.occupied) :
    loopE (fun L p => addCell L (p, k p)) L ps =
      .ok { L with dataqubits := L.dataqubits ++ dataOf k ps, stabgens := L.stabgens ++ stabsOf k ps } := by
  have := loop_cells (cellsOf k ps) L (by
      intro c hc; simp only [cellsOf, List.mem_map] at hc; obtain ⟨p, hp, rfl⟩ := hc; exact hb p hp) (by
      rw [cellsOf, List.map_map]
      have : (Prod.fst ∘ fun p : Pos => (p, k p)) = id := rfl
      rw [this, List.map_id]; exact hn) (by
      intro c hc; simp only [cellsOf, List.mem_map] at hc; obtain ⟨p, hp, rfl⟩ := hc; exact hd p hp)
  rw [cellsOf, loopE_map] at this
  exact this

/-! ### Neighbours -/

theorem xorSum_filterMap {α β : Type} (l : List α) (g : α → Option β) (f : β → Bool) :
    xorSum (l.filterMap g) f = xorSum l (fun a => match g a with | some b => f b | none => false) := by
  induction l with
  | nil => rfl
  | cons a l ih =>
    cases h : g a with
    | none => rw [List.filterMap_cons_none h, xorSum_cons, h, ih]; simp
    | some b => rw [List.filterMap_cons_some h, xorSum_cons, xorSum_cons, h, ih]

/-- Edges in the given directions, if they end inside. -/
def dirEdges {δ : Type} (dirs : List δ) (out : δ → Prop) [DecidablePred out] (mk : δ → LEdge) : List LEdge :=
  dirs.filterMap fun d => if out d then none else some (mk d)

theorem antiE_dirEdges {δ : Type} (dirs : List δ) (out : δ → Prop) [DecidablePred out] (mk : δ → LEdge) {bs : List LEdge}
    (hb : (bs.map LEdge.data).Nodup) (P : δ → Prop) [DecidablePred P]
    (hP : ∀ d ∈ dirs, P d ↔ ¬ out d ∧ ∃ b ∈ bs, b.data = (mk d).data ∧ b.factor ≠ (mk d).factor) :
    antiE (dirEdges dirs out mk) bs = xorSum dirs (fun d => decide (P d)) := by
  unfold antiE dirEdges
  rw [xorSum_filterMap]
  refine xorSum_congr fun d hd => ?_
  by_cases ho : out d
  · have : ¬ P d := fun h => ((hP d hd).mp h).1 ho
    simp [ho, this]
  · simp only [ho, if_false]
    rw [xorSum_pairAnti hb, decide_eq_decide, hP d hd]
    simp [ho]

theorem mem_dirEdges {δ : Type} {dirs : List δ} {out : δ → Prop} [DecidablePred out] {mk : δ → LEdge} {e : LEdge} :
    e ∈ dirEdges dirs out mk ↔ ∃ d ∈ dirs, ¬ out d ∧ e = mk d := by
  simp only [dirEdges, List.mem_filterMap]
  constructor
  · rintro ⟨d, hd, h⟩
    by_cases ho : out d
    · rw [if_pos ho] at h; simp at h
    · rw [if_neg ho] at h
      exact ⟨d, hd, ho, (Option.some.inj h).symm⟩
  · rintro ⟨d, hd, ho, rfl⟩
    exact ⟨d, hd, by rw [if_neg ho]⟩

theorem dirEdges_nodup {δ : Type} {dirs : List δ} {out : δ → Prop} [DecidablePred out] {mk : δ → LEdge} (hd : dirs.Nodup)
    (h : ∀ a ∈ dirs, ∀ b ∈ dirs, ¬ out a → ¬ out b → (mk a).data = (mk b).data → a = b) :
    ((dirEdges dirs out mk).map LEdge.data).Nodup := by
  unfold dirEdges
  induction dirs with
  | nil => simp
  | cons a l ih =>
    rw [List.nodup_cons] at hd
    have ih' := ih hd.2 (fun x hx y hy => h x (List.mem_cons_of_mem _ hx) y (List.mem_cons_of_mem _ hy))
    by_cases ho : out a
    · rw [List.filterMap_cons_none (by rw [if_pos ho])]; exact ih'
    · rw [List.filterMap_cons_some (b := mk a) (by rw [if_neg ho]), List.map_cons, List.nodup_cons]
      refine ⟨?_, ih'⟩
      intro hm
      obtain ⟨e', he', hd'⟩ := List.mem_map.mp hm
      obtain ⟨b, hb, hob, rfl⟩ := mem_dirEdges.mp he'
      have := h a (by simp) b (List.mem_cons_of_mem _ hb) ho hob hd'.symm
      exact hd.1 (this ▸ hb)

/-- The edges of a logical operator along a line. -/
def lineE (s : Int) (op : Pos) (pos : Int → Pos) (f : Int → Letter) : List LEdge :=
  (pyRange 0 s 1).map fun i => mkEdge (pos i) op (f i)

theorem mem_range {s i : Int} : i ∈ pyRange 0 s 1 ↔ 0 ≤ i ∧ i < s := by
  rw [mem_pyRange (by omega)]
  simp

theorem mem_lineE {s : Int} {op : Pos} {pos : Int → Pos} {f : Int → Letter} {e : LEdge} :
    e ∈ lineE s op pos f ↔ ∃ i, 0 ≤ i ∧ i < s ∧ e = mkEdge (pos i) op (f i) := by
  simp only [lineE, List.mem_map, mem_range]
  constructor
  · rintro ⟨i, hi, h⟩; exact ⟨i, hi.1, hi.2, h.symm⟩
  · rintro ⟨i, h1, h2, h⟩; exact ⟨i, ⟨h1, h2⟩, h.symm⟩

theorem lineE_nodup (s : Int) (op : Pos) (pos : Int → Pos) (f : Int → Letter) (h : ∀ i j, pos i = pos j → i = j) :
    ((lineE s op pos f).map LEdge.data).Nodup := by
  rw [lineE, List.map_map]
  exact (pyRange_nodup (by omega)).map (fun a b hab => h a b hab)

theorem length_lineE (s : Nat) (op : Pos) (pos : Int → Pos) (f : Int → Letter) : (lineE s op pos f).length = s := by
  rw [lineE, List.length_map, length_pyRange]; omega

/-- Two lines that cross in one data qubit, with different letters. -/
theorem anti_lines {s : Int} {op op' : Pos} {pos pos' : Int → Pos} {f f' : Int → Letter} (h' : ∀ i j, pos' i = pos' j → i = j)
    (k k' : Int) (hk : 0 ≤ k ∧ k < s) (hk' : 0 ≤ k' ∧ k' < s) (hp : pos k = pos' k') (hf : f k ≠ f' k')
    (hu : ∀ i j, 0 ≤ i → i < s → 0 ≤ j → j < s → pos i = pos' j → i = k) :
    antiE (lineE s op pos f) (lineE s op' pos' f') = true := by
  unfold antiE
  rw [lineE, xorSum_map, xorSum_unique (a := k) (mem_range.mpr hk) (pyRange_nodup (by omega))]
  · rw [xorSum_pairAnti (lineE_nodup _ _ _ _ h'), decide_eq_true_eq]
    exact ⟨mkEdge (pos' k') op' (f' k'), mem_lineE.mpr ⟨k', hk'.1, hk'.2, rfl⟩, hp.symm, fun h => hf h.symm⟩
  · intro i hi hne
    rw [xorSum_pairAnti (lineE_nodup _ _ _ _ h'), decide_eq_false_iff_not]
    rintro ⟨e, he, h1, _⟩
    obtain ⟨j, h3, h4, rfl⟩ := mem_lineE.mp he
    have hi := mem_range.mp hi
    exact hne (hu i j hi.1 hi.2 h3 h4 h1.symm)

/-! ### Order of the edges -/

/-- The time step that `assign_stab_edge_order` gives to an edge. -/
def stepEdge (isStab : Pos → Bool) (order : List (Int × Int)) (e : LEdge) : LEdge :=
  if isStab e.op then
    { e with step := some (order.idxOf (stepDir (e.data.1 - e.op.1), stepDir (e.data.2 - e.op.2))) }
  else e

theorem stepEdge_op (i : Pos → Bool) (o : List (Int × Int)) (e : LEdge) : (stepEdge i o e).op = e.op := by
  unfold stepEdge; split <;> rfl

theorem stepEdge_df (i : Pos → Bool) (o : List (Int × Int)) (e : LEdge) :
    (stepEdge i o e).data = e.data ∧ (stepEdge i o e).factor = e.factor := by
  unfold stepEdge; split <;> exact ⟨rfl, rfl⟩

theorem stepEdge_key (i : Pos → Bool) (o : List (Int × Int)) (e : LEdge) : (stepEdge i o e).key = e.key := by
  simp [LEdge.key, stepEdge_op, stepEdge_df]

theorem assignOrder_ok (L : Lattice) (order : List (Int × Int))
    (h : ∀ e ∈ L.edges, L.isStab e.op = true → (stepDir (e.data.1 - e.op.1), stepDir (e.data.2 - e.op.2)) ∈ order) :
    L.assignOrder order = .ok { L with timeSteps := some order.length, edges := L.edges.map (stepEdge L.isStab order) } := by
  unfold Lattice.assignOrder
  rw [mapLoop_ok (g := stepEdge L.isStab order)]
  intro e he
  unfold Lattice.orderEdge stepEdge
  by_cases hs : L.isStab e.op = true
  · simp only [hs, if_true]
    rw [if_pos (h e he hs)]
  · simp [hs]

theorem isStab_iff {L : Lattice} {p : Pos} : L.isStab p = true ↔ p ∈ L.stabgens.map Prod.fst := by
  simp only [Lattice.isStab, List.any_eq_true, decide_eq_true_eq, List.mem_map]

/-! ### Counting -/

theorem pyRange_zero (n : Nat) (m : Int) (h : m = n) : pyRange 0 m 1 = (List.range n).map fun (k : Nat) => (k : Int) := by
  subst h
  unfold pyRange
  have : ((n : Int) - 0 + 1 - 1) / 1 = n := by omega
  rw [this]
  simp

theorem sum_parity (a b k : Nat) : ((List.range k).map fun i => if i % 2 = 0 then a else b).sum = (k + 1) / 2 * a + k / 2 * b := by
  induction k with
  | zero => simp
  | succ k ih =>
    rw [List.range_succ, List.map_append, List.sum_append, ih]
    simp only [List.map_cons, List.map_nil, List.sum_cons, List.sum_nil, Nat.add_zero]
    by_cases h : k % 2 = 0
    · rw [if_pos h, show (k + 1 + 1) / 2 = (k + 1) / 2 + 1 by omega, show (k + 1) / 2 = k / 2 by omega]
      ring
    · rw [if_neg h, show (k + 1 + 1) / 2 = (k + 1) / 2 by omega, show (k + 1) / 2 = k / 2 + 1 by omega]
      ring

theorem count_parity (k : Nat) : ((List.range k).countP fun i => i % 2 = 0) = (k + 1) / 2 ∧
    ((List.range k).countP fun i => i % 2 = 1) = k / 2 := by
  induction k with
  | zero => simp
  | succ k ih =>
    rw [List.range_succ, List.countP_append, List.countP_append, ih.1, ih.2]
    by_cases h : k % 2 = 0
    · simp [h]; omega
    · have : k % 2 = 1 := by omega
      simp [this]; omega

theorem length_pairs_filter (is js : List Int) (p : Pos → Bool) :
    ((pairs is js).filter p).length = (is.map fun i => js.countP fun j => p (i, j)).sum := by
  induction is with
  | nil => rfl
  | cons i is ih =>
    rw [pairs, List.flatMap_cons, List.filter_append, List.length_append, List.map_cons, List.sum_cons]
    rw [pairs] at ih
    rw [ih]
    congr 1
    rw [← List.countP_eq_length_filter, List.countP_map]
    rfl

theorem length_pairs (is js : List Int) : (pairs is js).length = is.length * js.length := by
  induction is with
  | nil => simp [pairs]
  | cons i is ih =>
    rw [pairs, List.flatMap_cons, List.length_append, List.length_map]
    rw [pairs] at ih
    rw [ih, List.length_cons]
    ring

end Plaquette
