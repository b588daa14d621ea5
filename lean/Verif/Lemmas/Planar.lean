import Verif.Lemmas.Grid

/-!
# The planar code lattice of every size
-/

namespace Plaquette

namespace Planar

def kind (p : Pos) : Option StabGroup :=
  if p.1 % 2 = p.2 % 2 then none else if p.2 % 2 = 0 then some .A else some .B
def cells (s : Int) : List Pos := pairs (pyRange 0 (2 * s - 1) 1) (pyRange 0 (2 * s - 1) 1)
def data (s : Int) : List Pos := dataOf kind (cells s)
def stabs (s : Int) : List (Pos × StabGroup) := stabsOf kind (cells s)
def outside (s : Int) (p : Pos) : Prop := p.1 < 0 ∨ p.2 < 0 ∨ p.1 > 2 * s - 2 ∨ p.2 > 2 * s - 2
instance (s : Int) (p : Pos) : Decidable (outside s p) := by unfold outside; infer_instance
def dirEdge (s : Int) (st : Pos × StabGroup) (d : Int × Int) : Option LEdge :=
  if outside s (st.1.1 + d.1, st.1.2 + d.2) then none
  else some (mkEdge (st.1.1 + d.1, st.1.2 + d.2) st.1 (groupLetter st.2))
def stabEdges (s : Int) (st : Pos × StabGroup) : List LEdge := crossDirs.filterMap (dirEdge s st)
def xPos (s : Int) : Pos := (2 * s - 2 + 1, s - 1)
def zPos (s : Int) : Pos := (s - 1, 2 * s - 2 + 1)
def logs (s : Int) : List (Pos × List Char) := [(xPos s, ['X']), (zPos s, ['Z'])]
def logEdges (s : Int) : List LEdge :=
  (pyRange 0 s 1).flatMap fun i => [mkEdge (2 * s - 2, 2 * i) (xPos s) .X, mkEdge (2 * i, 2 * s - 2) (zPos s) .Z]
def rawEdges (s : Int) : List LEdge := (stabs s).flatMap (stabEdges s) ++ logEdges s

/-- The lattice before the edges are ordered. -/
def raw (size : Nat) : Lattice :=
  { rows := 2 * size, cols := 2 * size, dataqubits := data size, stabgens := stabs size, logicals := logs size,
    edges := rawEdges size, timeSteps := none, equbits := [], indexed := [], keepGauge := "none".toList, boundaryJoin := false }

def lat (size : Nat) (order : List (Int × Int)) : Lattice :=
  Lattice.assignIndices { raw size with
    timeSteps := some order.length, edges := (rawEdges size).map (stepEdge (raw size).isStab order) }

theorem mem_cells {s : Int} {p : Pos} : p ∈ cells s ↔ 0 ≤ p.1 ∧ p.1 ≤ 2 * s - 2 ∧ 0 ≤ p.2 ∧ p.2 ≤ 2 * s - 2 := by
  rw [cells, mem_pairs, mem_pyRange (by omega), mem_pyRange (by omega)]
  omega

theorem kind_none {p : Pos} : kind p = none ↔ p.1 % 2 = p.2 % 2 := by
  unfold kind; split
  · simp_all
  · split <;> simp_all

theorem kind_A {p : Pos} : kind p = some .A ↔ p.1 % 2 = 1 ∧ p.2 % 2 = 0 := by
  unfold kind; split
  · simp; omega
  · split <;> simp <;> omega

theorem kind_B {p : Pos} : kind p = some .B ↔ p.1 % 2 = 0 ∧ p.2 % 2 = 1 := by
  unfold kind; split
  · simp; omega
  · split <;> simp <;> omega

theorem kind_U {p : Pos} : kind p ≠ some .U := by
  unfold kind; split
  · simp
  · split <;> simp

theorem mem_data {s : Int} {p : Pos} :
    p ∈ data s ↔ 0 ≤ p.1 ∧ p.1 ≤ 2 * s - 2 ∧ 0 ≤ p.2 ∧ p.2 ≤ 2 * s - 2 ∧ p.1 % 2 = p.2 % 2 := by
  rw [data, mem_dataOf, mem_cells, kind_none]
  omega

theorem mem_stabs {s : Int} {st : Pos × StabGroup} (h : st ∈ stabs s) :
    (0 ≤ st.1.1 ∧ st.1.1 ≤ 2 * s - 2 ∧ 0 ≤ st.1.2 ∧ st.1.2 ≤ 2 * s - 2) ∧
      ((st.2 = .A ∧ st.1.1 % 2 = 1 ∧ st.1.2 % 2 = 0) ∨ (st.2 = .B ∧ st.1.1 % 2 = 0 ∧ st.1.2 % 2 = 1)) := by
  rw [stabs, mem_stabsOf, mem_cells] at h
  refine ⟨h.1, ?_⟩
  obtain ⟨p, g⟩ := st
  cases g with
  | U => exact absurd h.2 kind_U
  | A => exact Or.inl ⟨rfl, kind_A.mp h.2⟩
  | B => exact Or.inr ⟨rfl, kind_B.mp h.2⟩

theorem cells_nodup (s : Int) : (cells s).Nodup := pairs_nodup (pyRange_nodup (by omega)) (pyRange_nodup (by omega))

theorem mem_stabEdges {s : Int} {st : Pos × StabGroup} {e : LEdge} : e ∈ stabEdges s st ↔
    ∃ d ∈ crossDirs, ¬ outside s (st.1.1 + d.1, st.1.2 + d.2) ∧ e = mkEdge (st.1.1 + d.1, st.1.2 + d.2) st.1 (groupLetter st.2) := by
  simp only [stabEdges, List.mem_filterMap, dirEdge]
  constructor
  · rintro ⟨d, hd, h⟩
    by_cases ho : outside s (st.1.1 + d.1, st.1.2 + d.2)
    · rw [if_pos ho] at h; simp at h
    · rw [if_neg ho] at h
      exact ⟨d, hd, ho, (Option.some.inj h).symm⟩
  · rintro ⟨d, hd, ho, rfl⟩
    exact ⟨d, hd, by rw [if_neg ho]⟩

theorem stabEdges_op {s : Int} {st : Pos × StabGroup} {e : LEdge} (he : e ∈ stabEdges s st) : e.op = st.1 := by
  obtain ⟨d, _, _, rfl⟩ := mem_stabEdges.mp he
  rfl

theorem crossDirs_par {d : Int × Int} (h : d ∈ crossDirs) : (d.1 = 0 ∧ (d.2 = 1 ∨ d.2 = -1)) ∨ (d.2 = 0 ∧ (d.1 = 1 ∨ d.1 = -1)) := by
  simp only [crossDirs, List.mem_cons, List.not_mem_nil, or_false] at h
  rcases h with rfl | rfl | rfl | rfl <;> simp

theorem stabEdges_data {s : Int} {st : Pos × StabGroup} (hst : st ∈ stabs s) {e : LEdge} (he : e ∈ stabEdges s st) :
    e.data ∈ data s := by
  obtain ⟨d, hd, ho, rfl⟩ := mem_stabEdges.mp he
  have := mem_stabs hst
  have := crossDirs_par hd
  simp only [outside] at ho
  simp only [mem_data, mkEdge]
  omega

theorem stabEdges_nodup (s : Int) (st : Pos × StabGroup) : ((stabEdges s st).map LEdge.data).Nodup := by
  refine filterMap_data_nodup (by decide) ?_
  rintro ⟨a, b⟩ ⟨a', b'⟩ e e' h1 h2 h3
  unfold dirEdge at h1 h2
  split at h1
  · simp at h1
  split at h2
  · simp at h2
  simp only [Option.some.injEq] at h1 h2
  subst h1 h2
  simp only [mkEdge, Prod.mk.injEq] at h3 ⊢
  omega

theorem mem_logEdges {s : Int} {e : LEdge} : e ∈ logEdges s ↔ ∃ i, 0 ≤ i ∧ i < s ∧
    (e = mkEdge (2 * s - 2, 2 * i) (xPos s) .X ∨ e = mkEdge (2 * i, 2 * s - 2) (zPos s) .Z) := by
  simp only [logEdges, List.mem_flatMap, mem_pyRange (show (0 : Int) < 1 by omega), List.mem_cons, List.not_mem_nil, or_false]
  constructor
  · rintro ⟨i, hi, h⟩; exact ⟨i, hi.1, hi.2.1, h⟩
  · rintro ⟨i, h1, h2, h⟩; exact ⟨i, ⟨h1, h2, by simp⟩, h⟩

theorem edges_nodup (s : Int) (hs : 1 ≤ s) : ((rawEdges s).map LEdge.key).Nodup := by
  rw [rawEdges, List.map_append, List.nodup_append]
  refine ⟨?_, ?_, ?_⟩
  · exact keys_nodup (key := Prod.fst) (stabsOf_nodup (cells_nodup s)) (fun a _ e he => stabEdges_op he)
      (fun a _ => stabEdges_nodup s a)
  · rw [logEdges, List.map_flatMap, List.nodup_flatMap]
    constructor
    · intro i _
      simp [LEdge.key, mkEdge, xPos, zPos]
      omega
    · refine (pyRange_nodup (by omega)).imp ?_
      intro a b hab
      rw [Function.onFun, List.disjoint_left]
      intro k h1 h2
      simp only [List.map_cons, List.map_nil, List.mem_cons, List.not_mem_nil, or_false, LEdge.key, mkEdge, xPos, zPos] at h1 h2
      rcases h1 with rfl | rfl <;> rcases h2 with h2 | h2 <;> simp at h2 <;> omega
  · rintro k hk k' hk' rfl
    simp only [List.mem_map, List.mem_flatMap] at hk
    obtain ⟨e, ⟨st, hst, he⟩, rfl⟩ := hk
    have h1 := stabEdges_op he
    have h2 := (mem_stabs hst).1
    simp only [List.mem_map, mem_logEdges] at hk'
    obtain ⟨e', ⟨i, _, _, rfl | rfl⟩, h3⟩ := hk'
    · have h4 := congrArg Prod.fst h3
      simp only [LEdge.key, mkEdge] at h4
      rw [h1] at h4
      rw [← h4] at h2
      simp [xPos] at h2
    · have h4 := congrArg Prod.fst h3
      simp only [LEdge.key, mkEdge] at h4
      rw [h1] at h4
      rw [← h4] at h2
      simp [zPos] at h2

theorem log_free {s : Int} {p : Pos} (hp : p = xPos s ∨ p = zPos s) : p ∉ data s ∧ p ∉ (stabs s).map Prod.fst := by
  constructor
  · rw [mem_data]; rcases hp with rfl | rfl <;> simp [xPos, zPos]
  · intro h
    obtain ⟨st, hst, rfl⟩ := List.mem_map.mp h
    have := (mem_stabs hst).1
    rcases hp with h | h <;> rw [h] at this <;> simp [xPos, zPos] at this

theorem make (size : Nat) (h2 : 2 ≤ size) (order : List (Int × Int)) (hord : ∀ d ∈ crossDirs, d ∈ order) :
    planarLattice size order = .ok (lat size order) := by
  unfold planarLattice
  dsimp only
  have hd : loop2 (fun L i j =>
      if i % 2 = j % 2 then L.addData (i, j)
      else if j % 2 = 0 then L.addStabgen (i, j) .A
      else L.addStabgen (i, j) .B) (Lattice.empty (2 * size) (2 * size)) (pyRange 0 (2 * (size : Int) - 1) 1)
        (pyRange 0 (2 * (size : Int) - 1) 1) =
      .ok { Lattice.empty (2 * size) (2 * size) with dataqubits := data size, stabgens := stabs size } := by
    have := loop_kind kind (cells size) (Lattice.empty (2 * size) (2 * size)) (by
        intro p hp
        rw [mem_cells] at hp
        exact inB_of (2 * size) (2 * size) rfl rfl (by push_cast; omega)) (cells_nodup _)
      (by simp [Lattice.empty, Lattice.occupied])
    rw [loop2_eq]
    refine Eq.trans ?_ this
    apply loopE_congr
    intro L p _
    simp only [addCell, kind]
    by_cases h1 : p.1 % 2 = p.2 % 2
    · simp only [h1, if_true]
    · by_cases h2 : p.2 % 2 = 0
      · simp only [h2, if_neg (h2 ▸ h1), if_true]
      · simp only [if_neg h1, if_neg h2]
  rw [hd, ok_bind]
  have hst : ∀ L : Lattice, loopE (fun L (st : Pos × StabGroup) => loopE (fun L (d : Int × Int) =>
      if st.1.1 + d.1 < 0 ∨ st.1.2 + d.2 < 0 ∨ st.1.1 + d.1 > 2 * (size : Int) - 2 ∨ st.1.2 + d.2 > 2 * (size : Int) - 2 then .ok L
      else L.addEdgeAt (st.1.1 + d.1, st.1.2 + d.2) st.1 (groupLetter st.2)) L crossDirs) L (stabs size) =
      loopE addE L ((stabs size).flatMap (stabEdges size)) := by
    intro L
    rw [loopE_flatMap]
    apply loopE_congr
    intro L st _
    rw [stabEdges, loopE_filterMap]
    apply loopE_congr
    intro L d _
    unfold dirEdge
    by_cases ho : outside size (st.1.1 + d.1, st.1.2 + d.2)
    · rw [if_pos ho]; exact if_pos ho
    · rw [if_neg ho]; exact if_neg ho
  have hnd := edges_nodup (size : Int) (by omega)
  rw [rawEdges, List.map_append, List.nodup_append] at hnd
  rw [hst, loop_edges _ _ (by
      intro e he
      obtain ⟨st, _, he⟩ := List.mem_flatMap.mp he
      obtain ⟨d, _, _, rfl⟩ := mem_stabEdges.mp he
      rfl) (by
      intro e he
      obtain ⟨st, hst, he⟩ := List.mem_flatMap.mp he
      have := stabEdges_data hst he
      refine ⟨?_, this⟩
      rw [mem_data] at this
      exact inB_of (2 * size) (2 * size) rfl rfl (by push_cast; omega)) hnd.1 (by simp [Lattice.empty]), ok_bind]
  rw [show ((2 * (size : Int) - 2 + 1, (size : Int) - 1) : Pos) = xPos size from rfl,
    show (((size : Int) - 1, 2 * (size : Int) - 2 + 1) : Pos) = zPos size from rfl]
  rw [addLogical_ok _ (by refine ⟨?_, ?_, ?_, ?_⟩ <;> simp [Lattice.empty, xPos] <;> omega) (by
      have := log_free (p := xPos size) (Or.inl rfl)
      simp [Lattice.occupied, Lattice.empty] at this ⊢
      exact this), ok_bind]
  rw [addLogical_ok _ (by refine ⟨?_, ?_, ?_, ?_⟩ <;> simp [Lattice.empty, zPos] <;> omega) (by
      have := log_free (p := zPos size) (Or.inr rfl)
      simp [Lattice.occupied, Lattice.empty] at this ⊢
      refine ⟨this.1, this.2, ?_⟩
      simp [xPos, zPos]; omega), ok_bind]
  have hlog : ∀ L : Lattice, loopE (fun L i => do
      let L ← Lattice.addEdgeAt L (2 * (size : Int) - 2, 2 * i) (xPos size) .X
      L.addEdgeAt (2 * i, 2 * (size : Int) - 2) (zPos size) .Z) L (pyRange 0 (size : Int) 1) = loopE addE L (logEdges size) := by
    intro L
    rw [logEdges, loopE_flatMap]
    apply loopE_congr
    intro L i _
    rw [loopE_cons]
    congr 1
    funext L
    rw [loopE_cons]
    have : ∀ x : Except Err Lattice, (x >>= fun L => loopE addE L []) = x := by intro x; cases x <;> rfl
    rw [this]
    rfl
  rw [hlog, loop_edges _ _ (by
      intro e he
      obtain ⟨i, _, _, rfl | rfl⟩ := mem_logEdges.mp he <;> rfl) (by
      intro e he
      have hdat : e.data ∈ data (size : Int) := by
        obtain ⟨i, h1, h2, rfl | rfl⟩ := mem_logEdges.mp he <;> rw [mem_data] <;> simp only [mkEdge] <;> omega
      refine ⟨?_, hdat⟩
      rw [mem_data] at hdat
      exact inB_of (2 * size) (2 * size) rfl rfl (by push_cast; omega)) hnd.2.1 (by
      intro e he hm
      simp only [Lattice.empty, List.nil_append] at hm
      exact hnd.2.2 _ hm _ (List.mem_map_of_mem he) rfl), ok_bind]
  rw [assignOrder_ok, ok_bind]
  · rfl
  · intro e he hs
    apply hord
    rw [isStab_iff] at hs
    rcases List.mem_append.mp he with he | he
    · simp only [Lattice.empty, List.nil_append] at he
      obtain ⟨st, _, he⟩ := List.mem_flatMap.mp he
      obtain ⟨d, hd, _, rfl⟩ := mem_stabEdges.mp he
      have : (stepDir ((mkEdge (st.1.1 + d.1, st.1.2 + d.2) st.1 (groupLetter st.2)).data.1 - (mkEdge (st.1.1 + d.1, st.1.2 + d.2) st.1 (groupLetter st.2)).op.1),
          stepDir ((mkEdge (st.1.1 + d.1, st.1.2 + d.2) st.1 (groupLetter st.2)).data.2 - (mkEdge (st.1.1 + d.1, st.1.2 + d.2) st.1 (groupLetter st.2)).op.2)) = d := by
        have h5 := crossDirs_par hd
        have h3 : st.1.1 + d.1 - st.1.1 = d.1 := by omega
        have h4 : st.1.2 + d.2 - st.1.2 = d.2 := by omega
        simp only [mkEdge, stepDir, h3, h4]
        rw [if_neg (by omega), if_neg (by omega)]
      rw [this]
      exact hd
    · exfalso
      obtain ⟨i, _, _, rfl | rfl⟩ := mem_logEdges.mp he
      · exact (log_free (Or.inl rfl)).2 hs
      · exact (log_free (Or.inr rfl)).2 hs

/-! ### Its operators -/

def xEdges (s : Int) : List LEdge := (pyRange 0 s 1).map fun i => mkEdge (2 * s - 2, 2 * i) (xPos s) .X
def zEdges (s : Int) : List LEdge := (pyRange 0 s 1).map fun i => mkEdge (2 * i, 2 * s - 2) (zPos s) .Z

theorem xz_ne (s : Int) (hs : 1 ≤ s) : xPos s ≠ zPos s := by simp [xPos, zPos]; omega

theorem filter_x (s : Int) (hs : 1 ≤ s) : (logEdges s).filter (fun e => e.op = xPos s) = xEdges s := by
  have := xz_ne s hs
  rw [logEdges, List.filter_flatMap, xEdges, ← List.flatMap_pure_eq_map]
  congr 1
  funext i
  simp [mkEdge, this.symm]

theorem filter_z (s : Int) (hs : 1 ≤ s) : (logEdges s).filter (fun e => e.op = zPos s) = zEdges s := by
  have := xz_ne s hs
  rw [logEdges, List.filter_flatMap, zEdges, ← List.flatMap_pure_eq_map]
  congr 1
  funext i
  simp [mkEdge, this]

theorem filter_stab_log (s : Int) {p : Pos} (hp : p = xPos s ∨ p = zPos s) :
    ((stabs s).flatMap (stabEdges s)).filter (fun e => e.op = p) = [] := by
  rw [List.filter_eq_nil_iff]
  intro e he
  obtain ⟨st, hst, he⟩ := List.mem_flatMap.mp he
  simp only [decide_eq_true_eq]
  rw [stabEdges_op he]
  intro h
  exact (log_free hp).2 (h ▸ List.mem_map_of_mem hst)

variable (size : Nat) (order : List (Int × Int))

/-- The edges of a vertex, with their time steps. -/
theorem op_filter (v : Pos) : (lat size order).opEdges v =
    ((rawEdges size).filter fun e => e.op = v).map (stepEdge (raw size).isStab order) :=
  opEdges_map (L := lat size order) (fun e => stepEdge_op _ _ e) rfl v

theorem op_stab {st : Pos × StabGroup} (h : st ∈ stabs size) :
    (lat size order).opEdges st.1 = (stabEdges size st).map (stepEdge (raw size).isStab order) := by
  rw [op_filter, rawEdges, List.filter_append,
    filter_flatMap_op (as := stabs (size : Int)) (key := Prod.fst) (f := stabEdges (size : Int))
      (stabsOf_nodup (cells_nodup _)) (fun a _ e he => stabEdges_op he) h]
  have : (logEdges (size : Int)).filter (fun e => e.op = st.1) = [] := by
    rw [List.filter_eq_nil_iff]
    intro e he
    have hst := List.mem_map_of_mem (f := Prod.fst) h
    obtain ⟨i, _, _, rfl | rfl⟩ := mem_logEdges.mp he
    · simp only [mkEdge]
      exact fun h => (log_free (Or.inl rfl)).2 (of_decide_eq_true h ▸ hst)
    · simp only [mkEdge]
      exact fun h => (log_free (Or.inr rfl)).2 (of_decide_eq_true h ▸ hst)
  rw [this, List.append_nil]

theorem op_x (hs : 1 ≤ size) :
    (lat size order).opEdges (xPos size) = (xEdges size).map (stepEdge (raw size).isStab order) := by
  rw [op_filter, rawEdges, List.filter_append, filter_stab_log _ (Or.inl rfl), filter_x _ (by omega), List.nil_append]

theorem op_z (hs : 1 ≤ size) :
    (lat size order).opEdges (zPos size) = (zEdges size).map (stepEdge (raw size).isStab order) := by
  rw [op_filter, rawEdges, List.filter_append, filter_stab_log _ (Or.inr rfl), filter_z _ (by omega), List.nil_append]

theorem lat_occ : (lat size order).occupied = data size ++ (stabs size).map Prod.fst ++ (logs size).map Prod.fst := rfl
theorem lat_edges : (lat size order).edges = (rawEdges size).map (stepEdge (raw size).isStab order) := rfl
theorem lat_indexed : (lat size order).indexed = data size ++ (stabs size).map Prod.fst ++ (logs size).map Prod.fst := rfl
theorem lat_data : (lat size order).dataqubits = data size := rfl

theorem occ_nodup (hs : 1 ≤ size) : (data size ++ (stabs size).map Prod.fst ++ (logs size).map Prod.fst).Nodup := by
  rw [List.nodup_append, List.nodup_append]
  refine ⟨⟨dataOf_nodup (cells_nodup _), stabsOf_nodup (cells_nodup _), ?_⟩, ?_, ?_⟩
  · rintro p hp q hq rfl
    obtain ⟨st, hst, rfl⟩ := List.mem_map.mp hq
    have := mem_stabs hst
    rw [mem_data] at hp
    omega
  · simpa [logs] using xz_ne (size : Int) (by omega)
  · rintro p hp q hq rfl
    have hq : p = xPos size ∨ p = zPos size := by simpa [logs] using hq
    rcases List.mem_append.mp hp with hp | hp
    · exact (log_free hq).1 hp
    · exact (log_free hq).2 hp

theorem rawEdges_data {e : LEdge} (he : e ∈ rawEdges size) : e.data ∈ data size := by
  rcases List.mem_append.mp he with he | he
  · obtain ⟨st, hst, he⟩ := List.mem_flatMap.mp he
    exact stabEdges_data hst he
  · obtain ⟨i, h1, h2, rfl | rfl⟩ := mem_logEdges.mp he <;> rw [mem_data] <;> simp only [mkEdge] <;> omega

theorem wf (hs : 1 ≤ size) : (lat size order).Wf where
  occ := by rw [lat_occ]; exact occ_nodup size hs
  indexed := by rw [lat_occ, lat_indexed]
  keys := by
    rw [lat_edges, List.map_map, show (LEdge.key ∘ stepEdge (raw size).isStab order) = LEdge.key from funext fun e => stepEdge_key _ _ e]
    exact edges_nodup _ (by omega)
  data := by
    intro e he
    rw [lat_data]
    rw [lat_edges] at he
    obtain ⟨e', he', rfl⟩ := List.mem_map.mp he
    rw [(stepEdge_df _ _ _).1]
    exact rawEdges_data size he'

theorem stabEdges_factor {s : Int} {st : Pos × StabGroup} {e : LEdge} (he : e ∈ stabEdges s st) : e.factor = groupLetter st.2 := by
  obtain ⟨d, _, _, rfl⟩ := mem_stabEdges.mp he
  rfl

theorem stabEdges_dir (s : Int) (st : Pos × StabGroup) : stabEdges s st =
    dirEdges crossDirs (fun d => outside s (st.1.1 + d.1, st.1.2 + d.2))
      (fun d => mkEdge (st.1.1 + d.1, st.1.2 + d.2) st.1 (groupLetter st.2)) := rfl

theorem mem_x {s : Int} {e : LEdge} : e ∈ xEdges s ↔ ∃ i, 0 ≤ i ∧ i < s ∧ e = mkEdge (2 * s - 2, 2 * i) (xPos s) .X := by
  simp only [xEdges, List.mem_map, mem_pyRange (show (0 : Int) < 1 by omega)]
  constructor
  · rintro ⟨i, hi, h⟩; exact ⟨i, hi.1, hi.2.1, h.symm⟩
  · rintro ⟨i, h1, h2, h⟩; exact ⟨i, ⟨h1, h2, by simp⟩, h.symm⟩

theorem mem_z {s : Int} {e : LEdge} : e ∈ zEdges s ↔ ∃ i, 0 ≤ i ∧ i < s ∧ e = mkEdge (2 * i, 2 * s - 2) (zPos s) .Z := by
  simp only [zEdges, List.mem_map, mem_pyRange (show (0 : Int) < 1 by omega)]
  constructor
  · rintro ⟨i, hi, h⟩; exact ⟨i, hi.1, hi.2.1, h.symm⟩
  · rintro ⟨i, h1, h2, h⟩; exact ⟨i, ⟨h1, h2, by simp⟩, h.symm⟩

theorem x_nodup (s : Int) : ((xEdges s).map LEdge.data).Nodup := by
  rw [xEdges, List.map_map]
  exact (pyRange_nodup (by omega)).map (fun a b h => by simpa [mkEdge] using h)

theorem z_nodup (s : Int) : ((zEdges s).map LEdge.data).Nodup := by
  rw [zEdges, List.map_map]
  exact (pyRange_nodup (by omega)).map (fun a b h => by simpa [mkEdge] using h)

/-- An X stabiliser and a Z stabiliser have no or two common data qubits. -/
theorem anti_AB {s : Int} {a b : Pos × StabGroup} (ha : a ∈ stabs s) (hb : b ∈ stabs s) (hA : a.2 = .A) (hB : b.2 = .B) :
    antiE (stabEdges s a) (stabEdges s b) = false := by
  obtain ⟨ra, ka⟩ := mem_stabs ha
  obtain ⟨rb, kb⟩ := mem_stabs hb
  rw [hA] at ka
  rw [hB] at kb
  simp only [true_and, reduceCtorEq, false_and, or_false, false_or] at ka kb
  rw [stabEdges_dir s a, antiE_dirEdges _ _ _ (stabEdges_nodup s b)
    (P := fun d => (d.1 = 0 ∧ b.1.2 = a.1.2 + d.2 ∧ (b.1.1 = a.1.1 + 1 ∨ b.1.1 = a.1.1 - 1)) ∨
      (d.2 = 0 ∧ b.1.1 = a.1.1 + d.1 ∧ (b.1.2 = a.1.2 + 1 ∨ b.1.2 = a.1.2 - 1)))]
  · simp only [crossDirs, xorSum_cons, xorSum_nil, true_and, Bool.xor_false, show ¬ ((1 : Int) = 0) by omega,
      show ¬ ((-1 : Int) = 0) by omega, false_and, or_false, false_or]
    have e1 : ¬ (b.1.1 = a.1.1 + 1 ∧ b.1.1 = a.1.1 - 1) := by omega
    have e2 : ¬ (b.1.2 = a.1.2 + 1 ∧ b.1.2 = a.1.2 - 1) := by omega
    have f1 : b.1.1 = a.1.1 + -1 ↔ b.1.1 = a.1.1 - 1 := by omega
    have f2 : b.1.2 = a.1.2 + -1 ↔ b.1.2 = a.1.2 - 1 := by omega
    simp only [f1, f2]
    by_cases h1 : b.1.1 = a.1.1 + 1 <;> by_cases h2 : b.1.1 = a.1.1 - 1 <;> by_cases h3 : b.1.2 = a.1.2 + 1 <;>
      by_cases h4 : b.1.2 = a.1.2 - 1 <;> first | (exfalso; omega) | simp [*] <;> omega
  · intro d hd
    have hdp := crossDirs_par hd
    constructor
    · intro h
      refine ⟨by simp only [outside]; omega, mkEdge (a.1.1 + d.1, a.1.2 + d.2) b.1 (groupLetter b.2), ?_, rfl, ?_⟩
      · rw [mem_stabEdges]
        refine ⟨(a.1.1 + d.1 - b.1.1, a.1.2 + d.2 - b.1.2), ?_, ?_, ?_⟩
        · simp only [crossDirs, List.mem_cons, Prod.mk.injEq, List.not_mem_nil, or_false]
          omega
        · simp only [outside]; omega
        · congr 1; simp
      · simp [mkEdge, hA, hB, groupLetter]
    · rintro ⟨ho, e, he, h1, _⟩
      obtain ⟨d', hd', _, rfl⟩ := mem_stabEdges.mp he
      have hdp' := crossDirs_par hd'
      simp only [mkEdge, Prod.mk.injEq] at h1
      omega

/-- A Z stabiliser has no or two data qubits on the X line. -/
theorem anti_Bx {s : Int} {b : Pos × StabGroup} (hb : b ∈ stabs s) (hB : b.2 = .B) :
    antiE (stabEdges s b) (xEdges s) = false := by
  obtain ⟨rb, kb⟩ := mem_stabs hb
  rw [hB] at kb
  simp only [true_and, reduceCtorEq, false_and, false_or] at kb
  rw [stabEdges_dir s b, antiE_dirEdges _ _ _ (x_nodup s) (P := fun d => d.1 = 0 ∧ b.1.1 = 2 * s - 2)]
  · simp [crossDirs]
  · intro d hd
    have hdp := crossDirs_par hd
    constructor
    · intro h
      refine ⟨by simp only [outside]; omega, mkEdge (b.1.1 + d.1, b.1.2 + d.2) (xPos s) .X, ?_, rfl, ?_⟩
      · rw [mem_x]
        refine ⟨(b.1.2 + d.2) / 2, by omega, by omega, ?_⟩
        congr 1
        simp only [Prod.mk.injEq]
        omega
      · simp [mkEdge, hB, groupLetter]
    · rintro ⟨ho, e, he, h1, _⟩
      obtain ⟨i, _, _, rfl⟩ := mem_x.mp he
      simp only [mkEdge, Prod.mk.injEq] at h1
      omega

/-- An X stabiliser has no or two data qubits on the Z line. -/
theorem anti_Az {s : Int} {a : Pos × StabGroup} (ha : a ∈ stabs s) (hA : a.2 = .A) :
    antiE (stabEdges s a) (zEdges s) = false := by
  obtain ⟨ra, ka⟩ := mem_stabs ha
  rw [hA] at ka
  simp only [true_and, reduceCtorEq, false_and, or_false] at ka
  rw [stabEdges_dir s a, antiE_dirEdges _ _ _ (z_nodup s) (P := fun d => d.2 = 0 ∧ a.1.2 = 2 * s - 2)]
  · simp [crossDirs]
  · intro d hd
    have hdp := crossDirs_par hd
    constructor
    · intro h
      refine ⟨by simp only [outside]; omega, mkEdge (a.1.1 + d.1, a.1.2 + d.2) (zPos s) .Z, ?_, rfl, ?_⟩
      · rw [mem_z]
        refine ⟨(a.1.1 + d.1) / 2, by omega, by omega, ?_⟩
        congr 1
        simp only [Prod.mk.injEq]
        omega
      · simp [mkEdge, hA, groupLetter]
    · rintro ⟨ho, e, he, h1, _⟩
      obtain ⟨i, _, _, rfl⟩ := mem_z.mp he
      simp only [mkEdge, Prod.mk.injEq] at h1
      omega

theorem anti_xz {s : Int} (hs : 1 ≤ s) : antiE (xEdges s) (zEdges s) = true := by
  unfold antiE
  rw [xEdges, xorSum_map, xorSum_unique (a := s - 1) (by rw [mem_pyRange (by omega)]; simp; omega) (pyRange_nodup (by omega))]
  · rw [xorSum_pairAnti (z_nodup s), decide_eq_true_eq]
    refine ⟨mkEdge (2 * (s - 1), 2 * s - 2) (zPos s) .Z, mem_z.mpr ⟨s - 1, by omega, by omega, rfl⟩, ?_, by simp [mkEdge]⟩
    simp only [mkEdge, Prod.mk.injEq]
    omega
  · intro i hi hne
    rw [xorSum_pairAnti (z_nodup s), decide_eq_false_iff_not]
    rintro ⟨e, he, h1, _⟩
    obtain ⟨j, _, _, rfl⟩ := mem_z.mp he
    simp only [mkEdge, Prod.mk.injEq] at h1
    omega

theorem comm (hs : 1 ≤ size) : (lat size order).Comm where
  stab_stab := by
    intro a ha b hb
    have ha : a ∈ stabs size := ha
    have hb : b ∈ stabs size := hb
    rw [op_stab _ _ ha, op_stab _ _ hb, antiE_map (stepEdge_df _ _)]
    have same : a.2 = b.2 → antiE (stabEdges size a) (stabEdges size b) = false := fun h =>
      antiE_same_letter (groupLetter a.2) (fun e he => stabEdges_factor he) (fun e he => by rw [stabEdges_factor he, h])
    rcases (mem_stabs ha).2 with ⟨h1, _⟩ | ⟨h1, _⟩ <;> rcases (mem_stabs hb).2 with ⟨h2, _⟩ | ⟨h2, _⟩
    · exact same (h1.trans h2.symm)
    · exact anti_AB ha hb h1 h2
    · rw [antiE_symm]; exact anti_AB hb ha h2 h1
    · exact same (h1.trans h2.symm)
  stab_log := by
    intro a ha b hb
    have ha : a ∈ stabs size := ha
    have hb : b ∈ logs size := hb
    simp only [logs, List.mem_cons, List.not_mem_nil, or_false] at hb
    rw [op_stab _ _ ha]
    rcases hb with rfl | rfl
    · simp only [op_x size order hs]
      rw [antiE_map (stepEdge_df _ _)]
      rcases (mem_stabs ha).2 with ⟨h1, _⟩ | ⟨h1, _⟩
      · refine antiE_same_letter .X (fun e he => by rw [stabEdges_factor he, h1]; rfl) (fun e he => ?_)
        obtain ⟨i, _, _, rfl⟩ := mem_x.mp he
        rfl
      · exact anti_Bx ha h1
    · simp only [op_z size order hs]
      rw [antiE_map (stepEdge_df _ _)]
      rcases (mem_stabs ha).2 with ⟨h1, _⟩ | ⟨h1, _⟩
      · exact anti_Az ha h1
      · refine antiE_same_letter .Z (fun e he => by rw [stabEdges_factor he, h1]; rfl) (fun e he => ?_)
        obtain ⟨i, _, _, rfl⟩ := mem_z.mp he
        rfl
  log_log := by
    intro i j a b ha hb
    have hlog : ∀ (i : Nat) a, (lat size order).logicals[i]? = some a →
        (i = 0 ∧ (lat size order).opEdges a.1 = (xEdges size).map (stepEdge (raw size).isStab order)) ∨
        (i = 1 ∧ (lat size order).opEdges a.1 = (zEdges size).map (stepEdge (raw size).isStab order)) := by
      intro i a ha
      have ha : (logs size)[i]? = some a := ha
      match i with
      | 0 => simp [logs] at ha; subst ha; exact Or.inl ⟨rfl, op_x size order hs⟩
      | 1 => simp [logs] at ha; subst ha; exact Or.inr ⟨rfl, op_z size order hs⟩
      | i + 2 => simp [logs] at ha
    rcases hlog i a ha with ⟨rfl, h1⟩ | ⟨rfl, h1⟩ <;> rcases hlog j b hb with ⟨rfl, h2⟩ | ⟨rfl, h2⟩ <;>
      rw [h1, h2, antiE_map (stepEdge_df _ _)]
    · rw [antiE_same_letter .X]
      · rfl
      · simp [xEdges, mkEdge]
      · simp [xEdges, mkEdge]
    · rw [anti_xz (by omega)]; rfl
    · rw [antiE_symm, anti_xz (by omega)]; rfl
    · rw [antiE_same_letter .Z]
      · rfl
      · simp [zEdges, mkEdge]
      · simp [zEdges, mkEdge]

theorem length_data (hs : 1 ≤ size) : (data size).length = size ^ 2 + (size - 1) ^ 2 := by
  obtain ⟨k, rfl⟩ : ∃ k, size = k + 1 := ⟨size - 1, by omega⟩
  rw [data, dataOf_eq, cells, length_pairs_filter, pyRange_zero (2 * k + 1) _ (by push_cast; omega), List.map_map]
  have : ((fun i : Int => ((List.range (2 * k + 1)).map fun (j : Nat) => (j : Int)).countP fun j => decide (kind (i, j) = none)) ∘
      fun (i : Nat) => (i : Int)) = fun i => if i % 2 = 0 then k + 1 else k := by
    funext i
    simp only [Function.comp, List.countP_map]
    obtain ⟨c1, c2⟩ := count_parity (2 * k + 1)
    by_cases hi : i % 2 = 0
    · rw [if_pos hi, show k + 1 = (2 * k + 1 + 1) / 2 by omega, ← c1]
      apply List.countP_congr
      intro j _
      simp only [kind_none, Function.comp, decide_eq_true_eq]
      omega
    · rw [if_neg hi]
      refine Eq.trans ?_ (c2.trans (by omega))
      apply List.countP_congr
      intro j _
      simp only [kind_none, Function.comp, decide_eq_true_eq]
      omega
  rw [this, sum_parity, show (2 * k + 1 + 1) / 2 = k + 1 by omega, show (2 * k + 1) / 2 = k by omega]
  simp only [Nat.add_sub_cancel]
  ring

theorem length_stabs (hs : 1 ≤ size) : (stabs size).length = 2 * size * (size - 1) := by
  have h1 := length_data_stabs kind (cells size)
  have h2 := length_data size hs
  rw [data] at h2
  rw [h2] at h1
  rw [stabs]
  obtain ⟨k, rfl⟩ : ∃ k, size = k + 1 := ⟨size - 1, by omega⟩
  rw [cells, length_pairs, length_pyRange, show (((2 * ((k + 1 : ℕ) : Int) - 1 - 0 + 1 - 1) / 1).toNat) = 2 * k + 1 by push_cast; omega] at h1
  simp only [Nat.add_sub_cancel] at h1 ⊢
  have : (2 * k + 1) * (2 * k + 1) = (k + 1) ^ 2 + k ^ 2 + 2 * (k + 1) * k := by ring
  rw [cells]
  omega

theorem full (h2 : 2 ≤ size) : (lat size order).Full where
  stab := by
    intro a ha
    have ha : a ∈ stabs size := ha
    rw [op_stab _ _ ha]
    intro h0
    rw [List.map_eq_nil_iff] at h0
    have hr := mem_stabs ha
    have : mkEdge (a.1.1, a.1.2 + 1) a.1 (groupLetter a.2) ∈ stabEdges size a ∨ mkEdge (a.1.1, a.1.2 - 1) a.1 (groupLetter a.2) ∈ stabEdges size a := by
      by_cases h : a.1.2 = 2 * (size : Int) - 2
      · right
        rw [mem_stabEdges]
        refine ⟨(0, -1), by simp [crossDirs], ?_, ?_⟩
        · simp only [outside]; omega
        · congr 1; simp; omega
      · left
        rw [mem_stabEdges]
        refine ⟨(0, 1), by simp [crossDirs], ?_, ?_⟩
        · simp only [outside]; omega
        · congr 1; simp
    rw [h0] at this
    simp at this
  log := by
    intro b hb
    have hb : b ∈ logs size := hb
    simp only [logs, List.mem_cons, List.not_mem_nil, or_false] at hb
    rcases hb with rfl | rfl
    · simp only [op_x size order (by omega)]
      intro h0
      have := congrArg List.length h0
      rw [xEdges] at this
      simp only [List.length_map, length_pyRange, List.length_nil] at this
      omega
    · simp only [op_z size order (by omega)]
      intro h0
      have := congrArg List.length h0
      rw [zEdges] at this
      simp only [List.length_map, length_pyRange, List.length_nil] at this
      omega
  stab_ne := by
    show stabs size ≠ []
    intro h0
    have := congrArg List.length h0
    rw [length_stabs size (by omega)] at this
    simp at this
    omega
  log_ne := by show logs size ≠ []; simp [logs]
  log_even := by show (logs size).length % 2 = 0; simp [logs]

end Planar

end Plaquette
