import Verif.Lemmas.LatticeCode

/-!
# The repetition code lattice of every odd size
-/

namespace Plaquette

namespace Rep

def cells (s : Int) : List Int := pyRange 0 (2 * s) 2
def stabCells (s : Int) : List Int := pyRange 1 (2 * s - 2) 2
def data (s : Int) : List Pos := (cells s).map fun i => (i, 0)
def stabs (s : Int) : List (Pos × StabGroup) := (stabCells s).map fun i => ((i, 0), .A)
def stabEdges (i : Int) : List LEdge := [mkEdge (i + -1, 0) (i, 0) .Z, mkEdge (i + 1, 0) (i, 0) .Z]
def xEdges (s : Int) : List LEdge := (cells s).map fun i => mkEdge (i, 0) (s - 1, 1) .X
def zEdges (s : Int) : List LEdge := [mkEdge (2 * s - 2, 0) (2 * s - 1, 0) .Z]
def logs (s : Int) : List (Pos × List Char) := [((s - 1, 1), ['X']), ((2 * s - 1, 0), ['Z'])]

/-- The lattice before indices are assigned. -/
def raw (size : Nat) : Lattice :=
  { rows := 2 * size, cols := 2, dataqubits := data size, stabgens := stabs size, logicals := logs size,
    edges := (stabCells size).flatMap stabEdges ++ xEdges size ++ zEdges size, timeSteps := none, equbits := [],
    indexed := [], keepGauge := "none".toList, boundaryJoin := false }

def lat (size : Nat) : Lattice := (raw size).assignIndices

theorem mem_data {s : Int} {p : Pos} : p ∈ data s ↔ p.2 = 0 ∧ 0 ≤ p.1 ∧ p.1 < 2 * s ∧ 2 ∣ p.1 := by
  obtain ⟨a, b⟩ := p
  simp only [data, List.mem_map, cells, mem_pyRange (show (0 : Int) < 2 by omega), Prod.mk.injEq]
  constructor
  · rintro ⟨i, h, rfl, rfl⟩; omega
  · rintro ⟨rfl, h⟩; exact ⟨a, by omega, rfl, rfl⟩

theorem mem_stabCells {s i : Int} : i ∈ stabCells s ↔ 1 ≤ i ∧ i < 2 * s - 2 ∧ 2 ∣ i - 1 := by
  rw [stabCells, mem_pyRange (by omega)]

theorem data_nodup (s : Int) : (data s).Nodup :=
  (pyRange_nodup (by omega)).map (fun a b h => by simpa using h)

theorem stabs_nodup (s : Int) : ((stabs s).map Prod.fst).Nodup := by
  rw [stabs, List.map_map]
  exact (pyRange_nodup (by omega)).map (fun a b h => by simpa using h)

theorem edges_nodup (s : Int) (hs : 2 ≤ s) : (((stabCells s).flatMap stabEdges ++ xEdges s ++ zEdges s).map LEdge.key).Nodup := by
  simp only [List.map_append]
  have h1 : (((stabCells s).flatMap stabEdges).map LEdge.key).Nodup := by
    apply keys_nodup (key := fun i => (i, 0))
    · exact (pyRange_nodup (by omega)).map (fun a b h => by simpa using h)
    · intro i _ e he; simp [stabEdges] at he; rcases he with rfl | rfl <;> rfl
    · intro i _; simp [stabEdges, mkEdge]
  have h2 : ((xEdges s).map LEdge.key).Nodup := by
    rw [xEdges, List.map_map]
    exact (pyRange_nodup (by omega)).map (fun a b h => by simpa [LEdge.key, mkEdge] using h)
  have o1 : ∀ k ∈ ((stabCells s).flatMap stabEdges).map LEdge.key, k.1.2 = 0 ∧ k.1.1 < 2 * s - 2 := by
    intro k hk
    simp only [List.mem_map, List.mem_flatMap] at hk
    obtain ⟨e, ⟨i, hi, he⟩, rfl⟩ := hk
    rw [mem_stabCells] at hi
    simp [stabEdges] at he
    rcases he with rfl | rfl <;> simp [LEdge.key, mkEdge] <;> omega
  have o2 : ∀ k ∈ (xEdges s).map LEdge.key, k.1.2 = 1 := by
    intro k hk
    simp only [xEdges, List.mem_map] at hk
    obtain ⟨e, ⟨i, hi, rfl⟩, rfl⟩ := hk
    rfl
  have o3 : ∀ k ∈ (zEdges s).map LEdge.key, k.1 = (2 * s - 1, 0) := by
    intro k hk
    simp [zEdges, mkEdge, LEdge.key] at hk
    rw [hk]
  rw [List.nodup_append, List.nodup_append]
  refine ⟨⟨h1, h2, ?_⟩, by simp [zEdges], ?_⟩
  · rintro a ha b hb rfl
    have := o1 a ha; have := o2 a hb; omega
  · rintro a ha b hb rfl
    have h3 := o3 a hb
    rcases List.mem_append.mp ha with h | h
    · have := o1 a h; rw [h3] at this; simp at this
    · have := o2 a h; rw [h3] at this; simp at this

theorem make (size : Nat) (hodd : size % 2 = 1) (h3 : 3 ≤ size) : repetitionLattice size = .ok (lat size) := by
  unfold repetitionLattice
  rw [if_neg (by omega)]
  have hd : loopE (fun L i => L.addData (i, 0)) (Lattice.empty (2 * size) 2) (pyRange 0 (2 * (size : Int)) 2) =
      .ok { Lattice.empty (2 * size) 2 with dataqubits := data size } := by
    have := loop_cells ((cells size).map fun i => ((i, 0), none)) (Lattice.empty (2 * size) 2) (by
        intro c hc
        simp only [List.mem_map, cells, mem_pyRange (show (0 : Int) < 2 by omega)] at hc
        obtain ⟨i, hi, rfl⟩ := hc
        refine ⟨?_, ?_, ?_, ?_⟩ <;> simp [Lattice.empty] <;> omega)
      (by rw [List.map_map]; exact (pyRange_nodup (by omega)).map (fun a b h => by simpa using h))
      (by simp [Lattice.empty, Lattice.occupied])
    rw [loopE_map] at this
    simp only [addCell] at this
    simp only [cells] at this
    rw [this]
    simp [Lattice.empty, cellData, cellStabs, data, cells, List.filterMap_map]
  dsimp only
  rw [hd, ok_bind]
  have hst : loopE (fun L i => do
        let L ← Lattice.addStabgen L (i, 0) .A
        loopE (fun L di => L.addEdgeAt (i + di, 0) (i, 0) .Z) L [-1, 1])
      { Lattice.empty (2 * size) 2 with dataqubits := data size } (pyRange 1 (2 * (size : Int) - 2) 2) =
      .ok { Lattice.empty (2 * size) 2 with
        dataqubits := data size, stabgens := stabs size, edges := (stabCells size).flatMap stabEdges } := by
    have := loop_stabEdges ((stabCells size).map fun i => (((i, 0), .A), stabEdges i))
      { Lattice.empty (2 * size) 2 with dataqubits := data size }
      (by
        intro c hc
        simp only [List.mem_map, mem_stabCells] at hc
        obtain ⟨i, hi, rfl⟩ := hc
        refine ⟨?_, ?_, ?_, ?_⟩ <;> simp [Lattice.empty] <;> omega)
      (by rw [List.map_map]; exact (pyRange_nodup (by omega)).map (fun a b h => by simpa using h))
      (by
        intro c hc
        simp only [List.mem_map, mem_stabCells] at hc
        obtain ⟨i, hi, rfl⟩ := hc
        simp only [Lattice.empty, Lattice.occupied, List.map_nil, List.append_nil, mem_data]
        omega)
      (by
        intro c hc e he
        simp only [List.mem_map, mem_stabCells] at hc
        obtain ⟨i, hi, rfl⟩ := hc
        simp [stabEdges] at he
        rcases he with rfl | rfl <;> rfl)
      (by
        intro c hc e he
        simp only [List.mem_map, mem_stabCells] at hc
        obtain ⟨i, hi, rfl⟩ := hc
        simp [stabEdges] at he
        rcases he with rfl | rfl <;>
        · refine ⟨⟨?_, ?_, ?_, ?_⟩, ?_⟩
          · simp [mkEdge]; omega
          · simp [mkEdge]
          · simp [mkEdge, Lattice.empty]; omega
          · simp [mkEdge, Lattice.empty]
          · simp only [mem_data, mkEdge, true_and]; omega)
      (by
        have := edges_nodup (size : Int) (by omega)
        rw [List.flatMap_map]
        simp only [List.map_append] at this
        rw [List.nodup_append, List.nodup_append] at this
        exact this.1.1)
      (by simp [Lattice.empty])
    rw [loopE_map] at this
    rw [List.flatMap_map, List.map_map] at this
    exact this
  rw [hst, ok_bind, addLogical_ok _ (by refine ⟨?_, ?_, ?_, ?_⟩ <;> simp [Lattice.empty] <;> omega) (by
      simp only [Lattice.occupied, Lattice.empty, List.map_nil, List.append_nil, List.mem_append, mem_data, stabs,
        List.mem_map, not_or]
      refine ⟨by omega, ?_⟩
      rintro ⟨_, ⟨i, hi, rfl⟩, h⟩
      simp at h), ok_bind]
  have hx : ∀ L : Lattice, loopE (fun L i => L.addEdgeAt (i, 0) ((size : Int) - 1, 1) .X) L (pyRange 0 (2 * (size : Int)) 2) =
      loopE addE L (xEdges size) := by
    intro L
    rw [xEdges, loopE_map]
    rfl
  have hnd := edges_nodup (size : Int) (by omega)
  rw [hx, loop_edges _ _ (by
      intro e he; simp only [xEdges, List.mem_map] at he; obtain ⟨i, _, rfl⟩ := he; rfl) (by
      intro e he
      simp only [xEdges, List.mem_map, cells, mem_pyRange (show (0 : Int) < 2 by omega)] at he
      obtain ⟨i, hi, rfl⟩ := he
      refine ⟨⟨?_, ?_, ?_, ?_⟩, ?_⟩
      · simp [mkEdge]; omega
      · simp [mkEdge]
      · simp [mkEdge, Lattice.empty]; omega
      · simp [mkEdge, Lattice.empty]
      · simp only [mem_data, mkEdge, true_and]; omega) (by
      simp only [List.map_append] at hnd
      rw [List.nodup_append, List.nodup_append] at hnd
      exact hnd.1.2.1) (by
      intro e he hm
      simp only [List.map_append] at hnd
      rw [List.nodup_append, List.nodup_append] at hnd
      exact hnd.1.2.2 _ hm _ (List.mem_map_of_mem he) rfl), ok_bind]
  rw [addLogical_ok _ (by refine ⟨?_, ?_, ?_, ?_⟩ <;> simp [Lattice.empty] <;> omega) (by
      simp only [Lattice.occupied, Lattice.empty, List.map_append, List.map_cons, List.map_nil, List.append_nil, List.mem_append,
        mem_data, stabs, List.mem_map, not_or, List.nil_append, List.mem_singleton, mem_stabCells]
      refine ⟨⟨by omega, ?_⟩, by simp⟩
      rintro ⟨_, ⟨i, hi, rfl⟩, h⟩
      simp at h
      omega), ok_bind]
  have hz : ∀ L : Lattice, L.addEdgeAt (2 * (size : Int) - 2, 0) (2 * (size : Int) - 1, 0) .Z =
      addE L (mkEdge (2 * (size : Int) - 2, 0) (2 * (size : Int) - 1, 0) .Z) := fun _ => rfl
  rw [hz, addE_ok rfl (by refine ⟨?_, ?_, ?_, ?_⟩ <;> simp [mkEdge, Lattice.empty] <;> omega)
    (by simp only [mem_data, mkEdge, true_and]; omega) (by
      intro hm
      rw [List.map_append] at hnd
      rw [List.nodup_append] at hnd
      exact hnd.2.2 _ hm _ (by simp [zEdges]) rfl), ok_bind]
  rfl

/-! ### Its operators -/

theorem wf (size : Nat) (h3 : 3 ≤ size) : (lat size).Wf where
  occ := by
    show (data size ++ (stabs size).map Prod.fst ++ (logs size).map Prod.fst).Nodup
    rw [List.nodup_append, List.nodup_append]
    refine ⟨⟨data_nodup _, stabs_nodup _, ?_⟩, by simp [logs], ?_⟩
    · rintro p hp q hq rfl
      rw [mem_data] at hp
      simp only [stabs, List.map_map, List.mem_map, mem_stabCells] at hq
      obtain ⟨i, hi, rfl⟩ := hq
      simp at hp; omega
    · rintro p hp q hq rfl
      simp only [logs, List.map_cons, List.map_nil, List.mem_cons, List.not_mem_nil, or_false] at hq
      rw [List.mem_append, mem_data] at hp
      simp only [stabs, List.map_map, List.mem_map, mem_stabCells] at hp
      rcases hq with rfl | rfl
      · rcases hp with hp | ⟨i, hi, hp⟩
        · simp at hp
        · simp at hp
      · rcases hp with hp | ⟨i, hi, hp⟩
        · simp at hp; omega
        · simp at hp; omega
  indexed := rfl
  keys := edges_nodup _ (by omega)
  data := by
    intro e he
    show e.data ∈ data size
    have he : e ∈ (stabCells size).flatMap stabEdges ++ xEdges size ++ zEdges size := he
    rw [mem_data]
    simp only [List.mem_append, List.mem_flatMap, mem_stabCells, stabEdges, xEdges, cells,
      mem_pyRange (show (0 : Int) < 2 by omega), zEdges, List.mem_map, List.mem_cons, List.not_mem_nil, or_false] at he
    rcases he with (⟨i, hi, rfl | rfl⟩ | ⟨i, hi, rfl⟩) | rfl <;> simp only [mkEdge, true_and] <;> omega

theorem op_stab (size : Nat) (i : Int) (hi : i ∈ stabCells size) : (lat size).opEdges (i, 0) = stabEdges i := by
  show ((stabCells size).flatMap stabEdges ++ xEdges size ++ zEdges size).filter (fun e => e.op = (i, 0)) = _
  rw [List.filter_append, List.filter_append, filter_flatMap_op (key := fun i => (i, 0)) _ _ hi]
  · have h1 : (xEdges (size : Int)).filter (fun e => e.op = (i, 0)) = [] := by
      rw [List.filter_eq_nil_iff]
      intro e he
      simp only [xEdges, List.mem_map] at he
      obtain ⟨j, _, rfl⟩ := he
      simp [mkEdge]
    have h2 : (zEdges (size : Int)).filter (fun e => e.op = (i, 0)) = [] := by
      rw [List.filter_eq_nil_iff]
      intro e he
      simp only [zEdges, List.mem_singleton] at he
      subst he
      rw [mem_stabCells] at hi
      simp [mkEdge]
      omega
    rw [h1, h2, List.append_nil, List.append_nil]
  · exact (pyRange_nodup (by omega)).map (fun a b h => by simpa using h)
  · intro i _ e he; simp [stabEdges] at he; rcases he with rfl | rfl <;> rfl

theorem op_x (size : Nat) : (lat size).opEdges ((size : Int) - 1, 1) = xEdges size := by
  show ((stabCells size).flatMap stabEdges ++ xEdges size ++ zEdges size).filter (fun e => e.op = ((size : Int) - 1, 1)) = _
  rw [List.filter_append, List.filter_append]
  have h1 : (xEdges (size : Int)).filter (fun e => e.op = ((size : Int) - 1, 1)) = xEdges size := by
    rw [List.filter_eq_self]
    intro e he
    simp only [xEdges, List.mem_map] at he
    obtain ⟨j, _, rfl⟩ := he
    simp [mkEdge]
  have h2 : (zEdges (size : Int)).filter (fun e => e.op = ((size : Int) - 1, 1)) = [] := by
    rw [List.filter_eq_nil_iff]
    intro e he
    simp only [zEdges, List.mem_singleton] at he
    subst he
    simp [mkEdge]
  have h3 : ((stabCells (size : Int)).flatMap stabEdges).filter (fun e => e.op = ((size : Int) - 1, 1)) = [] := by
    rw [List.filter_eq_nil_iff]
    intro e he
    simp only [List.mem_flatMap, stabEdges, List.mem_cons, List.not_mem_nil, or_false] at he
    obtain ⟨i, _, rfl | rfl⟩ := he <;> simp [mkEdge]
  rw [h1, h2, h3, List.append_nil, List.nil_append]

theorem op_z (size : Nat) : (lat size).opEdges (2 * (size : Int) - 1, 0) = zEdges size := by
  show ((stabCells size).flatMap stabEdges ++ xEdges size ++ zEdges size).filter (fun e => e.op = (2 * (size : Int) - 1, 0)) = _
  rw [List.filter_append, List.filter_append]
  have h1 : (xEdges (size : Int)).filter (fun e => e.op = (2 * (size : Int) - 1, 0)) = [] := by
    rw [List.filter_eq_nil_iff]
    intro e he
    simp only [xEdges, List.mem_map] at he
    obtain ⟨j, _, rfl⟩ := he
    simp [mkEdge]
  have h2 : (zEdges (size : Int)).filter (fun e => e.op = (2 * (size : Int) - 1, 0)) = zEdges size := by
    rw [List.filter_eq_self]
    intro e he
    simp only [zEdges, List.mem_singleton] at he
    subst he
    simp [mkEdge]
  have h3 : ((stabCells (size : Int)).flatMap stabEdges).filter (fun e => e.op = (2 * (size : Int) - 1, 0)) = [] := by
    rw [List.filter_eq_nil_iff]
    intro e he
    simp only [List.mem_flatMap, stabEdges, List.mem_cons, List.not_mem_nil, or_false, mem_stabCells] at he
    obtain ⟨i, hi, rfl | rfl⟩ := he <;> simp [mkEdge] <;> omega
  rw [h1, h2, h3, List.append_nil, List.nil_append]

theorem x_nodup (s : Int) : ((xEdges s).map LEdge.data).Nodup := by
  rw [xEdges, List.map_map]
  exact (pyRange_nodup (by omega)).map (fun a b h => by simpa [mkEdge] using h)

theorem x_vs (s : Int) (a : LEdge) (ha : a.factor = .Z) (hd : a.data ∈ data s) : xorSum (xEdges s) (pairAnti a) = true := by
  rw [xorSum_pairAnti (x_nodup s)]
  simp only [decide_eq_true_eq]
  rw [mem_data] at hd
  obtain ⟨d1, d2⟩ := hd
  refine ⟨mkEdge (a.data.1, 0) (s - 1, 1) .X, ?_, ?_, by simp [mkEdge, ha]⟩
  · simp only [xEdges, List.mem_map, cells, mem_pyRange (show (0 : Int) < 2 by omega)]
    exact ⟨a.data.1, by omega, rfl⟩
  · simp only [mkEdge]; rw [← d1]

theorem mem_stabs {s : Int} {p : Pos × StabGroup} (h : p ∈ stabs s) : ∃ i, p.1 = (i, 0) ∧ 1 ≤ i ∧ i < 2 * s - 2 ∧ 2 ∣ i - 1 := by
  simp only [stabs, List.mem_map, mem_stabCells] at h
  obtain ⟨i, hi, rfl⟩ := h
  exact ⟨i, rfl, hi⟩

theorem comm (size : Nat) (h3 : 3 ≤ size) : (lat size).Comm where
  stab_stab := by
    intro a ha b hb
    obtain ⟨i, hi, hi'⟩ := mem_stabs (s := size) ha
    obtain ⟨j, hj, hj'⟩ := mem_stabs (s := size) hb
    rw [hi, hj, op_stab size i (mem_stabCells.mpr hi'), op_stab size j (mem_stabCells.mpr hj')]
    exact antiE_same_letter .Z (by simp [stabEdges, mkEdge]) (by simp [stabEdges, mkEdge])
  stab_log := by
    intro a ha b hb
    obtain ⟨i, hi, hi'⟩ := mem_stabs (s := size) ha
    rw [hi, op_stab size i (mem_stabCells.mpr hi')]
    have hb : b ∈ logs size := hb
    simp only [logs, List.mem_cons, List.not_mem_nil, or_false] at hb
    rcases hb with rfl | rfl
    · simp only [op_x]
      simp only [stabEdges, antiE_cons_left]
      rw [x_vs _ _ rfl (by rw [mem_data]; simp only [mkEdge, true_and]; omega),
        x_vs _ _ rfl (by rw [mem_data]; simp only [mkEdge, true_and]; omega)]
      rfl
    · simp only [op_z]
      exact antiE_same_letter .Z (by simp [stabEdges, mkEdge]) (by simp [zEdges, mkEdge])
  log_log := by
    intro i j a b ha hb
    have hxz : antiE (zEdges size) (xEdges size) = true := by
      rw [zEdges, antiE_cons_left, x_vs _ _ rfl (by rw [mem_data]; simp only [mkEdge, true_and]; omega)]
      rfl
    have hlog : ∀ (i : Nat) a, (lat size).logicals[i]? = some a →
        (i = 0 ∧ (lat size).opEdges a.1 = xEdges size) ∨ (i = 1 ∧ (lat size).opEdges a.1 = zEdges size) := by
      intro i a ha
      have ha : (logs size)[i]? = some a := ha
      match i with
      | 0 => simp [logs] at ha; subst ha; exact Or.inl ⟨rfl, op_x size⟩
      | 1 => simp [logs] at ha; subst ha; exact Or.inr ⟨rfl, op_z size⟩
      | i + 2 => simp [logs] at ha
    rcases hlog i a ha with ⟨rfl, h1⟩ | ⟨rfl, h1⟩ <;> rcases hlog j b hb with ⟨rfl, h2⟩ | ⟨rfl, h2⟩ <;> rw [h1, h2]
    · rw [antiE_same_letter .X]
      · rfl
      · simp [xEdges, mkEdge]
      · simp [xEdges, mkEdge]
    · rw [antiE_symm, hxz]; rfl
    · rw [hxz]; rfl
    · rw [antiE_same_letter .Z]
      · rfl
      · simp [zEdges, mkEdge]
      · simp [zEdges, mkEdge]

theorem full (size : Nat) (h3 : 3 ≤ size) : (lat size).Full where
  stab := by
    intro a ha
    obtain ⟨i, hi, hi'⟩ := mem_stabs (s := size) ha
    rw [hi, op_stab size i (mem_stabCells.mpr hi')]
    simp [stabEdges]
  log := by
    intro b hb
    have hb : b ∈ logs size := hb
    simp only [logs, List.mem_cons, List.not_mem_nil, or_false] at hb
    rcases hb with rfl | rfl
    · simp only [op_x]
      intro h0
      have := congrArg List.length h0
      rw [xEdges, cells] at this
      simp only [List.length_map, length_pyRange, List.length_nil] at this
      omega
    · simp only [op_z]; simp [zEdges]
  stab_ne := by
    show stabs size ≠ []
    intro h0
    have := congrArg List.length h0
    rw [stabs, stabCells] at this
    simp only [List.length_map, length_pyRange, List.length_nil] at this
    omega
  log_ne := by show logs size ≠ []; simp [logs]
  log_even := by show (logs size).length % 2 = 0; simp [logs]

end Rep

end Plaquette
