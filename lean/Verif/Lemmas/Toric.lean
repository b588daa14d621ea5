import Verif.Lemmas.Family

/-!
# The toric code lattice of every size
-/

namespace Plaquette

namespace Toric

/-! ### Wrapped coordinates -/

theorem wrap_eq (m q : Int) (hm : 1 ≤ m) (h0 : 0 ≤ q) (h1 : q ≤ m + 1) :
    (q = 0 ∧ wrapCoord m q = m) ∨ (q = m + 1 ∧ wrapCoord m q = 1) ∨ (1 ≤ q ∧ q ≤ m ∧ wrapCoord m q = q) := by
  unfold wrapCoord
  by_cases h : q = 0
  · left; subst h; simp
  · simp only [h, if_false]
    by_cases h' : q > m
    · rw [if_pos h']; omega
    · rw [if_neg h']; omega

variable {s : Int}

theorem wrap_range (hs : 2 ≤ s) {x d : Int} (hx : 1 ≤ x ∧ x ≤ 2 * s) (hd : d = 0 ∨ d = 1 ∨ d = -1) :
    1 ≤ wrapCoord (2 * s) (x + d) ∧ wrapCoord (2 * s) (x + d) ≤ 2 * s := by
  have := wrap_eq (2 * s) (x + d) (by omega) (by omega) (by omega)
  omega

theorem wrap_zero (hs : 2 ≤ s) {x : Int} (hx : 1 ≤ x ∧ x ≤ 2 * s) : wrapCoord (2 * s) (x + 0) = x := by
  have := wrap_eq (2 * s) (x + 0) (by omega) (by omega) (by omega)
  omega

theorem wrap_par (hs : 2 ≤ s) {x d : Int} (hx : 1 ≤ x ∧ x ≤ 2 * s) (hd : d = 1 ∨ d = -1) :
    wrapCoord (2 * s) (x + d) % 2 = 1 - x % 2 := by
  have := wrap_eq (2 * s) (x + d) (by omega) (by omega) (by omega)
  omega

theorem wrap_ne (hs : 2 ≤ s) {x : Int} (hx : 1 ≤ x ∧ x ≤ 2 * s) : wrapCoord (2 * s) (x + 1) ≠ wrapCoord (2 * s) (x + -1) := by
  have := wrap_eq (2 * s) (x + 1) (by omega) (by omega) (by omega)
  have := wrap_eq (2 * s) (x + -1) (by omega) (by omega) (by omega)
  omega

theorem wrap_inv (hs : 2 ≤ s) {x y d : Int} (hx : 1 ≤ x ∧ x ≤ 2 * s) (hy : 1 ≤ y ∧ y ≤ 2 * s) (hd : d = 1 ∨ d = -1) :
    y = wrapCoord (2 * s) (x + d) ↔ x = wrapCoord (2 * s) (y + -d) := by
  have := wrap_eq (2 * s) (x + d) (by omega) (by omega) (by omega)
  have := wrap_eq (2 * s) (y + -d) (by omega) (by omega) (by omega)
  omega

theorem wrap_step (hs : 2 ≤ s) {x d : Int} (hx : 1 ≤ x ∧ x ≤ 2 * s) (hd : d = 0 ∨ d = 1 ∨ d = -1) :
    stepDir (wrapCoord (2 * s) (x + d) - x) = d := by
  have := wrap_eq (2 * s) (x + d) (by omega) (by omega) (by omega)
  unfold stepDir periodicStep
  split
  · split <;> omega
  · omega

/-! ### The lattice -/

def kind (p : Pos) : Option StabGroup :=
  if p.1 % 2 ≠ p.2 % 2 then none else if p.2 % 2 = 0 then some .A else some .B
def cells (s : Int) : List Pos := (pairs (pyRange 0 (2 * s) 1) (pyRange 0 (2 * s) 1)).map fun p => (p.1 + 1, p.2 + 1)
def nb (s : Int) (p d : Int × Int) : Pos := (wrapCoord (2 * s) (p.1 + d.1), wrapCoord (2 * s) (p.2 + d.2))

def fam (size : Nat) : Fam where
  rows := 2 * size + 2
  cols := 2 * size + 2
  data := dataOf kind (cells size)
  stabs := stabsOf kind (cells size)
  E st := dirEdges crossDirs (fun _ => False) fun d => mkEdge (nb size st.1 d) st.1 (groupLetter st.2)
  logs := [((0, (size : Int)), ['X']), (((size : Int), 2 * (size : Int) + 1), ['Z']), (((size : Int), 0), ['X']), ((2 * (size : Int) + 1, (size : Int)), ['Z'])]
  logE := (pyRange 0 size 1).flatMap fun i => [mkEdge (1, 2 * i + 2) (0, (size : Int)) .X,
    mkEdge (2 * i + 1, 2 * (size : Int)) ((size : Int), 2 * (size : Int) + 1) .Z, mkEdge (2 * i + 2, 1) ((size : Int), 0) .X,
    mkEdge (2 * (size : Int), 2 * i + 1) (2 * (size : Int) + 1, (size : Int)) .Z]

def lat (size : Nat) (order : List (Int × Int)) : Lattice :=
  (fam size).lat (some order.length) (stepEdge (fam size).raw.isStab order)

theorem mem_cells {p : Pos} : p ∈ cells s ↔ 1 ≤ p.1 ∧ p.1 ≤ 2 * s ∧ 1 ≤ p.2 ∧ p.2 ≤ 2 * s := by
  simp only [cells, List.mem_map, mem_pairs, mem_range]
  constructor
  · rintro ⟨q, hq, rfl⟩; simp only; omega
  · intro h; exact ⟨(p.1 - 1, p.2 - 1), by simp only; omega, by simp⟩

theorem kind_none {p : Pos} : kind p = none ↔ p.1 % 2 ≠ p.2 % 2 := by
  unfold kind; split
  · simp_all
  · split <;> simp_all

theorem kind_A {p : Pos} : kind p = some .A ↔ p.1 % 2 = 0 ∧ p.2 % 2 = 0 := by
  unfold kind; split
  · simp; omega
  · split <;> simp <;> omega

theorem kind_B {p : Pos} : kind p = some .B ↔ p.1 % 2 = 1 ∧ p.2 % 2 = 1 := by
  unfold kind; split
  · simp; omega
  · split <;> simp <;> omega

theorem kind_U {p : Pos} : kind p ≠ some .U := by
  unfold kind; split
  · simp
  · split <;> simp

variable {size : Nat}

theorem mem_data {p : Pos} : p ∈ (fam size).data ↔
    1 ≤ p.1 ∧ p.1 ≤ 2 * size ∧ 1 ≤ p.2 ∧ p.2 ≤ 2 * size ∧ p.1 % 2 ≠ p.2 % 2 := by
  show p ∈ dataOf kind (cells size) ↔ _
  rw [mem_dataOf, mem_cells, kind_none]
  omega

theorem mem_stabs {st : Pos × StabGroup} (h : st ∈ (fam size).stabs) :
    (1 ≤ st.1.1 ∧ st.1.1 ≤ 2 * size) ∧ (1 ≤ st.1.2 ∧ st.1.2 ≤ 2 * size) ∧
      ((st.2 = .A ∧ st.1.1 % 2 = 0 ∧ st.1.2 % 2 = 0) ∨ (st.2 = .B ∧ st.1.1 % 2 = 1 ∧ st.1.2 % 2 = 1)) := by
  have h : st ∈ stabsOf kind (cells size) := h
  rw [mem_stabsOf, mem_cells] at h
  refine ⟨by omega, by omega, ?_⟩
  obtain ⟨p, g⟩ := st
  cases g with
  | U => exact absurd h.2 kind_U
  | A => exact Or.inl ⟨rfl, kind_A.mp h.2⟩
  | B => exact Or.inr ⟨rfl, kind_B.mp h.2⟩

theorem cells_nodup (s : Int) : (cells s).Nodup := by
  refine (pairs_nodup (pyRange_nodup (by omega)) (pyRange_nodup (by omega))).map ?_
  intro a b h
  simp only [Prod.mk.injEq] at h
  ext <;> omega

theorem dirs {d : Int × Int} (h : d ∈ crossDirs) : (d.1 = 0 ∧ (d.2 = 1 ∨ d.2 = -1)) ∨ (d.2 = 0 ∧ (d.1 = 1 ∨ d.1 = -1)) := by
  simp only [crossDirs, List.mem_cons, List.not_mem_nil, or_false] at h
  rcases h with rfl | rfl | rfl | rfl <;> simp

theorem mem_E {st : Pos × StabGroup} {e : LEdge} :
    e ∈ (fam size).E st ↔ ∃ d ∈ crossDirs, e = mkEdge (nb size st.1 d) st.1 (groupLetter st.2) := by
  show e ∈ dirEdges _ _ _ ↔ _
  rw [mem_dirEdges]
  simp

theorem mem_logE {e : LEdge} : e ∈ (fam size).logE ↔ ∃ i : Int, 0 ≤ i ∧ i < size ∧
    (e = mkEdge (1, 2 * i + 2) (0, (size : Int)) .X ∨
    e = mkEdge (2 * i + 1, 2 * (size : Int)) ((size : Int), 2 * (size : Int) + 1) .Z ∨
    e = mkEdge (2 * i + 2, 1) ((size : Int), 0) .X ∨
    e = mkEdge (2 * (size : Int), 2 * i + 1) (2 * (size : Int) + 1, (size : Int)) .Z) := by
  show e ∈ (pyRange 0 size 1).flatMap _ ↔ _
  simp only [List.mem_flatMap, mem_range, List.mem_cons, List.not_mem_nil, or_false]
  constructor
  · rintro ⟨i, hi, h⟩; exact ⟨i, hi.1, hi.2, h⟩
  · rintro ⟨i, h1, h2, h⟩; exact ⟨i, ⟨h1, h2⟩, h⟩

theorem nb_ne (h2 : 2 ≤ size) {p : Pos} (h1 : 1 ≤ p.1 ∧ p.1 ≤ 2 * (size : Int)) (h3 : 1 ≤ p.2 ∧ p.2 ≤ 2 * (size : Int)) {a b : Int × Int}
    (ha : a ∈ crossDirs) (hb : b ∈ crossDirs) (h : nb size p a = nb size p b) : a = b := by
  have hs : (2 : Int) ≤ size := by omega
  have e1 := congrArg Prod.fst h
  have e2 := congrArg Prod.snd h
  simp only [nb] at e1 e2
  have f : ∀ d : Int × Int, d ∈ crossDirs → (d.1 = 0 ∨ d.1 = 1 ∨ d.1 = -1) ∧ (d.2 = 0 ∨ d.2 = 1 ∨ d.2 = -1) := by
    intro d hd; have := dirs hd; omega
  have g1 := wrap_step hs h1 (f a ha).1
  have g2 := wrap_step hs h1 (f b hb).1
  have g3 := wrap_step hs h3 (f a ha).2
  have g4 := wrap_step hs h3 (f b hb).2
  rw [e1] at g1
  rw [e2] at g3
  ext
  · exact g1.symm.trans g2
  · exact g3.symm.trans g4

theorem ok (h2 : 2 ≤ size) : (fam size).Ok where
  occ := by
    rw [List.nodup_append, List.nodup_append]
    refine ⟨⟨dataOf_nodup (cells_nodup _), stabsOf_nodup (cells_nodup _), ?_⟩, ?_, ?_⟩
    · rintro p hp q hq rfl
      obtain ⟨st, hst, rfl⟩ := List.mem_map.mp hq
      have := mem_stabs hst
      rw [mem_data] at hp
      omega
    · simp [fam]; omega
    · rintro p hp q hq rfl
      have hr : 1 ≤ p.1 ∧ p.1 ≤ 2 * size ∧ 1 ≤ p.2 ∧ p.2 ≤ 2 * size := by
        rcases List.mem_append.mp hp with hp | hp
        · rw [mem_data] at hp; omega
        · obtain ⟨st, hst, rfl⟩ := List.mem_map.mp hp
          have := mem_stabs hst
          omega
      simp only [fam, List.map_cons, List.map_nil, List.mem_cons, List.not_mem_nil, or_false] at hq
      rcases hq with rfl | rfl | rfl | rfl <;> simp only at hr <;> omega
  inB := by
    intro p hp
    rw [mem_data] at hp
    simp only [fam]
    push_cast
    omega
  Eop := by
    intro st _ e he
    obtain ⟨d, _, rfl⟩ := mem_E.mp he
    rfl
  Edata := by
    intro st hst e he
    obtain ⟨d, hd, rfl⟩ := mem_E.mp he
    obtain ⟨r1, r2, k⟩ := mem_stabs hst
    have hs : (2 : Int) ≤ size := by omega
    rw [mem_data]
    simp only [mkEdge, nb]
    rcases dirs hd with ⟨h0, h1⟩ | ⟨h0, h1⟩
    · have a1 := wrap_range hs r2 (Or.inr h1)
      have a2 := wrap_par hs r2 h1
      have a3 := wrap_zero hs r1
      rw [h0, a3]
      omega
    · have a1 := wrap_range hs r1 (Or.inr h1)
      have a2 := wrap_par hs r1 h1
      have a3 := wrap_zero hs r2
      rw [h0, a3]
      omega
  Enew := by
    intro st _ e he
    obtain ⟨d, _, rfl⟩ := mem_E.mp he
    rfl
  Enodup := by
    intro st hst
    obtain ⟨r1, r2, k⟩ := mem_stabs hst
    exact dirEdges_nodup (by decide) (fun a ha b hb _ _ h => nb_ne h2 r1 r2 ha hb h)
  Lop := by
    intro e he
    obtain ⟨i, _, _, rfl | rfl | rfl | rfl⟩ := mem_logE.mp he <;> simp [fam, mkEdge]
  Ldata := by
    intro e he
    obtain ⟨i, _, _, rfl | rfl | rfl | rfl⟩ := mem_logE.mp he <;> rw [mem_data] <;> simp only [mkEdge] <;> omega
  Lnew := by
    intro e he
    obtain ⟨i, _, _, rfl | rfl | rfl | rfl⟩ := mem_logE.mp he <;> rfl
  Lnodup := by
    show (((pyRange 0 size 1).flatMap _).map LEdge.key).Nodup
    rw [List.map_flatMap, List.nodup_flatMap]
    constructor
    · intro i _
      simp [LEdge.key, mkEdge]
      omega
    · refine (pyRange_nodup (by omega)).imp ?_
      intro a b hab
      rw [Function.onFun, List.disjoint_left]
      intro k h1 h2
      simp only [List.map_cons, List.map_nil, List.mem_cons, List.not_mem_nil, or_false, LEdge.key, mkEdge] at h1 h2
      rcases h1 with rfl | rfl | rfl | rfl <;> rcases h2 with h2 | h2 | h2 | h2 <;> simp at h2 <;> omega

theorem make (h2 : 2 ≤ size) (order : List (Int × Int)) (hord : ∀ d ∈ crossDirs, d ∈ order) :
    toricLattice size order = .ok (lat size order) := by
  have hok := ok h2
  unfold toricLattice
  dsimp only
  have hd : loop2 (fun L i j =>
      if (i + 1) % 2 ≠ (j + 1) % 2 then Lattice.addData L (i + 1, j + 1)
      else if (j + 1) % 2 = 0 then L.addStabgen (i + 1, j + 1) .A
      else L.addStabgen (i + 1, j + 1) .B) (Lattice.empty (2 * size + 2) (2 * size + 2)) (pyRange 0 (2 * (size : Int)) 1)
        (pyRange 0 (2 * (size : Int)) 1) =
      .ok { Lattice.empty (2 * size + 2) (2 * size + 2) with dataqubits := (fam size).data, stabgens := (fam size).stabs } := by
    have := loop_kind kind (cells size) (Lattice.empty (2 * size + 2) (2 * size + 2)) (by
        intro p hp
        rw [mem_cells] at hp
        exact inB_of (2 * size + 2) (2 * size + 2) rfl rfl (by push_cast; omega)) (cells_nodup _)
      (by simp [Lattice.empty, Lattice.occupied])
    rw [loop2_eq]
    refine Eq.trans ?_ this
    rw [cells, loopE_map]
    apply loopE_congr
    intro L p _
    simp only [addCell, kind]
    by_cases h1 : (p.1 + 1) % 2 = (p.2 + 1) % 2
    · by_cases h2 : (p.2 + 1) % 2 = 0
      · simp only [h1, h2, ne_eq, not_true, if_false, if_true]
      · simp only [h1, h2, ne_eq, not_true, if_false]
    · simp only [h1, ne_eq, not_false_eq_true, if_true]
  rw [hd, ok_bind]
  have hst : ∀ L : Lattice, loopE (fun L (st : Pos × StabGroup) => loopE (fun L (d : Int × Int) =>
      Lattice.addEdgeAt L (wrapCoord (2 * (size : Int)) (st.1.1 + d.1), wrapCoord (2 * (size : Int)) (st.1.2 + d.2)) st.1 (groupLetter st.2)) L crossDirs)
        L (fam size).stabs =
      loopE addE L ((fam size).stabs.flatMap (fam size).E) := by
    intro L
    rw [loopE_flatMap]
    apply loopE_congr
    intro L st _
    show _ = loopE addE L (dirEdges _ _ _)
    rw [dirEdges, loopE_filterMap]
    apply loopE_congr
    intro L d _
    rfl
  rw [hst, hok.add_stabEdges _ rfl rfl rfl rfl, ok_bind]
  have hfree : ∀ p : Pos, p ∈ (fam size).logs.map Prod.fst → p ∉ (fam size).data ∧ p ∉ (fam size).stabs.map Prod.fst := by
    intro p hp
    have := (List.nodup_append.mp hok.occ).2.2
    constructor
    · intro hc; exact this p (List.mem_append_left _ hc) p hp rfl
    · intro hc; exact this p (List.mem_append_right _ hc) p hp rfl
  rw [addLogical_ok (p := (0, (size : Int))) _ (inB_of (2 * size + 2) (2 * size + 2) rfl rfl (by simp; omega)) (by
      have := hfree (0, size) (by simp [fam])
      simp only [Lattice.occupied, Lattice.empty, List.map_nil, List.append_nil, List.mem_append, not_or]
      exact this), ok_bind]
  rw [addLogical_ok (p := ((size : Int), 2 * (size : Int) + 1)) _ (inB_of (2 * size + 2) (2 * size + 2) rfl rfl (by simp; omega)) (by
      have := hfree (size, 2 * size + 1) (by simp [fam])
      simp only [Lattice.occupied, Lattice.empty, List.map_nil, List.nil_append, List.map_cons, List.mem_append, not_or]
      refine ⟨this, by simp; omega⟩), ok_bind]
  rw [addLogical_ok (p := ((size : Int), 0)) _ (inB_of (2 * size + 2) (2 * size + 2) rfl rfl (by simp; omega)) (by
      have := hfree (size, 0) (by simp [fam])
      simp only [Lattice.occupied, Lattice.empty, List.nil_append, List.map_cons, List.map_nil, List.cons_append, List.mem_append, not_or]
      refine ⟨this, by simp; omega⟩), ok_bind]
  rw [addLogical_ok (p := (2 * (size : Int) + 1, (size : Int))) _ (inB_of (2 * size + 2) (2 * size + 2) rfl rfl (by simp; omega)) (by
      have := hfree (2 * size + 1, size) (by simp [fam])
      simp only [Lattice.occupied, Lattice.empty, List.nil_append, List.map_cons, List.map_nil, List.cons_append, List.mem_append, not_or]
      refine ⟨this, by simp; omega⟩), ok_bind]
  have hlog : ∀ L : Lattice, loopE (fun L i => do
      let L ← Lattice.addEdgeAt L (1, 2 * i + 2) (0, (size : Int)) .X
      let L ← L.addEdgeAt (2 * i + 1, 2 * (size : Int)) ((size : Int), 2 * (size : Int) + 1) .Z
      let L ← L.addEdgeAt (2 * i + 2, 1) ((size : Int), 0) .X
      L.addEdgeAt (2 * (size : Int), 2 * i + 1) (2 * (size : Int) + 1, (size : Int)) .Z) L (pyRange 0 (size : Int) 1) =
        loopE addE L (fam size).logE := by
    intro L
    show _ = loopE addE L ((pyRange 0 size 1).flatMap _)
    rw [loopE_flatMap]
    apply loopE_congr
    intro L i _
    have : ∀ x : Except Err Lattice, (x >>= fun L => loopE addE L []) = x := by intro x; cases x <;> rfl
    simp only [loopE_cons, this]
    rfl
  rw [hlog, hok.add_logEdges _ rfl rfl rfl rfl, ok_bind]
  rw [assignOrder_ok, ok_bind]
  · rfl
  · intro e he hs
    apply hord
    rw [isStab_iff] at hs
    rcases List.mem_append.mp he with he | he
    · obtain ⟨st, hst, he⟩ := List.mem_flatMap.mp he
      obtain ⟨d, hd, rfl⟩ := mem_E.mp he
      obtain ⟨r1, r2, _⟩ := mem_stabs hst
      have hd' := dirs hd
      have hs2 : (2 : Int) ≤ size := by omega
      simp only [mkEdge, nb]
      rw [wrap_step hs2 r1 (by omega), wrap_step hs2 r2 (by omega)]
      exact hd
    · exact absurd hs (hfree _ (hok.Lop e he)).2

/-! ### Its operators -/

def x0 (s : Int) : List LEdge := lineE s (0, s) (fun i => (1, 2 * i + 2)) (fun _ => .X)
def z0 (s : Int) : List LEdge := lineE s (s, 2 * s + 1) (fun i => (2 * i + 1, 2 * s)) (fun _ => .Z)
def x1 (s : Int) : List LEdge := lineE s (s, 0) (fun i => (2 * i + 2, 1)) (fun _ => .X)
def z1 (s : Int) : List LEdge := lineE s (2 * s + 1, s) (fun i => (2 * s, 2 * i + 1)) (fun _ => .Z)

theorem filter_logs (h2 : 2 ≤ size) :
    (fam size).logE.filter (fun e => e.op = (0, (size : Int))) = x0 size ∧
    (fam size).logE.filter (fun e => e.op = ((size : Int), 2 * (size : Int) + 1)) = z0 size ∧
    (fam size).logE.filter (fun e => e.op = ((size : Int), 0)) = x1 size ∧
    (fam size).logE.filter (fun e => e.op = (2 * (size : Int) + 1, (size : Int))) = z1 size := by
  have a2 : ¬ (0 = (size : Int)) := by omega
  have a3 : ¬ ((size : Int) = 2 * (size : Int) + 1) := by omega
  have a4 : ¬ (2 * (size : Int) + 1 = 0) := by omega
  have a5 : ¬ (0 = 2 * (size : Int) + 1) := by omega
  have a6 : ¬ (2 * (size : Int) + 1 = size) := by omega
  refine ⟨?_, ?_, ?_, ?_⟩ <;>
  · simp only [fam, x0, z0, x1, z1, lineE]
    rw [List.filter_flatMap, ← List.flatMap_pure_eq_map]
    congr 1
    funext i
    simp [mkEdge, a2, a3, a4, a5, a6]

/-- The two coordinates of a neighbour of a cell. -/
theorem nb_cases (h2 : 2 ≤ size) {p : Pos} (r1 : 1 ≤ p.1 ∧ p.1 ≤ 2 * (size : Int)) (r2 : 1 ≤ p.2 ∧ p.2 ≤ 2 * (size : Int)) {d : Int × Int}
    (hd : d ∈ crossDirs) :
    (d.1 = 0 ∧ (d.2 = 1 ∨ d.2 = -1) ∧ nb size p d = (p.1, wrapCoord (2 * size) (p.2 + d.2)) ∧
      wrapCoord (2 * (size : Int)) (p.2 + d.2) % 2 = 1 - p.2 % 2 ∧ 1 ≤ wrapCoord (2 * (size : Int)) (p.2 + d.2) ∧ wrapCoord (2 * (size : Int)) (p.2 + d.2) ≤ 2 * size) ∨
    (d.2 = 0 ∧ (d.1 = 1 ∨ d.1 = -1) ∧ nb size p d = (wrapCoord (2 * size) (p.1 + d.1), p.2) ∧
      wrapCoord (2 * (size : Int)) (p.1 + d.1) % 2 = 1 - p.1 % 2 ∧ 1 ≤ wrapCoord (2 * (size : Int)) (p.1 + d.1) ∧ wrapCoord (2 * (size : Int)) (p.1 + d.1) ≤ 2 * size) := by
  have hs : (2 : Int) ≤ size := by omega
  rcases dirs hd with ⟨h0, h1⟩ | ⟨h0, h1⟩
  · left
    refine ⟨h0, h1, ?_, wrap_par hs r2 h1, wrap_range hs r2 (Or.inr h1)⟩
    rw [nb, h0, wrap_zero hs r1]
  · right
    refine ⟨h0, h1, ?_, wrap_par hs r1 h1, wrap_range hs r1 (Or.inr h1)⟩
    rw [nb, h0, wrap_zero hs r2]

theorem anti_AB (h2 : 2 ≤ size) {a b : Pos × StabGroup} (ha : a ∈ (fam size).stabs) (hb : b ∈ (fam size).stabs) (hA : a.2 = .A) (hB : b.2 = .B) :
    antiE ((fam size).E a) ((fam size).E b) = false := by
  have hs : (2 : Int) ≤ size := by omega
  obtain ⟨ra1, ra2, ka⟩ := mem_stabs ha
  obtain ⟨rb1, rb2, kb⟩ := mem_stabs hb
  rw [hA] at ka
  rw [hB] at kb
  simp only [true_and, reduceCtorEq, false_and, or_false, false_or] at ka kb
  show antiE (dirEdges _ _ _) _ = _
  rw [antiE_dirEdges _ _ _ ((ok h2).Enodup b hb)
    (P := fun d => (d.1 = 0 ∧ b.1.2 = wrapCoord (2 * size) (a.1.2 + d.2) ∧ (b.1.1 = wrapCoord (2 * size) (a.1.1 + 1) ∨ b.1.1 = wrapCoord (2 * size) (a.1.1 + -1))) ∨
      (d.2 = 0 ∧ b.1.1 = wrapCoord (2 * size) (a.1.1 + d.1) ∧ (b.1.2 = wrapCoord (2 * size) (a.1.2 + 1) ∨ b.1.2 = wrapCoord (2 * size) (a.1.2 + -1))))]
  · simp only [crossDirs, xorSum_cons, xorSum_nil, true_and, Bool.xor_false, show ¬ ((1 : Int) = 0) by omega,
      show ¬ ((-1 : Int) = 0) by omega, false_and, or_false, false_or]
    have e1 := wrap_ne hs ra1
    have e2 := wrap_ne hs ra2
    by_cases h1 : b.1.1 = wrapCoord (2 * size) (a.1.1 + 1) <;> by_cases h2 : b.1.1 = wrapCoord (2 * size) (a.1.1 + -1) <;>
      by_cases h3 : b.1.2 = wrapCoord (2 * size) (a.1.2 + 1) <;>
      by_cases h4 : b.1.2 = wrapCoord (2 * size) (a.1.2 + -1) <;>
      first | (exact absurd (h1.symm.trans h2) e1) | (exact absurd (h3.symm.trans h4) e2) | simp only [h1, h2, h3, h4, e1, e2, e1.symm, e2.symm, decide_true, decide_false, and_true, and_false, or_true, or_false, or_self, Bool.xor_false, Bool.xor_true, Bool.not_true, Bool.not_false]
  · intro d hd
    constructor
    · intro h
      refine ⟨id, ?_⟩
      suffices hh : ∃ d' ∈ crossDirs, nb size b.1 d' = nb size a.1 d by
        obtain ⟨d', hd', he⟩ := hh
        exact ⟨mkEdge (nb size b.1 d') b.1 (groupLetter b.2), mem_E.mpr ⟨d', hd', rfl⟩, he, by simp [mkEdge, hA, hB, groupLetter]⟩
      rcases h with ⟨h0, h1, h3⟩ | ⟨h0, h1, h3⟩
      · rcases h3 with h3 | h3
        · refine ⟨(-1, 0), by simp [crossDirs], ?_⟩
          have := (wrap_inv hs ra1 rb1 (Or.inl rfl)).mp h3
          simp only [nb, h0]
          rw [← this, wrap_zero hs rb2, wrap_zero hs ra1, h1]
        · refine ⟨(1, 0), by simp [crossDirs], ?_⟩
          have := (wrap_inv hs ra1 rb1 (Or.inr rfl)).mp h3
          simp only [nb, h0]
          rw [Int.neg_neg] at this
          rw [← this, wrap_zero hs rb2, wrap_zero hs ra1, h1]
      · rcases h3 with h3 | h3
        · refine ⟨(0, -1), by simp [crossDirs], ?_⟩
          have := (wrap_inv hs ra2 rb2 (Or.inl rfl)).mp h3
          simp only [nb, h0]
          rw [← this, wrap_zero hs rb1, wrap_zero hs ra2, h1]
        · refine ⟨(0, 1), by simp [crossDirs], ?_⟩
          have := (wrap_inv hs ra2 rb2 (Or.inr rfl)).mp h3
          simp only [nb, h0]
          rw [Int.neg_neg] at this
          rw [← this, wrap_zero hs rb1, wrap_zero hs ra2, h1]
    · rintro ⟨_, e, he, h1, _⟩
      obtain ⟨d', hd', rfl⟩ := mem_E.mp he
      have h1 : nb size b.1 d' = nb size a.1 d := h1
      rcases nb_cases h2 ra1 ra2 hd with ⟨h0, hpm, hn, hp, _⟩ | ⟨h0, hpm, hn, hp, _⟩ <;>
      rcases nb_cases h2 rb1 rb2 hd' with ⟨h0', hpm', hn', hp', _⟩ | ⟨h0', hpm', hn', hp', _⟩ <;>
      rw [hn, hn', Prod.mk.injEq] at h1
      · omega
      · left
        refine ⟨h0, h1.2, ?_⟩
        have := (wrap_inv hs rb1 ra1 hpm').mp h1.1.symm
        rcases hpm' with h | h <;> rw [h] at this
        · exact Or.inr this
        · exact Or.inl (by rw [Int.neg_neg] at this; exact this)
      · right
        refine ⟨h0, h1.1, ?_⟩
        have := (wrap_inv hs rb2 ra2 hpm').mp h1.2.symm
        rcases hpm' with h | h <;> rw [h] at this
        · exact Or.inr this
        · exact Or.inl (by rw [Int.neg_neg] at this; exact this)
      · omega

/-- A stabiliser against a line with another letter. -/
theorem anti_line {a : Pos × StabGroup} {op : Pos} {pos : Int → Pos} {f : Letter}
    (hpos : ∀ i j, pos i = pos j → i = j) (hf : f ≠ groupLetter a.2) (b : Bool) (P : Prop) [Decidable P]
    (hP : ∀ d ∈ crossDirs, (if b then d.1 = 0 else d.2 = 0) ∧ P ↔ ∃ i, 0 ≤ i ∧ i < (size : Int) ∧ pos i = nb size a.1 d) :
    antiE ((fam size).E a) (lineE size op pos fun _ => f) = false := by
  show antiE (dirEdges _ _ _) _ = _
  rw [antiE_dirEdges _ _ _ (lineE_nodup _ _ _ _ hpos) (P := fun d => (if b then d.1 = 0 else d.2 = 0) ∧ P)]
  · cases b <;> simp [crossDirs]
  · intro d hd
    rw [hP d hd]
    constructor
    · rintro ⟨i, h1, h2, h3⟩
      exact ⟨id, mkEdge (pos i) op f, mem_lineE.mpr ⟨i, h1, h2, rfl⟩, h3, hf⟩
    · rintro ⟨_, e, he, h3, _⟩
      obtain ⟨i, h1, h2, rfl⟩ := mem_lineE.mp he
      exact ⟨i, h1, h2, h3⟩

theorem E_factor {st : Pos × StabGroup} {e : LEdge} (he : e ∈ (fam size).E st) : e.factor = groupLetter st.2 := by
  obtain ⟨d, _, rfl⟩ := mem_E.mp he
  rfl

theorem line_factor {s : Int} {op : Pos} {pos : Int → Pos} {f : Letter} {e : LEdge} (he : e ∈ lineE s op pos fun _ => f) : e.factor = f := by
  obtain ⟨i, _, _, rfl⟩ := mem_lineE.mp he
  rfl

theorem stab_log (h2 : 2 ≤ size) {a : Pos × StabGroup} (ha : a ∈ (fam size).stabs) :
    antiE ((fam size).E a) (x0 size) = false ∧ antiE ((fam size).E a) (z0 size) = false ∧
    antiE ((fam size).E a) (x1 size) = false ∧ antiE ((fam size).E a) (z1 size) = false := by
  obtain ⟨r1, r2, k⟩ := mem_stabs ha
  rcases k with ⟨hg, k1, k2⟩ | ⟨hg, k1, k2⟩
  · refine ⟨?_, ?_, ?_, ?_⟩
    · exact antiE_same_letter .X (fun e he => by rw [E_factor he, hg]; rfl) (fun e he => line_factor he)
    · refine anti_line (fun i j h => by simp at h; exact h) (by rw [hg]; decide) false (a.1.2 = 2 * size) ?_
      intro d hd
      simp only [Bool.false_eq_true, if_false]
      rcases nb_cases h2 r1 r2 hd with ⟨h0, hpm, hn, hp, hr⟩ | ⟨h0, hpm, hn, hp, hr⟩ <;> rw [hn]
      · constructor
        · omega
        · rintro ⟨i, h3, h4, h5⟩; rw [Prod.mk.injEq] at h5; omega
      · constructor
        · intro h
          exact ⟨(wrapCoord (2 * (size : Int)) (a.1.1 + d.1) - 1) / 2, by omega, by omega, by rw [Prod.mk.injEq]; omega⟩
        · rintro ⟨i, h3, h4, h5⟩; rw [Prod.mk.injEq] at h5; omega
    · exact antiE_same_letter .X (fun e he => by rw [E_factor he, hg]; rfl) (fun e he => line_factor he)
    · refine anti_line (fun i j h => by simp at h; exact h) (by rw [hg]; decide) true (a.1.1 = 2 * size) ?_
      intro d hd
      simp only [if_true]
      rcases nb_cases h2 r1 r2 hd with ⟨h0, hpm, hn, hp, hr⟩ | ⟨h0, hpm, hn, hp, hr⟩ <;> rw [hn]
      · constructor
        · intro h
          exact ⟨(wrapCoord (2 * (size : Int)) (a.1.2 + d.2) - 1) / 2, by omega, by omega, by rw [Prod.mk.injEq]; omega⟩
        · rintro ⟨i, h3, h4, h5⟩; rw [Prod.mk.injEq] at h5; omega
      · constructor
        · omega
        · rintro ⟨i, h3, h4, h5⟩; rw [Prod.mk.injEq] at h5; omega
  · refine ⟨?_, ?_, ?_, ?_⟩
    · refine anti_line (fun i j h => by simp at h; exact h) (by rw [hg]; decide) true (a.1.1 = 1) ?_
      intro d hd
      simp only [if_true]
      rcases nb_cases h2 r1 r2 hd with ⟨h0, hpm, hn, hp, hr⟩ | ⟨h0, hpm, hn, hp, hr⟩ <;> rw [hn]
      · constructor
        · intro h
          exact ⟨(wrapCoord (2 * (size : Int)) (a.1.2 + d.2) - 2) / 2, by omega, by omega, by rw [Prod.mk.injEq]; omega⟩
        · rintro ⟨i, h3, h4, h5⟩; rw [Prod.mk.injEq] at h5; omega
      · constructor
        · omega
        · rintro ⟨i, h3, h4, h5⟩; rw [Prod.mk.injEq] at h5; omega
    · exact antiE_same_letter .Z (fun e he => by rw [E_factor he, hg]; rfl) (fun e he => line_factor he)
    · refine anti_line (fun i j h => by simp at h; exact h) (by rw [hg]; decide) false (a.1.2 = 1) ?_
      intro d hd
      simp only [Bool.false_eq_true, if_false]
      rcases nb_cases h2 r1 r2 hd with ⟨h0, hpm, hn, hp, hr⟩ | ⟨h0, hpm, hn, hp, hr⟩ <;> rw [hn]
      · constructor
        · omega
        · rintro ⟨i, h3, h4, h5⟩; rw [Prod.mk.injEq] at h5; omega
      · constructor
        · intro h
          exact ⟨(wrapCoord (2 * (size : Int)) (a.1.1 + d.1) - 2) / 2, by omega, by omega, by rw [Prod.mk.injEq]; omega⟩
        · rintro ⟨i, h3, h4, h5⟩; rw [Prod.mk.injEq] at h5; omega
    · exact antiE_same_letter .Z (fun e he => by rw [E_factor he, hg]; rfl) (fun e he => line_factor he)

theorem log_log (h2 : 2 ≤ size) :
    antiE (x0 size) (z0 size) = true ∧ antiE (x1 size) (z1 size) = true ∧ antiE (x0 size) (z1 size) = false ∧
    antiE (x1 size) (z0 size) = false := by
  refine ⟨?_, ?_, ?_, ?_⟩
  · refine anti_lines (fun i j h => by simp at h; exact h) (size - 1) 0 (by omega) (by omega) (by simp; omega) (by simp) ?_
    intro i j _ _ _ _ h; simp at h; omega
  · refine anti_lines (fun i j h => by simp at h; exact h) (size - 1) 0 (by omega) (by omega) (by simp; omega) (by simp) ?_
    intro i j _ _ _ _ h; simp at h; omega
  · refine antiE_disjoint ?_
    intro a ha b hb
    obtain ⟨i, _, _, rfl⟩ := mem_lineE.mp ha
    obtain ⟨j, _, _, rfl⟩ := mem_lineE.mp hb
    simp [mkEdge]; omega
  · refine antiE_disjoint ?_
    intro a ha b hb
    obtain ⟨i, _, _, rfl⟩ := mem_lineE.mp ha
    obtain ⟨j, _, _, rfl⟩ := mem_lineE.mp hb
    simp [mkEdge]; omega

theorem same_line {s : Int} {op op' : Pos} {pos pos' : Int → Pos} (f : Letter) :
    antiE (lineE s op pos fun _ => f) (lineE s op' pos' fun _ => f) = false :=
  antiE_same_letter f (fun _ he => line_factor he) (fun _ he => line_factor he)

variable (order : List (Int × Int))

theorem wf (h2 : 2 ≤ size) : (lat size order).Wf := (ok h2).wf _ (Fam.keeps_step _ _)

theorem comm (h2 : 2 ≤ size) : (lat size order).Comm := by
  obtain ⟨f1, f2, f3, f4⟩ := filter_logs h2
  refine (ok h2).comm _ (Fam.keeps_step _ _) ?_ ?_ ?_
  · intro a ha b hb
    have same : a.2 = b.2 → antiE ((fam size).E a) ((fam size).E b) = false := fun h =>
      antiE_same_letter (groupLetter a.2) (fun e he => E_factor he) (fun e he => by rw [E_factor he, h])
    rcases (mem_stabs ha).2.2 with ⟨h1, _⟩ | ⟨h1, _⟩ <;> rcases (mem_stabs hb).2.2 with ⟨h3, _⟩ | ⟨h3, _⟩
    · exact same (h1.trans h3.symm)
    · exact anti_AB h2 ha hb h1 h3
    · rw [antiE_symm]; exact anti_AB h2 hb ha h3 h1
    · exact same (h1.trans h3.symm)
  · intro a ha l hl
    obtain ⟨g1, g2, g3, g4⟩ := stab_log h2 ha
    simp only [fam, List.mem_cons, List.not_mem_nil, or_false] at hl
    rcases hl with rfl | rfl | rfl | rfl <;> simp only [f1, f2, f3, f4, g1, g2, g3, g4]
  · obtain ⟨g1, g2, g3, g4⟩ := log_log h2
    have hlog : ∀ (i : Nat) a, (fam size).logs[i]? = some a →
        (i = 0 ∧ (fam size).logE.filter (fun e => e.op = a.1) = x0 size) ∨ (i = 1 ∧ (fam size).logE.filter (fun e => e.op = a.1) = z0 size) ∨
        (i = 2 ∧ (fam size).logE.filter (fun e => e.op = a.1) = x1 size) ∨ (i = 3 ∧ (fam size).logE.filter (fun e => e.op = a.1) = z1 size) := by
      intro i a ha
      match i with
      | 0 => simp [fam] at ha; subst ha; exact Or.inl ⟨rfl, f1⟩
      | 1 => simp [fam] at ha; subst ha; exact Or.inr (Or.inl ⟨rfl, f2⟩)
      | 2 => simp [fam] at ha; subst ha; exact Or.inr (Or.inr (Or.inl ⟨rfl, f3⟩))
      | 3 => simp [fam] at ha; subst ha; exact Or.inr (Or.inr (Or.inr ⟨rfl, f4⟩))
      | i + 4 => simp [fam] at ha
    intro i j a b ha hb
    have xx00 : antiE (x0 size) (x0 size) = false := same_line .X
    have xx01 : antiE (x0 size) (x1 size) = false := same_line .X
    have xx10 : antiE (x1 size) (x0 size) = false := same_line .X
    have xx11 : antiE (x1 size) (x1 size) = false := same_line .X
    have zz00 : antiE (z0 size) (z0 size) = false := same_line .Z
    have zz01 : antiE (z0 size) (z1 size) = false := same_line .Z
    have zz10 : antiE (z1 size) (z0 size) = false := same_line .Z
    have zz11 : antiE (z1 size) (z1 size) = false := same_line .Z
    have s1 : antiE (z0 size) (x0 size) = true := by rw [antiE_symm, g1]
    have s2 : antiE (z1 size) (x1 size) = true := by rw [antiE_symm, g2]
    have s3 : antiE (z1 size) (x0 size) = false := by rw [antiE_symm, g3]
    have s4 : antiE (z0 size) (x1 size) = false := by rw [antiE_symm, g4]
    rcases hlog i a ha with ⟨rfl, e1⟩ | ⟨rfl, e1⟩ | ⟨rfl, e1⟩ | ⟨rfl, e1⟩ <;>
    rcases hlog j b hb with ⟨rfl, e2⟩ | ⟨rfl, e2⟩ | ⟨rfl, e2⟩ | ⟨rfl, e2⟩ <;> rw [e1, e2] <;>
      simp only [xx00, xx01, xx10, xx11, zz00, zz01, zz10, zz11, g1, g2, g3, g4, s1, s2, s3, s4] <;> rfl

theorem length_data : (fam size).data.length = 2 * size ^ 2 := by
  show (dataOf kind (cells size)).length = _
  rw [dataOf_eq, cells, List.filter_map, List.length_map, length_pairs_filter, pyRange_zero (2 * size) _ (by push_cast; omega), List.map_map]
  have : ((fun i : Int => ((List.range (2 * size)).map fun (j : Nat) => (j : Int)).countP fun j =>
      ((fun p : Pos => decide (kind p = none)) ∘ fun p => (p.1 + 1, p.2 + 1)) (i, j)) ∘
      fun (i : Nat) => (i : Int)) = fun i => if i % 2 = 0 then size else size := by
    funext i
    simp only [Function.comp, List.countP_map]
    obtain ⟨c1, c2⟩ := count_parity (2 * size)
    rw [ite_self]
    by_cases hi : i % 2 = 0
    · refine Eq.trans ?_ (c2.trans (by omega))
      apply List.countP_congr
      intro j _
      simp only [kind_none, Function.comp, decide_eq_true_eq]
      omega
    · refine Eq.trans ?_ (c1.trans (by omega))
      apply List.countP_congr
      intro j _
      simp only [kind_none, Function.comp, decide_eq_true_eq]
      omega
  rw [this, sum_parity, show (2 * size + 1) / 2 = size by omega, show (2 * size) / 2 = size by omega]
  ring

theorem length_stabs : (fam size).stabs.length = 2 * size ^ 2 := by
  have h1 := length_data_stabs kind (cells size)
  have h2 : (dataOf kind (cells size)).length = 2 * size ^ 2 := length_data
  show (stabsOf kind (cells size)).length = _
  rw [h2, cells, List.length_map, length_pairs, length_pyRange,
    show (((2 * (size : Int) - 0 + 1 - 1) / 1).toNat) = 2 * size by omega] at h1
  have : 2 * size * (2 * size) = 2 * size ^ 2 + 2 * size ^ 2 := by ring
  rw [cells]
  omega

theorem full (h2 : 2 ≤ size) : (lat size order).Full := by
  obtain ⟨f1, f2, f3, f4⟩ := filter_logs h2
  refine (ok h2).full _ (Fam.keeps_step _ _) ?_ ?_ ?_ ?_ ?_
  · intro a ha h0
    have : mkEdge (nb size a.1 (0, 1)) a.1 (groupLetter a.2) ∈ (fam size).E a := mem_E.mpr ⟨(0, 1), by simp [crossDirs], rfl⟩
    rw [h0] at this
    simp at this
  · intro l hl h0
    have h0 := congrArg List.length h0
    simp only [fam, List.mem_cons, List.not_mem_nil, or_false] at hl
    rcases hl with rfl | rfl | rfl | rfl <;> simp only [f1, f2, f3, f4, x0, x1, z0, z1, length_lineE, List.length_nil] at h0 <;> omega
  · intro h0
    have h1 := length_stabs (size := size)
    rw [h0] at h1
    simp at h1
    omega
  · simp [fam]
  · simp [fam]

end Toric

end Plaquette
