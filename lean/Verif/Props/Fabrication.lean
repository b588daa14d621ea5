import Verif.Lemmas.FabricationQubit
import Verif.Props.Codes

/-!
# Properties of fabrication errors (C31, C48, C54)
-/

namespace Plaquette

/-- The converse of `code_valid`. -/
theorem comm_of_valid {L : Lattice} (h : L.Wf) (hv : L.code.Valid) : L.Comm where
  stab_stab s hs t ht := by
    rw [← h.anti_vop, ← commutes_iff]
    exact hv.stab_stab _ (List.mem_map_of_mem hs) _ (List.mem_map_of_mem ht)
  stab_log s hs t ht := by
    rw [← h.anti_vop, ← commutes_iff]
    exact hv.stab_log _ (List.mem_map_of_mem hs) _ (List.mem_map_of_mem ht)
  log_log i j a b hi hj := by
    have := hv.log_log i j (L.vop a.1) (L.vop b.1) (by simp [Lattice.code, hi]) (by simp [Lattice.code, hj])
    rw [← h.anti_vop]
    by_cases hd : i / 2 = j / 2 ∧ i ≠ j
    · rw [if_pos hd, anticommutes_iff] at this
      rw [this, decide_eq_true hd]
    · rw [if_neg hd, commutes_iff] at this
      rw [this, decide_eq_false hd]

/-! ### The letters of the lattices -/

theorem groupLetter_ne (g : StabGroup) : groupLetter g ≠ .Y := by cases g <;> simp [groupLetter]

theorem Fam.letters {F : Fam} {t : Option Nat} {g : LEdge → LEdge} (hg : Fam.Keeps g) (hE : ∀ st, ∀ e ∈ F.E st, e.factor ≠ .Y)
    (hL : ∀ e ∈ F.logE, e.factor ≠ .Y) : ∀ e ∈ (F.lat t g).edges, e.factor ≠ .Y := by
  intro e he
  rw [Fam.lat_edges] at he
  obtain ⟨e', he', rfl⟩ := List.mem_map.mp he
  rw [(hg.df _).2]
  rcases List.mem_append.mp he' with he' | he'
  · obtain ⟨st, _, he'⟩ := List.mem_flatMap.mp he'
    exact hE st e' he'
  · exact hL e' he'

theorem dirEdges_letters {α : Type} {ds : List α} {skip : α → Prop} [DecidablePred skip] {mk : α → LEdge}
    (h : ∀ d ∈ ds, (mk d).factor ≠ .Y) : ∀ e ∈ dirEdges ds skip mk, e.factor ≠ .Y := by
  intro e he
  unfold dirEdges at he
  obtain ⟨d, hd, he⟩ := List.mem_filterMap.mp he
  split at he
  · simp at he
  · cases he; exact h d hd

theorem Planar.letters (size : Nat) (order : List (Int × Int)) : ∀ e ∈ (Planar.lat size order).edges, e.factor ≠ .Y := by
  intro e he
  have he : e ∈ (Planar.rawEdges size).map (stepEdge (Planar.raw size).isStab order) := he
  obtain ⟨e', he', rfl⟩ := List.mem_map.mp he
  rw [(stepEdge_df _ _ _).2]
  rcases List.mem_append.mp he' with he' | he'
  · obtain ⟨st, _, he'⟩ := List.mem_flatMap.mp he'
    obtain ⟨d, _, he'⟩ := List.mem_filterMap.mp he'
    unfold Planar.dirEdge at he'
    split at he'
    · simp at he'
    · cases he'; exact groupLetter_ne _
  · obtain ⟨i, _, he'⟩ := List.mem_flatMap.mp he'
    simp only [List.mem_cons, List.not_mem_nil, or_false] at he'
    rcases he' with rfl | rfl <;> simp [mkEdge]

theorem Toric.letters (size : Nat) (order : List (Int × Int)) : ∀ e ∈ (Toric.lat size order).edges, e.factor ≠ .Y := by
  refine Fam.letters (Fam.keeps_step _ _) ?_ ?_
  · intro st
    exact dirEdges_letters fun d _ => groupLetter_ne _
  · intro e he
    obtain ⟨i, _, he⟩ := List.mem_flatMap.mp he
    simp only [List.mem_cons, List.not_mem_nil, or_false] at he
    rcases he with rfl | rfl | rfl | rfl <;> simp [mkEdge]

theorem Rotated.letters (size : Nat) (xzzx : Bool) (order : List (Int × Int)) :
    ∀ e ∈ (Rotated.lat size xzzx order).edges, e.factor ≠ .Y := by
  refine Fam.letters ?_ ?_ ?_
  · exact ⟨fun e => ((Rotated.invE_keeps _).op _).trans (stepEdge_op _ _ e),
      fun e => ⟨((Rotated.invE_keeps _).df _).1.trans (stepEdge_df _ _ e).1,
        ((Rotated.invE_keeps _).df _).2.trans (stepEdge_df _ _ e).2⟩⟩
  · intro st
    refine dirEdges_letters ?_
    intro d hd
    show Rotated.letter xzzx st.2 d ≠ .Y
    unfold Rotated.letter
    split
    · revert d; decide
    · exact groupLetter_ne _
  · intro e he
    obtain ⟨i, _, he⟩ := List.mem_flatMap.mp he
    simp only [List.mem_cons, List.not_mem_nil, or_false] at he
    rcases he with rfl | rfl
    · simp only [mkEdge, Rotated.xLetter]; split <;> simp
    · simp only [mkEdge, Rotated.zLetter]; split <;> simp

theorem Rep.letters (size : Nat) : ∀ e ∈ (Rep.lat size).edges, e.factor ≠ .Y := by
  intro e he
  have he : e ∈ (Rep.stabCells size).flatMap Rep.stabEdges ++ Rep.xEdges size ++ Rep.zEdges size := he
  rcases List.mem_append.mp he with he | he
  · rcases List.mem_append.mp he with he | he
    · obtain ⟨i, _, he⟩ := List.mem_flatMap.mp he
      simp only [Rep.stabEdges, List.mem_cons, List.not_mem_nil, or_false] at he
      rcases he with rfl | rfl <;> simp [mkEdge]
    · obtain ⟨i, _, rfl⟩ := List.mem_map.mp he
      simp [mkEdge]
  · simp only [Rep.zEdges, List.mem_cons, List.not_mem_nil, or_false] at he
    rcases he with rfl
    simp [mkEdge]

/-! ### C31: fabrication errors keep the code valid -/

/-- Fabrication errors (with the default handling) on any well-formed lattice without Y turn a valid code into a valid
code. -/
theorem C31_step {L L' : Lattice} (hw : L.Wf) (hy : ∀ e ∈ L.edges, e.factor ≠ .Y) {r : Nat} {c c' : LatCode}
    (hc : mkLatCode L r = .ok c) (hv : c.code.Valid) {qubits : List VertexRef} {gates : List (VertexRef × VertexRef)}
    {stabs : List VertexRef} (hg : L.keepGauge = "none".toList) (hj : L.boundaryJoin = false)
    (h : L.applyFabrication qubits gates stabs none none = .ok L') (hc' : mkLatCode L' r = .ok c') : c'.code.Valid := by
  obtain ⟨_, rfl⟩ := mkLatCode_inv hw hc
  obtain ⟨hw', hC', _⟩ := applyFabrication_spec hw (comm_of_valid hw hv) hy (kg := none) (bj := none) hg hj h
  obtain ⟨_, rfl⟩ := mkLatCode_inv hw' hc'
  exact code_valid hw' hC'

theorem fabricated_good {L : Lattice} (h : L.Fabricated) :
    L.Wf ∧ L.Comm ∧ (∀ e ∈ L.edges, e.factor ≠ .Y) ∧ L.keepGauge = "none".toList ∧ L.boundaryJoin = false := by
  induction h with
  | planar h2 h =>
    rw [Planar.make _ h2 crossOrder (by decide), Except.ok.injEq] at h
    subst h
    exact ⟨Planar.wf _ _ (by omega), Planar.comm _ _ (by omega), Planar.letters _ _, rfl, rfl⟩
  | toric h2 h =>
    rw [Toric.make h2 crossOrder (by decide), Except.ok.injEq] at h
    subst h
    exact ⟨Toric.wf _ h2, Toric.comm _ h2, Toric.letters _ _, rfl, rfl⟩
  | rotated h2 h =>
    rw [Rotated.make h2 diagOrder (by decide), Except.ok.injEq] at h
    subst h
    exact ⟨Rotated.wf _ h2, Rotated.comm _ h2, Rotated.letters _ _ _, rfl, rfl⟩
  | @repetition size L h3 h =>
    by_cases hodd : size % 2 = 1
    · rw [Rep.make size hodd h3, Except.ok.injEq] at h
      subst h
      exact ⟨Rep.wf size h3, Rep.comm size h3, Rep.letters size, rfl, rfl⟩
    · rw [repetitionLattice, if_pos hodd] at h
      simp at h
  | five h =>
    obtain ⟨L', h', hw, hc, _⟩ := goodResult_spec five_good
    have hl := five_letters
    rw [h] at h' hl
    cases h'
    simp only [lettersXZ, Bool.and_eq_true, decide_eq_true_eq, Bool.not_eq_true'] at hl
    exact ⟨hw, hc, hl.1.1, hl.1.2, hl.2⟩
  | shor h =>
    obtain ⟨L', h', hw, hc, _⟩ := goodResult_spec shor_good
    have hl := shor_letters
    rw [h] at h' hl
    cases h'
    simp only [lettersXZ, Bool.and_eq_true, decide_eq_true_eq, Bool.not_eq_true'] at hl
    exact ⟨hw, hc, hl.1.1, hl.1.2, hl.2⟩
  | errors _ hkg hbj h ih =>
    obtain ⟨hw, hc, hy, hg, hj⟩ := ih
    obtain ⟨hw', hc', hy', hg', hj', _⟩ := applyFabrication_spec hw hc hy
      (by rcases hkg with rfl | rfl; exacts [hg, rfl]) (by rcases hbj with rfl | rfl; exacts [hj, rfl]) h
    exact ⟨hw', hc', hy', hg', hj'⟩

/-- Any sequence of fabrication errors on any of the codes leaves a valid code (if there is one). -/
theorem C31_fabrication {L : Lattice} (h : L.Fabricated) (r : Nat) {c : LatCode} (hc : mkLatCode L r = .ok c) :
    c.code.Valid := by
  obtain ⟨hw, hC, _⟩ := fabricated_good h
  obtain ⟨_, rfl⟩ := mkLatCode_inv hw hc
  exact code_valid hw hC

/-- The fabrication error of the examples: the qubit in the middle of the planar code of size 3. -/
def middleGone (kg : Option (List Char)) (bj : Option Bool) (p : Pos) : Except Err Lattice :=
  match planarLattice 3 crossOrder with
  | .ok L => L.applyFabrication [.pos p] [] [] kg bj
  | .error e => .error e

set_option maxRecDepth 100000 in
theorem middle_good : (match middleGone none none (2, 2) with
    | .ok L => L.isGood && decide (L.dataqubits.length = 12) && decide (L.stabgens.length = 10)
    | .error _ => false) = true := by decide +kernel

theorem middle_ok : ∃ L, middleGone none none (2, 2) = .ok L ∧ L.Wf ∧ L.Full ∧ L.dataqubits.length = 12 ∧
    L.stabgens.length = 10 := by
  have h := middle_good
  cases hm : middleGone none none (2, 2) with
  | error e => rw [hm] at h; simp at h
  | ok L =>
    rw [hm] at h
    simp only [Bool.and_eq_true, decide_eq_true_eq] at h
    obtain ⟨hw, _, hf⟩ := isGood_spec h.1.1
    exact ⟨L, rfl, hw, hf, h.1.2, h.2⟩

/-- Non-vacuity: a data qubit can be removed from the planar code; two pairs of stabilisers are merged and there is a code. -/
example : ∃ L c, L.Fabricated ∧ mkLatCode L 1 = .ok c ∧ c.n = 12 ∧ c.code.stabilisers.length = 10 := by
  obtain ⟨L, hL, hw, hf, hn, hs⟩ := middle_ok
  have hmk : planarLattice 3 crossOrder = .ok (Planar.lat 3 crossOrder) := Planar.make 3 (by omega) crossOrder (by decide)
  refine ⟨L, _, ?_, mkLatCode_ok hw hf 1, hn, ?_⟩
  · refine .errors (qubits := [.pos (2, 2)]) (gates := []) (stabs := []) (kg := none) (bj := none)
      (.planar (size := 3) (by omega) hmk) (Or.inl rfl) (Or.inl rfl) ?_
    rw [← hL, middleGone, hmk]
  · simpa [Lattice.code] using hs

/-! ### C54: joining stabilisers at the boundary -/

/-- With `boundary_join=True` the code stays valid as well. -/
def C54_statement : Prop :=
  ∀ (L L' : Lattice) (qubits : List VertexRef) (gates : List (VertexRef × VertexRef)) (stabs : List VertexRef) (r : Nat)
    (c c' : LatCode), L.Fabricated → mkLatCode L r = .ok c → L.applyFabrication qubits gates stabs none (some true) = .ok L' →
    mkLatCode L' r = .ok c' → c'.code.Valid

set_option maxRecDepth 100000 in
theorem corner_bad : (match middleGone none (some true) (0, 0) with
    | .ok L => decide (L.occupied.Nodup) && decide (L.indexed = L.occupied) && decide ((L.edges.map LEdge.key).Nodup) &&
        L.edges.all (fun e => decide (e.data ∈ L.dataqubits)) &&
        L.stabgens.all (fun s => !(L.opEdges s.1).isEmpty) && L.logicals.all (fun s => !(L.opEdges s.1).isEmpty) &&
        !L.stabgens.isEmpty && !L.logicals.isEmpty && decide (L.logicals.length % 2 = 0) &&
        !(L.stabgens.all fun s => L.stabgens.all fun t => antiE (L.opEdges s.1) (L.opEdges t.1) == false)
    | .error _ => false) = true := by decide +kernel

/-- At a corner of the planar code (one X and one Z stabiliser, both of which lose the qubit) two of the stabilisers do not
commute afterwards. -/
theorem C54_boundary_join_counterexample : ¬ C54_statement := by
  intro hst
  have h := corner_bad
  cases hm : middleGone none (some true) (0, 0) with
  | error e => rw [hm] at h; simp at h
  | ok L =>
    rw [hm] at h
    simp only [Bool.and_eq_true, decide_eq_true_eq, List.all_eq_true, Bool.not_eq_true',
      List.isEmpty_eq_false_iff] at h
    obtain ⟨⟨⟨⟨⟨⟨⟨⟨⟨h1, h2⟩, h3⟩, h4⟩, h5⟩, h6⟩, h7⟩, h8⟩, h9⟩, h10⟩ := h
    have hw : L.Wf := ⟨h1, h2, h3, h4⟩
    have hmk : planarLattice 3 crossOrder = .ok (Planar.lat 3 crossOrder) := Planar.make 3 (by omega) crossOrder (by decide)
    have hv := hst _ L [.pos (0, 0)] [] [] 1 _ _ (.planar (size := 3) (by omega) hmk)
      (mkLatCode_ok (Planar.wf 3 _ (by omega)) (Planar.full 3 _ (by omega)) 1)
      (by rw [← hm, middleGone, hmk]) (mkLatCode_ok hw ⟨h5, h6, h7, h8, h9⟩ 1)
    have hC := comm_of_valid hw hv
    have : (L.stabgens.all fun s => L.stabgens.all fun t => antiE (L.opEdges s.1) (L.opEdges t.1) == false) = true := by
      simp only [List.all_eq_true, beq_iff_eq]
      exact hC.stab_stab
    rw [this] at h10
    simp at h10

/-! ### C48: the code object after fabrication errors -/

/-- The code is the code of its lattice. -/
def C48_statement : Prop :=
  ∀ (c c' : LatCode) (qubits : List VertexRef) (gates : List (VertexRef × VertexRef)) (stabs : List VertexRef)
    (kg : Option (List Char)) (bj : Option Bool), mkLatCode c.lattice c.nRounds = .ok c →
    c.applyFabrication qubits gates stabs kg bj = .ok c' → (∃ d, mkLatCode c'.lattice c'.nRounds = .ok d) →
    mkLatCode c'.lattice c'.nRounds = .ok c'

/-- The qubits, stabilisers and logical operators of the code object are not updated. -/
theorem C48_fabrication_counterexample : ¬ C48_statement := by
  intro hst
  obtain ⟨L, hL, hw, hf, hn, _⟩ := middle_ok
  have hmk : planarLattice 3 crossOrder = .ok (Planar.lat 3 crossOrder) := Planar.make 3 (by omega) crossOrder (by decide)
  have hc := mkLatCode_ok (Planar.wf 3 crossOrder (by omega)) (Planar.full 3 crossOrder (by omega)) 1
  have hL' : (Planar.lat 3 crossOrder).applyFabrication [.pos (2, 2)] [] [] none none = .ok L := by
    rw [← hL, middleGone, hmk]
  have h := hst { lattice := Planar.lat 3 crossOrder, nRounds := 1, n := _, code := (Planar.lat 3 crossOrder).code }
    { lattice := L, nRounds := 1, n := _, code := (Planar.lat 3 crossOrder).code } [.pos (2, 2)] [] [] none none hc
    (by unfold LatCode.applyFabrication; rw [hL']) ⟨_, mkLatCode_ok hw hf 1⟩
  obtain ⟨_, h⟩ := mkLatCode_inv hw h
  have h := congrArg LatCode.n h
  simp only at h
  rw [hn] at h
  revert h
  decide +kernel

/-- What holds: the lattice of the code object is the lattice with the errors, and everything else stays as it was. -/
theorem C48_fabrication_partial (c c' : LatCode) (qubits : List VertexRef) (gates : List (VertexRef × VertexRef))
    (stabs : List VertexRef) (kg : Option (List Char)) (bj : Option Bool)
    (h : c.applyFabrication qubits gates stabs kg bj = .ok c') :
    c.lattice.applyFabrication qubits gates stabs kg bj = .ok c'.lattice ∧ c'.nRounds = c.nRounds ∧
      (⟨c'.n, c'.code⟩ : (n : Nat) × StabCode n) = ⟨c.n, c.code⟩ := by
  unfold LatCode.applyFabrication at h
  split at h
  · simp at h
  · rename_i L hL
    simp only [Except.ok.injEq] at h
    subst h
    exact ⟨hL, rfl, rfl⟩

end Plaquette
