import Verif.Lemmas.LatticeCode

/-!
# Lattices that are checked by evaluation
-/

namespace Plaquette

/-- A decision procedure for the conditions on a lattice. -/
def Lattice.isGood (L : Lattice) : Bool :=
  decide (L.occupied.Nodup) && decide (L.indexed = L.occupied) && decide ((L.edges.map LEdge.key).Nodup) &&
  L.edges.all (fun e => decide (e.data ∈ L.dataqubits)) &&
  L.stabgens.all (fun s => L.stabgens.all fun t => antiE (L.opEdges s.1) (L.opEdges t.1) == false) &&
  L.stabgens.all (fun s => L.logicals.all fun t => antiE (L.opEdges s.1) (L.opEdges t.1) == false) &&
  L.logicals.zipIdx.all (fun a => L.logicals.zipIdx.all fun b =>
    antiE (L.opEdges a.1.1) (L.opEdges b.1.1) == decide (a.2 / 2 = b.2 / 2 ∧ a.2 ≠ b.2)) &&
  L.stabgens.all (fun s => !(L.opEdges s.1).isEmpty) && L.logicals.all (fun s => !(L.opEdges s.1).isEmpty) &&
  !L.stabgens.isEmpty && !L.logicals.isEmpty && decide (L.logicals.length % 2 = 0)

theorem isGood_spec {L : Lattice} (h : L.isGood = true) : L.Wf ∧ L.Comm ∧ L.Full := by
  simp only [Lattice.isGood, Bool.and_eq_true, decide_eq_true_eq, List.all_eq_true, beq_iff_eq, Bool.not_eq_true',
    List.isEmpty_eq_false_iff] at h
  obtain ⟨⟨⟨⟨⟨⟨⟨⟨⟨⟨⟨h1, h2⟩, h3⟩, h4⟩, h5⟩, h6⟩, h7⟩, h8⟩, h9⟩, h10⟩, h11⟩, h12⟩ := h
  refine ⟨⟨h1, h2, h3, h4⟩, ⟨h5, h6, ?_⟩, ⟨h8, h9, h10, h11, h12⟩⟩
  intro i j a b ha hb
  exact h7 (a, i) (List.mem_zipIdx_iff_getElem?.mpr ha) (b, j) (List.mem_zipIdx_iff_getElem?.mpr hb)

/-- Evaluation of a constructor. -/
def goodResult (x : Except Err Lattice) : Bool :=
  match x with
  | .ok L => L.isGood
  | .error _ => false

theorem goodResult_spec {x : Except Err Lattice} (h : goodResult x = true) : ∃ L, x = .ok L ∧ L.Wf ∧ L.Comm ∧ L.Full := by
  cases x with
  | error e => simp [goodResult] at h
  | ok L => exact ⟨L, rfl, isGood_spec h⟩

set_option maxRecDepth 100000 in
theorem five_good : goodResult fiveQubitLattice = true := by decide +kernel

set_option maxRecDepth 100000 in
theorem shor_good : goodResult shorLattice = true := by decide +kernel

/-- No letter Y. -/
def lettersXZ (x : Except Err Lattice) : Bool :=
  match x with
  | .ok L => decide (∀ e ∈ L.edges, e.factor ≠ .Y) && decide (L.keepGauge = "none".toList) && !L.boundaryJoin
  | .error _ => true

set_option maxRecDepth 100000 in
theorem five_letters : lettersXZ fiveQubitLattice = true := by decide +kernel

set_option maxRecDepth 100000 in
theorem shor_letters : lettersXZ shorLattice = true := by decide +kernel

end Plaquette
