import Verif.Props.FabricationExperiment
import Verif.Props.RateOrder

/-!
# The order of the logical error rate of codes with fabrication errors (C131)
-/

open MeasureTheory
open scoped ENNReal

namespace Plaquette
variable {F : Type}

/-- Lattices with fabrication errors whose edges are all scheduled. -/
theorem fabricated_lattice {L : Lattice} (hL : L.Fabricated) (hsched : L.AllScheduled) {r : Nat} {c : LatCode} (hc : mkLatCode L r = .ok c) :
    c = L.latCode r ∧ L.Wf ∧ L.Comm ∧ L.Full ∧ L.Sched := by
  obtain ⟨hw, hC, hy, _⟩ := fabricated_good hL
  obtain ⟨hf, rfl⟩ := mkLatCode_inv hw hc
  obtain ⟨L0, h0, he⟩ := fabricated_edited hL
  exact ⟨rfl, hw, hC, hf, he.sched h0 hw.keys hy hsched⟩

/-- **C131** The sample of a shot on a code with fabrication errors, where also gates may fail, is that of an experiment in which only data qubits have errors and outcomes are wrong,
and these are at most as many as the errors of the run, when each faulty gate is counted `w (deg + 1)` times. See C83. -/
theorem C131_gate_faults (api : FloatApi F) (rng : Rng F) (r : Nat) (hr : 1 ≤ r) (L : Lattice) (c : LatCode) (hL : L.Fabricated) (hc : mkLatCode L r = .ok c)
    (hsched : L.AllScheduled) (qe ge : List (List Char × ErrDict F)) (sel : LogicalSel) (anc : Bool) (hZ : anc = true ∨ OnlyZ c sel ∧ SameWeight c sel) (w deg : Nat)
    (hS : Sparse c.code.stabilisers w deg) (circ : List (Gate F)) (S0 S : Sim (numberOfQubits circ)) (s : Sample)
    (h : generateCircuit api c qe ge sel anc = .ok circ) (hrun : S0.run api rng circ true = .ok S) (hsam : Sample.fromRaw c S.results.1 S.results.2 anc = .ok s) :
    ∃ E : Faults c.n, E.Gives r sel s ∧
      E.count r c.code.stabilisers.length s.erased ≤ faultWeight c.n (w * (deg + 1)) (S0.reset.trace api rng circ) ∧
      erasures c.n r s.erased ≤ lossCount (S0.reset.trace api rng circ) ∧
      ∀ t q, SynBit s.erased t q → (flagsOf qe).erasure q = true := by
  obtain ⟨rfl, hw, hC, hf, hs⟩ := fabricated_lattice hL hsched hc
  obtain ⟨_, _, _, _, _, is, _, his, _⟩ := gate_circuit hw hs h
  obtain ⟨N, h1, _, h2⟩ := gate_sample hw hC hf hs api rng hr his
    (hZ.imp id fun hz => ⟨letters_z hw hs his hz.1, weights_eq hw his hz.2⟩) ((sparse_iff hw).1 hS) h hrun
  obtain ⟨⟨k1, k2, k3, k4, k5⟩, k6, k7⟩ := h2 s hsam
  have hm' : (L.latCode r).code.stabilisers.length = L.stabgens.length := by simp [Lattice.code]
  refine ⟨N.faults _, faults_give his k1 k2 k3 k4, by rw [hm']; exact k6, k7, fun t q hb => ?_⟩
  obtain ⟨a, row, ha, hrow, hq⟩ := hb
  obtain ⟨s1, s2⟩ := k4 a ha
  have ht : t < r := by rw [← s1]; exact (List.getElem?_eq_some_iff.1 hrow).1
  have hqn : q < L.dataqubits.length := by
    have h' := s2 row (List.mem_of_getElem? hrow)
    have h'' := (List.getElem?_eq_some_iff.1 hq).1
    rw [h'] at h''
    exact h''
  have := (k5 t ht q hqn).1 ⟨a, row, ha, hrow, hq⟩
  by_contra hf'
  rw [h1 t q (.inl (by simpa using hf'))] at this
  cases this

/-- If nothing is erased, the letters and the errors are at most three times the faults. -/
theorem letters_faults {n : Nat} (f : Faults n) (r m : Nat) {erased : Option (List (List Bool))} (hE : ∀ t q, ¬ SynBit erased t q) :
    f.letters r m + f.errors r ≤ 3 * f.count r m erased := by
  have hfin : Set.Finite {p : Nat × Fin n | p.1 < r ∧ ((f.data p.1).x p.2 || (f.data p.1).z p.2) = true ∧ ¬ SynBit erased p.1 p.2} :=
    ((Set.finite_lt_nat r).prod (Set.toFinite (Set.univ : Set (Fin n)))).subset fun p hp => ⟨hp.1, Set.mem_univ _⟩
  have key : ∀ P : Nat → Fin n → Prop, (∀ t q, P t q → ((f.data t).x q || (f.data t).z q) = true) →
      Set.ncard {p : Nat × Fin n | p.1 < r ∧ P p.1 p.2} ≤
        Set.ncard {p : Nat × Fin n | p.1 < r ∧ ((f.data p.1).x p.2 || (f.data p.1).z p.2) = true ∧ ¬ SynBit erased p.1 p.2} :=
    fun P hP => Set.ncard_le_ncard (fun p hp => ⟨hp.1, hP _ _ hp.2, hE _ _⟩) hfin
  have k1 := key (fun t q => (f.data t).x q = true) fun t q h => by simp [h]
  have k2 := key (fun t q => (f.data t).z q = true) fun t q h => by simp [h]
  have k3 := key (fun t q => ((f.data t).x q || (f.data t).z q) = true) fun t q h => h
  unfold Faults.letters Faults.errors Faults.count
  omega

/-- **C131** If `d` is the distance of the code before the fabrication errors, `k` data qubits have been removed and nothing can be erased, shots with fewer than a third of `d - k`
faults are decoded successfully by the matching decoders, where a faulty gate counts `w (deg + 1)` times. -/
theorem C131_success (api : FloatApi F) (rng : Rng F) (r : Nat) (hr : 1 ≤ r) {L L' : Lattice} (h0 : L.CssFabricated) (ha : L.AfterErrors L') (hL : L'.Fabricated)
    {c c' : LatCode} (hc : mkLatCode L r = .ok c) (hc' : mkLatCode L' r = .ok c') {d : Nat} (hd : c.code.HasDistance d) (hsched : L'.AllScheduled) {w deg : Nat}
    (hS : Sparse c'.code.stabilisers w deg) (qe ge : List (List Char × ErrDict F)) (hq : ∀ q < c'.n, (flagsOf qe).erasure q = false) (sel : LogicalSel) (anc : Bool)
    (hZ : anc = true ∨ OnlyZ c' sel ∧ SameWeight c' sel) (circ : List (Gate F)) (S0 S : Sim (numberOfQubits circ)) (s : Sample)
    (h : generateCircuit api c' qe ge sel anc = .ok circ) (hrun : S0.run api rng circ true = .ok S) (hsam : Sample.fromRaw c' S.results.1 S.results.2 anc = .ok s)
    (hfew : 3 * faultWeight c'.n (w * (deg + 1)) (S0.reset.trace api rng circ) + (c.n - c'.n) < d) :
    (∀ solve, IsPyMatching solve → Succeeds (pmBackend solve) c' r sel s) ∧ ∀ solve, IsFusionBlossom solve → Succeeds (fbBackend solve) c' r sel s := by
  obtain ⟨E, hE, e1, -, e3⟩ := C131_gate_faults api rng r hr L' c' hL hc' hsched qe ge sel anc hZ w deg hS circ S0 S s h hrun hsam
  have hno : ∀ t q, ¬ SynBit s.erased t q := by
    intro t q hb
    have hqn : q < c'.n := by
      obtain ⟨a, row, hA, hrow, hbq⟩ := hb
      have h' := (hE.erasedShape a hA).2 row (List.mem_of_getElem? hrow)
      have h'' := (List.getElem?_eq_some_iff.1 hbq).1
      rw [h'] at h''
      exact h''
    have := e3 t q hb
    rw [hq q hqn] at this
    cases this
  have hle := letters_faults E r c'.code.stabilisers.length hno
  have key : ∀ {σ : Type} {b : Backend FW σ} {lossy : Bool}, Fewest lossy b → Succeeds b c' r sel s := by
    intro σ b lossy hb
    obtain ⟨g, hgr⟩ := C124_graph (afterErrors_back h0 ha).1 hc' FW.isInf r
    obtain ⟨states, p, h1, h2, h3⟩ := distance_erased (code := c'.code) (d := d - (c.n - c'.n)) (fun e he => by
      obtain ⟨e0, k1, k2⟩ := C125_lift h0 ha hc hc' e he
      have := hd.least e0 k1
      omega) hgr hb E hE.erasedShape hno hE.shape hE.shows (by omega)
    obtain ⟨rfl, hw, _, hf, hs⟩ := fabricated_lattice hL hsched hc'
    obtain ⟨_, _, _, _, _, is, _, his, _⟩ := gate_circuit hw hs h
    refine succeeds_corrected hf his hE hgr h1 h2 fun op hop => h3 op ?_
    obtain ⟨v, hv, rfl⟩ := List.mem_map.1 hop
    obtain ⟨i, hi, rfl⟩ := List.mem_map.1 hv
    obtain ⟨_, hb⟩ := indices_inv his
    have hn : i.toNat < L'.logicals.length := by have := hb i hi; omega
    have hsel : L'.selPos i = (L'.logicals[i.toNat]).1 := by simp [Lattice.selPos, List.getElem?_eq_getElem hn]
    rw [hsel]
    exact List.mem_map_of_mem (f := fun s => L'.vop s.1) (List.getElem_mem hn)
  exact ⟨fun solve hS => key (pm_fewest hS), fun solve hS => key (fb_fewest hS)⟩

/-- **C131** Experiments on such codes: with `M` error instructions of rates at most `x`, shots fail independently with probability at most `(M choose m) xᵐ`, where `m` is `d - k` divided
by 3 and rounded up; if gates fail, `d - k` divided by `3 w (deg + 1)`. With the Clifford simulator and with Stim. -/
theorem C131_order (r : Nat) (hr : 1 ≤ r) {L L' : Lattice} (h0 : L.CssFabricated) (ha : L.AfterErrors L') (hL : L'.Fabricated)
    {c c' : LatCode} (hc : mkLatCode L r = .ok c) (hc' : mkLatCode L' r = .ok c') {d : Nat} (hd : c.code.HasDistance d) (hsched : L'.AllScheduled) {w deg : Nat} (hw : 1 ≤ w)
    (hS : Sparse c'.code.stabilisers w deg) :
    (∀ solve, IsPyMatching solve → OfOrder (pmBackend solve) c' r (d - (c.n - c'.n)) 3 (w * (deg + 1)) false (fun sel anc => anc = true ∨ OnlyZ c' sel ∧ SameWeight c' sel)) ∧
    ∀ solve, IsFusionBlossom solve → OfOrder (fbBackend solve) c' r (d - (c.n - c'.n)) 3 (w * (deg + 1)) false (fun sel anc => anc = true ∨ OnlyZ c' sel ∧ SameWeight c' sel) := by
  have hK : 1 ≤ w * (deg + 1) := Nat.mul_pos hw (by omega)
  have hon : OnLattice r c' := ⟨L', fabricated_lattice hL hsched hc'⟩
  refine ⟨fun solve hs => ofOrder hon (by omega) hK ?_, fun solve hs => ofOrder hon (by omega) hK ?_⟩
  · intro F api rng qe ge sel anc circ S0 S s he hZ hcirc hrun hsam hlt
    exact (C131_success api rng r hr h0 ha hL hc hc' hd hsched hS qe ge (he rfl) sel anc hZ circ S0 S s hcirc hrun hsam (by omega)).1 solve hs
  · intro F api rng qe ge sel anc circ S0 S s he hZ hcirc hrun hsam hlt
    exact (C131_success api rng r hr h0 ha hL hc hc' hd hsched hS qe ge (he rfl) sel anc hZ circ S0 S s hcirc hrun hsam (by omega)).2 solve hs

/-! ## The hypotheses are met -/

/-- The rotated code of size 5 without the qubit in the corner. -/
def rotatedCorner5 : Except Err Lattice :=
  match rotatedLattice 5 false diagOrder with
  | .ok L => L.applyFabrication [.pos (1, 1)] [] [] none none
  | .error e => .error e

set_option maxRecDepth 100000 in
theorem corner5_run : (match rotatedCorner5 with
    | .ok L => L.isGood && decide (L.dataqubits.length = 24) && decide (scheduleOf L = (some 4, 0)) && decide (∀ a ∈ L.stabgens, (L.opEdges a.1).length ≤ 4) &&
        decide (∀ q ∈ L.dataqubits, ((L.stabgens.map Prod.fst).filter fun a => (L.opEdges a).any fun e => decide (e.data = q)).length ≤ 4)
    | .error _ => false) = true := by decide +kernel

/-- A shot fails with a probability of order at least 2. -/
example (r : Nat) (hr : 1 ≤ r) : ∃ L L' c c', L.CssFabricated ∧ L.AfterErrors L' ∧ L'.Fabricated ∧ mkLatCode L r = .ok c ∧ mkLatCode L' r = .ok c' ∧ c.n = c'.n + 1 ∧
    c.code.HasDistance 5 ∧ L'.AllScheduled ∧ Sparse c'.code.stabilisers 4 4 ∧
    (∀ solve, IsPyMatching solve → ShotsOfOrder (pmBackend solve) c' r 2 false false fun _ anc => anc = true) ∧
    ∀ solve, IsFusionBlossom solve → ShotsOfOrder (fbBackend solve) c' r 2 false false fun _ anc => anc = true := by
  have h := corner5_run
  cases hm : rotatedCorner5 with
  | error e => rw [hm] at h; simp at h
  | ok L' =>
    rw [hm] at h
    simp only [Bool.and_eq_true, decide_eq_true_eq, scheduleOf, Prod.mk.injEq] at h
    obtain ⟨⟨⟨⟨hgood, hn⟩, -, hcount⟩, hwt⟩, hdeg⟩ := h
    obtain ⟨hw, _, hf⟩ := isGood_spec hgood
    unfold rotatedCorner5 at hm
    cases h0 : rotatedLattice 5 false diagOrder with
    | error e => rw [h0] at hm; simp at hm
    | ok L =>
      rw [h0] at hm
      obtain ⟨c, hc, hd⟩ := C60_rotated r 5 false (by omega)
      rw [makeRotated, h0] at hc
      have hc : mkLatCode L r = .ok c := hc
      have hcn : c.n = 25 := by
        obtain ⟨-, rfl⟩ := mkLatCode_inv (cssFabricated_wf (.rotated (by omega) h0)) hc
        have h1 := h0
        rw [Rotated.make (by omega) diagOrder (by decide), Except.ok.injEq] at h1
        subst h1
        show (Rotated.lat 5 false diagOrder).dataqubits.length = 25
        decide +kernel
      have hn' : (L'.latCode r).n = 24 := hn
      have hcss : L.CssFabricated := .rotated (by omega) h0
      have haft : L.AfterErrors L' := .errors .none (Or.inl rfl) hm
      have hfab : L'.Fabricated := .errors (.rotated (by omega) h0) (Or.inl rfl) (Or.inl rfl) hm
      have hc' := mkLatCode_ok hw hf r
      have hsch : L'.AllScheduled := Or.inr fun e he hs hn => by
        have := (List.countP_eq_zero.mp hcount) e he
        simp [hs, hn] at this
      have hS : Sparse (L'.latCode r).code.stabilisers 4 4 := by
        refine (sparse_iff hw).2 ⟨fun a ha => ?_, fun q hq => degree_le hw hq ?_⟩
        · obtain ⟨st, hst, rfl⟩ := List.mem_map.1 ha
          exact hwt st hst
        · refine ⟨_, (List.toFinset_card_le _).trans (hdeg _ (List.getElem_mem hq)), fun st hst e he hd => ?_⟩
          rw [List.mem_toFinset, List.mem_filter, List.any_eq_true]
          exact ⟨List.mem_map_of_mem hst, e, he, decide_eq_true hd⟩
      obtain ⟨m1, m2⟩ := C131_order r hr hcss haft hfab hc hc' hd hsch (by omega) hS
      rw [hcn, hn'] at m1 m2
      refine ⟨L, L', c, _, hcss, haft, hfab, hc, hc', by rw [hcn, hn'], hd, hsch, hS, fun solve hs => ?_, fun solve hs => ?_⟩
      · intro F api qe ge sel anc circ S0 Ω _ μ _ prob past rng x hF he hg hsel hcirc hrate
        exact (m1 solve hs).1.1 F api qe ge sel anc circ S0 Ω μ prob past rng x hF he hg (.inl hsel) hcirc hrate
      · intro F api qe ge sel anc circ S0 Ω _ μ _ prob past rng x hF he hg hsel hcirc hrate
        exact (m2 solve hs).1.1 F api qe ge sel anc circ S0 Ω μ prob past rng x hF he hg (.inl hsel) hcirc hrate

end Plaquette
