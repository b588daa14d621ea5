import Verif.Props.Fabrication
import Verif.Props.Generator
import Verif.Lemmas.FabricationSchedule

/-!
# C123: the circuits of codes with fabrication errors

`create_superstab` adds edges without a time step (`latticebase.py:631-638`, `add_edge`), and `measure_stabgens_pl`
(`generator.py:293-324`) applies the edges with the time steps `0, 1, …` only.
-/

namespace Plaquette
variable {F : Type}

/-- **C123 (full statement)**: without errors of the qubits and gates, the circuit of a code with fabrication errors (with
the default handling) has no syndrome events and no logical toggles, if the logical operators are measured with ancillas. -/
def C123_statement : Prop := ∀ (F : Type) (api : FloatApi F) (rng : Rng F) (pos r : Nat) (L : Lattice) (c : LatCode)
  (sel : LogicalSel) (circ : List (Gate F)), 1 ≤ r → L.Fabricated → mkLatCode L r = .ok c →
  generateCircuit api c [] [] sel true = .ok circ → NoEvents api rng pos r c circ true

/-- The rotated planar code of size 3 without the data qubit in the middle. -/
def rotatedHole : Except Err Lattice :=
  match rotatedLattice 3 false diagOrder with
  | .ok L => L.applyFabrication [.pos (3, 3)] [] [] none none
  | .error e => .error e

/-- Random bits for the counterexample. -/
def holeBits : List Bool := (List.range 40).map fun j => (j * 2 + j * j / 3) % 2 == 1

set_option maxRecDepth 100000 in
theorem hole_run : (match rotatedHole with
    | .ok L => L.isGood && (match toggles natApi (rngBits holeBits) (L.latCode 1) (.str "Z".toList) true with
      | .ok res => res.2.any fun l => l.any id
      | .error _ => false)
    | .error _ => false) = true := by decide +kernel

theorem syndrome_of {F : Type} {api : FloatApi F} {rng : Rng F} {r : Nat} {c : LatCode} {sel : LogicalSel} {anc : Bool}
    (h : ∀ circ, generateCircuit api c [] [] sel anc = .ok circ → NoEvents api rng 0 r c circ anc) {res : List Bool × List (List Bool)}
    (hr : toggles api rng c sel anc = .ok res) : res.2 = List.replicate r (List.replicate c.code.stabilisers.length false) := by
  unfold toggles at hr
  cases hg : generateCircuit api c [] [] sel anc with
  | error e => rw [hg] at hr; cases hr
  | ok circ =>
    obtain ⟨S, s, h1, h2, h3, _⟩ := h circ hg
    rw [hg] at hr
    dsimp only at hr
    rw [h1] at hr
    dsimp only at hr
    rw [h2] at hr
    dsimp only at hr
    simp only [Except.ok.injEq] at hr
    rw [← hr]
    exact h3

theorem hole_fabricated {L : Lattice} (hm : rotatedHole = .ok L) : L.Fabricated := by
  unfold rotatedHole at hm
  cases h : rotatedLattice 3 false diagOrder with
  | error e => rw [h] at hm; simp at hm
  | ok L0 =>
    rw [h] at hm
    exact .errors (.rotated (size := 3) (by omega) h) (Or.inl rfl) (Or.inl rfl) hm

/-- **C123 fails**: the data qubit in the middle of the rotated planar code of size 3 is removed and the two X and the two Z
stabilisers at it are joined. The edges that come from the second stabiliser are not measured, the two measured operators
do not commute with each other, and in a run without any error there are syndrome events. -/
theorem C123_hole_counterexample : ¬ C123_statement := by
  intro hst
  have h := hole_run
  cases hm : rotatedHole with
  | error e => rw [hm] at h; simp at h
  | ok L =>
    rw [hm] at h
    simp only [Bool.and_eq_true] at h
    obtain ⟨hg, ht⟩ := h
    obtain ⟨hw, _, hf⟩ := isGood_spec hg
    cases hr : toggles natApi (rngBits holeBits) (L.latCode 1) (.str "Z".toList) true with
    | error e => rw [hr] at ht; simp at ht
    | ok res =>
      rw [hr] at ht
      have := syndrome_of (fun circ hc => hst Nat natApi (rngBits holeBits) 0 1 L (L.latCode 1) _ circ (le_refl 1)
        (hole_fabricated hm) (mkLatCode_ok hw hf 1) hc) hr
      simp only [this, List.any_eq_true, id_eq] at ht
      obtain ⟨l, hl, b, hb, ht⟩ := ht
      rw [List.eq_of_mem_replicate hl] at hb
      rw [List.eq_of_mem_replicate hb] at ht
      simp at ht

/-- All edges of the stabilisers are in the schedule, or there is none and the stabilisers are measured one after the
other. -/
def Lattice.AllScheduled (L : Lattice) : Prop :=
  L.timeSteps = none ∨ ∀ e ∈ L.edges, L.isStab e.op = true → e.step ≠ none

theorem fabricated_edited {L : Lattice} (h : L.Fabricated) : ∃ L0 : Lattice, L0.Sched ∧ Edited L0 L := by
  induction h with
  | planar h2 h =>
    rw [Planar.make _ h2 crossOrder (by decide), Except.ok.injEq] at h
    subst h
    exact ⟨_, Planar.sched _ (by omega), .refl _⟩
  | toric h2 h =>
    rw [Toric.make h2 crossOrder (by decide), Except.ok.injEq] at h
    subst h
    exact ⟨_, Toric.sched _ h2, .refl _⟩
  | rotated h2 h =>
    rw [Rotated.make h2 diagOrder (by decide), Except.ok.injEq] at h
    subst h
    exact ⟨_, Rotated.sched _ _ h2, .refl _⟩
  | @repetition size L h3 h =>
    by_cases hodd : size % 2 = 1
    · rw [Rep.make size hodd h3, Except.ok.injEq] at h
      subst h
      exact ⟨_, Rep.sched size, .refl _⟩
    · rw [repetitionLattice, if_pos hodd] at h
      simp at h
  | five h => exact ⟨_, sequential_spec five_seq h, .refl _⟩
  | shor h => exact ⟨_, sequential_spec shor_seq h, .refl _⟩
  | errors _ _ _ h ih =>
    obtain ⟨L0, hs, he⟩ := ih
    exact ⟨L0, hs, he.trans (applyFabrication_edited h)⟩

/-- **C123 (partial)**: if all edges of the stabilisers have a time step, or there are no time steps (the repetition code, the
five qubit code, Shor's code and the codes made from operators), there are no events, for any sequence of fabrication
errors. Missing: lattices with time steps where stabilisers were joined, where the statement is false. -/
theorem C123_quiet_partial (api : FloatApi F) (rng : Rng F) (pos r : Nat) (L : Lattice) (c : LatCode) (sel : LogicalSel)
    (circ : List (Gate F)) (hr : 1 ≤ r) (hL : L.Fabricated) (hc : mkLatCode L r = .ok c) (hs : L.AllScheduled)
    (h : generateCircuit api c [] [] sel true = .ok circ) : NoEvents api rng pos r c circ true := by
  obtain ⟨hw, hC, hy, _⟩ := fabricated_good hL
  obtain ⟨hf, rfl⟩ := mkLatCode_inv hw hc
  obtain ⟨L0, h0, he⟩ := fabricated_edited hL
  obtain ⟨S, s, h1, h2, h3, h4⟩ := quiet_anc hw hC hf (he.sched h0 hw.keys hy hs) api rng pos hr (by simp) (by simp) h
  refine ⟨S, s, h1, h2, ?_, ?_⟩
  · rw [h3]; simp [Lattice.code]
  · rw [h4]; simp [StabCode.nLogicalQubits, Lattice.code]

/-- The number of stabilisers that act on a data qubit with a letter. -/
def Lattice.acting (L : Lattice) (q : Pos) (c : Letter) : Nat :=
  L.edges.countP fun e => decide (e.data = q) && L.isStab e.op && decide (e.factor = c)

/-- Fabrication errors of qubits at the boundary (one letter does not belong to two stabilisers, as on the edges of the planar
lattices) keep all edges in the schedule. -/
theorem C123_boundary (L L' : Lattice) (q : Pos) (hj : L.boundaryJoin = false) (c : Letter) (hc : L.acting q c ≠ 2)
    (hc0 : L.acting q c ≠ 0) (hs : L.AllScheduled) (h : L.removeDataqubit q = .ok L') : L'.AllScheduled := by
  rcases hs with hs | hs
  · exact Or.inl ((removeDataqubit_edited h).steps.trans hs)
  · have hsh := removeDataqubit_shrunk hj hc hc0 h
    exact Or.inr fun e he hm => hs e (hsh.edges e he hm) (hsh.stab _ hm)

/-- An edge of a stabiliser without a time step is not measured: there is no controlled gate on its ancilla and data
qubit, whatever the selection of logical operators and the number of rounds, if the lattice has time steps. -/
theorem C123_skipped (api : FloatApi F) (r : Nat) (L : Lattice) (c : LatCode) (sel : LogicalSel) (anc : Bool) (circ : List (Gate F))
    (hL : L.Fabricated) (hc : mkLatCode L r = .ok c) (h : generateCircuit api c [] [] sel anc = .ok circ) {T : Nat}
    (hT : L.timeSteps = some T) (e : LEdge) (he : e ∈ L.edges) (hstab : L.isStab e.op = true) (hnone : e.step = none) :
    ∀ g ∈ circ, g.args ≠ [.int (L.idx e.op), .int (L.idx e.data)] := by
  obtain ⟨hw, hC, hy, _⟩ := fabricated_good hL
  obtain ⟨hf, rfl⟩ := mkLatCode_inv hw hc
  unfold generateCircuit at h
  cases hG : Gen.make (L.latCode r) ([] : List (List Char × ErrDict F)) [] anc with
  | error x =>
    have hG' := hG
    rw [show (L.latCode r) = _ from rfl] at hG'
    simp [Lattice.latCode] at hG'
    rw [hG'] at h
    simp at h
  | ok G =>
    obtain ⟨hQ, hcode, hanc⟩ := quiet_of_empty (by simp) (by simp) hG
    have h : G.getCircuit api sel = .ok circ := by
      have : Gen.make (L.latCode r) ([] : List (List Char × ErrDict F)) [] anc = .ok G := hG
      unfold Lattice.latCode at this
      rw [this] at h
      exact h
    obtain ⟨is, _, _, hb, _, rfl⟩ := quiet_circuit hQ hcode hw hy h
    intro g hg hargs
    obtain ⟨g0, hg0, rfl⟩ := List.mem_map.mp hg
    rcases quiet_controlled hT hg0 with ⟨nm, i, _, rfl⟩ | ⟨e', he', rfl, hor⟩
    · simp [toGate, g1] at hargs
    · have hargs : L.idx e'.op = L.idx e.op ∧ L.idx e'.data = L.idx e.data := by
        simpa [toGate, ctl, g2] using hargs
      have hop : e.op ∈ L.occupied := by
        obtain ⟨s, hs, hp⟩ := isStab_mem hstab
        unfold Lattice.occupied
        exact List.mem_append_left _ (List.mem_append_right _ (hp ▸ List.mem_map_of_mem hs))
      have h1 : e'.op = e.op := (hw.idx_occ hop hargs.1.symm).symm
      have h2 : e'.data = e.data := by
        have hd : e.data ∈ L.occupied := by
          unfold Lattice.occupied
          exact List.mem_append_left _ (List.mem_append_left _ (hw.data e he))
        exact (hw.idx_occ hd hargs.2.symm).symm
      have heq : e' = e := nodup_map_inj hw.keys he' he (by simp [LEdge.key, h1, h2])
      subst heq
      rcases hor with hor | hor
      · exact hor hnone
      · obtain ⟨i, hi, hp⟩ := List.mem_map.mp hor
        have hlt := hb i hi
        have hl : i.toNat < L.logicals.length := by omega
        have : e'.op ∈ L.logicals.map Prod.fst := by
          rw [← hp]
          unfold Lattice.selPos
          rw [List.getElem?_eq_getElem hl]
          exact List.mem_map_of_mem (List.getElem_mem hl)
        obtain ⟨s, hs, hps⟩ := isStab_mem hstab
        have hn := hw.occ
        unfold Lattice.occupied at hn
        exact (List.nodup_append.mp hn).2.2 e'.op (List.mem_append_right _ (hps ▸ List.mem_map_of_mem hs)) e'.op this rfl

/-! ### Non-vacuity -/

/-- A lattice with time steps, and whether edges of its stabilisers are not in the schedule. -/
def scheduleOf (L : Lattice) : Option Nat × Nat :=
  (L.timeSteps, L.edges.countP fun e => L.isStab e.op && decide (e.step = none))

set_option maxRecDepth 100000 in
/-- Six edges of the two joined stabilisers are not measured (three of the X and three of the Z stabiliser). -/
theorem hole_schedule : (match rotatedHole with
    | .ok L => decide (scheduleOf L = (some 4, 6)) && (generateCircuit natApi (L.latCode 1) [] [] (.str "Z".toList) false).toBool
    | .error _ => false) = true := by decide +kernel

example : ∃ L c e, ∃ circ : List (Gate Nat), L.Fabricated ∧ mkLatCode L 1 = .ok c ∧ L.timeSteps = some 4 ∧ e ∈ L.edges ∧
    L.isStab e.op = true ∧ e.step = none ∧ generateCircuit natApi c [] [] (.str "Z".toList) false = .ok circ := by
  have h := hole_schedule
  have h' := hole_run
  cases hm : rotatedHole with
  | error e => rw [hm] at h; simp at h
  | ok L =>
    rw [hm] at h h'
    simp only [Bool.and_eq_true, decide_eq_true_eq, scheduleOf, Prod.mk.injEq] at h h'
    obtain ⟨hw, _, hf⟩ := isGood_spec h'.1
    obtain ⟨e, he, hp⟩ := List.countP_pos_iff.mp (show 0 < _ by rw [h.1.2]; omega)
    simp only [Bool.and_eq_true, decide_eq_true_eq] at hp
    cases hc : generateCircuit natApi (L.latCode 1) [] [] (.str "Z".toList) false with
    | error x => rw [hc] at h; simp [Except.toBool] at h
    | ok circ => exact ⟨L, _, e, circ, hole_fabricated hm, mkLatCode_ok hw hf 1, h.1.1, he, hp.1, hp.2, hc⟩

set_option maxRecDepth 100000 in
/-- Without the qubit in the corner of the planar code of size 3. -/
theorem corner_schedule : (match middleGone none none (0, 0) with
    | .ok L => L.isGood && decide (scheduleOf L = (some 4, 0)) &&
        (generateCircuit natApi (L.latCode 1) [] [] (.str "Z".toList) true).toBool
    | .error _ => false) = true := by decide +kernel

example : ∃ L c, ∃ circ : List (Gate Nat), L.Fabricated ∧ mkLatCode L 1 = .ok c ∧ L.AllScheduled ∧ L.timeSteps = some 4 ∧
    generateCircuit natApi c [] [] (.str "Z".toList) true = .ok circ := by
  have h := corner_schedule
  cases hm : middleGone none none (0, 0) with
  | error e => rw [hm] at h; simp at h
  | ok L =>
    rw [hm] at h
    simp only [Bool.and_eq_true, decide_eq_true_eq, scheduleOf, Prod.mk.injEq] at h
    obtain ⟨hw, _, hf⟩ := isGood_spec h.1.1
    have hmk : planarLattice 3 crossOrder = .ok (Planar.lat 3 crossOrder) := Planar.make 3 (by omega) crossOrder (by decide)
    have hF : L.Fabricated := by
      refine .errors (qubits := [.pos (0, 0)]) (gates := []) (stabs := []) (kg := none) (bj := none)
        (.planar (size := 3) (by omega) hmk) (Or.inl rfl) (Or.inl rfl) ?_
      rw [← hm, middleGone, hmk]
    cases hc : generateCircuit natApi (L.latCode 1) [] [] (.str "Z".toList) true with
    | error x => rw [hc] at h; simp [Except.toBool] at h
    | ok circ =>
      refine ⟨L, _, circ, hF, mkLatCode_ok hw hf 1, Or.inr ?_, h.1.2.1, hc⟩
      intro e he hs hn
      have := (List.countP_eq_zero.mp h.1.2.2) e he
      simp [hs, hn] at this

set_option maxRecDepth 100000 in
/-- The corner of the planar code: one stabiliser of each kind. -/
example : (Planar.lat 3 crossOrder).acting (0, 0) .X = 1 ∧ (Planar.lat 3 crossOrder).boundaryJoin = false ∧
    scheduleOf (Planar.lat 3 crossOrder) = (some 4, 0) ∧ ((Planar.lat 3 crossOrder).removeDataqubit (0, 0)).toBool = true := by
  decide +kernel

end Plaquette
