import Verif.Model.Device
import Verif.Props.Sim

/-!
# The device with the Clifford simulator

C89: runs of a device, with and without reset.
-/

namespace Plaquette
variable {F : Type} {circs : Nat → List (Gate F)}

/-- **C89**: a run without reset leaves the results of the run before in the sample. -/
def C89_statement : Prop :=
  ∀ (circs : Nat → List (Gate Nat)) (rng : Rng Nat) (d d1 d2 : CliffordDevice circs) (arg : CircArg) (r1 r2 : List Bool × Option (List Bool)) (ar : Bool),
    d.run natApi rng arg ar = .ok d1 → d1.getSample = .ok r1 → d1.run natApi rng arg false = .ok d2 → d2.getSample = .ok r2 → r1.1 <+: r2.1

/-- When the circuit is given as a builder, a new simulator is made for every run and the earlier results are lost. -/
theorem C89_builder_counterexample : ¬ C89_statement := by
  intro h
  have h2 : ∃ d1 d2 : CliffordDevice (fun _ => [⟨.H, [.int 0]⟩, ⟨.M, [.int 0]⟩] : Nat → List (Gate Nat)),
      CliffordDevice.run natApi { rngOnes with bit := fun k => k == 0 } ⟨none, 0⟩ (.builder 0 1) true = .ok d1 ∧ d1.getSample = .ok ([true], none) ∧
      d1.run natApi { rngOnes with bit := fun k => k == 0 } (.builder 0 1) false = .ok d2 ∧ d2.getSample = .ok ([false], none) :=
    ⟨_, _, rfl, rfl, rfl, rfl⟩
  obtain ⟨d1, d2, a1, a2, a3, a4⟩ := h2
  have := h _ _ _ d1 d2 _ _ _ true a1 a2 a3 a4
  exact absurd this (by decide)

/-- After a run the device has a backend for the circuit, and the sample can be had. -/
theorem CliffordDevice.run_ok {api : FloatApi F} {rng : Rng F} {d d1 : CliffordDevice circs} {arg : CircArg} {ar : Bool}
    (h : d.run api rng arg ar = .ok d1) : ∃ S, (d.use arg).sim.run api rng (circs (d.use arg).circ) ar = .ok S ∧
      d1 = ⟨some ⟨(d.use arg).circ, S⟩, S.pos⟩ := by
  unfold CliffordDevice.run at h
  dsimp only at h
  cases hr : (d.use arg).sim.run api rng (circs (d.use arg).circ) ar with
  | error e => rw [hr] at h; cases h
  | ok S => rw [hr] at h; cases h; exact ⟨S, rfl, rfl⟩

theorem CliffordDevice.use_circ (d : CliffordDevice circs) (arg : CircArg) : (d.use arg).circ = arg.circ := by
  unfold CliffordDevice.use
  split
  · rfl
  · split
    · rename_i b _ h
      cases arg with
      | circuit id => exact (eq_of_beq h)
      | builder i c => cases h
    · rfl

/-- **C89 (partial)**: if the circuit is given as a circuit object, a run without reset appends its results to the sample. -/
theorem C89_keeps_partial (api : FloatApi F) (rng : Rng F) (d d1 d2 : CliffordDevice circs) (id : Nat) (ar : Bool)
    (h1 : d.run api rng (.circuit id) ar = .ok d1) (h2 : d1.run api rng (.circuit id) false = .ok d2) :
    ∃ m1 e1 m2 e2 m, d1.getSample = .ok (m1, e1) ∧ d2.getSample = .ok (m2, e2) ∧ m2 = m1 ++ m ∧ e1.getD [] <+: e2.getD [] := by
  obtain ⟨S1, a1, rfl⟩ := CliffordDevice.run_ok h1
  have hc : (d.use (.circuit id)).circ = id := d.use_circ _
  obtain ⟨S2, a2, rfl⟩ := CliffordDevice.run_ok h2
  have hu : CliffordDevice.use (⟨some ⟨(d.use (.circuit id)).circ, S1⟩, S1.pos⟩ : CliffordDevice circs) (.circuit id) = ⟨(d.use (.circuit id)).circ, S1⟩ := by
    unfold CliffordDevice.use
    dsimp only
    refine if_pos ?_
    show ((d.use (.circuit id)).circ == id) = true
    rw [hc]; exact beq_self_eq_true id
  generalize CliffordDevice.use (⟨some ⟨(d.use (.circuit id)).circ, S1⟩, S1.pos⟩ : CliffordDevice circs) (.circuit id) = u at S2 a2 hu
  subst hu
  obtain ⟨S3, -, -, b1, b2, -⟩ := C22_accumulate api rng _ _ _ a2
  have er : ∀ {n : Nat} (S : Sim n), S.results.2.getD [] = S.erasure := by
    intro n S
    unfold Sim.results
    cases S.erasure <;> rfl
  refine ⟨_, _, _, _, S3.meas, rfl, rfl, b1, ?_⟩
  show S1.results.2.getD [] <+: S2.results.2.getD []
  rw [er, er, b2]
  exact List.prefix_append _ _

/-- For a builder, or another circuit than before, nothing of the past of the device matters, whether or not a reset is asked for. -/
theorem C89_new (api : FloatApi F) (rng : Rng F) (d : CliffordDevice circs) (arg : CircArg) (ar : Bool)
    (h : ∀ b, d.backend = some b → arg.is b.circ = false) : d.run api rng arg ar = CliffordDevice.run api rng ⟨none, d.pos⟩ arg true := by
  have hu : d.use arg = ⟨arg.circ, Sim.fresh _ d.pos⟩ := by
    unfold CliffordDevice.use
    cases hb : d.backend with
    | none => rfl
    | some b => dsimp only; rw [h b hb]; rfl
  have hu' : CliffordDevice.use (⟨none, d.pos⟩ : CliffordDevice circs) arg = ⟨arg.circ, Sim.fresh _ d.pos⟩ := rfl
  unfold CliffordDevice.run
  rw [hu, hu']
  cases ar <;> rfl

/-- A run with reset gives the sample that a new device would give with the same random numbers, if a new device accepts the circuit. -/
theorem C89_reset (api : FloatApi F) (rng : Rng F) (d d1 : CliffordDevice circs) (arg : CircArg) (r : List Bool × Option (List Bool))
    (hp : ∀ b, d.backend = some b → b.sim.pos = d.pos) (h : CliffordDevice.run api rng ⟨none, d.pos⟩ arg true = .ok d1) (hr : d1.getSample = .ok r) :
    ∃ d2, d.run api rng arg true = .ok d2 ∧ d2.getSample = .ok r ∧ d2.pos = d1.pos ∧ d2.nQubits = d1.nQubits := by
  by_cases hb : ∀ b, d.backend = some b → arg.is b.circ = false
  · rw [C89_new api rng d arg true hb]
    exact ⟨d1, h, hr, rfl, rfl⟩
  · push Not at hb
    obtain ⟨b, hb, hi⟩ := hb
    have hi : arg.is b.circ = true := by simpa using hi
    have hc : arg.circ = b.circ := by
      cases arg with
      | circuit id => exact (eq_of_beq hi).symm
      | builder i c => cases hi
    have hu : d.use arg = b := by
      unfold CliffordDevice.use
      rw [hb]
      exact if_pos hi
    have hu' : CliffordDevice.use (⟨none, d.pos⟩ : CliffordDevice circs) arg = ⟨b.circ, Sim.fresh _ d.pos⟩ := by
      unfold CliffordDevice.use
      dsimp only
      rw [hc]
    obtain ⟨S, a, rfl⟩ := CliffordDevice.run_ok h
    generalize CliffordDevice.use (⟨none, d.pos⟩ : CliffordDevice circs) arg = u at S a hr hu'
    subst hu'
    dsimp only at S a
    rw [← hp b hb] at a
    have a' : (Sim.fresh _ b.sim.pos).runGates api rng (circs b.circ) = .ok S := a
    obtain ⟨S2, c1, c2, c3, c4⟩ := C22_reset_run api rng (circs b.circ) b.sim S a'
    refine ⟨⟨some ⟨b.circ, S2⟩, S2.pos⟩, ?_, ?_, c4, rfl⟩
    · unfold CliffordDevice.run
      rw [hu]
      dsimp only
      rw [c1]
    · rw [← hr]
      show Except.ok S2.results = Except.ok S.results
      rw [c3]

/-- Before the first run there is no sample; after a run there is one, and the position of the random generator is that of the simulator. -/
theorem C89_sample (api : FloatApi F) (rng : Rng F) (d d1 : CliffordDevice circs) (arg : CircArg) (ar : Bool) :
    (d.backend = none → d.getSample = .error .attributeError) ∧
    (d.run api rng arg ar = .ok d1 → (∃ r, d1.getSample = .ok r) ∧ ∀ b, d1.backend = some b → b.sim.pos = d1.pos ∧ b.circ = arg.circ) := by
  refine ⟨fun h => ?_, fun h => ?_⟩
  · unfold CliffordDevice.getSample; rw [h]
  · obtain ⟨S, -, rfl⟩ := CliffordDevice.run_ok h
    refine ⟨⟨_, rfl⟩, fun b hb => ?_⟩
    cases hb
    exact ⟨rfl, d.use_circ arg⟩

/-- `reset_backend` needs a run before. It discards the results, keeps the number of qubits, and the next run without reset is then a run with reset. -/
theorem C89_reset_backend (api : FloatApi F) (rng : Rng F) (d : CliffordDevice circs) :
    (d.backend = none → d.resetBackend = .error .attributeError ∧ d.nQubits = .error .attributeError) ∧
    ∀ b, d.backend = some b → d.nQubits = .ok (numberOfQubits (circs b.circ)) ∧ ∃ d', d.resetBackend = .ok d' ∧ d'.getSample = .ok ([], none) ∧ d'.nQubits = d.nQubits ∧
      d'.pos = d.pos ∧ ∀ arg, d'.run api rng arg false = d.run api rng arg true := by
  refine ⟨fun h => ⟨?_, ?_⟩, fun b hb => ⟨?_, ⟨some ⟨b.circ, b.sim.reset⟩, d.pos⟩, ?_, rfl, ?_, rfl, fun arg => ?_⟩⟩
  · unfold CliffordDevice.resetBackend; rw [h]
  · unfold CliffordDevice.nQubits; rw [h]
  · unfold CliffordDevice.nQubits; rw [hb]
  · unfold CliffordDevice.resetBackend; rw [hb]
  · unfold CliffordDevice.nQubits; rw [hb]
  · cases hi : arg.is b.circ with
    | false =>
      rw [C89_new api rng d arg true (fun b' h' => by rw [hb] at h'; cases h'; exact hi), C89_new api rng _ arg false (fun b' h' => by cases h'; exact hi)]
    | true =>
      have hu : d.use arg = b := by
        unfold CliffordDevice.use
        rw [hb]
        exact if_pos hi
      have hu' : CliffordDevice.use (⟨some ⟨b.circ, b.sim.reset⟩, d.pos⟩ : CliffordDevice circs) arg = ⟨b.circ, b.sim.reset⟩ := by
        unfold CliffordDevice.use
        exact if_pos hi
      have e : b.sim.reset.run api rng (circs b.circ) false = b.sim.run api rng (circs b.circ) true := by simp [Sim.run]
      unfold CliffordDevice.run
      rw [hu, hu']
      dsimp only
      rw [e]
      cases b.sim.run api rng (circs b.circ) true <;> rfl

-- a circuit object that is run twice
example : ∃ d1 d2 : CliffordDevice (fun _ => [⟨.X, [.int 0]⟩, ⟨.M, [.int 0]⟩] : Nat → List (Gate Nat)),
    CliffordDevice.run natApi rngOnes ⟨none, 0⟩ (.circuit 1) true = .ok d1 ∧ d1.run natApi rngOnes (.circuit 1) false = .ok d2 ∧
    d2.getSample = .ok ([true, false], none) := ⟨_, _, rfl, rfl, rfl⟩

end Plaquette
