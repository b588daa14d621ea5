import Verif.Props.NoisyExperiment
import Verif.Props.Weights
import Verif.Model.Experiment
import Mathlib.Tactic.FieldSimp
import Mathlib.Tactic.Linarith
import Mathlib.Tactic.NormNum

/-!
# Running experiments (C68 to C71)
-/

namespace Plaquette
variable {F : Type}

/-! ### C68: `run` returns the logical error rate -/

/-- **C68**: if all shots of an experiment go through, then `ExperimentConfig.run` returns the fraction of the shots that failed. -/
def C68_statement : Prop := ∀ (F : Type) (api : FloatApi F) (rng : Rng F) (E : Experiment F) (pos : Nat) (l : List Bool),
  E.loop api rng E.shots (Sim.fresh _ pos) = .ok l → 1 ≤ E.shots →
  ∃ q, E.run api rng pos ["logical_error_rate".toList] (backendClass "clifford".toList) = .ok (some q) ∧
    q * E.shots = l.count false

/-- **C68 fails always**: whatever is configured, `run` returns `None` without running a shot. The class of the backend is looked up in a set of
names. -/
theorem C68_always_none (api : FloatApi F) (rng : Rng F) (E : Experiment F) (pos : Nat) (qecProperty : List (List Char)) (name : List Char) :
    E.run api rng pos qecProperty (backendClass name) = .ok none := by
  unfold Experiment.run
  by_cases h : qecProperty = ["logical_error_rate".toList]
  · rw [if_pos h, if_neg]
    unfold backendClass localSimulators
    intro hm
    simp only [List.mem_cons, List.not_mem_nil, or_false] at hm
    rcases hm with hm | hm <;> exact PyObj.noConfusion hm
  · rw [if_neg h]

theorem count_add (l : List Bool) : l.count true + l.count false = l.length := by
  induction l with
  | nil => rfl
  | cons b l ih => cases b <;> simp <;> omega

/-- **C68** the classes of the two registered backends. -/
theorem C68_classes : backendClass "clifford".toList = .cls "CircuitSimulator".toList ∧
    backendClass "stim".toList = .cls "StimSimulator".toList := by decide

/-- **C68**, the number: the formula is the fraction of failed shots. -/
theorem C68_rateOf {l : List Bool} (hl : l ≠ []) : rateOf l * l.length = l.count false ∧ 0 ≤ rateOf l ∧ rateOf l ≤ 1 ∧
    (rateOf l = 0 ↔ ∀ b ∈ l, b = true) := by
  have h0 : 0 < l.length := List.length_pos_iff.2 hl
  have hq : (0 : ℚ) < l.length := by exact_mod_cast h0
  have hc : (l.count true : ℚ) + l.count false = l.length := by exact_mod_cast count_add l
  have key : rateOf l = (l.count false : ℚ) / l.length := by
    unfold rateOf
    rw [eq_div_iff hq.ne', sub_mul, div_mul_cancel₀ _ hq.ne']
    linarith
  have hle : (l.count false : ℚ) ≤ l.length := by exact_mod_cast List.count_le_length
  refine ⟨?_, ?_, ?_, ?_⟩
  · rw [key, div_mul_cancel₀ _ hq.ne']
  · rw [key]; exact div_nonneg (Nat.cast_nonneg _) hq.le
  · rw [key, div_le_one hq]; exact hle
  · rw [key, div_eq_zero_iff]
    constructor
    · rintro (h | h)
      · have h : l.count false = 0 := by exact_mod_cast h
        intro b hb
        cases b
        · exact absurd hb (List.count_eq_zero.1 h)
        · rfl
      · exact absurd h hq.ne'
    · intro h
      left
      have : l.count false = 0 := List.count_eq_zero.2 fun hb => by cases h _ hb
      exact_mod_cast this

theorem Experiment.loop_length (api : FloatApi F) (rng : Rng F) (E : Experiment F) : ∀ (k : Nat) (S : Sim (numberOfQubits E.circ)) (l : List Bool),
    E.loop api rng k S = .ok l → l.length = k
  | 0, S, l, h => by cases h; rfl
  | k + 1, S, l, h => by
    unfold Experiment.loop at h
    cases h1 : E.oneShot api rng S with
    | error e => rw [h1] at h; cases h
    | ok p =>
      rw [h1] at h
      obtain ⟨S', b⟩ := p
      dsimp only at h
      cases h2 : E.loop api rng k S' with
      | error e => rw [h2] at h; cases h
      | ok bs =>
        rw [h2] at h
        cases h
        rw [List.length_cons, loop_length api rng E k S' bs h2]

/-- **C68 (partial)**: the part of `run` that is never reached returns the fraction of the failed shots. -/
theorem C68_rate_partial (api : FloatApi F) (rng : Rng F) (E : Experiment F) (pos : Nat) (l : List Bool)
    (h : E.loop api rng E.shots (Sim.fresh _ pos) = .ok l) (hs : 1 ≤ E.shots) :
    ∃ q, E.rate api rng pos = .ok q ∧ q * E.shots = l.count false ∧ 0 ≤ q ∧ q ≤ 1 ∧ (q = 0 ↔ ∀ b ∈ l, b = true) := by
  have hl := E.loop_length api rng _ _ _ h
  have hne : l ≠ [] := by rintro rfl; simp at hl; omega
  obtain ⟨h1, h2, h3, h4⟩ := C68_rateOf hne
  refine ⟨rateOf l, ?_, ?_, h2, h3, h4⟩
  · unfold Experiment.rate; rw [h]
  · rw [← hl]; exact h1

/-! ### C69: experiments with few faults have the rate 0 -/

/-- The states of the simulator before the shots. -/
def Experiment.starts (api : FloatApi F) (rng : Rng F) (E : Experiment F) : Nat → Sim (numberOfQubits E.circ) → List (Sim (numberOfQubits E.circ))
  | 0, _ => []
  | k + 1, S0 => S0 :: match S0.run api rng E.circ true with
    | .error _ => []
    | .ok S => E.starts api rng k S

/-- An experiment with a union find decoder. -/
def ufExperiment (c : LatCode) (circ : List (Gate F)) (support : Bool) (g : SynGraph FW) (states : List UGraph) (shots : Nat) (sel : LogicalSel) :
    Experiment F := ⟨c, circ, decode (ufBackend support) g c.n states, shots, sel⟩

/-- An experiment with any decoder. -/
def anyExperiment {σ : Type} (c : LatCode) (circ : List (Gate F)) (b : Backend FW σ) (g : SynGraph FW) (states : List σ) (shots : Nat) (sel : LogicalSel) :
    Experiment F := ⟨c, circ, decode b g c.n states, shots, sel⟩

/-- **C69**: an experiment without errors has the logical error rate 0. -/
def C69_statement : Prop := ∀ (F : Type) (api : FloatApi F) (rng : Rng F) (pos r : Nat) (c : LatCode) (sel : LogicalSel) (circ : List (Gate F))
  (shots : Nat) (support : Bool) (negLog : ℚ → Option FW) (tiny : ℚ) (errs : Option ErrData) (g : SynGraph FW) (states : List UGraph),
  1 ≤ r → 1 ≤ shots → Made r c → generateCircuit api c [] [] sel false = .ok circ →
  fromCode FW.isInf negLog tiny (ufBackend support) c errs (some false) none = .ok (g, states) →
  (ufExperiment c circ support g states shots sel).rate api rng pos = .ok 0

/-- The rate of an experiment without errors. -/
def quietRate (api : FloatApi F) (rng : Rng F) (c : LatCode) (sel : LogicalSel) (shots : Nat) (support : Bool) : Except Err ℚ :=
  match generateCircuit api c [] [] sel false with
  | .error e => .error e
  | .ok circ => match fromCode FW.isInf (fun _ => none) 0 (ufBackend support) c none (some false) none with
    | .error e => .error e
    | .ok (g, states) => (ufExperiment c circ support g states shots sel).rate api rng 0

set_option maxRecDepth 100000 in
theorem rep3_rate : (quietRate natApi (rngBits [true]) ((Rep.lat 3).latCode 1) (.str "X".toList) 1 false).toOption = some 1 := by
  decide +kernel

/-- **C69 fails** for the default configuration, which measures the logical operator X: see C28. -/
theorem C69_default_counterexample : ¬ C69_statement := by
  intro h
  have hr := rep3_rate
  unfold quietRate at hr
  cases hg : generateCircuit natApi ((Rep.lat 3).latCode 1) [] [] (.str "X".toList) false with
  | error e => rw [hg] at hr; cases hr
  | ok circ =>
    rw [hg] at hr
    dsimp only at hr
    cases hf : fromCode FW.isInf (fun _ => none) 0 (ufBackend false) ((Rep.lat 3).latCode 1) none (some false) none with
    | error e => rw [hf] at hr; cases hr
    | ok p =>
      obtain ⟨g, states⟩ := p
      rw [hf] at hr
      dsimp only at hr
      rw [h Nat natApi (rngBits [true]) 0 1 _ _ circ 1 false (fun _ => none) 0 none g states (by omega) (by omega) (rep3_made 1) hg hf] at hr
      cases hr

/-- **C68 fails** already for this experiment. -/
theorem C68_run_counterexample : ¬ C68_statement := by
  intro h
  have hr := rep3_rate
  unfold quietRate at hr
  cases hg : generateCircuit natApi ((Rep.lat 3).latCode 1) [] [] (.str "X".toList) false with
  | error e => rw [hg] at hr; cases hr
  | ok circ =>
    rw [hg] at hr
    dsimp only at hr
    cases hf : fromCode FW.isInf (fun _ => none) 0 (ufBackend false) ((Rep.lat 3).latCode 1) none (some false) none with
    | error e => rw [hf] at hr; cases hr
    | ok p =>
      obtain ⟨g, states⟩ := p
      rw [hf] at hr
      dsimp only at hr
      unfold Experiment.rate at hr
      cases hl : (ufExperiment ((Rep.lat 3).latCode 1) circ false g states 1 (.str "X".toList)).loop natApi (rngBits [true]) 1 (Sim.fresh _ 0) with
      | error e =>
        rw [show (ufExperiment ((Rep.lat 3).latCode 1) circ false g states 1 (.str "X".toList)).shots = 1 from rfl, hl] at hr
        cases hr
      | ok l =>
        obtain ⟨q, hq, _⟩ := h Nat natApi (rngBits [true]) _ 0 l hl (Nat.le_refl 1)
        rw [C68_always_none] at hq
        cases hq

/-- In the run with the decisions `events` few faults happen: `t` Pauli errors on qubits that are not erased and wrong outcomes, and `e` erasures,
with `K t + e < d`. -/
def FewFaults (K : Nat) (c : LatCode) (r : Nat) (fl : Flags) (d : Nat) (events : List Event) : Prop :=
  ∀ N : Noise, N.Only fl c.n r → events = N.events fl c.n c.code.stabilisers.length r →
    K * N.count c.n c.code.stabilisers.length r + N.losses c.n r < d

theorem loop_true (api : FloatApi F) (rng : Rng F) (E : Experiment F) : ∀ (k : Nat) (S0 : Sim (numberOfQubits E.circ)),
    (∀ S0' ∈ E.starts api rng k S0, ∃ S, S0'.run api rng E.circ true = .ok S ∧ E.oneShot api rng S0' = .ok (S, true)) →
    E.loop api rng k S0 = .ok (List.replicate k true)
  | 0, _, _ => rfl
  | k + 1, S0, h => by
    obtain ⟨S, h1, h2⟩ := h S0 (by simp [Experiment.starts])
    unfold Experiment.loop
    rw [h2]
    dsimp only
    rw [loop_true api rng E k S fun S0' hm => h S0' (by
      unfold Experiment.starts
      rw [h1]
      exact List.mem_cons_of_mem _ hm)]
    rfl

theorem oneShot_ok {api : FloatApi F} {rng : Rng F} {E : Experiment F} {S0 S : Sim (numberOfQubits E.circ)} {s : Sample} {p : Op E.code.n} {b : Bool}
    (h1 : S0.run api rng E.circ true = .ok S) (h2 : Sample.fromRaw E.code S.results.1 S.results.2 false = .ok s)
    (h3 : E.decode s.erased (some s.syndrome) = .ok p) (h4 : checkSuccess E.code.code p s.toggle (some E.sel) = .ok b) :
    E.oneShot api rng S0 = .ok (S, b) := by
  unfold Experiment.oneShot
  rw [h1]
  dsimp only
  rw [h2]
  dsimp only
  rw [h3]
  dsimp only
  rw [h4]

theorem rate_zero {c : LatCode} {r d : Nat} (hn : c.nRounds = r) (api : FloatApi F) (rng : Rng F) (pos : Nat) {fl : Flags} {sel : LogicalSel} {circ : List (Gate F)}
    {shots : Nat} (hs : 1 ≤ shots) {σ : Type} {b : Backend FW σ} {K : Nat} {lossy : Bool} (hb : Few K lossy b)
    (hE : lossy = false → ∀ q < c.n, fl.erasure q = false) {negLog : ℚ → Option FW} {tiny : ℚ} {errs : Option ErrData} {g : SynGraph FW} {states : List σ}
    (hf : fromCode FW.isInf negLog tiny b c errs (some false) none = .ok (g, states))
    (hshot : ∀ (S0 S : Sim (numberOfQubits circ)) (s : Sample), S0.run api rng circ true = .ok S → Sample.fromRaw c S.results.1 S.results.2 false = .ok s →
      ∃ N : Noise, N.Gives c r fl sel (S0.reset.events api rng circ) s ∧
        FewSucceed c r d fl sel N s)
    (hgood : ∀ S0 ∈ (anyExperiment c circ b g states shots sel).starts api rng shots (Sim.fresh _ pos), ∃ S s, S0.run api rng circ true = .ok S ∧
      Sample.fromRaw c S.results.1 S.results.2 false = .ok s ∧ FewFaults K c r fl d (S0.reset.events api rng circ)) :
    (anyExperiment c circ b g states shots sel).rate api rng pos = .ok 0 := by
  have hl : (anyExperiment c circ b g states shots sel).loop api rng shots (Sim.fresh _ pos) = .ok (List.replicate shots true) := by
    refine loop_true api rng _ shots _ fun S0 h0 => ?_
    obtain ⟨S, s, h1, h2, h3⟩ := hgood S0 h0
    obtain ⟨N, hN, hok⟩ := hshot S0 S s h1 h2
    obtain ⟨g', st', p, k1, k2, k3, k4⟩ := hok σ b K lossy hb hE (h3 N hN.only hN.events)
    obtain ⟨m1, _⟩ := C57_unweighted_partial hf
    rw [hn] at m1
    obtain rfl : g = g' := Except.ok.inj (m1.symm.trans k1)
    have m2 : setupAll b g = .ok states := by
      unfold fromCode at hf
      simp only [bind_ok] at hf
      obtain ⟨g2, _, st2, m3, m4⟩ := hf
      cases m4
      exact m3
    obtain rfl : states = st' := Except.ok.inj (m2.symm.trans k2)
    refine ⟨S, h1, ?_⟩
    exact oneShot_ok (E := anyExperiment c circ b g states shots sel) h1 h2 k3 k4
  unfold Experiment.rate
  rw [show (anyExperiment c circ b g states shots sel).shots = shots from rfl, hl]
  have hne : List.replicate shots true ≠ [] := by simp; omega
  exact congrArg Except.ok ((C68_rateOf hne).2.2.2.2 fun b hb => (List.mem_replicate.1 hb).2)

/-- The simulator raises no exception in the shots of the experiment, and in each shot few faults happen. -/
def GoodShots (K : Nat) (api : FloatApi F) (rng : Rng F) (E : Experiment F) (pos : Nat) (r : Nat) (fl : Flags) (d : Nat) : Prop :=
  ∀ S0 ∈ E.starts api rng E.shots (Sim.fresh _ pos), (∃ S, S0.run api rng E.circ true = .ok S) ∧
    FewFaults K E.code r fl d (S0.reset.events api rng E.circ)

/-- No data qubit or every data qubit may be erased. -/
def AllOrNone (c : LatCode) (fl : Flags) : Prop := (∀ q < c.n, fl.erasure q = false) ∨ ∀ q < c.n, fl.erasure q = true

theorem planar_rate (api : FloatApi F) (rng : Rng F) (pos r size : Nat) (hr : 1 ≤ r) (h3 : 3 ≤ size) (c : LatCode) (hc : makePlanar r size = .ok c)
    (qe ge : List (List Char × ErrDict F)) (hg : ∀ e ∈ ge, e.2 = []) (sel : LogicalSel) (hZ : OnlyZ c sel) (hall : AllOrNone c (flagsOf qe))
    (circ : List (Gate F)) (h : generateCircuit api c qe ge sel false = .ok circ) (shots : Nat) (hs : 1 ≤ shots) {σ : Type} {b : Backend FW σ} {K : Nat} {lossy : Bool}
    (hb : Few K lossy b) (hE : lossy = false → ∀ q < c.n, (flagsOf qe).erasure q = false)
    (negLog : ℚ → Option FW) (tiny : ℚ) (errs : Option ErrData) (g : SynGraph FW) (states : List σ)
    (hf : fromCode FW.isInf negLog tiny b c errs (some false) none = .ok (g, states))
    (hgood : GoodShots K api rng (anyExperiment c circ b g states shots sel) pos r (flagsOf qe) size) :
    (anyExperiment c circ b g states shots sel).rate api rng pos = .ok 0 := by
  have hm : Made r c := .planar (by omega) hc
  have hw : SameWeight c sel := by
    have hc' : makePlanar r size = .ok ((Planar.lat size crossOrder).latCode r) := by
      rw [makePlanar, Planar.make size (by omega) crossOrder (by decide)]; exact mkLatCode_ok (Planar.wf _ _ (by omega)) (Planar.full _ _ (by omega)) r
    obtain rfl : (Planar.lat size crossOrder).latCode r = c := by rw [hc'] at hc; exact Except.ok.inj hc
    exact Planar.same (by omega) sel
  refine rate_zero (d := size) (fl := flagsOf qe) (by obtain ⟨L, rfl, _⟩ := hm.lattice; rfl) api rng pos hs hb hE hf
    (fun S0 S s k1 k2 => planar_shots api rng r size hr h3 c hc qe ge hg sel false (.inr hZ) circ S0 S s h k1 k2) fun S0 h0 => ?_
  obtain ⟨⟨S, h1⟩, h2⟩ := hgood S0 h0
  obtain ⟨s, h4⟩ := C66_unpacks api rng r c qe ge hg sel false circ S0 S hr hm (.inr ⟨hZ, hw⟩) h h1 hall
  exact ⟨S, s, h1, h4, h2⟩

theorem toric_rate (api : FloatApi F) (rng : Rng F) (pos r size : Nat) (hr : 1 ≤ r) (h3 : 3 ≤ size) (c : LatCode) (hc : makeToric r size = .ok c)
    (qe ge : List (List Char × ErrDict F)) (hg : ∀ e ∈ ge, e.2 = []) (sel : LogicalSel) (hZ : OnlyZ c sel) (hall : AllOrNone c (flagsOf qe))
    (circ : List (Gate F)) (h : generateCircuit api c qe ge sel false = .ok circ) (shots : Nat) (hs : 1 ≤ shots) {σ : Type} {b : Backend FW σ} {K : Nat} {lossy : Bool}
    (hb : Few K lossy b) (hE : lossy = false → ∀ q < c.n, (flagsOf qe).erasure q = false)
    (negLog : ℚ → Option FW) (tiny : ℚ) (errs : Option ErrData) (g : SynGraph FW) (states : List σ)
    (hf : fromCode FW.isInf negLog tiny b c errs (some false) none = .ok (g, states))
    (hgood : GoodShots K api rng (anyExperiment c circ b g states shots sel) pos r (flagsOf qe) size) :
    (anyExperiment c circ b g states shots sel).rate api rng pos = .ok 0 := by
  have hm : Made r c := .toric (by omega) hc
  have hw : SameWeight c sel := by
    have hc' : makeToric r size = .ok ((Toric.lat size crossOrder).latCode r) := by
      rw [makeToric, Toric.make (by omega) crossOrder (by decide)]; exact mkLatCode_ok (Toric.wf _ (by omega)) (Toric.full _ (by omega)) r
    obtain rfl : (Toric.lat size crossOrder).latCode r = c := by rw [hc'] at hc; exact Except.ok.inj hc
    exact Toric.same (by omega) sel
  refine rate_zero (d := size) (fl := flagsOf qe) (by obtain ⟨L, rfl, _⟩ := hm.lattice; rfl) api rng pos hs hb hE hf
    (fun S0 S s k1 k2 => toric_shots api rng r size hr h3 c hc qe ge hg sel false (.inr hZ) circ S0 S s h k1 k2) fun S0 h0 => ?_
  obtain ⟨⟨S, h1⟩, h2⟩ := hgood S0 h0
  obtain ⟨s, h4⟩ := C66_unpacks api rng r c qe ge hg sel false circ S0 S hr hm (.inr ⟨hZ, hw⟩) h h1 hall
  exact ⟨S, s, h1, h4, h2⟩

theorem rotated_rate (api : FloatApi F) (rng : Rng F) (pos r size : Nat) (hr : 1 ≤ r) (h2 : 2 ≤ size) (xzzx : Bool) (c : LatCode) (hc : makeRotated r size xzzx = .ok c)
    (qe ge : List (List Char × ErrDict F)) (hg : ∀ e ∈ ge, e.2 = []) (sel : LogicalSel) (hZ : OnlyZ c sel) (hq : ∀ q < c.n, (flagsOf qe).erasure q = false)
    (circ : List (Gate F)) (h : generateCircuit api c qe ge sel false = .ok circ) (shots : Nat) (hs : 1 ≤ shots) {σ : Type} {b : Backend FW σ} {K : Nat} {lossy : Bool}
    (hb : Few K lossy b) (hE : lossy = false → ∀ q < c.n, (flagsOf qe).erasure q = false)
    (negLog : ℚ → Option FW) (tiny : ℚ) (errs : Option ErrData) (g : SynGraph FW) (states : List σ)
    (hf : fromCode FW.isInf negLog tiny b c errs (some false) none = .ok (g, states))
    (hgood : GoodShots K api rng (anyExperiment c circ b g states shots sel) pos r (flagsOf qe) size) :
    (anyExperiment c circ b g states shots sel).rate api rng pos = .ok 0 := by
  have hm : Made r c := .rotated (by omega) hc
  have hw : SameWeight c sel := by
    have hc' : makeRotated r size xzzx = .ok ((Rotated.lat size xzzx diagOrder).latCode r) := by
      rw [makeRotated, Rotated.make (by omega) diagOrder (by decide)]; exact mkLatCode_ok (Rotated.wf _ (by omega)) (Rotated.full _ (by omega)) r
    obtain rfl : (Rotated.lat size xzzx diagOrder).latCode r = c := by rw [hc'] at hc; exact Except.ok.inj hc
    exact Rotated.same (by omega) sel
  refine rate_zero (d := size) (fl := flagsOf qe) (by obtain ⟨L, rfl, _⟩ := hm.lattice; rfl) api rng pos hs hb hE hf
    (fun S0 S s k1 k2 => rotated_shots api rng r size xzzx hr h2 c hc qe ge hg hq sel false (.inr hZ) circ S0 S s h k1 k2) fun S0 h0 => ?_
  obtain ⟨⟨S, h1⟩, h2⟩ := hgood S0 h0
  obtain ⟨s, h4⟩ := C66_unpacks api rng r c qe ge hg sel false circ S0 S hr hm (.inr ⟨hZ, hw⟩) h h1 (.inl hq)
  exact ⟨S, s, h1, h4, h2⟩

/-- **C69 (partial; planar code)**: an experiment with the logical operator Z and union find without weights, in which few faults happen in each
shot, has the rate 0. -/
theorem C69_planar_partial (api : FloatApi F) (rng : Rng F) (pos r size : Nat) (hr : 1 ≤ r) (h3 : 3 ≤ size) (c : LatCode) (hc : makePlanar r size = .ok c)
    (qe ge : List (List Char × ErrDict F)) (hg : ∀ e ∈ ge, e.2 = []) (sel : LogicalSel) (hZ : OnlyZ c sel) (hall : AllOrNone c (flagsOf qe))
    (circ : List (Gate F)) (h : generateCircuit api c qe ge sel false = .ok circ) (shots : Nat) (hs : 1 ≤ shots) (support : Bool)
    (negLog : ℚ → Option FW) (tiny : ℚ) (errs : Option ErrData) (g : SynGraph FW) (states : List UGraph)
    (hf : fromCode FW.isInf negLog tiny (ufBackend support) c errs (some false) none = .ok (g, states))
    (hgood : GoodShots 3 api rng (ufExperiment c circ support g states shots sel) pos r (flagsOf qe) size) :
    (ufExperiment c circ support g states shots sel).rate api rng pos = .ok 0 := 
  planar_rate api rng pos r size hr h3 c hc qe ge hg sel hZ hall circ h shots hs (uf_few support) (by simp) negLog tiny errs g states hf hgood

/-- **C69 (partial; toric code)**. -/
theorem C69_toric_partial (api : FloatApi F) (rng : Rng F) (pos r size : Nat) (hr : 1 ≤ r) (h3 : 3 ≤ size) (c : LatCode) (hc : makeToric r size = .ok c)
    (qe ge : List (List Char × ErrDict F)) (hg : ∀ e ∈ ge, e.2 = []) (sel : LogicalSel) (hZ : OnlyZ c sel) (hall : AllOrNone c (flagsOf qe))
    (circ : List (Gate F)) (h : generateCircuit api c qe ge sel false = .ok circ) (shots : Nat) (hs : 1 ≤ shots) (support : Bool)
    (negLog : ℚ → Option FW) (tiny : ℚ) (errs : Option ErrData) (g : SynGraph FW) (states : List UGraph)
    (hf : fromCode FW.isInf negLog tiny (ufBackend support) c errs (some false) none = .ok (g, states))
    (hgood : GoodShots 3 api rng (ufExperiment c circ support g states shots sel) pos r (flagsOf qe) size) :
    (ufExperiment c circ support g states shots sel).rate api rng pos = .ok 0 := 
  toric_rate api rng pos r size hr h3 c hc qe ge hg sel hZ hall circ h shots hs (uf_few support) (by simp) negLog tiny errs g states hf hgood

/-- **C69 (partial; rotated code and XZZX code)**, without erasures (see C56). -/
theorem C69_rotated_partial (api : FloatApi F) (rng : Rng F) (pos r size : Nat) (hr : 1 ≤ r) (h2 : 2 ≤ size) (xzzx : Bool) (c : LatCode) (hc : makeRotated r size xzzx = .ok c)
    (qe ge : List (List Char × ErrDict F)) (hg : ∀ e ∈ ge, e.2 = []) (sel : LogicalSel) (hZ : OnlyZ c sel) (hq : ∀ q < c.n, (flagsOf qe).erasure q = false)
    (circ : List (Gate F)) (h : generateCircuit api c qe ge sel false = .ok circ) (shots : Nat) (hs : 1 ≤ shots) (support : Bool)
    (negLog : ℚ → Option FW) (tiny : ℚ) (errs : Option ErrData) (g : SynGraph FW) (states : List UGraph)
    (hf : fromCode FW.isInf negLog tiny (ufBackend support) c errs (some false) none = .ok (g, states))
    (hgood : GoodShots 3 api rng (ufExperiment c circ support g states shots sel) pos r (flagsOf qe) size) :
    (ufExperiment c circ support g states shots sel).rate api rng pos = .ok 0 := 
  rotated_rate api rng pos r size hr h2 xzzx c hc qe ge hg sel hZ hq circ h shots hs (uf_few support) (by simp) negLog tiny errs g states hf hgood

theorem quietRate_inv {api : FloatApi F} {rng : Rng F} {c : LatCode} {sel : LogicalSel} {shots : Nat} {support : Bool} {q : ℚ}
    (h : (quietRate api rng c sel shots support).toOption = some q) : ∃ circ g states, generateCircuit api c [] [] sel false = .ok circ ∧
      fromCode FW.isInf (fun _ => none) 0 (ufBackend support) c none (some false) none = .ok (g, states) ∧
      ∃ l, (ufExperiment c circ support g states shots sel).loop api rng shots (Sim.fresh _ 0) = .ok l ∧ rateOf l = q := by
  unfold quietRate at h
  cases hg : generateCircuit api c [] [] sel false with
  | error e => rw [hg] at h; cases h
  | ok circ =>
    rw [hg] at h
    dsimp only at h
    cases hf : fromCode FW.isInf (fun _ => none) 0 (ufBackend support) c none (some false) none with
    | error e => rw [hf] at h; cases h
    | ok p =>
      obtain ⟨g, states⟩ := p
      rw [hf] at h
      dsimp only at h
      unfold Experiment.rate at h
      cases hl : (ufExperiment c circ support g states shots sel).loop api rng shots (Sim.fresh _ 0) with
      | error e =>
        rw [show (ufExperiment c circ support g states shots sel).shots = shots from rfl, hl] at h
        cases h
      | ok l =>
        rw [show (ufExperiment c circ support g states shots sel).shots = shots from rfl, hl] at h
        exact ⟨circ, g, states, rfl, rfl, l, hl, Option.some.inj h⟩

theorem starts_of_loop (api : FloatApi F) (rng : Rng F) (E : Experiment F) : ∀ (k : Nat) (S0 : Sim (numberOfQubits E.circ)) (l : List Bool),
    E.loop api rng k S0 = .ok l → ∀ S0' ∈ E.starts api rng k S0, ∃ S, S0'.run api rng E.circ true = .ok S
  | 0, _, _, _, S0', h => by simp [Experiment.starts] at h
  | k + 1, S0, l, h, S0', hm => by
    unfold Experiment.loop at h
    cases h1 : E.oneShot api rng S0 with
    | error e => rw [h1] at h; cases h
    | ok p =>
      rw [h1] at h
      obtain ⟨S', b⟩ := p
      dsimp only at h
      have hrun : S0.run api rng E.circ true = .ok S' := by
        unfold Experiment.oneShot at h1
        cases k1 : S0.run api rng E.circ true with
        | error e => rw [k1] at h1; cases h1
        | ok S =>
          rw [k1] at h1
          dsimp only at h1
          cases k2 : Sample.fromRaw E.code S.results.1 S.results.2 false with
          | error e => rw [k2] at h1; cases h1
          | ok s =>
            rw [k2] at h1
            dsimp only at h1
            cases k3 : E.decode s.erased (some s.syndrome) with
            | error e => rw [k3] at h1; cases h1
            | ok p =>
              rw [k3] at h1
              dsimp only at h1
              cases k4 : checkSuccess E.code.code p s.toggle (some E.sel) with
              | error e => rw [k4] at h1; cases h1
              | ok b => rw [k4] at h1; cases h1; rfl
      cases h2 : E.loop api rng k S' with
      | error e => rw [h2] at h; cases h
      | ok bs =>
        unfold Experiment.starts at hm
        rw [hrun] at hm
        rcases List.mem_cons.1 hm with rfl | hm
        · exact ⟨S', hrun⟩
        · exact starts_of_loop api rng E k S' bs h2 S0' hm

set_option maxRecDepth 100000 in
theorem rot2_rate : (quietRate natApi (rngBits [true]) ((Rotated.lat 2 false diagOrder).latCode 1) (.str "Z".toList) 2 false).toOption = some 0 := by
  decide +kernel

theorem few_none {c : LatCode} {K r d : Nat} (hd : 1 ≤ d) (events : List Event) : FewFaults K c r (flagsOf ([] : List (List Char × ErrDict F))) d events := by
  intro N hN _
  have e1 : N.losses c.n r = 0 := by
    unfold Noise.losses
    rw [Set.ncard_eq_zero (finite_pairs _ _ _)]
    refine Set.eq_empty_of_forall_notMem ?_
    rintro ⟨t, q⟩ ⟨_, _, h2⟩
    rw [hN.erased t q (.inl rfl)] at h2
    cases h2
  have e2 : N.count c.n c.code.stabilisers.length r = 0 := by
    unfold Noise.count
    rw [Nat.add_eq_zero_iff, Set.ncard_eq_zero (finite_pairs _ _ _), Set.ncard_eq_zero (finite_pairs _ _ _)]
    constructor
    · refine Set.eq_empty_of_forall_notMem ?_
      rintro ⟨t, q⟩ ⟨_, _, h2, _⟩
      exact h2 (hN.pauli t q (.inl rfl))
    · refine Set.eq_empty_of_forall_notMem ?_
      rintro ⟨t, q⟩ ⟨_, _, h2⟩
      rw [hN.wrong t q rfl] at h2
      cases h2
  rw [e1, e2]
  omega

set_option maxRecDepth 100000 in
/-- The hypotheses of C69 for two shots on the rotated code of size 2. -/
example : ∃ circ g states, generateCircuit natApi ((Rotated.lat 2 false diagOrder).latCode 1) [] [] (.str "Z".toList) false = .ok circ ∧
    GoodShots 3 natApi (rngBits [true]) (ufExperiment ((Rotated.lat 2 false diagOrder).latCode 1) circ false g states 2 (.str "Z".toList)) 0 1
      (flagsOf ([] : List (List Char × ErrDict Nat))) 2 ∧
    (ufExperiment ((Rotated.lat 2 false diagOrder).latCode 1) circ false g states 2 (.str "Z".toList)).rate natApi (rngBits [true]) 0 = .ok 0 := by
  obtain ⟨circ, g, states, h1, h2, l, h3, _⟩ := quietRate_inv rot2_rate
  have hc : makeRotated 1 2 false = .ok ((Rotated.lat 2 false diagOrder).latCode 1) := by
    rw [makeRotated, Rotated.make (by omega) diagOrder (by decide)]; exact mkLatCode_ok (Rotated.wf _ (by omega)) (Rotated.full _ (by omega)) 1
  have hz : OnlyZ ((Rotated.lat 2 false diagOrder).latCode 1) (.str "Z".toList) := by
    intro is his i hi a ha q
    have e : logicalOpsToIndices ((Rotated.lat 2 false diagOrder).latCode 1).code.logicalOps.length (.str "Z".toList) = .ok [1] := by decide +kernel
    rw [e] at his
    cases his
    obtain rfl := List.mem_singleton.1 hi
    cases ha
    revert q
    decide +kernel
  have hgood : GoodShots 3 natApi (rngBits [true]) (ufExperiment ((Rotated.lat 2 false diagOrder).latCode 1) circ false g states 2 (.str "Z".toList)) 0 1
      (flagsOf ([] : List (List Char × ErrDict Nat))) 2 := fun S0 h0 => ⟨starts_of_loop _ _ _ _ _ _ h3 S0 h0, few_none (by omega) _⟩
  exact ⟨circ, g, states, h1, hgood, C69_rotated_partial natApi (rngBits [true]) 0 1 2 (by omega) (by omega) false _ hc [] [] (by simp) _ hz (by intro q _; rfl)
    circ h1 2 (by omega) false _ _ _ g states h2 hgood⟩

/-! ### C70: configuration of the decoder -/

/-- **C70**: a decoder configuration without `weighted` uses the default of the class (which is documented to be `True`). -/
def C70_statement : Prop := ∀ (name : Option (List Char)), DecoderConfig.fromDict name none = DecoderConfig.new name none

/-- **C70 fails**: from a dictionary (of a configuration file), the default is `False`. -/
theorem C70_default_counterexample : ¬ C70_statement := fun h => absurd (congrArg Except.toOption (h none)) (by decide +kernel)

/-- **C70 (partial)**: with `weighted` given, both ways lead to the same configuration; exactly the names of the four decoders are accepted. -/
theorem C70_config_partial (name : Option (List Char)) (w : Bool) : DecoderConfig.fromDict name (some w) = DecoderConfig.new name (some w) ∧
    ((∃ d, DecoderConfig.new name (some w) = .ok d) ↔ ∀ x, name = some x → x = "PyMatchingDecoder".toList ∨ x = "UnionFindDecoder".toList ∨
      x = "UnionFindNoWeights".toList ∨ x = "FusionBlossomDecoder".toList) ∧
    ∀ d, DecoderConfig.new name (some w) = .ok d → d.weighted = w ∧ d.name = name.getD "PyMatchingDecoder".toList := by
  have hnew : DecoderConfig.new name (some w) = if name.getD "PyMatchingDecoder".toList ∉ validDecoders then .error .valueError
    else .ok ⟨name.getD "PyMatchingDecoder".toList, w⟩ := rfl
  have hm : ∀ x, x ∈ validDecoders ↔ (x = "PyMatchingDecoder".toList ∨ x = "UnionFindDecoder".toList ∨
      x = "UnionFindNoWeights".toList ∨ x = "FusionBlossomDecoder".toList) := by
    intro x
    unfold validDecoders
    generalize "PyMatchingDecoder".toList = a, "UnionFindDecoder".toList = b, "UnionFindNoWeights".toList = c, "FusionBlossomDecoder".toList = d
    simp
  refine ⟨by cases name <;> rfl, ?_, ?_⟩
  · rw [hnew]
    constructor
    · rintro ⟨d, hd⟩ x rfl
      by_cases hx : (some x).getD "PyMatchingDecoder".toList ∈ validDecoders
      · exact (hm x).1 hx
      · rw [if_pos hx] at hd; cases hd
    · intro h
      refine ⟨_, if_neg (not_not.2 ?_)⟩
      cases name with
      | none => exact (hm _).2 (.inl rfl)
      | some x => exact (hm x).2 (h x rfl)
  · intro d hd
    rw [hnew] at hd
    by_cases hx : name.getD "PyMatchingDecoder".toList ∈ validDecoders
    · rw [if_neg (not_not.2 hx)] at hd
      cases hd
      exact ⟨rfl, rfl⟩
    · rw [if_pos hx] at hd; cases hd

/-- **C70**, the decoder without weights: it is refused exactly if weights are asked for (also by default), and no other decoder is refused. -/
theorem C70_noweights (d : DecoderConfig) : d.check = .error .valueError ↔ d.weighted = true ∧ d.name = "UnionFindNoWeights".toList := by
  unfold DecoderConfig.check
  generalize "UnionFindNoWeights".toList = u
  by_cases h : d.weighted = true ∧ d.name = u
  · rw [if_pos h]; exact ⟨fun _ => h, fun _ => rfl⟩
  · rw [if_neg h]; exact ⟨fun h' => (by cases h'), fun h' => absurd h' h⟩

example : (DecoderConfig.new (some "UnionFindNoWeights".toList) none).toOption.map (fun d => d.check.toOption) = some none := by decide +kernel
example : (DecoderConfig.fromDict (some "UnionFindNoWeights".toList) none).toOption.map (fun d => d.check.toOption) = some (some ()) := by decide +kernel

/-- **C70**: an update with the name of an unknown decoder raises, but leaves the name in the configuration. -/
theorem C70_update_leaves (d : DecoderConfig) (name : List Char) (w : Option Bool) (h : name ∉ validDecoders) :
    (d.update (some name) w).2 = .error .valueError ∧ (d.update (some name) w).1.name = name := ⟨if_pos h, rfl⟩

/-! ### C71: configurations can be checked -/

/-- **C71**: an experiment whose configuration satisfies the schema is validated by `validate`. -/
def C71_statement : Prop := ∀ objs : List Attr, (∀ a ∈ objs, a = .none ∨ a = .built) → experimentValidate (.ok true) .dict objs = .ok true

/-- **C71 fails always**: `as_dict` calls `as_dict` of the general configuration, which is a dictionary. -/
theorem C71_validate_raises (schema : Except Err Bool) (general : Attr) (h : general ≠ .config) (objs : List Attr) :
    experimentValidate schema general objs = .error .attributeError ∧ experimentAsDict general objs = .error .attributeError := by
  have : experimentAsDict general objs = .error .attributeError := by
    unfold experimentAsDict experimentFields
    cases general with
    | config => exact absurd rfl h
    | dict => rfl
    | none => rfl
    | built => rfl
  refine ⟨?_, this⟩
  unfold experimentValidate
  rw [this]

/-- **C71**: if all attributes had `as_dict`, the answer would be the one of the schema. -/
theorem C71_schema (schema : Except Err Bool) (objs : List Attr) (h : ∀ a ∈ objs, a = .config) : experimentValidate schema .config objs = schema := by
  have : experimentAsDict .config objs = .ok () := by
    have key : ∀ l : List Attr, (∀ a ∈ l, a = .config) → loopE (fun (_ : Unit) a => a.asDict) () l = .ok () := by
      intro l
      induction l with
      | nil => intro _; rfl
      | cons a l ih =>
        intro hl
        obtain rfl := hl a (by simp)
        exact ih fun a ha => hl a (List.mem_cons_of_mem _ ha)
    refine key _ fun a ha => ?_
    rcases List.mem_append.1 ha with ha | ha
    · simpa using ha
    · exact h a ha
  unfold experimentValidate
  rw [this]

theorem C71_validate_counterexample : ¬ C71_statement := by
  intro h
  have := h (List.replicate 5 .none) (by simp)
  rw [(C71_validate_raises (.ok true) .dict (by decide) _).1] at this
  cases this

end Plaquette
