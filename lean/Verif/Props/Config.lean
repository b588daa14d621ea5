import Verif.Lemmas.Config
import Verif.Props.Frontend

/-!
# Reading and building an experiment

C85: a dictionary is read twice. C86: what is read. C87: what is built. C88: the schema.
-/

namespace Plaquette
variable {F E D : Type}

/-! ### C85: reading a dictionary twice -/

/-- **C85**: a dictionary from which an experiment was read can be read again, and gives the same experiment. -/
def C85_statement : Prop :=
  ∀ (env : Env) (d d' : ExperimentDict Nat) (x : ExperimentConf Nat), env.qo.Perm qubitKeys → env.go.Perm gateKeys →
    ExperimentConf.fromDict env d = (d', .ok x) → (ExperimentConf.fromDict env d').2 = .ok x

/-- A file system with all files. -/
def allFiles : Files := ⟨fun _ => true, fun _ => true⟩

/-- An environment with all files and the two devices of the package. -/
def plainEnv : Env := ⟨allFiles, ["clifford".toList, "stim".toList], qubitKeys, gateKeys⟩

/-- A repetition code with errors X of probability 1 (in the natural numbers). -/
def sampleDict : ExperimentDict Nat :=
  { general := some ⟨"Z".toList, ["logical_error_rate".toList], 7⟩
    code := some { name := some (some "RepetitionCode".toList), rounds := some (.int 2), size := some (.int 3) }
    errors := some { qubit := some { chan := [("X".toList, .dict { distribution := some "constant".toList, params := some [1] })] } } }

/-- The dictionary contains objects after the first reading, and they have no method `setdefault`. -/
theorem C85_objects_counterexample : ¬ C85_statement := by
  intro h
  have h1 : ∃ d' x, ExperimentConf.fromDict plainEnv sampleDict = (d', .ok x) ∧
      (ExperimentConf.fromDict plainEnv d').2 = .error .attributeError := ⟨_, _, rfl, rfl⟩
  obtain ⟨d', x, h1, h2⟩ := h1
  have h3 := h plainEnv sampleDict d' x (List.Perm.refl _) (List.Perm.refl _) h1
  rw [h2] at h3
  cases h3

/-- There is something in one of the two sections of errors. -/
def ExperimentDict.NamesErrors (d : ExperimentDict F) : Prop :=
  ∃ e, d.errors = some e ∧ ((∃ s, e.qubit = some s ∧ s.truthy = true) ∨ ∃ s, e.gate = some s ∧ s.truthy = true)

theorem qubitKeys_nodup : qubitKeys.Nodup := by decide
theorem gateKeys_nodup : gateKeys.Nodup := by decide

theorem DeviceConfig.fromDict_ok {devices : List (List Char)} {d d' : DeviceDict} {c : DeviceConfig}
    (h : DeviceConfig.fromDict devices d = (d', .ok c)) :
    c = ⟨d.name.getD "clifford".toList, d.shots.getD (.int 1024)⟩ ∧ deviceCheck devices c.name c.shots = .ok () ∧
      DeviceConfig.fromDict devices d' = (d', .ok c) := by
  unfold DeviceConfig.fromDict at h
  dsimp only [Option.getD_some] at h
  rcases hc : deviceCheck devices (d.name.getD "clifford".toList) (d.shots.getD (.int 1024)) with e | u
  · rw [hc] at h; cases h
  · rw [hc] at h
    cases h
    refine ⟨rfl, hc, ?_⟩
    unfold DeviceConfig.fromDict
    dsimp only [Option.getD_some]
    rw [hc]

theorem CircuitConfig.fromDict_ok {fs : Files} {d d' : CircuitDict} {c : CircuitConfig}
    (h : CircuitConfig.fromDict fs d = (d', .ok c)) :
    c = ⟨d.provided.getD false, d.hasErrors.getD false, d.path.getD "circuit.txt".toList⟩ ∧ fs.dir c.path = true ∧
      (c.provided = true → fs.file c.path = true) ∧ CircuitConfig.fromDict fs d' = (d', .ok c) := by
  unfold CircuitConfig.fromDict at h
  dsimp only [Option.getD_some] at h
  rcases hc : validateFilepath fs (d.path.getD "circuit.txt".toList) (d.provided.getD false) with e | u
  · rw [hc] at h; cases h
  · rw [hc] at h
    cases h
    refine ⟨rfl, ?_, fun hp => ?_, ?_⟩
    · unfold validateFilepath at hc
      dsimp only
      by_cases h1 : fs.dir (d.path.getD "circuit.txt".toList) = true
      · exact h1
      · rw [if_pos (by simpa using h1)] at hc; cases hc
    · dsimp only at hp ⊢
      unfold validateFilepath at hc
      split at hc
      · cases hc
      · split at hc
        · cases hc
        · rename_i h1 h2
          rw [hp] at h2
          simpa using h2
    · unfold CircuitConfig.fromDict
      dsimp only [Option.getD_some]
      rw [hc]

theorem DecoderConfig.read_ok {d d' : DecoderDict} {c : DecoderConfig} (h : DecoderConfig.read d = (d', .ok c)) :
    c = ⟨d.name.getD "PyMatchingDecoder".toList, d.weighted.getD false⟩ ∧ c.name ∈ validDecoders ∧
      DecoderConfig.read d' = (d', .ok c) := by
  unfold DecoderConfig.read at h
  obtain ⟨h1, h2⟩ := Prod.mk.inj h
  subst h1
  have key : ∀ n w, DecoderConfig.fromDict n w = DecoderConfig.fromDict (some (n.getD "PyMatchingDecoder".toList)) (some (w.getD false)) :=
    fun n w => rfl
  refine ⟨?_, ?_, ?_⟩
  · unfold DecoderConfig.fromDict DecoderConfig.new at h2
    dsimp only [Option.getD_some] at h2
    split at h2
    · cases h2
    · cases h2; rfl
  · unfold DecoderConfig.fromDict DecoderConfig.new at h2
    dsimp only [Option.getD_some] at h2
    split at h2
    · cases h2
    · rename_i hm
      cases h2; exact not_not.1 hm
  · unfold DecoderConfig.read
    rw [← key, h2]
    rfl

theorem CodeConfig.read_ok {d d' : CodeDict} {c : CodeConfig} (h : CodeConfig.read d = (d', .ok c)) :
    CodeConfig.postInit ⟨d.name.getD none, d.rounds.getD (.int 1), d.size.getD (.int (-1))⟩ = .ok c ∧
      CodeConfig.read d' = (d', .ok c) := by
  unfold CodeConfig.read at h
  obtain ⟨h1, h2⟩ := Prod.mk.inj h
  subst h1
  exact ⟨h2, Prod.ext rfl h2⟩

theorem QubitErrors.fromDict_ok {fs : Files} {order : List (List Char)} {s s' : QubitSection F} {x : QubitErrors F}
    (h : QubitErrors.fromDict fs order s = (s', .ok x)) :
    s.read fs "qubit_errors.csv".toList true QubitMeta.fromDict QubitMeta.empty order = (s', .ok (x.paths, x.conf.sample)) ∧
      x.conf.chan = s'.metaOf QubitMeta.empty := by
  unfold QubitErrors.fromDict at h
  rcases hr : s.read fs "qubit_errors.csv".toList true QubitMeta.fromDict QubitMeta.empty order with ⟨s1, e | ⟨p, b⟩⟩
  · rw [hr] at h; cases h
  · rw [hr] at h; cases h; exact ⟨rfl, rfl⟩

theorem GateErrors.fromDict_ok {fs : Files} {order : List (List Char)} {s s' : GateSection F} {x : GateErrors F}
    (h : GateErrors.fromDict fs order s = (s', .ok x)) :
    s.read fs "gate_errors.csv".toList false GateMeta.fromDict GateMeta.empty order = (s', .ok (x.paths, x.conf.sample)) ∧
      x.conf.chan = fun k => if k = "fabrication".toList then GateMeta.empty else s'.metaOf GateMeta.empty k := by
  unfold GateErrors.fromDict at h
  rcases hr : s.read fs "gate_errors.csv".toList false GateMeta.fromDict GateMeta.empty order with ⟨s1, e | ⟨p, b⟩⟩
  · rw [hr] at h; cases h
  · rw [hr] at h; cases h; exact ⟨rfl, rfl⟩

theorem ErrSection.eq_empty {D M : Type} {s : ErrSection D M} (h : s.truthy = false) : s = {} := by
  rcases s with ⟨_ | _, _ | _, _ | _, _ | _⟩ <;> first | rfl | cases h

theorem QubitErrors.readOpt_eq (fs : Files) (order : List (List Char)) (o : Option (QubitSection F)) : QubitErrors.readOpt fs order o =
    (if (o.getD {}).truthy then some (QubitErrors.fromDict fs order (o.getD {})).1 else o, (QubitErrors.fromDict fs order (o.getD {})).2) := by
  cases o with
  | none => rfl
  | some s =>
    unfold QubitErrors.readOpt
    dsimp only [Option.getD_some]
    by_cases hs : s.truthy = true
    · rw [if_pos hs, if_pos hs]
    · rw [if_neg hs, if_neg hs]
      have := ErrSection.eq_empty (Bool.eq_false_iff.mpr hs)
      subst this
      rfl

theorem GateErrors.readOpt_eq (fs : Files) (order : List (List Char)) (o : Option (GateSection F)) : GateErrors.readOpt fs order o =
    (if (o.getD {}).truthy then some (GateErrors.fromDict fs order (o.getD {})).1 else o, (GateErrors.fromDict fs order (o.getD {})).2) := by
  cases o with
  | none => rfl
  | some s =>
    unfold GateErrors.readOpt
    dsimp only [Option.getD_some]
    by_cases hs : s.truthy = true
    · rw [if_pos hs, if_pos hs]
    · rw [if_neg hs, if_neg hs]
      have := ErrSection.eq_empty (Bool.eq_false_iff.mpr hs)
      subst this
      rfl

/-- The section as it was, the section as it is after reading, and the object. -/
theorem ErrorsConfig.fromDict_ok {fs : Files} {qo go : List (List Char)} {d d' : ErrorsDict F} {x : ErrorsConfig F}
    (h : ErrorsConfig.fromDict fs qo go d = (d', .ok x)) :
    (∃ s', QubitErrors.fromDict fs qo (d.qubit.getD {}) = (s', .ok x.qubit) ∧
      ((d.qubit.getD {}).truthy = true → d'.qubit = some s') ∧ ((d.qubit.getD {}).truthy = false → d'.qubit = d.qubit)) ∧
    (∃ s', GateErrors.fromDict fs go (d.gate.getD {}) = (s', .ok x.gate) ∧
      ((d.gate.getD {}).truthy = true → d'.gate = some s') ∧ ((d.gate.getD {}).truthy = false → d'.gate = d.gate)) := by
  unfold ErrorsConfig.fromDict at h
  rw [QubitErrors.readOpt_eq, GateErrors.readOpt_eq] at h
  rcases eq : QubitErrors.fromDict fs qo (d.qubit.getD {}) with ⟨sq, e | xq⟩
  · rw [eq] at h; cases h
  · rw [eq] at h
    dsimp only at h
    rcases eg : GateErrors.fromDict fs go (d.gate.getD {}) with ⟨sg, e | xg⟩
    · rw [eg] at h; cases h
    · rw [eg] at h
      cases h
      exact ⟨⟨sq, rfl, fun h => if_pos h, fun h => if_neg (by rw [h]; decide)⟩, ⟨sg, rfl, fun h => if_pos h, fun h => if_neg (by rw [h]; decide)⟩⟩

theorem ErrorsConfig.fromDict_again {fs : Files} {qo go : List (List Char)} {d d' : ErrorsDict F} {x : ErrorsConfig F} (hqo : qo.Perm qubitKeys)
    (hgo : go.Perm gateKeys) (h : ErrorsConfig.fromDict fs qo go d = (d', .ok x)) :
    ((d.qubit.getD {}).truthy = false → (d.gate.getD {}).truthy = false → d' = d) ∧
    ((d.qubit.getD {}).truthy = true ∨ (d.gate.getD {}).truthy = true → (ErrorsConfig.fromDict fs qo go d').2 = .error .attributeError) := by
  obtain ⟨⟨sq, q1, q2, q3⟩, ⟨sg, g1, g2, g3⟩⟩ := ErrorsConfig.fromDict_ok h
  have nq : qo.Nodup := hqo.nodup_iff.2 qubitKeys_nodup
  have ng : go.Nodup := hgo.nodup_iff.2 gateKeys_nodup
  have eq : qo ≠ [] := fun e => by rw [e] at hqo; exact absurd hqo.nil_eq (by decide)
  have eg : go ≠ [] := fun e => by rw [e] at hgo; exact absurd hgo.nil_eq (by decide)
  constructor
  · intro a b
    rcases d with ⟨dq, dg⟩
    rcases d' with ⟨dq', dg'⟩
    have := q3 a
    have := g3 b
    dsimp only at *
    subst dq' dg'
    rfl
  · intro a
    have r1 : ∀ {y : QubitSection F × Except Err (PathConfig × Bool)},
        sq.read fs "qubit_errors.csv".toList true QubitMeta.fromDict QubitMeta.empty qo = y → y = (sq, .error .attributeError) := by
      intro y hy
      rw [← hy]
      exact ErrSection.read_again nq (QubitErrors.fromDict_ok q1).1 (List.Perm.refl _) eq
    have r2 : sg.read fs "gate_errors.csv".toList false GateMeta.fromDict GateMeta.empty go = (sg, .error .attributeError) :=
      ErrSection.read_again ng (GateErrors.fromDict_ok g1).1 (List.Perm.refl _) eg
    have t1 : sq.truthy = true := ErrSection.truthy_of_read nq (QubitErrors.fromDict_ok q1).1
    have t2 : sg.truthy = true := ErrSection.truthy_of_read ng (GateErrors.fromDict_ok g1).1
    have f1 : QubitErrors.fromDict fs qo sq = (sq, .error .attributeError) := by
      unfold QubitErrors.fromDict
      rw [r1 rfl]
    have f2 : GateErrors.fromDict fs go sg = (sg, .error .attributeError) := by
      unfold GateErrors.fromDict
      rw [r2]
    unfold ErrorsConfig.fromDict
    rw [QubitErrors.readOpt_eq, GateErrors.readOpt_eq]
    cases hq : (d.qubit.getD {}).truthy with
    | true =>
      rw [q2 hq]
      dsimp only [Option.getD_some]
      rw [f1]
    | false =>
      have hg : (d.gate.getD {}).truthy = true := a.resolve_left (by rw [hq]; decide)
      rw [q3 hq, g2 hg, q1]
      dsimp only [Option.getD_some]
      rw [f2]

/-- The parts of a dictionary that was read. -/
theorem ExperimentConf.fromDict_ok {env : Env} {d d' : ExperimentDict F} {x : ExperimentConf F} (h : ExperimentConf.fromDict env d = (d', .ok x)) :
    ∃ dev cir cod err dec, d' = ⟨d.general, some dev, some err, some dec, some cir, some cod⟩ ∧ x.general = d.general ∧
      DeviceConfig.fromDict env.devices (d.device.getD {}) = (dev, .ok x.device) ∧
      CircuitConfig.fromDict env.fs (d.circuit.getD {}) = (cir, .ok x.circuit) ∧
      CodeConfig.read (d.code.getD {}) = (cod, .ok x.code) ∧
      ErrorsConfig.fromDict env.fs env.qo env.go (d.errors.getD {}) = (err, .ok x.errors) ∧
      DecoderConfig.read (d.decoder.getD {}) = (dec, .ok x.decoder) := by
  unfold ExperimentConf.fromDict at h
  dsimp only at h
  rcases h1 : DeviceConfig.fromDict env.devices (d.device.getD {}) with ⟨dev, e | x1⟩
  · rw [h1] at h; cases h
  rw [h1] at h
  dsimp only at h
  rcases h2 : CircuitConfig.fromDict env.fs (d.circuit.getD {}) with ⟨cir, e | x2⟩
  · rw [h2] at h; cases h
  rw [h2] at h
  dsimp only at h
  rcases h3 : CodeConfig.read (d.code.getD {}) with ⟨cod, e | x3⟩
  · rw [h3] at h; cases h
  rw [h3] at h
  dsimp only at h
  rcases h4 : ErrorsConfig.fromDict env.fs env.qo env.go (d.errors.getD {}) with ⟨err, e | x4⟩
  · rw [h4] at h; cases h
  rw [h4] at h
  dsimp only at h
  rcases h5 : DecoderConfig.read (d.decoder.getD {}) with ⟨dec, e | x5⟩
  · rw [h5] at h; cases h
  rw [h5] at h
  cases h
  exact ⟨dev, cir, cod, err, dec, rfl, rfl, rfl, rfl, rfl, rfl, rfl⟩

/-- **C85 (partial)**: a dictionary that was read can be read again exactly if it says nothing about errors (no section, or empty ones). Then
the second reading gives the same experiment and changes nothing more; otherwise it raises AttributeError. -/
theorem C85_again_partial (env : Env) (d d' : ExperimentDict F) (x : ExperimentConf F) (hqo : env.qo.Perm qubitKeys) (hgo : env.go.Perm gateKeys)
    (h : ExperimentConf.fromDict env d = (d', .ok x)) :
    (¬ d.NamesErrors → ExperimentConf.fromDict env d' = (d', .ok x)) ∧
    (d.NamesErrors → (ExperimentConf.fromDict env d').2 = .error .attributeError) := by
  obtain ⟨dev, cir, cod, err, dec, rfl, hg, h1, h2, h3, h4, h5⟩ := ExperimentConf.fromDict_ok h
  have a1 := (DeviceConfig.fromDict_ok h1).2.2
  have a2 := (CircuitConfig.fromDict_ok h2).2.2.2
  have a3 := (CodeConfig.read_ok h3).2
  obtain ⟨b1, b2⟩ := ErrorsConfig.fromDict_again hqo hgo h4
  have a5 := (DecoderConfig.read_ok h5).2.2
  have tq : ¬ d.NamesErrors ↔ ((d.errors.getD {}).qubit.getD {}).truthy = false ∧ ((d.errors.getD {}).gate.getD {}).truthy = false := by
    unfold ExperimentDict.NamesErrors
    cases d.errors with
    | none => simp; exact ⟨rfl, rfl⟩
    | some e =>
      rcases e with ⟨_ | s, _ | g⟩
      · simp; exact ⟨rfl, rfl⟩
      · simp
        exact fun _ => rfl
      · simp
        exact fun _ => rfl
      · simp
  constructor
  · intro hn
    have e := b1 (tq.1 hn).1 (tq.1 hn).2
    unfold ExperimentConf.fromDict
    dsimp only [Option.getD_some]
    rw [a1]
    dsimp only
    rw [a2]
    dsimp only
    rw [a3]
    dsimp only
    rw [e] at h4 ⊢
    rw [h4]
    dsimp only
    rw [a5, ← hg]
  · intro hn
    have hn' : ((d.errors.getD {}).qubit.getD {}).truthy = true ∨ ((d.errors.getD {}).gate.getD {}).truthy = true := by
      by_contra hc
      rw [not_or, Bool.not_eq_true, Bool.not_eq_true] at hc
      exact tq.2 hc hn
    have b := b2 hn'
    unfold ExperimentConf.fromDict
    dsimp only [Option.getD_some]
    rw [a1]
    dsimp only
    rw [a2]
    dsimp only
    rw [a3]
    dsimp only
    rcases e : ErrorsConfig.fromDict env.fs env.qo env.go err with ⟨err', e' | y⟩
    · rw [e] at b
      dsimp only at b
      cases b
      rfl
    · rw [e] at b; cases b

example : sampleDict.NamesErrors := ⟨_, rfl, .inl ⟨_, rfl, rfl⟩⟩
example : ∃ d' x, ExperimentConf.fromDict plainEnv ({ sampleDict with errors := none } : ExperimentDict Nat) = (d', .ok x) ∧
    ¬ ({ sampleDict with errors := none } : ExperimentDict Nat).NamesErrors :=
  ⟨_, _, rfl, fun ⟨_, h, _⟩ => by cases h⟩

/-! ### C86: what is read -/

/-- The value a channel of a section stands for. -/
inductive QubitReads (s : QubitSection F) (k : List Char) : QubitMeta F → Prop
  | missing (h : dictGet s.chan k = none) : QubitReads s k QubitMeta.empty
  | given (d : QubitMetaDict F) (n : List Char) (m : QubitMeta F) (h : dictGet s.chan k = some (.dict d)) (hn : d.distribution = some n)
      (hm : m.distribution = n ∧ m.params = d.params.getD [] ∧ (m.enabled = d.enabled.getD true ∨ n = [] ∧ m.params = [] ∧ m.enabled = false)) :
      QubitReads s k m

/-- The value a channel of a section of gate errors stands for. -/
inductive GateReads (s : GateSection F) (k : List Char) : GateMeta F → Prop
  | missing (h : dictGet s.chan k = none) : GateReads s k GateMeta.empty
  | given (d : GateMetaDict F) (n : Distr) (h : dictGet s.chan k = some (.dict d)) (hn : d.distribution = some n) :
      GateReads s k ⟨n, d.induced.getD [], d.params.getD [], d.enabled.getD true⟩

/-- **C86**: what the dictionary says is what the experiment has, and what it does not say has the default value of the class. (For the
sections of errors: the default path is left out, which is the current directory in both cases.) -/
def C86_statement : Prop :=
  ∀ (env : Env) (d d' : ExperimentDict Nat) (x : ExperimentConf Nat), env.qo.Perm qubitKeys → env.go.Perm gateKeys →
    ExperimentConf.fromDict env d = (d', .ok x) →
    x.general = some (d.general.getD defaultGeneral) ∧
    x.device = ⟨(d.device.getD {}).name.getD "clifford".toList, (d.device.getD {}).shots.getD (.int 1024)⟩ ∧
    x.decoder = ⟨(d.decoder.getD {}).name.getD "PyMatchingDecoder".toList, (d.decoder.getD {}).weighted.getD true⟩ ∧
    (∀ s, s = (d.errors.getD {}).qubit.getD {} →
      x.errors.qubit.conf.sample = s.sample.getD true ∧ ∀ k ∈ qubitKeys, QubitReads s k (x.errors.qubit.conf.chan k)) ∧
    (∀ s, s = (d.errors.getD {}).gate.getD {} →
      x.errors.gate.conf.sample = s.sample.getD true ∧ ∀ k ∈ gateKeys, GateReads s k (x.errors.gate.conf.chan k))

/-- Without `general` there is `None`. -/
theorem C86_general_counterexample : ¬ C86_statement := by
  intro h
  have h1 : ∃ d' x, ExperimentConf.fromDict plainEnv ({ sampleDict with general := none } : ExperimentDict Nat) = (d', .ok x) ∧ x.general = none := ⟨_, _, rfl, rfl⟩
  obtain ⟨d', x, h1, h2⟩ := h1
  have h3 := (h plainEnv _ d' x (List.Perm.refl _) (List.Perm.refl _) h1).1
  rw [h2] at h3
  cases h3

/-- Without `weighted` the decoder is not weighted. -/
theorem C86_weighted_counterexample : ¬ C86_statement := by
  intro h
  have h1 : ∃ d' x, ExperimentConf.fromDict plainEnv sampleDict = (d', .ok x) ∧ x.decoder.weighted = false := ⟨_, _, rfl, rfl⟩
  obtain ⟨d', x, h1, h2⟩ := h1
  have h3 := (h plainEnv _ d' x (List.Perm.refl _) (List.Perm.refl _) h1).2.2.1
  rw [h3] at h2
  cases h2

/-- Without `sample` gate errors are not sampled. -/
theorem C86_sample_counterexample : ¬ C86_statement := by
  intro h
  have h1 : ∃ d' x, ExperimentConf.fromDict plainEnv sampleDict = (d', .ok x) ∧ x.errors.gate.conf.sample = false := ⟨_, _, rfl, rfl⟩
  obtain ⟨d', x, h1, h2⟩ := h1
  have h3 := (h plainEnv _ d' x (List.Perm.refl _) (List.Perm.refl _) h1).2.2.2.2 _ rfl |>.1
  rw [h3] at h2
  cases h2

/-- A dictionary with fabrication errors of gates. -/
def fabricationDict : ExperimentDict Nat :=
  { sampleDict with errors := some { gate := some { sample := some true, chan := [("fabrication".toList, .dict { distribution := some (.str "user".toList) })] } } }

/-- The channel `fabrication` of the gates is dropped. -/
theorem C86_fabrication_counterexample : ¬ C86_statement := by
  intro h
  have h1 : ∃ d' x, ExperimentConf.fromDict plainEnv fabricationDict = (d', .ok x) ∧
      x.errors.gate.conf.chan "fabrication".toList = GateMeta.empty := ⟨_, _, rfl, rfl⟩
  obtain ⟨d', x, h1, h2⟩ := h1
  have h3 := (h plainEnv _ d' x (List.Perm.refl _) (List.Perm.refl _) h1).2.2.2.2 _ rfl |>.2 "fabrication".toList (by decide)
  rw [h2] at h3
  have h4 : dictGet (((fabricationDict.errors.getD {}).gate.getD {}).chan) "fabrication".toList =
    some (.dict { distribution := some (.str "user".toList) }) := rfl
  generalize hm : (GateMeta.empty : GateMeta Nat) = m at h3
  cases h3 with
  | missing h => rw [h4] at h; cases h
  | given d n h hn =>
    rw [h4] at h
    cases h
    cases hn
    exact absurd (congrArg GateMeta.enabled hm) (by decide)

theorem QubitMeta.fromDict_ok {d : QubitMetaDict F} {m : QubitMeta F} (h : (QubitMeta.fromDict d).2 = .ok m) :
    ∃ n, d.distribution = some n ∧ m.distribution = n ∧ m.params = d.params.getD [] ∧
      (m.enabled = d.enabled.getD true ∨ n = [] ∧ m.params = [] ∧ m.enabled = false) := by
  unfold QubitMeta.fromDict at h
  dsimp only [Option.getD_some] at h
  cases hd : d.distribution with
  | none => rw [hd] at h; cases h
  | some n =>
    rw [hd] at h
    refine ⟨n, rfl, ?_⟩
    generalize d.params.getD [] = ps at h ⊢
    generalize d.enabled.getD true = b at h ⊢
    have key : ∀ {m : QubitMeta F}, (Except.ok (if (QubitMeta.isEmpty ⟨n, ps, b⟩) then (⟨n, ps, false⟩ : QubitMeta F) else ⟨n, ps, b⟩) : Except Err (QubitMeta F)) = .ok m →
        m.distribution = n ∧ m.params = ps ∧ (m.enabled = b ∨ n = [] ∧ m.params = [] ∧ m.enabled = false) := by
      intro m hm
      cases hm
      split
      · rename_i he
        unfold QubitMeta.isEmpty at he
        rw [Bool.and_eq_true, List.isEmpty_iff, List.isEmpty_iff] at he
        exact ⟨rfl, rfl, .inr ⟨he.1, he.2, rfl⟩⟩
      · exact ⟨rfl, rfl, .inl rfl⟩
    unfold QubitMeta.postInit at h
    dsimp only at h
    split at h
    · split at h
      · exact key h
      · cases h
    · split at h
      · split at h
        · cases h
        · exact key h
      · split at h
        · split at h
          · cases h
          · exact key h
        · split at h
          · exact key h
          · cases h

theorem GateMeta.fromDict_ok {d : GateMetaDict F} {m : GateMeta F} (h : (GateMeta.fromDict d).2 = .ok m) :
    ∃ n, d.distribution = some n ∧ m = ⟨n, d.induced.getD [], d.params.getD [], d.enabled.getD true⟩ := by
  unfold GateMeta.fromDict at h
  dsimp only [Option.getD_some] at h
  cases hd : d.distribution with
  | none => rw [hd] at h; cases h
  | some n =>
    rw [hd] at h
    refine ⟨n, rfl, ?_⟩
    unfold GateMeta.postInit at h
    dsimp only at h
    cases n with
    | str s =>
      dsimp only at h
      split at h
      · cases h
      · cases h; rfl
    | list l =>
      dsimp only at h
      split at h
      · cases h
      · split at h
        · cases h
        · cases h; rfl

/-- **C86 (partial)**: what the dictionary says is what the experiment has (the fabrication errors of gates excepted). What it does not say
has the default value of the class, except that there is no `general` section, the decoder is not weighted and gate errors are not sampled. A file of
errors is loaded if a path is given, unless the dictionary says otherwise. -/
theorem C86_values_partial (env : Env) (d d' : ExperimentDict F) (x : ExperimentConf F) (hqo : env.qo.Perm qubitKeys) (hgo : env.go.Perm gateKeys)
    (h : ExperimentConf.fromDict env d = (d', .ok x)) :
    x.general = d.general ∧
    x.device = ⟨(d.device.getD {}).name.getD "clifford".toList, (d.device.getD {}).shots.getD (.int 1024)⟩ ∧
    x.circuit = ⟨(d.circuit.getD {}).provided.getD false, (d.circuit.getD {}).hasErrors.getD false, (d.circuit.getD {}).path.getD "circuit.txt".toList⟩ ∧
    x.decoder = ⟨(d.decoder.getD {}).name.getD "PyMatchingDecoder".toList, (d.decoder.getD {}).weighted.getD false⟩ ∧
    CodeConfig.postInit ⟨(d.code.getD {}).name.getD none, (d.code.getD {}).rounds.getD (.int 1), (d.code.getD {}).size.getD (.int (-1))⟩ = .ok x.code ∧
    (∀ s, s = (d.errors.getD {}).qubit.getD {} →
      x.errors.qubit.paths = ⟨s.dataPath.getD "qubit_errors.csv".toList, s.loadFile.getD s.dataPath.isSome⟩ ∧
      x.errors.qubit.conf.sample = s.sample.getD true ∧ ∀ k ∈ qubitKeys, QubitReads s k (x.errors.qubit.conf.chan k)) ∧
    (∀ s, s = (d.errors.getD {}).gate.getD {} →
      x.errors.gate.paths = ⟨s.dataPath.getD "gate_errors.csv".toList, s.loadFile.getD s.dataPath.isSome⟩ ∧
      x.errors.gate.conf.sample = s.sample.getD false ∧ x.errors.gate.conf.chan "fabrication".toList = GateMeta.empty ∧
      ∀ k ∈ gateKeys, k ≠ "fabrication".toList → GateReads s k (x.errors.gate.conf.chan k)) := by
  obtain ⟨dev, cir, cod, err, dec, rfl, hg, h1, h2, h3, h4, h5⟩ := ExperimentConf.fromDict_ok h
  obtain ⟨⟨sq, q1, -⟩, ⟨sg, g1, -⟩⟩ := ErrorsConfig.fromDict_ok h4
  obtain ⟨q1, q2⟩ := QubitErrors.fromDict_ok q1
  obtain ⟨g1, g2⟩ := GateErrors.fromDict_ok g1
  have nq : env.qo.Nodup := hqo.nodup_iff.2 qubitKeys_nodup
  have ng : env.go.Nodup := hgo.nodup_iff.2 gateKeys_nodup
  obtain ⟨q3, q4, -, -, -, -, q5⟩ := ErrSection.read_ok nq q1
  obtain ⟨g3, g4, -, -, -, -, g5⟩ := ErrSection.read_ok ng g1
  refine ⟨hg, (DeviceConfig.fromDict_ok h1).1, (CircuitConfig.fromDict_ok h2).1, (DecoderConfig.read_ok h5).1, (CodeConfig.read_ok h3).1,
    fun s hs => ⟨by rw [hs]; exact q3, by rw [hs]; exact q4, fun k hk => ?_⟩, fun s hs => ⟨by rw [hs]; exact g3, by rw [hs]; exact g4, ?_, fun k hk hf => ?_⟩⟩
  · rw [q2, hs]
    obtain ⟨-, ⟨a, b⟩ | ⟨m, a, b⟩⟩ := q5 k (hqo.mem_iff.2 hk)
    · rw [b]; exact .missing a
    · obtain ⟨n, c1, c2⟩ := QubitMeta.fromDict_ok b
      exact .given m n _ a c1 c2
  · rw [g2]; exact if_pos rfl
  · rw [g2, hs]
    dsimp only
    rw [if_neg hf]
    obtain ⟨-, ⟨a, b⟩ | ⟨m, a, b⟩⟩ := g5 k (hgo.mem_iff.2 hk)
    · rw [b]; exact .missing a
    · obtain ⟨n, c1, c2⟩ := GateMeta.fromDict_ok b
      rw [c2]
      exact .given m n a c1

example : ∃ d' x, ExperimentConf.fromDict plainEnv sampleDict = (d', .ok x) ∧ x.errors.qubit.conf.chan "X".toList = ⟨"constant".toList, [1], true⟩ :=
  ⟨_, _, rfl, rfl⟩

/-! ### C87: what is built -/

/-- **C87**: whatever has been built, a property that raises nothing gives an object that was built. -/
def C87_statement : Prop :=
  ∀ (b : BuiltParts Nat Unit Unit) (v : Option (List Char)), b.getDevice = .ok v → v.isSome = true

/-- The property `device` looks at the circuit: it gives `None` when there is a circuit but no device. -/
theorem C87_device_counterexample : ¬ C87_statement := by
  intro h
  exact absurd (h { circuit := some [] } none rfl) (by decide)

/-- And it raises when there is a device but no circuit. -/
theorem C87_device_raises : ∃ b : BuiltParts Nat Unit Unit, b.device = some "stim".toList ∧ b.getDevice = .error .valueError := ⟨{ device := some "stim".toList }, rfl, rfl⟩

/-- **C87 (partial)**: after `build` all five properties give objects. The code is the one of the configuration; the errors were made for this code, the circuit for this code
and these errors (or it is the circuit in the file), and the decoder for this code and these errors. -/
theorem C87_build_partial (mk : Makers F E D) (devices : List (List Char)) (x : ExperimentConf F) (b b' : BuiltParts F E D)
    (h : x.build mk devices b = .ok b') :
    ∃ code errors circuit device decoder g, x.general = some g ∧
      x.code.instantiate = .ok code ∧ mk.errors x.errors code = .ok errors ∧
      (if x.circuit.provided then x.circuit.hasErrors = true ∧ mk.parse x.circuit.path = .ok circuit
        else mk.generate code errors g.logicalOp = .ok circuit) ∧
      device = x.device.name ∧ device ∈ devices ∧
      mk.decoder x.decoder code errors = .ok decoder ∧ ¬ (x.decoder.weighted = true ∧ x.decoder.name = "UnionFindNoWeights".toList) ∧
      x.getCode b' = .ok (b', code) ∧ b'.getErrors = .ok errors ∧ b'.getCircuit = .ok circuit ∧ b'.getDevice = .ok (some device) ∧
      b'.getDecoder = .ok decoder := by
  unfold ExperimentConf.build at h
  cases hg : x.general with
  | none => simp only [ExperimentConf.updateRng, hg] at h; cases h
  | some g =>
    simp only [ExperimentConf.updateRng, hg] at h
    unfold ExperimentConf.buildCode at h
    cases hc : x.code.instantiate with
    | error e => rw [hc] at h; cases h
    | ok code =>
      rw [hc] at h
      simp only [ExperimentConf.buildErrors] at h
      cases he : mk.errors x.errors code with
      | error e => rw [he] at h; cases h
      | ok errors =>
        rw [he] at h
        simp only [ExperimentConf.buildCircuit, hg] at h
        cases hi : x.circuit.instantiate mk (some code) (some errors) g.logicalOp with
        | error e => rw [hi] at h; cases h
        | ok circuit =>
          rw [hi] at h
          simp only [ExperimentConf.buildDevice] at h
          cases hd : x.device.instantiate devices with
          | error e => rw [hd] at h; cases h
          | ok device =>
            rw [hd] at h
            simp only [ExperimentConf.buildDecoder] at h
            cases hk : x.decoder.check with
            | error e => rw [hk] at h; cases h
            | ok u =>
              rw [hk] at h
              simp only at h
              cases hm : mk.decoder x.decoder code errors with
              | error e => rw [hm] at h; cases h
              | ok decoder =>
                rw [hm] at h
                cases h
                have hdev : device = x.device.name ∧ device ∈ devices := by
                  unfold DeviceConfig.instantiate at hd
                  split at hd
                  · rename_i hmem; cases hd; exact ⟨rfl, hmem⟩
                  · cases hd
                refine ⟨code, errors, circuit, device, decoder, g, rfl, rfl, he, ?_, hdev.1, hdev.2, hm, ?_, rfl, rfl, rfl, rfl, rfl⟩
                · unfold CircuitConfig.instantiate at hi
                  cases hp : x.circuit.provided with
                  | true =>
                    rw [hp] at hi
                    rw [if_pos rfl]
                    rw [if_pos rfl] at hi
                    split at hi
                    · rename_i hh; exact ⟨hh, hi⟩
                    · cases hi
                  | false =>
                    rw [hp] at hi
                    simpa using hi
                · intro hw
                  unfold DecoderConfig.check at hk
                  rw [if_pos hw] at hk
                  cases hk

/-- The other four properties: they give the object, or they raise; the code is built if there is none. -/
theorem C87_getters (x : ExperimentConf F) (b : BuiltParts F E D) :
    (∀ v, b.getErrors = .ok v ↔ b.errors = some v) ∧ (∀ v, b.getCircuit = .ok v ↔ b.circuit = some v) ∧ (∀ v, b.getDecoder = .ok v ↔ b.decoder = some v) ∧
    (∀ b' c, x.getCode b = .ok (b', c) → b'.code = some c ∧ (b.code = none → x.code.instantiate = .ok c) ∧ x.getCode b' = .ok (b', c)) := by
  refine ⟨fun v => ?_, fun v => ?_, fun v => ?_, fun b' c h => ?_⟩
  · unfold BuiltParts.getErrors; cases b.errors <;> simp
  · unfold BuiltParts.getCircuit; cases b.circuit <;> simp
  · unfold BuiltParts.getDecoder; cases b.decoder <;> simp
  · unfold ExperimentConf.getCode at h ⊢
    cases hc : b.code with
    | some c' => rw [hc] at h; cases h; rw [hc]; exact ⟨rfl, (fun h => by cases h), rfl⟩
    | none =>
      rw [hc] at h
      dsimp only at h
      cases hi : x.code.instantiate with
      | error e => rw [hi] at h; cases h
      | ok c' => rw [hi] at h; cases h; exact ⟨rfl, fun _ => rfl, rfl⟩

/-- The steps of `build` in another order raise. -/
theorem C87_order (mk : Makers F E D) (x : ExperimentConf F) (b : BuiltParts F E D) :
    (b.code = none → x.buildErrors mk b = .error .attributeError) ∧
    (b.code = none ∨ b.errors = none → x.circuit.provided = false → ∃ e, x.buildCircuit mk b = .error e) ∧
    (b.code = none ∨ b.errors = none → ∃ e, x.buildDecoder mk b = .error e) := by
  refine ⟨fun h => ?_, fun h hp => ?_, fun h => ?_⟩
  · unfold ExperimentConf.buildErrors; rw [h]
  · unfold ExperimentConf.buildCircuit
    cases x.general with
    | none => exact ⟨_, rfl⟩
    | some g =>
      simp only [CircuitConfig.instantiate, hp]
      rcases h with h | h
      · rw [h]; exact ⟨_, rfl⟩
      · rw [h]; cases b.code <;> exact ⟨_, rfl⟩
  · unfold ExperimentConf.buildDecoder
    cases x.decoder.check with
    | error e => exact ⟨_, rfl⟩
    | ok u =>
      rcases h with h | h
      · rw [h]; exact ⟨_, rfl⟩
      · rw [h]; cases b.code <;> exact ⟨_, rfl⟩

/-- An experiment read from a dictionary without `general` cannot be built, although the class has a default value for it. -/
theorem C87_general (env : Env) (d d' : ExperimentDict F) (x : ExperimentConf F) (mk : Makers F E D) (b : BuiltParts F E D)
    (h : ExperimentConf.fromDict env d = (d', .ok x)) (hg : d.general = none) : x.build mk env.devices b = .error .typeError := by
  obtain ⟨-, -, -, -, -, -, hg', -⟩ := ExperimentConf.fromDict_ok h
  unfold ExperimentConf.build ExperimentConf.updateRng
  rw [hg', hg]

/-! ### C88: the schema -/

/-- **C88**: a dictionary the schema accepts can be read, if all files are there and the two devices of the package are installed. -/
def C88_statement : Prop :=
  ∀ (env : Env) (d : ExperimentDict Nat), schemaOk d = true → (∀ p, env.fs.dir p = true) → (∀ p, env.fs.file p = true) →
    "clifford".toList ∈ env.devices → "stim".toList ∈ env.devices → env.qo.Perm qubitKeys → env.go.Perm gateKeys →
    ∃ x, (ExperimentConf.fromDict env d).2 = .ok x

/-- Nothing in the sections of errors is checked by the schema. -/
theorem C88_errors_counterexample : ¬ C88_statement := by
  intro h
  obtain ⟨x, hx⟩ := h plainEnv { sampleDict with
    errors := some { qubit := some { chan := [("X".toList, .dict { distribution := some "constnat".toList, params := some [1] })] } } }
    rfl (fun _ => rfl) (fun _ => rfl) (by decide) (by decide) (List.Perm.refl _) (List.Perm.refl _)
  cases hx

/-- The schema does not ask for the size of a code. -/
theorem C88_size_counterexample : ¬ C88_statement := by
  intro h
  obtain ⟨x, hx⟩ := h plainEnv { sampleDict with code := some { name := some (some "PlanarCode".toList), rounds := some (.int 1) } }
    rfl (fun _ => rfl) (fun _ => rfl) (by decide) (by decide) (List.Perm.refl _) (List.Perm.refl _)
  cases hx

/-- The channels of a section can be read. -/
def ErrSection.Readable {D M : Type} (read : D → D × Except Err M) (s : ErrSection D M) (order : List (List Char)) : Prop :=
  ∀ k ∈ order, dictGet s.chan k = none ∨ ∃ d m, dictGet s.chan k = some (.dict d) ∧ (read d).2 = .ok m

theorem ErrSection.channels_total {D M : Type} {read : D → D × Except Err M} {empty : M} : ∀ {order : List (List Char)} {s : ErrSection D M},
    order.Nodup → s.Readable read order → ∃ s', ErrSection.channels read empty order s = (s', .ok ())
  | [], s, _, _ => ⟨s, rfl⟩
  | k :: ks, s, hn, h => by
    have rest : ∀ m, ErrSection.Readable read { s with chan := dictSet s.chan k (.obj m) } ks := by
      intro m k' hk'
      have hne : k' ≠ k := fun e => (List.nodup_cons.1 hn).1 (e ▸ hk')
      dsimp only
      rw [dictGet_set, if_neg hne]
      exact h k' (List.mem_cons_of_mem _ hk')
    unfold ErrSection.channels
    rcases h k (List.mem_cons_self ..) with h0 | ⟨d, m, h1, h2⟩
    · rw [h0]
      exact ErrSection.channels_total (List.nodup_cons.1 hn).2 (rest _)
    · rw [h1]
      dsimp only
      rcases hr : read d with ⟨d', e | m'⟩
      · rw [hr] at h2; cases h2
      · exact ErrSection.channels_total (List.nodup_cons.1 hn).2 (rest _)

theorem validate_total {fs : Files} (hd : ∀ p, fs.dir p = true) (hf : ∀ p, fs.file p = true) (p : List Char) (b : Bool) :
    validateFilepath fs p b = .ok true := by
  unfold validateFilepath
  rw [hd, hf]
  rfl

theorem ErrSection.read_total {D M : Type} {fs : Files} {default : List Char} {sample : Bool} {read : D → D × Except Err M} {empty : M}
    {order : List (List Char)} {s : ErrSection D M} (hd : ∀ p, fs.dir p = true) (hf : ∀ p, fs.file p = true) (hn : order.Nodup)
    (h : s.Readable read order) : ∃ s' p b, s.read fs default sample read empty order = (s', .ok (p, b)) := by
  have hp : ∃ s1, s.paths fs default = (s1, .ok ()) := by
    unfold ErrSection.paths
    rcases s with ⟨_ | p, sm, _ | l, ch⟩
    · exact ⟨_, rfl⟩
    · exact ⟨_, rfl⟩
    · dsimp only; rw [validate_total hd hf]; exact ⟨_, rfl⟩
    · dsimp only; rw [validate_total hd hf]; exact ⟨_, rfl⟩
  obtain ⟨s1, hp⟩ := hp
  obtain ⟨-, -, -, hch⟩ := ErrSection.paths_ok hp
  obtain ⟨s2, hc⟩ := ErrSection.channels_total (empty := empty) (s := { s1 with sample := some (s1.sample.getD sample) }) hn
    (fun k hk => by dsimp only; rw [hch]; exact h k hk)
  unfold ErrSection.read
  rw [hp]
  dsimp only
  rw [hc]
  dsimp only
  rw [validate_total hd hf]
  exact ⟨_, _, _, rfl⟩

/-- What the schema says about code, device and decoder. -/
theorem schemaOk_iff (d : ExperimentDict F) : schemaOk d = true ↔
    (∀ g, d.general = some g → g.logicalOp ∈ (["X".toList, "Z".toList] : List (List Char)) ∧
      ∀ s ∈ g.qecProperty, s ∈ (["logical_error_rate".toList, "threshold".toList] : List (List Char))) ∧
    (∀ v, d.device = some v → (∀ s, v.name = some s → s ∈ (["stim".toList, "clifford".toList] : List (List Char))) ∧
      ∀ n, v.shots = some n → ∃ i : Int, n = .int i ∧ 1 ≤ i ∧ i ≤ 1000000) ∧
    (∃ c s r, d.code = some c ∧ c.name = some (some s) ∧ s ∈ validCodes ∧ c.rounds = some (.int r) ∧ 1 ≤ r ∧
      ∀ n, c.size = some n → ∃ i : Int, n = .int i ∧ 1 ≤ i) ∧
    d.errors.isSome = true ∧
    (∀ v, d.decoder = some v → ∀ s, v.name = some s → s ∈ validDecoders) := by
  have hi : ∀ (lo : Int) (n : PyNum), n.schemaInt lo none = true ↔ ∃ i : Int, n = .int i ∧ lo ≤ i := by
    intro lo n
    cases n <;> simp [PyNum.schemaInt]
  have hj : ∀ (n : PyNum), n.schemaInt 1 (some 1000000) = true ↔ ∃ i : Int, n = .int i ∧ 1 ≤ i ∧ i ≤ 1000000 := by
    intro n
    cases n <;> simp [PyNum.schemaInt]
  unfold schemaOk
  rw [Bool.and_eq_true, Bool.and_eq_true, Bool.and_eq_true, Bool.and_eq_true, and_assoc, and_assoc, and_assoc]
  refine and_congr ?_ (and_congr ?_ (and_congr ?_ (and_congr Iff.rfl ?_)))
  · cases d.general with
    | none => simp
    | some g => simp only [Bool.and_eq_true, decide_eq_true_eq, List.all_eq_true, Option.some.injEq, forall_eq']
  · cases d.device with
    | none => simp
    | some v =>
      simp only [Bool.and_eq_true, Option.some.injEq, forall_eq']
      refine and_congr ?_ ?_
      · cases v.name <;> simp only [Option.all_none, Option.all_some, decide_eq_true_eq, Option.some.injEq, forall_eq', reduceCtorEq,
          IsEmpty.forall_iff, implies_true]
      · cases v.shots with
        | none => simp
        | some n => simp only [Option.all_some, Option.some.injEq, forall_eq']; exact hj n
  · cases d.code with
    | none => simp
    | some c =>
      rcases c with ⟨n, r, s⟩
      dsimp only
      rw [Bool.and_eq_true, Bool.and_eq_true, and_assoc]
      constructor
      · rintro ⟨h1, h2, h3⟩
        rcases n with _ | _ | n
        · cases h1
        · cases h1
        · rcases r with _ | r
          · cases h2
          · obtain ⟨i, rfl, hi'⟩ := (hi 1 r).1 h2
            refine ⟨_, n, i, rfl, rfl, of_decide_eq_true h1, rfl, hi', fun n' hn' => ?_⟩
            dsimp only at hn'
            subst hn'
            exact (hi 1 n').1 h3
      · rintro ⟨c, s', r', h1, h2, h3, h4, h5, h6⟩
        cases h1
        dsimp only at h2 h4 h6
        subst h2 h4
        refine ⟨decide_eq_true h3, (hi 1 _).2 ⟨_, rfl, h5⟩, ?_⟩
        cases s with
        | none => rfl
        | some n' => exact (hi 1 n').2 (h6 n' rfl)
  · cases d.decoder with
    | none => simp
    | some v =>
      simp only [Option.some.injEq, forall_eq']
      cases v.name <;> simp only [Option.all_none, Option.all_some, decide_eq_true_eq, Option.some.injEq, forall_eq', reduceCtorEq,
          IsEmpty.forall_iff, implies_true]

/-- **C88 (partial)**: a dictionary the schema accepts can be read if moreover the code has a size (or needs none) and every channel in the sections of
errors can be read. -/
theorem C88_reads_partial (env : Env) (d : ExperimentDict F) (h : schemaOk d = true) (hd : ∀ p, env.fs.dir p = true) (hf : ∀ p, env.fs.file p = true)
    (hdev : ∀ s ∈ (["stim".toList, "clifford".toList] : List (List Char)), s ∈ env.devices) (hqo : env.qo.Perm qubitKeys) (hgo : env.go.Perm gateKeys)
    (hsize : ∀ c, d.code = some c → c.size.isSome = true ∨ c.name = some (some "FiveQubitCode".toList) ∨ c.name = some (some "ShorCode".toList))
    (hq : ErrSection.Readable QubitMeta.fromDict ((d.errors.getD {}).qubit.getD {}) qubitKeys)
    (hg : ErrSection.Readable GateMeta.fromDict ((d.errors.getD {}).gate.getD {}) gateKeys) :
    ∃ x, (ExperimentConf.fromDict env d).2 = .ok x := by
  obtain ⟨-, h2, ⟨c, s, r, c1, c2, c3, c4, c5, c6⟩, h4, h5⟩ := (schemaOk_iff d).1 h
  have e1 : ∃ d' x, DeviceConfig.fromDict env.devices (d.device.getD {}) = (d', .ok x) := by
    have : deviceCheck env.devices ((d.device.getD {}).name.getD "clifford".toList) ((d.device.getD {}).shots.getD (.int 1024)) = .ok () := by
      have hn : (d.device.getD {}).name.getD "clifford".toList ∈ env.devices := by
        cases hv : d.device with
        | none => exact hdev _ (by decide)
        | some v =>
          dsimp only [Option.getD_some]
          cases hn : v.name with
          | none => exact hdev _ (by decide)
          | some s => exact hdev _ ((h2 v hv).1 s hn)
      have hs : ∃ i : Int, (d.device.getD {}).shots.getD (.int 1024) = .int i ∧ 0 < i := by
        cases hv : d.device with
        | none => exact ⟨1024, rfl, by decide⟩
        | some v =>
          dsimp only [Option.getD_some]
          cases hn : v.shots with
          | none => exact ⟨1024, rfl, by decide⟩
          | some n =>
            obtain ⟨i, h1, h2, -⟩ := (h2 v hv).2 n hn
            exact ⟨i, h1, by omega⟩
      obtain ⟨i, hi, hp⟩ := hs
      unfold deviceCheck
      rw [if_neg (not_not_intro hn), hi]
      exact if_pos hp
    unfold DeviceConfig.fromDict
    dsimp only [Option.getD_some]
    rw [this]
    exact ⟨_, _, rfl⟩
  have e2 : ∃ d' x, CircuitConfig.fromDict env.fs (d.circuit.getD {}) = (d', .ok x) := by
    unfold CircuitConfig.fromDict
    dsimp only
    rw [validate_total hd hf]
    exact ⟨_, _, rfl⟩
  have e3 : ∃ d' x, CodeConfig.read (d.code.getD {}) = (d', .ok x) := by
    have : ∃ x, CodeConfig.postInit ⟨c.name.getD none, c.rounds.getD (.int 1), c.size.getD (.int (-1))⟩ = .ok x := by
      by_cases hsm : s ∈ (["FiveQubitCode".toList, "ShorCode".toList] : List (List Char))
      · exact ⟨_, (C49_accepts_partial _ _).2 ⟨s, by rw [c2]; rfl, .inl ⟨hsm, rfl⟩⟩⟩
      · refine ⟨_, (C49_accepts_partial _ _).2 ⟨s, by rw [c2]; rfl, .inr ⟨?_, rfl, ?_, ?_⟩⟩⟩
        · have key : ∀ s ∈ validCodes, s ∉ (["FiveQubitCode".toList, "ShorCode".toList] : List (List Char)) →
            s ∈ (["RotatedPlanarCode".toList, "PlanarCode".toList, "ToricCode".toList, "RepetitionCode".toList] : List (List Char)) := by decide
          exact key s c3 hsm
        · have hz := hsize c c1
          rw [c2] at hz
          rcases hz with hz | hz | hz
          · obtain ⟨n, hn⟩ := Option.isSome_iff_exists.1 hz
            obtain ⟨i, rfl, hi⟩ := c6 n hn
            dsimp only
            rw [hn]
            simp [PyNum.nat?, show (0 : Int) ≤ i by omega]
          · cases hz; exact absurd (by decide) hsm
          · cases hz; exact absurd (by decide) hsm
        · dsimp only
          rw [c4]
          simp [PyNum.nat?, show (0 : Int) ≤ r by omega]
    obtain ⟨x, hx⟩ := this
    rw [c1]
    exact ⟨_, x, Prod.ext rfl hx⟩
  have nq : env.qo.Nodup := hqo.nodup_iff.2 qubitKeys_nodup
  have ng : env.go.Nodup := hgo.nodup_iff.2 gateKeys_nodup
  have e4 : ∃ d' x, ErrorsConfig.fromDict env.fs env.qo env.go (d.errors.getD {}) = (d', .ok x) := by
    obtain ⟨sq, pq, bq, rq⟩ := ErrSection.read_total (default := "qubit_errors.csv".toList) (sample := true) (empty := QubitMeta.empty) hd hf nq
      (fun k hk => hq k (hqo.mem_iff.1 hk))
    obtain ⟨sg, pg, bg, rg⟩ := ErrSection.read_total (default := "gate_errors.csv".toList) (sample := false) (empty := GateMeta.empty) hd hf ng
      (fun k hk => hg k (hgo.mem_iff.1 hk))
    have fq : ∃ x, QubitErrors.fromDict env.fs env.qo ((d.errors.getD {}).qubit.getD {}) = (sq, .ok x) := by
      unfold QubitErrors.fromDict; rw [rq]; exact ⟨_, rfl⟩
    have fg : ∃ x, GateErrors.fromDict env.fs env.go ((d.errors.getD {}).gate.getD {}) = (sg, .ok x) := by
      unfold GateErrors.fromDict; rw [rg]; exact ⟨_, rfl⟩
    obtain ⟨xq, fq⟩ := fq
    obtain ⟨xg, fg⟩ := fg
    generalize d.errors.getD {} = ed at *
    rcases ed with ⟨dq, dg⟩
    dsimp only at *
    unfold ErrorsConfig.fromDict
    rw [QubitErrors.readOpt_eq, GateErrors.readOpt_eq]
    dsimp only
    rw [fq, fg]
    exact ⟨_, _, rfl⟩
  have e5 : ∃ d' x, DecoderConfig.read (d.decoder.getD {}) = (d', .ok x) := by
    have hm : (d.decoder.getD {}).name.getD "PyMatchingDecoder".toList ∈ validDecoders := by
      cases hv : d.decoder with
      | none => exact (by decide)
      | some v =>
        dsimp only [Option.getD_some]
        cases hn : v.name with
        | none => exact (by decide)
        | some s => exact h5 v hv s hn
    unfold DecoderConfig.read DecoderConfig.fromDict DecoderConfig.new
    dsimp only [Option.getD_some]
    rw [if_neg (not_not_intro hm)]
    exact ⟨_, _, rfl⟩
  obtain ⟨d1, x1, e1⟩ := e1
  obtain ⟨d2, x2, e2⟩ := e2
  obtain ⟨d3, x3, e3⟩ := e3
  obtain ⟨d4, x4, e4⟩ := e4
  obtain ⟨d5, x5, e5⟩ := e5
  unfold ExperimentConf.fromDict
  dsimp only
  rw [e1]
  dsimp only
  rw [e2]
  dsimp only
  rw [e3]
  dsimp only
  rw [e4]
  dsimp only
  rw [e5]
  exact ⟨_, rfl⟩

example : ErrSection.Readable QubitMeta.fromDict ((sampleDict.errors.getD {}).qubit.getD {}) qubitKeys ∧
    ErrSection.Readable GateMeta.fromDict ((sampleDict.errors.getD {}).gate.getD {}) gateKeys ∧ schemaOk sampleDict = true := by
  refine ⟨fun k hk => ?_, fun k hk => .inl rfl, rfl⟩
  by_cases h : k = "X".toList
  · subst h; exact .inr ⟨_, _, rfl, rfl⟩
  · refine .inl (dictGet_none.2 fun e he => ?_)
    have : e.1 = "X".toList := by
      have he' : e ∈ [("X".toList, (Slot.dict { distribution := some "constant".toList, params := some [1] } : Slot (QubitMetaDict Nat) (QubitMeta Nat)))] := he
      rw [List.mem_singleton] at he'
      rw [he']
    exact fun h' => h (h' ▸ this)

/-- **C88**: an experiment that was loaded from a file has at least one round, a positive size (or a code without size), between 1 and 1000000 shots, and a
known decoder; with at least size 2 (and an odd size for the repetition code) its code can be built, and is valid. -/
theorem C88_load (env : Env) (d : ExperimentDict F) (x : ExperimentConf F) (h : ExperimentConf.load env d = .ok x) :
    ∃ r : Nat, 1 ≤ r ∧ x.code.rounds = .int r ∧
      ((∃ s : Nat, 1 ≤ s ∧ x.code.size = .int s) ∨ x.code.size = .int (-1) ∧
        (x.code.name = some "FiveQubitCode".toList ∨ x.code.name = some "ShorCode".toList)) ∧
      (∃ i : Int, x.device.shots = .int i ∧ 1 ≤ i ∧ i ≤ 1000000) ∧ x.decoder.name ∈ validDecoders ∧
      ((∀ s : Nat, x.code.size = .int s → 2 ≤ s ∧ (x.code.name = some "RepetitionCode".toList → s % 2 = 1)) →
        ∃ code, x.code.instantiate = .ok code ∧ Made r code ∧ code.code.Valid ∧ code.nRounds = r) := by
  unfold ExperimentConf.load at h
  split at h
  swap
  · cases h
  rename_i hs
  rcases hx : ExperimentConf.fromDict env d with ⟨d', e⟩
  rw [hx] at h
  dsimp only at h
  subst h
  obtain ⟨-, h2, ⟨c, s, r, c1, c2, c3, c4, c5, c6⟩, h4, h5⟩ := (schemaOk_iff d).1 hs
  obtain ⟨dev, cir, cod, err, dec, -, -, g1, g2, g3, g4, g5⟩ := ExperimentConf.fromDict_ok hx
  have hcode := (CodeConfig.read_ok g3).1
  rw [c1, Option.getD_some, c2, c4, Option.getD_some, Option.getD_some] at hcode
  obtain ⟨r', rfl⟩ : ∃ r' : Nat, r = r' := ⟨r.toNat, by omega⟩
  obtain ⟨name, hn, hcase⟩ := (C49_accepts_partial _ _).1 hcode
  cases hn
  have hrounds : x.code.rounds = .int r' := by
    rcases hcase with ⟨-, e⟩ | ⟨-, e, -⟩ <;> rw [e]
  refine ⟨r', by omega, hrounds, ?_, ?_, (DecoderConfig.read_ok g5).2.1, fun hz => ?_⟩
  · rcases hcase with ⟨hm, e⟩ | ⟨hm, e, hz, -⟩
    · rw [e]
      refine .inr ⟨rfl, ?_⟩
      simp only [List.mem_cons, List.not_mem_nil, or_false] at hm
      rcases hm with rfl | rfl
      · exact .inl rfl
      · exact .inr rfl
    · rw [e]
      cases hsz : c.size with
      | none => rw [hsz] at hz; exact absurd (show (PyNum.int (-1)).nat?.isSome = true from hz) (by decide)
      | some n =>
        obtain ⟨i, rfl, hi⟩ := c6 n hsz
        exact .inl ⟨i.toNat, by omega, by dsimp only [Option.getD_some]; congr 1; omega⟩
  · rw [(DeviceConfig.fromDict_ok g1).1]
    dsimp only
    cases hv : d.device with
    | none => exact ⟨1024, rfl, by decide, by decide⟩
    | some v =>
      dsimp only [Option.getD_some]
      cases hn : v.shots with
      | none => exact ⟨1024, rfl, by decide, by decide⟩
      | some n => exact (h2 v hv).2 n hn
  · refine C49_instantiate _ x.code r' hcode rfl fun n1 n2 => ?_
    dsimp only at n1 n2 ⊢
    rcases hcase with ⟨hm, e⟩ | ⟨hm, e, hzz, -⟩
    · simp only [List.mem_cons, List.not_mem_nil, or_false] at hm
      rcases hm with rfl | rfl
      · exact absurd rfl n1
      · exact absurd rfl n2
    · cases hsz : c.size with
      | none => rw [hsz] at hzz; exact absurd (show (PyNum.int (-1)).nat?.isSome = true from hzz) (by decide)
      | some n =>
        obtain ⟨i, rfl, hi⟩ := c6 n hsz
        have hs' : x.code.size = .int (i.toNat : Nat) := by
          rw [e, hsz]
          dsimp only [Option.getD_some]
          congr 1; omega
        obtain ⟨z1, z2⟩ := hz i.toNat hs'
        refine ⟨i.toNat, by dsimp only [Option.getD_some]; congr 1; omega, z1, fun hr => z2 ?_⟩
        rw [e]; exact hr

example : ∃ x, ExperimentConf.load plainEnv sampleDict = .ok x ∧ x.code.size = .int (3 : Nat) := ⟨_, rfl, rfl⟩

/-- **C86** The constructor of `GateErrorsConfig` and an empty section have different default values: the class samples errors and reads the file, the
empty section neither samples nor reads. -/
theorem C86_constructor (fs : Files) (cwd : List Char) (sample load : Option Bool) (chan : List Char → GateMeta F) :
    (∀ g, GateErrors.new fs cwd sample load chan = .ok g ↔ (∃ b, validateFilepath fs (cwd ++ "/gate_errors.csv".toList) (load.getD true) = .ok b) ∧
      g = ⟨⟨cwd ++ "/gate_errors.csv".toList, load.getD true⟩, ⟨sample.getD true, chan⟩⟩) ∧
    ∀ (order : List (List Char)) (g : GateErrors F), order.Nodup → GateErrors.makeEmpty fs order = .ok g → g.conf.sample = false ∧ g.paths = ⟨"gate_errors.csv".toList, false⟩ := by
  refine ⟨fun g => ?_, fun order g hn h => ?_⟩
  · unfold GateErrors.new
    dsimp only
    cases validateFilepath fs (cwd ++ "/gate_errors.csv".toList) (load.getD true) with
    | error e => simp
    | ok b => simp [eq_comm]
  · unfold GateErrors.makeEmpty at h
    cases hf : GateErrors.fromDict fs order ({} : GateSection F) with
    | mk s r =>
      rw [hf] at h
      dsimp only at h
      subst h
      obtain ⟨h1, h2⟩ := GateErrors.fromDict_ok hf
      have := ErrSection.read_ok hn h1
      exact ⟨this.2.1, this.1⟩

example : ∃ g g' : GateErrors Nat, GateErrors.new allFiles "/home".toList none none (fun _ => GateMeta.empty) = .ok g ∧ GateErrors.makeEmpty allFiles gateKeys = .ok g' ∧
    g.conf.sample = true ∧ g'.conf.sample = false := ⟨_, _, rfl, rfl, rfl, rfl⟩

end Plaquette
