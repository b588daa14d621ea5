import Verif.Lemmas.Repeat
import Verif.Lemmas.Session
import Verif.Model.Session
import Verif.Props.ConfigBuild

/-!
# An experiment can be repeated (C116)
-/

namespace Plaquette

/-- Two runs of a program with the same files and libraries. What is drawn from generators without seed, and the orders in which python goes through sets of strings
(which are different in every process), may differ. -/
structure SameInputs (env env' : BuildEnv) : Prop where
  api : env.api = env'.api
  negLog : env.negLog = env'.negLog
  tiny : env.tiny = env'.tiny
  tenth : env.tenth = env'.tenth
  qcsv : env.qcsv = env'.qcsv
  gcsv : env.gcsv = env'.gcsv
  parse : env.parse = env'.parse
  pmSolve : env.pmSolve = env'.pmSolve
  fbSolve : env.fbSolve = env'.fbSolve

/-- No channel that is sampled has a gaussian distribution. -/
structure FixedErrors (e : ErrorsConfig ℚ) : Prop where
  qubit : ∀ key ∈ qubitKeys, (e.qubit.conf.chan key).enabled = true → (e.qubit.conf.chan key).distribution ≠ "gaussian".toList
  gate : ∀ key ∈ gateKeys, (e.gate.conf.chan key).enabled = true → ∀ ds, (e.gate.conf.chan key).distribution = .list ds → "gaussian".toList ∉ ds

/-- The full claim: building and running an experiment twice with the same seed gives the same logical error rate. -/
def C116_statement : Prop := ∀ (gen : Int → Rng ℚ) (env env' : BuildEnv) (devices : List (List Char)) (x : ExperimentConf ℚ) (b b' : BuiltParts ℚ ErrPair BuiltDecoder) (q : ℚ),
  env.Ok → env'.Ok → SameInputs env env' → x.buildAndRate gen env devices b = .ok q → x.buildAndRate gen env' devices b' = .ok q

/-! ## Without gaussian errors -/

/-- The channels of qubits that are simulated, for two orders of the set of names. -/
theorem simulated_perm (c : QubitConfig ℚ) {o o' : List (List Char)} (ho : o.Perm qubitKeys) (ho' : o'.Perm qubitKeys)
    (hg : ∀ key ∈ qubitKeys, (c.chan key).enabled = true → (c.chan key).distribution ≠ "gaussian".toList) :
    (c.simulated o = none ∧ c.simulated o' = none) ∨ ∃ l l', c.simulated o = some l ∧ c.simulated o' = some l' ∧ l.Perm l' ∧ (l.map Prod.fst).Nodup ∧
      ∀ e ∈ l, e.2.1 ≠ "gaussian".toList := by
  unfold QubitConfig.simulated
  split_ifs with hs
  · exact .inl ⟨rfl, rfl⟩
  · refine .inr ⟨_, _, rfl, rfl, (ho.trans ho'.symm).filterMap _, ?_, ?_⟩
    · refine List.Nodup.sublist ?_ (ho.nodup_iff.2 qubitKeys_nodup)
      generalize o = l
      induction l with
      | nil => simp
      | cons k l ih =>
        rw [List.filterMap_cons]
        dsimp only
        split_ifs
        · exact ih.cons_cons _
        · exact ih.cons_cons _
        · exact ih.cons _
    · intro e he
      obtain ⟨k, hk, h⟩ := List.mem_filterMap.1 he
      have hk := ho.mem_iff.1 hk
      dsimp only at h
      split_ifs at h with h1 h2
      · cases h
        exact hg k hk (by simp only [Bool.and_eq_true] at h1; exact h1.1)
      · cases h
        exact hg k hk (by simp only [Bool.and_eq_true] at h1; exact h1.1)

theorem zipChannels_mem {ds es : List (List Char)} {ps : List (List ℚ)} {l : List (List Char × List Char × List ℚ)} (h : zipChannels ds es ps = .ok l) : ∀ c ∈ l, c.1 ∈ ds := by
  induction ds generalizing es ps l with
  | nil =>
    cases es with
    | nil => unfold zipChannels at h; cases h; simp
    | cons => unfold zipChannels at h; cases h
  | cons d ds ih =>
    cases es with
    | nil => unfold zipChannels at h; cases h; simp
    | cons e es =>
      cases ps with
      | nil => unfold zipChannels at h; cases h
      | cons p ps =>
        unfold zipChannels at h
        split at h
        · cases h
        next l' hl =>
        cases h
        intro c hc
        rcases List.mem_cons.1 hc with rfl | hc
        · exact .head _
        · exact .tail _ (ih hl c hc)

theorem simLoop_ok (c : GateConfig ℚ) : ∀ (o : List (List Char)) (l : List (List Char × GateSim ℚ)), c.simLoop o = .ok l ↔
    (∀ key ∈ o, (!(c.chan key).isEmpty && (c.chan key).enabled) = true → ∃ s, (c.chan key).sim = .ok s) ∧
      l = o.filterMap fun key => if !(c.chan key).isEmpty && (c.chan key).enabled then
        match (c.chan key).sim with
        | .ok s => some (key, s)
        | .error _ => none else none
  | [], l => by
    unfold GateConfig.simLoop
    rw [List.filterMap_nil, Except.ok.injEq]
    exact ⟨fun h => ⟨fun _ h => absurd h (by simp), h.symm⟩, fun h => h.2.symm⟩
  | k :: o, l => by
    unfold GateConfig.simLoop
    rw [List.filterMap_cons, List.forall_mem_cons]
    by_cases hk : (!(c.chan k).isEmpty && (c.chan k).enabled) = true
    · rw [if_pos hk, if_pos hk]
      cases hs : (c.chan k).sim with
      | error e =>
        constructor
        · intro h; cases h
        · rintro ⟨⟨h, _⟩, _⟩
          obtain ⟨s, h⟩ := h hk
          cases h
      | ok s =>
        dsimp only
        constructor
        · intro h
          split at h
          · cases h
          next l' hl =>
          cases h
          obtain ⟨i1, i2⟩ := (simLoop_ok c o l').1 hl
          exact ⟨⟨fun _ => ⟨s, rfl⟩, i1⟩, by rw [i2]⟩
        · rintro ⟨⟨_, h1⟩, rfl⟩
          rw [(simLoop_ok c o _).2 ⟨h1, rfl⟩]
    · rw [if_neg hk, if_neg hk, simLoop_ok c o l]
      exact ⟨fun h => ⟨⟨fun h' => absurd h' hk, h.1⟩, h.2⟩, fun h => ⟨h.1.2, h.2⟩⟩

/-- The channels of gates that are simulated, for two orders of the set of names. -/
theorem gateSimulated_perm (c : GateConfig ℚ) {o o' : List (List Char)} (ho : o.Perm gateKeys) (ho' : o'.Perm gateKeys)
    (hg : ∀ key ∈ gateKeys, (c.chan key).enabled = true → ∀ ds, (c.chan key).distribution = .list ds → "gaussian".toList ∉ ds)
    {gc : Option (List (List Char × GateSim ℚ))} (h : c.simulated o = .ok gc) :
    (gc = none ∧ c.simulated o' = .ok none) ∨ ∃ l l', gc = some l ∧ c.simulated o' = .ok (some l') ∧ l.Perm l' ∧ (l.map Prod.fst).Nodup ∧ ∀ e ∈ l, e.2.Fixed := by
  unfold GateConfig.simulated at h ⊢
  split_ifs at h ⊢ with hs
  · cases h; exact .inl ⟨rfl, rfl⟩
  · split at h
    · cases h
    next l hl =>
    cases h
    obtain ⟨h1, h2⟩ := (simLoop_ok c o l).1 hl
    have h3 := (simLoop_ok c o' _).2 ⟨fun key hk => h1 key (ho.mem_iff.2 (ho'.mem_iff.1 hk)), rfl⟩
    rw [h3]
    refine .inr ⟨l, _, rfl, rfl, ?_, ?_, ?_⟩
    · rw [h2]
      exact (ho.trans ho'.symm).filterMap _
    · rw [h2]
      refine List.Nodup.sublist ?_ (ho.nodup_iff.2 gateKeys_nodup)
      generalize o = l
      induction l with
      | nil => simp
      | cons k l ih =>
        rw [List.filterMap_cons]
        split_ifs
        · cases (c.chan k).sim with
          | error e => exact ih.cons _
          | ok s => exact ih.cons_cons _
        · exact ih.cons _
    · rw [h2]
      intro e he
      obtain ⟨k, hk, h⟩ := List.mem_filterMap.1 he
      have hk := ho.mem_iff.1 hk
      split_ifs at h with h4
      split at h
      next s hsim =>
        cases h
        rw [Bool.and_eq_true] at h4
        unfold GateMeta.sim at hsim
        split at hsim
        · cases hsim; trivial
        next ds hds =>
          split at hsim
          · cases hsim
          next l' hl' =>
            cases hsim
            intro ch hch heq
            exact hg k hk h4.2 ds hds (heq ▸ zipChannels_mem hl' ch hch)
      · cases h

/-- The dictionaries of errors of two runs. -/
theorem configErrors_same {env env' : BuildEnv} (he : env.Ok) (he' : env'.Ok) (hs : SameInputs env env') {conf : ErrorsConfig ℚ} (hx : FixedErrors conf) {code : LatCode} {ed : ErrPair}
    (h : env.makers.errors conf code = .ok ed) : ∃ ed', env'.makers.errors conf code = .ok ed' ∧ SameData ed.1 ed'.1 ∧ SameData ed.2 ed'.2 := by
  have h : configErrors 0 env.tenth code.lattice env.qcsv env.gcsv env.qdraws env.gdraws env.qorder env.gorder env.order conf.qubit.conf conf.gate.conf = .ok ed := h
  show ∃ ed', configErrors 0 env'.tenth code.lattice env'.qcsv env'.gcsv env'.qdraws env'.gdraws env'.qorder env'.gorder env'.order conf.qubit.conf conf.gate.conf = .ok ed' ∧ _
  rw [← hs.tenth, ← hs.qcsv, ← hs.gcsv]
  unfold configErrors at h ⊢
  split at h
  · cases h
  next gc hgc =>
  have hfilter : ∀ l l' : List (List Char × List Char × List ℚ), l.Perm l' → (env.order.filter fun e => e ∈ l.map Prod.fst).Perm (env'.order.filter fun e => e ∈ l'.map Prod.fst) := by
    intro l l' hl
    have : (env.order.filter fun e => decide (e ∈ l.map Prod.fst)) = env.order.filter fun e => decide (e ∈ l'.map Prod.fst) :=
      List.filter_congr fun e _ => by simp only [(hl.map Prod.fst).mem_iff]
    rw [this]
    exact (he.o.trans he'.o.symm).filter _
  -- the errors of qubits
  have hqubits : ∀ l l' : List (List Char × List Char × List ℚ), l.Perm l' → (l.map Prod.fst).Nodup → (∀ e ∈ l, e.2.1 ≠ "gaussian".toList) → ∀ t d,
      assimilateQubits 0 code.lattice env.qcsv env.qdraws l = .ok t → t.dict (env.order.filter fun e => e ∈ l.map Prod.fst) = .ok d →
      ∃ t' d', assimilateQubits 0 code.lattice env.qcsv env'.qdraws l' = .ok t' ∧ t'.dict (env'.order.filter fun e => e ∈ l'.map Prod.fst) = .ok d' ∧ SameData d d' := by
    intro l l' hp hn hg t d h1 h2
    obtain ⟨t', k1, k2, k3⟩ := qubits_perm 0 code.lattice env.qcsv (draws' := env'.qdraws) hp hg hn h1
    obtain ⟨d1, d', k4, k5, k6⟩ := dict_perm 0 (hfilter l l' hp) k2 fun e he => k3 e (of_decide_eq_true (List.mem_filter.1 he).2)
    obtain rfl := Except.ok.inj (k4.symm.trans h2)
    exact ⟨t', d', k1, k5, k6⟩
  -- the errors of gates
  have hgates : ∀ l l' : List (List Char × GateSim ℚ), l.Perm l' → (l.map Prod.fst).Nodup → (∀ e ∈ l, e.2.Fixed) → ∀ rows d,
      assimilateGates code.lattice env.gcsv env.gdraws l = .ok rows → gateDict (l.map Prod.fst) rows = .ok d →
      ∃ rows' d', assimilateGates code.lattice env.gcsv env'.gdraws l' = .ok rows' ∧ gateDict (l'.map Prod.fst) rows' = .ok d' ∧ SameData d d' := by
    intro l l' hp hn hg rows d h1 h2
    rw [assimilateGates_draws _ _ _ env'.gdraws hg] at h1
    obtain ⟨rows', k1, k2, k3⟩ := gates_perm hp hn h1
    obtain ⟨d', k4, k5⟩ := gateDict_perm (hp.map _) k2 k3 h2
    exact ⟨rows', d', k1, k4, k5⟩
  rcases simulated_perm conf.qubit.conf he.q he'.q hx.qubit with ⟨q1, q2⟩ | ⟨l, l', q1, q2, q3, q4, q5⟩
  · rw [q1] at h
    rcases gateSimulated_perm conf.gate.conf he.g he'.g hx.gate hgc with ⟨rfl, g2⟩ | ⟨m, m', rfl, g2, g3, g4, g5⟩
    · rw [g2]
      dsimp only
      rw [q2]
      unfold errorDicts at h ⊢
      dsimp only at h ⊢
      split at h
      · cases h
      next d hd =>
      cases h
      obtain ⟨d1, d', k4, k5, k6⟩ := dict_perm (0 : ℚ) (t := ⟨code.lattice.qubitInfo, (["X".toList, "Y".toList, "Z".toList] : List (List Char)).map fun e => (e, code.lattice.qubitInfo.map fun _ => env.tenth)⟩)
        (t' := ⟨code.lattice.qubitInfo, (["X".toList, "Y".toList, "Z".toList] : List (List Char)).map fun e => (e, code.lattice.qubitInfo.map fun _ => env.tenth)⟩)
        ((he.o.trans he'.o.symm).filter fun e => decide (e ∈ (["X".toList, "Y".toList, "Z".toList] : List (List Char)))) rfl fun e hee => by
          have := of_decide_eq_true (List.mem_filter.1 hee).2
          refine ⟨code.lattice.qubitInfo.map fun _ => env.tenth, ?_, ?_, by simp⟩ <;>
          · show dictGet _ _ = _
            rw [dictGet_mapKey, if_pos this]
      obtain rfl := Except.ok.inj (k4.symm.trans hd)
      rw [k5]
      exact ⟨_, rfl, k6, .rfl⟩
    · rw [g2]
      dsimp only
      rw [q2]
      unfold errorDicts at h ⊢
      dsimp only at h ⊢
      cases hr : assimilateGates code.lattice env.gcsv env.gdraws m with
      | error e => rw [hr] at h; cases h
      | ok rows =>
        rw [hr] at h
        dsimp only at h
        cases hd : gateDict (m.map Prod.fst) rows with
        | error e => rw [hd] at h; cases h
        | ok gd =>
          rw [hd] at h
          cases h
          obtain ⟨rows', d', k1, k2, k3⟩ := hgates m m' g3 g4 g5 rows gd hr hd
          rw [k1]
          dsimp only
          rw [k2]
          exact ⟨_, rfl, .rfl, k3⟩
  · rw [q1] at h
    unfold errorDicts at h
    dsimp only at h
    cases ht : assimilateQubits 0 code.lattice env.qcsv env.qdraws l with
    | error e => rw [ht] at h; cases h
    | ok t =>
      rw [ht] at h
      dsimp only at h
      cases hd : t.dict (env.order.filter fun e => e ∈ l.map Prod.fst) with
      | error e => rw [hd] at h; cases h
      | ok qd =>
        rw [hd] at h
        dsimp only at h
        obtain ⟨t', qd', k1, k2, k3⟩ := hqubits l l' q3 q4 q5 t qd ht hd
        rcases gateSimulated_perm conf.gate.conf he.g he'.g hx.gate hgc with ⟨rfl, g2⟩ | ⟨m, m', rfl, g2, g3, g4, g5⟩
        · cases h
          rw [g2]
          dsimp only
          rw [q2]
          unfold errorDicts
          dsimp only
          rw [k1]
          dsimp only
          rw [k2]
          exact ⟨_, rfl, k3, .rfl⟩
        · dsimp only at h
          cases hr : assimilateGates code.lattice env.gcsv env.gdraws m with
          | error e => rw [hr] at h; cases h
          | ok rows =>
            rw [hr] at h
            dsimp only at h
            cases hgd : gateDict (m.map Prod.fst) rows with
            | error e => rw [hgd] at h; cases h
            | ok gd =>
              rw [hgd] at h
              cases h
              obtain ⟨rows', gd', j1, j2, j3⟩ := hgates m m' g3 g4 g5 rows gd hr hgd
              rw [g2]
              dsimp only
              rw [q2]
              unfold errorDicts
              dsimp only
              rw [k1]
              dsimp only
              rw [k2]
              dsimp only
              rw [j1]
              dsimp only
              rw [j2]
              exact ⟨_, rfl, k3, j3⟩

/-- **C116 (objects)**: without gaussian errors, building twice gives the same code, circuit, device and decoder, whatever was built before, and error data with the same entries. -/
theorem C116_build {env env' : BuildEnv} (he : env.Ok) (he' : env'.Ok) (hs : SameInputs env env') {x : ExperimentConf ℚ} (hx : FixedErrors x.errors) {devices : List (List Char)}
    {b p : BuiltParts ℚ ErrPair BuiltDecoder} (h : x.build env.makers devices b = .ok p) (b' : BuiltParts ℚ ErrPair BuiltDecoder) :
    ∃ p', x.build env'.makers devices b' = .ok p' ∧ p'.code = p.code ∧ p'.circuit = p.circuit ∧ p'.device = p.device ∧ p'.decoder = p.decoder ∧
      ∃ ed ed', p.errors = some ed ∧ p'.errors = some ed' ∧ SameData ed.1 ed'.1 ∧ SameData ed.2 ed'.2 := by
  obtain ⟨g, c, ed, circ, dev, dec, hm, rfl⟩ := (build_iff _ _ _ _ _).1 h
  obtain ⟨ed', k1, k2, k3⟩ := configErrors_same he he' hs hx hm.errors
  refine ⟨_, (build_iff _ _ _ _ _).2 ⟨g, c, ed', circ, dev, dec, ⟨hm.general, hm.code, k1, ?_, hm.device, hm.check, ?_⟩, rfl⟩, rfl, rfl, rfl, rfl, ed, ed', rfl, rfl, k2, k3⟩
  · have h := hm.circuit
    unfold CircuitConfig.instantiate at h ⊢
    split_ifs at h ⊢
    · show env'.parse _ = _
      rw [← hs.parse]
      exact h
    · have h : generateCircuit env.api c ed.1 ed.2 (.str g.logicalOp) false = .ok circ := h
      show generateCircuit env'.api c ed'.1 ed'.2 (.str g.logicalOp) false = .ok circ
      rw [← hs.api, ← h, k2.generate k3]
  · have h : x.decoder.make env c ed = .ok dec := hm.decoder
    show x.decoder.make env' c ed' = .ok dec
    rw [← h, SameData.decoder k2 k3 env]
    unfold DecoderConfig.make
    rw [hs.negLog, hs.tiny, hs.pmSolve, hs.fbSolve]

theorem experiment_same {env env' : BuildEnv} (hs : SameInputs env env') (x : ExperimentConf ℚ) {p p' : BuiltParts ℚ ErrPair BuiltDecoder} (h1 : p'.code = p.code) (h2 : p'.circuit = p.circuit)
    (h3 : p'.decoder = p.decoder) : p'.experiment env' x = p.experiment env x := by
  have hd : ∀ (d : BuiltDecoder) (n : Nat) (er syn : Option (List (List Bool))), d.decode env' n er syn = d.decode env n er syn := by
    intro d n er syn
    unfold BuiltDecoder.decode
    rw [hs.pmSolve, hs.fbSolve]
  unfold BuiltParts.experiment
  rw [h1, h2, h3]
  simp only [hd]

/-- **C116 (partial)**: without gaussian errors, building and running an experiment twice with the same seed gives the same logical error rate. -/
theorem C116_repeat_partial {gen : Int → Rng ℚ} {env env' : BuildEnv} (he : env.Ok) (he' : env'.Ok) (hs : SameInputs env env') {x : ExperimentConf ℚ} (hx : FixedErrors x.errors)
    {devices : List (List Char)} (b b' : BuiltParts ℚ ErrPair BuiltDecoder) :
    (∀ q, x.buildAndRate gen env devices b = .ok q → x.buildAndRate gen env' devices b' = .ok q) ∧
    ∀ q, x.buildAndRun gen env devices b = .ok q → x.buildAndRun gen env' devices b' = .ok q := by
  constructor
  · intro q h
    unfold ExperimentConf.buildAndRate at h ⊢
    cases hg : x.general with
    | none => rw [hg] at h; cases h
    | some g =>
      rw [hg] at h
      dsimp only at h ⊢
      cases hp : x.build env.makers devices b with
      | error e => rw [hp] at h; cases h
      | ok p =>
        rw [hp] at h
        obtain ⟨p', k1, k2, k3, k4, k5, -⟩ := C116_build he he' hs hx hp b'
        rw [k1]
        dsimp only at h ⊢
        rw [experiment_same hs x k2 k3 k5, ← hs.api]
        exact h
  · intro q h
    unfold ExperimentConf.buildAndRun at h ⊢
    cases hg : x.general with
    | none => rw [hg] at h; cases h
    | some g =>
      rw [hg] at h
      dsimp only at h ⊢
      cases hp : x.build env.makers devices b with
      | error e => rw [hp] at h; cases h
      | ok p =>
        rw [hp] at h
        obtain ⟨p', k1, k2, k3, k4, k5, -⟩ := C116_build he he' hs hx hp b'
        rw [k1]
        dsimp only at h ⊢
        rw [experiment_same hs x k2 k3 k5, k4, ← hs.api]
        exact h

/-! ## Gaussian errors -/

/-- Qubit errors X with a distribution, on the five-qubit code. -/
def fiveDict (dist : List Char) (params : List ℚ) : ExperimentDict ℚ :=
  { general := some ⟨"Z".toList, ["logical_error_rate".toList], 7⟩
    device := some { shots := some (.int 1) }
    code := some { name := some (some "FiveQubitCode".toList), rounds := some (.int 1) }
    decoder := some { name := some "UnionFindNoWeights".toList, weighted := some false }
    errors := some { qubit := some { chan := [("X".toList, .dict { distribution := some dist, params := some params })] } } }

/-- A run in which all numbers drawn from the gaussian distribution are `p`. -/
noncomputable def gaussEnv (p : ℚ) : BuildEnv where
  api := fracApi
  negLog _ := none
  tiny := 1 / 1000000000000000
  tenth := 1 / 10
  qcsv := []
  gcsv := []
  qdraws _ := List.replicate 9 p
  gdraws _ := []
  qorder := qubitKeys
  gorder := gateKeys
  order := qubitKeys
  parse _ := .error .valueError
  pmSolve := exists_pyMatching.choose
  fbSolve := exists_fusionBlossom.choose

/-- A generator whose numbers only matter for probabilities other than 0 and 1. -/
def middleRng : Rng ℚ where
  below _ p := decide (1 / 2 < p)
  bit _ := false
  int3 _ := 0
  int4 _ := 0
  choice4 _ ps := some (if ps[0]? = some 1 then 1 else 0)
  choice16 _ _ := some 0

/-- What `buildAndRate` does after the code has been made. -/
noncomputable def rateWith (env : BuildEnv) (rng : Rng ℚ) (x : ExperimentConf ℚ) (op : List Char) (c : LatCode) : Except Err ℚ :=
  match env.makers.errors x.errors c with
  | .error e => .error e
  | .ok ed => match env.makers.generate c ed op with
    | .error e => .error e
    | .ok circ => match env.makers.decoder x.decoder c ed with
      | .error e => .error e
      | .ok dec => match x.device.shots.nat? with
        | none => .error .attributeError
        | some shots => (⟨c, circ, fun erased syn => dec.decode env c.n erased syn, shots, .str op⟩ : Experiment ℚ).rate env.api rng 0

/-- The five-qubit code. -/
def fiveCode (r : Nat) : Option LatCode := match fiveQubitLattice with
  | .error _ => none
  | .ok L => some (L.latCode r)

noncomputable def fiveRate (dist : List Char) (params : List ℚ) (p : ℚ) : Option ℚ := match (ExperimentConf.fromDict plainEnv (fiveDict dist params)).2, fiveCode 1 with
  | .ok x, some c => (rateWith (gaussEnv p) middleRng x "Z".toList c).toOption
  | _, _ => none

set_option maxRecDepth 100000 in
theorem gaussRate_zero : fiveRate "gaussian".toList [1 / 2, 1 / 4] 0 = some 0 := by decide +kernel

set_option maxRecDepth 100000 in
theorem gaussRate_one : fiveRate "gaussian".toList [1 / 2, 1 / 4] 1 = some 1 := by decide +kernel

set_option maxRecDepth 100000 in
theorem constRate_one : fiveRate "constant".toList [1] 0 = some 1 := by decide +kernel

theorem fiveCode_make {r : Nat} {c : LatCode} (h : fiveCode r = some c) : makeFiveQubit r = .ok c := by
  obtain ⟨L, hL, hw, hc, hf⟩ := goodResult_spec five_good
  unfold fiveCode at h
  rw [hL] at h
  cases h
  rw [makeFiveQubit, hL]
  exact mkLatCode_ok hw hf r

/-- `rateWith` does what `buildAndRate` does. -/
theorem buildAndRate_of {gen : Int → Rng ℚ} {env : BuildEnv} {devices : List (List Char)} {x : ExperimentConf ℚ} {g : General} {c : LatCode} {q : ℚ}
    (h1 : x.general = some g) (h2 : x.code.instantiate = .ok c) (h3 : x.circuit.provided = false) (h4 : x.device.name ∈ devices) (h5 : x.decoder.check = .ok ())
    (h : rateWith env (gen g.seed) x g.logicalOp c = .ok q) (b : BuiltParts ℚ ErrPair BuiltDecoder) : x.buildAndRate gen env devices b = .ok q := by
  unfold rateWith at h
  split at h
  · cases h
  next ed he =>
  split at h
  · cases h
  next circ hcirc =>
  split at h
  · cases h
  next dec hdec =>
  split at h
  · cases h
  next shots hs =>
  have hb : x.build env.makers devices b = .ok ⟨some c, some ed, some x.device.name, some circ, some dec⟩ := by
    rw [build_iff]
    refine ⟨g, c, ed, circ, x.device.name, dec, ⟨h1, h2, he, ?_, ?_, h5, hdec⟩, rfl⟩
    · unfold CircuitConfig.instantiate
      rw [h3]
      exact hcirc
    · unfold DeviceConfig.instantiate
      rw [if_pos h4]
  unfold ExperimentConf.buildAndRate
  rw [h1, hb]
  unfold BuiltParts.experiment
  dsimp only
  rw [hs, h1]
  exact h

theorem fiveRate_build {dist : List Char} {params : List ℚ} {x : ExperimentConf ℚ} (hx : (ExperimentConf.fromDict plainEnv (fiveDict dist params)).2 = .ok x)
    (h1 : x.general = some ⟨"Z".toList, ["logical_error_rate".toList], 7⟩) (h2 : x.code = ⟨some "FiveQubitCode".toList, .int 1, .int (-1)⟩)
    (h3 : x.circuit.provided = false) (h4 : x.device.name = "clifford".toList) (h5 : x.decoder = ⟨"UnionFindNoWeights".toList, false⟩) {p q : ℚ}
    (h : fiveRate dist params p = some q) (b : BuiltParts ℚ ErrPair BuiltDecoder) : x.buildAndRate (fun _ => middleRng) (gaussEnv p) plainEnv.devices b = .ok q := by
  unfold fiveRate at h
  rw [hx] at h
  cases hc : fiveCode 1 with
  | none => rw [hc] at h; cases h
  | some c =>
    rw [hc] at h
    dsimp only at h
    refine buildAndRate_of h1 (c := c) ?_ h3 (by rw [h4]; decide) (by rw [h5]; rfl) ?_ b
    · rw [h2]
      exact fiveCode_make hc
    · cases hr : rateWith (gaussEnv p) middleRng x "Z".toList c with
      | error e => rw [hr] at h; cases h
      | ok q' => rw [hr] at h; cases h; rfl

theorem gaussEnv_ok (p : ℚ) : (gaussEnv p).Ok := ⟨.refl _, .refl _, .refl _⟩

theorem gaussEnv_same (p p' : ℚ) : SameInputs (gaussEnv p) (gaussEnv p') := ⟨rfl, rfl, rfl, rfl, rfl, rfl, rfl, rfl, rfl⟩

/-- **C116 fails**: the probabilities of gaussian errors are drawn from a generator without seed, `errors/__init__.py:1198`; with the same seed, the logical error rate
is 0 in one run and 1 in another. -/
theorem C116_repeat_counterexample : ¬ C116_statement := by
  intro h
  obtain ⟨x, hx, h1, h2, h3, h4, h5⟩ : ∃ x, (ExperimentConf.fromDict plainEnv (fiveDict "gaussian".toList [1 / 2, 1 / 4])).2 = .ok x ∧
      x.general = some ⟨"Z".toList, ["logical_error_rate".toList], 7⟩ ∧ x.code = ⟨some "FiveQubitCode".toList, .int 1, .int (-1)⟩ ∧
      x.circuit.provided = false ∧ x.device.name = "clifford".toList ∧ x.decoder = ⟨"UnionFindNoWeights".toList, false⟩ := ⟨_, rfl, rfl, rfl, rfl, rfl, rfl⟩
  have h0 := h _ _ _ _ _ {} {} _ (gaussEnv_ok 0) (gaussEnv_ok 1) (gaussEnv_same 0 1) (fiveRate_build hx h1 h2 h3 h4 h5 gaussRate_zero {})
  rw [fiveRate_build hx h1 h2 h3 h4 h5 gaussRate_one {}] at h0
  have := Except.ok.inj h0
  norm_num at this

/-- The hypotheses of the partial theorem, with constant errors: the logical error rate is 1, whatever another run draws. -/
example : ∃ x, (ExperimentConf.fromDict plainEnv (fiveDict "constant".toList [1])).2 = .ok x ∧ FixedErrors x.errors ∧
    ∀ p, x.buildAndRate (fun _ => middleRng) (gaussEnv p) plainEnv.devices {} = .ok 1 := by
  obtain ⟨x, hx, h1, h2, h3, h4, h5, h6, h7⟩ : ∃ x, (ExperimentConf.fromDict plainEnv (fiveDict "constant".toList [1])).2 = .ok x ∧
      x.general = some ⟨"Z".toList, ["logical_error_rate".toList], 7⟩ ∧ x.code = ⟨some "FiveQubitCode".toList, .int 1, .int (-1)⟩ ∧
      x.circuit.provided = false ∧ x.device.name = "clifford".toList ∧ x.decoder = ⟨"UnionFindNoWeights".toList, false⟩ ∧
      (qubitKeys.all fun k => !(x.errors.qubit.conf.chan k).enabled || (x.errors.qubit.conf.chan k).distribution != "gaussian".toList) = true ∧
      (gateKeys.all fun k => !(x.errors.gate.conf.chan k).enabled) = true := ⟨_, rfl, rfl, rfl, rfl, rfl, rfl, rfl, rfl⟩
  have hf : FixedErrors x.errors := by
    constructor
    · intro key hk he
      have := List.all_eq_true.1 h6 key hk
      rw [he] at this
      simpa using this
    · intro key hk he
      have := List.all_eq_true.1 h7 key hk
      rw [he] at this
      cases this
  exact ⟨x, hx, hf, fun p => (C116_repeat_partial (gaussEnv_ok 0) (gaussEnv_ok p) (gaussEnv_same 0 p) hf {} {}).1 _ (fiveRate_build hx h1 h2 h3 h4 h5 constRate_one {})⟩

end Plaquette
