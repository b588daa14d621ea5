import Verif.Model.ConfigUpdate
import Verif.Spec.ConfigAttrs
import Verif.Spec.ConfigValid
import Verif.Props.Config
import Verif.Lemmas.Repeat
import Verif.Lemmas.Unpack
import Verif.Lemmas.Weights

/-!
# Changing a configuration (C129)
-/

namespace Plaquette
variable {F : Type}

/-! ### What is read is valid -/

theorem pathValid_of {fs : Files} {p : List Char} {load b : Bool} (h : validateFilepath fs p load = .ok b) : PathValid fs p load := by
  unfold validateFilepath at h
  unfold PathValid
  cases h1 : fs.dir p <;> cases h2 : fs.file p <;> cases load <;> simp_all

theorem codeValid_of {c c' : CodeConfig} (h : c.postInit = .ok c') : c'.Valid := by
  obtain ⟨name, hn, ⟨h1, rfl⟩ | ⟨h1, rfl, h2, h3⟩⟩ := (C49_accepts_partial c c').1 h
  · exact ⟨name, hn, .inl ⟨h1, rfl⟩⟩
  · exact ⟨name, hn, .inr ⟨h1, h2, h3⟩⟩

theorem postInit_same {m m' : QubitMeta F} (h : m.postInit = .ok m') : m'.distribution = m.distribution ∧ m'.params = m.params := by
  have key : ∀ {m' : QubitMeta F}, (Except.ok (if m.isEmpty then ({ m with enabled := false } : QubitMeta F) else m) : Except Err (QubitMeta F)) = .ok m' →
      m'.distribution = m.distribution ∧ m'.params = m.params := by
    intro m' hm
    cases hm
    split <;> exact ⟨rfl, rfl⟩
  unfold QubitMeta.postInit at h
  dsimp only at h
  split at h
  · split at h
    · exact key h
    · cases h
  · split at h
    · split at h
      · cases h
      · exact key h
    · split at h
      · split at h
        · cases h
        · exact key h
      · split at h
        · exact key h
        · cases h

theorem qubitValid_of {m m' : QubitMeta F} (h : m.postInit = .ok m') : m'.Valid := by
  have h1 := (C63_qubit m).1 ⟨m', h⟩
  obtain ⟨h2, h3⟩ := postInit_same h
  unfold QubitMeta.Valid
  rw [h2, h3]
  exact h1

theorem gateValid_of {m m' : GateMeta F} (h : m.postInit = .ok m') : m'.Valid := by
  unfold GateMeta.postInit at h
  unfold GateMeta.Valid
  cases hd : m.distribution with
  | str s =>
    rw [hd] at h
    dsimp only at h
    split at h
    · cases h
    · rename_i hc
      cases h
      rw [hd]
      dsimp only
      by_contra hb
      rw [not_or] at hb
      exact hc ⟨fun h0 => hb.1 (List.length_eq_zero_iff.1 h0), fun h0 => hb.2 (List.length_eq_zero_iff.1 h0)⟩
  | list ds =>
    rw [hd] at h
    dsimp only at h
    split at h
    · cases h
    · rename_i hc
      split at h
      · cases h
      · rename_i hk
        cases h
        rw [hd]
        exact ⟨not_not.1 hc, hk⟩

theorem QubitMeta.empty_valid : (QubitMeta.empty : QubitMeta F).Valid := .inr (.inr (.inr rfl))
theorem GateMeta.empty_valid : (GateMeta.empty : GateMeta F).Valid := .inl rfl

/-- **C129** What is read from a dictionary is valid. -/
theorem C129_read (env : Env) (d d' : ExperimentDict F) (x : ExperimentConf F) (hqo : env.qo.Perm qubitKeys) (hgo : env.go.Perm gateKeys)
    (h : ExperimentConf.fromDict env d = (d', .ok x)) : x.Valid env := by
  obtain ⟨dev, cir, cod, err, dec, rfl, hg, h1, h2, h3, h4, h5⟩ := ExperimentConf.fromDict_ok h
  obtain ⟨⟨sq, q1, -⟩, ⟨sg, g1, -⟩⟩ := ErrorsConfig.fromDict_ok h4
  obtain ⟨q1, q2⟩ := QubitErrors.fromDict_ok q1
  obtain ⟨g1, g2⟩ := GateErrors.fromDict_ok g1
  obtain ⟨-, -, -, -, -, q4, q5⟩ := ErrSection.read_ok (hqo.nodup_iff.2 qubitKeys_nodup) q1
  obtain ⟨-, -, -, -, -, g4, g5⟩ := ErrSection.read_ok (hgo.nodup_iff.2 gateKeys_nodup) g1
  refine ⟨codeValid_of (CodeConfig.read_ok h3).1, (C63_device _ _ _).1 (DeviceConfig.fromDict_ok h1).2.1,
    ⟨(CircuitConfig.fromDict_ok h2).2.1, (CircuitConfig.fromDict_ok h2).2.2.1⟩, (DecoderConfig.read_ok h5).2.1, pathValid_of q4, pathValid_of g4,
    fun k hk => ?_, fun k hk => ?_⟩
  · rw [q2]
    obtain ⟨-, ⟨-, b⟩ | ⟨m, -, b⟩⟩ := q5 k (hqo.mem_iff.2 hk)
    · rw [b]
      exact QubitMeta.empty_valid
    · unfold QubitMeta.fromDict at b
      dsimp only at b
      cases hd : m.distribution with
      | none => rw [hd] at b; cases b
      | some s => rw [hd] at b; exact qubitValid_of b
  · rw [g2]
    dsimp only
    split
    · exact GateMeta.empty_valid
    · obtain ⟨-, ⟨-, b⟩ | ⟨m, -, b⟩⟩ := g5 k (hgo.mem_iff.2 hk)
      · rw [b]; exact GateMeta.empty_valid
      · unfold GateMeta.fromDict at b
        dsimp only at b
        cases hd : m.distribution with
        | none => rw [hd] at b; cases b
        | some s => rw [hd] at b; exact gateValid_of b

/-! ### Changes -/

/-- **C129** A configuration that has been read and then changed without an exception is valid. -/
def C129_statement : Prop := ∀ (env : Env) (x y : ExperimentConf Nat) (cs : List (Change Nat)), x.Valid env → x.changes cs = (y, .ok ()) → y.Valid env

/-- The experiment of `sampleDict`. -/
theorem sample_valid : ∃ d' x, ExperimentConf.fromDict plainEnv sampleDict = (d', .ok x) ∧ x.Valid plainEnv ∧ x.device = ⟨"clifford".toList, .int 1024⟩ ∧
    x.code = ⟨some "RepetitionCode".toList, .int 2, .int 3⟩ ∧ x.circuit = ⟨false, false, "circuit.txt".toList⟩ ∧ x.errors.gate.conf.chan "H".toList = GateMeta.empty :=
  ⟨_, _, rfl, C129_read plainEnv sampleDict _ _ (List.Perm.refl _) (List.Perm.refl _) rfl, rfl, rfl, rfl, rfl⟩

/-- **C129 fails** for the device: the number of shots becomes zero, and the name unknown. -/
theorem C129_device_counterexample : ¬ C129_statement ∧ ∃ (x y : ExperimentConf Nat), x.Valid plainEnv ∧ x.changes [.device { name := some "qpu".toList }] = (y, .ok ()) ∧
    ¬ y.Valid plainEnv ∧ ∀ (E D : Type) (b : BuiltParts Nat E D), y.buildDevice plainEnv.devices b = .error .attributeError := by
  obtain ⟨d', x, -, hv, hd, -⟩ := sample_valid
  constructor
  · intro h
    have := (h plainEnv x _ [.device { shots := some (.int 0) }] hv rfl).device.2
    rcases this with ⟨n, h1, h2⟩ | h2
    · dsimp only [ExperimentConf.change, DeviceConfig.update, Option.getD_some] at h2
      injection h2 with h2
      omega
    · cases h2
  · refine ⟨x, _, hv, rfl, fun h => ?_, fun E D b => ?_⟩
    · have := h.device.1
      revert this
      dsimp only [ExperimentConf.change, DeviceConfig.update, Option.getD_some]
      decide
    · have h1 : "qpu".toList ∉ plainEnv.devices := by decide
      have : ∀ c : DeviceConfig, c.name = "qpu".toList → c.instantiate plainEnv.devices = .error .attributeError := fun c hc => by
        unfold DeviceConfig.instantiate
        rw [hc, if_neg h1]
      unfold ExperimentConf.buildDevice
      rw [this _ rfl]

/-- **C129 fails** for the file of the circuit, which need not exist. -/
theorem C129_circuit_counterexample : ∃ (env : Env) (x y : ExperimentConf Nat), x.Valid env ∧ x.changes [.circuit { provided := some true }] = (y, .ok ()) ∧ ¬ y.Valid env := by
  let env : Env := ⟨⟨fun _ => true, fun p => decide (p ≠ "circuit.txt".toList)⟩, plainEnv.devices, qubitKeys, gateKeys⟩
  have h0 : ∃ d' x, ExperimentConf.fromDict env sampleDict = (d', .ok x) ∧ x.circuit.path = "circuit.txt".toList := ⟨_, _, rfl, rfl⟩
  obtain ⟨d', x, h1, h2⟩ := h0
  refine ⟨env, x, _, C129_read env _ _ _ (List.Perm.refl _) (List.Perm.refl _) h1, rfl, fun h => ?_⟩
  have := h.circuit.2 rfl
  dsimp only [ExperimentConf.change, CircuitConfig.update, Option.getD_none] at this
  rw [h2] at this
  revert this
  decide

/-- **C129 fails** for the metadata of gate errors: the parameters no longer fit to the channels. -/
theorem C129_gate_counterexample : ∃ (x y : ExperimentConf Nat), x.Valid plainEnv ∧
    x.changes [.gate "H".toList { distribution := some (.list ["constant".toList]), induced := some ["X".toList], params := some [] }] = (y, .ok ()) ∧ ¬ y.Valid plainEnv := by
  obtain ⟨d', x, -, hv, -⟩ := sample_valid
  refine ⟨x, _, hv, rfl, fun h => ?_⟩
  have := h.gate "H".toList (by decide)
  dsimp only [ExperimentConf.change, setChan] at this
  rw [if_pos rfl] at this
  have h1 : 1 = 0 := this.1
  omega

/-- The changes that are checked. -/
def Change.Checked : Change F → Prop
  | .code _ => True
  | .decoder _ _ => True
  | .qubit _ _ => True
  | _ => False

/-- **C129** Whatever the object was, after a change of the code, the decoder or the metadata of a qubit error that raises nothing it is valid. -/
theorem C129_checked (c : CodeConfig) (dc : CodeDict) (m : QubitMeta F) (dm : QubitMetaDict F) (k : DecoderConfig) (name : Option (List Char)) (w : Option Bool) :
    ((c.change dc).2 = .ok () → (c.change dc).1.Valid) ∧ ((m.update dm).2 = .ok () → (m.update dm).1.Valid) ∧
    ((k.update name w).2 = .ok () → (k.update name w).1.name ∈ validDecoders) := by
  refine ⟨fun h => ?_, fun h => ?_, fun h => ?_⟩
  · unfold CodeConfig.change at h ⊢
    dsimp only at h ⊢
    cases hp : CodeConfig.postInit ⟨dc.name.getD c.name, dc.rounds.getD c.rounds, dc.size.getD c.size⟩ with
    | error e => rw [hp] at h; cases h
    | ok c' => exact codeValid_of hp
  · unfold QubitMeta.update at h ⊢
    dsimp only at h ⊢
    cases hp : QubitMeta.postInit ⟨dm.distribution.getD m.distribution, dm.params.getD m.params, dm.enabled.getD m.enabled⟩ with
    | error e => rw [hp] at h; cases h
    | ok c' => exact qubitValid_of hp
  · unfold DecoderConfig.update at h ⊢
    dsimp only at h ⊢
    split at h
    · cases h
    · rename_i hn
      exact not_not.1 hn

/-- **C129 (partial)**: changes of the code, the decoder and the metadata of qubit errors that raise nothing leave a valid configuration. -/
theorem C129_valid_partial (env : Env) (cs : List (Change F)) (hc : ∀ c ∈ cs, c.Checked) : ∀ (x y : ExperimentConf F), x.Valid env → x.changes cs = (y, .ok ()) → y.Valid env := by
  induction cs with
  | nil => intro x y hv h; cases h; exact hv
  | cons c cs ih =>
    intro x y hv h
    rw [ExperimentConf.changes] at h
    cases hx : x.change c with
    | mk x1 r =>
      rw [hx] at h
      cases r with
      | error e => cases h
      | ok u =>
        refine ih (fun c hc' => hc c (List.mem_cons_of_mem _ hc')) x1 y ?_ h
        have hcc := hc c List.mem_cons_self
        cases c with
        | code d =>
          obtain ⟨rfl, h2⟩ := Prod.mk.inj hx
          exact { hv with code := (C129_checked (F := F) x.code d QubitMeta.empty {} x.decoder none none).1 h2 }
        | decoder name w =>
          obtain ⟨rfl, h2⟩ := Prod.mk.inj hx
          exact { hv with decoder := (C129_checked (F := F) x.code {} QubitMeta.empty {} x.decoder name w).2.2 h2 }
        | qubit key d =>
          obtain ⟨rfl, h2⟩ := Prod.mk.inj hx
          refine { hv with qubit := fun k hk => ?_ }
          dsimp only [setChan]
          split
          · exact (C129_checked x.code {} _ d x.decoder none none).2.1 h2
          · exact hv.qubit k hk
        | device d => cases hcc
        | circuit d => cases hcc
        | gate k d => cases hcc
        | qubitPaths p l s => cases hcc
        | gatePaths p l s => cases hcc

/-- **C129** An exception does not undo the change: the object is invalid afterwards. And a size is lost when the name is that of a code without a size, even if the
name is changed back. -/
theorem C129_exception : (∃ (x y : ExperimentConf Nat), x.Valid plainEnv ∧ x.changes [.code { size := some (.int (-5)) }] = (y, .error .valueError) ∧ ¬ y.Valid plainEnv) ∧
    (∃ (x y : ExperimentConf Nat), x.Valid plainEnv ∧ x.code.name = some "RepetitionCode".toList ∧
      x.changes [.code { name := some (some "ShorCode".toList) }, .code { name := some (some "RepetitionCode".toList) }] = (y, .error .valueError)) := by
  obtain ⟨d', x, -, hv, -, hc, -⟩ := sample_valid
  constructor
  · have h1 : x.change (.code { size := some (.int (-5)) }) = ({ x with code := ⟨some "RepetitionCode".toList, .int 2, .int (-5)⟩ }, .error .valueError) := by
      unfold ExperimentConf.change
      dsimp only
      rw [hc]
      rfl
    refine ⟨x, _, hv, by rw [ExperimentConf.changes, h1], fun h => ?_⟩
    obtain ⟨name, -, ⟨-, h2⟩ | ⟨-, h2, -⟩⟩ := h.code
    · have h3 : PyNum.int (-5) = .int (-1) := h2
      clear h2
      revert h3
      decide
    · have h3 : (PyNum.int (-5)).nat?.isSome = true := h2
      clear h2
      revert h3
      decide
  · refine ⟨x, { x with code := ⟨some "RepetitionCode".toList, .int 2, .int (-1)⟩ }, hv, by rw [hc], ?_⟩
    have h1 : x.change (.code { name := some (some "ShorCode".toList) }) = ({ x with code := ⟨some "ShorCode".toList, .int 2, .int (-1)⟩ }, .ok ()) := by
      unfold ExperimentConf.change
      dsimp only
      rw [hc]
      rfl
    rw [ExperimentConf.changes, h1]
    rfl

/-! ### Keywords -/

/-- **C129** An object keeps its attributes: a keyword that is no attribute is ignored without a complaint, and an attribute has the value of the last keyword with its name. -/
theorem C129_keywords {V : Type} (attrs kwargs : List (List Char × V)) (key : List Char) :
    dictGet (setAttrs attrs kwargs) key = if (dictGet attrs key).isSome then (dictGet kwargs.reverse key).or (dictGet attrs key) else none := by
  induction kwargs generalizing attrs with
  | nil =>
    rw [setAttrs]
    cases h : dictGet attrs key <;> simp [dictGet]
  | cons e kwargs ih =>
    obtain ⟨k, v⟩ := e
    have hg : dictGet ((k, v) :: kwargs).reverse key = (dictGet kwargs.reverse key).or (if k = key then some v else none) := by
      rw [List.reverse_cons, dictGet_append]
      congr 1
      unfold dictGet
      by_cases hk : k = key <;> simp [hk]
    rw [hg, setAttrs]
    by_cases ha : (dictGet attrs k).isSome = true
    · rw [if_pos ha, ih, dictGet_set]
      by_cases hk : k = key
      · subst hk
        rw [if_pos rfl, if_pos rfl, if_pos ha]
        cases dictGet kwargs.reverse k <;> simp
      · rw [if_neg hk, if_neg (show ¬ key = k from fun h => hk h.symm)]
        cases dictGet kwargs.reverse key <;> simp
    · rw [if_neg ha, ih]
      by_cases hk : k = key
      · subst hk
        rw [if_neg ha, if_neg ha]
      · rw [if_neg hk]
        cases dictGet kwargs.reverse key <;> simp

example : setAttrs [("name".toList, 1), ("shots".toList, 2)] [("shot".toList, 5), ("name".toList, 3)] = [("name".toList, 3), ("shots".toList, 2)] := by decide

example : ∃ (x y : ExperimentConf Nat), x.Valid plainEnv ∧ x.changes [.code { rounds := some (.int 4) }, .decoder (some "UnionFindDecoder".toList) (some true),
    .qubit "X".toList { params := some [0] }] = (y, .ok ()) ∧ y.Valid plainEnv := by
  have h0 : ∃ d' x, ExperimentConf.fromDict plainEnv sampleDict = (d', .ok x) ∧ (x.changes [.code { rounds := some (.int 4) },
    .decoder (some "UnionFindDecoder".toList) (some true), .qubit "X".toList { params := some [0] }]).2 = .ok () := ⟨_, _, rfl, rfl⟩
  obtain ⟨d', x, h1, h2⟩ := h0
  have hv := C129_read plainEnv _ _ _ (List.Perm.refl _) (List.Perm.refl _) h1
  refine ⟨x, _, hv, Prod.ext rfl h2, C129_valid_partial plainEnv _ ?_ x _ hv (Prod.ext rfl h2)⟩
  intro c hc
  simp only [List.mem_cons, List.not_mem_nil, or_false] at hc
  rcases hc with rfl | rfl | rfl <;> trivial

/-- **C129** Every `update` is the loop over the keywords, and for the code, the decoder and the qubit errors the check of the constructor on the object with
the new attributes. -/
theorem C129_attributes :
    (∀ (c : DeviceConfig) (d : DeviceDict), (c.update d).attrs = setAttrs (c.attrs : List (List Char × AttrVal F)) d.kwargs) ∧
    (∀ (c : CircuitConfig) (d : CircuitDict), (c.update d).attrs = setAttrs (c.attrs : List (List Char × AttrVal F)) d.kwargs) ∧
    (∀ (m : GateMeta F) (d : GateMetaDict F), (m.update d).attrs = setAttrs m.attrs d.kwargs) ∧
    (∀ (c : DecoderConfig) (name : Option (List Char)) (w : Option Bool),
      (c.update name w).1.attrs = setAttrs (c.attrs : List (List Char × AttrVal F)) (keyword "name" (name.map .str) ++ keyword "weighted" (w.map .bool))) ∧
    (∀ (c : CodeConfig) (d : CodeDict), ∃ c' : CodeConfig, c'.attrs = setAttrs (c.attrs : List (List Char × AttrVal F)) d.kwargs ∧
      ∀ e, (c.change d = (c', .error e) ↔ c'.postInit = .error e) ∧ ∀ c'', c.change d = (c'', .ok ()) ↔ c'.postInit = .ok c'') ∧
    ∀ (m : QubitMeta F) (d : QubitMetaDict F), ∃ m' : QubitMeta F, m'.attrs = setAttrs m.attrs d.kwargs ∧
      ∀ e, (m.update d = (m', .error e) ↔ m'.postInit = .error e) ∧ ∀ m'', m.update d = (m'', .ok ()) ↔ m'.postInit = .ok m'' := by
  refine ⟨?_, ?_, ?_, ?_, ?_, ?_⟩
  · rintro ⟨a, b⟩ ⟨_ | x, _ | y⟩ <;> rfl
  · rintro ⟨a, b, c⟩ ⟨_ | x, _ | y, _ | z⟩ <;> rfl
  · rintro ⟨a, b, c, d⟩ ⟨_ | x, _ | y, _ | z, _ | w⟩ <;> rfl
  · rintro ⟨a, b⟩ (_ | x) (_ | y) <;> rfl
  · intro c d
    refine ⟨⟨d.name.getD c.name, d.rounds.getD c.rounds, d.size.getD c.size⟩, ?_, fun e => ?_⟩
    · obtain ⟨a, b, c⟩ := c
      obtain ⟨_ | x, _ | y, _ | z⟩ := d <;> rfl
    · unfold CodeConfig.change
      dsimp only
      cases CodeConfig.postInit ⟨d.name.getD c.name, d.rounds.getD c.rounds, d.size.getD c.size⟩ <;> simp
  · intro m d
    refine ⟨⟨d.distribution.getD m.distribution, d.params.getD m.params, d.enabled.getD m.enabled⟩, ?_, fun e => ?_⟩
    · obtain ⟨a, b, c⟩ := m
      obtain ⟨_ | x, _ | y, _ | z⟩ := d <;> rfl
    · unfold QubitMeta.update
      dsimp only
      cases QubitMeta.postInit ⟨d.distribution.getD m.distribution, d.params.getD m.params, d.enabled.getD m.enabled⟩ <;> simp

/-- Two keywords, one of which is new. -/
example : (DeviceConfig.update ⟨"clifford".toList, .int 5⟩ { shots := some (.int 7) }).attrs (F := Nat) =
    setAttrs [("name".toList, .str "clifford".toList), ("shots".toList, .num (.int 5))] [("shot".toList, .num (.int 6)), ("shots".toList, .num (.int 7))] := rfl

/-! ### The gates of a configuration (C64) -/

theorem mapLoop_dict {V : Type} {f : List Char → Except Err (List Char × V)} (hf : ∀ k b, f k = .ok b → b.1 = k) : ∀ {keys : List (List Char)} {l : List (List Char × V)},
    mapLoop f keys = .ok l → ∀ k ∈ keys, ∃ v, f k = .ok (k, v) ∧ dictGet l k = some v
  | [], _, _, _, hk => by cases hk
  | k0 :: keys, l, h, k, hk => by
    rw [mapLoop] at h
    split at h
    · cases h
    next b hb =>
    split at h
    · cases h
    next bs hbs =>
    cases h
    obtain ⟨b1, v⟩ := b
    obtain rfl : b1 = k0 := hf _ _ hb
    by_cases e : b1 = k
    · subst e
      exact ⟨v, hb, by simp [dictGet]⟩
    · rcases List.mem_cons.1 hk with hk | hk
      · exact absurd hk.symm e
      · obtain ⟨w, h1, h2⟩ := mapLoop_dict hf hbs k hk
        refine ⟨w, h1, ?_⟩
        rw [← h2]
        simp [dictGet, e]

/-- **C64** The configuration of the gates has the values of the dictionary: gates that are not given have no errors, and nothing is sampled unless it is asked for. -/
theorem C64_gate_config (sample : Option Bool) (d : List (List Char × GateMeta F)) (c : GateConfig F) (h : GateConfig.fromDict sample d = .ok c) :
    (c.sample = true ↔ sample = some true) ∧ ∀ key ∈ gateKeys, key ≠ "fabrication".toList →
      (dictGet d key = none → c.chan key = GateMeta.empty) ∧ ∀ m, dictGet d key = some m → m.postInit = .ok (c.chan key) := by
  unfold GateConfig.fromDict at h
  split at h
  · cases h
  next l hl =>
  cases h
  refine ⟨by cases sample <;> simp, fun key hk hne => ?_⟩
  obtain ⟨v, h1, h2⟩ := mapLoop_dict (fun k b hb => by
    split at hb
    · cases hb; rfl
    · split at hb
      · cases hb
      · cases hb; rfl) hl key hk
  dsimp only
  rw [if_neg hne, h2]
  refine ⟨fun h0 => ?_, fun m h0 => ?_⟩
  · rw [h0] at h1
    cases h1; rfl
  · rw [h0] at h1
    dsimp only at h1
    split at h1
    · cases h1
    next m' hm' => cases h1; exact hm'

/-- **C64** Channels are skipped as empty exactly if no distribution is given, neither a name nor a list of names. -/
theorem C64_gate_empty (m : GateMeta F) : m.isEmpty = true ↔ m.distribution = .str [] ∨ m.distribution = .list [] := by
  unfold GateMeta.isEmpty
  split <;> rename_i l h <;> rw [h] <;> cases l <;> simp

example : ∃ c : GateConfig Nat, GateConfig.fromDict none [("H".toList, ⟨.str "constant".toList, [], [], true⟩)] = .ok c ∧
    c.sample = false ∧ (c.chan "H".toList).isEmpty = false ∧ (c.chan "CX".toList).isEmpty = true := ⟨_, rfl, by decide, by decide, by decide⟩

theorem assimilate_none {L : Lattice} {csv : List (GateRow F)} {draws : List Char → List F} {g : List Char} : ∀ {conf : List (List Char × GateSim F)} {rows : List (GateRow F)},
    g ∉ conf.map Prod.fst → assimilateGates L csv draws conf = .ok rows → (rows.filter fun r => r.gate = g) = []
  | [], _, _, h => by cases h; rfl
  | e :: es, rows, hg, h => by
    rw [assimilateGates] at h
    split at h
    · cases h
    next r1 h1 =>
    split at h
    · cases h
    next r2 h2 =>
    cases h
    rw [List.map_cons, List.mem_cons, not_or] at hg
    rw [List.filter_append, assimilate_none hg.2 h2, List.append_nil, List.filter_eq_nil_iff]
    intro r hr
    rw [decide_eq_true_eq, assimilateGate_gate h1 r hr]
    exact fun e => hg.1 e.symm

/-- **C64** A gate whose errors are given by the user has the rows of the file, and a gate with another name in place of a list of channels has none. -/
theorem C64_user_rows {L : Lattice} {csv : List (GateRow F)} {draws : List Char → List F} {g s : List Char} : ∀ {conf : List (List Char × GateSim F)} {rows : List (GateRow F)},
    (conf.map Prod.fst).Nodup → (g, .str s) ∈ conf → assimilateGates L csv draws conf = .ok rows →
      (s = "user".toList → (rows.filter fun r => r.gate = g) = csv.filter fun r => r.gate = g) ∧ (s ≠ "user".toList → (rows.filter fun r => r.gate = g) = [])
  | [], _, _, hm, _ => by cases hm
  | e :: es, rows, hn, hm, h => by
    rw [assimilateGates] at h
    split at h
    · cases h
    next r1 h1 =>
    split at h
    · cases h
    next r2 h2 =>
    cases h
    rw [List.map_cons, List.nodup_cons] at hn
    rw [List.filter_append]
    rcases List.mem_cons.1 hm with rfl | hm
    · rw [assimilate_none hn.1 h2, List.append_nil]
      unfold assimilateGate at h1
      dsimp only at h1
      refine ⟨fun hs => ?_, fun hs => ?_⟩
      · rw [if_pos hs] at h1
        cases h1
        rw [List.filter_filter]
        simp
      · rw [if_neg hs] at h1
        cases h1
        rfl
    · have h3 : (r1.filter fun r => r.gate = g) = [] := by
        rw [List.filter_eq_nil_iff]
        intro r hr
        rw [decide_eq_true_eq, assimilateGate_gate h1 r hr]
        exact fun e => hn.1 (e ▸ List.mem_map_of_mem (f := Prod.fst) hm)
      rw [h3, List.nil_append]
      exact C64_user_rows hn.2 hm h2

example : ∃ (rows : List (GateRow Nat)) (L : Lattice),
    assimilateGates L [⟨"H".toList, [0], ["X".toList], [5]⟩, ⟨"R".toList, [1], ["X".toList], [6]⟩] (fun _ => []) [("R".toList, .str "users".toList), ("H".toList, .str "user".toList)] = .ok rows ∧
      rows.length = 1 := ⟨_, Lattice.empty 3 3, rfl, rfl⟩

/-- **C64** The numbers that are drawn for gaussian errors of qubits become the probabilities as they are: negative numbers, and numbers above 1, are not cut off. -/
theorem C64_gaussian (zero : F) (L : Lattice) (hnd : (L.qubitInfo.map Prod.fst).Nodup) (csv : List (List Char × List (Nat × F))) (e : List Char) (he : e ∈ qubitKeys) (mean dev : F) (v : Nat → F) :
    ∃ t, assimilateQubits zero L csv (fun _ => L.qubitInfo.map fun q => v q.1) [(e, "gaussian".toList, [mean, dev])] = .ok t ∧ ∀ q ∈ L.qubitInfo, t.cell e q.1 = .ok (v q.1) := by
  refine ⟨⟨L.qubitInfo, dictSet [(e, L.qubitInfo.map fun _ => zero)] e (L.qubitInfo.map fun q => v q.1)⟩, ?_, fun q hq => ?_⟩
  · unfold assimilateQubits
    rw [if_neg (by simpa using he)]
    have h : ∀ s : List Char, s ≠ "constant".toList → s = "gaussian".toList →
        assimilateQubit csv (fun _ => L.qubitInfo.map fun q => v q.1) ⟨L.qubitInfo, [(e, L.qubitInfo.map fun _ => zero)]⟩ (e, s, [mean, dev]) =
          .ok ⟨L.qubitInfo, dictSet [(e, L.qubitInfo.map fun _ => zero)] e (L.qubitInfo.map fun q => v q.1)⟩ := by
      intro s h1 h2
      unfold assimilateQubit
      dsimp only
      rw [if_neg h1, if_pos h2]
    have h0 : "gaussian".toList ≠ "constant".toList := by decide
    revert h h0
    generalize "gaussian".toList = s
    intro h h0
    rw [List.map_cons, List.map_nil, foldE, h s h0 rfl]
    rfl
  · have hcol : dictGet (dictSet [(e, L.qubitInfo.map fun _ => zero)] e (L.qubitInfo.map fun q => v q.1)) e = some (L.qubitInfo.map fun q => v q.1) := by
      simp [dictGet, dictSet]
    unfold QubitTable.cell
    rw [hcol]
    dsimp only
    have h3 : dictGet ((L.qubitInfo.zip (L.qubitInfo.map fun q => v q.1)).map fun x => (x.1.1, x.2)) q.1 = some (v q.1) := by
      clear hcol
      generalize L.qubitInfo = l at hnd hq
      induction l with
      | nil => cases hq
      | cons a l ih =>
        rw [List.map_cons, List.nodup_cons] at hnd
        rcases List.mem_cons.1 hq with rfl | hq
        · simp [dictGet]
        · have hne : a.1 ≠ q.1 := fun h => hnd.1 (h ▸ List.mem_map_of_mem hq)
          have := ih hnd.2 hq
          simpa [dictGet, hne] using this
    rw [h3]

example : ∃ t, assimilateQubits (0 : ℚ) ((Rep.lat 3).latCode 1).lattice [] (fun _ => ((Rep.lat 3).latCode 1).lattice.qubitInfo.map fun q => (fun _ => -1 : Nat → ℚ) q.1)
    [("X".toList, "gaussian".toList, [1 / 10, 1])] = .ok t ∧ ∀ q ∈ ((Rep.lat 3).latCode 1).lattice.qubitInfo, t.cell "X".toList q.1 = .ok (-1) :=
  C64_gaussian 0 ((Rep.lat 3).latCode 1).lattice (by decide +kernel) [] "X".toList (by decide) (1 / 10) 1 fun _ => -1

end Plaquette
