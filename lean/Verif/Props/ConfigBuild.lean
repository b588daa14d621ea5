import Verif.Lemmas.ConfigBuild
import Verif.Model.ConfigBuild
import Verif.Props.Config
import Verif.Props.Frontend
import Verif.Props.WeightedRates

/-!
# From a configuration to the logical error rate (C115)
-/

open MeasureTheory
open scoped ENNReal NNReal

namespace Plaquette

/-! ## The dictionaries of a configuration with constant errors -/

/-- The orders of sets are orders of these sets. -/
structure BuildEnv.Ok (env : BuildEnv) : Prop where
  q : env.qorder.Perm qubitKeys
  g : env.gorder.Perm gateKeys
  o : env.order.Perm qubitKeys

/-- The configuration has constant errors of qubits and measurements with the probabilities `spec`, and no errors of gates. -/
structure QubitNoise (x : ExperimentConf ℚ) (spec : List Char → Option ℚ) : Prop where
  sample : x.errors.qubit.conf.sample = true
  one : OneConstant x.errors.qubit.conf x.errors.gate.conf spec (fun _ => none)

/-- The dictionaries have the shape of the lattice and the values of the configuration. -/
structure ConstData (L : Lattice) (spec : List Char → Option ℚ) (t : QubitTable ℚ) (d : ErrData) : Prop where
  table : t.qubits = L.qubitInfo
  shape : DictShape t d
  value : ∀ e kind par data q, e ∈ qubitKeys → kindOf e = some (kind, par, data) →
    (((dictGet d kind).bind (dictGet · (.int (q : Nat)))).bind (dictGet · par)) = if (q, data) ∈ L.qubitInfo then (spec e).map .flt else none

theorem const_data {env : BuildEnv} (henv : env.Ok) {x : ExperimentConf ℚ} {spec : List Char → Option ℚ} (hx : QubitNoise x spec) (c : LatCode) :
    ∃ t d, env.makers.errors x.errors c = .ok (d, []) ∧ ConstData c.lattice spec t d := by
  obtain ⟨t, d, h1, h2, h3⟩ := constDict 0 c.lattice env.qcsv env.qdraws spec (qorder := env.qorder) (order := env.order) (fun e he => henv.q.mem_iff.1 he)
    (fun e he => henv.q.mem_iff.2 he) (fun e he => henv.o.mem_iff.2 he)
  have ht : t.qubits = c.lattice.qubitInfo := by
    obtain ⟨t', k1, k2, _⟩ := foldE_const env.qcsv env.qdraws spec env.qorder
      ⟨c.lattice.qubitInfo, (constEntries spec env.qorder).map fun e => (e.1, c.lattice.qubitInfo.map fun _ => (0 : ℚ))⟩
    unfold assimilateQubits at h1
    split at h1
    · cases h1
    · obtain rfl := Except.ok.inj (k1.symm.trans h1)
      exact k2
  have hsim := simulated_const env.qorder hx.sample fun e he => hx.one.qubit e (henv.q.mem_iff.1 he)
  have hloop := simLoop_one (c := x.errors.gate.conf) (spec := fun _ => none) env.gorder fun k hk => hx.one.gate k (henv.g.mem_iff.1 hk)
  refine ⟨t, d, ?_, ht, dict_shape h2, h3⟩
  show configErrors _ _ _ _ _ _ _ _ _ _ _ _ = _
  unfold configErrors GateConfig.simulated
  have hnil : (env.gorder.filterMap fun g => ((fun _ => none : List Char → Option (List Char × ℚ)) g).map fun s => (g, GateSim.channels [("constant".toList, s.1, [s.2])])) = [] := by
    rw [List.filterMap_eq_nil_iff]
    intro a _
    rfl
  rw [hnil] at hloop
  cases hs : x.errors.gate.conf.sample with
  | false =>
    rw [if_pos (by rfl)]
    dsimp only
    rw [hsim]
    unfold errorDicts
    dsimp only
    rw [h1]
    dsimp only
    rw [h2]
  | true =>
    rw [if_neg (by simp), hloop]
    dsimp only
    rw [hsim]
    unfold errorDicts
    dsimp only
    rw [h1]
    dsimp only
    rw [h2]
    rfl

variable {L : Lattice} {spec : List Char → Option ℚ} {t : QubitTable ℚ} {d : ErrData}

theorem ConstData.keys (h : ConstData L spec t d) (hL : L.Indexed) {name : List Char} {e : ErrDict ℚ} (he : (name, e) ∈ d) : (e.map Prod.fst).Nodup := by
  rw [h.shape.keys _ _ he]
  refine (ids_nodup hL h.table _).map_on ?_
  intro a _ b _ hab
  cases hab
  rfl

/-- The entries of a kind are for the qubits of the kind. -/
theorem ConstData.key (h : ConstData L spec t d) {name : List Char} {e : ErrDict ℚ} (he : (name, e) ∈ d) {key : QKey} {ps : Params ℚ} (hp : (key, ps) ∈ e) :
    ∃ q : Nat, key = .int (q : Int) ∧ (q, kindData name) ∈ L.qubitInfo := by
  have : key ∈ e.map Prod.fst := List.mem_map_of_mem hp
  rw [h.shape.keys _ _ he] at this
  obtain ⟨q, hq, rfl⟩ := List.mem_map.1 this
  exact ⟨q, rfl, (ids_info h.table).1 hq⟩

/-- The parameters of the entries have the values of the configuration. -/
theorem ConstData.param (h : ConstData L spec t d) (hL : L.Indexed) {name : List Char} {e : ErrDict ℚ} (he : (name, e) ∈ d) {key : QKey} {ps : Params ℚ} (hp : (key, ps) ∈ e)
    {a par : List Char} {data : Bool} (ha : a ∈ qubitKeys) (hk : kindOf a = some (name, par, data)) : dictGet ps par = (spec a).map .flt := by
  obtain ⟨q, rfl, hq⟩ := h.key he hp
  have := h.value a name par data q ha hk
  rw [dictGet_of_mem h.shape.nodup he, Option.bind_some, dictGet_of_mem (h.keys hL he) hp, Option.bind_some, kindOf_data hk, if_pos hq] at this
  exact this

theorem dataIdx {q : Nat} (hL : L.Indexed) (h : (q, true) ∈ L.qubitInfo) : L.IsDataIdx q := by
  obtain ⟨p, hp, rfl⟩ := (hL.info q).1.1 h
  refine ⟨by omega, p, ?_, hp⟩
  have hm : p ∈ L.occupied := by unfold Lattice.occupied; simp [hp]
  unfold Lattice.idx
  rw [hL.equbits, hL.indexed, Int.toNat_natCast, List.getElem?_eq_getElem (List.idxOf_lt_length_iff.2 hm)]
  exact congrArg some (List.getElem_idxOf (List.idxOf_lt_length_iff.2 hm))

theorem stabIdx {q : Nat} (hL : L.Indexed) (h : (q, false) ∈ L.qubitInfo) : L.IsStabIdx q := by
  obtain ⟨s, hs, rfl⟩ := (hL.info q).2.1 h
  have hm' : s.1 ∈ L.stabgens.map Prod.fst := List.mem_map_of_mem hs
  refine ⟨by omega, s.1, ?_, ?_⟩
  · have hm : s.1 ∈ L.occupied := by unfold Lattice.occupied; simp only [List.mem_append]; exact .inl (.inr hm')
    unfold Lattice.idx
    rw [hL.equbits, hL.indexed, Int.toNat_natCast, List.getElem?_eq_getElem (List.idxOf_lt_length_iff.2 hm)]
    exact congrArg some (List.getElem_idxOf (List.idxOf_lt_length_iff.2 hm))
  · unfold Lattice.isStab
    simpa using hm'

theorem ConstData.fits (h : ConstData L spec t d) (hL : L.Indexed) : Fits L d := by
  intro name e he key ps hp
  obtain ⟨q, rfl, hq⟩ := h.key he hp
  have hpar : ∀ k ∈ ps.map Prod.fst, k ∈ kindPars name := by
    intro k hk
    obtain ⟨⟨k', v⟩, hkv, rfl⟩ := List.mem_map.1 hk
    exact (h.shape.params _ _ he _ _ hp _ _ hkv).1
  have hn := h.shape.names _ _ he
  unfold qubitErrorNames at hn
  rcases List.mem_cons.1 hn with rfl | hn
  · unfold EntryFits
    rw [if_pos rfl]
    exact ⟨q, rfl, dataIdx hL hq, hpar⟩
  rcases List.mem_cons.1 hn with rfl | hn
  · unfold EntryFits
    rw [if_neg (by decide), if_pos rfl]
    exact ⟨q, rfl, dataIdx hL hq, fun k hk => List.mem_singleton.1 (hpar k hk)⟩
  · obtain rfl := List.mem_singleton.1 hn
    unfold EntryFits
    rw [if_neg (by decide), if_neg (by decide), if_pos rfl]
    exact ⟨q, rfl, stabIdx hL hq, fun k hk => List.mem_singleton.1 (hpar k hk)⟩

theorem ConstData.numbers (h : ConstData L spec t d) (hL : L.Indexed) (api : FloatApi ℚ) (hm : ∀ p, spec "measurement".toList = some p → api.inUnit p = true) : Numbers api d := by
  intro name e he key ps hp k v hkv
  obtain ⟨hk, f, rfl⟩ := h.shape.params _ _ he _ _ hp _ _ hkv
  refine ⟨f, rfl, ?_⟩
  rintro rfl
  obtain rfl : k = "p".toList := List.mem_singleton.1 hk
  have h1 := h.param hL he hp (a := "measurement".toList) (par := "p".toList) (data := false) (by decide) (by decide)
  rw [dictGet_of_mem (h.shape.once _ _ he _ _ hp) hkv] at h1
  cases hs : spec "measurement".toList with
  | none => rw [hs] at h1; cases h1
  | some p => rw [hs] at h1; cases h1; exact hm _ hs

/-- The probability of an error of the configuration, 0 if it is not enabled. -/
def specProb (api : FloatApi ℚ) (prob : ℚ → ℝ≥0∞) (spec : List Char → Option ℚ) (e : List Char) : ℝ≥0∞ :=
  match spec e with
  | some p => prob p
  | none => prob (api.ofInt 0)

/-- The probabilities of the errors of a configuration are at most `y`: the sum of those of the three Pauli errors, and those of erasure and of wrong outcomes. -/
structure SpecBelow (api : FloatApi ℚ) (prob : ℚ → ℝ≥0∞) (spec : List Char → Option ℚ) (y : ℝ≥0∞) : Prop where
  pauli : specProb api prob spec "X".toList + specProb api prob spec "Y".toList + specProb api prob spec "Z".toList ≤ y
  erasure : specProb api prob spec "erasure".toList ≤ y
  meas : specProb api prob spec "measurement".toList ≤ y

theorem ConstData.below (h : ConstData L spec t d) (hL : L.Indexed) {api : FloatApi ℚ} {prob : ℚ → ℝ≥0∞} {y : ℝ≥0∞} (hy : SpecBelow api prob spec y) : DataBelow api prob d y := by
  intro k hk e he key ps hp
  have he' := dictGet_some_mem he
  have hp' := dictGet_some_mem hp
  have hn := h.shape.names _ _ he'
  fin_cases hk
  · unfold entryRate
    simp only [List.map_cons, List.map_nil, List.sum_cons, List.sum_nil, add_zero]
    rw [h.param hL he' hp' (a := "X".toList) (par := "x".toList) (data := true) (by decide) (by decide),
      h.param hL he' hp' (a := "Y".toList) (par := "y".toList) (data := true) (by decide) (by decide),
      h.param hL he' hp' (a := "Z".toList) (par := "z".toList) (data := true) (by decide) (by decide), ← add_assoc]
    have := hy.pauli
    unfold specProb at this
    revert this
    cases spec "X".toList <;> cases spec "Y".toList <;> cases spec "Z".toList <;> exact id
  · unfold entryRate
    simp only [List.map_cons, List.map_nil, List.sum_cons, List.sum_nil, add_zero]
    rw [h.param hL he' hp' (a := "erasure".toList) (par := "p".toList) (data := true) (by decide) (by decide)]
    have := hy.erasure
    unfold specProb at this
    revert this
    cases spec "erasure".toList <;> exact id
  · unfold entryRate
    simp only [List.map_cons, List.map_nil, List.sum_cons, List.sum_nil, add_zero]
    rw [h.param hL he' hp' (a := "measurement".toList) (par := "p".toList) (data := false) (by decide) (by decide)]
    have := hy.meas
    unfold specProb at this
    revert this
    cases spec "measurement".toList <;> exact id
  all_goals exact absurd hn (by decide)

theorem ConstData.dataOk (h : ConstData L spec t d) (hL : L.Indexed) : DataOk L d := by
  have hf := h.fits hL
  refine ⟨fun e he => ?_, fun e he x hx => ?_, fun e he x hx => ?_, fun e he x hx => ?_⟩
  · have := h.shape.names e.1 e.2 he
    revert this
    generalize e.1 = n
    intro hn
    unfold qubitErrorNames at hn
    unfold supportedErrors
    simp only [List.mem_cons, List.not_mem_nil, or_false] at hn ⊢
    tauto
  · have := hf _ _ (dictGet_some_mem he) x.1 x.2 hx
    unfold EntryFits at this
    rw [if_pos rfl] at this
    obtain ⟨i, h1, h2, h3⟩ := this
    exact ⟨checkData_iff.2 ⟨i, h1, h2⟩, fun p hp => h3 _ (List.mem_map_of_mem hp)⟩
  · have := hf _ _ (dictGet_some_mem he) x.1 x.2 hx
    unfold EntryFits at this
    rw [if_neg (by decide), if_pos rfl] at this
    obtain ⟨i, h1, h2, h3⟩ := this
    exact ⟨checkData_iff.2 ⟨i, h1, h2⟩, fun p hp => List.mem_singleton.2 (h3 _ (List.mem_map_of_mem hp))⟩
  · have := hf _ _ (dictGet_some_mem he) x.1 x.2 hx
    unfold EntryFits at this
    rw [if_neg (by decide), if_neg (by decide), if_pos rfl] at this
    obtain ⟨i, h1, h2, h3⟩ := this
    exact ⟨checkStab_iff.2 ⟨i, h1, h2⟩, fun p hp => List.mem_singleton.2 (h3 _ (List.mem_map_of_mem hp))⟩

/-- The probabilities of the edges of the syndrome graph lie between `lo` and `hi`, where missing Pauli errors have the probability `tiny`. -/
structure SpecBetween (tiny : ℚ) (spec : List Char → Option ℚ) (lo hi : ℚ) : Prop where
  x : fill tiny ((spec "X".toList).getD 0) + fill tiny ((spec "Y".toList).getD 0) ∈ Set.Icc lo hi
  z : fill tiny ((spec "Y".toList).getD 0) + fill tiny ((spec "Z".toList).getD 0) ∈ Set.Icc lo hi
  m : (spec "measurement".toList).getD 0 ∈ Set.Icc lo hi

theorem pauliProb_value {q : Nat} {a : Letter} {o : Option ℚ}
    (h : (((dictGet d "pauli".toList).bind (dictGet · (.int (q : Nat)))).bind (dictGet · (letterKey a))) = o.map .flt) : pauliProb d q a = o.getD 0 := by
  unfold pauliProb paramVal
  cases h1 : dictGet d "pauli".toList with
  | none => rw [h1] at h; cases o with
    | none => rfl
    | some v => cases h
  | some e =>
    rw [h1] at h
    dsimp only
    cases h2 : dictGet e (.int (q : Nat)) with
    | none => rw [Option.bind_some, h2] at h; cases o with
      | none => rfl
      | some v => cases h
    | some ps =>
      rw [Option.bind_some, h2, Option.bind_some] at h
      dsimp only
      rw [h]
      cases o <;> rfl

theorem measProb_value {q : Nat} {o : Option ℚ}
    (h : (((dictGet d "measurement".toList).bind (dictGet · (.int (q : Nat)))).bind (dictGet · "p".toList)) = o.map .flt) : measProb d q = o.getD 0 := by
  unfold measProb paramVal
  cases h1 : dictGet d "measurement".toList with
  | none => rw [h1] at h; cases o with
    | none => rfl
    | some v => cases h
  | some e =>
    rw [h1] at h
    dsimp only
    cases h2 : dictGet e (.int (q : Nat)) with
    | none => rw [Option.bind_some, h2] at h; cases o with
      | none => rfl
      | some v => cases h
    | some ps =>
      rw [Option.bind_some, h2, Option.bind_some] at h
      dsimp only
      rw [show (['p'] : List Char) = "p".toList from rfl, h]
      cases o <;> rfl

theorem info_data (hL : L.Indexed) {q : Nat} (hq : q < L.dataqubits.length) : (q, true) ∈ L.qubitInfo := by
  refine (hL.info q).1.2 ⟨L.dataqubits[q], List.getElem_mem hq, hL.idx ?_⟩
  rw [hL.equbits]
  unfold Lattice.occupied
  rw [List.append_assoc, List.getElem?_append_left hq, List.getElem?_eq_getElem hq]

theorem info_stab (hL : L.Indexed) {s : Nat} (hs : s < L.stabgens.length) : (L.dataqubits.length + s, false) ∈ L.qubitInfo := by
  refine (hL.info _).2.2 ⟨L.stabgens[s], List.getElem_mem hs, hL.idx ?_⟩
  rw [hL.equbits]
  unfold Lattice.occupied
  rw [List.append_assoc, List.getElem?_append_right (by omega), Nat.add_sub_cancel_left, List.getElem?_append_left (by simpa using hs), List.getElem?_map,
    List.getElem?_eq_getElem hs]
  rfl

theorem ConstData.between {c : LatCode} (hc : c.Ok) (h : ConstData c.lattice spec t d) {tiny lo hi : ℚ} (hs : SpecBetween tiny spec lo hi) : DataBetween tiny c d lo hi where
  keys name e he := h.keys hc.indexed (dictGet_some_mem he)
  numeric name e he x hx v hv s hs := by
    obtain ⟨_, f, hf⟩ := h.shape.params _ _ (dictGet_some_mem he) x.1 x.2 hx v.1 v.2 hv
    rw [hf] at hs
    cases hs
  ok := h.dataOk hc.indexed
  x q hq := by
    have hi := info_data hc.indexed (q := q) (by rw [← hc.size]; exact hq)
    have h1 := h.value "X".toList "pauli".toList "x".toList true q (by decide) (by decide)
    have h2 := h.value "Y".toList "pauli".toList "y".toList true q (by decide) (by decide)
    rw [if_pos hi] at h1 h2
    rw [pauliProb_value (a := .X) h1, pauliProb_value (a := .Y) h2]
    exact hs.x
  z q hq := by
    have hi := info_data hc.indexed (q := q) (by rw [← hc.size]; exact hq)
    have h1 := h.value "Y".toList "pauli".toList "y".toList true q (by decide) (by decide)
    have h2 := h.value "Z".toList "pauli".toList "z".toList true q (by decide) (by decide)
    rw [if_pos hi] at h1 h2
    rw [pauliProb_value (a := .Y) h1, pauliProb_value (a := .Z) h2]
    exact hs.z
  m s hs' := by
    have hi := info_stab hc.indexed (s := s) (by rw [← hc.stabs]; exact hs')
    have h1 := h.value "measurement".toList "measurement".toList "p".toList false (c.lattice.dataqubits.length + s) (by decide) (by decide)
    rw [if_pos hi] at h1
    rw [hc.size, measProb_value h1]
    exact hs.m

/-- Without errors of erasure no qubit is erased. -/
theorem ConstData.noErasure (h : ConstData L spec t d) (hL : L.Indexed) (hs : spec "erasure".toList = none) (q : Nat) : (flagsOf d).erasure q = false := by
  show configured d "erasure".toList q = false
  unfold configured
  cases h1 : dictGet d "erasure".toList with
  | none => rfl
  | some e =>
    dsimp only
    cases h2 : dictGet e (.int (q : Nat)) with
    | none => rfl
    | some ps =>
      cases ps with
      | nil => rfl
      | cons a ps =>
        have he := dictGet_some_mem h1
        have hp := dictGet_some_mem h2
        have hk := (h.shape.params _ _ he _ _ hp a.1 a.2 (.head _)).1
        have ha : a.1 = "p".toList := List.mem_singleton.1 hk
        have := h.param hL he hp (a := "erasure".toList) (par := "p".toList) (data := true) (by decide) (by decide)
        rw [hs, ← ha, dictGet_of_mem (h.shape.once _ _ he _ _ hp) (k := a.1) (v := a.2) (.head _)] at this
        cases this

/-! ## What is built -/

/-- One letter per logical qubit is chosen by a text. -/
theorem string_indices {s : List Char} {n : Nat} {is : List Int} (h : logicalOpsToIndices n (.str s) = .ok is) : ∀ i ∈ is, ∀ j ∈ is, i / 2 = j / 2 → i = j := by
  have h0 : mapLoop selIndex s.zipIdx = .ok is := by
    unfold logicalOpsToIndices at h
    dsimp only at h
    split at h
    · cases h
    next l hl =>
    split_ifs at h
    cases h
    exact hl
  intro i hi j hj hij
  obtain ⟨e, he, h1⟩ := mapLoop_src h0 hi
  obtain ⟨f, hf, h2⟩ := mapLoop_src h0 hj
  have key : ∀ (e : Char × Nat) (i : Int), selIndex e = .ok i → (i / 2 = e.2) := by
    intro e i h
    unfold selIndex at h
    split_ifs at h <;> cases h <;> omega
  have hef : e.2 = f.2 := by
    have a := key e i h1
    have b := key f j h2
    omega
  obtain ⟨c, k⟩ := e
  obtain ⟨c', k'⟩ := f
  obtain rfl : k = k' := hef
  have a := List.mem_zipIdx_iff_getElem?.1 he
  have b := List.mem_zipIdx_iff_getElem?.1 hf
  dsimp only at a b
  rw [a] at b
  cases b
  rw [h1] at h2
  cases h2
  rfl

/-- **C115** A configuration with constant errors of qubits and measurements, without errors of gates, for a code of the library is built, if the decoder can be made from the
error data. -/
theorem C115_builds {env : BuildEnv} (henv : env.Ok) (devices : List (List Char)) {x : ExperimentConf ℚ} (hx : QubitNoise x spec) {r : Nat} {c : LatCode}
    (hc : x.code.instantiate = .ok c) (hm : Made r c) {gen : General} (hg : x.general = some gen) {is : List Int}
    (his : logicalOpsToIndices c.code.logicalOps.length (.str gen.logicalOp) = .ok is) (hp : x.circuit.provided = false) (hd : x.device.name ∈ devices)
    (hmeas : ∀ p, spec "measurement".toList = some p → env.api.inUnit p = true) (hw : ¬ (x.decoder.weighted = true ∧ x.decoder.name = "UnionFindNoWeights".toList)) :
    ∃ t qd circ, ConstData c.lattice spec t qd ∧ generateCircuit env.api c qd [] (.str gen.logicalOp) false = .ok circ ∧
      ∀ (b : BuiltParts ℚ ErrPair BuiltDecoder) (dec : BuiltDecoder), x.decoder.make env c (qd, []) = .ok dec →
        x.build env.makers devices b = .ok ⟨some c, some (qd, []), some x.device.name, some circ, some dec⟩ := by
  obtain ⟨t, qd, he, hC⟩ := const_data henv hx c
  have hL := (Made.codeOk hm).indexed
  obtain ⟨circ, hcirc⟩ := C113_total env.api r c hm qd [] (.str gen.logicalOp) false is (fun e he => hC.shape.names e.1 e.2 he) (by simp) hC.shape.nodup List.nodup_nil
    (by rw [List.append_nil]; exact hC.fits hL) (by rw [List.append_nil]; exact hC.numbers hL _ hmeas) his (string_indices his)
  refine ⟨t, qd, circ, hC, hcirc, fun b dec hdec => ?_⟩
  unfold ExperimentConf.build ExperimentConf.updateRng
  rw [hg]
  dsimp only
  unfold ExperimentConf.buildCode
  rw [hc]
  dsimp only
  unfold ExperimentConf.buildErrors
  dsimp only
  rw [he]
  dsimp only
  unfold ExperimentConf.buildCircuit
  rw [hg]
  dsimp only
  unfold CircuitConfig.instantiate
  rw [hp, if_neg (by simp)]
  dsimp only
  rw [show env.makers.generate c (qd, []) gen.logicalOp = .ok circ from hcirc]
  dsimp only
  unfold ExperimentConf.buildDevice DeviceConfig.instantiate
  rw [if_pos hd]
  dsimp only
  unfold ExperimentConf.buildDecoder DecoderConfig.check
  rw [if_neg hw]
  dsimp only
  rw [show env.makers.decoder x.decoder c (qd, []) = .ok dec from hdec]

/-- The names of the dictionaries of errors of gates. -/
theorem addRow_names {enabled : List (List Char)} {d d' : ErrData} {row : GateRow ℚ} (hd : ∀ e ∈ d, e.1 ∈ gateErrorNames) (h : addRow enabled d row = .ok d') :
    ∀ e ∈ d', e.1 ∈ gateErrorNames := by
  have key : ∀ v, row.gate ∈ gateErrorNames → ∀ e ∈ dictSet d row.gate v, e.1 ∈ gateErrorNames := by
    intro v hv e he
    rcases mem_dictSet he with rfl | he
    · exact hv
    · exact hd e he.1
  unfold addRow at h
  dsimp only at h
  split_ifs at h with h1 h2 h3 h4
  · cases h
    exact key _ (by rcases h2 with h | h | h <;> rw [h] <;> decide)
  · split at h
    · cases h
    next ks _ =>
    cases h
    exact key _ (by rcases h3 with h | h <;> rw [h] <;> decide)
  · cases h; exact hd
  · cases h; exact hd

theorem gateDict_names {enabled : List (List Char)} {rows : List (GateRow ℚ)} {d : ErrData} (h : gateDict enabled rows = .ok d) : ∀ e ∈ d, e.1 ∈ gateErrorNames := by
  suffices H : ∀ (l : List (GateRow ℚ)) (d0 : ErrData), (∀ e ∈ d0, e.1 ∈ gateErrorNames) → foldE (addRow enabled) d0 l = .ok d → ∀ e ∈ d, e.1 ∈ gateErrorNames from
    H rows [] (by simp) h
  intro l
  induction l with
  | nil => intro d0 h0 h; cases h; exact h0
  | cons a l ih =>
    intro d0 h0 h
    unfold foldE at h
    split at h
    · cases h
    next d1 h1 => exact ih d1 (addRow_names h0 h1) h

theorem errors_gates {env : BuildEnv} {conf : ErrorsConfig ℚ} {c : LatCode} {ed : ErrPair} (h : env.makers.errors conf c = .ok ed) : ∀ e ∈ ed.2, e.1 ∈ gateErrorNames := by
  have h : configErrors _ _ _ _ _ _ _ _ _ _ _ _ = .ok ed := h
  unfold configErrors at h
  split at h
  · cases h
  next gc _ =>
  unfold errorDicts at h
  split at h
  · dsimp only at h
    split at h
    · cases h
    · cases h; simp
  · dsimp only at h
    split at h
    · cases h
    next qd _ =>
    split at h
    · cases h
    next gd hgd =>
    cases h
    split at hgd
    · cases hgd; simp
    · split at hgd
      · cases hgd
      · exact gateDict_names hgd

/-- The errors of gates stay in the error data. -/
theorem complete_mem {tiny : ℚ} {n : Nat} {errs : ErrData} {e : List Char × ErrDict ℚ} (he : e ∈ errs) : e.1 ∈ (completeErrors tiny n (some errs)).map Prod.fst := by
  have key : ∀ (d : ErrData) (k : List Char) (v : ErrDict ℚ), e.1 ∈ d.map Prod.fst → e.1 ∈ (dictSet d k v).map Prod.fst := by
    intro d k v h
    obtain ⟨a, ha, hae⟩ := List.mem_map.1 h
    unfold dictSet
    split
    · refine List.mem_map.2 ⟨_, List.mem_map.2 ⟨a, ha, rfl⟩, ?_⟩
      split
      next hk => exact hk.symm.trans hae
      · exact hae
    · rw [List.map_append]
      exact List.mem_append_left _ h
  have h0 : e.1 ∈ errs.map Prod.fst := List.mem_map_of_mem he
  unfold completeErrors
  dsimp only
  split
  · exact key _ _ _ h0
  · split
    · exact key _ _ _ h0
    · exact key _ _ _ (key _ _ _ h0)

/-- **C115** A decoder with weights cannot be built when errors of gates are simulated: the computation of the weights refuses them. -/
theorem C115_gates (env : BuildEnv) (devices : List (List Char)) (x : ExperimentConf ℚ) (b b' : BuiltParts ℚ ErrPair BuiltDecoder) (hw : x.decoder.weighted = true)
    (h : x.build env.makers devices b = .ok b') : ∃ qd, b'.errors = some (qd, []) := by
  obtain ⟨c, ed, circ, dev, dec, g, hg, hc, he, _, _, _, hdec, _, _, hb, _⟩ := C87_build_partial env.makers devices x b b' h
  have hb' : b'.errors = some ed := ((C87_getters x b').1 ed).1 hb
  suffices hgd : ed.2 = [] by
    obtain ⟨qd, gd⟩ := ed
    obtain rfl : gd = [] := hgd
    exact ⟨qd, hb'⟩
  have hf : ∃ p, edgeProbs c (completeErrors env.tiny c.lattice.dataqubits.length (some (ed.2 ++ ed.1))) = .ok p := by
    have hman : ∀ {σ : Type} {B : Backend FW σ} {v : SynGraph FW × List σ},
        fromCode FW.isInf env.negLog env.tiny B c (some (ed.2 ++ ed.1)) (some x.decoder.weighted) none = .ok v →
        ∃ p, edgeProbs c (completeErrors env.tiny c.lattice.dataqubits.length (some (ed.2 ++ ed.1))) = .ok p := by
      intro σ B v hv
      unfold fromCode manager managerWeights at hv
      rw [hw] at hv
      cases hp : edgeProbs c (completeErrors env.tiny c.lattice.dataqubits.length (some (ed.2 ++ ed.1))) with
      | ok p => exact ⟨p, rfl⟩
      | error e =>
        exfalso
        simp [hp] at hv
        cases hv
    have hdec : x.decoder.make env c ed = .ok dec := hdec
    unfold DecoderConfig.make at hdec
    split_ifs at hdec
    all_goals
      split at hdec
      · cases hdec
      next g states hv => exact hman hv
  obtain ⟨p, hp⟩ := hf
  cases hgd : ed.2 with
  | nil => rfl
  | cons a l =>
    exfalso
    have ha : a.1 ∈ gateErrorNames := errors_gates he a (by rw [hgd]; exact .head _)
    have hm := complete_mem (tiny := env.tiny) (n := c.lattice.dataqubits.length) (errs := ed.2 ++ ed.1) (e := a) (by rw [hgd]; simp)
    obtain ⟨e, he', hea⟩ := List.mem_map.1 hm
    have hany : ((completeErrors env.tiny c.lattice.dataqubits.length (some (ed.2 ++ ed.1))).any fun e => e.1 ∉ supportedErrors) = true := by
      rw [List.any_eq_true]
      refine ⟨e, he', ?_⟩
      rw [hea]
      revert ha
      generalize a.1 = n
      intro ha
      unfold gateErrorNames at ha
      simp only [List.mem_cons, List.not_mem_nil, or_false] at ha
      rcases ha with rfl | rfl | rfl | rfl | rfl <;> decide
    unfold edgeProbs at hp
    rw [if_pos hany] at hp
    cases hck : checkAgainstCode c.lattice (completeErrors env.tiny c.lattice.dataqubits.length (some (ed.2 ++ ed.1))) with
    | error e => rw [hck] at hp; cases hp
    | ok u => rw [hck] at hp; cases hp

/-! ## Experiments -/

/-- The matching decoders without weights can be made. -/
theorem few_builds {c : LatCode} {d : Nat} {e ph : Bool} (h : FewCorrected c d e ph) (hd : 0 < d) {σ : Type} {b : Backend FW σ} {K : Nat} {lossy : Bool} (hb : Few K lossy b)
    (negLog : ℚ → Option FW) (tiny : ℚ) (errs : Option ErrData) : ∃ g states, fromCode FW.isInf negLog tiny b c errs (some false) none = .ok (g, states) := by
  let f : Faults c.n := ⟨fun _ => ⟨fun _ => false, fun _ => false, false⟩, fun _ _ => False⟩
  obtain ⟨syn, h1, h2⟩ := exists_shows (r := c.nRounds) (stabs := c.code.stabilisers) (f := f) (fun _ _ _ h => h)
  have hno : ∀ t q, ¬ SynBit (none : Option (List (List Bool))) t q := fun _ _ ⟨_, _, h, _⟩ => by cases h
  have hcount : f.count c.nRounds c.code.stabilisers.length none = 0 := by
    unfold Faults.count
    simp [f]
  obtain ⟨g, states, p, k1, k2, _⟩ := h c.nRounds σ b K lossy hb f none (some syn) (fun a h => by cases h) h1 h2 (fun _ => hno) (fun _ _ _ => rfl)
    (by rw [no_erasures, hcount]; omega)
  refine ⟨g, states, ?_⟩
  unfold fromCode manager managerWeights
  rw [if_neg (by simp), if_neg (by simp)]
  show (mkSynGraph FW.isInf c.nRounds c.code.stabilisers none).bind _ = _
  rw [k1]
  show (setupAll b g).bind _ = _
  rw [k2]
  rfl

/-- The codes of the library, their sizes, and the text that chooses all logical operators Z. Erased qubits are handled on the first two. -/
inductive MatchCode : List Char → Nat → List Char → Bool → Prop
  | planar {size : Nat} : 3 ≤ size → MatchCode "PlanarCode".toList size "Z".toList true
  | toric {size : Nat} : 3 ≤ size → MatchCode "ToricCode".toList size "ZZ".toList true
  | rotated {size : Nat} : 2 ≤ size → MatchCode "RotatedPlanarCode".toList size "Z".toList false

theorem MatchCode.pos {name op : List Char} {size : Nat} {er : Bool} (h : MatchCode name size op er) : 0 < size := by cases h <;> omega

/-- What is known about these codes. -/
structure MatchCode.Facts (r size : Nat) (op : List Char) (er : Bool) (c : LatCode) : Prop where
  made : Made r c
  rounds : c.nRounds = r
  small : BothRatesSmall c r size 200 1 er false
  gates : BothRatesSmall c r size 14400 20 er true
  data : BothDataRatesSmall c size 10 2 1 er false
  few : FewCorrected c size er true
  onlyZ : OnlyZ c (.str op)
  sel : ∃ is, logicalOpsToIndices c.code.logicalOps.length (.str op) = .ok is

theorem MatchCode.facts {name op : List Char} {size : Nat} {er : Bool} (h : MatchCode name size op er) {x : CodeConfig} (hn : x.name = some name) {r : Nat} (hr : x.rounds.nat? = some r)
    (h1 : 1 ≤ r) (hs : x.size.nat? = some size) : ∃ c, x.instantiate = .ok c ∧ MatchCode.Facts r size op er c := by
  have two : ∀ {L : Lattice} {a b : Pos × List Char}, L.logicals = [a, b] → ∃ is, logicalOpsToIndices (L.latCode r).code.logicalOps.length (.str "Z".toList) = .ok is := by
    intro L a b h
    have hl : (L.latCode r).code.logicalOps.length = 2 := by
      show (L.logicals.map _).length = 2
      rw [h]; rfl
    rw [hl]
    exact ⟨[1], by decide⟩
  unfold CodeConfig.instantiate
  rw [hr, hn, hs]
  dsimp only
  cases h with
  | planar h3 =>
    rw [if_neg (by decide), if_neg (by decide), if_neg (by decide), if_pos rfl]
    have hc : makePlanar r size = .ok ((Planar.lat size crossOrder).latCode r) := by
      rw [makePlanar, Planar.make size (by omega) crossOrder (by decide)]; exact mkLatCode_ok (Planar.wf _ _ (by omega)) (Planar.full _ _ (by omega)) r
    obtain ⟨_, k1, k2, k3⟩ := C94_planar r size h1 h3
    obtain rfl := Except.ok.inj (k1.symm.trans hc)
    obtain ⟨_, l1, l2, l3, _⟩ := C114_planar r size h1 h3
    obtain rfl := Except.ok.inj (l1.symm.trans hc)
    obtain ⟨_, m1, m2⟩ := planar_few r size h3
    obtain rfl := Except.ok.inj (m1.symm.trans hc)
    exact ⟨_, hc, .planar (by omega) hc, rfl, k2, k3, l3, m2, (Planar.oddZ (by omega) _).onlyZ r (by decide), two rfl⟩
  | toric h3 =>
    rw [if_neg (by decide), if_neg (by decide), if_neg (by decide), if_neg (by decide), if_neg (by decide), if_pos rfl]
    have hc : makeToric r size = .ok ((Toric.lat size crossOrder).latCode r) := by
      rw [makeToric, Toric.make (by omega) crossOrder (by decide)]; exact mkLatCode_ok (Toric.wf _ (by omega)) (Toric.full _ (by omega)) r
    obtain ⟨_, k1, k2, k3⟩ := C94_toric r size h1 h3
    obtain rfl := Except.ok.inj (k1.symm.trans hc)
    obtain ⟨_, l1, l2, l3, _⟩ := C114_toric r size h1 h3
    obtain rfl := Except.ok.inj (l1.symm.trans hc)
    obtain ⟨_, m1, m2⟩ := toric_few r size h3
    obtain rfl := Except.ok.inj (m1.symm.trans hc)
    refine ⟨_, hc, .toric (by omega) hc, rfl, k2, k3, l3, m2, (Toric.oddZ (by omega) _).onlyZ r (by decide), ?_⟩
    have hl : ((Toric.lat size crossOrder).latCode r).code.logicalOps.length = 4 := by
      show ((Toric.lat size crossOrder).logicals.map _).length = 4
      rw [List.length_map]
      rfl
    rw [hl]
    exact ⟨[1, 3], by decide⟩
  | rotated h2 =>
    rw [if_neg (by decide), if_neg (by decide), if_neg (by decide), if_neg (by decide), if_pos rfl]
    have hc : makeRotated r size false = .ok ((Rotated.lat size false diagOrder).latCode r) := by
      rw [makeRotated, Rotated.make (by omega) diagOrder (by decide)]; exact mkLatCode_ok (Rotated.wf _ (by omega)) (Rotated.full _ (by omega)) r
    obtain ⟨_, k1, k2, k3⟩ := C94_rotated r size false h1 h2
    obtain rfl := Except.ok.inj (k1.symm.trans hc)
    obtain ⟨_, l1, l2, l3, _⟩ := C114_rotated r size false h1 h2
    obtain rfl := Except.ok.inj (l1.symm.trans hc)
    obtain ⟨_, m1, m2⟩ := rotated_few r size false h2
    obtain rfl := Except.ok.inj (m1.symm.trans hc)
    exact ⟨_, hc, .rotated (by omega) hc, rfl, k2, k3, l3, m2, (Rotated.oddZ (by omega) _).onlyZ r (by decide), two rfl⟩

/-- The configuration is one for `r` rounds of a code of this size, with a generated circuit on the simulator of the library, with a matching decoder, for `shots` shots.
Erased qubits are handled by Fusion Blossom on planar and toric codes. -/
structure MatchConf (env : BuildEnv) (x : ExperimentConf ℚ) (r size shots : Nat) (er : Bool) : Prop where
  code : ∃ name g er', x.code.name = some name ∧ x.general = some g ∧ MatchCode name size g.logicalOp er' ∧ (er = true → er' = true)
  rounds : x.code.rounds.nat? = some r
  one : 1 ≤ r
  shot : 1 ≤ shots
  size : x.code.size.nat? = some size
  circuit : x.circuit.provided = false
  device : x.device.name = "clifford".toList
  shots : x.device.shots.nat? = some shots
  decoder : x.decoder.name = "PyMatchingDecoder".toList ∧ er = false ∨ x.decoder.name = "FusionBlossomDecoder".toList
  pm : IsPyMatching env.pmSolve
  fb : IsFusionBlossom env.fbSolve

theorem RatesSmall.mono {σ : Type} {b : Backend FW σ} {c : LatCode} {r d K D : Nat} {e e' gates : Bool} (h : RatesSmall b c r d K D e' gates) (he : e = true → e' = true) :
    RatesSmall b c r d K D e gates := by
  intro F api qe ge sel circ Ω _ μ _ prob past rng pos shots x q negLog tiny errs g states hF hE
  exact h F api qe ge sel circ Ω μ prob past rng pos shots x q negLog tiny errs g states hF fun h' => hE (by cases e <;> simp_all)

theorem DataRatesSmall.mono {σ : Type} {b : Backend FW σ} {c : LatCode} {ρ d A B D k : Nat} {e e' gates : Bool} (h : DataRatesSmall b c ρ d A B D k e' gates)
    (he : e = true → e' = true) : DataRatesSmall b c ρ d A B D k e gates := by
  intro negLog tiny lo hi a errs weighted hwt hlog hD
  obtain ⟨g, states, hf, hP⟩ := h negLog tiny lo hi a errs weighted hwt hlog hD
  refine ⟨g, states, hf, ?_⟩
  intro F api qe ge sel circ Ω _ μ _ prob past rng pos shots x q hF hE
  exact hP F api qe ge sel circ Ω μ prob past rng pos shots x q hF fun h' => hE (by cases e <;> simp_all)

theorem build_parts {env : BuildEnv} {devices : List (List Char)} {x : ExperimentConf ℚ} {b b' : BuiltParts ℚ ErrPair BuiltDecoder} (hp : x.circuit.provided = false)
    (h : x.build env.makers devices b = .ok b') : ∃ c ed circ dec g, x.general = some g ∧ x.code.instantiate = .ok c ∧ env.makers.errors x.errors c = .ok ed ∧
      generateCircuit env.api c ed.1 ed.2 (.str g.logicalOp) false = .ok circ ∧ x.decoder.make env c ed = .ok dec ∧ b' = ⟨some c, some ed, some x.device.name, some circ, some dec⟩ := by
  obtain ⟨c, ed, circ, dev, dec, g, hg, hc, he, hcirc, hdev, _, hdec, _, h1, h2, h3, h4, h5⟩ := C87_build_partial env.makers devices x b b' h
  rw [hp, if_neg (by simp)] at hcirc
  refine ⟨c, ed, circ, dec, g, hg, hc, he, hcirc, hdec, ?_⟩
  obtain ⟨bc, be, bd, bci, bde⟩ := b'
  unfold BuiltParts.getErrors at h2
  unfold BuiltParts.getCircuit at h3
  unfold BuiltParts.getDevice at h4
  unfold BuiltParts.getDecoder at h5
  unfold ExperimentConf.getCode at h1
  dsimp only at h1 h2 h3 h4 h5
  cases be with
  | none => cases h2
  | some be =>
    cases bci with
    | none => cases h3
    | some bci =>
      cases bde with
      | none => cases h5
      | some bde =>
        cases bc with
        | none =>
          exfalso
          dsimp only at h1
          rw [hc] at h1
          cases h1
        | some bc =>
          cases h1; cases h2; cases h3; cases h4; cases h5
          rw [hdev]

/-- **C115** An experiment that was built from any configuration with a matching decoder without weights, on a planar, toric or rotated code: if its error data have small
probabilities, its shots fail independently with small probability. -/
theorem C115_unweighted {env : BuildEnv} {x : ExperimentConf ℚ} {r size shots : Nat} {er : Bool} (hx : MatchConf env x r size shots er) (hw : x.decoder.weighted = false)
    (devices : List (List Char)) (b b' : BuiltParts ℚ ErrPair BuiltDecoder) (h : x.build env.makers devices b = .ok b') :
    ∃ E ed, b'.errors = some ed ∧ b'.experiment env x = .ok E ∧ ∀ (Ω : Type) [MeasurableSpace Ω] (μ : Measure Ω) [IsProbabilityMeasure μ] (prob : ℚ → ℝ≥0∞)
      (past : Nat → MeasurableSpace Ω) (rng : Ω → Rng ℚ) (pos : Nat) (y q : ℝ≥0∞), FairFrom pos μ prob past rng → (er = false → ∀ q, (flagsOf ed.1).erasure q = false) → q ≤ 1 →
      ((ed.2 = [] ∧ DataBelow env.api prob ed.1 y ∧ 200 * y ≤ q ^ 2) ∨ (DataBelow env.api prob (ed.1 ++ ed.2) (y ^ 20) ∧ 14400 * y ≤ q ^ 2)) →
      FailIndependently μ env.api rng pos E (32 * r * size ^ 2 * q ^ size * (1 - q)⁻¹) := by
  obtain ⟨c, ed, circ, dec, g, hg, hc, he, hcirc, hdec, rfl⟩ := build_parts hx.circuit h
  obtain ⟨name, g', er', hn, hg', hm, her⟩ := hx.code
  obtain rfl := Option.some.inj (hg.symm.trans hg')
  obtain ⟨c', hc', hF⟩ := hm.facts hn hx.rounds hx.one hx.size
  obtain rfl := Except.ok.inj (hc'.symm.trans hc)
  have key : ∀ {σ : Type} {B : Backend FW σ} {gr : SynGraph FW} {states : List σ}, RatesSmall B c' r size 200 1 er false → RatesSmall B c' r size 14400 20 er true →
      fromCode FW.isInf env.negLog env.tiny B c' (some (ed.2 ++ ed.1)) (some false) none = .ok (gr, states) →
      ∀ (Ω : Type) [MeasurableSpace Ω] (μ : Measure Ω) [IsProbabilityMeasure μ] (prob : ℚ → ℝ≥0∞)
      (past : Nat → MeasurableSpace Ω) (rng : Ω → Rng ℚ) (pos : Nat) (y q : ℝ≥0∞), FairFrom pos μ prob past rng → (er = false → ∀ q, (flagsOf ed.1).erasure q = false) → q ≤ 1 →
      ((ed.2 = [] ∧ DataBelow env.api prob ed.1 y ∧ 200 * y ≤ q ^ 2) ∨ (DataBelow env.api prob (ed.1 ++ ed.2) (y ^ 20) ∧ 14400 * y ≤ q ^ 2)) →
      FailIndependently μ env.api rng pos (anyExperiment c' circ B gr states shots (.str g.logicalOp)) (32 * r * size ^ 2 * q ^ size * (1 - q)⁻¹) := by
    intro σ B gr states hs hgt hf Ω _ μ _ prob past rng pos y q hfair hE hq hb
    rcases hb with ⟨hnil, hb, hy⟩ | ⟨hb, hy⟩
    · exact hs ℚ env.api ed.1 ed.2 _ circ Ω μ prob past rng pos shots y q env.negLog env.tiny _ gr states hfair (fun h q _ => hE h q) (fun _ e he => by rw [hnil] at he; cases he) hF.onlyZ hcirc
        (by rw [pow_one]; exact C113_below env.api prob c' ed.1 ed.2 _ false circ hcirc y (by rw [hnil, List.append_nil]; exact hb)) hq (by exact_mod_cast hy) hx.shot hf
    · exact hgt ℚ env.api ed.1 ed.2 _ circ Ω μ prob past rng pos shots y q env.negLog env.tiny _ gr states hfair (fun h q _ => hE h q) (by simp) hF.onlyZ hcirc
        (C113_below env.api prob c' ed.1 ed.2 _ false circ hcirc _ hb) hq (by exact_mod_cast hy) hx.shot hf
  have hexp : ∀ dec : BuiltDecoder, BuiltParts.experiment env x ⟨some c', some ed, some x.device.name, some circ, some dec⟩ =
      .ok ⟨c', circ, fun erased syn => dec.decode env c'.n erased syn, shots, .str g.logicalOp⟩ := by
    intro dec
    unfold BuiltParts.experiment
    rw [hx.shots, hg]
  unfold DecoderConfig.make at hdec
  rw [hw] at hdec
  rcases hx.decoder with ⟨hd, rfl⟩ | hd
  · rw [if_pos hd] at hdec
    split at hdec
    · cases hdec
    next gr states hf =>
    cases hdec
    exact ⟨_, ed, rfl, hexp _, key ((hF.small.1 _ hx.pm).mono (by simp)) ((hF.gates.1 _ hx.pm).mono (by simp)) hf⟩
  · rw [if_neg (by rw [hd]; decide), if_pos hd] at hdec
    split at hdec
    · cases hdec
    next gr states hf =>
    cases hdec
    exact ⟨_, ed, rfl, hexp _, key ((hF.small.2 _ hx.fb).mono her) ((hF.gates.2 _ hx.fb).mono her) hf⟩

/-- The exponent in the bound for the logical error rate, for weights that differ by at most a factor `ρ`. -/
inductive Exponent (x : DecoderConfig) (ρ : Nat) : Nat → Prop
  | unweighted : x.weighted = false → Exponent x ρ 2
  | pm : x.weighted = true → x.name = "PyMatchingDecoder".toList → Exponent x ρ (ρ + 1)
  | fb {κ : Nat} : x.weighted = true → x.name = "FusionBlossomDecoder".toList → 100 ≤ κ * (100 / ρ) → Exponent x ρ (κ + 1)

/-- **C115** From the configuration to the logical error rate: a configuration with constant probabilities of errors of qubits and measurements, for a planar, toric or rotated
code and a matching decoder, is built, and the shots of the experiment fail independently with probability at most `32 rounds size² q^size / (1 - q)`, where `10ᵏ 2 y ≤ qᵏ` for the largest
probability `y`; without weights `k = 2`. -/
theorem C115_experiment {env : BuildEnv} (henv : env.Ok) {x : ExperimentConf ℚ} {r size shots : Nat} {er : Bool} (hx : MatchConf env x r size shots er)
    {spec : List Char → Option ℚ} (hs : QubitNoise x spec) (hmeas : ∀ p, spec "measurement".toList = some p → env.api.inUnit p = true)
    (her : er = false → spec "erasure".toList = none) {ρ k : Nat} (hk : Exponent x.decoder ρ k)
    (hlog : x.decoder.weighted = true → ∃ lo hi a, LogBetween env.negLog lo hi ρ a ∧ SpecBetween env.tiny spec lo hi)
    {devices : List (List Char)} (hdev : "clifford".toList ∈ devices) (b : BuiltParts ℚ ErrPair BuiltDecoder) :
    ∃ b' E, x.build env.makers devices b = .ok b' ∧ b'.experiment env x = .ok E ∧ ∀ (Ω : Type) [MeasurableSpace Ω] (μ : Measure Ω) [IsProbabilityMeasure μ] (prob : ℚ → ℝ≥0∞)
      (past : Nat → MeasurableSpace Ω) (rng : Ω → Rng ℚ) (pos : Nat) (y q : ℝ≥0∞), FairFrom pos μ prob past rng → SpecBelow env.api prob spec y → q ≤ 1 → 10 ^ k * (2 * y) ≤ q ^ k →
      FailIndependently μ env.api rng pos E (32 * r * size ^ 2 * q ^ size * (1 - q)⁻¹) := by
  obtain ⟨name, g, er', hn, hg, hm, herr⟩ := hx.code
  obtain ⟨c, hc, hF⟩ := hm.facts hn hx.rounds hx.one hx.size
  obtain ⟨is, his⟩ := hF.sel
  have hok := Made.codeOk hF.made
  have hnw : ¬ (x.decoder.weighted = true ∧ x.decoder.name = "UnionFindNoWeights".toList) := by
    rintro ⟨_, h⟩
    rcases hx.decoder with ⟨h', _⟩ | h' <;> rw [h'] at h <;> revert h <;> decide
  obtain ⟨t, qd, circ, hC, hcirc, hB⟩ := C115_builds henv devices hs hc hF.made hg his hx.circuit (by rw [hx.device]; exact hdev) hmeas hnw
  have hexp : ∀ dec : BuiltDecoder, BuiltParts.experiment env x ⟨some c, some (qd, []), some x.device.name, some circ, some dec⟩ =
      .ok ⟨c, circ, fun erased syn => dec.decode env c.n erased syn, shots, .str g.logicalOp⟩ := by
    intro dec
    unfold BuiltParts.experiment
    rw [hx.shots, hg]
  have hE : er = false → ∀ q, (flagsOf qd).erasure q = false := fun h q => hC.noErasure hok.indexed (her h) q
  have hsize : 0 < size := hm.pos
  cases hw : x.decoder.weighted with
  | false =>
    obtain rfl : k = 2 := by cases hk with
      | unweighted _ => rfl
      | pm h _ => rw [hw] at h; cases h
      | fb h _ _ => rw [hw] at h; cases h
    have hdec : ∃ dec, x.decoder.make env c (qd, []) = .ok dec := by
      unfold DecoderConfig.make
      rw [hw]
      rcases hx.decoder with ⟨hd, rfl⟩ | hd
      · obtain ⟨gr, states, hf⟩ := few_builds hF.few hsize (pm_few hx.pm) env.negLog env.tiny (some (([] : ErrData) ++ qd))
        rw [if_pos hd, hf]
        exact ⟨_, rfl⟩
      · obtain ⟨gr, states, hf⟩ := few_builds hF.few hsize (fb_few hx.fb) env.negLog env.tiny (some (([] : ErrData) ++ qd))
        rw [if_neg (by rw [hd]; decide), if_pos hd, hf]
        exact ⟨_, rfl⟩
    obtain ⟨dec, hdec⟩ := hdec
    obtain ⟨E, ed, h1, h2, h3⟩ := C115_unweighted hx hw devices b _ (hB b dec hdec)
    cases h1
    refine ⟨_, E, hB b dec hdec, h2, fun Ω _ μ _ prob past rng pos y q hfair hy hq hyq => ?_⟩
    refine h3 Ω μ prob past rng pos y q hfair hE hq (.inl ⟨rfl, hC.below hok.indexed hy, ?_⟩)
    refine le_trans (le_of_eq ?_) hyq
    rw [← mul_assoc]
    norm_num
  | true =>
    obtain ⟨lo, hi, a, hl, hb⟩ := hlog hw
    have hD : DataBetween env.tiny c (([] : ErrData) ++ qd) lo hi := hC.between hok hb
    have key : ∀ {σ : Type} {B : Backend FW σ}, DataRatesSmall B c ρ size 10 2 1 k er false → ∃ gr states,
        fromCode FW.isInf env.negLog env.tiny B c (some (([] : ErrData) ++ qd)) (some true) none = .ok (gr, states) ∧
        ∀ (Ω : Type) [MeasurableSpace Ω] (μ : Measure Ω) [IsProbabilityMeasure μ] (prob : ℚ → ℝ≥0∞)
        (past : Nat → MeasurableSpace Ω) (rng : Ω → Rng ℚ) (pos : Nat) (y q : ℝ≥0∞), FairFrom pos μ prob past rng → SpecBelow env.api prob spec y → q ≤ 1 → 10 ^ k * (2 * y) ≤ q ^ k →
        FailIndependently μ env.api rng pos (anyExperiment c circ B gr states shots (.str g.logicalOp)) (32 * r * size ^ 2 * q ^ size * (1 - q)⁻¹) := by
      intro σ B hR
      obtain ⟨gr, states, hf, hP⟩ := hR env.negLog env.tiny lo hi a _ (some true) (by simp) hl hD
      refine ⟨gr, states, hf, fun Ω _ μ _ prob past rng pos y q hfair hy hq hyq => ?_⟩
      have := hP ℚ env.api qd [] _ circ Ω μ prob past rng pos shots y q hfair (fun h q _ => hE h q) (by simp) hF.onlyZ hcirc
        (by rw [List.append_nil, pow_one]; exact hC.below hok.indexed hy) hq (by exact_mod_cast hyq) hx.shot
      rw [hF.rounds] at this
      exact this
    rcases hx.decoder with ⟨hd, rfl⟩ | hd
    · obtain rfl : k = ρ + 1 := by cases hk with
        | unweighted h => rw [hw] at h; cases h
        | pm _ _ => rfl
        | fb _ h _ => rw [hd] at h; exact absurd h (by decide)
      obtain ⟨gr, states, hf, hP⟩ := key ((hF.data.1 _ hx.pm ρ).mono (by simp))
      have hdec : x.decoder.make env c (qd, []) = .ok (.pm gr states) := by
        unfold DecoderConfig.make
        rw [hw, if_pos hd, hf]
      exact ⟨_, _, hB b _ hdec, hexp _, hP⟩
    · obtain ⟨κ, rfl, hκ⟩ : ∃ κ, k = κ + 1 ∧ 100 ≤ κ * (100 / ρ) := by cases hk with
        | unweighted h => rw [hw] at h; cases h
        | pm _ h => rw [hd] at h; exact absurd h (by decide)
        | fb _ _ h => exact ⟨_, rfl, h⟩
      obtain ⟨gr, states, hf, hP⟩ := key ((hF.data.2 _ hx.fb ρ κ hκ).mono herr)
      have hdec : x.decoder.make env c (qd, []) = .ok (.fb gr states) := by
        unfold DecoderConfig.make
        rw [hw, if_neg (by rw [hd]; decide), if_pos hd, hf]
      exact ⟨_, _, hB b _ hdec, hexp _, hP⟩

/-! ## An example -/

/-- What a user writes: two rounds of the planar code of size 3, constant probabilities of errors, and PyMatching with weights. -/
def smallDict : ExperimentDict ℚ :=
  { general := some ⟨"Z".toList, ["logical_error_rate".toList], 7⟩
    code := some { name := some (some "PlanarCode".toList), rounds := some (.int 2), size := some (.int 3) }
    decoder := some { name := some "PyMatchingDecoder".toList, weighted := some true }
    errors := some { qubit := some { chan := [("X".toList, .dict { distribution := some "constant".toList, params := some [1 / 1000000] }),
      ("Y".toList, .dict { distribution := some "constant".toList, params := some [1 / 1000000] }),
      ("Z".toList, .dict { distribution := some "constant".toList, params := some [1 / 1000000] }),
      ("measurement".toList, .dict { distribution := some "constant".toList, params := some [2 * (1 / 1000000)] })] } } }

/-- The probabilities of the example. -/
def smallSpec (e : List Char) : Option ℚ :=
  if e ∈ ["X".toList, "Y".toList, "Z".toList] then some (1 / 1000000) else if e = "measurement".toList then some (2 * (1 / 1000000)) else none

/-- An environment with rational numbers and a simple logarithm. -/
noncomputable def smallEnv : BuildEnv where
  api := fracApi
  negLog := toyLog
  tiny := 1 / 1000000000000000
  tenth := 1 / 10
  qcsv := []
  gcsv := []
  qdraws _ := []
  gdraws _ := []
  qorder := qubitKeys
  gorder := gateKeys
  order := qubitKeys
  parse _ := .error .valueError
  pmSolve := exists_pyMatching.choose
  fbSolve := exists_fusionBlossom.choose

/-- The dictionary is read, the experiment is built, and the expected logical error rate that it gives is at most 576 / 40³ · 40 / 39, below one in a hundred. -/
example : ∃ x b' E, (ExperimentConf.fromDict plainEnv smallDict).2 = .ok x ∧ x.build smallEnv.makers plainEnv.devices {} = .ok b' ∧ b'.experiment smallEnv x = .ok E ∧ E.shots = 1024 ∧
    FailIndependently draws fracApi (fairRng fracProb) 0 E (32 * (2 : Nat) * (3 : Nat) ^ 2 * (40⁻¹) ^ 3 * (1 - 40⁻¹)⁻¹) := by
  obtain ⟨x, hx, h1, h2, h3, h4, h5, h6, h7, h8, h9, h10, h11, h12⟩ : ∃ x, (ExperimentConf.fromDict plainEnv smallDict).2 = .ok x ∧
      x.general = some ⟨"Z".toList, ["logical_error_rate".toList], 7⟩ ∧ x.code.name = some "PlanarCode".toList ∧ x.code.rounds = .int 2 ∧ x.code.size = .int 3 ∧
      x.circuit.provided = false ∧ x.device.name = "clifford".toList ∧ x.device.shots = .int 1024 ∧ x.decoder.name = "PyMatchingDecoder".toList ∧ x.decoder.weighted = true ∧
      x.errors.qubit.conf.sample = true ∧ (qubitKeys.map x.errors.qubit.conf.chan = qubitKeys.map fun e => match smallSpec e with
        | some p => ⟨"constant".toList, [p], true⟩
        | none => .empty) ∧ gateKeys.map (fun k => (x.errors.gate.conf.chan k).isEmpty) = gateKeys.map fun _ => true :=
    ⟨_, rfl, rfl, rfl, rfl, rfl, rfl, rfl, rfl, rfl, rfl, rfl, rfl, rfl⟩
  have hconf : MatchConf smallEnv x 2 3 1024 false :=
    { code := ⟨_, _, true, h2, h1, .planar (by omega), by simp⟩
      rounds := by rw [h3]; rfl
      one := by omega
      shot := by omega
      size := by rw [h4]; rfl
      circuit := h5
      device := h6
      shots := by rw [h7]; rfl
      decoder := .inl ⟨h8, rfl⟩
      pm := exists_pyMatching.choose_spec
      fb := exists_fusionBlossom.choose_spec }
  have hnoise : QubitNoise x smallSpec :=
    { sample := h10
      one :=
        { qubit := fun e he => by
            have := List.map_inj_left.1 h11 e he
            rw [this]
            cases smallSpec e with
            | none => exact .inl rfl
            | some p => rfl
          gate := fun k hk => .inl (List.map_inj_left.1 h12 k hk)
          letters := fun k _ P p h => by cases h
          fabrication := rfl } }
  obtain ⟨v, hv, hlog⟩ := toyLog_like.2 (2 * (1 / 1000000)) (by norm_num) (by norm_num)
  have hf : fill (1 / 1000000000000000 : ℚ) (1 / 1000000) + fill (1 / 1000000000000000) (1 / 1000000) ∈ Set.Icc (2 * (1 / 1000000) : ℚ) (2 * (1 / 1000000)) := by
    have : fill (1 / 1000000000000000 : ℚ) (1 / 1000000) = 1 / 1000000 := if_neg (by norm_num)
    rw [this, Set.Icc_self, Set.mem_singleton_iff, two_mul]
  obtain ⟨b', E, k1, k2, k3⟩ := C115_experiment (env := smallEnv) ⟨.refl _, .refl _, .refl _⟩ hconf hnoise (fun p hp => by cases hp; decide +kernel) (fun _ => rfl)
    (ρ := 1) (.pm h9 h8) (fun _ => ⟨_, _, v, logBetween_single hv hlog, ⟨hf, hf, by show (2 * (1 / 1000000) : ℚ) ∈ _; rw [Set.Icc_self]; rfl⟩⟩)
    (devices := plainEnv.devices) (by decide) {}
  refine ⟨x, b', E, hx, k1, k2, ?_, ?_⟩
  · unfold BuiltParts.experiment at k2
    rw [h7] at k2
    split at k2
    next _ _ _ _ shots _ _ _ _ hs _ =>
      cases k2
      cases hs
      rfl
    · cases k2
  refine k3 _ draws fracProb drawsPast (fairRng fracProb) 0 (ENNReal.ofReal ((3 * (1 / 1000000) : ℚ) : ℝ)) (40⁻¹) (fairRng_fair _) ⟨?_, ?_, ?_⟩ (by rw [ENNReal.inv_le_one]; norm_num) ?_
  · show ENNReal.ofReal ((1 / 1000000 : ℚ) : ℝ) + ENNReal.ofReal ((1 / 1000000 : ℚ) : ℝ) + ENNReal.ofReal ((1 / 1000000 : ℚ) : ℝ) ≤ _
    rw [← ENNReal.ofReal_add (by norm_num) (by norm_num), ← ENNReal.ofReal_add (by norm_num) (by norm_num)]
    exact ENNReal.ofReal_le_ofReal (by norm_num)
  · show ENNReal.ofReal ((((0 : Int) : ℚ)) : ℝ) ≤ _
    simp
  · show ENNReal.ofReal ((2 * (1 / 1000000) : ℚ) : ℝ) ≤ _
    exact ENNReal.ofReal_le_ofReal (by norm_num)
  · have e1 : ENNReal.ofReal ((3 * (1 / 1000000) : ℚ) : ℝ) = ((3 / 1000000 : ℝ≥0) : ℝ≥0∞) := by
      rw [ENNReal.ofReal, ENNReal.coe_inj, ← NNReal.coe_inj]
      push_cast
      rw [Real.coe_toNNReal _ (by norm_num)]
      norm_num
    have e2 : (40⁻¹ : ℝ≥0∞) = ((1 / 40 : ℝ≥0) : ℝ≥0∞) := by
      rw [one_div, ENNReal.coe_inv (by norm_num)]; norm_num
    rw [e1, e2]
    exact_mod_cast (by rw [← NNReal.coe_le_coe]; push_cast; norm_num : (10 : ℝ≥0) ^ 2 * (2 * (3 / 1000000)) ≤ (1 / 40) ^ 2)

end Plaquette
