import Verif.Lemmas.GeneratorObject

/-!
# A circuit generator that is used more than once, and codes without rounds (C127)
-/

namespace Plaquette
variable {F : Type}

/-- **C127** Each circuit that a generator returns can be used: the results of its measurements are unpacked. -/
def C127_statement : Prop := ∀ (F : Type) (api : FloatApi F) (r : Nat) (c : LatCode) (qe ge : List (List Char × ErrDict F)) (O O' : GenObj F)
  (sels : List LogicalSel) (raw : List Bool), Made r c → GenObj.make c qe ge true = .ok O → sels ≠ [] → O.calls api sels = .ok O' →
  raw.length = (measuredQubits O'.circ).length → ∃ s, Sample.fromRaw c raw none true = .ok s

/-- **C127** The circuit after several calls has the circuits of all calls one after the other (and the circuits returned before are this same
object). -/
theorem C127_circuit {api : FloatApi F} {c : LatCode} {qe ge : List (List Char × ErrDict F)} {anc : Bool} {sels : List LogicalSel} {O O' : GenObj F}
    (hO : GenObj.make c qe ge anc = .ok O) (h : O.calls api sels = .ok O') :
    ∃ cs : List (List (Gate F)), sels.map (generateCircuit api c qe ge · anc) = cs.map .ok ∧ O'.circ = cs.flatten :=
  calls_make hO h

/-- **C127** `from_code_and_raw_results` accepts results of one length only. -/
theorem C127_one_length {c : LatCode} (hs : c.code.stabilisers ≠ []) {anc : Bool} {raw raw' : List Bool} {er er' : Option (List Bool)} {s s' : Sample}
    (h : Sample.fromRaw c raw er anc = .ok s) (h' : Sample.fromRaw c raw' er' anc = .ok s') : raw.length = raw'.length := by
  rw [fromRaw_length hs h, fromRaw_length hs h']

theorem made_ne {r : Nat} {c : LatCode} (hm : Made r c) : c.code.stabilisers ≠ [] ∧ c.code.logicalOps ≠ [] := by
  obtain ⟨L, rfl, hw, _, hf, _⟩ := hm.lattice
  exact ⟨by simpa [Lattice.code] using hf.stab_ne, by simpa [Lattice.code] using hf.log_ne⟩

/-- The number of results of a generated circuit. -/
theorem measured_length {api : FloatApi F} {r : Nat} {c : LatCode} {qe ge : List (List Char × ErrDict F)} {sel : LogicalSel} {anc : Bool}
    {circ : List (Gate F)} (hr : 1 ≤ r) (hm : Made r c) (h : generateCircuit api c qe ge sel anc = .ok circ) (hwt : anc = true ∨ SameWeight c sel) :
    (measuredQubits circ).length = 2 * rawCut c.code anc + (c.nRounds + 1) * c.code.stabilisers.length := by
  obtain ⟨_, s, _, hs, _⟩ := C27_unpack_partial api r c qe ge sel anc circ (List.replicate (measuredQubits circ).length false) hr hm h (by simp) hwt
  have := fromRaw_length (made_ne hm).1 hs
  rwa [List.length_replicate] at this

/-- **C127** So a generator can be used once: after a second call of `get_circuit` the results of neither circuit can be unpacked. -/
theorem C127_second (api : FloatApi F) {r : Nat} {c : LatCode} {qe ge : List (List Char × ErrDict F)} {anc : Bool} {sels : List LogicalSel} {O O' : GenObj F}
    (hr : 1 ≤ r) (hm : Made r c) (hO : GenObj.make c qe ge anc = .ok O) (h : O.calls api sels = .ok O') (h2 : 2 ≤ sels.length)
    (hwt : ∀ sel ∈ sels, anc = true ∨ SameWeight c sel) (raw : List Bool) (er : Option (List Bool)) (hraw : raw.length = (measuredQubits O'.circ).length) :
    Sample.fromRaw c raw er anc = .error .valueError := by
  obtain ⟨hs, hl⟩ := made_ne hm
  obtain ⟨cs, h3, h4⟩ := calls_make hO h
  set K := 2 * rawCut c.code anc + (c.nRounds + 1) * c.code.stabilisers.length with hK
  have hKpos : 0 < K := by
    have : 0 < (c.nRounds + 1) * c.code.stabilisers.length := Nat.mul_pos (Nat.succ_pos _) (List.length_pos_iff.2 hs)
    omega
  have hlen : ∀ (sels : List LogicalSel) (cs : List (List (Gate F))), (∀ sel ∈ sels, anc = true ∨ SameWeight c sel) →
      sels.map (generateCircuit api c qe ge · anc) = cs.map .ok → (measuredQubits cs.flatten).length = sels.length * K := by
    intro sels
    induction sels with
    | nil =>
      intro cs _ h
      cases cs with
      | nil => simp [measuredQubits]
      | cons a cs => simp at h
    | cons sel sels ih =>
      intro cs hwt h
      cases cs with
      | nil => simp at h
      | cons a cs =>
        rw [List.map_cons, List.map_cons, List.cons.injEq] at h
        rw [List.flatten_cons, measured_append, List.length_append, ih cs (fun s hs => hwt s (List.mem_cons_of_mem _ hs)) h.2,
          measured_length hr hm h.1 (hwt sel List.mem_cons_self), ← hK, List.length_cons, Nat.add_mul, Nat.one_mul, Nat.add_comm]
  cases hf : Sample.fromRaw c raw er anc with
  | error e => rw [fromRaw_error hl hf]
  | ok s =>
    have h5 := fromRaw_length hs hf
    rw [hraw, h4, hlen sels cs hwt h3, ← hK] at h5
    have : 2 * K ≤ sels.length * K := Nat.mul_le_mul_right _ h2
    omega

theorem calls_of {api : FloatApi F} {c : LatCode} {qe ge : List (List Char × ErrDict F)} {sel : LogicalSel} {anc : Bool} {circ : List (Gate F)}
    (h : generateCircuit api c qe ge sel anc = .ok circ) : ∃ O, GenObj.make c qe ge anc = .ok O ∧
      O.calls api [sel, sel] = .ok { gen := O.gen, circ := circ ++ circ } := by
  unfold generateCircuit at h
  cases hG : Gen.make c qe ge anc with
  | error e => rw [hG] at h; cases h
  | ok G =>
    rw [hG] at h
    refine ⟨⟨G, []⟩, by simp only [GenObj.make, hG], ?_⟩
    simp only [GenObj.calls, GenObj.getCircuit, show G.getCircuit api sel = .ok circ from h, List.nil_append]

set_option maxRecDepth 100000 in
/-- **C127 fails** for the second circuit of a generator: the logical X of the repetition code of size 3. -/
theorem C127_counterexample : ¬ C127_statement := by
  intro hst
  obtain ⟨circ, hc, -, -⟩ := rawLength_inv (api := natApi) (c := (Rep.lat 3).latCode 1) (qe := []) (sel := .str "X".toList) (anc := true)
    (k := 6) (l := 0) (by decide +kernel)
  obtain ⟨O, hO, hcalls⟩ := calls_of hc
  have h1 := C127_second natApi (Nat.le_refl 1) (rep3_made 1) hO hcalls (by simp) (fun _ _ => .inl rfl) (List.replicate (measuredQubits (circ ++ circ)).length false) none
    (by simp)
  obtain ⟨s, h2⟩ := hst Nat natApi 1 _ [] [] O _ _ (List.replicate (measuredQubits (circ ++ circ)).length false) (rep3_made 1) hO (by simp) hcalls (by simp)
  rw [h1] at h2
  cases h2

/-- **C127 (partial)**: the first circuit of a generator, if there is at least one round. -/
theorem C127_first_partial (api : FloatApi F) {r : Nat} {c : LatCode} {qe ge : List (List Char × ErrDict F)} {O O' : GenObj F} {sel : LogicalSel}
    (hr : 1 ≤ r) (hm : Made r c) (hO : GenObj.make c qe ge true = .ok O) (h : O.calls api [sel] = .ok O') (raw : List Bool)
    (hraw : raw.length = (measuredQubits O'.circ).length) : ∃ s, Sample.fromRaw c raw none true = .ok s := by
  obtain ⟨cs, h3, h4⟩ := calls_make hO h
  obtain ⟨a, rfl⟩ : ∃ a, cs = [a] := List.length_eq_one_iff.1 (by simpa using (congrArg List.length h3).symm)
  rw [List.map_cons, List.map_cons, List.cons.injEq] at h3
  rw [h4, List.flatten_cons, List.flatten_nil, List.append_nil] at hraw
  obtain ⟨_, s, _, hs, _⟩ := C27_unpack_partial api r c qe ge sel true a raw hr hm h3.1 hraw (.inl rfl)
  exact ⟨s, hs⟩

/-- The same code with another number of rounds. -/
theorem Made.rounds {r : Nat} {c : LatCode} (h : Made r c) (r' : Nat) : ∃ L : Lattice, c = L.latCode r ∧ Made r' (L.latCode r') := by
  have fin : ∀ {x : Except Err Lattice} {L : Lattice}, x = .ok L → L.Wf → L.Full →
      x.bind (fun L => mkLatCode L r) = .ok c → c = L.latCode r ∧ x.bind (fun L => mkLatCode L r') = .ok (L.latCode r') := by
    rintro x L rfl hw hf h
    have h : mkLatCode L r = .ok c := h
    rw [mkLatCode_ok hw hf, Except.ok.injEq] at h
    exact ⟨h.symm, mkLatCode_ok hw hf r'⟩
  cases h with
  | planar h2 h =>
    obtain ⟨h1, h3⟩ := fin (Planar.make _ h2 crossOrder (by decide)) (Planar.wf _ _ (by omega)) (Planar.full _ _ h2) h
    exact ⟨_, h1, .planar h2 h3⟩
  | toric h2 h =>
    obtain ⟨h1, h3⟩ := fin (Toric.make h2 crossOrder (by decide)) (Toric.wf _ h2) (Toric.full _ h2) h
    exact ⟨_, h1, .toric h2 h3⟩
  | rotated h2 h =>
    obtain ⟨h1, h3⟩ := fin (Rotated.make h2 diagOrder (by decide)) (Rotated.wf _ h2) (Rotated.full _ h2) h
    exact ⟨_, h1, .rotated h2 h3⟩
  | @repetition size _ h2 h =>
    by_cases hodd : size % 2 = 1
    · have h3 : 3 ≤ size := by omega
      obtain ⟨h1, h4⟩ := fin (Rep.make size hodd h3) (Rep.wf size h3) (Rep.full size h3) h
      exact ⟨_, h1, .repetition h2 h4⟩
    · rw [makeRepetition, repetitionLattice, if_pos hodd] at h
      cases h
  | fiveQubit h =>
    obtain ⟨L, hL, hw, hc, hf⟩ := goodResult_spec five_good
    obtain ⟨h1, h3⟩ := fin hL hw hf h
    exact ⟨_, h1, .fiveQubit h3⟩
  | shor h =>
    obtain ⟨L, hL, hw, hc, hf⟩ := goodResult_spec shor_good
    obtain ⟨h1, h3⟩ := fin hL hw hf h
    exact ⟨_, h1, .shor h3⟩

/-- Without rounds the circuit is that of one round. -/
theorem no_rounds_circuit (api : FloatApi F) (L : Lattice) (qe ge : List (List Char × ErrDict F)) (sel : LogicalSel) (anc : Bool) :
    generateCircuit api (L.latCode 0) qe ge sel anc = generateCircuit api (L.latCode 1) qe ge sel anc := by
  have h : ∀ r, Gen.make (L.latCode r) qe ge anc = match Gen.make (L.latCode 1) qe ge anc with
      | .error e => .error e
      | .ok G => .ok { G with code := L.latCode r } := by
    intro r
    unfold Gen.make
    by_cases h1 : (qe.any fun e => decide (e.1 ∉ qubitErrorNames)) = true
    · rw [if_pos h1, if_pos h1]
    by_cases h2 : (ge.any fun e => decide (e.1 ∉ gateErrorNames)) = true
    · rw [if_neg h1, if_neg h1, if_pos h2, if_pos h2]
    rw [if_neg h1, if_neg h1, if_neg h2, if_neg h2]
    dsimp only [Lattice.latCode]
    cases checkAgainstCode L (setDefaults qubitErrorNames qe ++ setDefaults gateErrorNames ge) <;> rfl
  unfold generateCircuit
  cases hG : Gen.make (L.latCode 1) qe ge anc with
  | error e =>
    rw [h 0, hG]
  | ok G =>
    have h1 := h 1
    rw [hG, Except.ok.injEq] at h1
    rw [h 0, hG]
    show Gen.getCircuit api { G with code := L.latCode 0 } sel = Gen.getCircuit api G sel
    rw [h1]
    have k1 : ∀ {A B : Gen F}, A.lat = B.lat → A.gateErrors = B.gateErrors → A.qubitErrors = B.qubitErrors → A.logicalAncilla = B.logicalAncilla →
        (∀ w, A.measureStabgens api w = B.measureStabgens api w) ∧ A.applyDataErrors api = B.applyDataErrors api ∧
          ∀ is, A.measureLogicals api is = B.measureLogicals api is := by
      rintro ⟨c, q, g, a⟩ ⟨c', q', g', a'⟩ hl rfl rfl rfl
      obtain ⟨lat, r, n, code⟩ := c
      obtain ⟨lat', r', n', code'⟩ := c'
      obtain rfl : lat = lat' := hl
      have e1 : ∀ {A B : Gen F}, A.gateErrors = B.gateErrors → A.gateAndError api = B.gateAndError api := by
        rintro ⟨_, _, _, _⟩ ⟨_, _, _, _⟩ rfl
        rfl
      have e2 : ∀ {A B : Gen F}, A.lat = B.lat → A.gateErrors = B.gateErrors → A.edgeGate api = B.edgeGate api := by
        intro A B h1 h2
        unfold Gen.edgeGate
        rw [e1 h2, h1]
      refine ⟨fun w => ?_, rfl, fun is => ?_⟩
      · unfold Gen.measureStabgens Gen.measureSeq Gen.measurePar Gen.measureOp Gen.prepare Gen.readOut
        rw [e1 (A := ⟨⟨lat, r, n, code⟩, q, g, a⟩) (B := ⟨⟨lat, r', n', code'⟩, q, g, a⟩) rfl,
          e2 (A := ⟨⟨lat, r, n, code⟩, q, g, a⟩) (B := ⟨⟨lat, r', n', code'⟩, q, g, a⟩) rfl rfl]
        rfl
      · unfold Gen.measureLogicals Gen.measureLogical Gen.measureFactor Gen.measureOp Gen.prepare Gen.readOut
        rw [e1 (A := ⟨⟨lat, r, n, code⟩, q, g, a⟩) (B := ⟨⟨lat, r', n', code'⟩, q, g, a⟩) rfl,
          e2 (A := ⟨⟨lat, r, n, code⟩, q, g, a⟩) (B := ⟨⟨lat, r', n', code'⟩, q, g, a⟩) rfl rfl]
        rfl
    obtain ⟨a1, a2, a3⟩ := k1 (A := { G with code := L.latCode 0 }) (B := { G with code := L.latCode 1 }) rfl rfl rfl rfl
    unfold Gen.getCircuit
    dsimp only
    simp only [a1, a2, a3]
    dsimp only [Lattice.latCode]
    cases hi : logicalOpsToIndices L.code.logicalOps.length sel with
    | error e => rfl
    | ok idx =>
      dsimp only
      cases mapLoop (getItem L.code.logicalOps) idx <;> rfl

/-- **C127** A code without rounds can be made and has a circuit (the one of a single round), but the results of this circuit can never be
unpacked. -/
theorem C127_no_rounds (api : FloatApi F) {c : LatCode} {qe ge : List (List Char × ErrDict F)} {anc : Bool} {sel : LogicalSel} {circ : List (Gate F)}
    (hm : Made 0 c) (h : generateCircuit api c qe ge sel anc = .ok circ) (hwt : anc = true ∨ SameWeight c sel) (raw : List Bool)
    (er : Option (List Bool)) (hraw : raw.length = (measuredQubits circ).length) : Sample.fromRaw c raw er anc = .error .valueError := by
  obtain ⟨hs, hl⟩ := made_ne hm
  obtain ⟨L, rfl, hm1⟩ := hm.rounds 1
  rw [no_rounds_circuit] at h
  have h1 := measured_length (Nat.le_refl 1) hm1 h hwt
  cases hf : Sample.fromRaw (L.latCode 0) raw er anc with
  | error e => rw [fromRaw_error hl hf]
  | ok s =>
    have h2 := fromRaw_length hs hf
    rw [hraw, h1] at h2
    have h3 : 0 < L.code.stabilisers.length := List.length_pos_iff.2 hs
    change 2 * rawCut L.code anc + (1 + 1) * L.code.stabilisers.length = 2 * rawCut L.code anc + (0 + 1) * L.code.stabilisers.length at h2
    omega

/-! ## The dictionaries of the caller -/

/-- **C127** The generator adds the missing keys to the dictionaries of the caller; a generator made from them again is the same. -/
theorem C127_dictionaries {c : LatCode} {qe ge : List (List Char × ErrDict F)} {anc : Bool} {O : GenObj F} (h : GenObj.make c qe ge anc = .ok O) :
    GenObj.make c O.gen.qubitErrors O.gen.gateErrors anc = .ok O := by
  have key : ∀ (names : List (List Char)) (d : List (List Char × ErrDict F)), setDefaults names (setDefaults names d) = setDefaults names d := by
    intro names d
    have h0 : ∀ x ∈ names, dictGet (setDefaults names d) x ≠ none := by
      intro x hx hn
      unfold setDefaults at hn
      rw [dictGet_append, Option.or_eq_none_iff] at hn
      have h3 : ∀ (l : List (List Char)), x ∈ l → dictGet (l.map fun n => (n, ([] : ErrDict F))) x ≠ none := by
        intro l hl
        induction l with
        | nil => cases hl
        | cons a l ih =>
          unfold dictGet
          rw [List.map_cons]
          by_cases ha : a = x
          · simp [ha]
          · rcases List.mem_cons.1 hl with rfl | hl
            · exact absurd rfl ha
            · have := ih hl
              unfold dictGet at this
              simpa [ha] using this
      exact h3 _ (List.mem_filter.2 ⟨hx, by simp [hn.1]⟩) hn.2
    conv_lhs => unfold setDefaults
    rw [show (names.filter fun n => (dictGet (d ++ (names.filter fun n => (dictGet d n).isNone).map fun n => (n, [])) n).isNone) = [] from by
      rw [List.filter_eq_nil_iff]
      intro x hx hn
      exact h0 x hx (by simpa [setDefaults] using hn)]
    simp [setDefaults]
  unfold GenObj.make at h
  cases hG : Gen.make c qe ge anc with
  | error e => rw [hG] at h; cases h
  | ok G =>
    rw [hG] at h
    cases h
    unfold Gen.make at hG
    split at hG
    · cases hG
    next h1 =>
    split at hG
    · cases hG
    next h2 =>
    dsimp only at hG
    cases hc : checkAgainstCode c.lattice (setDefaults qubitErrorNames qe ++ setDefaults gateErrorNames ge) with
    | error e => rw [hc] at hG; cases hG
    | ok u =>
      rw [hc] at hG
      cases hG
      have hn : ∀ {names : List (List Char)} {d : List (List Char × ErrDict F)}, ¬ (d.any fun e => decide (e.1 ∉ names)) = true →
          ¬ ((setDefaults names d).any fun e => decide (e.1 ∉ names)) = true := by
        intro names d h hh
        obtain ⟨x, hx, hx'⟩ := List.any_eq_true.1 hh
        refine of_decide_eq_true hx' (setDefaults_names (fun e he => ?_) x hx)
        by_contra hc
        exact h (List.any_eq_true.2 ⟨e, he, decide_eq_true hc⟩)
      unfold GenObj.make Gen.make
      dsimp only
      rw [if_neg (hn h1), if_neg (hn h2)]
      simp only [key, hc]

set_option maxRecDepth 100000 in
example : ∃ circ, Made 0 ((Rep.lat 3).latCode 0) ∧ generateCircuit natApi ((Rep.lat 3).latCode 0) [] [] (.str "X".toList) true = .ok circ ∧
    (measuredQubits circ).length = 6 := by
  obtain ⟨circ, hc, h, -⟩ := rawLength_inv (api := natApi) (c := (Rep.lat 3).latCode 0) (qe := []) (sel := .str "X".toList) (anc := true)
    (k := 6) (l := 0) (by decide +kernel)
  exact ⟨circ, rep3_made 0, hc, h⟩

end Plaquette
