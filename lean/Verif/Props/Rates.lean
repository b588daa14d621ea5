import Verif.Lemmas.Rates
import Verif.Props.Generator
import Verif.Spec.PauliFrame

/-!
# C113: the rates of the errors in a generated circuit are those of the error data
-/

open scoped ENNReal

namespace Plaquette
variable {F : Type}

/-- A kind of errors: its name in the error data, its instruction in circuits and the names of its parameters. -/
structure ErrorKind where
  name : String
  instr : Name
  params : List String

/-- The kinds of errors. -/
def errorKinds : List ErrorKind :=
  [⟨"pauli", .E_PAULI, ["x", "y", "z"]⟩, ⟨"erasure", .E_ERASE, ["p"]⟩, ⟨"measurement", .ERROR, ["p"]⟩,
   ⟨"H", .E_PAULI, ["x", "y", "z"]⟩, ⟨"R", .E_PAULI, ["x", "y", "z"]⟩, ⟨"M", .E_PAULI, ["x", "y", "z"]⟩,
   ⟨"CX", .E_PAULI2, ["ix", "iy", "iz", "xi", "xx", "xy", "xz", "yi", "yx", "yy", "yz", "zi", "zx", "zy", "zz"]⟩,
   ⟨"CZ", .E_PAULI2, ["ix", "iy", "iz", "xi", "xx", "xy", "xz", "yi", "yx", "yy", "yz", "zi", "zx", "zy", "zz"]⟩]

/-- The probability of an error with the parameters `ps`: the sum of the values, where missing parameters are 0. -/
def entryRate (api : FloatApi F) (prob : F → ℝ≥0∞) (params : List String) (ps : Params F) : ℝ≥0∞ :=
  (params.map fun k => match dictGet ps k.toList with
    | some v => rawProb api prob v
    | none => prob (api.ofInt 0)).sum

/-- The key of an entry for one qubit, or for a pair of qubits. -/
def placeKey : List Int → QKey
  | [i] => .int i
  | l => .tup l

/-- The error instruction is one for an entry of the error data: it acts on the qubits of the entry, with its probability. -/
def FromEntry (api : FloatApi F) (prob : F → ℝ≥0∞) (data : List (List Char × ErrDict F)) (g : Gate F) : Prop :=
  ∃ k ∈ errorKinds, g.name = k.instr ∧ ∃ d qubits ps vs, dictGet data k.name.toList = some d ∧ dictGet d (placeKey qubits) = some ps ∧
    g.args = vs ++ qubits.map Val.int ∧ g.rate api prob = entryRate api prob k.params ps

theorem param_prob {api : FloatApi F} {prob : F → ℝ≥0∞} (ps : Params F) (k : String) :
    rawProb api prob (param api ps k.toList) = match dictGet ps k.toList with
      | some v => rawProb api prob v
      | none => prob (api.ofInt 0) := by
  unfold param
  cases dictGet ps k.toList <;> rfl

theorem entryRate_param {api : FloatApi F} {prob : F → ℝ≥0∞} (params : List String) (ps : Params F) :
    ((params.map fun k => param api ps k.toList).map (rawProb api prob)).sum = entryRate api prob params ps := by
  unfold entryRate
  rw [List.map_map]
  refine congrArg List.sum (List.map_congr_left fun k _ => ?_)
  exact param_prob ps k

theorem pair_params (api : FloatApi F) (ps : Params F) : (pairNames.map (param api ps)).drop 1 =
    ["ix", "iy", "iz", "xi", "xx", "xy", "xz", "yi", "yx", "yy", "yz", "zi", "zx", "zy", "zz"].map fun k : String => param api ps k.toList := by
  rw [← List.map_drop]
  rw [show pairNames.drop 1 = ["ix", "iy", "iz", "xi", "xx", "xy", "xz", "yi", "yx", "yy", "yz", "zi", "zx", "zy", "zz"].map String.toList by decide, List.map_map]
  rfl

/-- The property for one gate. -/
def RateOk (api : FloatApi F) (prob : F → ℝ≥0∞) (data : List (List Char × ErrDict F)) (g : Gate F) : Prop := g.name.noisy = true → FromEntry api prob data g

theorem rate_plain {api : FloatApi F} {prob : F → ℝ≥0∞} {data : List (List Char × ErrDict F)} {nm : Name} {args : List (Raw F)} (h : nm.noisy = false) :
    AllE (RateOk api prob data) (emit api nm args) := by
  intro x hx g hg
  obtain ⟨vs, _, rfl, _⟩ := emit_inv hx
  obtain rfl := List.mem_singleton.1 hg
  intro hn
  rw [h] at hn
  cases hn

theorem rate_channel {api : FloatApi F} {prob : F → ℝ≥0∞} {data : List (List Char × ErrDict F)} {k : ErrorKind} (hk : k ∈ errorKinds) {ps : Params F} {is : List Int} {d : ErrDict F}
    (h : k.instr = .E_ERASE ∧ k.params.length = 1 ∧ is.length = 1 ∨ k.instr = .E_PAULI ∧ k.params.length = 3 ∧ is.length = 1 ∨
      k.instr = .E_PAULI2 ∧ k.params.length = 15 ∧ is.length = 2)
    (hd : dictGet data k.name.toList = some d) (hp : dictGet d (placeKey is) = some ps) :
    AllE (RateOk api prob data) (emit api k.instr ((k.params.map fun k => param api ps k.toList) ++ is.map Raw.int)) := by
  intro x hx g hg
  obtain ⟨vs, rfl, hr⟩ := channel_emit (prob := prob) (by simpa only [List.length_map] using h) hx
  obtain rfl := List.mem_singleton.1 hg
  exact fun _ => ⟨k, hk, rfl, d, is, ps, vs, hd, hp, rfl, hr.trans (entryRate_param _ _)⟩

theorem data_qubit {qe ge : List (List Char × ErrDict F)} {name : List Char} {d : ErrDict F} (h : dictGet (setDefaults qubitErrorNames qe) name = some d) {key : QKey} {ps : Params F}
    (hp : dictGet d key = some ps) : dictGet (qe ++ ge) name = some d := by
  rcases setDefaults_get h with h | rfl
  · rw [dictGet_append, h]; rfl
  · cases hp

theorem data_gate {qe ge : List (List Char × ErrDict F)} (hq : ∀ e ∈ qe, e.1 ∈ qubitErrorNames) {name : List Char} (hn : name ∉ qubitErrorNames) {d : ErrDict F}
    (h : dictGet (setDefaults gateErrorNames ge) name = some d) {key : QKey} {ps : Params F} (hp : dictGet d key = some ps) : dictGet (qe ++ ge) name = some d := by
  rcases setDefaults_get h with h | rfl
  · rw [dictGet_append, dictGet_other hq hn, h]; rfl
  · cases hp

theorem qubitErr_some {G : Gen F} {name : List Char} {i : Nat} {ps : Params F} (h : G.qubitErr name i = .ok (some ps)) :
    ∃ d, dictGet G.qubitErrors name = some d ∧ dictGet d (.int i) = some ps := by
  unfold Gen.qubitErr at h
  split at h
  · cases h
  · next d hd => exact ⟨d, hd, Except.ok.inj h⟩

theorem rate_walk (api : FloatApi F) (prob : F → ℝ≥0∞) {code : LatCode} {qe ge : List (List Char × ErrDict F)} {anc : Bool} {G : Gen F} (h : Gen.make code qe ge anc = .ok G) :
    G.Walk api (AllE (RateOk api prob (qe ++ ge))) where
  nil := AllE.nil
  cat _ _ := AllE.cat
  one nm hn i := rate_plain (by rcases hn with rfl | rfl | rfl <;> rfl)
  two nm hn i j := rate_plain (by rcases hn with rfl | rfl <;> rfl)
  err1 nm hn i := by
    unfold Gen.applyGateError
    cases hg : G.gateError nm i none with
    | none => exact AllE.nil
    | some ps =>
      unfold Gen.gateError at hg
      rw [make_gates h] at hg
      split at hg
      · cases hg
      next d hd =>
      dsimp only at hg
      have hd' := data_gate (make_names h).1 (name := nm.text) (by rcases hn with rfl | rfl | rfl <;> decide) hd hg
      rcases hn with rfl | rfl | rfl
      · exact rate_channel (k := ⟨"H", .E_PAULI, ["x", "y", "z"]⟩) (is := [(i : Int)]) (by simp [errorKinds]) (by simp) hd' hg
      · exact rate_channel (k := ⟨"R", .E_PAULI, ["x", "y", "z"]⟩) (is := [(i : Int)]) (by simp [errorKinds]) (by simp) hd' hg
      · exact rate_channel (k := ⟨"M", .E_PAULI, ["x", "y", "z"]⟩) (is := [(i : Int)]) (by simp [errorKinds]) (by simp) hd' hg
  err2 nm hn i j := by
    unfold Gen.applyGateError
    cases hg : G.gateError nm i (some j) with
    | none => exact AllE.nil
    | some ps =>
      unfold Gen.gateError at hg
      split at hg
      · cases hg
      next d hd =>
      dsimp only at hg
      have hp : dictGet d (.tup [(i : Int), (j : Int)]) = some ps := by
        split at hg
        · next e he => rw [he]; exact hg
        · obtain ⟨a, b, hab⟩ := make_pairs h hn hd (dictGet_some_mem hg)
          cases hab
      rw [make_gates h] at hd
      have hd' := data_gate (make_names h).1 (name := nm.text) (by rcases hn with rfl | rfl <;> decide) hd hp
      rcases hn with rfl | rfl
      · have := rate_channel (api := api) (prob := prob) (data := qe ++ ge) (k := errorKinds[6]) (is := [(i : Int), (j : Int)]) (ps := ps) (by simp [errorKinds]) (by simp [errorKinds]) hd' hp
        dsimp only
        rw [pair_params]
        exact this
      · have := rate_channel (api := api) (prob := prob) (data := qe ++ ge) (k := errorKinds[7]) (is := [(i : Int), (j : Int)]) (ps := ps) (by simp [errorKinds]) (by simp [errorKinds]) hd' hp
        dsimp only
        rw [pair_params]
        exact this
  meas i := by
    unfold Gen.applyMeasError
    split
    · exact AllE.error
    · exact AllE.nil
    · exact AllE.nil
    next ps _ hps =>
    split
    · exact AllE.error
    next v hv =>
    obtain ⟨d, hd, hp⟩ := qubitErr_some hps
    rw [(make_inv h).2.2] at hd
    intro x hx g hg
    obtain ⟨p, rfl, hr⟩ := flip_emit (prob := prob) hx
    obtain rfl := List.mem_singleton.1 hg
    refine fun _ => ⟨⟨"measurement", .ERROR, ["p"]⟩, by simp [errorKinds], rfl, d, [(i : Int)], ps, [.flt p, .name .X], data_qubit hd hp, hp, rfl, hr.trans ?_⟩
    unfold entryRate
    have hv' : dictGet ps "p".toList = some v := hv
    simp only [List.map_cons, List.map_nil, List.sum_cons, List.sum_nil, add_zero, hv']
  data v hv := by
    unfold Gen.dataErrors
    refine AllE.cat ?_ ?_
    · split
      · exact AllE.error
      · exact AllE.nil
      · exact AllE.nil
      next ps _ hps =>
      obtain ⟨d, hd, hp⟩ := qubitErr_some hps
      rw [(make_inv h).2.2] at hd
      exact rate_channel (k := ⟨"pauli", .E_PAULI, ["x", "y", "z"]⟩) (is := [(G.lat.idx v : Int)]) (by simp [errorKinds]) (by simp) (data_qubit hd hp) hp
    · split
      · exact AllE.error
      · exact AllE.nil
      · exact AllE.nil
      next ps _ hps =>
      obtain ⟨d, hd, hp⟩ := qubitErr_some hps
      rw [(make_inv h).2.2] at hd
      exact rate_channel (k := ⟨"erasure", .E_ERASE, ["p"]⟩) (is := [(G.lat.idx v : Int)]) (by simp [errorKinds]) (by simp) (data_qubit hd hp) hp
  y := .inl fun _ => AllE.error

/-- **C113** Every error in a generated circuit is one of the error data: it acts on the qubits of an entry, with the probability given there. -/
theorem C113_rates (api : FloatApi F) (prob : F → ℝ≥0∞) (code : LatCode) (qe ge : List (List Char × ErrDict F)) (sel : LogicalSel) (anc : Bool) (circ : List (Gate F))
    (h : generateCircuit api code qe ge sel anc = .ok circ) : ∀ g ∈ circ, g.name.noisy = true → FromEntry api prob (qe ++ ge) g := by
  unfold generateCircuit at h
  split at h
  · cases h
  next G hG =>
  have hW := rate_walk api prob hG
  unfold Gen.getCircuit at h
  split at h
  · cases h
  next idx hidx =>
  split at h
  · cases h
  split at h
  · cases h
  exact hW.parts idx (.inl fun _ => AllE.error) _ _ h

/-- Every entry of the error data has at most the probability `x`. -/
def DataBelow (api : FloatApi F) (prob : F → ℝ≥0∞) (data : List (List Char × ErrDict F)) (x : ℝ≥0∞) : Prop :=
  ∀ k ∈ errorKinds, ∀ d, dictGet data k.name.toList = some d → ∀ key ps, dictGet d key = some ps → entryRate api prob k.params ps ≤ x

/-- The rates of a circuit are bounded by those of the error data; this is the hypothesis on circuits of C92, C94 and C112. -/
theorem C113_below (api : FloatApi F) (prob : F → ℝ≥0∞) (code : LatCode) (qe ge : List (List Char × ErrDict F)) (sel : LogicalSel) (anc : Bool) (circ : List (Gate F))
    (h : generateCircuit api code qe ge sel anc = .ok circ) (x : ℝ≥0∞) (hx : DataBelow api prob (qe ++ ge) x) : ∀ g ∈ circ, g.name.noisy = true → g.rate api prob ≤ x := by
  intro g hg hn
  obtain ⟨k, hk, _, d, _, ps, _, hd, hp, _, hr⟩ := C113_rates api prob code qe ge sel anc circ h g hg hn
  rw [hr]
  exact hx k hk d hd _ ps hp

/-! ### Which error data are accepted -/

/-- Every value of the error data is a number, and the probabilities of wrong measurements lie between 0 and 1. -/
def Numbers (api : FloatApi F) (data : List (List Char × ErrDict F)) : Prop :=
  ∀ name d, (name, d) ∈ data → ∀ key ps, (key, ps) ∈ d → ∀ k v, (k, v) ∈ ps → ∃ p, toFloat api v = .ok p ∧ (name = "measurement".toList → api.inUnit p = true)

/-- Every entry of the error data belongs to a qubit, or a gate, of the lattice and has parameters of its kind. -/
def Fits (L : Lattice) (data : List (List Char × ErrDict F)) : Prop :=
  ∀ name d, (name, d) ∈ data → ∀ key ps, (key, ps) ∈ d → EntryFits L name key (ps.map Prod.fst)

theorem setDefaults_keys {names : List (List Char)} (hn : names.Nodup) {d : List (List Char × ErrDict F)} (hd : (d.map Prod.fst).Nodup) : ((setDefaults names d).map Prod.fst).Nodup := by
  unfold setDefaults
  rw [List.map_append, List.map_map, List.nodup_append]
  refine ⟨hd, ?_, ?_⟩
  · rw [show (Prod.fst ∘ fun n : List Char => (n, ([] : ErrDict F))) = id from rfl, List.map_id]
    exact hn.filter _
  · intro a ha b hb hab
    obtain ⟨n, hn', rfl⟩ := List.mem_map.1 hb
    obtain ⟨e, he, rfl⟩ := List.mem_map.1 ha
    have := (List.mem_filter.1 hn').2
    rw [Option.isNone_iff_eq_none, dictGet_none] at this
    exact this e he hab

theorem setDefaults_mem {names : List (List Char)} {d : List (List Char × ErrDict F)} {e : List Char × ErrDict F} (h : e ∈ setDefaults names d) : e ∈ d ∨ e.2 = [] := by
  unfold setDefaults at h
  rcases List.mem_append.1 h with h | h
  · exact .inl h
  · obtain ⟨n, _, rfl⟩ := List.mem_map.1 h
    exact .inr rfl

theorem make_total {code : LatCode} {qe ge : List (List Char × ErrDict F)} (anc : Bool) (hq : ∀ e ∈ qe, e.1 ∈ qubitErrorNames) (hg : ∀ e ∈ ge, e.1 ∈ gateErrorNames)
    (hqn : (qe.map Prod.fst).Nodup) (hgn : (ge.map Prod.fst).Nodup) (hfit : Fits code.lattice (qe ++ ge)) : ∃ G, Gen.make code qe ge anc = .ok G := by
  have hchk : checkAgainstCode code.lattice (setDefaults qubitErrorNames qe ++ setDefaults gateErrorNames ge) = .ok () := by
    have h1 := setDefaults_names hq
    have h2 := setDefaults_names hg
    refine (C46_check _ _ ?_).2 ?_
    · rw [List.map_append, List.nodup_append]
      refine ⟨setDefaults_keys (by decide) hqn, setDefaults_keys (by decide) hgn, ?_⟩
      intro a ha b hb hab
      obtain ⟨e, he, rfl⟩ := List.mem_map.1 ha
      obtain ⟨f, hf, rfl⟩ := List.mem_map.1 hb
      exact names_apart _ (h2 f hf) (hab ▸ h1 e he)
    · intro name d hd
      rcases List.mem_append.1 hd with hd | hd
      · refine ⟨.inl (h1 _ hd), fun key ps hk => ?_⟩
        rcases setDefaults_mem hd with hd | hd
        · exact hfit name d (List.mem_append_left _ hd) key ps hk
        · obtain rfl : d = [] := hd
          cases hk
      · refine ⟨.inr (h2 _ hd), fun key ps hk => ?_⟩
        rcases setDefaults_mem hd with hd | hd
        · exact hfit name d (List.mem_append_right _ hd) key ps hk
        · obtain rfl : d = [] := hd
          cases hk
  unfold Gen.make
  rw [if_neg (by simpa using fun a b h => hq (a, b) h), if_neg (by simpa using fun a b h => hg (a, b) h)]
  dsimp only
  rw [hchk]
  exact ⟨_, rfl⟩

theorem param_number {api : FloatApi F} {ps : Params F} (h : ∀ k v, (k, v) ∈ ps → ∃ p, toFloat api v = .ok p) (k : List Char) : ∃ p, toFloat api (param api ps k) = .ok p := by
  unfold param
  cases hk : dictGet ps k with
  | none => exact ⟨_, rfl⟩
  | some v => exact h k v (dictGet_some_mem hk)

theorem pauli_total {api : FloatApi F} {ps : Params F} (h : ∀ k v, (k, v) ∈ ps → ∃ p, toFloat api v = .ok p) (i : Nat) :
    ∃ x, emit api .E_PAULI [param api ps "x".toList, param api ps "y".toList, param api ps "z".toList, .int i] = .ok x := by
  have := channel_total (api := api) (nm := .E_PAULI) (fs := [param api ps "x".toList, param api ps "y".toList, param api ps "z".toList]) (is := [(i : Int)])
    (by simp) (by
      intro v hv
      simp only [List.mem_cons, List.not_mem_nil, or_false] at hv
      rcases hv with rfl | rfl | rfl <;> exact param_number h _)
  exact this

theorem total_walk (api : FloatApi F) {code : LatCode} {qe ge : List (List Char × ErrDict F)} {anc : Bool} {G : Gen F} (h : Gen.make code qe ge anc = .ok G)
    (hY : ∀ e ∈ code.lattice.edges, e.factor ≠ .Y) (hfit : Fits code.lattice (qe ++ ge)) (hnum : Numbers api (qe ++ ge)) :
    G.Walk api (fun a => ∃ x, a = .ok x) where
  nil := ⟨_, rfl⟩
  cat := by
    rintro _ _ ⟨x, rfl⟩ ⟨y, rfl⟩
    exact ⟨_, rfl⟩
  one nm hn i := ⟨_, emit_of (vs := [.int i]) (by rcases hn with rfl | rfl | rfl <;> rfl)⟩
  two nm hn i j := ⟨_, emit_of (vs := [.int i, .int j]) (by rcases hn with rfl | rfl <;> rfl)⟩
  err1 nm hn i := by
    unfold Gen.applyGateError
    cases hg : G.gateError nm i none with
    | none => exact ⟨_, rfl⟩
    | some ps =>
      unfold Gen.gateError at hg
      rw [make_gates h] at hg
      split at hg
      · cases hg
      next d hd =>
      dsimp only at hg
      have hd' := data_gate (make_names h).1 (name := nm.text) (by rcases hn with rfl | rfl | rfl <;> decide) hd hg
      have hv : ∀ k v, (k, v) ∈ ps → ∃ p, toFloat api v = .ok p := fun k v hkv => (hnum _ _ (dictGet_some_mem hd') _ _ (dictGet_some_mem hg) k v hkv).imp fun _ h => h.1
      rcases hn with rfl | rfl | rfl <;> exact pauli_total hv i
  err2 nm hn i j := by
    unfold Gen.applyGateError
    cases hg : G.gateError nm i (some j) with
    | none => exact ⟨_, rfl⟩
    | some ps =>
      unfold Gen.gateError at hg
      split at hg
      · cases hg
      next d hd =>
      dsimp only at hg
      have hp : dictGet d (.tup [(i : Int), (j : Int)]) = some ps := by
        split at hg
        · next e he => rw [he]; exact hg
        · obtain ⟨a, b, hab⟩ := make_pairs h hn hd (dictGet_some_mem hg)
          cases hab
      rw [make_gates h] at hd
      have hd' := data_gate (make_names h).1 (name := nm.text) (by rcases hn with rfl | rfl <;> decide) hd hp
      have hv : ∀ k v, (k, v) ∈ ps → ∃ p, toFloat api v = .ok p := fun k v hkv => (hnum _ _ (dictGet_some_mem hd') _ _ (dictGet_some_mem hp) k v hkv).imp fun _ h => h.1
      have := channel_total (api := api) (nm := .E_PAULI2) (fs := (pairNames.map (param api ps)).drop 1) (is := [(i : Int), (j : Int)])
        (.inr (.inr ⟨rfl, by rw [pair_params]; rfl, rfl⟩)) (by
          intro v hv'
          obtain ⟨k, _, rfl⟩ := List.mem_map.1 (List.mem_of_mem_drop hv')
          exact param_number hv k)
      rcases hn with rfl | rfl <;> exact this
  meas i := by
    obtain ⟨d, hd⟩ := setDefaults_isSome (names := qubitErrorNames) qe (name := "measurement".toList) (by decide)
    have hq : G.qubitErr "measurement".toList i = .ok (dictGet d (.int i)) := by
      unfold Gen.qubitErr
      rw [(make_inv h).2.2, hd]
    unfold Gen.applyMeasError
    rw [hq]
    cases hp : dictGet d (.int i) with
    | none => exact ⟨_, rfl⟩
    | some ps =>
      cases ps with
      | nil => exact ⟨_, rfl⟩
      | cons a ps =>
        dsimp only
        have hd' := data_qubit (ge := ge) hd hp
        have hf := hfit _ _ (dictGet_some_mem hd') _ _ (dictGet_some_mem hp)
        have hkeys : ∀ k ∈ (a :: ps).map Prod.fst, k = "p".toList := by
          unfold EntryFits at hf
          rw [if_neg (by decide), if_neg (by decide), if_pos rfl] at hf
          obtain ⟨_, _, _, hk⟩ := hf
          exact hk
        have ha : a.1 = "p".toList := hkeys _ List.mem_cons_self
        have hg : dictGet (a :: ps) "p".toList = some a.2 := by
          unfold dictGet
          rw [List.find?_cons_of_pos (by simp [ha])]
          rfl
        rw [hg]
        obtain ⟨p, hp1, hp2⟩ := hnum _ _ (dictGet_some_mem hd') _ _ (dictGet_some_mem hp) a.1 a.2 List.mem_cons_self
        exact flip_ok hp1 (hp2 rfl)
  data v hv := by
    obtain ⟨d1, hd1⟩ := setDefaults_isSome (names := qubitErrorNames) qe (name := "pauli".toList) (by decide)
    obtain ⟨d2, hd2⟩ := setDefaults_isSome (names := qubitErrorNames) qe (name := "erasure".toList) (by decide)
    have hq1 : G.qubitErr "pauli".toList (G.lat.idx v) = .ok (dictGet d1 (.int (G.lat.idx v))) := by
      unfold Gen.qubitErr
      rw [(make_inv h).2.2, hd1]
    have hq2 : G.qubitErr "erasure".toList (G.lat.idx v) = .ok (dictGet d2 (.int (G.lat.idx v))) := by
      unfold Gen.qubitErr
      rw [(make_inv h).2.2, hd2]
    unfold Gen.dataErrors
    rw [hq1, hq2]
    have hcat : ∀ a b : Except Err (List (Gate F)), (∃ x, a = .ok x) → (∃ x, b = .ok x) → ∃ x, catE a b = .ok x := by
      rintro _ _ ⟨x, rfl⟩ ⟨y, rfl⟩
      exact ⟨_, rfl⟩
    refine hcat _ _ ?_ ?_
    · cases hp : dictGet d1 (.int (G.lat.idx v)) with
      | none => exact ⟨_, rfl⟩
      | some ps =>
        cases ps with
        | nil => exact ⟨_, rfl⟩
        | cons a ps => exact pauli_total (fun k v hkv => (hnum _ _ (dictGet_some_mem (data_qubit (ge := ge) hd1 hp)) _ _ (dictGet_some_mem hp) k v hkv).imp fun _ h => h.1) _
    · cases hp : dictGet d2 (.int (G.lat.idx v)) with
      | none => exact ⟨_, rfl⟩
      | some ps =>
        cases ps with
        | nil => exact ⟨_, rfl⟩
        | cons a ps =>
          have hv : ∀ k v, (k, v) ∈ a :: ps → ∃ p, toFloat api v = .ok p :=
            fun k v hkv => (hnum _ _ (dictGet_some_mem (data_qubit (ge := ge) hd2 hp)) _ _ (dictGet_some_mem hp) k v hkv).imp fun _ h => h.1
          exact channel_total (api := api) (nm := .E_ERASE) (fs := [param api (a :: ps) "p".toList]) (is := [(G.lat.idx v : Int)]) (by simp) (by
            intro w hw
            obtain rfl := List.mem_singleton.1 hw
            exact param_number hv _)
  y := .inr (by rw [show G.lat = code.lattice by unfold Gen.lat; rw [(make_inv h).1]]; exact hY)

/-- A circuit is generated for all error data whose entries fit the code and are numbers, and every selection of commuting logical operators. -/
theorem C113_total (api : FloatApi F) (r : Nat) (c : LatCode) (hm : Made r c) (qe ge : List (List Char × ErrDict F)) (sel : LogicalSel) (anc : Bool) (is : List Int)
    (hq : ∀ e ∈ qe, e.1 ∈ qubitErrorNames) (hg : ∀ e ∈ ge, e.1 ∈ gateErrorNames) (hqn : (qe.map Prod.fst).Nodup) (hgn : (ge.map Prod.fst).Nodup)
    (hfit : Fits c.lattice (qe ++ ge)) (hnum : Numbers api (qe ++ ge))
    (his : logicalOpsToIndices c.code.logicalOps.length sel = .ok is) (hcom : ∀ i ∈ is, ∀ j ∈ is, i / 2 = j / 2 → i = j) :
    ∃ circ : List (Gate F), generateCircuit api c qe ge sel anc = .ok circ := by
  obtain ⟨L, rfl, hw, hc, hf, hs⟩ := hm.lattice
  have hlen : (L.latCode r).code.logicalOps.length = L.logicals.length := by simp [Lattice.code]
  rw [hlen] at his
  obtain ⟨G, hG⟩ := make_total anc hq hg hqn hgn hfit
  have hlat : G.lat = L := by unfold Gen.lat; rw [(make_inv hG).1]
  obtain ⟨h1, hb⟩ := indices_inv his
  have hW := total_walk api hG hs.noY hfit hnum
  have hml : mapLoop (getItem L.code.logicalOps) is = .ok (is.map fun i => L.vop (L.selPos i)) := by
    refine mapLoop_ok is ?_
    intro i hi'
    obtain ⟨k1, k2⟩ := hb i hi'
    have hlt : i.toNat < L.logicals.length := by omega
    unfold getItem Lattice.selPos Lattice.code
    dsimp only
    rw [List.getElem?_map, List.getElem?_eq_getElem hlt]
    rfl
  have hct : ((commTable (is.map fun i => L.vop (L.selPos i)) (is.map fun i => L.vop (L.selPos i))).any fun r => r.any (· ≠ 0)) = false := by
    rw [commTable_zero]
    intro a ha b hb'
    obtain ⟨i, hi, rfl⟩ := List.mem_map.mp ha
    obtain ⟨j, hj, rfl⟩ := List.mem_map.mp hb'
    rw [commSign_zero_iff, commutes_iff, hw.anti_vop]
    have h1 := hb i hi
    have h2 := hb j hj
    have hi' : i.toNat < L.logicals.length := by omega
    have hj' : j.toNat < L.logicals.length := by omega
    have := hc.log_log i.toNat j.toNat _ _ (List.getElem?_eq_getElem hi') (List.getElem?_eq_getElem hj')
    unfold Lattice.selPos
    rw [List.getElem?_eq_getElem hi', List.getElem?_eq_getElem hj']
    refine this.trans ?_
    rw [decide_eq_false_iff_not]
    rintro ⟨a, b⟩
    exact b (by rw [hcom i hi j hj (by omega)])
  unfold generateCircuit
  rw [hG]
  dsimp only
  have hcode := (make_inv hG).1
  have hparts := fun k => hW.parts is (.inr (by rw [hlat]; exact hb)) k
  obtain ⟨code, qe', ge', anc'⟩ := G
  obtain rfl : code = L.latCode r := hcode
  unfold Gen.getCircuit
  dsimp only
  rw [hlen, his]
  dsimp only
  rw [show mapLoop (getItem (L.latCode r).code.logicalOps) is = .ok (is.map fun i => L.vop (L.selPos i)) from hml]
  dsimp only
  rw [if_neg (by rw [Bool.not_eq_true]; exact hct)]
  exact hparts _

/-- The statement that only probabilities between 0 and 1 are accepted. -/
def C113_statement : Prop := ∀ (F : Type) (api : FloatApi F) (r : Nat) (c : LatCode), Made r c → ∀ (qe ge : List (List Char × ErrDict F)) (sel : LogicalSel) (anc : Bool) (circ : List (Gate F)),
  generateCircuit api c qe ge sel anc = .ok circ → ∀ name d, (name, d) ∈ qe ++ ge → ∀ key ps, (key, ps) ∈ d → ∀ k v, (k, v) ∈ ps → ∀ p, toFloat api v = .ok p → api.inUnit p = true

/-- Three error data: X errors with "probability" 2, erasure, wrong measurements. -/
def rateData : List (List Char × ErrDict Nat) :=
  [("pauli".toList, [(.int 0, [("x".toList, .int 2)])]), ("erasure".toList, [(.int 1, [("p".toList, .int 1)])]), ("measurement".toList, [(.int 3, [("p".toList, .int 1)])])]

/-- Errors of gates. -/
def rateGates : List (List Char × ErrDict Nat) :=
  [("CZ".toList, [(.tup [3, 0], [("xx".toList, .int 1), ("zi".toList, .int 3)])]), ("H".toList, [(.int 4, [("y".toList, .int 1)])])]

instance (L : Lattice) (i : Int) : Decidable (L.IsDataIdx i) :=
  decidable_of_iff (0 ≤ i ∧ ∃ p ∈ L.equbits[i.toNat]?, p ∈ L.dataqubits) (by simp [Lattice.IsDataIdx])

theorem rate_example (anc : Bool) : ∃ circ, generateCircuit natApi ((Rep.lat 3).latCode 2) rateData rateGates (.str "X".toList) anc = .ok circ := by
  refine C113_total natApi 2 _ (rep3_made 2) rateData rateGates (.str "X".toList) anc [0] (by decide) (by decide) (by decide) (by decide) ?_ ?_ (by decide +kernel) (by decide)
  · refine ((C46_check _ _ (by decide)).1 ?_ · · · |>.2)
    decide +kernel
  · intro name d hd key ps hk k v hv
    simp only [rateData, rateGates, List.cons_append, List.nil_append, List.mem_cons, List.not_mem_nil, or_false, Prod.mk.injEq] at hd
    rcases hd with ⟨rfl, rfl⟩ | ⟨rfl, rfl⟩ | ⟨rfl, rfl⟩ | ⟨rfl, rfl⟩ | ⟨rfl, rfl⟩ <;>
    · obtain ⟨rfl, rfl⟩ : key = _ ∧ ps = _ := by simpa using hk
      simp only [List.mem_cons, List.not_mem_nil, or_false, Prod.mk.injEq] at hv
      first
      | (rcases hv with ⟨rfl, rfl⟩ | ⟨rfl, rfl⟩ <;> exact ⟨_, rfl, by decide⟩)
      | (obtain ⟨rfl, rfl⟩ := hv; exact ⟨_, rfl, by decide⟩)

/-- The generator and the checks of the error data accept "probabilities" above 1. -/
theorem C113_counterexample : ¬ C113_statement := by
  intro h
  obtain ⟨circ, hc⟩ := rate_example false
  have := h Nat natApi 2 _ (rep3_made 2) _ _ _ _ _ hc "pauli".toList [(.int 0, [("x".toList, .int 2)])] (by simp [rateData]) (.int 0) [("x".toList, .int 2)] (by simp) "x".toList (.int 2) (by simp) 2 rfl
  revert this
  decide

/-- The flip of a measurement has a probability between 0 and 1. -/
def UnitFlip (api : FloatApi F) (g : Gate F) : Prop := g.name = .ERROR → ∃ p rest, g.args = .flt p :: rest ∧ api.inUnit p = true

theorem unitFlip_emit {api : FloatApi F} {nm : Name} {args : List (Raw F)} : AllE (UnitFlip api) (emit api nm args) := by
  intro x hx g hg hn
  obtain ⟨vs, hv, rfl, _⟩ := emit_inv hx
  obtain rfl := List.mem_singleton.1 hg
  obtain rfl : nm = .ERROR := hn
  unfold appendArgs at hv
  dsimp only at hv
  split at hv
  · cases hv
  split at hv
  · cases hv
  split at hv
  · next hu =>
    split at hv
    · cases hv
    split at hv
    · cases hv
    cases hv
    exact ⟨_, _, rfl, hu⟩
  · cases hv

theorem unit_walk (api : FloatApi F) (G : Gen F) : G.Walk api (AllE (UnitFlip api)) where
  nil := AllE.nil
  cat _ _ := AllE.cat
  one _ _ _ := unitFlip_emit
  two _ _ _ _ := unitFlip_emit
  err1 nm hn i := by
    unfold Gen.applyGateError
    split
    · exact AllE.nil
    · rcases hn with rfl | rfl | rfl <;> exact unitFlip_emit
  err2 nm hn i j := by
    unfold Gen.applyGateError
    split
    · exact AllE.nil
    · rcases hn with rfl | rfl <;> exact unitFlip_emit
  meas i := by
    unfold Gen.applyMeasError
    split
    · exact AllE.error
    · exact AllE.nil
    · exact AllE.nil
    · split
      · exact AllE.error
      · exact unitFlip_emit
  data v hv := by
    unfold Gen.dataErrors
    refine AllE.cat ?_ ?_
    · split
      · exact AllE.error
      · exact AllE.nil
      · exact AllE.nil
      · exact unitFlip_emit
    · split
      · exact AllE.error
      · exact AllE.nil
      · exact AllE.nil
      · exact unitFlip_emit
  y := .inl fun _ => AllE.error

/-- Only the probabilities of wrong measurements that are used are checked. -/
theorem C113_partial (api : FloatApi F) (code : LatCode) (qe ge : List (List Char × ErrDict F)) (sel : LogicalSel) (anc : Bool) (circ : List (Gate F))
    (h : generateCircuit api code qe ge sel anc = .ok circ) (g : Gate F) (hg : g ∈ circ) (hn : g.name = .ERROR) :
    ∃ p rest, g.args = .flt p :: rest ∧ api.inUnit p = true := by
  unfold generateCircuit at h
  split at h
  · cases h
  next G hG =>
  unfold Gen.getCircuit at h
  split at h
  · cases h
  next idx hidx =>
  split at h
  · cases h
  split at h
  · cases h
  exact (unit_walk api G).parts idx (.inl fun _ => AllE.error) _ _ h g hg hn

/-- The circuit of the example has errors of all five kinds. -/
example : ∃ circ, generateCircuit natApi ((Rep.lat 3).latCode 2) rateData rateGates (.str "X".toList) false = .ok circ ∧
    (circ.filter fun g => g.name.noisy).length = 8 ∧ ∀ g ∈ circ, g.name.noisy = true → FromEntry natApi (fun k => (k : ℝ≥0∞)) (rateData ++ rateGates) g := by
  obtain ⟨circ, hc⟩ := rate_example false
  refine ⟨circ, hc, ?_, C113_rates natApi _ _ _ _ _ _ circ hc⟩
  have h : (match generateCircuit natApi ((Rep.lat 3).latCode 2) rateData rateGates (.str "X".toList) false with
    | .ok c => (c.filter fun g => g.name.noisy).length
    | .error _ => 0) = 8 := by decide +kernel
  rw [hc] at h
  exact h

end Plaquette
