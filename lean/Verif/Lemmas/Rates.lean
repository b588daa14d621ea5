import Verif.Lemmas.GenWalk
import Verif.Props.Errors

/-!
# The arguments of generated error instructions
-/

open scoped ENNReal

namespace Plaquette
variable {F : Type} {api : FloatApi F}

theorem toInts_int (l : List Int) : toInts api (l.map Raw.int) = .ok (l.map Val.int) := by
  induction l with
  | nil => rfl
  | cons a l ih =>
    rw [List.map_cons, toInts, ih]
    rfl

/-- The arguments of an error channel: probabilities, then qubits. -/
theorem channel_args {nm : Name} {fs : List (Raw F)} {is : List Int}
    (h : nm = .E_ERASE ∧ fs.length = 1 ∧ is.length = 1 ∨ nm = .E_PAULI ∧ fs.length = 3 ∧ is.length = 1 ∨ nm = .E_PAULI2 ∧ fs.length = 15 ∧ is.length = 2) :
    appendArgs api nm (fs ++ is.map Raw.int) =
      match toFloats api fs with
      | .error e => .error e
      | .ok vs => .ok (vs ++ is.map Val.int) := by
  rcases h with ⟨rfl, h1, h2⟩ | ⟨rfl, h1, h2⟩ | ⟨rfl, h1, h2⟩ <;>
  · unfold appendArgs
    dsimp only
    rw [if_pos (by simp [h1, h2]), ← h1, List.take_left, List.drop_left, toInts_int]
    cases toFloats api fs <;> rfl

theorem channel_emit {prob : F → ℝ≥0∞} {nm : Name} {fs : List (Raw F)} {is : List Int}
    (h : nm = .E_ERASE ∧ fs.length = 1 ∧ is.length = 1 ∨ nm = .E_PAULI ∧ fs.length = 3 ∧ is.length = 1 ∨ nm = .E_PAULI2 ∧ fs.length = 15 ∧ is.length = 2)
    {x : List (Gate F)} (hx : emit api nm (fs ++ is.map Raw.int) = .ok x) :
    ∃ vs, x = [⟨nm, vs ++ is.map Val.int⟩] ∧ Gate.rate api prob ⟨nm, vs ++ is.map Val.int⟩ = (fs.map (rawProb api prob)).sum := by
  obtain ⟨vs, hv, rfl, _⟩ := emit_inv hx
  rw [channel_args h] at hv
  split at hv
  · cases hv
  next ws hw =>
  cases hv
  obtain ⟨h1, h2⟩ := toFloats_prob (prob := prob) hw
  refine ⟨ws, rfl, ?_⟩
  rw [← h2]
  rcases h with ⟨rfl, h, _⟩ | ⟨rfl, h, _⟩ | ⟨rfl, h, _⟩ <;>
  · unfold Gate.rate
    dsimp only
    rw [← h, ← h1, List.take_left]

theorem flip_emit {prob : F → ℝ≥0∞} {a : Raw F} {i : Nat} {x : List (Gate F)} (h : emit api .ERROR [a, .str "X".toList, .int i] = .ok x) :
    ∃ p, x = [⟨.ERROR, [.flt p, .name .X, .int i]⟩] ∧ Gate.rate api prob ⟨.ERROR, [.flt p, .name .X, .int i]⟩ = rawProb api prob a := by
  obtain ⟨vs, hvs, rfl, _⟩ := emit_inv h
  unfold appendArgs at hvs
  dsimp only at hvs
  cases ha : toFloat api a with
  | error e => rw [ha] at hvs; cases hvs
  | ok p =>
    rw [ha] at hvs
    dsimp only at hvs
    split at hvs
    · rw [show allowedName (List.head? [Raw.str "X".toList, (Raw.int i : Raw F)]) = .ok .X by rfl] at hvs
      dsimp only at hvs
      rw [show toInts api [Raw.str "X".toList, (Raw.int i : Raw F)].tail = .ok [.int i] by rfl] at hvs
      cases hvs
      refine ⟨p, rfl, ?_⟩
      unfold Gate.rate rawProb
      rw [ha]
      simp [argProb, numOf]
    · cases hvs

theorem flip_ok {a : Raw F} {i : Nat} {p : F} (h : toFloat api a = .ok p) (hp : api.inUnit p = true) :
    ∃ x, emit api .ERROR [a, .str "X".toList, .int i] = .ok x := by
  refine ⟨_, emit_of (vs := [.flt p, .name .X, .int i]) ?_⟩
  unfold appendArgs
  dsimp only
  rw [h]
  dsimp only
  rw [if_pos hp]
  rfl

theorem channel_total {nm : Name} {fs : List (Raw F)} {is : List Int}
    (h : nm = .E_ERASE ∧ fs.length = 1 ∧ is.length = 1 ∨ nm = .E_PAULI ∧ fs.length = 3 ∧ is.length = 1 ∨ nm = .E_PAULI2 ∧ fs.length = 15 ∧ is.length = 2)
    (hf : ∀ v ∈ fs, ∃ p, toFloat api v = .ok p) : ∃ x, emit api nm (fs ++ is.map Raw.int) = .ok x := by
  obtain ⟨vs, hv⟩ := toFloats_total hf
  exact ⟨_, emit_of (by rw [channel_args h, hv])⟩

/-! ### What the constructor of the generator checks -/

theorem make_names {code : LatCode} {qe ge : List (List Char × ErrDict F)} {anc : Bool} {G : Gen F} (h : Gen.make code qe ge anc = .ok G) :
    (∀ e ∈ qe, e.1 ∈ qubitErrorNames) ∧ (∀ e ∈ ge, e.1 ∈ gateErrorNames) ∧ checkAgainstCode code.lattice (setDefaults qubitErrorNames qe ++ setDefaults gateErrorNames ge) = .ok () := by
  unfold Gen.make at h
  split at h
  · cases h
  next h1 =>
  split at h
  · cases h
  next h2 =>
  dsimp only at h
  split at h
  · cases h
  next h3 =>
  simp only [List.any_eq_true, decide_eq_true_eq, not_exists, not_and, not_not] at h1 h2
  exact ⟨h1, h2, h3⟩

theorem setDefaults_names {names : List (List Char)} {d : List (List Char × ErrDict F)} (h : ∀ e ∈ d, e.1 ∈ names) : ∀ e ∈ setDefaults names d, e.1 ∈ names := by
  intro e he
  unfold setDefaults at he
  rcases List.mem_append.1 he with he | he
  · exact h e he
  · obtain ⟨n, hn, rfl⟩ := List.mem_map.1 he
    exact (List.mem_filter.1 hn).1

theorem dictGet_other {names : List (List Char)} {d : List (List Char × ErrDict F)} (h : ∀ e ∈ d, e.1 ∈ names) {name : List Char} (hn : name ∉ names) : dictGet d name = none :=
  dictGet_none.2 fun e he hc => hn (hc ▸ h e he)

/-- The dictionary of a gate with two qubits has pairs as keys. -/
theorem make_pairs {code : LatCode} {qe ge : List (List Char × ErrDict F)} {anc : Bool} {G : Gen F} (h : Gen.make code qe ge anc = .ok G) {nm : Name} (hn : nm = .CX ∨ nm = .CZ)
    {d : ErrDict F} (hd : dictGet G.gateErrors nm.text = some d) {key : QKey} {ps : Params F} (hk : (key, ps) ∈ d) : ∃ i j, key = .tup [i, j] := by
  obtain ⟨h1, h2, h3⟩ := make_names h
  rw [make_gates h] at hd
  unfold checkAgainstCode at h3
  split at h3
  · cases h3
  simp only [bind_unit] at h3
  obtain ⟨-, -, -, h4, -⟩ := h3
  have h5 := checkLoop_iff.1 h4 nm.text (by rcases hn with rfl | rfl <;> decide)
  rw [checkIf_ok] at h5
  have h6 := h5 d (by
    rw [dictGet_append, dictGet_other (setDefaults_names h1) (by rcases hn with rfl | rfl <;> decide), Option.none_or, hd])
  have h7 := checkLoop_iff.1 h6 _ hk
  dsimp only at h7
  split at h7
  · cases h7
  · exact ⟨_, _, rfl⟩
  · cases h7

theorem names_apart : ∀ n ∈ gateErrorNames, n ∉ qubitErrorNames := by decide

end Plaquette
