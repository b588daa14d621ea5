import Verif.Model.ResetText
import Verif.Props.StringState

/-!
# C100, C101: states as text, and resets with the operator given as text
-/

namespace Plaquette
variable {n : Nat}

/-! ### C100 -/

theorem parse_all (f : Op n → List Char) (qubits : Option Nat) : ∀ (l : List (Op n)), (∀ s ∈ l, stringToPauli (f s) qubits = .ok ⟨n, s⟩) →
    parseAll qubits (l.map f) = .ok (l.map fun s => ⟨n, s⟩)
  | [], _ => rfl
  | s :: l, h => by
    rw [List.map_cons, parseAll, h s (by simp)]
    simp only
    rw [parse_all f qubits l fun s hs => h s (by simp [hs])]
    rfl

theorem destab_not_scalar {T : Tab n} (hT : T.Valid) (i : Fin n) : ¬ (T.d i).IsScalar := by
  intro h
  have h1 := (anticommutes_iff _ _).1 (hT.destab_stab_same i)
  simp [anti, h.1, h.2, bit] at h1

theorem state_roundtrip {T : Tab n} (hT : T.Valid) (sh : Bool) (qubits : Option Nat)
    (h : ∀ o : Op n, ¬ o.IsScalar → stringToPauli (pauliToString o sh) qubits = .ok ⟨n, o⟩) :
    stringToState n (stateToStrings T sh).2 (stateToStrings T sh).1 qubits = .ok (List.ofFn T.d, List.ofFn T.s) := by
  rw [stringToState, stateToStrings, parse_all _ _ _ (by
    intro s hs
    obtain ⟨i, rfl⟩ := List.mem_ofFn.1 hs
    exact h _ (stab_not_scalar hT i))]
  simp only
  rw [parse_all _ _ _ (by
    intro s hs
    obtain ⟨i, rfl⟩ := List.mem_ofFn.1 hs
    exact h _ (destab_not_scalar hT i))]
  simp only
  rw [sameSize_self, sameSize_self]
  simp only
  refine stateCheck_accept (by simp) ?_ ?_ ?_
  · intro i j hi hj
    simp only [List.getElem_ofFn]
    exact (commutes_iff _ _).1 (hT.stab_stab _ _)
  · intro i j hi hj
    simp only [List.getElem_ofFn]
    exact (commutes_iff _ _).1 (hT.destab_destab _ _)
  · intro i hi hj
    simp only [List.getElem_ofFn]
    rw [anti_symm]
    exact (anticommutes_iff _ _).1 (hT.destab_stab_same _)

/-- **C100**: every valid tableau survives the trip through strings with identities. -/
theorem C100_state_roundtrip {T : Tab n} (hT : T.Valid) :
    stringToState n (stateToStrings T true).2 (stateToStrings T true).1 none = .ok (List.ofFn T.d, List.ofFn T.s) :=
  state_roundtrip hT true none fun o h => (C11_canonical_roundtrip_partial o h).1

/-- Strings without identities need the number of qubits. -/
theorem C100_short_roundtrip {T : Tab n} (hT : T.Valid) :
    stringToState n (stateToStrings T false).2 (stateToStrings T false).1 (some n) = .ok (List.ofFn T.d, List.ofFn T.s) :=
  state_roundtrip hT false (some n) fun o h => C11_short_roundtrip_partial o h

/-- Without it, operators of different lengths are refused. -/
theorem C100_short_size :
    stringToState 2 (stateToStrings (zeroState 2) false).2 (stateToStrings (zeroState 2) false).1 none = .error .valueError := by
  decide +kernel

/-- Two valid tableaux with the same strings are equal. -/
theorem C100_injective {T U : Tab n} (hT : T.Valid) (hU : U.Valid) (h : stateToStrings T true = stateToStrings U true) : T = U := by
  have h1 := C100_state_roundtrip hT
  rw [h, C100_state_roundtrip hU] at h1
  simp only [Except.ok.injEq, Prod.mk.injEq] at h1
  have hd := List.ofFn_injective h1.1
  have hs := List.ofFn_injective h1.2
  cases T; cases U
  simp_all

/-- Non-vacuity: the strings of an entangled state. -/
example : stateToStrings bellTab true = (["+ZI".toList, "+IX".toList], ["+XX".toList, "+ZZ".toList]) ∧ bellTab.Valid :=
  ⟨by decide, C05_reachable_valid [.gates [.h 0, .cx 0 1]] (by simp [Cmd.Ok, CGate.Ok]) _ rfl⟩

/-! ### C101 -/

/-- A sign (or none) and a letter. -/
def signedText (sign : Option Bool) (l : Letter) : List Char :=
  (match sign with | none => [] | some false => ['+'] | some true => ['-']) ++ [match l with | .X => 'X' | .Y => 'Y' | .Z => 'Z']

/-- The operator the text means. -/
theorem C101_operator (sign : Option Bool) (l : Letter) (q : Fin n) :
    singleOpText (signedText sign l) q.1 n = .ok (q, singleOp (sign = some true) l q) := by
  have hn := q.2
  rw [singleOpText, if_neg (by omega), if_neg (by omega), dif_pos (by simp)]
  rcases sign with _ | (_ | _) <;> cases l <;> simp [signedText, lastLetter]

/-- **C101 (full statement)**: a reset with a signed letter leaves the qubits in the +1 eigenstate of the operator. -/
def C101_statement : Prop := ∀ (n : Nat) (T : Tab n) (sign : Option Bool) (l : Letter) (q : Fin n) (draw : Bool), T.Valid →
  ∃ T', resetText (signedText sign l) T [((q.1 : Int), draw)] = .ok T' ∧
    ∀ forced draw, measure T' (singleOp (sign = some true) l q) forced draw = .ok (T', false)

/-- `reset_qubits_to_eigenstate(state, "+X", 0)` leaves the state `|->` of a random outcome 1. -/
theorem C101_plus_counterexample : ¬ C101_statement := by
  intro h
  obtain ⟨T', h1, h2⟩ := h 1 (zeroState 1) (some false) .X 0 true (zeroState_valid 1)
  have h3 := h2 none false
  revert h1 h3
  generalize hT : resetText (signedText (some false) .X) (zeroState 1) [(((0 : Fin 1).1 : Int), true)] = r
  intro h1 h3
  subst h1
  have h4 : (do let T ← resetText (signedText (some false) .X) (zeroState 1) [(((0 : Fin 1).1 : Int), true)]
                let r ← measure T (singleOp false .X 0) none false
                pure r.2) = (.ok true : Except Err Bool) := by decide
  rw [hT] at h4
  simp only [bind, Except.bind] at h4
  have h5 : measure T' (singleOp false .X 0) none false = .ok (T', false) := h3
  rw [h5] at h4
  simp [pure, Except.pure] at h4

/-- **C101 (partial)**: with the texts `X`, `-X`, `Z`, `-Z` it does. Missing: `+X`, `+Z` and the letter Y, where an outcome 1 is not corrected. -/
theorem C101_reset_partial {T : Tab n} (hT : T.Valid) (sign : Option Bool) (hs : sign ≠ some false) (l : Letter) (hl : l ≠ .Y)
    (qs : List (Fin n × Bool)) :
    ∃ T', resetText (signedText sign l) T (qs.map fun a => ((a.1.1 : Int), a.2)) = .ok T' ∧ T'.Valid ∧
      ∀ a ∈ qs, ∀ forced draw, measure T' (singleOp (sign = some true) l a.1) forced draw = .ok (T', false) := by
  have h1 : ∀ (T : Tab n) (q : Fin n) (draw : Bool), resetTextOne (signedText sign l) T q.1 draw = resetOne (sign = some true) l T q draw := by
    intro T q draw
    rw [resetTextOne, C101_operator, resetOne]
    simp only
    cases measure T (singleOp (sign = some true) l q) none draw with
    | error e => rfl
    | ok r =>
      obtain ⟨T', out⟩ := r
      rcases sign with _ | (_ | _) <;> cases l <;> simp_all [signedText]
  have h2 : ∀ (qs : List (Fin n × Bool)) (T : Tab n),
      resetText (signedText sign l) T (qs.map fun a => ((a.1.1 : Int), a.2)) = resetAll (sign = some true) l T qs := by
    intro qs
    induction qs with
    | nil => intro T; rfl
    | cons a qs ih =>
      intro T
      rw [List.map_cons, resetText, resetAll, h1]
      cases resetOne (sign = some true) l T a.1 a.2 with
      | error e => rfl
      | ok T' => exact ih T'
  rw [h2]
  exact C10_reset_certain T hT _ l hl qs

/-- Which bases `QuantumState.reset_qubits_to_eigenstate` refuses: not "everything but `X` and `Z`". -/
theorem C101_guard (basis : List Char) : (∀ (n : Nat) (T : Tab n) qs, stateReset basis T qs = .error .valueError) ↔
    ¬ (basis = [] ∨ basis.length = 1 ∨ basis = ['X', 'Z']) := by
  constructor
  · intro h hb
    have h1 := h 1 (zeroState 1) []
    rw [stateReset, if_neg] at h1
    · cases h1
    · rintro ⟨k1, k2⟩
      rcases hb with rfl | hb | rfl
      · exact k1 (by decide)
      · exact k2 hb
      · exact k1 (by decide)
  · intro hb n T qs
    rw [stateReset, if_pos]
    push Not at hb
    refine ⟨fun hi => ?_, hb.2.1⟩
    have h2 := hi.length_le
    simp only [List.length_cons, List.length_nil] at h2
    have h3 : basis.length = 2 := by
      have := hb.2.1
      have : basis.length ≠ 0 := fun h => hb.1 (List.length_eq_zero_iff.1 h)
      omega
    exact hb.2.2 (hi.eq_of_length (by simp [h3]))

/-- `QuantumState.reset_qubits_to_eigenstate("XZ", [0])` is accepted, measures Z and leaves `|1>` uncorrected; `"Y"` is accepted, too. -/
theorem C101_guard_counterexample :
    (stateReset ['X', 'Z'] ((CGate.x (0 : Fin 1)).app (zeroState 1)) [(0, false)]) = .ok ((CGate.x (0 : Fin 1)).app (zeroState 1)) ∧
    ∃ T, stateReset ['Y'] (zeroState 1) [(0, true)] = .ok T ∧ measure T (singleOp false .Y 0) none false = .ok (T, true) := by
  refine ⟨rfl, _, rfl, rfl⟩

/-- With `X` and `Z` it resets. -/
theorem C101_state_reset {T : Tab n} (hT : T.Valid) (l : Letter) (hl : l ≠ .Y) (qs : List (Fin n × Bool)) :
    ∃ T', stateReset (signedText none l) T (qs.map fun a => ((a.1.1 : Int), a.2)) = .ok T' ∧ T'.Valid ∧
      ∀ a ∈ qs, ∀ forced draw, measure T' (singleOp false l a.1) forced draw = .ok (T', false) := by
  have h := C101_reset_partial hT none (by simp) l hl qs
  rw [stateReset, if_neg (by cases l <;> simp [signedText])]
  simpa using h

/-- Negative and too large indices of qubits are refused. -/
theorem C101_range (op : List Char) (q : Int) : (q < 0 ∨ (n : Int) ≤ q) → singleOpText op q n = .error .valueError := by
  intro h
  rw [singleOpText]
  split_ifs with a b c
  · rfl
  · rfl
  · omega
  · rfl

/-- Non-vacuity. -/
example : ∃ T', resetText ['-', 'X'] bellTab [(0, true), (1, false)] = .ok T' := by
  obtain ⟨T', h, _⟩ := C101_reset_partial (C05_reachable_valid [.gates [.h 0, .cx 0 1]] (by simp [Cmd.Ok, CGate.Ok]) bellTab rfl)
    (some true) (by simp) .X (by simp) [(0, true), (1, false)]
  exact ⟨T', h⟩

end Plaquette
