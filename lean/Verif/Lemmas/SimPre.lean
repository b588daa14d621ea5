import Verif.Lemmas.SimChain

/-!
# Earlier results do not influence a run
-/

namespace Plaquette
variable {F : Type} {n : Nat}

/-- The simulator with earlier results and erasure flags. -/
def Sim.pre (S : Sim n) (m₀ e₀ : List Bool) : Sim n := { S with meas := m₀ ++ S.meas, erasure := e₀ ++ S.erasure }

section pre
variable (m₀ e₀ : List Bool)

theorem oneQubit_pre (S : Sim n) (G : Fin n → CGate n) (args : List (Val F)) :
    (S.pre m₀ e₀).oneQubit G args = (S.oneQubit G args).map (·.pre m₀ e₀) := by
  unfold Sim.oneQubit; cases qubitsOf n args <;> rfl

theorem twoQubit_pre (S : Sim n) (G : Fin n → Fin n → CGate n) (args : List (Val F)) :
    (S.pre m₀ e₀).twoQubit G args = (S.twoQubit G args).map (·.pre m₀ e₀) := by
  unfold Sim.twoQubit
  split
  · rfl
  · cases qubitsOf n (evens args) with
    | error e => rfl
    | ok cs => cases qubitsOf n (odds args) <;> rfl

theorem measureAll_pre (rng : Rng F) (S : Sim n) (qs : List (Fin n)) :
    (S.pre m₀ e₀).measureAll rng qs = (S.measureAll rng qs).map (·.pre m₀ e₀) := by
  induction qs generalizing S with
  | nil => rfl
  | cons q qs ih =>
    rw [Sim.measureAll, Sim.measureAll, Sim.measureZ, Sim.measureZ]
    simp only [Sim.pre]
    cases measure S.tab (singleOp false .Z q) none (rng.bit S.pos) with
    | error e => rfl
    | ok r =>
      simp only [List.append_assoc]
      exact ih { S with
        tab := r.1, meas := S.meas ++ [r.2],
        pos := if nonzero S.tab.s (singleOp false Letter.Z q) = [] then S.pos else S.pos + 1 }

theorem resetAll_pre (rng : Rng F) (S : Sim n) (qs : List (Fin n)) :
    (S.pre m₀ e₀).resetAll rng qs = (S.resetAll rng qs).map (·.pre m₀ e₀) := by
  induction qs generalizing S with
  | nil => rfl
  | cons q qs ih =>
    rw [Sim.resetAll, Sim.resetAll]
    simp only [Sim.pre]
    cases resetOne false .Z S.tab q (rng.bit S.pos) with
    | error e => rfl
    | ok r => exact ih { S with
        tab := r, pos := if nonzero S.tab.s (singleOp false Letter.Z q) = [] then S.pos else S.pos + 1 }

theorem applyPauli_pre (S : Sim n) (q : Fin n) (k : Nat) :
    (S.pre m₀ e₀).applyPauli q k = (S.applyPauli q k).map (·.pre m₀ e₀) := by
  unfold Sim.applyPauli
  split <;> rfl

theorem depolarize_pre (rng : Rng F) (S : Sim n) (qs : List (Fin n)) :
    (S.pre m₀ e₀).depolarize rng qs = (S.depolarize rng qs).map (·.pre m₀ e₀) := by
  induction qs generalizing S with
  | nil => rfl
  | cons q qs ih =>
    rw [Sim.depolarize, Sim.depolarize]
    have := applyPauli_pre m₀ e₀ { S with pos := S.pos + 1 } q (1 + (rng.int3 S.pos).val)
    simp only [Sim.pre] at this ⊢
    rw [this]
    cases ({ S with pos := S.pos + 1 } : Sim n).applyPauli q (1 + (rng.int3 S.pos).val) with
    | error e => rfl
    | ok r => exact ih _

theorem handleGate_pre (api : FloatApi F) (rng : Rng F) (S : Sim n) (name : Name) (args : List (Val F)) :
    (S.pre m₀ e₀).handleGate api rng name args = (S.handleGate api rng name args).map (·.pre m₀ e₀) := by
  unfold Sim.handleGate
  cases name <;> simp only
  case X | Y | Z | H => exact oneQubit_pre m₀ e₀ S _ args
  case CX | CZ => exact twoQubit_pre m₀ e₀ S _ args
  case M =>
    cases qubitsOf n args with
    | error e => rfl
    | ok qs => exact measureAll_pre m₀ e₀ rng S qs
  case R =>
    cases qubitsOf n args with
    | error e => rfl
    | ok qs => exact resetAll_pre m₀ e₀ rng S qs
  case DEPOLARIZE =>
    cases qubitsOf n args with
    | error e => rfl
    | ok qs => exact depolarize_pre m₀ e₀ rng S qs
  case E_ERASE =>
    rcases args with _ | ⟨v, _ | ⟨qv, _ | ⟨w, rest⟩⟩⟩
    · rfl
    · rfl
    · simp only [Sim.pre]
      cases numOf api v with
      | error e => rfl
      | ok p =>
        simp only
        by_cases hb : rng.below S.pos p = true
        · simp only [hb, if_true, List.append_assoc]
          cases qubitOf n qv with
          | error e => rfl
          | ok q => exact applyPauli_pre m₀ e₀ { S with erasure := S.erasure ++ [true], pos := S.pos + 1 + 1 } q _
        · simp only [hb, List.append_assoc]; rfl
    · rfl
  case E_PAULI =>
    simp only [Sim.pre]
    cases numsOf api (args.take 3) with
    | error e => rfl
    | ok ps =>
      cases argAt args 3 with
      | error e => rfl
      | ok qv =>
        simp only
        cases rng.choice4 S.pos ps with
        | none => rfl
        | some k =>
          cases qubitOf n qv with
          | error e => rfl
          | ok q => exact applyPauli_pre m₀ e₀ { S with pos := S.pos + 1 } q _
  case E_PAULI2 =>
    simp only [Sim.pre]
    cases numsOf api (args.take 15) with
    | error e => rfl
    | ok ps =>
      simp only
      split
      · rfl
      · cases rng.choice16 S.pos ps with
        | none => rfl
        | some k =>
          cases argAt (args.drop 15) 0 with
          | error e => rfl
          | ok qv1 =>
            simp only
            cases qubitOf n qv1 with
            | error e => rfl
            | ok q1 =>
              simp only
              have h1 := applyPauli_pre m₀ e₀ { S with pos := S.pos + 1 } q1 (k.val / 4)
              simp only [Sim.pre] at h1
              rw [h1]
              cases ({ S with pos := S.pos + 1 } : Sim n).applyPauli q1 (k.val / 4) with
              | error e => rfl
              | ok S1 =>
                simp only [Except.map]
                cases argAt (args.drop 15) 1 with
                | error e => rfl
                | ok qv2 =>
                  simp only
                  cases qubitOf n qv2 with
                  | error e => rfl
                  | ok q2 => exact applyPauli_pre m₀ e₀ S1 q2 _
  all_goals rfl

theorem nested_pre (api : FloatApi F) (rng : Rng F) (S : Sim n) (args : List (Val F)) :
    (S.pre m₀ e₀).nested api rng args = (S.nested api rng args).map (·.pre m₀ e₀) := by
  unfold Sim.nested
  rcases args with _ | ⟨v, rest⟩
  · rfl
  · cases v with
    | name m => exact handleGate_pre m₀ e₀ api rng S m rest
    | int i => rfl
    | flt f => rfl

theorem handleError_pre (api : FloatApi F) (rng : Rng F) (S : Sim n) (name : Name) (args : List (Val F)) :
    (S.pre m₀ e₀).handleError api rng name args = (S.handleError api rng name args).map (·.pre m₀ e₀) := by
  unfold Sim.handleError
  cases name <;> simp only [] <;> try rfl
  · rcases args with _ | ⟨v, rest⟩
    · rfl
    · simp only [Sim.pre]
      cases numOf api v with
      | error e => rfl
      | ok p =>
        simp only
        by_cases hb : rng.below S.pos p = true
        · simp only [hb, if_true]
          exact nested_pre m₀ e₀ api rng { S with inError := true, anyApplied := true, applyBranch := true, pos := S.pos + 1 } rest
        · simp only [hb]; rfl
  · simp only [Sim.pre]
    by_cases h1 : S.inError = true
    · simp only [h1]
      by_cases h2 : S.anyApplied = true
      · simp only [h2]; rfl
      · simp only [h2]
        rcases args with _ | ⟨v, rest⟩
        · rfl
        · simp only
          cases numOf api v with
          | error e => rfl
          | ok p =>
            simp only
            by_cases hb : rng.below S.pos p = true
            · simp only [hb, if_true]
              exact nested_pre m₀ e₀ api rng { S with inError := true, anyApplied := true, applyBranch := true, pos := S.pos + 1 } rest
            · simp only [hb]; rfl
    · simp only [h1]; rfl
  · have e1 : (S.pre m₀ e₀).inError = S.inError := rfl
    have e2 : (S.pre m₀ e₀).applyBranch = S.applyBranch := rfl
    rw [e1, e2]
    split
    · rfl
    · split
      · exact nested_pre m₀ e₀ api rng S args
      · rfl

theorem runGate_pre (api : FloatApi F) (rng : Rng F) (S : Sim n) (g : Gate F) :
    (S.pre m₀ e₀).runGate api rng g = (S.runGate api rng g).map (·.pre m₀ e₀) := by
  unfold Sim.runGate
  by_cases h : g.name.isError = true
  · simp only [h, if_true]
    exact handleError_pre m₀ e₀ api rng S g.name g.args
  · simp only [h]
    exact handleGate_pre m₀ e₀ api rng { S with inError := false } g.name g.args

/-- Earlier results stay in front of the new ones and do not influence them. -/
theorem runGates_pre (api : FloatApi F) (rng : Rng F) (S : Sim n) (gs : List (Gate F)) :
    (S.pre m₀ e₀).runGates api rng gs = (S.runGates api rng gs).map (·.pre m₀ e₀) := by
  induction gs generalizing S with
  | nil => rfl
  | cons g gs ih =>
    rw [Sim.runGates, Sim.runGates, runGate_pre]
    cases S.runGate api rng g with
    | error e => rfl
    | ok S' => exact ih S'

end pre

end Plaquette
