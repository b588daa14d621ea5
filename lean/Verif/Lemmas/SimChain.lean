import Verif.Lemmas.Sim

/-!
# Chains of conditional errors; the flags of the simulator
-/

namespace Plaquette
open Matrix
variable {F : Type} {n : Nat}

/-- The observable part of the simulator: state, results, erasures, number of random draws. -/
def Sim.core (S : Sim n) : Tab n × List Bool × List Bool × Nat := (S.tab, S.meas, S.erasure, S.pos)

/-- Overwrite the flags. -/
def Sim.withFlags (S : Sim n) (a b c : Bool) : Sim n := { S with inError := a, anyApplied := b, applyBranch := c }

section flags
variable (a b c : Bool)

theorem oneQubit_flags (S : Sim n) (G : Fin n → CGate n) (args : List (Val F)) :
    (S.withFlags a b c).oneQubit G args = (S.oneQubit G args).map (·.withFlags a b c) := by
  unfold Sim.oneQubit; cases qubitsOf n args <;> rfl

theorem twoQubit_flags (S : Sim n) (G : Fin n → Fin n → CGate n) (args : List (Val F)) :
    (S.withFlags a b c).twoQubit G args = (S.twoQubit G args).map (·.withFlags a b c) := by
  unfold Sim.twoQubit
  split
  · rfl
  · cases qubitsOf n (evens args) with
    | error e => rfl
    | ok cs => cases qubitsOf n (odds args) <;> rfl

theorem measureAll_flags (rng : Rng F) (S : Sim n) (qs : List (Fin n)) :
    (S.withFlags a b c).measureAll rng qs = (S.measureAll rng qs).map (·.withFlags a b c) := by
  induction qs generalizing S with
  | nil => rfl
  | cons q qs ih =>
    rw [Sim.measureAll, Sim.measureAll, Sim.measureZ, Sim.measureZ]
    simp only [Sim.withFlags]
    cases measure S.tab (singleOp false .Z q) none (rng.bit S.pos) with
    | error e => rfl
    | ok r => exact ih { S with
        tab := r.1, meas := S.meas ++ [r.2],
        pos := if nonzero S.tab.s (singleOp false Letter.Z q) = [] then S.pos else S.pos + 1 }

theorem resetAll_flags (rng : Rng F) (S : Sim n) (qs : List (Fin n)) :
    (S.withFlags a b c).resetAll rng qs = (S.resetAll rng qs).map (·.withFlags a b c) := by
  induction qs generalizing S with
  | nil => rfl
  | cons q qs ih =>
    rw [Sim.resetAll, Sim.resetAll]
    simp only [Sim.withFlags]
    cases resetOne false .Z S.tab q (rng.bit S.pos) with
    | error e => rfl
    | ok r => exact ih { S with
        tab := r, pos := if nonzero S.tab.s (singleOp false Letter.Z q) = [] then S.pos else S.pos + 1 }

theorem applyPauli_flags (S : Sim n) (q : Fin n) (k : Nat) :
    (S.withFlags a b c).applyPauli q k = (S.applyPauli q k).map (·.withFlags a b c) := by
  unfold Sim.applyPauli
  split <;> rfl

theorem depolarize_flags (rng : Rng F) (S : Sim n) (qs : List (Fin n)) :
    (S.withFlags a b c).depolarize rng qs = (S.depolarize rng qs).map (·.withFlags a b c) := by
  induction qs generalizing S with
  | nil => rfl
  | cons q qs ih =>
    rw [Sim.depolarize, Sim.depolarize]
    have := applyPauli_flags a b c { S with pos := S.pos + 1 } q (1 + (rng.int3 S.pos).val)
    simp only [Sim.withFlags] at this ⊢
    rw [this]
    cases ({ S with pos := S.pos + 1 } : Sim n).applyPauli q (1 + (rng.int3 S.pos).val) with
    | error e => rfl
    | ok r => exact ih _

theorem handleGate_flags (api : FloatApi F) (rng : Rng F) (S : Sim n) (name : Name) (args : List (Val F)) :
    (S.withFlags a b c).handleGate api rng name args = (S.handleGate api rng name args).map (·.withFlags a b c) := by
  unfold Sim.handleGate
  cases name <;> simp only
  case X | Y | Z | H => exact oneQubit_flags a b c S _ args
  case CX | CZ => exact twoQubit_flags a b c S _ args
  case M =>
    cases qubitsOf n args with
    | error e => rfl
    | ok qs => exact measureAll_flags a b c rng S qs
  case R =>
    cases qubitsOf n args with
    | error e => rfl
    | ok qs => exact resetAll_flags a b c rng S qs
  case DEPOLARIZE =>
    cases qubitsOf n args with
    | error e => rfl
    | ok qs => exact depolarize_flags a b c rng S qs
  case E_ERASE =>
    rcases args with _ | ⟨v, _ | ⟨qv, _ | ⟨w, rest⟩⟩⟩
    · rfl
    · rfl
    · simp only [Sim.withFlags]
      cases numOf api v with
      | error e => rfl
      | ok p =>
        simp only
        by_cases hb : rng.below S.pos p = true
        · simp only [hb, if_true]
          cases qubitOf n qv with
          | error e => rfl
          | ok q => exact applyPauli_flags a b c { S with erasure := S.erasure ++ [true], pos := S.pos + 1 + 1 } q _
        · simp only [hb]; rfl
    · rfl
  case E_PAULI =>
    simp only [Sim.withFlags]
    cases numsOf api (args.take 3) with
    | error e => rfl
    | ok ps =>
      cases argAt args 3 with
      | error e => rfl
      | ok qv =>
        simp only
        cases rng.choice4 S.pos ps with
        | none => rfl
        | some k =>
          cases qubitOf n qv with
          | error e => rfl
          | ok q => exact applyPauli_flags a b c { S with pos := S.pos + 1 } q _
  case E_PAULI2 =>
    simp only [Sim.withFlags]
    cases numsOf api (args.take 15) with
    | error e => rfl
    | ok ps =>
      simp only
      split
      · rfl
      · cases rng.choice16 S.pos ps with
        | none => rfl
        | some k =>
          cases argAt (args.drop 15) 0 with
          | error e => rfl
          | ok qv1 =>
            simp only
            cases qubitOf n qv1 with
            | error e => rfl
            | ok q1 =>
              simp only
              have h1 := applyPauli_flags a b c { S with pos := S.pos + 1 } q1 (k.val / 4)
              simp only [Sim.withFlags] at h1
              rw [h1]
              cases ({ S with pos := S.pos + 1 } : Sim n).applyPauli q1 (k.val / 4) with
              | error e => rfl
              | ok S1 =>
                simp only [Except.map]
                cases argAt (args.drop 15) 1 with
                | error e => rfl
                | ok qv2 =>
                  simp only
                  cases qubitOf n qv2 with
                  | error e => rfl
                  | ok q2 => exact applyPauli_flags a b c S1 q2 _
  all_goals rfl

end flags

theorem withFlags_self (S : Sim n) : S.withFlags S.inError S.anyApplied S.applyBranch = S := rfl

/-- An unconditional instruction does not change the flags. -/
theorem handleGate_keeps {api : FloatApi F} {rng : Rng F} {S S' : Sim n} {name : Name} {args : List (Val F)}
    (h : S.handleGate api rng name args = .ok S') :
    S'.inError = S.inError ∧ S'.anyApplied = S.anyApplied ∧ S'.applyBranch = S.applyBranch := by
  have := handleGate_flags S.inError S.anyApplied S.applyBranch api rng S name args
  rw [withFlags_self, h] at this
  simp only [Except.map, Except.ok.injEq] at this
  rw [this]
  exact ⟨rfl, rfl, rfl⟩

/-- Unconditional execution of a list of gates. -/
def Sim.runSeq (api : FloatApi F) (rng : Rng F) : Sim n → List (Name × List (Val F)) → Except Err (Sim n)
  | S, [] => .ok S
  | S, g :: gs =>
    match S.handleGate api rng g.1 g.2 with
    | .error e => .error e
    | .ok S' => S'.runSeq api rng gs

/-- Execution of a chain as it should be: try the alternatives in order, one draw each; execute the first that is drawn. -/
def Sim.runAlts (api : FloatApi F) (rng : Rng F) : Sim n → List (Alt F) → Except Err (Sim n)
  | S, [] => .ok S
  | S, a :: as =>
    if rng.below S.pos a.p then ({ S with pos := S.pos + 1 } : Sim n).runSeq api rng a.gates
    else ({ S with pos := S.pos + 1 } : Sim n).runAlts api rng as

theorem runGates_append (api : FloatApi F) (rng : Rng F) (S : Sim n) (c c' : List (Gate F)) :
    S.runGates api rng (c ++ c') = (S.runGates api rng c).bind fun S' => S'.runGates api rng c' := by
  induction c generalizing S with
  | nil => rfl
  | cons g c ih =>
    rw [List.cons_append, Sim.runGates, Sim.runGates]
    cases S.runGate api rng g with
    | error e => rfl
    | ok S' => exact ih S'

theorem runSeq_flags (a b c : Bool) (api : FloatApi F) (rng : Rng F) (S : Sim n) (gs : List (Name × List (Val F))) :
    (S.withFlags a b c).runSeq api rng gs = (S.runSeq api rng gs).map (·.withFlags a b c) := by
  induction gs generalizing S with
  | nil => rfl
  | cons g gs ih =>
    rw [Sim.runSeq, Sim.runSeq, handleGate_flags]
    cases S.handleGate api rng g.1 g.2 with
    | error e => rfl
    | ok S' => exact ih S'

/-- Continuations of an alternative. -/
def contInstrs (gs : List (Name × List (Val F))) : List (Gate F) :=
  gs.map fun g => { name := .ERROR_CONTINUE, args := .name g.1 :: g.2 }

theorem runGates_conts_on (api : FloatApi F) (rng : Rng F) (S : Sim n) (h1 : S.inError = true)
    (h2 : S.applyBranch = true) (gs : List (Name × List (Val F))) :
    S.runGates api rng (contInstrs gs) = S.runSeq api rng gs := by
  induction gs generalizing S with
  | nil => rfl
  | cons g gs ih =>
    unfold contInstrs at *
    rw [List.map_cons, Sim.runGates, Sim.runSeq]
    have : S.runGate api rng { name := .ERROR_CONTINUE, args := .name g.1 :: g.2 } = S.handleGate api rng g.1 g.2 := by
      simp [Sim.runGate, Name.isError, Sim.handleError, h1, h2, Sim.nested]
    rw [this]
    cases hg : S.handleGate api rng g.1 g.2 with
    | error e => rfl
    | ok S' =>
      obtain ⟨k1, k2, k3⟩ := handleGate_keeps hg
      exact ih S' (k1.trans h1) (k3.trans h2)

theorem runGates_conts_off (api : FloatApi F) (rng : Rng F) (S : Sim n) (h1 : S.inError = true)
    (h2 : S.applyBranch = false) (gs : List (Name × List (Val F))) :
    S.runGates api rng (contInstrs gs) = .ok S := by
  induction gs with
  | nil => rfl
  | cons g gs ih =>
    unfold contInstrs at *
    rw [List.map_cons, Sim.runGates]
    have : S.runGate api rng { name := .ERROR_CONTINUE, args := .name g.1 :: g.2 } = .ok S := by
      simp [Sim.runGate, Name.isError, Sim.handleError, h1, h2]
    rw [this]
    exact ih

theorem runSeq_keeps {api : FloatApi F} {rng : Rng F} {S S' : Sim n} {gs : List (Name × List (Val F))}
    (h : S.runSeq api rng gs = .ok S') :
    S'.inError = S.inError ∧ S'.anyApplied = S.anyApplied ∧ S'.applyBranch = S.applyBranch := by
  induction gs generalizing S with
  | nil => simp only [Sim.runSeq, Except.ok.injEq] at h; subst h; exact ⟨rfl, rfl, rfl⟩
  | cons g gs ih =>
    rw [Sim.runSeq] at h
    cases hg : S.handleGate api rng g.1 g.2 with
    | error e => simp [hg] at h
    | ok S1 =>
      simp only [hg] at h
      obtain ⟨a1, a2, a3⟩ := handleGate_keeps hg
      obtain ⟨b1, b2, b3⟩ := ih h
      exact ⟨b1.trans a1, b2.trans a2, b3.trans a3⟩

theorem instrs_eq (kind : Name) (a : Alt F) : a.instrs kind =
    { name := kind, args := .flt a.p :: .name a.first.1 :: a.first.2 } :: contInstrs a.more := rfl

/-- An alternative that was drawn. -/
theorem runGates_hit (api : FloatApi F) (rng : Rng F) (S S1 : Sim n) (kind : Name) (a : Alt F)
    (hS1 : S1.inError = true ∧ S1.applyBranch = true)
    (h : S.runGate api rng { name := kind, args := .flt a.p :: .name a.first.1 :: a.first.2 } =
      S1.handleGate api rng a.first.1 a.first.2) :
    S.runGates api rng (a.instrs kind) = S1.runSeq api rng a.gates := by
  rw [instrs_eq, Sim.runGates, h, Alt.gates, Sim.runSeq]
  cases hg : S1.handleGate api rng a.first.1 a.first.2 with
  | error e => rfl
  | ok S' =>
    obtain ⟨k1, k2, k3⟩ := handleGate_keeps hg
    exact runGates_conts_on api rng S' (k1.trans hS1.1) (k3.trans hS1.2) a.more

/-- Alternatives after the one that was drawn are skipped. -/
theorem runGates_done (api : FloatApi F) (rng : Rng F) (S : Sim n) (h1 : S.inError = true) (h2 : S.anyApplied = true)
    (as : List (Alt F)) :
    ∃ b, S.runGates api rng (as.flatMap (Alt.instrs .ERROR_ELSE)) = .ok { S with applyBranch := b } := by
  induction as generalizing S with
  | nil => exact ⟨S.applyBranch, rfl⟩
  | cons a as ih =>
    rw [List.flatMap_cons, runGates_append]
    have : S.runGates api rng (a.instrs .ERROR_ELSE) = .ok { S with applyBranch := false } := by
      rw [instrs_eq, Sim.runGates]
      have : S.runGate api rng { name := .ERROR_ELSE, args := .flt a.p :: .name a.first.1 :: a.first.2 } =
          .ok { S with applyBranch := false } := by
        simp [Sim.runGate, Name.isError, Sim.handleError, h1, h2]
      rw [this]
      exact runGates_conts_off api rng { S with applyBranch := false } h1 rfl _
    rw [this]
    exact ih { S with applyBranch := false } h1 h2

/-- Changing flags of a successful or failed result. -/
def sameCore (r r' : Except Err (Sim n)) : Prop := r.map Sim.core = r'.map Sim.core

theorem sameCore_refl (r : Except Err (Sim n)) : sameCore r r := rfl

/-- The alternatives of a chain while none has been drawn. -/
theorem runGates_waiting (api : FloatApi F) (rng : Rng F) (S : Sim n) (h1 : S.inError = true)
    (h2 : S.anyApplied = false) (h3 : S.applyBranch = false) (as : List (Alt F)) :
    sameCore (S.runGates api rng (as.flatMap (Alt.instrs .ERROR_ELSE))) (S.runAlts api rng as) := by
  induction as generalizing S with
  | nil => rfl
  | cons a as ih =>
    rw [List.flatMap_cons, runGates_append, Sim.runAlts]
    cases hb : rng.below S.pos a.p with
    | true =>
      simp only [if_true]
      have hh := runGates_hit api rng S (({ S with pos := S.pos + 1 } : Sim n).withFlags true true true) .ERROR_ELSE a
        ⟨rfl, rfl⟩ (by simp [Sim.runGate, Name.isError, Sim.handleError, h1, h2, hb, numOf, Sim.nested, Sim.withFlags])
      rw [hh, runSeq_flags]
      cases hr : ({ S with pos := S.pos + 1 } : Sim n).runSeq api rng a.gates with
      | error e => rfl
      | ok S' =>
        obtain ⟨b, hb⟩ := runGates_done api rng (S'.withFlags true true true) rfl rfl as
        show sameCore (Sim.runGates api rng (S'.withFlags true true true) _) _
        rw [hb]
        rfl
    | false =>
      simp only [Bool.false_eq_true, if_false]
      have : S.runGates api rng (a.instrs .ERROR_ELSE) = .ok { S with pos := S.pos + 1 } := by
        rw [instrs_eq, Sim.runGates]
        have : S.runGate api rng { name := .ERROR_ELSE, args := .flt a.p :: .name a.first.1 :: a.first.2 } =
            .ok { S with pos := S.pos + 1 } := by
          simp [Sim.runGate, Name.isError, Sim.handleError, h1, h2, hb, numOf]
        rw [this]
        exact runGates_conts_off api rng { S with pos := S.pos + 1 } h1 h3 _
      rw [this]
      exact ih _ h1 h2 h3

/-- A whole chain. -/
theorem runGates_chain (api : FloatApi F) (rng : Rng F) (S : Sim n) (a : Alt F) (as : List (Alt F)) :
    sameCore (S.runGates api rng (chainInstrs a as)) (S.runAlts api rng (a :: as)) := by
  rw [chainInstrs, runGates_append, Sim.runAlts]
  cases hb : rng.below S.pos a.p with
  | true =>
    simp only [if_true]
    have hh := runGates_hit api rng S (({ S with pos := S.pos + 1 } : Sim n).withFlags true true true) .ERROR a
      ⟨rfl, rfl⟩ (by simp [Sim.runGate, Name.isError, Sim.handleError, hb, numOf, Sim.nested, Sim.withFlags])
    rw [hh, runSeq_flags]
    cases hr : ({ S with pos := S.pos + 1 } : Sim n).runSeq api rng a.gates with
    | error e => rfl
    | ok S' =>
      obtain ⟨b, hb⟩ := runGates_done api rng (S'.withFlags true true true) rfl rfl as
      show sameCore (Sim.runGates api rng (S'.withFlags true true true) _) _
      rw [hb]
      rfl
  | false =>
    simp only [Bool.false_eq_true, if_false]
    have : S.runGates api rng (a.instrs .ERROR) =
        .ok (({ S with pos := S.pos + 1 } : Sim n).withFlags true false false) := by
      rw [instrs_eq, Sim.runGates]
      have : S.runGate api rng { name := .ERROR, args := .flt a.p :: .name a.first.1 :: a.first.2 } =
          .ok (({ S with pos := S.pos + 1 } : Sim n).withFlags true false false) := by
        simp [Sim.runGate, Name.isError, Sim.handleError, hb, numOf, Sim.withFlags]
      rw [this]
      exact runGates_conts_off api rng _ rfl rfl _
    rw [this]
    have h := runGates_waiting api rng (({ S with pos := S.pos + 1 } : Sim n).withFlags true false false) rfl rfl rfl as
    refine h.trans ?_
    -- the flags do not matter for `runAlts`
    generalize ({ S with pos := S.pos + 1 } : Sim n) = S1
    clear h this hb
    have key : ∀ (S1 : Sim n), sameCore ((S1.withFlags true false false).runAlts api rng as) (S1.runAlts api rng as) := by
      intro S1
      induction as generalizing S1 with
      | nil => rfl
      | cons a' as ih =>
        rw [Sim.runAlts, Sim.runAlts]
        have e : (S1.withFlags true false false).pos = S1.pos := rfl
        rw [e]
        split
        · have := runSeq_flags true false false api rng { S1 with pos := S1.pos + 1 } a'.gates
          simp only [Sim.withFlags] at this ⊢
          rw [this]
          cases ({ S1 with pos := S1.pos + 1 } : Sim n).runSeq api rng a'.gates <;> rfl
        · exact ih { S1 with pos := S1.pos + 1 }
    exact key S1

/-- The flags matter only inside an error block. -/
def FlagsAgree (S S' : Sim n) : Prop :=
  S.core = S'.core ∧ S.inError = S'.inError ∧
    (S.inError = true → S.anyApplied = S'.anyApplied ∧ S.applyBranch = S'.applyBranch)

theorem eq_withFlags {S S' : Sim n} (h : S.core = S'.core) : S' = S.withFlags S'.inError S'.anyApplied S'.applyBranch := by
  obtain ⟨t, m, e, a, b, c, p⟩ := S
  obtain ⟨t', m', e', a', b', c', p'⟩ := S'
  simp only [Sim.core, Prod.mk.injEq] at h
  obtain ⟨rfl, rfl, rfl, rfl⟩ := h
  rfl

/-- Does the instruction belong to a chain that has started before it? -/
def Name.continues : Name → Bool
  | .ERROR_ELSE | .ERROR_CONTINUE => true
  | _ => false

/-- Both fail in the same way or both succeed with agreeing states. -/
def Agree (r r' : Except Err (Sim n)) : Prop :=
  match r, r' with
  | .ok S, .ok S' => FlagsAgree S S'
  | .error e, .error e' => e = e'
  | _, _ => False

theorem nested_flags (a b c : Bool) (api : FloatApi F) (rng : Rng F) (S : Sim n) (args : List (Val F)) :
    (S.withFlags a b c).nested api rng args = (S.nested api rng args).map (·.withFlags a b c) := by
  unfold Sim.nested
  rcases args with _ | ⟨v, rest⟩
  · rfl
  · cases v with
    | name m => exact handleGate_flags a b c api rng S m rest
    | int i => rfl
    | flt f => rfl

theorem nested_keeps {api : FloatApi F} {rng : Rng F} {S S' : Sim n} {args : List (Val F)}
    (h : S.nested api rng args = .ok S') :
    S'.inError = S.inError ∧ S'.anyApplied = S.anyApplied ∧ S'.applyBranch = S.applyBranch := by
  have := nested_flags S.inError S.anyApplied S.applyBranch api rng S args
  rw [withFlags_self, h] at this
  simp only [Except.map, Except.ok.injEq] at this
  rw [this]
  exact ⟨rfl, rfl, rfl⟩

theorem agree_refl (r : Except Err (Sim n)) : Agree r r := by
  cases r with
  | error e => rfl
  | ok S => exact ⟨rfl, rfl, fun _ => ⟨rfl, rfl⟩⟩

/-- An instruction that does not continue a chain makes the flags agree. -/
theorem runGate_start (api : FloatApi F) (rng : Rng F) {S S' : Sim n} (h : S.core = S'.core) (g : Gate F)
    (hg : g.name.continues = false) : Agree (S.runGate api rng g) (S'.runGate api rng g) := by
  rw [eq_withFlags h]
  obtain ⟨name, args⟩ := g
  unfold Sim.runGate
  by_cases he : name.isError = true
  · have hn : name = .ERROR := by cases name <;> simp_all [Name.isError, Name.continues]
    subst hn
    simp only [he, if_true]
    unfold Sim.handleError
    simp only [Sim.withFlags]
    rcases args with _ | ⟨v, rest⟩
    · exact agree_refl _
    · cases hv : numOf api v with
      | error e => simp only; exact agree_refl _
      | ok p => simp only; split <;> exact agree_refl _
  · simp only [he]
    have h1 := handleGate_flags false S.anyApplied S.applyBranch api rng S name args
    have h2 := handleGate_flags false S'.anyApplied S'.applyBranch api rng S name args
    simp only [Sim.withFlags] at h1 h2 ⊢
    simp only [Bool.false_eq_true, if_false]
    rw [h1, h2]
    cases S.handleGate api rng name args with
    | error e => rfl
    | ok S1 => exact ⟨rfl, rfl, fun h => by cases h⟩

theorem runGate_agree (api : FloatApi F) (rng : Rng F) {S S' : Sim n} (h : FlagsAgree S S') (g : Gate F) :
    Agree (S.runGate api rng g) (S'.runGate api rng g) := by
  by_cases hc : g.name.continues = false
  · exact runGate_start api rng h.1 g hc
  · by_cases hi : S.inError = true
    · have : S = S' := by
        obtain ⟨h1, h2, h3⟩ := h
        rw [eq_withFlags h1, ← h2, ← (h3 hi).1, ← (h3 hi).2]
        rfl
      rw [this]; exact agree_refl _
    · have hi : S.inError = false := by simpa using hi
      have hi' : S'.inError = false := h.2.1 ▸ hi
      obtain ⟨name, args⟩ := g
      cases name <;> simp [Name.continues] at hc
      · simp [Sim.runGate, Name.isError, Sim.handleError, hi, hi']; exact agree_refl _
      · simp [Sim.runGate, Name.isError, Sim.handleError, hi, hi']; exact agree_refl _

theorem runGates_agree (api : FloatApi F) (rng : Rng F) {S S' : Sim n} (h : FlagsAgree S S') (gs : List (Gate F)) :
    Agree (S.runGates api rng gs) (S'.runGates api rng gs) := by
  induction gs generalizing S S' with
  | nil => exact h
  | cons g gs ih =>
    rw [Sim.runGates, Sim.runGates]
    have := runGate_agree api rng h g
    cases h1 : S.runGate api rng g with
    | error e =>
      cases h2 : S'.runGate api rng g with
      | error e' => rw [h1, h2] at this; exact this
      | ok S2 => rw [h1, h2] at this; exact this.elim
    | ok S1 =>
      cases h2 : S'.runGate api rng g with
      | error e' => rw [h1, h2] at this; exact this.elim
      | ok S2 => rw [h1, h2] at this; exact ih this

/-- The circuit does not begin in the middle of a chain. -/
def StartsFresh (gs : List (Gate F)) : Prop := ∀ g, gs.head? = some g → g.name.continues = false

theorem runGates_start (api : FloatApi F) (rng : Rng F) {S S' : Sim n} (h : S.core = S'.core) (gs : List (Gate F))
    (hg : StartsFresh gs) : sameCore (S.runGates api rng gs) (S'.runGates api rng gs) := by
  have key : ∀ r r' : Except Err (Sim n), Agree r r' → sameCore r r' := by
    intro r r' hr
    cases r with
    | error e => cases r' with
      | error e' => rw [show e = e' from hr]; rfl
      | ok S => exact hr.elim
    | ok S => cases r' with
      | error e' => exact hr.elim
      | ok S' => exact congrArg Except.ok hr.1
  cases gs with
  | nil => exact congrArg Except.ok h
  | cons g gs =>
    rw [Sim.runGates, Sim.runGates]
    have := runGate_start api rng h g (hg g rfl)
    cases h1 : S.runGate api rng g with
    | error e =>
      cases h2 : S'.runGate api rng g with
      | error e' => rw [h1, h2] at this; rw [show e = e' from this]; rfl
      | ok S2 => rw [h1, h2] at this; exact this.elim
    | ok S1 =>
      cases h2 : S'.runGate api rng g with
      | error e' => rw [h1, h2] at this; exact this.elim
      | ok S2 => rw [h1, h2] at this; exact key _ _ (runGates_agree api rng this gs)

end Plaquette
