import Verif.Lemmas.PauliRun
import Verif.Lemmas.NoisyGen
import Verif.Spec.GateFaults

/-!
# The instructions of a run and the errors they apply
-/

namespace Plaquette
variable {F : Type} {n : Nat} {api : FloatApi F} {rng : Rng F}

/-- The steps of instructions. -/
def trSteps (tr : List (Kicked1 F)) : List FStep := tr.flatMap fun p => if p.1.name.noisy then kickSteps p.2 else plainSteps p.1.name p.1.args

theorem frameSteps_trace (S : Sim n) (c : List (Gate F)) : S.frameSteps api rng c = trSteps (S.trace api rng c) := by
  induction c generalizing S with
  | nil => rfl
  | cons g c ih =>
    unfold Sim.frameSteps Sim.trace trSteps
    rw [List.flatMap_cons]
    congr 1
    cases h : S.runGate api rng g with
    | error e => rfl
    | ok S' => exact ih S'

theorem trace_fst {S S' : Sim n} {c : List (Gate F)} (h : S.runGates api rng c = .ok S') : (S.trace api rng c).map Prod.fst = c := by
  induction c generalizing S with
  | nil => rfl
  | cons g c ih =>
    obtain ⟨S1, h1, h2⟩ := runGates_cons h
    rw [Sim.trace, h1]
    simp only [List.map_cons, ih h2]

/-- The errors of the instructions of generated circuits. -/
inductive KickOk : Gate F → List (Nat × Fin 4) → Prop
  | plain (g : Gate F) (h : g.name.noisy = false) : KickOk g []
  | pauli (a b c : Val F) (q : Nat) (j : Fin 4) : KickOk ⟨.E_PAULI, [a, b, c, .int q]⟩ [(q, j)]
  | two (g : Gate F) (l : List (Val F)) (q1 q2 : Nat) (j1 j2 : Fin 4) (hl : l.length = 15) (hg : g = ⟨.E_PAULI2, l ++ [.int q1, .int q2]⟩) : KickOk g [(q1, j1), (q2, j2)]
  | erase (v : Val F) (q : Nat) (j : Fin 4) : KickOk ⟨.E_ERASE, [v, .int q]⟩ [(q, j)]
  | keep (v : Val F) (q : Nat) : KickOk ⟨.E_ERASE, [v, .int q]⟩ []
  | flip (v : Val F) (q : Nat) : KickOk ⟨.ERROR, [v, .name .X, .int q]⟩ [(q, 1)]
  | noFlip (v : Val F) (q : Nat) : KickOk ⟨.ERROR, [v, .name .X, .int q]⟩ []

/-- The forms of the instructions of generated circuits. -/
inductive GateForm : Gate F → Prop
  | plain (g : Gate F) (h : g.name.noisy = false) : GateForm g
  | pauli (a b c : Val F) (q : Nat) : GateForm ⟨.E_PAULI, [a, b, c, .int q]⟩
  | two (g : Gate F) (l : List (Val F)) (q1 q2 : Nat) (hl : l.length = 15) (hg : g = ⟨.E_PAULI2, l ++ [.int q1, .int q2]⟩) : GateForm g
  | erase (v : Val F) (q : Nat) : GateForm ⟨.E_ERASE, [v, .int q]⟩
  | flip (v : Val F) (q : Nat) : GateForm ⟨.ERROR, [v, .name .X, .int q]⟩

theorem GateForm.errors {g : Gate F} (h : GateForm g) : g.PauliErrors := by
  cases h with
  | plain g h =>
    obtain ⟨nm, args⟩ := g
    unfold Gate.PauliErrors
    cases nm <;> first | trivial | cases h
  | pauli => trivial
  | two g l q1 q2 hl hg => subst hg; trivial
  | erase => trivial
  | flip => rfl

/-- The flags of losses. -/
def trLoss (tr : List (Kicked1 F)) : List Bool := tr.flatMap fun p => if p.1.name = .E_ERASE then [!p.2.isEmpty] else []

theorem gates_erasure (S : Sim n) (Gs : List (CGate n)) : (S.gates Gs).erasure = S.erasure := rfl

theorem oneQubit_erasure {S S' : Sim n} {G : Fin n → CGate n} {args : List (Val F)} (h : S.oneQubit G args = .ok S') : S'.erasure = S.erasure := by
  unfold Sim.oneQubit at h
  split at h
  · cases h
  · cases h; rfl

theorem twoQubit_erasure {S S' : Sim n} {G : Fin n → Fin n → CGate n} {args : List (Val F)} (h : S.twoQubit G args = .ok S') : S'.erasure = S.erasure := by
  unfold Sim.twoQubit at h
  split at h
  · cases h
  · split at h <;> cases h
    rfl

theorem measureAll_erasure {S S' : Sim n} {qs : List (Fin n)} (h : S.measureAll rng qs = .ok S') : S'.erasure = S.erasure := by
  induction qs generalizing S with
  | nil => cases h; rfl
  | cons q qs ih =>
    unfold Sim.measureAll at h
    split at h
    · cases h
    · next S1 h1 =>
      rw [ih h]
      unfold Sim.measureZ at h1
      dsimp only at h1
      split at h1
      · cases h1
      · cases h1; rfl

theorem resetAll_erasure {S S' : Sim n} {qs : List (Fin n)} (h : S.resetAll rng qs = .ok S') : S'.erasure = S.erasure := by
  induction qs generalizing S with
  | nil => cases h; rfl
  | cons q qs ih =>
    unfold Sim.resetAll at h
    split at h
    · cases h
    · rw [ih h]

theorem applyPauli_erasure {S S' : Sim n} {q : Fin n} {k : Nat} (h : S.applyPauli q k = .ok S') : S'.erasure = S.erasure := by
  unfold Sim.applyPauli at h
  split at h <;> cases h <;> rfl

theorem qubitOf_nat {q : Nat} {k : Fin n} (h : qubitOf n (.int q : Val F) = .ok k) : k.val = q := qubitOf_val h

theorem form_step {S S' : Sim n} {g : Gate F} (hf : GateForm g) (h : S.runGate api rng g = .ok S') :
    KickOk g (S.kicks api rng g) ∧ S'.erasure = S.erasure ++ trLoss [(g, S.kicks api rng g)] := by
  cases hf with
  | plain g hn =>
    obtain ⟨nm, args⟩ := g
    unfold Sim.runGate at h
    cases nm with
    | X => exact ⟨.plain _ hn, by rw [oneQubit_erasure h]; simp [trLoss]⟩
    | Y => exact ⟨.plain _ hn, by rw [oneQubit_erasure h]; simp [trLoss]⟩
    | Z => exact ⟨.plain _ hn, by rw [oneQubit_erasure h]; simp [trLoss]⟩
    | H => exact ⟨.plain _ hn, by rw [oneQubit_erasure h]; simp [trLoss]⟩
    | CX => exact ⟨.plain _ hn, by rw [twoQubit_erasure h]; simp [trLoss]⟩
    | CZ => exact ⟨.plain _ hn, by rw [twoQubit_erasure h]; simp [trLoss]⟩
    | M =>
      refine ⟨.plain _ hn, ?_⟩
      change (match qubitsOf n args with
        | .error e => .error e
        | .ok qs => ({ S with inError := false } : Sim n).measureAll rng qs) = Except.ok S' at h
      split at h
      · cases h
      · rw [measureAll_erasure h]; simp [trLoss]
    | R =>
      refine ⟨.plain _ hn, ?_⟩
      change (match qubitsOf n args with
        | .error e => .error e
        | .ok qs => ({ S with inError := false } : Sim n).resetAll rng qs) = Except.ok S' at h
      split at h
      · cases h
      · rw [resetAll_erasure h]; simp [trLoss]
    | _ => cases hn
  | pauli a b c q =>
    unfold Sim.runGate at h
    change ({ S with inError := false } : Sim n).handleGate api rng .E_PAULI [a, b, c, .int q] = .ok S' at h
    unfold Sim.handleGate at h
    dsimp only at h
    have ek : S.kicks api rng ⟨.E_PAULI, [a, b, c, .int q]⟩ = kicksOf api rng S.pos .E_PAULI [a, b, c, .int q] := rfl
    rw [ek]
    unfold kicksOf
    dsimp only
    change (match numsOf api [a, b, c] with | .error e => _ | .ok ps => _) = _ at h
    show KickOk _ (match numsOf api [a, b, c], (some (.int q) : Option (Val F)) with | .ok ps, some (.int q) => _ | _, _ => _) ∧ _ = _ ++ trLoss [(_, match numsOf api [a, b, c], (some (.int q) : Option (Val F)) with | .ok ps, some (.int q) => _ | _, _ => _)]
    split at h
    · cases h
    · next ps hps =>
      rw [hps]
      dsimp only
      change (match rng.choice4 S.pos ps with | none => _ | some sample => _) = _ at h
      split at h
      · cases h
      · next k hk =>
        rw [hk]
        dsimp only
        split at h
        · cases h
        · refine ⟨.pauli _ _ _ _ _, ?_⟩
          rw [applyPauli_erasure h]
          simp [trLoss]
  | two g l q1 q2 hl hg =>
    subst hg
    unfold Sim.runGate at h
    change ({ S with inError := false } : Sim n).handleGate api rng .E_PAULI2 (l ++ [.int q1, .int q2]) = .ok S' at h
    have ek : S.kicks api rng ⟨.E_PAULI2, l ++ [.int q1, .int q2]⟩ = kicksOf api rng S.pos .E_PAULI2 (l ++ [.int q1, .int q2]) := rfl
    have e1 : (l ++ [(.int q1 : Val F), .int q2]).take 15 = l := by rw [← hl, List.take_left']; rfl
    have e2 : (l ++ [(.int q1 : Val F), .int q2])[15]? = some (.int q1) := by rw [List.getElem?_append_right (by omega), hl]; rfl
    have e3 : (l ++ [(.int q1 : Val F), .int q2])[16]? = some (.int q2) := by rw [List.getElem?_append_right (by omega), hl]; rfl
    unfold Sim.handleGate at h
    rw [ek]
    unfold kicksOf
    dsimp only at h ⊢
    rw [e1] at h
    rw [e1, e2, e3]
    split at h
    · cases h
    · next ps hps =>
      rw [hps]
      dsimp only
      split at h
      · cases h
      · split at h
        · cases h
        · next k hk =>
          rw [hk]
          dsimp only
          refine ⟨.two _ l _ _ _ _ hl rfl, ?_⟩
          split at h
          · cases h
          · split at h
            · cases h
            · split at h
              · cases h
              · next S1 hS1 =>
                split at h
                · cases h
                · split at h
                  · cases h
                  · rw [applyPauli_erasure h, applyPauli_erasure hS1]
                    simp [trLoss]
  | erase v q =>
    unfold Sim.runGate at h
    change ({ S with inError := false } : Sim n).handleGate api rng .E_ERASE [v, .int q] = .ok S' at h
    have ek : S.kicks api rng ⟨.E_ERASE, [v, .int q]⟩ = kicksOf api rng S.pos .E_ERASE [v, .int q] := rfl
    unfold Sim.handleGate at h
    rw [ek]
    unfold kicksOf
    dsimp only at h ⊢
    split at h
    · cases h
    · next p hp =>
      rw [hp]
      dsimp only at h ⊢
      split at h
      · next hb =>
        rw [if_pos hb]
        split at h
        · cases h
        · refine ⟨.erase _ _ _, ?_⟩
          rw [applyPauli_erasure h]
          simp [trLoss, hb]
      · next hb =>
        rw [if_neg hb]
        cases h
        refine ⟨.keep _ _, ?_⟩
        simp [trLoss, hb]
  | flip v q =>
    unfold Sim.runGate at h
    change S.handleError api rng .ERROR [v, .name .X, .int q] = .ok S' at h
    unfold Sim.handleError at h
    unfold Sim.kicks
    dsimp only at h ⊢
    split at h
    · cases h
    · next p hp =>
      rw [hp]
      dsimp only
      split at h
      · next hb =>
        rw [if_pos (by exact hb)]
        refine ⟨.flip _ _, ?_⟩
        change Sim.oneQubit _ _ _ = _ at h
        rw [oneQubit_erasure h]
        simp [trLoss]
      · next hb =>
        rw [if_neg (by exact hb)]
        refine ⟨.noFlip _ _, ?_⟩
        cases h
        simp [trLoss]

/-- Instructions with errors of these forms. -/
structure Trace (gs : List (Gate F)) (tr : List (Kicked1 F)) : Prop where
  fst : tr.map Prod.fst = gs
  ok : ∀ p ∈ tr, KickOk p.1 p.2

theorem run_trace {S S' : Sim n} {c : List (Gate F)} (hf : ∀ g ∈ c, GateForm g) (h : S.runGates api rng c = .ok S') :
    Trace c (S.trace api rng c) ∧ S'.erasure = S.erasure ++ trLoss (S.trace api rng c) := by
  induction c generalizing S with
  | nil => cases h; exact ⟨⟨rfl, by simp [Sim.trace]⟩, by simp [Sim.trace, trLoss]⟩
  | cons g c ih =>
    obtain ⟨S1, h1, h2⟩ := runGates_cons h
    obtain ⟨a1, a2⟩ := form_step (hf g (by simp)) h1
    obtain ⟨b1, b2⟩ := ih (fun g hg => hf g (by simp [hg])) h2
    rw [Sim.trace, h1]
    dsimp only
    refine ⟨⟨by rw [List.map_cons, b1.fst], ?_⟩, ?_⟩
    · intro p hp
      rcases List.mem_cons.1 hp with rfl | hp
      · exact a1
      · exact b1.ok p hp
    · rw [b2, a2, List.append_assoc]
      congr 1
      unfold trLoss
      simp

theorem Trace.append {a b : List (Gate F)} {tr : List (Kicked1 F)} (h : Trace (a ++ b) tr) : ∃ ta tb, tr = ta ++ tb ∧ Trace a ta ∧ Trace b tb := by
  obtain ⟨ta, tb, rfl, h1, h2⟩ := List.map_eq_append_iff.1 h.fst
  exact ⟨ta, tb, rfl, ⟨h1, fun p hp => h.ok p (by simp [hp])⟩, ⟨h2, fun p hp => h.ok p (by simp [hp])⟩⟩

theorem Trace.nil {tr : List (Kicked1 F)} (h : Trace [] tr) : tr = [] := List.map_eq_nil_iff.1 h.fst

theorem Trace.cons {g : Gate F} {gs : List (Gate F)} {tr : List (Kicked1 F)} (h : Trace (g :: gs) tr) : ∃ k t, tr = (g, k) :: t ∧ KickOk g k ∧ Trace gs t := by
  obtain ⟨⟨g', k⟩, t, rfl, h1, h2⟩ := List.map_eq_cons_iff.1 h.fst
  obtain rfl : g' = g := h1
  exact ⟨k, t, rfl, h.ok (g', k) (by simp), ⟨h2, fun p hp => h.ok p (by simp [hp])⟩⟩

theorem trSteps_append (a b : List (Kicked1 F)) : trSteps (a ++ b) = trSteps a ++ trSteps b := List.flatMap_append ..
theorem trLoss_append (a b : List (Kicked1 F)) : trLoss (a ++ b) = trLoss a ++ trLoss b := List.flatMap_append ..

theorem faultWeight_append (d K : Nat) (a b : List (Kicked1 F)) : faultWeight d K (a ++ b) = faultWeight d K a + faultWeight d K b := by
  unfold faultWeight
  simp only [List.countP_append, Nat.mul_add]
  omega

theorem lossCount_append (a b : List (Kicked1 F)) : lossCount (a ++ b) = lossCount a + lossCount b := List.countP_append ..

theorem lossCount_eq (tr : List (Kicked1 F)) : lossCount tr = (trLoss tr).countP id := by
  induction tr with
  | nil => rfl
  | cons p tr ih =>
    have e : trLoss (p :: tr) = (if p.1.name = .E_ERASE then [!p.2.isEmpty] else []) ++ trLoss tr := List.flatMap_cons ..
    rw [e, List.countP_append, ← ih]
    unfold lossCount
    rw [List.countP_cons]
    unfold lossFault
    by_cases h : p.1.name = .E_ERASE
    · simp only [h, if_true, decide_true, Bool.and_true]
      cases p.2.isEmpty <;> simp [Nat.add_comm]
    · simp [h]

end Plaquette
