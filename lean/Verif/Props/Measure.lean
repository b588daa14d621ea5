import Verif.Lemmas.Reset
import Verif.Lemmas.Unique

/-!
# Properties C05-C10 and C50: tableau validity, measurement, reset
-/

namespace Plaquette
open Matrix Complex

variable {n : Nat}

/-- One call of the tableau API: gates on a list of targets, a measurement (with an optional forced outcome and
the bit the random generator would return) or a reset of a list of qubits (with the random bits). -/
inductive Cmd (n : Nat)
  | gates (Gs : List (CGate n))
  | measure (m : Op n) (forced : Option Int) (draw : Bool)
  | reset (neg : Bool) (l : Letter) (qs : List (Fin n × Bool))

/-- Two-qubit gates act on two different qubits. -/
def Cmd.Ok : Cmd n → Prop
  | .gates Gs => ∀ G ∈ Gs, G.Ok
  | _ => True

/-- Execute one call. -/
def Cmd.exec (T : Tab n) : Cmd n → Except Err (Tab n)
  | .gates Gs => .ok (appAll Gs T)
  | .measure m f d =>
    match Plaquette.measure T m f d with
    | .error e => .error e
    | .ok r => .ok r.1
  | .reset neg l qs => resetAll neg l T qs

/-- Execute a history; stops at the first exception. -/
def execAll (T : Tab n) : List (Cmd n) → Except Err (Tab n)
  | [] => .ok T
  | c :: cs =>
    match c.exec T with
    | .error e => .error e
    | .ok T' => execAll T' cs

/-- The zero state is the state `|0…0⟩`. -/
theorem C05_zero_state (n : Nat) : (zeroState n).Valid ∧
    (zeroState n).Represents (fun b => if b = (fun _ => false) then 1 else 0) := by
  refine ⟨zeroState_valid n, ?_, ?_⟩
  · intro h; simpa using congrFun h (fun _ => false)
  · intro i
    unfold Stabilises
    funext a
    simp only [mulVec, dotProduct, opMat, zeroState, Matrix.smul_apply, sgn_false, one_smul]
    rw [Finset.sum_eq_single (fun _ => false)]
    · simp only [if_true, mul_one]
      by_cases ha : a = fun _ => false
      · subst ha
        simp only [pauliMat, tensor, if_true]
        apply Finset.prod_eq_one
        intro q _
        by_cases hq : i = q <;> simp [hq, sigma]
      · rw [if_neg ha]
        obtain ⟨q, hq⟩ := Function.ne_iff.mp ha
        apply Finset.prod_eq_zero (Finset.mem_univ q)
        have hq : a q = true := by simpa using hq
        by_cases hiq : i = q <;> simp [hiq, sigma, hq]
    · intro b _ hb; simp [hb]
    · simp

/-- **C05** every tableau reachable from a valid one is valid. -/
theorem C05_valid_invariant (cs : List (Cmd n)) (hc : ∀ c ∈ cs, c.Ok) (T T' : Tab n) (hT : T.Valid)
    (h : execAll T cs = .ok T') : T'.Valid := by
  induction cs generalizing T with
  | nil => simp only [execAll, Except.ok.injEq] at h; exact h ▸ hT
  | cons c cs ih =>
    rw [execAll] at h
    cases h1 : c.exec T with
    | error e => rw [h1] at h; exact absurd h (by simp)
    | ok T1 =>
      rw [h1] at h
      refine ih (fun c' h' => hc c' (List.mem_cons_of_mem _ h')) T1 ?_ h
      have hok := hc c (by simp)
      cases c with
      | gates Gs =>
        simp only [Cmd.exec, Except.ok.injEq] at h1
        subst h1
        clear ih h hc
        unfold appAll
        induction Gs generalizing T with
        | nil => exact hT
        | cons G Gs ih =>
          exact ih (G.app T) (app_valid hT G (hok G (by simp))) (fun G' h' => hok G' (List.mem_cons_of_mem _ h'))
      | measure m f d =>
        simp only [Cmd.exec] at h1
        cases hm : Plaquette.measure T m f d with
        | error e => rw [hm] at h1; exact absurd h1 (by simp)
        | ok r =>
          rw [hm] at h1
          simp only [Except.ok.injEq] at h1
          subst h1
          exact measure_valid hT (out := r.2) hm
      | reset neg l qs => exact resetAll_valid hT h1

/-- **C05** for histories from `zero_state(n)`. -/
theorem C05_reachable_valid (cs : List (Cmd n)) (hc : ∀ c ∈ cs, c.Ok) (T : Tab n)
    (h : execAll (zeroState n) cs = .ok T) : T.Valid :=
  C05_valid_invariant cs hc _ _ (zeroState_valid n) h

/-- Non-vacuity: a history with gates, a random measurement, a forced one and a reset runs without exception. -/
example : ∃ T, execAll (zeroState 2)
    [.gates [.h 0, .cx 0 1], .measure (singleOp false .Z 0) none true, .measure (singleOp true .X 1) (some 1) false,
     .reset false .Z [(0, true), (1, false)]] = .ok T := by
  have : ∀ r : Except Err (Tab 2), (match r with | .ok _ => true | .error _ => false) = true → ∃ T, r = .ok T := by
    intro r h; cases r with
    | ok T => exact ⟨T, rfl⟩
    | error e => simp at h
  apply this
  decide

/-- **C06** a random measurement: if the operator anticommutes with some stabiliser, both outcomes have probability
one half (`‖P_out ψ‖² = ‖ψ‖² / 2`), the drawn bit is returned and the new tableau represents the projected vector. -/
theorem C06_random_measurement (T : Tab n) (hT : T.Valid) (m : Op n) (ψ : Vec n) (hψ : T.Represents ψ)
    (h : ∃ i, Anticommutes (opMat (T.s i)) (opMat m)) (draw : Bool) :
    (∀ out, normSq (projector m out *ᵥ ψ) = normSq ψ / 2) ∧
    ∃ T', measure T m none draw = .ok (T', draw) ∧ T'.Valid ∧ T'.Represents (projector m draw *ᵥ ψ) := by
  obtain ⟨i, hi⟩ := h
  have hi := (anticommutes_iff _ _).mp hi
  refine ⟨normSq_projector_half hi (hψ.2 i), ?_⟩
  cases hn : nonzero T.s m with
  | nil => rw [(nonzero_eq_nil _ _).mp hn i] at hi; exact absurd hi (by simp)
  | cons k o =>
    have hm := measure_random hn none draw
    simp only [chosen] at hm
    exact ⟨_, hm, measure_valid hT hm, measure_represents hT.semi hm hψ⟩

/-- **C06** the forced outcome is returned (and only 0 and 1 are accepted). -/
theorem C06_forced_measurement (T : Tab n) (hT : T.Valid) (m : Op n) (ψ : Vec n) (hψ : T.Represents ψ)
    (h : ∃ i, Anticommutes (opMat (T.s i)) (opMat m)) (draw : Bool) (v : Int) :
    (∀ out : Bool, v = (if out then 1 else 0) → ∃ T', measure T m (some v) draw = .ok (T', out) ∧ T'.Valid ∧
      T'.Represents (projector m out *ᵥ ψ)) ∧
    (v ≠ 0 → v ≠ 1 → measure T m (some v) draw = .error .valueError) := by
  obtain ⟨i, hi⟩ := h
  have hi := (anticommutes_iff _ _).mp hi
  cases hn : nonzero T.s m with
  | nil => rw [(nonzero_eq_nil _ _).mp hn i] at hi; exact absurd hi (by simp)
  | cons k o =>
    have hm := measure_random hn (some v) draw
    constructor
    · intro out hv
      have hc : chosen (some v) draw = .ok out := by cases out <;> simp [chosen, hv]
      rw [hc] at hm
      exact ⟨_, hm, measure_valid hT hm, measure_represents hT.semi hm hψ⟩
    · intro h0 h1
      have hc : chosen (some v) draw = .error .valueError := by simp [chosen, h0, h1]
      rw [hc] at hm
      exact hm

/-- Non-vacuity of C06: `X` on the zero state. -/
example : (zeroState 2).Valid ∧ (∃ ψ, (zeroState 2).Represents ψ) ∧
    ∃ i, Anticommutes (opMat ((zeroState 2).s i)) (opMat (singleOp false .X (1 : Fin 2))) :=
  ⟨zeroState_valid 2, exists_represents (zeroState_valid 2).semi, 1, (anticommutes_iff _ _).mpr (by decide)⟩

/-- **C07** a deterministic measurement: if the operator (not `±I`) commutes with all stabilisers, the outcome does
not depend on the draw (nor on `forced_outcome`), it is the certain outcome of the represented vector and the state
does not change. -/
theorem C07_deterministic_measurement (T : Tab n) (hT : T.Valid) (m : Op n) (hm : ¬ m.IsScalar)
    (hc : ∀ i, Commutes (opMat (T.s i)) (opMat m)) :
    ∃ out : Bool, (∀ forced draw, measure T m forced draw = .ok (T, out)) ∧
      ∀ ψ, T.Represents ψ → opMat m *ᵥ ψ = sgn out • ψ := by
  have hn : nonzero T.s m = [] := (nonzero_eq_nil _ _).mpr fun i => (commutes_iff _ _).mp (hc i)
  exact ⟨_, fun f d => measure_det hn (nonzero_d_ne_nil hT.semi hm hn) f d,
    fun ψ hψ => measure_det_sem hT.semi hn hψ⟩

/-- Non-vacuity of C07: `-ZZ` on a Bell state. -/
example : (appAll [CGate.h (0 : Fin 2), CGate.cx 0 1] (zeroState 2)).Valid ∧
    (∀ i, Commutes (opMat ((appAll [CGate.h (0 : Fin 2), CGate.cx 0 1] (zeroState 2)).s i))
      (opMat ({ x := fun _ => false, z := fun _ => true, r := true } : Op 2))) ∧
    ¬ ({ x := fun _ => false, z := fun _ => true, r := true } : Op 2).IsScalar :=
  ⟨C05_reachable_valid [.gates [.h 0, .cx 0 1]] (by simp [Cmd.Ok, CGate.Ok]) _ rfl, by
    intro i; rw [commutes_iff]; revert i; decide, by decide⟩

/-- **C08** measuring the same operator again gives the same outcome and does not change the state. -/
theorem C08_repeatable (T T' : Tab n) (hT : T.Valid) (m : Op n) (forced forced' : Option Int) (draw draw' out : Bool)
    (h : measure T m forced draw = .ok (T', out)) : measure T' m forced' draw' = .ok (T', out) := by
  obtain ⟨ψ, hψ⟩ := exists_represents hT.semi
  have hm : ¬ m.IsScalar := by
    intro hs
    have hz : ∀ p : Op n, anti p m = false := by intro p; simp [anti, hs.1, hs.2, bit]
    rcases measure_cases h with ⟨_, hd, _, _⟩ | ⟨k, o, hn, _, _⟩
    · exact hd ((nonzero_eq_nil _ _).mpr fun i => hz _)
    · have := pivot_anti hn; rw [hz] at this; exact absurd this (by simp)
  refine measure_of_eigen (measure_semi hT.semi h) hm (measure_represents hT.semi h hψ) ?_ _ _
  have hst := projector_stab m out
  rw [opMat_flip] at hst
  have h2 : opMat m * projector m out = sgn out • projector m out := by
    calc opMat m * projector m out = (sgn out * sgn out) • (opMat m * projector m out) := by
          rw [sgn_mul_self, one_smul]
      _ = sgn out • (sgn out • opMat m * projector m out) := by rw [Matrix.smul_mul, smul_smul]
      _ = _ := by rw [hst]
  rw [Matrix.mulVec_mulVec, h2, Matrix.smul_mulVec]

/-- **C09 (full statement)** `measure` returns a result for every operator. -/
def C09_statement : Prop := ∀ (n : Nat) (T : Tab n) (m : Op n) (draw : Bool), T.Valid →
  ∃ r, measure T m none draw = .ok r

/-- **C09 fails** for the identity: `measure` raises `IndexError`. -/
theorem C09_measure_identity_counterexample : ¬ C09_statement := by
  intro h
  obtain ⟨r, hr⟩ := h 1 (zeroState 1) (idOp 1) false (zeroState_valid 1)
  have : measure (zeroState 1) (idOp 1) none false = .error .indexError := by decide
  rw [this] at hr
  exact absurd hr (by simp)

/-- **C09, part that holds**: exactly the operators `±I` are refused. Missing: a result for `±I`. -/
theorem C09_measure_total_partial (T : Tab n) (hT : T.Valid) (m : Op n) (draw : Bool) :
    (¬ m.IsScalar → ∃ T' out, measure T m none draw = .ok (T', out)) ∧
    (m.IsScalar → measure T m none draw = .error .indexError) := by
  refine ⟨fun hm => measure_total hT.semi hm draw, fun hs => ?_⟩
  have hz : ∀ p : Op n, anti p m = false := by intro p; simp [anti, hs.1, hs.2, bit]
  have h1 : nonzero T.s m = [] := (nonzero_eq_nil _ _).mpr fun i => hz _
  have h2 : nonzero T.d m = [] := (nonzero_eq_nil _ _).mpr fun i => hz _
  unfold measure
  simp only [h1, h2]

/-- **C10** reset to the `+1` eigenstate of `±Z` or `±X`: it never raises, whatever the draws are; afterwards every listed
qubit gives outcome 0 with certainty. -/
theorem C10_reset_certain (T : Tab n) (hT : T.Valid) (neg : Bool) (l : Letter) (hl : l ≠ .Y)
    (qs : List (Fin n × Bool)) :
    ∃ T', resetAll neg l T qs = .ok T' ∧ T'.Valid ∧
      ∀ a ∈ qs, ∀ forced draw, measure T' (singleOp neg l a.1) forced draw = .ok (T', false) := by
  obtain ⟨T', h⟩ := resetAll_total (neg := neg) (l := l) hT qs
  obtain ⟨ψ, hψ⟩ := exists_represents hT.semi
  obtain ⟨ψ', h1, h2, _⟩ := resetAll_sem hl hT h hψ
  refine ⟨T', h, resetAll_valid hT h, fun a ha f d => ?_⟩
  refine measure_of_eigen (resetAll_valid hT h).semi (singleOp_not_scalar _ _ _) h1 ?_ f d
  rw [h2 a ha]; simp

/-- **C10** operators that do not touch the reset qubits and stabilise the state still do. -/
theorem C10_reset_keeps_rest (T T' : Tab n) (hT : T.Valid) (neg : Bool) (l : Letter) (hl : l ≠ .Y)
    (qs : List (Fin n × Bool)) (h : resetAll neg l T qs = .ok T') (ψ : Vec n) (hψ : T.Represents ψ) (p : Op n)
    (hp : ∀ a ∈ qs, p.x a.1 = false ∧ p.z a.1 = false) (hs : Stabilises p ψ) :
    ∃ ψ', T'.Represents ψ' ∧ Stabilises p ψ' := by
  obtain ⟨ψ', h1, _, h3⟩ := resetAll_sem hl hT h hψ
  exact ⟨ψ', h1, h3 p hp hs⟩

/-- Non-vacuity of C10: a reset with random outcomes on an entangled state. -/
example : ∃ T', resetAll false .Z (appAll [CGate.h (0 : Fin 2), CGate.cx 0 1] (zeroState 2)) [(0, true)] = .ok T' :=
  resetAll_total (C05_reachable_valid [.gates [.h 0, .cx 0 1]] (by simp [Cmd.Ok, CGate.Ok]) _ rfl) _

/-- The excluded letter: "reset" to an eigenstate of `Y` does not correct outcome 1 (the code comment says
"No Ys yet please"), so the qubit can be left in the other eigenstate. -/
theorem C10_reset_Y_counterexample :
    (do let T ← resetAll false .Y (zeroState 1) [(0, true)]
        let r ← measure T (singleOp false .Y 0) none false
        pure r.2) = (.ok true : Except Err Bool) := by decide

/-- **C50** a valid tableau represents exactly one state: some vector, and only its multiples. -/
theorem C50_state_unique (T : Tab n) (hT : T.Valid) :
    ∃ ψ, T.Represents ψ ∧ ∀ φ, T.Represents φ → ∃ c : ℂ, c ≠ 0 ∧ φ = c • ψ := by
  obtain ⟨ψ, hψ⟩ := exists_represents hT.semi
  exact ⟨ψ, hψ, fun φ hφ => represents_unique hT.semi hψ hφ⟩

/-- Non-vacuity of C50. -/
example : (zeroState 5).Valid := zeroState_valid 5

end Plaquette
