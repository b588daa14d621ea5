import Verif.Lemmas.NoisyRound
import Verif.Lemmas.Frame

/-!
# Errors on the data qubits
-/

namespace Plaquette
open Matrix
variable {F : Type} {n : Nat} {api : FloatApi F} {rng : Rng F}

/-- The Pauli channel on qubit `i`, if there is one. -/
def PauliGate (i : Nat) (gs : List (Gate F)) : Prop := gs = [] ∨ ∃ a b c, gs = [⟨.E_PAULI, [a, b, c, .int i]⟩]

/-- The erasure of qubit `i`, if there is one. -/
def EraseGate (i : Nat) (gs : List (Gate F)) : Prop := gs = [] ∨ ∃ v, gs = [⟨.E_ERASE, [v, .int i]⟩]

theorem qubitOf_val {i : Nat} {q : Fin n} (h : qubitOf n (.int i : Val F) = .ok q) : q.val = i := by
  have := qubitOf_ok h
  simp only [Val.int.injEq, Nat.cast_inj] at this
  exact this.symm

theorem Is_flag {S : Sim n} {σ : VState n} (h : S.Is σ) : Sim.Is ({ S with inError := false } : Sim n) σ := h

theorem pauli_part {i : Nat} {gs : List (Gate F)} (hg : PauliGate i gs) {S S' : Sim n} {σ : VState n} (hS : S.Is σ)
    (h : S.runGates api rng gs = .ok S') (h0 : σ.ψ ≠ 0) :
    ∃ σ' k, S'.Is σ' ∧ σ'.ψ ≠ 0 ∧ σ'.meas = σ.meas ∧ σ'.erasure = σ.erasure ∧ S.events api rng gs = (if gs = [] then [] else [.pauli i k]) ∧
      (gs = [] → k = 0) ∧ ∀ p m, HasValue p m σ.ψ → HasValue p (m ^^ anti p (numOp n i k)) σ'.ψ := by
  rcases hg with rfl | ⟨a, b, c, rfl⟩
  · cases h
    refine ⟨σ, 0, hS, h0, rfl, rfl, rfl, fun _ => rfl, fun p m hp => ?_⟩
    rw [show anti p (numOp n i 0) = false by rw [anti_symm]; exact anti_zero (fun q => by simp [numOp, numX]) fun q => by simp [numOp, numZ]]
    rwa [Bool.xor_false]
  · obtain ⟨S1, h1, h2⟩ := runGates_cons h
    cases h2
    have hev : S.events api rng [⟨.E_PAULI, [a, b, c, .int i]⟩] = eventOf api rng S.pos ⟨.E_PAULI, [a, b, c, .int i]⟩ := by
      rw [Sim.events, h1]; simp [Sim.events]
    unfold Sim.runGate at h1
    rw [if_neg (by simp [Name.isError])] at h1
    unfold Sim.handleGate at h1
    simp only [List.take_succ_cons, List.take_zero, argAt, List.getElem?_cons_succ, List.getElem?_cons_zero] at h1
    cases hps : numsOf api [a, b, c] with
    | error e => rw [hps] at h1; cases h1
    | ok ps =>
      rw [hps] at h1
      dsimp only at h1
      cases hk : rng.choice4 S.pos ps with
      | none => rw [hk] at h1; cases h1
      | some k =>
        rw [hk] at h1
        dsimp only at h1
        cases hq : qubitOf n (.int i : Val F) with
        | error e => rw [hq] at h1; cases h1
        | ok q =>
          rw [hq] at h1
          dsimp only at h1
          obtain ⟨hI, _⟩ := applyPauli_is (tick_is (Is_flag hS)) q k h1
          refine ⟨_, k, hI, pauli_ne_zero q k h0, rfl, rfl, ?_, (fun hc => absurd hc (by simp)), fun p m hp => pauli_value q (qubitOf_val hq) k hp⟩
          rw [hev]
          simp [eventOf, hps, hk]

theorem erase_part {i : Nat} {gs : List (Gate F)} (hg : EraseGate i gs) {S S' : Sim n} {σ : VState n} (hS : S.Is σ)
    (h : S.runGates api rng gs = .ok S') (h0 : σ.ψ ≠ 0) :
    ∃ σ' b k, S'.Is σ' ∧ σ'.ψ ≠ 0 ∧ σ'.meas = σ.meas ∧ σ'.erasure = σ.erasure ++ (if gs = [] then [] else [b]) ∧
      S.events api rng gs = (if gs = [] then [] else [.erasure i b k]) ∧
      (gs = [] → b = false) ∧ (b = false → k = 0) ∧ ∀ p m, HasValue p m σ.ψ → HasValue p (m ^^ anti p (numOp n i k)) σ'.ψ := by
  have hz : ∀ p : Op n, anti p (numOp n i 0) = false := fun p => by
    rw [anti_symm]; exact anti_zero (fun q => by simp [numOp, numX]) fun q => by simp [numOp, numZ]
  rcases hg with rfl | ⟨v, rfl⟩
  · cases h
    refine ⟨σ, false, 0, hS, h0, rfl, by simp, rfl, fun _ => rfl, fun _ => rfl, fun p m hp => ?_⟩
    rwa [hz, Bool.xor_false]
  · obtain ⟨S1, h1, h2⟩ := runGates_cons h
    cases h2
    have hev : S.events api rng [⟨.E_ERASE, [v, .int i]⟩] = eventOf api rng S.pos ⟨.E_ERASE, [v, .int i]⟩ := by
      rw [Sim.events, h1]; simp [Sim.events]
    unfold Sim.runGate at h1
    rw [if_neg (by simp [Name.isError])] at h1
    unfold Sim.handleGate at h1
    cases hp : numOf api v with
    | error e => simp only [hp] at h1; cases h1
    | ok p =>
      simp only [hp] at h1
      cases hb : rng.below S.pos p with
      | false =>
        rw [if_neg (by simp [hb])] at h1
        cases h1
        refine ⟨{ σ.tick with erasure := σ.erasure ++ [false] }, false, 0, ⟨hS.1, hS.2.1, ?_, hS.2.2.2.1, ?_⟩, h0, rfl, rfl, ?_, fun _ => rfl, fun _ => rfl, fun p m hp => ?_⟩
        · simp only [VState.tick, hS.2.2.1]
        · simp only [hS.2.2.2.2, hb]
        · rw [hev]; simp [eventOf, hp, hb]
        · rw [hz, Bool.xor_false]; exact hp
      | true =>
        rw [if_pos (by simp [hb])] at h1
        cases hq : qubitOf n (.int i : Val F) with
        | error e => rw [hq] at h1; cases h1
        | ok q =>
          rw [hq] at h1
          dsimp only at h1
          have hI' : Sim.Is ({ S with erasure := S.erasure ++ [rng.below S.pos p], inError := false, pos := S.pos + 1 + 1 } : Sim n)
              { σ.tick.tick with erasure := σ.erasure ++ [true] } :=
            ⟨hS.1, hS.2.1, by simp only [VState.tick, hS.2.2.1], hS.2.2.2.1, by simp only [hS.2.2.2.2, hb]⟩
          obtain ⟨hI, _⟩ := applyPauli_is hI' q _ h1
          refine ⟨_, true, rng.int4 (S.pos + 1), hI, pauli_ne_zero q _ h0, rfl, rfl, ?_, (fun hc => absurd hc (by simp)), (fun hc => by cases hc),
            fun p m hp => pauli_value q (qubitOf_val hq) _ hp⟩
          rw [hev]; simp [eventOf, hp, hb]

/-- An operator given by its factors at each index. -/
def bitsOp (n : Nat) (x z : Nat → Bool) : Op n := { x := fun q => x q.val, z := fun q => z q.val, r := false }

/-- The gates of the errors on the qubits with the given indices. -/
def dataGates (pg eg : Nat → List (Gate F)) (is : List Nat) : List (Gate F) := is.flatMap fun i => pg i ++ eg i

/-- The errors on all data qubits. -/
theorem data_part (pg eg : Nat → List (Gate F)) (is : List Nat) (hn : is.Nodup) (hp : ∀ i ∈ is, PauliGate i (pg i)) (he : ∀ i ∈ is, EraseGate i (eg i))
    {S S' : Sim n} {σ : VState n} (hS : S.Is σ) (h : S.runGates api rng (dataGates pg eg is) = .ok S') (h0 : σ.ψ ≠ 0) :
    ∃ (σ' : VState n) (k : Nat → Fin 4) (b : Nat → Bool) (k' : Nat → Fin 4), S'.Is σ' ∧ σ'.ψ ≠ 0 ∧ σ'.meas = σ.meas ∧
      σ'.erasure = σ.erasure ++ is.flatMap (fun i => if eg i = [] then [] else [b i]) ∧
      S.events api rng (dataGates pg eg is) =
        is.flatMap (fun i => (if pg i = [] then [] else [.pauli i (k i)]) ++ (if eg i = [] then [] else [.erasure i (b i) (k' i)])) ∧
      (∀ i, i ∉ is ∨ pg i = [] → k i = 0) ∧ (∀ i, i ∉ is ∨ eg i = [] → b i = false) ∧ (∀ i, b i = false → k' i = 0) ∧
      ∀ p m, HasValue p m σ.ψ →
        HasValue p (m ^^ anti p (bitsOp n (fun i => numX (k i) ^^ numX (k' i)) (fun i => numZ (k i) ^^ numZ (k' i)))) σ'.ψ := by
  induction is generalizing S σ with
  | nil =>
    cases h
    refine ⟨σ, fun _ => 0, fun _ => false, fun _ => 0, hS, h0, rfl, by simp, rfl, fun _ _ => rfl, fun _ _ => rfl, fun _ _ => rfl, fun p m hv => ?_⟩
    rw [anti_symm, anti_zero (fun q => by simp [bitsOp]) fun q => by simp [bitsOp]]
    rwa [Bool.xor_false]
  | cons i is ih =>
    rw [List.nodup_cons] at hn
    have hcons : dataGates pg eg (i :: is) = pg i ++ (eg i ++ dataGates pg eg is) := by
      unfold dataGates; rw [List.flatMap_cons, List.append_assoc]
    rw [hcons] at h ⊢
    obtain ⟨S1, r1, h, ev1⟩ := run_parts h
    obtain ⟨S2, r2, r3, ev2⟩ := run_parts h
    obtain ⟨σ1, k, a1, a2, a3, a4, a5, a6, a7⟩ := pauli_part (hp i (by simp)) hS r1 h0
    obtain ⟨σ2, b, k', b1, b2, b3, b4, b5, b6, b7, b8⟩ := erase_part (he i (by simp)) a1 r2 a2
    obtain ⟨σ', K, B, K', c1, c2, c3, c4, c5, c6, c7, c8, c9⟩ := ih hn.2 (fun j hj => hp j (by simp [hj])) (fun j hj => he j (by simp [hj])) b1 r3 b2
    have hne : ∀ j ∈ is, ¬ j = i := fun j hj hji => hn.1 (hji ▸ hj)
    have Ki : K i = 0 := c6 i (.inl hn.1)
    have Bi : B i = false := c7 i (.inl hn.1)
    have K'i : K' i = 0 := c8 i Bi
    refine ⟨σ', fun j => if j = i then k else K j, fun j => if j = i then b else B j, fun j => if j = i then k' else K' j, c1, c2, c3.trans (b3.trans a3), ?_, ?_, ?_, ?_, ?_, ?_⟩
    · dsimp only
      rw [c4, b4, a4, List.flatMap_cons, if_pos rfl, List.append_assoc]
      congr 2
      exact List.flatMap_congr fun j hj => by rw [if_neg (hne j hj)]
    · dsimp only
      rw [ev1, ev2, a5, b5, c5, List.flatMap_cons, if_pos rfl, if_pos rfl, if_pos rfl, List.append_assoc]
      congr 2
      exact List.flatMap_congr fun j hj => by rw [if_neg (hne j hj), if_neg (hne j hj), if_neg (hne j hj)]
    · intro j hj
      dsimp only
      by_cases hji : j = i
      · rw [if_pos hji]
        subst hji
        rcases hj with hj | hj
        · exact absurd List.mem_cons_self hj
        · exact a6 hj
      · rw [if_neg hji]
        exact c6 j (hj.imp (fun h hc => h (List.mem_cons_of_mem _ hc)) id)
    · intro j hj
      dsimp only
      by_cases hji : j = i
      · rw [if_pos hji]
        subst hji
        rcases hj with hj | hj
        · exact absurd List.mem_cons_self hj
        · exact b6 hj
      · rw [if_neg hji]
        exact c7 j (hj.imp (fun h hc => h (List.mem_cons_of_mem _ hc)) id)
    · intro j hj
      dsimp only at hj ⊢
      by_cases hji : j = i
      · rw [if_pos hji] at hj ⊢; exact b7 hj
      · rw [if_neg hji] at hj ⊢; exact c8 j hj
    · intro p m hv
      have h3 := c9 p _ (b8 p _ (a7 p m hv))
      have e : ∀ E : Op n, (∀ q, E.x q = (if q.val = i then numX k ^^ numX k' else numX (K q.val) ^^ numX (K' q.val))) →
          (∀ q, E.z q = (if q.val = i then numZ k ^^ numZ k' else numZ (K q.val) ^^ numZ (K' q.val))) →
          anti p E = (anti p (numOp n i k) ^^ (anti p (numOp n i k') ^^
            anti p (bitsOp n (fun i => numX (K i) ^^ numX (K' i)) (fun i => numZ (K i) ^^ numZ (K' i))))) := by
        intro E hx hz
        rw [anti_symm p, anti_symm p, anti_symm p, anti_symm p]
        let E' : Op n := ⟨fun q => (numOp n i k').x q ^^ (numX (K q.val) ^^ numX (K' q.val)), fun q => (numOp n i k').z q ^^ (numZ (K q.val) ^^ numZ (K' q.val)), false⟩
        rw [anti_add (p := E) (a := numOp n i k) (b := E'), anti_add (p := E') (a := numOp n i k')]
        · intro q; rfl
        · intro q; rfl
        · intro q
          rw [hx]
          by_cases hq : q.val = i
          · simp [E', numOp, hq, Ki, K'i]
          · simp [E', numOp, hq]
        · intro q
          rw [hz]
          by_cases hq : q.val = i
          · simp [E', numOp, hq, Ki, K'i]
          · simp [E', numOp, hq]
      rw [e]
      · simpa [Bool.xor_assoc] using h3
      · intro q; simp only [bitsOp]; split <;> rfl
      · intro q; simp only [bitsOp]; split <;> rfl

end Plaquette
