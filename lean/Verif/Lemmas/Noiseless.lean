import Verif.Lemmas.SimRun
import Verif.Lemmas.LatticeCode

/-!
# Measuring operators with ancilla qubits, on state vectors
-/

namespace Plaquette
open Matrix
variable {F : Type} {n : Nat} {api : FloatApi F} {rng : Rng F}

/-! ### Stabilising operators along a run -/

theorem stab_gate {p : Op n} {ψ : Vec n} (G : CGate n) (hG : G.Ok) (h : Stabilises p ψ) :
    Stabilises (G.row p) (G.unitary *ᵥ ψ) := by
  unfold Stabilises
  rw [Matrix.mulVec_mulVec, ← gate_conj G hG, ← Matrix.mulVec_mulVec, h]

theorem gate_ne_zero (G : CGate n) (hG : G.Ok) {ψ : Vec n} (h : ψ ≠ 0) : G.unitary *ᵥ ψ ≠ 0 := by
  intro hc
  apply h
  calc ψ = (G.unitaryᴴ * G.unitary) *ᵥ ψ := by rw [unitary_unitary G hG, Matrix.one_mulVec]
    _ = 0 := by rw [← Matrix.mulVec_mulVec, hc, Matrix.mulVec_zero]

theorem stab_projector {p m : Op n} {ψ : Vec n} (out : Bool) (hc : anti p m = false) (h : Stabilises p ψ) :
    Stabilises p (projector m out *ᵥ ψ) := by
  unfold Stabilises
  have hm := (commutes_iff p m).mpr hc
  unfold Commutes at hm
  have : opMat p * projector m out = projector m out * opMat p := by
    unfold projector
    rw [Matrix.mul_smul, Matrix.smul_mul, Matrix.mul_add, Matrix.add_mul, Matrix.mul_one, Matrix.one_mul, Matrix.mul_smul,
      Matrix.smul_mul, hm]
  rw [Matrix.mulVec_mulVec, this, ← Matrix.mulVec_mulVec, h]

theorem opMat_neg (p : Op n) (b : Bool) : opMat { p with r := p.r ^^ b } = sgn b • opMat p := by
  unfold opMat
  rw [sgn_xor, smul_smul, mul_comm]

theorem projZop_stab (q : Fin n) (out : Bool) (ψ : Vec n) :
    Stabilises (singleOp out .Z q) (projector (singleOp false .Z q) out *ᵥ ψ) := by
  have e : (singleOp out .Z q : Op n) = { singleOp false .Z q with r := (singleOp false .Z q : Op n).r ^^ out } := by
    simp [singleOp]
  unfold Stabilises
  rw [e, opMat_neg, Matrix.mulVec_mulVec]
  congr 1
  unfold projector
  rw [Matrix.mul_smul, Matrix.mul_add, Matrix.mul_one, Matrix.mul_smul, Matrix.smul_mul, opMat_sq, smul_smul, sgn_mul_self,
    one_smul, add_comm]

theorem projZ_stab {q : Fin n} {out : Bool} {ψ : Vec n} (h : projZ q out *ᵥ ψ = ψ) : Stabilises (singleOp out .Z q) ψ := by
  have := projZop_stab q out ψ
  rwa [← projZ_eq, h] at this

theorem normSq_ne_zero {ψ : Vec n} (h : ψ ≠ 0) : normSq ψ ≠ 0 := by
  intro hc
  apply h
  unfold normSq at hc
  rw [Finset.sum_eq_zero_iff_of_nonneg (fun b _ => Complex.normSq_nonneg _)] at hc
  funext b
  simpa using hc b (Finset.mem_univ b)

/-- A Z measurement of qubit `q`. -/
theorem vmeas_spec {q : Fin n} {σ σ' : VState n} {out : Bool} (h : VMeas rng q σ out σ') :
    Stabilises (singleOp out .Z q) σ'.ψ ∧ (σ.ψ ≠ 0 → σ'.ψ ≠ 0) ∧
    (∀ p, anti p (singleOp false .Z q) = false → Stabilises p σ.ψ → Stabilises p σ'.ψ) ∧
    σ'.meas = σ.meas ∧ σ'.erasure = σ.erasure := by
  cases h with
  | certain out h => exact ⟨projZ_stab h, id, fun _ _ hp => hp, rfl, rfl⟩
  | random h =>
    refine ⟨?_, ?_, ?_, rfl, rfl⟩
    · simp only [projZ_eq]; exact projZop_stab q _ _
    · intro h0 hc
      have h1 := h (rng.bit σ.pos)
      simp only at hc
      rw [hc] at h1
      have h2 := normSq_ne_zero h0
      have : normSq (0 : Vec n) = 0 := by simp [normSq]
      rw [this] at h1
      apply h2
      linarith
    · intro p hp hs
      simp only [projZ_eq]
      exact stab_projector _ hp hs

/-- `p` is the identity on qubit `i`. -/
def Op.IdAt (p : Op n) (i : Nat) : Prop := ∀ q : Fin n, q.val = i → p.x q = false ∧ p.z q = false

theorem anti_single_of_x {p : Op n} {q : Fin n} (b : Bool) (h : p.x q = false) : anti p (singleOp b .Z q) = false := by
  unfold anti
  rw [Finset.sum_eq_zero]
  · rfl
  · intro i _
    by_cases hi : i = q
    · subst hi; simp [singleOp, h, bit]
    · simp [singleOp, hi, bit]

theorem row_idAt_h {p : Op n} {q : Fin n} (h : p.IdAt q.val) : (CGate.h q).row p = p := by
  obtain ⟨hx, hz⟩ := h q rfl
  unfold CGate.row hRow
  ext i <;> simp only [hx, hz]
  · by_cases hi : i = q
    · subst hi; simp [hx]
    · simp [hi]
  · by_cases hi : i = q
    · subst hi; simp [hz]
    · simp [hi]
  · simp

theorem row_idAt_x {p : Op n} {q : Fin n} (h : p.IdAt q.val) : (CGate.x q).row p = p := by
  obtain ⟨_, hz⟩ := h q rfl
  unfold CGate.row xRow
  ext i <;> simp [hz]

/-- Resetting one qubit. -/
theorem vreset_spec {q : Fin n} {σ σ' : VState n} (h : VResetAll rng [q] σ σ') :
    Stabilises (singleOp false .Z q) σ'.ψ ∧ (σ.ψ ≠ 0 → σ'.ψ ≠ 0) ∧
    (∀ p, p.IdAt q.val → Stabilises p σ.ψ → Stabilises p σ'.ψ) ∧ σ'.meas = σ.meas ∧ σ'.erasure = σ.erasure := by
  cases h with
  | cons h hs =>
    rename_i σ1 out
    cases hs
    obtain ⟨h1, h2, h3, h4, h5⟩ := vmeas_spec h
    cases out with
    | false =>
      simp only [Bool.false_eq_true, if_false]
      exact ⟨h1, h2, fun p hp hs => h3 p (anti_single_of_x false (hp q rfl).1) hs, h4, h5⟩
    | true =>
      simp only [if_true]
      refine ⟨?_, fun h0 => gate_ne_zero (CGate.x q) trivial (h2 h0), fun p hp hs => ?_, h4, h5⟩
      · have := stab_gate (CGate.x q) trivial h1
        have e : (CGate.x q).row (singleOp true .Z q) = singleOp false .Z q := by
          unfold CGate.row xRow singleOp
          ext i <;> simp
        rwa [e] at this
      · have := stab_gate (CGate.x q) trivial (h3 p (anti_single_of_x false (hp q rfl).1) hs)
        rwa [row_idAt_x hp] at this

/-! ### The gates of the generated circuits -/

def g1 (nm : Name) (i : Nat) : Name × List (Val F) := (nm, [.int i])
def g2 (nm : Name) (i j : Nat) : Name × List (Val F) := (nm, [.int i, .int j])

theorem qArgs_one {qs : List (Fin n)} {i : Nat} (h : (qArgs qs : List (Val F)) = [.int i]) : ∃ q : Fin n, q.val = i ∧ qs = [q] := by
  rcases qs with _ | ⟨q, _ | ⟨q', qs⟩⟩
  · cases h
  · simp only [qArgs, List.map_cons, List.map_nil, List.cons.injEq, Val.int.injEq, and_true] at h
    exact ⟨q, by omega, rfl⟩
  · simp [qArgs] at h

theorem pairArgs_one {ps : List (Fin n × Fin n)} {i j : Nat} (h : (pairArgs ps : List (Val F)) = [.int i, .int j]) :
    ∃ a b : Fin n, a.val = i ∧ b.val = j ∧ ps = [(a, b)] := by
  rcases ps with _ | ⟨⟨a, b⟩, _ | ⟨q', qs⟩⟩
  · cases h
  · simp only [pairArgs, List.flatMap_cons, List.flatMap_nil, List.append_nil, List.cons.injEq, Val.int.injEq, and_true] at h
    exact ⟨a, b, by omega, by omega, rfl⟩
  · simp [pairArgs] at h

theorem vgate_h {i : Nat} {σ σ' : VState n} (h : VGate api rng .H [.int i] σ σ') :
    ∃ q : Fin n, q.val = i ∧ σ' = { σ with ψ := (CGate.h q).unitary *ᵥ σ.ψ } := by
  generalize hnm : Name.H = nm at h
  generalize ha : [Val.int (i : Int)] = args at h
  cases h <;> first | cases hnm; done | skip
  rename_i qs
  obtain ⟨q, hq, rfl⟩ := qArgs_one ha.symm
  exact ⟨q, hq, rfl⟩

theorem vgate_cx {i j : Nat} {σ σ' : VState n} (h : VGate api rng .CX [.int i, .int j] σ σ') :
    ∃ a b : Fin n, a.val = i ∧ b.val = j ∧ σ' = { σ with ψ := (CGate.cx a b).unitary *ᵥ σ.ψ } := by
  generalize hnm : Name.CX = nm at h
  generalize ha : [Val.int (i : Int), Val.int (j : Int)] = args at h
  cases h <;> first | cases hnm; done | skip
  rename_i qs
  obtain ⟨a, b, h1, h2, rfl⟩ := pairArgs_one ha.symm
  exact ⟨a, b, h1, h2, rfl⟩

theorem vgate_cz {i j : Nat} {σ σ' : VState n} (h : VGate api rng .CZ [.int i, .int j] σ σ') :
    ∃ a b : Fin n, a.val = i ∧ b.val = j ∧ σ' = { σ with ψ := (CGate.cz a b).unitary *ᵥ σ.ψ } := by
  generalize hnm : Name.CZ = nm at h
  generalize ha : [Val.int (i : Int), Val.int (j : Int)] = args at h
  cases h <;> first | cases hnm; done | skip
  rename_i qs
  obtain ⟨a, b, h1, h2, rfl⟩ := pairArgs_one ha.symm
  exact ⟨a, b, h1, h2, rfl⟩

theorem vgate_r {i : Nat} {σ σ' : VState n} (h : VGate api rng .R [.int i] σ σ') :
    ∃ q : Fin n, q.val = i ∧ VResetAll rng [q] σ σ' := by
  generalize hnm : Name.R = nm at h
  generalize ha : [Val.int (i : Int)] = args at h
  cases h <;> first | cases hnm; done | skip
  rename_i qs h
  obtain ⟨q, hq, rfl⟩ := qArgs_one ha.symm
  exact ⟨q, hq, h⟩

theorem vgate_m {i : Nat} {σ σ' : VState n} (h : VGate api rng .M [.int i] σ σ') :
    ∃ (q : Fin n) (out : Bool) (σ1 : VState n), q.val = i ∧ VMeas rng q σ out σ1 ∧ σ' = { σ1 with meas := σ1.meas ++ [out] } := by
  generalize hnm : Name.M = nm at h
  generalize ha : [Val.int (i : Int)] = args at h
  cases h <;> first | cases hnm; done | skip
  rename_i qs h
  obtain ⟨q, hq, rfl⟩ := qArgs_one ha.symm
  cases h with
  | cons h hs =>
    cases hs
    exact ⟨q, _, _, hq, h, rfl⟩

theorem vgates_append {l m : List (Name × List (Val F))} {σ σ' : VState n} (h : VGates api rng (l ++ m) σ σ') :
    ∃ σ1, VGates api rng l σ σ1 ∧ VGates api rng m σ1 σ' := by
  induction l generalizing σ with
  | nil => exact ⟨σ, .nil σ, h⟩
  | cons g l ih =>
    cases h with
    | cons h hs =>
      obtain ⟨σ1, h1, h2⟩ := ih hs
      exact ⟨σ1, .cons h h1, h2⟩

/-! ### Preparation of ancillas -/

/-- X (or Z) on one qubit. -/
def xAt (n i : Nat) : Op n := { x := fun q => decide (q.val = i), z := fun _ => false, r := false }

theorem h_zAt {q : Fin n} {i : Nat} (h : q.val = i) : (CGate.h q).row (singleOp false .Z q) = xAt n i := by
  subst h
  unfold CGate.row hRow singleOp xAt
  ext j
  · by_cases hj : j = q
    · subst hj; simp
    · have : ¬ j.val = q.val := fun hc => hj (Fin.ext hc)
      simp [hj, this]
  · by_cases hj : j = q
    · subst hj; simp
    · simp [hj]
  · simp

theorem xAt_idAt {n i j : Nat} (h : i ≠ j) : (xAt n i).IdAt j := by
  intro q hq
  exact ⟨by simp [xAt]; omega, rfl⟩

/-- `R a; H a` for every ancilla. -/
theorem prep_spec (as : List Nat) (hn : as.Nodup) {σ σ' : VState n}
    (h : VGates api rng (as.flatMap fun a => [g1 .R a, g1 .H a]) σ σ') (h0 : σ.ψ ≠ 0) :
    σ'.ψ ≠ 0 ∧ σ'.meas = σ.meas ∧ σ'.erasure = σ.erasure ∧ (∀ a ∈ as, Stabilises (xAt n a) σ'.ψ) ∧
    ∀ p : Op n, (∀ a ∈ as, p.IdAt a) → Stabilises p σ.ψ → Stabilises p σ'.ψ := by
  induction as generalizing σ with
  | nil => cases h; exact ⟨h0, rfl, rfl, by simp, fun _ _ hp => hp⟩
  | cons a as ih =>
    rw [List.nodup_cons] at hn
    cases h with
    | cons hR hs =>
      cases hs with
      | cons hH hs =>
        obtain ⟨q, hq, hR⟩ := vgate_r hR
        obtain ⟨q', hq', hH⟩ := vgate_h hH
        have : q' = q := Fin.ext (by omega)
        subst this
        obtain ⟨r1, r2, r3, r4, r5⟩ := vreset_spec hR
        have e1 := stab_gate (CGate.h q') trivial r1
        rw [h_zAt hq] at e1
        subst hH
        obtain ⟨i1, i2, i3, i4, i5⟩ := ih hn.2 hs (gate_ne_zero (CGate.h q') trivial (r2 h0))
        refine ⟨i1, i2.trans r4, i3.trans r5, ?_, ?_⟩
        · intro b hb
          rcases List.mem_cons.mp hb with rfl | hb
          · exact i5 _ (fun c hc => xAt_idAt (fun he => hn.1 (he ▸ hc))) e1
          · exact i4 b hb
        · intro p hp hs
          have hpa : p.IdAt q'.val := by rw [hq]; exact hp a (by simp)
          have := stab_gate (CGate.h q') trivial (r3 p hpa hs)
          rw [row_idAt_h hpa] at this
          exact i5 p (fun c hc => hp c (by simp [hc])) this

/-! ### Read-out of ancillas -/

/-- Multiplication of operators on different qubits. -/
theorem mulOp_disjoint {a b : Op n} (h : ∀ q, (a.x q = false ∧ a.z q = false) ∨ (b.x q = false ∧ b.z q = false)) :
    mulOp a b = { x := fun q => a.x q ^^ b.x q, z := fun q => a.z q ^^ b.z q, r := a.r ^^ b.r } := by
  have h0 : ∀ q, g (a.x q) (a.z q) (b.x q) (b.z q) = 0 := by
    intro q
    rcases h q with ⟨h1, h2⟩ | ⟨h1, h2⟩ <;> rw [h1, h2]
    · rfl
    · cases a.x q <;> cases a.z q <;> rfl
  have hs : (mul2 0 a b).2 = if (a.r ^^ b.r) then 2 else 0 := by
    rw [mul2_phase]
    unfold gSum
    simp [h0]
  unfold mulOp
  ext q
  · rfl
  · rfl
  · show signBit (mul2 0 a b).2 = _
    rw [hs]
    cases a.r ^^ b.r <;> rfl

/-- The operator that is measured with ancilla `a`, before the last Hadamard gate. -/
def withX (a : Nat) (S : Op n) : Op n := { x := fun q => decide (q.val = a) ^^ S.x q, z := S.z, r := S.r }

/-- The same after the Hadamard gate. -/
def withZ (a : Nat) (S : Op n) : Op n := { x := S.x, z := fun q => decide (q.val = a) ^^ S.z q, r := S.r }

theorem h_withX {q : Fin n} {a : Nat} (hq : q.val = a) {S : Op n} (hS : S.IdAt a) :
    (CGate.h q).row (withX a S) = withZ a S := by
  obtain ⟨hx, hz⟩ := hS q hq
  unfold CGate.row hRow withX withZ
  subst hq
  ext j
  · by_cases hj : j = q
    · subst hj; simp [hx, hz]
    · have : ¬ j.val = q.val := fun hc => hj (Fin.ext hc)
      simp [hj, this]
  · by_cases hj : j = q
    · subst hj; simp [hx, hz]
    · have : ¬ j.val = q.val := fun hc => hj (Fin.ext hc)
      simp [hj, this]
  · simp [hz]

/-- The read-out bit is the value of the operator. -/
theorem withZ_mul {q : Fin n} {a : Nat} (hq : q.val = a) {S : Op n} (hS : S.IdAt a) {m : Bool} {ψ : Vec n}
    (h1 : Stabilises (singleOp m .Z q) ψ) (h2 : Stabilises (withZ a S) ψ) : Stabilises { S with r := S.r ^^ m } ψ := by
  obtain ⟨hx, hz⟩ := hS q hq
  have hd : ∀ i, ((singleOp false .Z q : Op n).x i = false ∧ (singleOp false .Z q : Op n).z i = false) ∨
      (S.x i = false ∧ S.z i = false) := by
    intro i
    by_cases hi : i = q
    · subst hi; exact Or.inr ⟨hx, hz⟩
    · left; simp [singleOp, hi]
  have e : mulOp (singleOp false .Z q) S = withZ a S := by
    rw [mulOp_disjoint hd]
    unfold withZ singleOp
    ext i
    · have : (Letter.Z == .X || Letter.Z == .Y) = false := rfl
      simp [this]
    · have : (decide (i = q) && (Letter.Z == .Z || Letter.Z == .Y)) = decide (i.val = a) := by
        rw [← hq]
        by_cases hi : i = q
        · subst hi; simp
        · have : ¬ i.val = q.val := fun hc => hi (Fin.ext hc)
          simp [hi, this]
      simp only [this]
    · simp
  have hc : anti (singleOp false .Z q) S = false := by
    rw [anti_symm]; exact anti_single_of_x false hx
  have hm : opMat (withZ a S) = opMat (singleOp false .Z q) * opMat S := by rw [← e, opMat_mulOp hc]
  have e2 : (singleOp m .Z q : Op n) = { singleOp false .Z q with r := (singleOp false .Z q : Op n).r ^^ m } := by
    simp [singleOp]
  unfold Stabilises at h1 h2 ⊢
  rw [e2, opMat_neg] at h1
  rw [hm] at h2
  rw [opMat_neg]
  have h3 : opMat (singleOp false .Z q) *ᵥ ψ = opMat S *ᵥ ψ := by
    have := congrArg (fun φ => opMat (singleOp false .Z q) *ᵥ φ) h2
    simp only [Matrix.mulVec_mulVec, ← Matrix.mul_assoc] at this
    rw [opMat_sq, Matrix.one_mul] at this
    exact this.symm
  rw [Matrix.smul_mulVec, ← h3, ← Matrix.smul_mulVec, h1]

theorem withX_idAt {a b : Nat} {S : Op n} (hab : a ≠ b) (h : S.IdAt b) : (withX a S).IdAt b := by
  intro q hq
  obtain ⟨h1, h2⟩ := h q hq
  have : ¬ q.val = a := by omega
  exact ⟨by simp [withX, h1, this], h2⟩

/-- `H a; M a` for every ancilla. -/
theorem read_spec (as : List Nat) (hn : as.Nodup) (S : Nat → Op n) (hid : ∀ a ∈ as, ∀ b ∈ as, (S a).IdAt b)
    {σ σ' : VState n} (h : VGates api rng (as.flatMap fun a => [g1 .H a, g1 .M a]) σ σ') (h0 : σ.ψ ≠ 0)
    (hX : ∀ a ∈ as, Stabilises (withX a (S a)) σ.ψ) :
    σ'.ψ ≠ 0 ∧ σ'.erasure = σ.erasure ∧
    (∃ ms, σ'.meas = σ.meas ++ ms ∧
      List.Forall₂ (fun a m => Stabilises { S a with r := (S a).r ^^ m } σ'.ψ) as ms) ∧
    ∀ p : Op n, (∀ a ∈ as, p.IdAt a) → Stabilises p σ.ψ → Stabilises p σ'.ψ := by
  induction as generalizing σ with
  | nil => cases h; exact ⟨h0, rfl, ⟨[], by simp, .nil⟩, fun _ _ hp => hp⟩
  | cons a as ih =>
    rw [List.nodup_cons] at hn
    cases h with
    | cons hH hs =>
      cases hs with
      | cons hM hs =>
        obtain ⟨q, hq, hH⟩ := vgate_h hH
        obtain ⟨q', out, σ2, hq', hM, hσ⟩ := vgate_m hM
        have : q' = q := Fin.ext (by omega)
        subst this
        subst hH
        obtain ⟨m1, m2, m3, m4, m5⟩ := vmeas_spec hM
        have hSa : (S a).IdAt a := hid a (by simp) a (by simp)
        have e1 := stab_gate (CGate.h q') trivial (hX a (by simp))
        rw [h_withX hq hSa] at e1
        have e2 := m3 _ (anti_single_of_x false (by exact (hSa q' hq).1)) e1
        have e3 := withZ_mul hq hSa m1 e2
        have keep : ∀ p : Op n, p.IdAt a → Stabilises p σ.ψ → Stabilises p σ2.ψ := by
          intro p hp hs
          have hpa : p.IdAt q'.val := by rw [hq]; exact hp
          have := stab_gate (CGate.h q') trivial hs
          rw [row_idAt_h hpa] at this
          exact m3 p (anti_single_of_x false (hpa q' rfl).1) this
        subst hσ
        obtain ⟨i1, i2, ⟨ms, i3, i4⟩, i5⟩ := ih hn.2 (fun b hb c hc => hid b (by simp [hb]) c (by simp [hc])) hs
          (m2 (gate_ne_zero (CGate.h q') trivial h0))
          (fun b hb => keep _ (withX_idAt (fun he => hn.1 (he ▸ hb)) (hid b (by simp [hb]) a (by simp))) (hX b (by simp [hb])))
        refine ⟨i1, i2.trans m5, ⟨out :: ms, ?_, .cons ?_ i4⟩, ?_⟩
        · rw [i3]
          show σ2.meas ++ [out] ++ ms = _
          rw [m4]; simp
        · exact i5 _ (fun b hb => hid a (by simp) b (by simp [hb])) e3
        · intro p hp hs
          exact i5 p (fun c hc => hp c (by simp [hc])) (keep p (hp a (by simp)) hs)

/-! ### The controlled gates -/

/-- The controlled Pauli gate of an edge. -/
def ctlGate (c t : Fin n) (l : Letter) : CGate n := if l = .X then .cx c t else .cz c t

/-- The instruction of an edge. -/
def ctl (idx : Pos → Nat) (e : LEdge) : Name × List (Val F) :=
  g2 (if e.factor = .X then .CX else .CZ) (idx e.op) (idx e.data)

/-- Conjugation of an operator by the gate of an edge. -/
def pushE (idx : Pos → Nat) (p : Op n) (e : LEdge) : Op n :=
  if h : idx e.op < n ∧ idx e.data < n then (ctlGate ⟨idx e.op, h.1⟩ ⟨idx e.data, h.2⟩ e.factor).row p else p

theorem ctlGate_ok {c t : Fin n} (l : Letter) (h : c ≠ t) : (ctlGate c t l).Ok := by
  unfold ctlGate; split <;> exact h

theorem vgate_ctl (idx : Pos → Nat) {e : LEdge} {σ σ' : VState n} (h : VGate api rng (ctl idx e : Name × List (Val F)).1 (ctl idx e).2 σ σ') :
    ∃ c t : Fin n, c.val = idx e.op ∧ t.val = idx e.data ∧ σ' = { σ with ψ := (ctlGate c t e.factor).unitary *ᵥ σ.ψ } := by
  unfold ctl g2 at h
  unfold ctlGate
  by_cases hX : e.factor = .X
  · simp only [hX, if_true] at h ⊢
    exact vgate_cx h
  · simp only [hX, if_false] at h ⊢
    exact vgate_cz h

theorem ctl_spec (idx : Pos → Nat) (es : List LEdge) (hne : ∀ e ∈ es, idx e.op ≠ idx e.data) {σ σ' : VState n}
    (h : VGates api rng (es.map (ctl idx)) σ σ') (h0 : σ.ψ ≠ 0) :
    σ'.ψ ≠ 0 ∧ σ'.meas = σ.meas ∧ σ'.erasure = σ.erasure ∧ (∀ e ∈ es, idx e.op < n ∧ idx e.data < n) ∧
    ∀ p : Op n, Stabilises p σ.ψ → Stabilises (es.foldl (pushE idx) p) σ'.ψ := by
  induction es generalizing σ with
  | nil => cases h; exact ⟨h0, rfl, rfl, by simp, fun _ hp => hp⟩
  | cons e es ih =>
    cases h with
    | cons h hs =>
      obtain ⟨c, t, hc, ht, rfl⟩ := vgate_ctl idx h
      have hok : (ctlGate c t e.factor).Ok := ctlGate_ok _ (fun he => hne e (by simp) (by rw [← hc, ← ht, he]))
      obtain ⟨i1, i2, i3, i4, i5⟩ := ih (fun e he => hne e (by simp [he])) hs (gate_ne_zero _ hok h0)
      have hlt : idx e.op < n ∧ idx e.data < n := by rw [← hc, ← ht]; exact ⟨c.2, t.2⟩
      refine ⟨i1, i2, i3, ?_, ?_⟩
      · intro e' he'
        rcases List.mem_cons.mp he' with rfl | he'
        · exact hlt
        · exact i4 e' he'
      · intro p hp
        have := stab_gate _ hok hp
        rw [List.foldl_cons]
        refine i5 _ ?_
        unfold pushE
        rw [dif_pos hlt]
        have e1 : (⟨idx e.op, hlt.1⟩ : Fin n) = c := Fin.ext hc.symm
        have e2 : (⟨idx e.data, hlt.2⟩ : Fin n) = t := Fin.ext ht.symm
        rw [e1, e2]
        exact this

/-- The X or Z bit of an operator at a data qubit that is seen by the gate of an edge. -/
def Op.seen (p : Op n) (idx : Pos → Nat) (e : LEdge) : Bool :=
  if h : idx e.data < n then (if e.factor = .X then p.z ⟨_, h⟩ else p.x ⟨_, h⟩) else false

/-- An operator that does not act on the ancilla of the edge. -/
theorem pushE_off (idx : Pos → Nat) (p : Op n) (e : LEdge) (hlt : idx e.op < n ∧ idx e.data < n) (hne : idx e.op ≠ idx e.data)
    (hx : p.x ⟨_, hlt.1⟩ = false) :
    pushE idx p e = { x := p.x, z := fun q => p.z q ^^ (decide (q.val = idx e.op) && p.seen idx e), r := p.r } := by
  unfold pushE Op.seen
  rw [dif_pos hlt, dif_pos hlt.2]
  have hct : (⟨idx e.op, hlt.1⟩ : Fin n) ≠ ⟨idx e.data, hlt.2⟩ := fun h => hne (congrArg Fin.val h)
  generalize hc : (⟨idx e.op, hlt.1⟩ : Fin n) = c at *
  generalize ht : (⟨idx e.data, hlt.2⟩ : Fin n) = t at *
  have hcv : ∀ q : Fin n, (q.val = idx e.op) ↔ q = c := by
    intro q; rw [← hc]; exact ⟨fun h => Fin.ext h, fun h => congrArg Fin.val h⟩
  unfold ctlGate
  by_cases hX : e.factor = .X
  · simp only [hX, if_true, CGate.row, cxRow]
    ext q
    · by_cases hq : q = t
      · subst hq; simp [hx]
      · simp [hq]
    · by_cases hq : q = c
      · subst hq; simp [(hcv q).mpr rfl]
      · simp [hq, hcv]
    · simp [hx]
  · simp only [hX, if_false, CGate.row, czRow]
    ext q
    · rfl
    · by_cases hq : q = c
      · subst hq
        simp [(hcv q).mpr rfl, hct]
      · by_cases hq' : q = t
        · subst hq'; simp [hq, hx, hcv]
        · simp [hq, hq', hcv]
    · simp [hx]

/-- The operator with the factor of the edge added. -/
def onOp (idx : Pos → Nat) (p : Op n) (e : LEdge) : Op n where
  x q := (decide (idx e.data = q.val) && e.factor.hasX) ^^ p.x q
  z q := (decide (idx e.data = q.val) && e.factor.hasZ) ^^ p.z q
  r := p.r

/-- The operator of the ancilla of the edge, which does not act on the data qubit yet. -/
theorem pushE_on (idx : Pos → Nat) (p : Op n) (e : LEdge) (hlt : idx e.op < n ∧ idx e.data < n) (hne : idx e.op ≠ idx e.data)
    (hx : p.x ⟨_, hlt.1⟩ = true) (hd : p.IdAt (idx e.data)) (hY : e.factor ≠ .Y) :
    pushE idx p e = onOp idx p e := by
  unfold pushE onOp
  rw [dif_pos hlt]
  have hct : (⟨idx e.op, hlt.1⟩ : Fin n) ≠ ⟨idx e.data, hlt.2⟩ := fun h => hne (congrArg Fin.val h)
  obtain ⟨dx, dz⟩ := hd ⟨idx e.data, hlt.2⟩ rfl
  generalize hc : (⟨idx e.op, hlt.1⟩ : Fin n) = c at *
  generalize ht : (⟨idx e.data, hlt.2⟩ : Fin n) = t at *
  have htv : ∀ q : Fin n, (idx e.data = q.val) ↔ q = t := by
    intro q; rw [← ht]; exact ⟨fun h => Fin.ext h.symm, fun h => (congrArg Fin.val h).symm⟩
  unfold ctlGate
  cases hf : e.factor with
  | Y => exact absurd hf hY
  | X =>
    simp only [if_true, CGate.row, cxRow, Letter.hasX, Letter.hasZ]
    ext q
    · by_cases hq : q = t
      · subst hq; simp [hx, dx, (htv q).mpr rfl]
      · simp [hq, htv]
    · by_cases hq : q = c
      · subst hq; simp [dz]
      · simp [hq]
    · simp [dz]
  | Z =>
    simp only [CGate.row, czRow, Letter.hasX, Letter.hasZ]
    rw [if_neg (by decide)]
    ext q
    · simp [CGate.row, czRow]
    · simp only [CGate.row, czRow]
      by_cases hq : q = t
      · subst hq; simp [hx, dz, (htv q).mpr rfl, Ne.symm hct]
      · by_cases hq' : q = c
        · subst hq'; simp [dx, htv, hq]
        · simp [hq, hq', htv]
    · simp [CGate.row, czRow, dx]

/-- Does an operator anticommute with the factor of an edge? -/
theorem anti_edge_seen (idx : Pos → Nat) (p : Op n) (e : LEdge) (hlt : idx e.data < n) (hY : e.factor ≠ .Y) :
    anti p (edgesOp idx n [e]) = p.seen idx e := by
  unfold anti Op.seen
  rw [dif_pos hlt, Finset.sum_eq_single (⟨idx e.data, hlt⟩ : Fin n)]
  · simp only [edgesOp, xorSum_cons, xorSum_nil, Bool.xor_false, decide_true, Bool.true_and]
    cases hf : e.factor with
    | Y => exact absurd hf hY
    | X => simp only [Letter.hasX, Letter.hasZ, if_true]; cases p.x ⟨idx e.data, hlt⟩ <;> cases p.z ⟨idx e.data, hlt⟩ <;> rfl
    | Z =>
      simp only [Letter.hasX, Letter.hasZ]
      rw [if_neg (by decide)]
      cases p.x ⟨idx e.data, hlt⟩ <;> cases p.z ⟨idx e.data, hlt⟩ <;> rfl
  · intro q _ hq
    have : ¬ idx e.data = q.val := fun hc => hq (Fin.ext hc.symm)
    simp [edgesOp, this, bit]
  · simp

theorem anti_edges_seen (idx : Pos → Nat) (p : Op n) (es : List LEdge) (hlt : ∀ e ∈ es, idx e.data < n)
    (hY : ∀ e ∈ es, e.factor ≠ .Y) : anti p (edgesOp idx n es) = xorSum es (p.seen idx) := by
  induction es with
  | nil => rw [anti_symm, anti_edgesOp_nil]; rfl
  | cons e es ih =>
    rw [anti_symm, anti_edgesOp_cons, anti_symm _ p, anti_symm _ p, anti_edge_seen idx p e (hlt e (by simp)) (hY e (by simp)),
      ih (fun e he => hlt e (by simp [he])) (fun e he => hY e (by simp [he]))]
    rfl

/-- **An operator without X or Y on the ancillas**, through all the gates. -/
theorem push_off (idx : Pos → Nat) (es : List LEdge) (hlt : ∀ e ∈ es, idx e.op < n ∧ idx e.data < n)
    (hne : ∀ e ∈ es, ∀ e' ∈ es, idx e.op ≠ idx e'.data) (p : Op n)
    (hx : ∀ q : Fin n, (∃ e ∈ es, idx e.op = q.val) → p.x q = false) :
    es.foldl (pushE idx) p =
      { x := p.x, z := fun q => p.z q ^^ xorSum es (fun e => decide (q.val = idx e.op) && p.seen idx e), r := p.r } := by
  induction es generalizing p with
  | nil => simp
  | cons e es ih =>
    rw [List.foldl_cons, pushE_off idx p e (hlt e (by simp)) (hne e (by simp) e (by simp)) (hx _ ⟨e, by simp, rfl⟩),
      ih (fun e he => hlt e (by simp [he])) (fun a ha b hb => hne a (by simp [ha]) b (by simp [hb]))
        { x := p.x, z := fun q => p.z q ^^ (decide (q.val = idx e.op) && p.seen idx e), r := p.r }
        (fun q ⟨e', he', h'⟩ => hx q ⟨e', by simp [he'], h'⟩)]
    ext q
    · rfl
    · simp only [xorSum_cons]
      have : ∀ e' ∈ es, Op.seen { x := p.x, z := fun q => p.z q ^^ (decide (q.val = idx e.op) && p.seen idx e), r := p.r } idx e' =
          p.seen idx e' := by
        intro e' he'
        unfold Op.seen
        have : ¬ idx e'.data = idx e.op := fun h => hne e (by simp) e' (by simp [he']) h.symm
        simp [this]
      rw [xorSum_congr (fun e' he' => by rw [this e' he']), Bool.xor_assoc]
    · rfl

/-- A data operator that commutes with the measured operators does not change. -/
theorem push_data (idx : Pos → Nat) (as : List Pos) (es : List LEdge) (hlt : ∀ e ∈ es, idx e.op < n ∧ idx e.data < n)
    (hne : ∀ e ∈ es, ∀ e' ∈ es, idx e.op ≠ idx e'.data) (hY : ∀ e ∈ es, e.factor ≠ .Y) (hop : ∀ e ∈ es, e.op ∈ as)
    (hinj : ∀ a ∈ as, ∀ b ∈ as, idx a = idx b → a = b) (p : Op n) (hid : ∀ a ∈ as, p.IdAt (idx a))
    (hc : ∀ a ∈ as, anti p (edgesOp idx n (es.filter fun e => e.op = a)) = false) : es.foldl (pushE idx) p = p := by
  rw [push_off idx es hlt hne p (fun q ⟨e, he, h⟩ => (hid e.op (hop e he) q h.symm).1)]
  ext q
  · rfl
  · show (p.z q ^^ _) = _
    rw [show xorSum es (fun e => decide (q.val = idx e.op) && p.seen idx e) = false from ?_, Bool.xor_false]
    by_cases h : ∃ a ∈ as, idx a = q.val
    · obtain ⟨a, ha, haq⟩ := h
      have := hc a ha
      rw [anti_edges_seen idx p _ (fun e he => (hlt e (List.mem_filter.mp he).1).2)
        (fun e he => hY e (List.mem_filter.mp he).1), xorSum_filter] at this
      rw [← this]
      refine xorSum_congr fun e he => ?_
      congr 1
      rw [decide_eq_decide, ← haq]
      exact ⟨fun h => (hinj a ha e.op (hop e he) h).symm, fun h => by rw [h]⟩
    · refine xorSum_false fun e he => ?_
      have : ¬ q.val = idx e.op := fun hq => h ⟨e.op, hop e he, hq.symm⟩
      simp [this]
  · rfl

/-- Parity of the crossings: pairs of a gate of ancilla `a` and a later gate of the ancilla with index `q`, on the same data
qubit and with another letter. The list is in reversed order (last gate first). -/
def crossR (idx : Pos → Nat) (a : Pos) (q : Nat) : List LEdge → Bool
  | [] => false
  | e :: l => crossR idx a q l ^^ (decide (q = idx e.op) && decide (e.op ≠ a) && xorSum (l.filter fun f => f.op = a) (pairAnti e))

theorem crossR_eq_false (idx : Pos → Nat) (a : Pos) (q : Nat) (l : List LEdge) (h : ∀ e ∈ l, q ≠ idx e.op) :
    crossR idx a q l = false := by
  induction l with
  | nil => rfl
  | cons e l ih =>
    rw [crossR, ih (fun e he => h e (by simp [he]))]
    simp [h e (by simp)]

/-- The operator of an ancilla after the gates. -/
def ancOp (idx : Pos → Nat) (n : Nat) (a : Pos) (l : List LEdge) : Op n where
  x q := decide (q.val = idx a) ^^ (edgesOp idx n (l.filter fun e => e.op = a)).x q
  z q := (edgesOp idx n (l.filter fun e => e.op = a)).z q ^^ crossR idx a q.val l
  r := false

/-- **The operator of an ancilla** through all the gates (list in reversed order). -/
theorem push_anc (idx : Pos → Nat) (a : Pos) (l : List LEdge) (hlt : ∀ e ∈ l, idx e.op < n ∧ idx e.data < n)
    (hne : ∀ e ∈ l, ∀ e' ∈ l, idx e.op ≠ idx e'.data) (hna : ∀ e ∈ l, idx a ≠ idx e.data) (hY : ∀ e ∈ l, e.factor ≠ .Y)
    (hop : ∀ e ∈ l, idx e.op = idx a → e.op = a)
    (hdata : ∀ e ∈ l, ∀ e' ∈ l, idx e.data = idx e'.data → e.data = e'.data)
    (hnd : ((l.filter fun e => e.op = a).map LEdge.data).Nodup) :
    l.foldr (fun e p => pushE idx p e) (xAt n (idx a)) =
      ancOp idx n a l := by
  induction l with
  | nil => simp [xAt, edgesOp, crossR, ancOp]
  | cons e l ih =>
    have hnd' : ((l.filter fun e => e.op = a).map LEdge.data).Nodup := by
      rw [List.filter_cons] at hnd
      split at hnd
      · exact (List.nodup_cons.mp hnd).2
      · exact hnd
    rw [List.foldr_cons, ih (fun e he => hlt e (by simp [he])) (fun a ha b hb => hne a (by simp [ha]) b (by simp [hb]))
      (fun e he => hna e (by simp [he])) (fun e he => hY e (by simp [he])) (fun e he => hop e (by simp [he]))
      (fun a ha b hb => hdata a (by simp [ha]) b (by simp [hb])) hnd']
    have hle := hlt e (by simp)
    have hee := hne e (by simp) e (by simp)
    -- bits at ancillas
    have hbx : ∀ q : Fin n, (∃ e' ∈ e :: l, q.val = idx e'.op) ∨ q.val = idx a →
        (edgesOp idx n (l.filter fun e => e.op = a)).x q = false := by
      intro q hq
      refine xorSum_false fun f hf => ?_
      have hf := (List.mem_filter.mp hf).1
      have : ¬ idx f.data = q.val := by
        rcases hq with ⟨e', he', h⟩ | h
        · rw [h]; exact fun hc => hne e' he' f (by simp [hf]) hc.symm
        · rw [h]; exact fun hc => hna f (by simp [hf]) hc.symm
      simp [this]
    have hcross : crossR idx a (idx e.data) l = false :=
      crossR_eq_false idx a _ l fun f hf => fun hc => hne f (by simp [hf]) e (by simp) hc.symm
    by_cases hea : e.op = a
    · have hid : Op.IdAt (ancOp idx n a l) (idx e.data) := by
        intro q hq
        have hno : ∀ f ∈ l.filter (fun e => e.op = a), ¬ idx f.data = q.val := by
          intro f hf hc
          rw [hq] at hc
          have hfl := (List.mem_filter.mp hf).1
          have := hdata f (by simp [hfl]) e (by simp) hc
          rw [List.filter_cons, if_pos (by simp [hea]), List.map_cons, List.nodup_cons] at hnd
          exact hnd.1 (List.mem_map.mpr ⟨f, hf, this⟩)
        constructor
        · have h1 : ¬ q.val = idx a := by rw [hq]; exact fun hc => hna e (by simp) hc.symm
          have h2 : (edgesOp idx n (l.filter fun e => e.op = a)).x q = false :=
            xorSum_false fun f hf => by simp [hno f hf]
          simp [ancOp, h1, h2]
        · have h2 : (edgesOp idx n (l.filter fun e => e.op = a)).z q = false :=
            xorSum_false fun f hf => by simp [hno f hf]
          simp only [ancOp, h2, hq, hcross]; rfl
      rw [pushE_on idx _ e hle hee (by
        show (decide (idx e.op = idx a) ^^ _) = true
        rw [hbx ⟨_, hle.1⟩ (Or.inl ⟨e, by simp, rfl⟩)]; simp [hea]) hid (hY e (by simp))]
      unfold onOp ancOp
      rw [List.filter_cons, if_pos (by simp [hea])]
      ext q
      · simp only [edgesOp, xorSum_cons]
        rw [Bool.xor_left_comm]
      · simp only [edgesOp, xorSum_cons, crossR, hea]
        simp [Bool.xor_assoc]
      · rfl
    · have hidx : ¬ idx e.op = idx a := fun hc => hea (hop e (by simp) hc)
      rw [pushE_off idx _ e hle hee (by simp only [ancOp, hbx ⟨_, hle.1⟩ (Or.inl ⟨e, by simp, rfl⟩)]; simp [hidx])]
      have hfil : ((e :: l).filter fun e => e.op = a) = l.filter fun e => e.op = a := by
        rw [List.filter_cons, if_neg (by simp [hea])]
      ext q
      · simp only [ancOp, hfil]
      · simp only [ancOp, crossR, hfil]
        have hs : Op.seen (ancOp idx n a l) idx e =
            xorSum (l.filter fun f => f.op = a) (pairAnti e) := by
          unfold Op.seen ancOp
          rw [dif_pos hle.2]
          have h1 : ¬ idx e.data = idx a := fun hc => hna e (by simp) hc.symm
          cases hf : e.factor with
          | Y => exact absurd hf (hY e (by simp))
          | X =>
            simp only [if_true, hcross, Bool.xor_false, edgesOp]
            refine xorSum_congr fun f hfm => ?_
            have hfl := (List.mem_filter.mp hfm).1
            unfold pairAnti
            rw [hf]
            have e1 : decide (idx f.data = idx e.data) = decide (e.data = f.data) := by
              rw [decide_eq_decide]
              exact ⟨fun h => (hdata f (by simp [hfl]) e (by simp) h).symm, fun h => by rw [h]⟩
            rw [e1]
            congr 1
            cases hff : f.factor with
            | Y => exact absurd hff (hY f (by simp [hfl]))
            | X => rfl
            | Z => rfl
          | Z =>
            simp only [h1, decide_false, Bool.false_xor, edgesOp]
            rw [if_neg (by decide)]
            refine xorSum_congr fun f hfm => ?_
            have hfl := (List.mem_filter.mp hfm).1
            unfold pairAnti
            rw [hf]
            have e1 : decide (idx f.data = idx e.data) = decide (e.data = f.data) := by
              rw [decide_eq_decide]
              exact ⟨fun h => (hdata f (by simp [hfl]) e (by simp) h).symm, fun h => by rw [h]⟩
            rw [e1]
            congr 1
            cases hff : f.factor with
            | Y => exact absurd hff (hY f (by simp [hfl]))
            | X => rfl
            | Z => rfl
        show ((_ ^^ _) ^^ (_ && Op.seen (ancOp idx n a l) idx e)) = _
        rw [hs]
        simp [hea, Bool.xor_assoc]
      · rfl

/-! ### Blocks -/

/-- The crossings of two ancillas cancel if the gates are sorted by a rank and one of the two ancillas acts first on all
the data qubits where the letters differ. -/
theorem crossR_of_order (idx : Pos → Nat) (st : LEdge → Nat) (a b : Pos) (hab : a ≠ b) (l : List LEdge)
    (hop : ∀ e ∈ l, idx e.op = idx b → e.op = b) (hs : l.Pairwise fun x y => st y ≤ st x)
    (hord : (∀ e ∈ l, ∀ f ∈ l, e.op = a → f.op = b → pairAnti e f = true → st e < st f) ∨
      (∀ e ∈ l, ∀ f ∈ l, e.op = a → f.op = b → pairAnti e f = true → st f < st e))
    (hc : antiE (l.filter fun e => e.op = b) (l.filter fun e => e.op = a) = false) : crossR idx a (idx b) l = false := by
  rcases hord with hord | hord
  · rw [← hc]
    clear hc
    induction l with
    | nil => rfl
    | cons e l ih =>
      rw [List.pairwise_cons] at hs
      rw [crossR, ih (fun e he => hop e (by simp [he])) hs.2 (fun e he f hf => hord e (by simp [he]) f (by simp [hf]))]
      by_cases hea : e.op = a
      · have heb : ¬ e.op = b := fun h => hab (hea ▸ h)
        rw [List.filter_cons, if_neg (by simp [heb]), List.filter_cons, if_pos (by simp [hea])]
        rw [antiE_symm _ (e :: _), antiE_cons_left, antiE_symm]
        rw [show xorSum (l.filter fun e => e.op = b) (pairAnti e) = false from ?_]
        · simp [hea]
        · refine xorSum_false fun f hf => ?_
          obtain ⟨hfl, hfb⟩ := List.mem_filter.mp hf
          simp only [decide_eq_true_eq] at hfb
          cases hp : pairAnti e f with
          | false => rfl
          | true =>
            have h1 := hord e (by simp) f (by simp [hfl]) hea hfb hp
            have h2 := hs.1 f hfl
            omega
      · by_cases heb : e.op = b
        · rw [List.filter_cons, if_pos (by simp [heb]), List.filter_cons, if_neg (by simp [hea]), antiE_cons_left]
          have hba : b ≠ a := fun h => hab h.symm
          simp only [heb, decide_true, Bool.true_and, ne_eq, hba, not_false_eq_true]
          rw [Bool.xor_comm]
        · have : ¬ idx b = idx e.op := fun h => heb (hop e (by simp) h.symm)
          rw [List.filter_cons, if_neg (by simp [heb]), List.filter_cons, if_neg (by simp [hea])]
          simp [this]
  · clear hc
    induction l with
    | nil => rfl
    | cons e l ih =>
      rw [List.pairwise_cons] at hs
      rw [crossR, ih (fun e he => hop e (by simp [he])) hs.2 (fun e he f hf => hord e (by simp [he]) f (by simp [hf]))]
      by_cases heb : idx b = idx e.op
      · have heb' := hop e (by simp) heb.symm
        rw [xorSum_false]
        · simp
        · intro f hf
          obtain ⟨hfl, hfa⟩ := List.mem_filter.mp hf
          simp only [decide_eq_true_eq] at hfa
          cases hp : pairAnti e f with
          | false => rfl
          | true =>
            rw [pairAnti_symm] at hp
            have h1 := hord f (by simp [hfl]) e (by simp) hfa heb' hp
            have h2 := hs.1 f hfl
            omega
      · simp [heb]

theorem forall₂_imp_mem {α β : Type*} {R S : α → β → Prop} {l : List α} {m : List β} (h : ∀ a b, a ∈ l → R a b → S a b)
    (hR : List.Forall₂ R l m) : List.Forall₂ S l m := by
  induction hR with
  | nil => exact .nil
  | cons h1 _ ih => exact .cons (h _ _ (by simp) h1) (ih fun a b ha => h a b (by simp [ha]))

/-- The list of gates of a block of measured operators. -/
def blockGates (idx : Pos → Nat) (as : List Pos) (es : List LEdge) : List (Name × List (Val F)) :=
  (as.map idx).flatMap (fun a => [g1 .R a, g1 .H a]) ++ (es.map (ctl idx) ++ (as.map idx).flatMap (fun a => [g1 .H a, g1 .M a]))

/-- What the edges and ancillas of a block have to satisfy. -/
structure BlockOk (idx : Pos → Nat) (as : List Pos) (es : List LEdge) : Prop where
  nodup : as.Nodup
  inj : ∀ a ∈ as, ∀ b ∈ as, idx a = idx b → a = b
  op : ∀ e ∈ es, e.op ∈ as
  apart : ∀ a ∈ as, ∀ e ∈ es, idx a ≠ idx e.data
  data : ∀ e ∈ es, ∀ e' ∈ es, idx e.data = idx e'.data → e.data = e'.data
  noY : ∀ e ∈ es, e.factor ≠ .Y
  once : ∀ a ∈ as, ((es.filter fun e => e.op = a).map LEdge.data).Nodup
  cross : ∀ a ∈ as, ∀ b ∈ as, a ≠ b → crossR idx a (idx b) es.reverse = false

/-- The operator of ancilla `a` in a block, on `n` qubits. -/
abbrev blockOp (idx : Pos → Nat) (n : Nat) (es : List LEdge) (a : Pos) : Op n := edgesOp idx n (es.filter fun e => e.op = a)

/-- The first part of measuring a block: ancillas are prepared and the controlled gates applied. -/
theorem block_front (idx : Pos → Nat) (as : List Pos) (es : List LEdge) (hB : BlockOk idx as es) {σ σ1 σ2 : VState n}
    (h1 : VGates api rng ((as.map idx).flatMap fun a => [g1 .R a, g1 .H a]) σ σ1) (h2 : VGates api rng (es.map (ctl idx)) σ1 σ2) (h0 : σ.ψ ≠ 0) :
    (as.map idx).Nodup ∧ σ2.ψ ≠ 0 ∧ σ2.meas = σ.meas ∧ σ2.erasure = σ.erasure ∧
    (∃ S : Nat → Op n, (∀ a ∈ as, S (idx a) = blockOp idx n es a) ∧ (∀ i ∈ as.map idx, ∀ j ∈ as.map idx, (S i).IdAt j) ∧
      ∀ i ∈ as.map idx, Stabilises (withX i (S i)) σ2.ψ) ∧
    ∀ p : Op n, (∀ a ∈ as, p.IdAt (idx a)) → (∀ a ∈ as, anti p (blockOp idx n es a) = false) →
      Stabilises p σ.ψ → Stabilises p σ2.ψ := by
  have hnd : (as.map idx).Nodup := by
    rw [List.Nodup, List.pairwise_map]
    exact hB.nodup.imp_of_mem fun ha hb hab he => hab (hB.inj _ ha _ hb he)
  obtain ⟨p1, p2, p3, p4, p5⟩ := prep_spec _ hnd h1 h0
  obtain ⟨c1, c2, c3, c4, c5⟩ := ctl_spec idx es (fun e he => hB.apart _ (hB.op e he) e he) h2 p1
  have hne : ∀ e ∈ es, ∀ e' ∈ es, idx e.op ≠ idx e'.data := fun e he e' he' => hB.apart _ (hB.op e he) e' he'
  -- the operator at index `i`
  let S : Nat → Op n := fun i => match as.find? (fun a => idx a = i) with
    | some a => blockOp idx n es a
    | none => idOp n
  have hS : ∀ a ∈ as, S (idx a) = blockOp idx n es a := by
    intro a ha
    have : as.find? (fun b => idx b = idx a) = some a := by
      cases hf : as.find? (fun b => idx b = idx a) with
      | none =>
        rw [List.find?_eq_none] at hf
        exact absurd (decide_eq_true rfl) (hf a ha)
      | some b =>
        have h1 := List.find?_some hf
        have h1 : idx b = idx a := of_decide_eq_true h1
        rw [hB.inj b (List.mem_of_find?_eq_some hf) a ha h1]
    simp only [S, this]
  have hid : ∀ a ∈ as, ∀ b ∈ as, (blockOp idx n es a).IdAt (idx b) := by
    intro a _ b hb q hq
    have : ∀ f ∈ es.filter (fun e => e.op = a), ¬ idx f.data = q.val := by
      intro f hf hc
      exact hB.apart b hb f (List.mem_filter.mp hf).1 (by rw [hc, hq])
    exact ⟨xorSum_false fun f hf => by simp [this f hf], xorSum_false fun f hf => by simp [this f hf]⟩
  have hX : ∀ i ∈ as.map idx, Stabilises (withX i (S i)) σ2.ψ := by
    intro i hi
    obtain ⟨a, ha, rfl⟩ := List.mem_map.mp hi
    rw [hS a ha]
    have := c5 _ (p4 _ hi)
    rw [← List.foldr_reverse] at this
    rw [push_anc idx a es.reverse (fun e he => c4 e (by simpa using he))
      (fun e he e' he' => hne e (by simpa using he) e' (by simpa using he'))
      (fun e he => hB.apart a ha e (by simpa using he)) (fun e he => hB.noY e (by simpa using he))
      (fun e he hi => hB.inj _ (hB.op e (by simpa using he)) a ha hi)
      (fun e he e' he' => hB.data e (by simpa using he) e' (by simpa using he'))
      (by rw [List.filter_reverse, List.map_reverse, List.nodup_reverse]; exact hB.once a ha)] at this
    have e : ancOp idx n a es.reverse = withX (idx a) (blockOp idx n es a) := by
      have hperm : ((es.reverse.filter fun e => e.op = a)).Perm (es.filter fun e => e.op = a) := by
        rw [List.filter_reverse]; exact List.reverse_perm _
      unfold ancOp withX
      ext q
      · simp only [edgesOp, xorSum_perm hperm]
      · simp only [edgesOp, xorSum_perm hperm]
        rw [show crossR idx a q.val es.reverse = false from ?_, Bool.xor_false]
        by_cases hb : ∃ b ∈ as, b ≠ a ∧ idx b = q.val
        · obtain ⟨b, hb, hne, hq⟩ := hb
          rw [← hq]; exact hB.cross a ha b hb (Ne.symm hne)
        · by_cases hq : idx a = q.val
          · rw [← hq]
            generalize hr : es.reverse = l
            have hl : ∀ e ∈ l, e.op ∈ as := fun e he => hB.op e (by rw [← hr] at he; simpa using he)
            clear hr
            induction l with
            | nil => rfl
            | cons e l ih =>
              rw [crossR, ih (fun e he => hl e (by simp [he]))]
              by_cases he : idx a = idx e.op
              · have := hB.inj a ha e.op (hl e (by simp)) he
                simp [this]
              · simp [he]
          · refine crossR_eq_false idx a _ _ fun e he hc => ?_
            have hea := hB.op e (by simpa using he)
            apply hb
            exact ⟨e.op, hea, fun h => hq (by rw [← h]; exact hc.symm), hc.symm⟩
      · rfl
    rwa [e] at this
  refine ⟨hnd, c1, c2.trans p2, c3.trans p3, ⟨S, hS, ?_, hX⟩, ?_⟩
  · intro i hi j hj
    obtain ⟨a, ha, rfl⟩ := List.mem_map.mp hi
    obtain ⟨b, hb, rfl⟩ := List.mem_map.mp hj
    rw [hS a ha]; exact hid a ha b hb
  · intro p hp hc hs
    have := c5 p (p5 p (fun i hi => by
      obtain ⟨a, ha, rfl⟩ := List.mem_map.mp hi
      exact hp a ha) hs)
    rwa [push_data idx as es c4 hne hB.noY hB.op hB.inj p hp hc] at this

/-- **Measuring a block of operators**: the results are the values of the operators in the final state, and every operator
on the other qubits that commutes with the measured operators keeps its value. -/
theorem block_spec (idx : Pos → Nat) (as : List Pos) (es : List LEdge) (hB : BlockOk idx as es) {σ σ' : VState n}
    (h : VGates api rng (blockGates idx as es) σ σ') (h0 : σ.ψ ≠ 0) :
    σ'.ψ ≠ 0 ∧ σ'.erasure = σ.erasure ∧
    (∃ ms, σ'.meas = σ.meas ++ ms ∧ List.Forall₂ (fun a m => Stabilises { blockOp idx n es a with r := m } σ'.ψ) as ms) ∧
    ∀ p : Op n, (∀ a ∈ as, p.IdAt (idx a)) → (∀ a ∈ as, anti p (blockOp idx n es a) = false) →
      Stabilises p σ.ψ → Stabilises p σ'.ψ := by
  unfold blockGates at h
  obtain ⟨σ1, h1, h⟩ := vgates_append h
  obtain ⟨σ2, h2, h3⟩ := vgates_append h
  obtain ⟨hnd, c1, c2, c3, ⟨S, hS, hid, hX⟩, c5⟩ := block_front idx as es hB h1 h2 h0
  obtain ⟨r1, r2, ⟨ms, r3, r4⟩, r5⟩ := read_spec (as.map idx) hnd S hid h3 c1 hX
  refine ⟨r1, r2.trans c3, ⟨ms, ?_, ?_⟩, ?_⟩
  · rw [r3, c2]
  · rw [List.forall₂_map_left_iff] at r4
    refine forall₂_imp_mem ?_ r4
    intro a m ha hs
    rw [hS a ha] at hs
    have : (blockOp idx n es a).r = false := rfl
    simpa [this] using hs
  · intro p hp hc hs
    refine r5 p (fun i hi => ?_) (c5 p hp hc hs)
    obtain ⟨a, ha, rfl⟩ := List.mem_map.mp hi
    exact hp a ha

end Plaquette
