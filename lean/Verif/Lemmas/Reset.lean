import Verif.Lemmas.Measure

/-! Helper lemmas about `reset_qubits_to_eigenstate`. -/

namespace Plaquette
open Matrix Complex

variable {n : Nat}

theorem projector_flip_stab (p m : Op n) (h : anti p m = false) {ψ : Vec n} (hp : Stabilises p ψ) (out : Bool) :
    Stabilises p (projector m out *ᵥ ψ) := by
  unfold Stabilises at *
  rw [Matrix.mulVec_mulVec, projector_comm h, ← Matrix.mulVec_mulVec, hp]

/-- The gate that `reset` applies when it measured `1`. -/
def fixGate : Letter → Fin n → Option (CGate n)
  | .Z, q => some (.x q)
  | .X, q => some (.z q)
  | .Y, _ => none

theorem resetOne_ok {neg : Bool} {l : Letter} {T T' : Tab n} {q : Fin n} {draw : Bool}
    (h : resetOne neg l T q draw = .ok T') :
    ∃ T1 out, measure T (singleOp neg l q) none draw = .ok (T1, out) ∧
      (T' = T1 ∧ (out = false ∨ l = .Y) ∨ out = true ∧ ∃ G, fixGate l q = some G ∧ T' = G.app T1) := by
  unfold resetOne at h
  cases hm : measure T (singleOp neg l q) none draw with
  | error e => rw [hm] at h; exact absurd h (by simp)
  | ok p =>
    obtain ⟨T1, out⟩ := p
    rw [hm] at h
    refine ⟨T1, out, rfl, ?_⟩
    cases out
    · simp only [Bool.false_eq_true, if_false, Except.ok.injEq] at h
      exact Or.inl ⟨h.symm, Or.inl rfl⟩
    · cases l
      · right; simp only [if_true, Except.ok.injEq] at h; exact ⟨rfl, _, rfl, h.symm⟩
      · left; simp only [if_true, Except.ok.injEq] at h; exact ⟨h.symm, Or.inr rfl⟩
      · right; simp only [if_true, Except.ok.injEq] at h; exact ⟨rfl, _, rfl, h.symm⟩

theorem fixGate_ok {l : Letter} {q : Fin n} {G : CGate n} (h : fixGate l q = some G) : G.Ok := by
  cases l <;> simp [fixGate] at h <;> subst h <;> trivial

theorem resetOne_valid {neg : Bool} {l : Letter} {T T' : Tab n} {q : Fin n} {draw : Bool} (hT : T.Valid)
    (h : resetOne neg l T q draw = .ok T') : T'.Valid := by
  obtain ⟨T1, out, hm, ⟨rfl, _⟩ | ⟨_, G, hG, rfl⟩⟩ := resetOne_ok h
  · exact measure_valid hT hm
  · exact app_valid (measure_valid hT hm) G (fixGate_ok hG)

theorem resetAll_valid {neg : Bool} {l : Letter} {T T' : Tab n} {qs : List (Fin n × Bool)} (hT : T.Valid)
    (h : resetAll neg l T qs = .ok T') : T'.Valid := by
  induction qs generalizing T with
  | nil => simp only [resetAll, Except.ok.injEq] at h; exact h ▸ hT
  | cons a rest ih =>
    obtain ⟨q, draw⟩ := a
    rw [resetAll] at h
    cases h1 : resetOne neg l T q draw with
    | error e => rw [h1] at h; exact absurd h (by simp)
    | ok T1 => rw [h1] at h; exact ih (resetOne_valid hT h1) h

theorem measure_total {T : Tab n} (hT : T.SemiValid) {m : Op n} (hm : ¬ m.IsScalar) (draw : Bool) :
    ∃ T' out, measure T m none draw = .ok (T', out) := by
  cases hn : nonzero T.s m with
  | nil => exact ⟨_, _, measure_det hn (nonzero_d_ne_nil hT hm hn) _ _⟩
  | cons k others => exact ⟨_, _, measure_random hn none draw⟩

theorem resetAll_total {neg : Bool} {l : Letter} {T : Tab n} (hT : T.Valid) (qs : List (Fin n × Bool)) :
    ∃ T', resetAll neg l T qs = .ok T' := by
  induction qs generalizing T with
  | nil => exact ⟨T, rfl⟩
  | cons a rest ih =>
    obtain ⟨q, draw⟩ := a
    rw [resetAll]
    have : ∃ T1, resetOne neg l T q draw = .ok T1 := by
      obtain ⟨T1, out, hm⟩ := measure_total hT.semi (singleOp_not_scalar neg l q) draw
      unfold resetOne
      rw [hm]
      cases out <;> cases l <;> exact ⟨_, rfl⟩
    obtain ⟨T1, h1⟩ := this
    rw [h1]
    exact ih (resetOne_valid hT h1)

theorem fix_flips {neg : Bool} {l : Letter} {q : Fin n} {G : CGate n} (hG : fixGate l q = some G) :
    G.row { (singleOp neg l q) with r := (singleOp neg l q).r ^^ true } = singleOp neg l q := by
  cases l <;> simp [fixGate] at hG <;> subst hG <;> simp [CGate.row, xRow, zRow, singleOp]

/-- The vector represented after one reset. -/
theorem resetOne_sem {neg : Bool} {l : Letter} (hl : l ≠ .Y) {T T' : Tab n} {q : Fin n} {draw : Bool}
    (hT : T.Valid) (h : resetOne neg l T q draw = .ok T') {ψ : Vec n} (hψ : T.Represents ψ) :
    ∃ ψ', T'.Represents ψ' ∧ Stabilises (singleOp neg l q) ψ' ∧
      ∀ p : Op n, p.x q = false → p.z q = false → Stabilises p ψ → Stabilises p ψ' := by
  have hcomm : ∀ p : Op n, p.x q = false → p.z q = false → anti p (singleOp neg l q) = false := by
    intro p hx hz
    have : ∀ i, bit (p.x i) * bit ((singleOp neg l q).z i) + bit (p.z i) * bit ((singleOp neg l q).x i) = 0 := by
      intro i
      by_cases hi : i = q
      · subst hi; simp [hx, hz, bit]
      · simp [singleOp, hi, bit]
    simp only [anti]
    rw [Finset.sum_eq_zero (fun i _ => this i)]
    rfl
  obtain ⟨T1, out, hm, ⟨rfl, ho⟩ | ⟨rfl, G, hG, rfl⟩⟩ := resetOne_ok h
  · have ho : out = false := ho.resolve_right hl
    subst ho
    refine ⟨_, measure_represents hT.semi hm hψ, ?_, ?_⟩
    · unfold Stabilises
      have := projector_stab (singleOp neg l q) false
      rw [opMat_flip, sgn_false, one_smul] at this
      rw [Matrix.mulVec_mulVec, this]
    · intro p hx hz hp
      exact projector_flip_stab p _ (hcomm p hx hz) hp _
  · have hok := fixGate_ok hG
    refine ⟨_, app_represents G hok (measure_represents hT.semi hm hψ), ?_, ?_⟩
    · have e : opMat (singleOp neg l q) * G.unitary =
          G.unitary * opMat { (singleOp neg l q) with r := (singleOp neg l q).r ^^ true } := by
        rw [gate_conj G hok, fix_flips hG]
      unfold Stabilises
      rw [Matrix.mulVec_mulVec, e, ← Matrix.mulVec_mulVec, Matrix.mulVec_mulVec ψ (opMat _) (projector _ _),
        projector_stab]
    · intro p hx hz hp
      have h1 := projector_flip_stab p _ (hcomm p hx hz) hp true
      have h2 : G.row p = p := by
        cases l <;> simp [fixGate] at hG <;> subst hG <;> simp [CGate.row, xRow, zRow, hx, hz]
      unfold Stabilises at *
      rw [Matrix.mulVec_mulVec]
      conv_lhs => rw [← h2]
      rw [← gate_conj G hok, ← Matrix.mulVec_mulVec, h1]

theorem resetAll_sem {neg : Bool} {l : Letter} (hl : l ≠ .Y) {T T' : Tab n} {qs : List (Fin n × Bool)}
    (hT : T.Valid) (h : resetAll neg l T qs = .ok T') {ψ : Vec n} (hψ : T.Represents ψ) :
    ∃ ψ', T'.Represents ψ' ∧ (∀ a ∈ qs, Stabilises (singleOp neg l a.1) ψ') ∧
      ∀ p : Op n, (∀ a ∈ qs, p.x a.1 = false ∧ p.z a.1 = false) → Stabilises p ψ → Stabilises p ψ' := by
  have key : ∀ (P : Op n → Prop) (T : Tab n) (ψ : Vec n), T.Valid → T.Represents ψ → resetAll neg l T qs = .ok T' →
      ∃ ψ', T'.Represents ψ' ∧ (∀ a ∈ qs, Stabilises (singleOp neg l a.1) ψ') ∧
      (∀ p : Op n, (∀ a ∈ qs, p.x a.1 = false ∧ p.z a.1 = false) → Stabilises p ψ → Stabilises p ψ') ∧
      (∀ q0, Stabilises (singleOp neg l q0) ψ → Stabilises (singleOp neg l q0) ψ') := by
    clear h hψ hT
    intro P
    induction qs with
    | nil =>
      intro T ψ hT hψ h
      simp only [resetAll, Except.ok.injEq] at h
      exact ⟨ψ, h ▸ hψ, by simp, fun _ _ h => h, fun _ h => h⟩
    | cons a rest ih =>
      intro T ψ hT hψ h
      obtain ⟨q, draw⟩ := a
      rw [resetAll] at h
      cases h1 : resetOne neg l T q draw with
      | error e => rw [h1] at h; exact absurd h (by simp)
      | ok T1 =>
        rw [h1] at h
        obtain ⟨ψ1, r1, r2, r3⟩ := resetOne_sem hl hT h1 hψ
        obtain ⟨ψ2, s1, s2, s3, s4⟩ := ih T1 ψ1 (resetOne_valid hT h1) r1 h
        refine ⟨ψ2, s1, ?_, ?_, ?_⟩
        · intro b hb
          rcases List.mem_cons.mp hb with rfl | hb
          · exact s4 q r2
          · exact s2 b hb
        · intro p hp hpψ
          exact s3 p (fun b hb => hp b (List.mem_cons_of_mem _ hb))
            (r3 p (hp (q, draw) (by simp)).1 (hp (q, draw) (by simp)).2 hpψ)
        · intro q0 h0
          by_cases hq : q0 = q
          · subst hq; exact s4 _ r2
          · apply s4
            apply r3 _ _ _ h0
            · simp [singleOp, Ne.symm hq]
            · simp [singleOp, Ne.symm hq]
  obtain ⟨ψ', a, b, c, _⟩ := key (fun _ => True) T ψ hT hψ h
  exact ⟨ψ', a, b, c⟩

end Plaquette
