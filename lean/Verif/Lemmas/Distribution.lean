import Verif.Spec.Distribution
import Verif.Lemmas.SimChain
import Mathlib.MeasureTheory.Measure.Restrict

/-!
# The simulator realises the instruments of its instructions
-/

open MeasureTheory Matrix
open scoped ENNReal

namespace Plaquette
variable {F : Type} {n : Nat}

/-- The squared norm, as a weight. -/
noncomputable def normW (ψ : Vec n) : ℝ≥0∞ := ENNReal.ofReal (normSq ψ)

theorem normW_zero : normW (0 : Vec n) = 0 := by simp [normW, normSq]

theorem normW_ne_zero {ψ : Vec n} (h : ψ ≠ 0) : normW ψ ≠ 0 := by
  unfold normW
  rw [Ne, ENNReal.ofReal_eq_zero, not_le]
  exact normSq_pos h

theorem normW_ne_top (ψ : Vec n) : normW ψ ≠ ⊤ := ENNReal.ofReal_ne_top

theorem normW_unitary {U : Mat n} (hU : Uᴴ * U = 1) (ψ : Vec n) : normW (U *ᵥ ψ) = normW ψ := by
  unfold normW
  congr 1
  have : (normSq (U *ᵥ ψ) : ℂ) = normSq ψ := by rw [normSq_mulVec, hU, Matrix.one_mulVec, normSq_eq]
  exact_mod_cast this

/-- A measure is the sum over the values of a random variable. -/
theorem measure_split {Ω α : Type} [Fintype α] [MeasurableSpace Ω] (μ : Measure Ω) (A : Set Ω) (B : α → Set Ω) (hm : ∀ v, MeasurableSet (B v))
    (hd : ∀ v v' ω, ω ∈ B v → ω ∈ B v' → v = v') (hA : ∀ ω ∈ A, ∃ v, ω ∈ B v) : μ A = ∑ v, μ (A ∩ B v) := by
  classical
  have h1 : A ⊆ ⋃ v, B v := fun ω hω => Set.mem_iUnion.2 (hA ω hω)
  have hU : MeasurableSet (⋃ v, B v) := MeasurableSet.iUnion hm
  have h2 : μ A = μ.restrict A (⋃ v, B v) := by rw [Measure.restrict_apply hU, Set.inter_eq_right.2 h1]
  have h3 : μ.restrict A (⋃ v, B v) = ∑' v, μ.restrict A (B v) :=
    measure_iUnion (fun v v' hv => Set.disjoint_left.2 fun ω h h' => hv (hd v v' ω h h')) hm
  rw [h2, h3, tsum_fintype]
  refine Finset.sum_congr rfl fun v _ => ?_
  rw [Measure.restrict_apply (hm v), Set.inter_comm]

section
variable {Ω : Type} [m0 : MeasurableSpace Ω] {μ : Measure Ω} {prob : F → ℝ≥0∞} {past : Nat → MeasurableSpace Ω} {rng : Ω → Rng F} {k₀ : Nat}

/-- What is expected of a value of the states: the probability of `Q`, given the past, is the value of the vector relative to its norm. -/
def Expects (μ : Measure Ω) (past : Nat → MeasurableSpace Ω) (k : Nat) (Q : Sim n → Set Ω) (V : Vec n → List Bool → List Bool → ℝ≥0∞) : Prop :=
  ∀ S ψ, k ≤ S.pos → S.tab.Valid → S.tab.Represents ψ → ∀ E, MeasurableSet[past S.pos] E → μ (E ∩ Q S) * normW ψ = V ψ S.meas S.erasure * μ E

/-- The value of an instrument that is followed by something with the value `V`. -/
noncomputable def Instrument.value (I : Instrument n) (V : Vec n → List Bool → List Bool → ℝ≥0∞) (ψ : Vec n) (m e : List Bool) : ℝ≥0∞ :=
  (I.map fun b => b.weight * V (b.op *ᵥ ψ) (m ++ b.meas) (e ++ b.erasure)).sum

/-- The event that the operation succeeds and that what follows is `Q`. -/
def after (rng : Ω → Rng F) (f : Rng F → Sim n → Except Err (Sim n)) (Q : Sim n → Set Ω) (S : Sim n) : Set Ω := {ω | ∃ S', f (rng ω) S = .ok S' ∧ ω ∈ Q S'}

/-- The operation of the simulator has the distribution of the instrument. -/
def Realises (μ : Measure Ω) (past : Nat → MeasurableSpace Ω) (rng : Ω → Rng F) (k₀ : Nat) (f : Rng F → Sim n → Except Err (Sim n)) (I : Instrument n) : Prop :=
  ∀ (k : Nat) (Q : Sim n → Set Ω) (V : Vec n → List Bool → List Bool → ℝ≥0∞), k₀ ≤ k → (∀ m e, V 0 m e = 0) → Expects μ past k Q V → Expects μ past k (after rng f Q) (I.value V)

theorem Instrument.value_zero (I : Instrument n) {V : Vec n → List Bool → List Bool → ℝ≥0∞} (hV : ∀ m e, V 0 m e = 0) (m e : List Bool) : I.value V 0 m e = 0 := by
  unfold value
  rw [List.sum_eq_zero]
  intro x hx
  obtain ⟨b, _, rfl⟩ := List.mem_map.1 hx
  rw [Matrix.mulVec_zero, hV, mul_zero]

theorem Instrument.value_append (I J : Instrument n) (V : Vec n → List Bool → List Bool → ℝ≥0∞) (ψ : Vec n) (m e : List Bool) :
    (I ++ J).value V ψ m e = I.value V ψ m e + J.value V ψ m e := by
  unfold value
  rw [List.map_append, List.sum_append]

theorem Instrument.value_withProb (w : ℝ≥0∞) (I : Instrument n) (V : Vec n → List Bool → List Bool → ℝ≥0∞) (ψ : Vec n) (m e : List Bool) :
    (I.withProb w).value V ψ m e = w * I.value V ψ m e := by
  unfold value withProb
  rw [List.map_map, ← List.sum_map_mul_left]
  refine congrArg List.sum (List.map_congr_left fun b _ => ?_)
  simp only [Function.comp_apply, mul_assoc]

theorem Instrument.value_andThen (I J : Instrument n) (V : Vec n → List Bool → List Bool → ℝ≥0∞) (ψ : Vec n) (m e : List Bool) :
    (I.andThen J).value V ψ m e = I.value (J.value V) ψ m e := by
  induction I with
  | nil => rfl
  | cons a I ih =>
    have h1 : (Instrument.andThen (a :: I) J) =
        J.map (fun b => ⟨a.weight * b.weight, b.op * a.op, a.meas ++ b.meas, a.erasure ++ b.erasure⟩) ++ Instrument.andThen I J := by
      unfold andThen
      rw [List.flatMap_cons]
    rw [h1, value_append, ih]
    conv_rhs => unfold value
    rw [List.map_cons, List.sum_cons]
    congr 1
    unfold value
    rw [List.map_map, ← List.sum_map_mul_left]
    refine congrArg List.sum (List.map_congr_left fun b _ => ?_)
    simp only [Function.comp_apply, mul_assoc, Matrix.mulVec_mulVec, List.append_assoc]

theorem Instrument.value_nothing (V : Vec n → List Bool → List Bool → ℝ≥0∞) (ψ : Vec n) (m e : List Bool) : Instrument.nothing.value V ψ m e = V ψ m e := by
  simp [value, nothing]

/-- One operation after the other. -/
theorem realises_bind {f g : Rng F → Sim n → Except Err (Sim n)} {I J : Instrument n} (hf : Realises μ past rng k₀ f I) (hg : Realises μ past rng k₀ g J)
    {h : Rng F → Sim n → Except Err (Sim n)} (hh : ∀ r S, h r S = (f r S).bind (g r)) : Realises μ past rng k₀ h (I.andThen J) := by
  intro k Q V hk hV hQ
  have h1 := hf k _ _ hk (J.value_zero hV) (hg k Q V hk hV hQ)
  have he : after rng h Q = after rng f (after rng g Q) := by
    funext S
    ext ω
    simp only [after, Set.mem_ofPred_eq, hh]
    constructor
    · rintro ⟨S', h1, h2⟩
      cases hS : f (rng ω) S with
      | error e => rw [hS] at h1; cases h1
      | ok S1 => rw [hS] at h1; exact ⟨S1, rfl, S', h1, h2⟩
    · rintro ⟨S1, h1, S', h2, h3⟩
      exact ⟨S', by rw [h1]; exact h2, h3⟩
  rw [he, show (I.andThen J).value V = I.value (J.value V) from funext fun ψ => funext fun m => funext fun e => I.value_andThen J V ψ m e]
  exact h1

theorem realises_nothing {f : Rng F → Sim n → Except Err (Sim n)} (hf : ∀ r S, f r S = .ok S) : Realises μ past rng k₀ f Instrument.nothing := by
  intro k Q V hk hV hQ S ψ h1 h2 h3 E hE
  rw [Instrument.value_nothing, ← hQ S ψ h1 h2 h3 E hE]
  congr 3
  ext ω
  simp [after, hf]

/-- An operation without chance. -/
theorem realises_step {f : Rng F → Sim n → Except Err (Sim n)} {g : Sim n → Sim n} {U : Mat n} (hU : Uᴴ * U = 1) (e' : List Bool) (hf : ∀ r S, f r S = .ok (g S))
    (hpos : ∀ S, (g S).pos = S.pos) (hm : ∀ S, (g S).meas = S.meas) (he : ∀ S, (g S).erasure = S.erasure ++ e') (hv : ∀ S, S.tab.Valid → (g S).tab.Valid)
    (hr : ∀ S ψ, S.tab.Represents ψ → (g S).tab.Represents (U *ᵥ ψ)) : Realises μ past rng k₀ f [⟨1, U, [], e'⟩] := by
  intro k Q V hk hV hQ S ψ h1 h2 h3 E hE
  have := hQ (g S) (U *ᵥ ψ) (by rw [hpos]; exact h1) (hv S h2) (hr S ψ h3) E (by rw [hpos]; exact hE)
  rw [normW_unitary hU, hm, he] at this
  have e : after rng f Q S = Q (g S) := by
    ext ω
    simp [after, hf]
  rw [e, this]
  simp [Instrument.value]

/-- A random choice. -/
theorem realises_draw (hX : ExactFrom k₀ μ prob past rng) {α : Type} [Fintype α] {f : Rng F → Sim n → Except Err (Sim n)} (c : Rng F → Nat → Option α) (w : α → ℝ≥0∞)
    (h : α → Rng F → Sim n → Except Err (Sim n)) (I : α → Instrument n) (hm : ∀ k v, MeasurableSet[past (k + 1)] {ω | c (rng ω) k = some v})
    (hp : ∀ k v E, k₀ ≤ k → MeasurableSet[past k] E → μ (E ∩ {ω | c (rng ω) k = some v}) = w v * μ E)
    (hf : ∀ r S v, c r S.pos = some v → f r S = h v r { S with pos := S.pos + 1 }) (hn : ∀ r S S', c r S.pos = none → f r S ≠ .ok S')
    (hI : ∀ v, Realises μ past rng k₀ (h v) (I v)) (J : Instrument n) (hJ : ∀ V ψ m e, J.value V ψ m e = ∑ v, w v * (I v).value V ψ m e) :
    Realises μ past rng k₀ f J := by
  intro k Q V hk hV hQ S ψ h1 h2 h3 E hE
  rw [measure_split μ (E ∩ after rng f Q S) (fun v => {ω | c (rng ω) S.pos = some v}) (fun v => hX.le _ _ (hm _ v)) (fun v v' ω hv hv' => by
      have hv : c (rng ω) S.pos = some v := hv
      have hv' : c (rng ω) S.pos = some v' := hv'
      rw [hv] at hv'
      exact Option.some.inj hv') (by
      rintro ω ⟨_, S', hS', _⟩
      cases hc : c (rng ω) S.pos with
      | none => exact absurd hS' (hn _ _ _ hc)
      | some v => exact ⟨v, hc⟩), hJ, Finset.sum_mul, Finset.sum_mul]
  refine Finset.sum_congr rfl fun v _ => ?_
  have hE' : MeasurableSet[past (S.pos + 1)] (E ∩ {ω | c (rng ω) S.pos = some v}) :=
    @MeasurableSet.inter _ (past (S.pos + 1)) _ _ (hX.mono (Nat.le_succ S.pos) _ hE) (hm _ v)
  have key := hI v k Q V hk hV hQ { S with pos := S.pos + 1 } ψ (Nat.le_succ_of_le h1) h2 h3 _ hE'
  have e : E ∩ after rng f Q S ∩ {ω | c (rng ω) S.pos = some v} = E ∩ {ω | c (rng ω) S.pos = some v} ∩ after rng (h v) Q { S with pos := S.pos + 1 } := by
    ext ω
    simp only [Set.mem_inter_iff, Set.mem_ofPred_eq, after]
    constructor
    · rintro ⟨⟨a1, S', a2, a3⟩, a4⟩
      exact ⟨⟨a1, a4⟩, S', by rw [← hf _ _ _ a4]; exact a2, a3⟩
    · rintro ⟨⟨a1, a4⟩, S', a2, a3⟩
      exact ⟨⟨a1, S', by rw [hf _ _ _ a4]; exact a2, a3⟩, a4⟩
  rw [e, key, hp _ v E (hk.trans h1) hE]
  ring

/-- A measurement in the computational basis, followed by something that depends on the outcome. -/
def measureLike (fix : Bool → Tab n → Tab n) (recd : Bool → List Bool) (q : Fin n) (r : Rng F) (S : Sim n) : Except Err (Sim n) :=
  match measure S.tab (singleOp false .Z q) none (r.bit S.pos) with
  | .error e => .error e
  | .ok (T, out) =>
    .ok { S with tab := fix out T, meas := S.meas ++ recd out, pos := if nonzero S.tab.s (singleOp false .Z q) = [] then S.pos else S.pos + 1 }

theorem projZ_other {q : Fin n} {out : Bool} {ψ : Vec n} (h : projZ q out *ᵥ ψ = ψ) : projZ q (!out) *ᵥ ψ = 0 := by
  funext a
  have h0 : ∀ o, (projZ q o *ᵥ ψ) a = if a q = o then ψ a else 0 := by
    intro o
    rw [Matrix.mulVec, dotProduct, Finset.sum_eq_single a]
    · unfold projZ
      by_cases h : a q = o <;> simp [h]
    · intro b _ hb
      unfold projZ
      rw [if_neg fun h => hb h.1.symm, zero_mul]
    · simp
  have h1 := congrFun h a
  rw [h0] at h1 ⊢
  by_cases hq : a q = out
  · rw [if_neg (by rw [hq]; simp)]; rfl
  · rw [if_neg hq] at h1
    rw [← h1]
    simp

theorem half_weight {ψ φ : Vec n} (h : normSq φ = normSq ψ / 2) : normW φ = 2⁻¹ * normW ψ := by
  unfold normW
  rw [h, div_eq_mul_inv, mul_comm, ENNReal.ofReal_mul (by norm_num)]
  congr 1
  rw [ENNReal.ofReal_inv_of_pos (by norm_num)]
  norm_num

theorem realises_measureLike (hX : ExactFrom k₀ μ prob past rng) {f : Rng F → Sim n → Except Err (Sim n)} (fix : Bool → Tab n → Tab n) (recd : Bool → List Bool) (q : Fin n)
    (U : Bool → Mat n) (hU : ∀ b, (U b)ᴴ * U b = 1)
    (hfix : ∀ b (T : Tab n) φ, T.Valid → T.Represents φ → (fix b T).Valid ∧ (fix b T).Represents (U b *ᵥ φ)) (hf : ∀ r S, f r S = measureLike fix recd q r S) :
    Realises μ past rng k₀ f [⟨1, U false * projZ q false, recd false, []⟩, ⟨1, U true * projZ q true, recd true, []⟩] := by
  intro k Q V hk hV hQ S ψ h1 h2 h3 E hE
  simp only [Instrument.value, List.map_cons, List.map_nil, List.sum_cons, List.sum_nil, one_mul, add_zero, List.append_nil]
  cases hn : nonzero S.tab.s (singleOp false .Z q) with
  | nil =>
    set out := decide (((nonzero S.tab.d (singleOp false .Z q)).foldl (fun acc i => mulOp acc (S.tab.s i)) (idOp n)).r ≠ (singleOp false .Z q).r) with hout
    have hM : ∀ d, measure S.tab (singleOp false .Z q) none d = .ok (S.tab, out) := fun d =>
      measure_det hn (nonzero_d_ne_nil h2.semi (singleOp_not_scalar _ _ _) hn) none d
    have hp : projZ q out *ᵥ ψ = ψ := by
      rw [projZ_eq]
      exact projector_of_eigen (measure_det_sem h2.semi hn h3)
    have hp' := projZ_other hp
    have e : after rng f Q S = Q { S with tab := fix out S.tab, meas := S.meas ++ recd out } := by
      ext ω
      simp [after, hf, measureLike, hM, hn]
    obtain ⟨v1, v2⟩ := hfix out S.tab ψ h2 h3
    have := hQ { S with tab := fix out S.tab, meas := S.meas ++ recd out } (U out *ᵥ ψ) h1 v1 v2 E hE
    rw [normW_unitary (hU out)] at this
    rw [e, this]
    congr 1
    simp only [← Matrix.mulVec_mulVec]
    cases hb : out with
    | false =>
      rw [hb] at hp hp'
      rw [hp, show (projZ q true *ᵥ ψ) = 0 from hp', Matrix.mulVec_zero, hV, add_zero]
    | true =>
      rw [hb] at hp hp'
      rw [hp, show (projZ q false *ᵥ ψ) = 0 from hp', Matrix.mulVec_zero, hV, zero_add]
  | cons i others =>
    have hM : ∀ d, measure S.tab (singleOp false .Z q) none d = .ok (randTab S.tab (singleOp false .Z q) i d, d) := fun d => measure_random hn none d
    rw [measure_split μ (E ∩ after rng f Q S) (fun v : Bool => {ω | (rng ω).bit S.pos = v}) (fun v => hX.le _ _ (hX.bit _ v)) (fun v v' ω hv hv' => hv.symm.trans hv')
      (fun ω _ => ⟨_, rfl⟩), Fintype.sum_bool, add_comm, add_mul, add_mul]
    have key : ∀ b, μ (E ∩ after rng f Q S ∩ {ω | (rng ω).bit S.pos = b}) * normW ψ = V ((U b * projZ q b) *ᵥ ψ) (S.meas ++ recd b) S.erasure * μ E := by
      intro b
      have hE' : MeasurableSet[past (S.pos + 1)] (E ∩ {ω | (rng ω).bit S.pos = b}) :=
        @MeasurableSet.inter _ (past (S.pos + 1)) _ _ (hX.mono (Nat.le_succ S.pos) _ hE) (hX.bit _ b)
      have r1 := measure_represents h2.semi (hM b) h3
      rw [← projZ_eq] at r1
      obtain ⟨v1, v2⟩ := hfix b _ _ (measure_valid h2 (hM b)) r1
      have := hQ { S with tab := fix b (randTab S.tab (singleOp false .Z q) i b), meas := S.meas ++ recd b, pos := S.pos + 1 } _ (Nat.le_succ_of_le h1) v1 v2 _ hE'
      have hhalf : normW (projZ q b *ᵥ ψ) = 2⁻¹ * normW ψ := by
        rw [projZ_eq]
        exact half_weight (normSq_projector_half (pivot_anti hn) (h3.2 i) b)
      rw [normW_unitary (hU b), hhalf, hX.bit_exact _ b E (hk.trans h1) hE, Matrix.mulVec_mulVec] at this
      have e : E ∩ after rng f Q S ∩ {ω | (rng ω).bit S.pos = b} = E ∩ {ω | (rng ω).bit S.pos = b} ∩
          Q { S with tab := fix b (randTab S.tab (singleOp false .Z q) i b), meas := S.meas ++ recd b, pos := S.pos + 1 } := by
        ext ω
        simp only [Set.mem_inter_iff, Set.mem_ofPred_eq, after, hf, measureLike]
        constructor
        · rintro ⟨⟨a1, S', a2, a3⟩, a4⟩
          rw [a4, hM b] at a2
          simp only [hn, Except.ok.injEq] at a2
          rw [← a2] at a3
          exact ⟨⟨a1, a4⟩, a3⟩
        · rintro ⟨⟨a1, a4⟩, a3⟩
          refine ⟨⟨a1, _, ?_, a3⟩, a4⟩
          rw [a4, hM b]
          simp [hn]
      rw [e]
      have h2i : (2⁻¹ : ℝ≥0∞) ≠ 0 := by simp
      have h2t : (2⁻¹ : ℝ≥0∞) ≠ ⊤ := by simp
      refine (ENNReal.mul_right_inj h2i h2t).1 ?_
      rw [mul_left_comm, this]
      ring
    rw [key false, key true]

end

end Plaquette
