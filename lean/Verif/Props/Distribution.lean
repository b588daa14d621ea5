import Verif.Lemmas.DistributionRun
import Verif.Lemmas.FairExact
import Verif.Props.Sim
import Verif.Props.Device

/-!
# Property C95: the results of the Clifford simulator have the distribution that quantum mechanics gives
-/

open MeasureTheory Matrix
open scoped ENNReal

namespace Plaquette
variable {F : Type} {n : Nat}

theorem zeroDensity_eq (n : Nat) : zeroDensity n = vecMulVec (zeroVec n) (star (zeroVec n)) := by
  funext a b
  simp only [zeroDensity, vecMulVec_apply, zeroVec, Pi.star_apply]
  by_cases ha : a = fun _ => false <;> by_cases hb : b = fun _ => false <;> simp [ha, hb]

theorem trace_zeroDensity (K : Mat n) : (K * zeroDensity n * Kᴴ).trace.re = normSq (K *ᵥ zeroVec n) := by
  have h : K * zeroDensity n * Kᴴ = vecMulVec (K *ᵥ zeroVec n) (star (K *ᵥ zeroVec n)) := by
    rw [zeroDensity_eq, mul_vecMulVec, vecMulVec_mul, Matrix.star_mulVec]
  rw [h, trace_vecMulVec, dotProduct_comm, ← normSq_eq, Complex.ofReal_re]

theorem normW_zeroVec (n : Nat) : normW (zeroVec n) = 1 := by
  have : normSq (zeroVec n) = 1 := by
    unfold normSq zeroVec
    rw [Finset.sum_eq_single fun _ => false]
    · simp
    · intro b _ hb; simp [hb]
    · simp
  rw [normW, this, ENNReal.ofReal_one]

theorem value_born (I : Instrument n) (m e : List Bool) : I.value (endValue fun m' e' => m' = m ∧ e' = e) (zeroVec n) [] [] = I.born (zeroDensity n) m e := by
  unfold Instrument.value Instrument.born
  refine congrArg List.sum (List.map_congr_left fun b _ => ?_)
  rw [trace_zeroDensity]
  unfold endValue
  simp only [List.nil_append]
  by_cases h : b.meas = m ∧ b.erasure = e
  · rw [if_pos h, if_pos h]; rfl
  · rw [if_neg h, if_neg h, mul_zero]

theorem forall_valIs (api : FloatApi F) (ps : List F) : List.Forall₂ (ValIs api) (ps.map .flt) ps := by
  induction ps with
  | nil => exact .nil
  | cons p ps ih => exact .cons (.inl rfl) ih

/-- **C95** every circuit of executable instructions has an instrument, if its probabilities are distributions (a generator `r` that accepts only distributions accepts them). -/
theorem C95_instrument (api : FloatApi F) (prob : F → ℝ≥0∞) (r : Rng F) (h4 : ∀ k ps, (r.choice4 k ps).isSome → (ps.map prob).sum ≤ 1)
    (h16 : ∀ k ps, (r.choice16 k ps).isSome → (ps.map prob).sum ≤ 1) (bs : List (Block F)) (h : ∀ b ∈ bs, ∀ g ∈ b.gates, Runnable n api r g.1 g.2) :
    ∃ I : Instrument n, DenotesRun api prob bs I := by
  have hg : ∀ name args, Runnable n api r name args → ∃ I : Instrument n, Denotes api prob name args I := by
    intro name args h
    cases h with
    | x qs => exact ⟨_, .x qs⟩
    | y qs => exact ⟨_, .y qs⟩
    | z qs => exact ⟨_, .z qs⟩
    | h qs => exact ⟨_, .h qs⟩
    | m qs => exact ⟨_, .m qs⟩
    | r qs => exact ⟨_, .r qs⟩
    | depolarize qs => exact ⟨_, .depolarize qs⟩
    | cx ps hp => exact ⟨_, .cx ps hp⟩
    | cz ps hp => exact ⟨_, .cz ps hp⟩
    | erase p q => exact ⟨_, .erase (.inl rfl) q⟩
    | pauli ps hl q hc => exact ⟨_, .pauli (forall_valIs api ps) (by rw [List.length_map, hl]) (h4 0 ps (hc 0)) q []⟩
    | pauli2 ps hl q1 q2 hc => exact ⟨_, .pauli2 (forall_valIs api ps) (by rw [List.length_map, hl]) (h16 0 ps (hc 0)) q1 q2 []⟩
  have hseq : ∀ gs : List (Name × List (Val F)), (∀ g ∈ gs, Runnable n api r g.1 g.2) → ∃ I : Instrument n, DenotesSeq api prob gs I := by
    intro gs
    induction gs with
    | nil => exact fun _ => ⟨_, .nil⟩
    | cons g gs ih =>
      intro h
      obtain ⟨I, hI⟩ := hg _ _ (h g (by simp))
      obtain ⟨J, hJ⟩ := ih fun g' hg' => h g' (List.mem_cons_of_mem _ hg')
      exact ⟨_, .cons hI hJ⟩
  have halts : ∀ as : List (Alt F), (∀ a ∈ as, ∀ g ∈ a.gates, Runnable n api r g.1 g.2) → ∃ I : Instrument n, DenotesAlts api prob as I := by
    intro as
    induction as with
    | nil => exact fun _ => ⟨_, .nil⟩
    | cons a as ih =>
      intro h
      obtain ⟨I, hI⟩ := hseq _ (h a (by simp))
      obtain ⟨J, hJ⟩ := ih fun a' ha' => h a' (List.mem_cons_of_mem _ ha')
      exact ⟨_, .cons hI hJ⟩
  induction bs with
  | nil => exact ⟨_, .nil⟩
  | cons b bs ih =>
    obtain ⟨J, hJ⟩ := ih fun b' hb' => h b' (List.mem_cons_of_mem _ hb')
    have hb := h b (by simp)
    cases b with
    | gate name args =>
      obtain ⟨I, hI⟩ := hg name args (hb (name, args) (by simp [Block.gates]))
      exact ⟨_, .gate hI hJ⟩
    | chain a as =>
      obtain ⟨I, hI⟩ := halts (a :: as) fun a' ha' g hg' => hb g (by simp only [Block.gates]; exact List.mem_flatMap.2 ⟨a', ha', hg'⟩)
      exact ⟨_, .chain hI hJ⟩

variable {Ω : Type} [MeasurableSpace Ω] (μ : Measure Ω) [IsProbabilityMeasure μ] (prob : F → ℝ≥0∞) (past : Nat → MeasurableSpace Ω) (rng : Ω → Rng F)

/-- **C95** the distribution of the results. A run of the simulator after a reset, from any state, with a random generator whose answers have exactly the probabilities that are asked
for: given any event `E` of the past, the probability that the run ends with the measurement results `m` and the erasure flags `e` is the probability that Born's rule gives for the
instrument of the circuit in the all-zero state. -/
theorem C95_distribution (api : FloatApi F) (bs : List (Block F)) (I : Instrument n) (hI : DenotesRun api prob bs I) (S : Sim n) (hX : ExactFrom S.pos μ prob past rng)
    (m e : List Bool) (E : Set Ω) (hE : MeasurableSet[past S.pos] E) :
    μ (E ∩ {ω | ∃ S', S.run api (rng ω) (flatten bs) true = .ok S' ∧ S'.meas = m ∧ S'.erasure = e}) = I.born (zeroDensity n) m e * μ E := by
  have h := expects_run hX api (fun m' e' => m' = m ∧ e' = e) hI S.reset (zeroVec n) (le_refl _) (zeroState_valid n) (C05_zero_state n).2 E hE
  rw [normW_zeroVec, mul_one, show S.reset.meas = [] from rfl, show S.reset.erasure = [] from rfl, value_born] at h
  exact h

/-- **C95** almost every run succeeds: the probabilities of the records sum up to one. -/
theorem C95_total (api : FloatApi F) (bs : List (Block F)) (I : Instrument n) (hI : DenotesRun api prob bs I) (S : Sim n) (hX : ExactFrom S.pos μ prob past rng) :
    μ {ω | ∃ S', S.run api (rng ω) (flatten bs) true = .ok S'} = 1 := by
  have h := expects_run hX api (fun _ _ => True) hI S.reset (zeroVec n) (le_refl _) (zeroState_valid n) (C05_zero_state n).2 Set.univ (@MeasurableSet.univ _ (past S.reset.pos))
  have hv : (endValue (n := n) fun _ _ => True) = fun φ _ _ => normW φ := by
    funext φ m e
    rw [endValue, if_pos trivial]
  rw [hv, Instrument.value_records, Instrument.complete_run hI (zeroVec n), normW_zeroVec, mul_one, one_mul, Set.univ_inter, measure_univ] at h
  rw [← h]
  congr 1
  ext ω
  simp [runEvent, Sim.run]

/-- **C95** the samples of a new device have this distribution. -/
theorem C95_device (api : FloatApi F) (circs : Nat → List (Gate F)) (id : Nat) (bs : List (Block F)) (hc : circs id = flatten bs)
    (I : Instrument (numberOfQubits (circs id))) (hI : DenotesRun api prob bs I) (pos : Nat) (hX : ExactFrom pos μ prob past rng) (m e : List Bool) :
    μ {ω | ∃ d, CliffordDevice.run (circs := circs) api (rng ω) ⟨none, pos⟩ (.circuit id) true = .ok d ∧ d.getSample = .ok (m, if e.length > 0 then some e else none)} =
      I.born (zeroDensity _) m e := by
  have h := C95_distribution μ prob past rng api bs I hI (Sim.fresh _ pos) hX m e Set.univ (@MeasurableSet.univ _ (past pos))
  rw [Set.univ_inter, measure_univ, mul_one] at h
  rw [← h]
  congr 1
  ext ω
  have he : ∀ e' : List Bool, ((if e'.length > 0 then some e' else none) = if e.length > 0 then some e else none) ↔ e' = e := by
    intro e'
    rcases e' with _ | ⟨a, e'⟩ <;> rcases e with _ | ⟨b, e⟩ <;> simp
  simp only [Set.mem_ofPred_eq]
  constructor
  · rintro ⟨d, h1, h2⟩
    obtain ⟨S, h3, rfl⟩ := CliffordDevice.run_ok h1
    refine ⟨S, by rw [← hc]; exact h3, ?_⟩
    have h2 : S.results = (m, if e.length > 0 then some e else none) := Except.ok.inj h2
    rw [Sim.results, Prod.mk.injEq, he] at h2
    exact h2
  · rintro ⟨S, h1, rfl, rfl⟩
    refine ⟨⟨some ⟨id, S⟩, S.pos⟩, ?_, rfl⟩
    unfold CliffordDevice.run
    have h1' : (CliffordDevice.use (circs := circs) ⟨none, pos⟩ (.circuit id)).sim.run api (rng ω) (circs (CliffordDevice.use (circs := circs) ⟨none, pos⟩ (.circuit id)).circ) true = .ok S := by
      rw [← hc] at h1; exact h1
    dsimp only
    rw [h1']
    rfl

/-- Non-vacuity of C95: a generator that is exact, and a circuit with an instrument: a Bell pair, an erasure, a chain of two alternatives, a reset and measurements. -/
example (prob : Nat → ℝ≥0∞) : ∃ (bs : List (Block Nat)) (I : Instrument 2), DenotesRun natApi prob bs I ∧ bs.length = 6 ∧ flatten bs ≠ [] ∧
    ExactFrom 0 draws prob drawsPast (fairRng prob) := by
  refine ⟨[.gate .H (qArgs [0]), .gate .CX (pairArgs [(0, 1)]), .gate .E_ERASE [.flt 1, .int ((1 : Fin 2).val : Int)],
    .chain ⟨0, (.X, qArgs [0]), []⟩ [⟨1, (.Z, qArgs [0]), [(.X, qArgs [1])]⟩], .gate .R (qArgs [0]), .gate .M (qArgs [0, 1])], _,
    .gate (.h [0]) (.gate (.cx [(0, 1)] (by simp)) (.gate (.erase (.inl rfl) 1) (.chain (.cons (.cons (.x [0]) .nil) (.cons (.cons (.z [0]) (.cons (.x [1]) .nil)) .nil))
      (.gate (.r [0]) (.gate (.m [0, 1]) .nil))))), rfl, ?_, fairRng_exact prob⟩
  simp [flatten, Block.instrs]

/-- A coin: the probability of each result of `H 0; M 0`. -/
theorem C95_coin (api : FloatApi F) (b : Bool) (hX : ExactFrom 0 μ prob past rng) :
    μ {ω | ∃ S', (Sim.fresh 1 0).run api (rng ω) [⟨.H, [.int 0]⟩, ⟨.M, [.int 0]⟩] true = .ok S' ∧ S'.meas = [b] ∧ S'.erasure = []} = 2⁻¹ := by
  have hI : DenotesRun api prob [.gate .H (qArgs [(0 : Fin 1)]), .gate .M (qArgs [(0 : Fin 1)])] _ := .gate (.h [0]) (.gate (.m [0]) .nil)
  have h := C95_distribution μ prob past rng api _ _ hI (Sim.fresh 1 0) hX [b] [] Set.univ (@MeasurableSet.univ _ (past 0))
  rw [Set.univ_inter, measure_univ, mul_one] at h
  refine h.trans ?_
  have hr : ((CGate.h (0 : Fin 1)).app (zeroState 1)).Represents ((CGate.h (0 : Fin 1)).unitary *ᵥ zeroVec 1) := app_represents (CGate.h 0) trivial (C05_zero_state 1).2
  have hv : normW (projZ (0 : Fin 1) b *ᵥ ((CGate.h (0 : Fin 1)).unitary *ᵥ zeroVec 1)) = 2⁻¹ := by
    rw [projZ_eq, half_weight (normSq_projector_half (by decide) (hr.2 0) b), normW_unitary (unitary_unitary (CGate.h (0 : Fin 1)) trivial), normW_zeroVec, mul_one]
  rw [← value_born]
  simp only [Instrument.inOrder, List.map_cons, List.map_nil, Instrument.value, Instrument.gate, Instrument.measure, Instrument.nothing, Instrument.andThen, List.flatMap_cons,
    List.flatMap_nil, List.append_nil, List.cons_append, List.nil_append, one_mul, mul_one, endValue]
  cases b
  · simpa using hv
  · simpa using hv

end Plaquette
