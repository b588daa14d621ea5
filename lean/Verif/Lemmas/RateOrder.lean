import Verif.Props.RandomRates
import Verif.Props.GateErrors

/-!
# Many faults are unlikely
-/

open MeasureTheory
open scoped ENNReal

namespace Plaquette
variable {F : Type}

/-- The positions of elements with a property. -/
def positions {α : Type} (p : α → Bool) (l : List α) : Finset Nat := (Finset.range l.length).filter fun i => l[i]?.any p = true

theorem mem_positions {α : Type} {p : α → Bool} {l : List α} {i : Nat} : i ∈ positions p l ↔ ∃ x, l[i]? = some x ∧ p x = true := by
  unfold positions
  rw [Finset.mem_filter, Finset.mem_range, Option.any_eq_true]
  constructor
  · rintro ⟨_, x, h1, h2⟩
    exact ⟨x, h1, h2⟩
  · rintro ⟨x, h1, h2⟩
    exact ⟨(List.getElem?_eq_some_iff.1 h1).1, x, h1, h2⟩

theorem positions_card {α : Type} (p : α → Bool) (l : List α) : (positions p l).card = l.countP p := by
  induction l using List.reverseRecOn with
  | nil => simp [positions]
  | append_singleton l a ih =>
    unfold positions at ih ⊢
    rw [List.length_append, List.length_singleton, Finset.range_add_one, Finset.filter_insert, List.countP_append]
    have h1 : (Finset.range l.length).filter (fun i => (l ++ [a])[i]?.any p = true) = (Finset.range l.length).filter fun i => l[i]?.any p = true :=
      Finset.filter_congr fun i hi => by rw [List.getElem?_append_left (Finset.mem_range.1 hi)]
    have h2 : (l ++ [a])[l.length]?.any p = p a := by simp
    rw [h1, h2]
    by_cases ha : p a = true
    · rw [if_pos ha, Finset.card_insert_of_notMem (by simp), ih]
      simp [ha]
    · rw [if_neg ha, ih]
      simp [ha]

/-- The instruction did something. -/
def struckB (p : Kicked1 F) : Bool := hitBy p.2 || lossFault p

theorem struckB_iff {p : Kicked1 F} : struckB p = true ↔ struck p := by
  unfold struckB struck
  rw [Bool.or_eq_true]

theorem weight_step (d A K : Nat) (hA : 1 ≤ A) (hK : 1 ≤ K) (x : Kicked1 F) :
    A * ((dataFault d x).toNat + (measFault x).toNat + K * (gateFault d x).toNat) + (lossFault x).toNat ≤ A * K * (struckB x).toNat := by
  obtain ⟨⟨nm, args⟩, k⟩ := x
  have h1 : 1 ≤ A * K := Nat.mul_pos hA hK
  have h2 : A ≤ A * K := Nat.le_mul_of_pos_right A hK
  unfold dataFault measFault gateFault lossFault struckB lossFault
  dsimp only
  by_cases hp : nm = .E_PAULI
  · subst hp
    by_cases hf : firstQubit k < d
    · cases hitBy k <;> simp [hf, Nat.not_le.2 hf, h2]
    · cases hitBy k <;> simp [hf, Nat.not_lt.1 hf]
  · by_cases hp2 : nm = .E_PAULI2
    · subst hp2
      cases hitBy k <;> simp
    · by_cases hp3 : nm = .ERROR
      · subst hp3
        cases hitBy k <;> simp [h2]
      · by_cases hp4 : nm = .E_ERASE
        · subst hp4
          cases hitBy k <;> cases k.isEmpty <;> simp [h1]
        · simp [hp, hp2, hp3, hp4]

theorem countP_cons_toNat {α : Type} (p : α → Bool) (a : α) (l : List α) : (a :: l).countP p = l.countP p + (p a).toNat := by
  rw [List.countP_cons]
  cases p a <;> simp

theorem weight_le (d A K : Nat) (hA : 1 ≤ A) (hK : 1 ≤ K) (tr : List (Kicked1 F)) : A * faultWeight d K tr + lossCount tr ≤ A * K * tr.countP struckB := by
  induction tr with
  | nil => simp [faultWeight, lossCount]
  | cons x tr ih =>
    have h := weight_step d A K hA hK x
    unfold faultWeight lossCount at ih ⊢
    simp only [countP_cons_toNat]
    nlinarith

theorem weight_le_quiet (d A K : Nat) (hA : 1 ≤ A) {tr : List (Kicked1 F)} (hg : ∀ x ∈ tr, gateFault d x ≠ true) : A * faultWeight d K tr + lossCount tr ≤ A * tr.countP struckB := by
  have h0 : tr.countP (gateFault d) = 0 := List.countP_eq_zero.2 hg
  have h := weight_le d A 1 hA le_rfl tr
  unfold faultWeight at h ⊢
  rw [h0] at h ⊢
  simpa using h

section
variable {n : Nat} {Ω : Type} [MeasurableSpace Ω] {μ : Measure Ω} {prob : F → ℝ≥0∞} {past : Nat → MeasurableSpace Ω} {rng : Ω → Rng F} {k₀ : Nat}

/-- The number of error instructions. -/
def noisyCount (circ : List (Gate F)) : Nat := circ.countP (·.name.noisy)

/-- At least `k` instructions do something with probability at most `(M choose k) xᵏ`. -/
theorem many_struck [IsProbabilityMeasure μ] (hF : FairFrom k₀ μ prob past rng) (api : FloatApi F) (circ : List (Gate F)) {x : ℝ≥0∞}
    (hr : ∀ g ∈ circ, g.name.noisy = true → g.rate api prob ≤ x) (S : Sim n) (hp : k₀ ≤ S.pos) (k : Nat) :
    μ {ω | (∃ S', S.runGates api (rng ω) circ = .ok S') ∧ k ≤ (S.trace api (rng ω) circ).countP struckB} ≤ ((noisyCount circ).choose k : ℝ≥0∞) * x ^ k := by
  have hM : (positions (fun g : Gate F => g.name.noisy) circ).card = noisyCount circ := positions_card (fun g : Gate F => g.name.noisy) circ
  have hsub : {ω | (∃ S', S.runGates api (rng ω) circ = .ok S') ∧ k ≤ (S.trace api (rng ω) circ).countP struckB} ⊆
      ⋃ I ∈ (positions (fun g : Gate F => g.name.noisy) circ).powersetCard k, {ω | (∃ S', S.runGates api (rng ω) circ = .ok S') ∧ ∀ i ∈ I, StruckAt (S.trace api (rng ω) circ) i} := by
    rintro ω ⟨h1, h2⟩
    rw [← positions_card] at h2
    obtain ⟨I, hI, hc⟩ := Finset.exists_subset_card_eq h2
    have hst : ∀ i ∈ I, StruckAt (S.trace api (rng ω) circ) i := fun i hi => by
      obtain ⟨y, hy, hs⟩ := mem_positions.1 (hI hi)
      exact ⟨y, hy, struckB_iff.1 hs⟩
    refine Set.mem_iUnion₂.2 ⟨I, Finset.mem_powersetCard.2 ⟨fun i hi => ?_, hc⟩, h1, hst⟩
    obtain ⟨y, hy, hs⟩ := hst i hi
    obtain ⟨g, hg, hn⟩ := trace_struck hy hs
    exact mem_positions.2 ⟨g, hg, hn⟩
  refine (measure_mono hsub).trans ((measure_biUnion_finset_le _ _).trans ?_)
  refine (Finset.sum_le_sum fun I hI => (struck_pow hF api circ hr S hp I).trans (le_of_eq (by rw [(Finset.mem_powersetCard.1 hI).2]))).trans (le_of_eq ?_)
  rw [Finset.sum_const, Finset.card_powersetCard, hM, nsmul_eq_mul]

end

end Plaquette
