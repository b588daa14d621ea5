import Verif.Spec.Random
import Mathlib.Probability.Independence.InfinitePi
import Mathlib.MeasureTheory.Measure.Lebesgue.Basic

/-!
# A fair random generator
-/

open MeasureTheory
open scoped ENNReal

namespace Plaquette
variable {F : Type}

/-- The uniform distribution on numbers between 0 and 1. -/
noncomputable def unit01 : Measure ℝ := volume.restrict (Set.Icc 0 1)

instance : IsProbabilityMeasure unit01 := ⟨by simp [unit01]⟩

/-- Independent uniform draws. -/
noncomputable def draws : Measure (Nat → ℝ) := Measure.infinitePi fun _ => unit01

noncomputable instance : IsProbabilityMeasure draws := by unfold draws; infer_instance

/-- What is known after the first `k` draws. -/
def drawsPast (k : Nat) : MeasurableSpace (Nat → ℝ) := MeasurableSpace.comap (fun ω (i : Finset.range k) => ω i) inferInstance

theorem drawsPast_le (k : Nat) : drawsPast k ≤ (inferInstance : MeasurableSpace (Nat → ℝ)) :=
  (measurable_pi_lambda (fun (ω : Nat → ℝ) (i : Finset.range k) => ω i) fun i => measurable_pi_apply (i : Nat)).comap_le

theorem drawsPast_mono : Monotone drawsPast := by
  intro k k' h
  have hsub : ∀ i : Finset.range k, (i : Nat) ∈ Finset.range k' := fun i => Finset.mem_range.2 ((Finset.mem_range.1 i.2).trans_le h)
  have hm : Measurable fun (x : Finset.range k' → ℝ) (i : Finset.range k) => x ⟨i, hsub i⟩ := measurable_pi_lambda _ fun i => measurable_pi_apply _
  unfold drawsPast
  rw [show (fun (ω : Nat → ℝ) (i : Finset.range k) => ω i) = (fun (x : Finset.range k' → ℝ) (i : Finset.range k) => x ⟨i, hsub i⟩) ∘ fun ω i => ω i from rfl,
    ← MeasurableSpace.comap_comp]
  exact MeasurableSpace.comap_mono hm.comap_le

theorem draw_known (k : Nat) {T : Set ℝ} (hT : MeasurableSet T) : MeasurableSet[drawsPast (k + 1)] {ω | ω k ∈ T} :=
  ⟨{x | x ⟨k, Finset.mem_range.2 (Nat.lt_succ_self k)⟩ ∈ T}, (measurable_pi_apply _) hT, rfl⟩

theorem draw_prob (k : Nat) {T : Set ℝ} (hT : MeasurableSet T) {E : Set (Nat → ℝ)} (hE : MeasurableSet[drawsPast k] E) : draws (E ∩ {ω | ω k ∈ T}) = unit01 T * draws E := by
  obtain ⟨A, hA, rfl⟩ := hE
  have hi : ProbabilityTheory.iIndepFun (fun (i : Nat) (ω : Nat → ℝ) => ω i) draws := ProbabilityTheory.iIndepFun_infinitePi (P := fun _ => unit01) (X := fun _ x => x) fun _ => measurable_id
  have h := (hi.indepFun_finset (Finset.range k) {k} (by simp) fun i => measurable_pi_apply i).measure_inter_preimage_eq_mul A {x | x ⟨k, Finset.mem_singleton_self k⟩ ∈ T} hA
    ((measurable_pi_apply _) hT)
  have hk : draws {ω | ω k ∈ T} = unit01 T := by
    have := Measure.infinitePi_pi (fun _ : Nat => unit01) (s := {k}) (t := fun _ => T) fun _ _ => hT
    rw [Finset.prod_singleton] at this
    rw [← this]
    unfold draws
    congr 1
    ext ω
    simp
  rw [mul_comm, ← hk]
  exact h

/-- The number of the interval, with the given lengths, a number is in; 0 if it is in none of them. -/
noncomputable def pick : List ℝ≥0∞ → Nat → ℝ≥0∞ → Nat
  | [], _, _ => 0
  | p :: ps, i, u => if u < p then i else pick ps (i + 1) (u - p)

theorem pick_measurable : ∀ (ps : List ℝ≥0∞) (i : Nat), Measurable (pick ps i)
  | [], i => measurable_const
  | p :: ps, i => by
    rw [show pick (p :: ps) i = fun u => if u < p then i else pick ps (i + 1) (u - p) from funext fun u => by rw [pick]]
    exact Measurable.ite measurableSet_Iio measurable_const ((pick_measurable ps (i + 1)).comp (measurable_id.sub_const p))

theorem pick_le : ∀ (ps : List ℝ≥0∞) (i : Nat) (u : ℝ≥0∞), pick ps i u = 0 ∨ (i ≤ pick ps i u ∧ pick ps i u < i + ps.length)
  | [], i, u => .inl rfl
  | p :: ps, i, u => by
    unfold pick
    split
    · simp
    · rcases pick_le ps (i + 1) (u - p) with h | ⟨h1, h2⟩
      · exact .inl h
      · refine .inr ⟨by omega, ?_⟩
        rw [List.length_cons]
        omega

theorem pick_interval : ∀ (ps : List ℝ≥0∞) (i j : Nat) (p : ℝ≥0∞), ps[j]? = some p → ps.sum ≠ ⊤ → 0 < i → ∃ a, a ≠ ⊤ ∧ ∀ u, pick ps i u = i + j → a ≤ u ∧ u < a + p
  | [], i, j, p, h, _, _ => by simp at h
  | p' :: ps, i, 0, p, h, _, _ => by
    simp only [List.getElem?_cons_zero, Option.some.injEq] at h
    subst h
    refine ⟨0, by simp, fun u hu => ⟨zero_le, ?_⟩⟩
    rw [zero_add]
    unfold pick at hu
    split at hu
    · assumption
    · rcases pick_le ps (i + 1) (u - p') with h | ⟨h1, _⟩ <;> omega
  | p' :: ps, i, j + 1, p, h, hs, hi => by
    rw [List.sum_cons, Ne, ENNReal.add_eq_top, not_or] at hs
    obtain ⟨a, ha, hu⟩ := pick_interval ps (i + 1) j p (by simpa using h) hs.2 (by omega)
    refine ⟨a + p', by simp [ha, hs.1], fun u he => ?_⟩
    unfold pick at he
    split at he
    · omega
    · next hlt =>
      rw [not_lt] at hlt
      obtain ⟨h1, h2⟩ := hu (u - p') (by omega)
      constructor
      · calc a + p' ≤ (u - p') + p' := by gcongr
          _ = u := tsub_add_cancel_of_le hlt
      · calc u = (u - p') + p' := (tsub_add_cancel_of_le hlt).symm
          _ < a + p + p' := (ENNReal.add_lt_add_iff_right hs.1).2 h2
          _ = a + p' + p := by ring

theorem unit01_interval {a p : ℝ≥0∞} (ha : a ≠ ⊤) : unit01 {u | a ≤ ENNReal.ofReal u ∧ ENNReal.ofReal u < a + p} ≤ p := by
  by_cases hp : p = ⊤
  · rw [hp]; exact le_top
  · have hsub : {u | a ≤ ENNReal.ofReal u ∧ ENNReal.ofReal u < a + p} ∩ Set.Icc 0 1 ⊆ Set.Icc a.toReal (a + p).toReal := by
      rintro u ⟨⟨h1, h2⟩, h0, _⟩
      constructor
      · have := (ENNReal.toReal_le_toReal ha ENNReal.ofReal_ne_top).2 h1
        rwa [ENNReal.toReal_ofReal h0] at this
      · have := (ENNReal.toReal_le_toReal ENNReal.ofReal_ne_top (by simp [ha, hp])).2 h2.le
        rwa [ENNReal.toReal_ofReal h0] at this
    have hm : MeasurableSet {u : ℝ | a ≤ ENNReal.ofReal u ∧ ENNReal.ofReal u < a + p} :=
      (measurableSet_le measurable_const ENNReal.measurable_ofReal).inter (measurableSet_lt ENNReal.measurable_ofReal measurable_const)
    rw [unit01, Measure.restrict_apply hm]
    refine (measure_mono hsub).trans ?_
    rw [Real.volume_Icc, ENNReal.toReal_add ha hp, add_sub_cancel_left, ENNReal.ofReal_toReal hp]

open Classical in
/-- The generator that answers with the draws. -/
noncomputable def fairRng (prob : F → ℝ≥0∞) (ω : Nat → ℝ) : Rng F where
  below k x := decide (ENNReal.ofReal (ω k) < prob x)
  bit k := decide (ω k < 1 / 2)
  int3 k := Fin.ofNat 3 (pick (List.replicate 3 (1 / 3)) 1 (ENNReal.ofReal (ω k)))
  int4 k := Fin.ofNat 4 (pick (List.replicate 4 (1 / 4)) 1 (ENNReal.ofReal (ω k)))
  choice4 k ps := if ps.length = 3 ∧ (ps.map prob).sum ≤ 1 then some (Fin.ofNat 4 (pick (ps.map prob) 1 (ENNReal.ofReal (ω k)))) else none
  choice16 k ps := if ps.length = 15 ∧ (ps.map prob).sum ≤ 1 then some (Fin.ofNat 16 (pick (ps.map prob) 1 (ENNReal.ofReal (ω k)))) else none

theorem pick_known (k : Nat) (ps : List ℝ≥0∞) (i : Nat) (V : Set Nat) : MeasurableSet[drawsPast (k + 1)] {ω | pick ps i (ENNReal.ofReal (ω k)) ∈ V} :=
  draw_known k (T := {u | pick ps i (ENNReal.ofReal u) ∈ V}) ((pick_measurable ps i).comp ENNReal.measurable_ofReal (MeasurableSet.of_discrete (s := V)))

theorem pick_prob (k : Nat) (ps : List ℝ≥0∞) {j : Nat} {p : ℝ≥0∞} (hp : ps[j]? = some p) (hs : ps.sum ≤ 1) {E : Set (Nat → ℝ)} (hE : MeasurableSet[drawsPast k] E) :
    draws (E ∩ {ω | pick ps 1 (ENNReal.ofReal (ω k)) = j + 1}) ≤ p * draws E := by
  obtain ⟨a, ha, hu⟩ := pick_interval ps 1 j p hp (ne_top_of_le_ne_top ENNReal.one_ne_top hs) (by omega)
  have hT : MeasurableSet {u : ℝ | pick ps 1 (ENNReal.ofReal u) = j + 1} :=
    (pick_measurable ps 1).comp ENNReal.measurable_ofReal (MeasurableSet.of_discrete (s := {j + 1}))
  rw [show {ω : Nat → ℝ | pick ps 1 (ENNReal.ofReal (ω k)) = j + 1} = {ω | ω k ∈ {u : ℝ | pick ps 1 (ENNReal.ofReal u) = j + 1}} from rfl, draw_prob k hT hE]
  refine mul_le_mul_left ((measure_mono fun u hu' => ?_).trans (unit01_interval ha)) _
  exact hu _ (by rw [Nat.add_comm]; exact hu')

theorem choice_known {N : Nat} [NeZero N] (k : Nat) (ps : List ℝ≥0∞) (c : Prop) [Decidable c] (v : Option (Fin N)) :
    MeasurableSet[drawsPast (k + 1)] {ω | (if c then some (Fin.ofNat N (pick ps 1 (ENNReal.ofReal (ω k)))) else none) = v} := by
  by_cases hc : c
  · simp only [if_pos hc]
    exact pick_known k ps 1 {x | some (Fin.ofNat N x) = v}
  · simp only [if_neg hc]
    exact @MeasurableSet.const _ (drawsPast (k + 1)) _

theorem choice_prob {N : Nat} [NeZero N] (k : Nat) (ps : List ℝ≥0∞) (c : Prop) [Decidable c] (hc : c → ps.length + 1 = N ∧ ps.sum ≤ 1) (v : Fin N) (i : Nat) (p : ℝ≥0∞)
    {E : Set (Nat → ℝ)} (hv : v.val = i + 1) (hp : ps[i]? = some p) (hE : MeasurableSet[drawsPast k] E) :
    draws (E ∩ {ω | (if c then some (Fin.ofNat N (pick ps 1 (ENNReal.ofReal (ω k)))) else none) = some v}) ≤ p * draws E := by
  by_cases h : c
  · simp only [if_pos h, Option.some.injEq]
    refine (measure_mono (Set.inter_subset_inter_right _ fun ω hω => ?_)).trans (pick_prob k ps hp (hc h).2 hE)
    have hω : Fin.ofNat N (pick ps 1 (ENNReal.ofReal (ω k))) = v := hω
    have hlt : pick ps 1 (ENNReal.ofReal (ω k)) < N := by
      rcases pick_le ps 1 (ENNReal.ofReal (ω k)) with h0 | ⟨_, h0⟩
      · rw [h0]; exact Nat.pos_of_ne_zero (NeZero.ne N)
      · have := (hc h).1; omega
    have := congrArg Fin.val hω
    rw [Fin.val_ofNat, Nat.mod_eq_of_lt hlt] at this
    exact this.trans hv
  · simp [if_neg h]

/-- It is fair. -/
theorem fairRng_fair (prob : F → ℝ≥0∞) : Fair draws prob drawsPast (fairRng prob) where
  mono := drawsPast_mono
  le := drawsPast_le
  below k x := by
    have := draw_known k (T := {u | ENNReal.ofReal u < prob x}) (measurableSet_lt ENNReal.measurable_ofReal measurable_const)
    simp only [fairRng, decide_eq_true_eq]
    exact this
  bit k v := by
    have h := draw_known k (T := {u | u < 1 / 2}) measurableSet_Iio
    cases v with
    | true =>
      simp only [fairRng, decide_eq_true_eq]
      exact h
    | false =>
      have h := @MeasurableSet.compl _ _ (drawsPast (k + 1)) h
      simp only [fairRng, decide_eq_false_iff_not]
      exact h
  int3 k v := pick_known k (List.replicate 3 (1 / 3)) 1 {x | Fin.ofNat 3 x = v}
  int4 k v := pick_known k (List.replicate 4 (1 / 4)) 1 {x | Fin.ofNat 4 x = v}
  choice4 k ps v := choice_known k (ps.map prob) _ v
  choice16 k ps v := choice_known k (ps.map prob) _ v
  below_prob k x E _ hE := by
    have hm : MeasurableSet {u : ℝ | ENNReal.ofReal u < prob x} := measurableSet_lt ENNReal.measurable_ofReal measurable_const
    have h := draw_prob k hm hE
    have h2 := unit01_interval (a := 0) (p := prob x) (by simp)
    simp only [zero_add, zero_le, true_and] at h2
    simp only [fairRng, decide_eq_true_eq]
    exact h.le.trans (mul_le_mul_left h2 _)
  choice4_prob k ps v i p E _ hv hp hE := by
    refine choice_prob k (ps.map prob) _ (fun h => ?_) v i (prob p) hv (by rw [List.getElem?_map, hp]; rfl) hE
    exact ⟨by rw [List.length_map, h.1], h.2⟩
  choice16_prob k ps v i p E _ hv hp hE := by
    refine choice_prob k (ps.map prob) _ (fun h => ?_) v i (prob p) hv (by rw [List.getElem?_map, hp]; rfl) hE
    exact ⟨by rw [List.length_map, h.1], h.2⟩

end Plaquette
