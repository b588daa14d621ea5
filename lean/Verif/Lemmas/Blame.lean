import Mathlib.MeasureTheory.Measure.MeasureSpace
import Mathlib.Algebra.BigOperators.Pi
import Mathlib.Data.Finset.Pi
import Mathlib.Algebra.Order.BigOperators.Ring.Finset
import Mathlib.Combinatorics.Pigeonhole

/-!
# From independent causes to faults
-/

open MeasureTheory
open scoped ENNReal

namespace Plaquette

/-- If something at each place `a` needs one of at most `B` causes `C a`, each cause is one of at most `D` places, and all causes of a set happen with probability `sᴰ`
to the number of causes, then something happens at all places of a set with probability `B s` to the number of places. -/
theorem local_of_blame {Ω ι : Type*} [DecidableEq ι] [MeasurableSpace Ω] {μ : Measure Ω} {s : ℝ≥0∞} (hs : s ≤ 1) {B D : Nat} (C : ι → Finset Nat) (A : Finset ι)
    (hB : ∀ a ∈ A, (C a).card ≤ B) (hD : ∀ i, (A.filter fun a => i ∈ C a).card ≤ D) {ok : Ω → Prop} {st : Ω → Nat → Prop}
    (h : ∀ I : Finset Nat, μ {ω | ok ω ∧ ∀ i ∈ I, st ω i} ≤ (s ^ D) ^ I.card) :
    μ {ω | ok ω ∧ ∀ a ∈ A, ∃ i ∈ C a, st ω i} ≤ (B * s) ^ A.card := by
  classical
  let img : (∀ a ∈ A, Nat) → Finset Nat := fun c => A.attach.image fun a => c a.1 a.2
  have hsub : {ω | ok ω ∧ ∀ a ∈ A, ∃ i ∈ C a, st ω i} ⊆ ⋃ c ∈ A.pi C, {ω | ok ω ∧ ∀ i ∈ img c, st ω i} := by
    rintro ω ⟨h1, h2⟩
    choose! c hc using h2
    refine Set.mem_biUnion (x := fun a _ => c a) (Finset.mem_pi.2 fun a ha => (hc a ha).1) ⟨h1, fun i hi => ?_⟩
    obtain ⟨a, _, rfl⟩ := Finset.mem_image.1 hi
    exact (hc a.1 a.2).2
  refine (measure_mono hsub).trans ((measure_biUnion_finset_le _ _).trans ((Finset.sum_le_card_nsmul _ _ (s ^ A.card) fun c hc => ?_).trans ?_))
  · refine (h _).trans ?_
    rw [← pow_mul]
    refine pow_le_pow_right_of_le_one' hs ?_
    have hc := Finset.mem_pi.1 hc
    have := Finset.card_le_mul_card_image (f := fun a : A => c a.1 a.2) A.attach D fun i _ => by
      refine le_trans ?_ (hD i)
      refine Finset.card_le_card_of_injOn (fun a => a.1) (fun a ha => ?_) (fun a _ b _ hab => Subtype.ext hab)
      have ha := (Finset.mem_filter.1 ha).2
      refine Finset.mem_coe.2 (Finset.mem_filter.2 ⟨a.2, ?_⟩)
      rw [← ha]
      exact hc a.1 a.2
    rwa [Finset.card_attach] at this
  · rw [Finset.card_pi, nsmul_eq_mul, mul_pow]
    gcongr
    rw [← Nat.cast_pow]
    exact Nat.cast_le.2 ((Finset.prod_le_prod' hB).trans (by rw [Finset.prod_const]))

end Plaquette
