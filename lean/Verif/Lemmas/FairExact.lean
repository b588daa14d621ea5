import Verif.Spec.Distribution
import Verif.Lemmas.FairRng

/-!
# The fair random generator is exact
-/

open MeasureTheory
open scoped ENNReal

namespace Plaquette
variable {F : Type}

theorem pick_zero : ∀ (ps : List ℝ≥0∞) (i : Nat) (u : ℝ≥0∞), ps.sum ≠ ⊤ → 0 < i → (pick ps i u = 0 ↔ ps.sum ≤ u)
  | [], i, u, _, _ => by simp [pick]
  | p :: ps, i, u, hs, hi => by
    rw [List.sum_cons, Ne, ENNReal.add_eq_top, not_or] at hs
    unfold pick
    split
    · next h =>
      constructor
      · omega
      · intro h'
        rw [List.sum_cons] at h'
        exact absurd (h'.trans_lt h) (not_lt.2 le_self_add)
    · next h =>
      rw [not_lt] at h
      rw [pick_zero ps (i + 1) (u - p) hs.2 (by omega), List.sum_cons]
      exact ENNReal.le_sub_iff_add_le_left hs.1 h

theorem pick_iff : ∀ (ps : List ℝ≥0∞) (i j : Nat) (p : ℝ≥0∞), ps[j]? = some p → ps.sum ≠ ⊤ → 0 < i →
    ∃ a, a + p ≤ ps.sum ∧ ∀ u, pick ps i u = i + j ↔ a ≤ u ∧ u < a + p
  | [], i, j, p, h, _, _ => by simp at h
  | p' :: ps, i, 0, p, h, _, _ => by
    simp only [List.getElem?_cons_zero, Option.some.injEq] at h
    subst h
    refine ⟨0, by rw [zero_add, List.sum_cons]; exact le_self_add, fun u => ?_⟩
    rw [zero_add]
    unfold pick
    split
    · next h => simp [h]
    · next h =>
      constructor
      · intro he
        rcases pick_le ps (i + 1) (u - p') with h | ⟨h1, _⟩ <;> omega
      · intro h'; exact absurd h'.2 h
  | p' :: ps, i, j + 1, p, h, hs, hi => by
    rw [List.sum_cons, Ne, ENNReal.add_eq_top, not_or] at hs
    obtain ⟨a, ha, hu⟩ := pick_iff ps (i + 1) j p (by simpa using h) hs.2 (by omega)
    refine ⟨p' + a, by rw [List.sum_cons, add_assoc]; gcongr, fun u => ?_⟩
    unfold pick
    split
    · next hlt =>
      constructor
      · omega
      · intro h'
        exact absurd ((le_self_add.trans h'.1).trans_lt hlt) (lt_irrefl _)
    · next hlt =>
      rw [not_lt] at hlt
      rw [show i + (j + 1) = i + 1 + j by omega, hu, ENNReal.le_sub_iff_add_le_left hs.1 hlt, add_assoc]
      rw [ENNReal.sub_lt_iff_lt_left hs.1 hlt]

theorem unit01_between {a b : ℝ≥0∞} (hab : a ≤ b) (hb : b ≤ 1) : unit01 {u | a ≤ ENNReal.ofReal u ∧ ENNReal.ofReal u < b} = b - a := by
  have hbt : b ≠ ⊤ := ne_top_of_le_ne_top ENNReal.one_ne_top hb
  have hat : a ≠ ⊤ := ne_top_of_le_ne_top hbt hab
  have hm : MeasurableSet {u : ℝ | a ≤ ENNReal.ofReal u ∧ ENNReal.ofReal u < b} :=
    (measurableSet_le measurable_const ENNReal.measurable_ofReal).inter (measurableSet_lt ENNReal.measurable_ofReal measurable_const)
  have he : {u | a ≤ ENNReal.ofReal u ∧ ENNReal.ofReal u < b} ∩ Set.Icc 0 1 = Set.Ico a.toReal b.toReal := by
    ext u
    constructor
    · rintro ⟨⟨h1, h2⟩, h0, _⟩
      constructor
      · have := (ENNReal.toReal_le_toReal hat ENNReal.ofReal_ne_top).2 h1
        rwa [ENNReal.toReal_ofReal h0] at this
      · have := (ENNReal.toReal_lt_toReal ENNReal.ofReal_ne_top hbt).2 h2
        rwa [ENNReal.toReal_ofReal h0] at this
    · rintro ⟨h1, h2⟩
      have h0 : 0 ≤ u := ENNReal.toReal_nonneg.trans h1
      refine ⟨⟨?_, ?_⟩, h0, h2.le.trans ?_⟩
      · rw [← ENNReal.ofReal_toReal hat]; exact ENNReal.ofReal_le_ofReal h1
      · rw [← ENNReal.ofReal_toReal hbt]; exact (ENNReal.ofReal_lt_ofReal_iff (h0.trans_lt h2)).2 h2
      · have := (ENNReal.toReal_le_toReal hbt ENNReal.one_ne_top).2 hb
        simpa using this
  rw [unit01, Measure.restrict_apply hm, he, Real.volume_Ico, ENNReal.ofReal_sub _ ENNReal.toReal_nonneg, ENNReal.ofReal_toReal hat, ENNReal.ofReal_toReal hbt]

theorem unit01_above {a : ℝ≥0∞} (ha : a ≤ 1) : unit01 {u | a ≤ ENNReal.ofReal u} = 1 - a := by
  have hm : MeasurableSet {u : ℝ | ENNReal.ofReal u < a} := measurableSet_lt ENNReal.measurable_ofReal measurable_const
  have h := unit01_between (zero_le : (0 : ℝ≥0∞) ≤ a) ha
  simp only [zero_le, true_and, tsub_zero] at h
  have := prob_compl_eq_one_sub (μ := unit01) hm
  rw [h] at this
  rw [← this]
  congr 1
  ext u
  simp

theorem unit01_pick (ps : List ℝ≥0∞) {j : Nat} {p : ℝ≥0∞} (hp : ps[j]? = some p) (hs : ps.sum ≤ 1) : unit01 {u | pick ps 1 (ENNReal.ofReal u) = j + 1} = p := by
  have hst := ne_top_of_le_ne_top ENNReal.one_ne_top hs
  obtain ⟨a, ha, hu⟩ := pick_iff ps 1 j p hp hst (by omega)
  have hat : a ≠ ⊤ := ne_top_of_le_ne_top hst (le_self_add.trans ha)
  rw [show {u : ℝ | pick ps 1 (ENNReal.ofReal u) = j + 1} = {u | a ≤ ENNReal.ofReal u ∧ ENNReal.ofReal u < a + p} from by
    ext u
    rw [Set.mem_ofPred_eq, Set.mem_ofPred_eq, ← hu, Nat.add_comm], unit01_between le_self_add (ha.trans hs), ENNReal.add_sub_cancel_left hat]

theorem unit01_pick_zero (ps : List ℝ≥0∞) (hs : ps.sum ≤ 1) : unit01 {u | pick ps 1 (ENNReal.ofReal u) = 0} = 1 - ps.sum := by
  rw [← unit01_above hs]
  congr 1
  ext u
  rw [Set.mem_ofPred_eq, Set.mem_ofPred_eq, pick_zero ps 1 _ (ne_top_of_le_ne_top ENNReal.one_ne_top hs) (by omega)]

theorem pick_set (ps : List ℝ≥0∞) (V : Set Nat) : MeasurableSet {u : ℝ | pick ps 1 (ENNReal.ofReal u) ∈ V} :=
  (pick_measurable ps 1).comp ENNReal.measurable_ofReal (MeasurableSet.of_discrete (s := V))

/-- A choice with the given probabilities. -/
theorem choice_exact {N : Nat} [NeZero N] (k : Nat) (ps : List ℝ≥0∞) (hl : ps.length + 1 = N) (hs : ps.sum ≤ 1) (v : Fin N) (w : ℝ≥0∞) (hw : ((1 - ps.sum) :: ps)[v.val]? = some w)
    {E : Set (Nat → ℝ)} (hE : MeasurableSet[drawsPast k] E) : draws (E ∩ {ω | Fin.ofNat N (pick ps 1 (ENNReal.ofReal (ω k))) = v}) = w * draws E := by
  have he : ∀ u, Fin.ofNat N (pick ps 1 u) = v ↔ pick ps 1 u = v.val := by
    intro u
    have hlt : pick ps 1 u < N := by
      rcases pick_le ps 1 u with h0 | ⟨_, h0⟩
      · rw [h0]; exact Nat.pos_of_ne_zero (NeZero.ne N)
      · omega
    rw [Fin.ext_iff, Fin.val_ofNat, Nat.mod_eq_of_lt hlt]
  simp only [he]
  have := draw_prob k (pick_set ps {v.val}) hE
  refine this.trans ?_
  congr 1
  cases hv : v.val with
  | zero =>
    rw [hv] at hw
    simp only [List.getElem?_cons_zero, Option.some.injEq] at hw
    rw [← hw]
    exact unit01_pick_zero ps hs
  | succ j =>
    rw [hv] at hw
    exact unit01_pick ps (by simpa using hw) hs

/-- A number between 0 and N - 1. -/
theorem uniform_exact {N : Nat} [NeZero N] (hN : 1 < N) (k : Nat) (v : Fin N) {E : Set (Nat → ℝ)} (hE : MeasurableSet[drawsPast k] E) :
    draws (E ∩ {ω | Fin.ofNat N (pick (List.replicate N (1 / (N : ℝ≥0∞))) 1 (ENNReal.ofReal (ω k))) = v}) = (N : ℝ≥0∞)⁻¹ * draws E := by
  have hsum : (List.replicate N (1 / (N : ℝ≥0∞))).sum = 1 := by
    rw [List.sum_replicate, nsmul_eq_mul, one_div, ENNReal.mul_inv_cancel (by simp; omega) (by simp)]
  have hget : ∀ j, j < N → (List.replicate N (1 / (N : ℝ≥0∞)))[j]? = some (N : ℝ≥0∞)⁻¹ := by
    intro j hj
    rw [List.getElem?_replicate, if_pos hj, one_div]
  have h := draw_prob k (pick_set (List.replicate N (1 / (N : ℝ≥0∞))) {x | Fin.ofNat N x = v}) hE
  refine h.trans ?_
  congr 1
  have hle : ∀ u, pick (List.replicate N (1 / (N : ℝ≥0∞))) 1 u ≤ N := by
    intro u
    rcases pick_le (List.replicate N (1 / (N : ℝ≥0∞))) 1 u with h0 | ⟨_, h0⟩
    · omega
    · rw [List.length_replicate] at h0; omega
  by_cases hv : v.val = 0
  · have hset : {u : ℝ | pick (List.replicate N (1 / (N : ℝ≥0∞))) 1 (ENNReal.ofReal u) ∈ {x | Fin.ofNat N x = v}} =
        {u : ℝ | pick (List.replicate N (1 / (N : ℝ≥0∞))) 1 (ENNReal.ofReal u) = 0} ∪ {u : ℝ | pick (List.replicate N (1 / (N : ℝ≥0∞))) 1 (ENNReal.ofReal u) = (N - 1) + 1} := by
      ext u
      simp only [Set.mem_ofPred_eq, Set.mem_union, Fin.ext_iff, Fin.val_ofNat, hv]
      have := hle (ENNReal.ofReal u)
      constructor
      · intro h
        rcases Nat.lt_or_ge (pick (List.replicate N (1 / (N : ℝ≥0∞))) 1 (ENNReal.ofReal u)) N with h' | h'
        · rw [Nat.mod_eq_of_lt h'] at h; exact .inl h
        · right; omega
      · rintro (h | h)
        · rw [h, Nat.zero_mod]
        · rw [h, Nat.sub_add_cancel (by omega), Nat.mod_self]
    have hm : MeasurableSet {u : ℝ | pick (List.replicate N (1 / (N : ℝ≥0∞))) 1 (ENNReal.ofReal u) = (N - 1) + 1} := pick_set _ {(N - 1) + 1}
    rw [hset, measure_union _ hm, unit01_pick_zero _ hsum.le, unit01_pick _ (hget (N - 1) (by omega)) hsum.le, hsum, tsub_self, zero_add]
    rw [Set.disjoint_left]
    intro u h1 h2
    have h1 : pick (List.replicate N (1 / (N : ℝ≥0∞))) 1 (ENNReal.ofReal u) = 0 := h1
    have h2 : pick (List.replicate N (1 / (N : ℝ≥0∞))) 1 (ENNReal.ofReal u) = (N - 1) + 1 := h2
    omega
  · have hset : {u : ℝ | pick (List.replicate N (1 / (N : ℝ≥0∞))) 1 (ENNReal.ofReal u) ∈ {x | Fin.ofNat N x = v}} =
        {u : ℝ | pick (List.replicate N (1 / (N : ℝ≥0∞))) 1 (ENNReal.ofReal u) = (v.val - 1) + 1} := by
      ext u
      simp only [Set.mem_ofPred_eq, Fin.ext_iff, Fin.val_ofNat]
      have := hle (ENNReal.ofReal u)
      rw [Nat.sub_add_cancel (by omega)]
      constructor
      · intro h
        rcases Nat.lt_or_ge (pick (List.replicate N (1 / (N : ℝ≥0∞))) 1 (ENNReal.ofReal u)) N with h' | h'
        · rwa [Nat.mod_eq_of_lt h'] at h
        · rw [show pick (List.replicate N (1 / (N : ℝ≥0∞))) 1 (ENNReal.ofReal u) = N by omega, Nat.mod_self] at h; omega
      · intro h
        rw [h, Nat.mod_eq_of_lt v.2]
    rw [hset, unit01_pick _ (hget (v.val - 1) (by omega)) hsum.le]

/-- It is exact. -/
theorem fairRng_exact (prob : F → ℝ≥0∞) : ExactFrom 0 draws prob drawsPast (fairRng prob) where
  toFairFrom := fairRng_fair prob
  below_exact k x E _ hE := by
    have hm : MeasurableSet {u : ℝ | ENNReal.ofReal u < prob x} := measurableSet_lt ENNReal.measurable_ofReal measurable_const
    have h := draw_prob k hm hE
    simp only [fairRng, decide_eq_true_eq]
    refine h.trans ?_
    congr 1
    rcases le_total (prob x) 1 with hp | hp
    · have := unit01_between (zero_le : (0 : ℝ≥0∞) ≤ prob x) hp
      simp only [zero_le, true_and, tsub_zero] at this
      rw [this, min_eq_left hp]
    · rw [min_eq_right hp]
      refine le_antisymm prob_le_one ?_
      have := unit01_between (zero_le : (0 : ℝ≥0∞) ≤ 1) (le_refl 1)
      simp only [zero_le, true_and, tsub_zero] at this
      rw [← this]
      exact measure_mono fun u hu => lt_of_lt_of_le hu hp
  bit_exact k v E _ hE := by
    have hb : unit01 {u | u < 1 / 2} = 2⁻¹ := by
      have hm : MeasurableSet {u : ℝ | u < 1 / 2} := measurableSet_Iio
      rw [unit01, Measure.restrict_apply hm, show {u : ℝ | u < 1 / 2} ∩ Set.Icc 0 1 = Set.Ico 0 (1 / 2) from ?_, Real.volume_Ico]
      · rw [sub_zero, one_div, ENNReal.ofReal_inv_of_pos (by norm_num)]; norm_num
      · ext u
        simp only [Set.mem_inter_iff, Set.mem_ofPred_eq, Set.mem_Icc, Set.mem_Ico]
        constructor
        · rintro ⟨h1, h2, _⟩; exact ⟨h2, h1⟩
        · rintro ⟨h1, h2⟩; exact ⟨h2, h1, by linarith⟩
    cases v with
    | true =>
      simp only [fairRng, decide_eq_true_eq]
      refine (draw_prob k (T := {u | u < 1 / 2}) measurableSet_Iio hE).trans ?_
      rw [hb]
    | false =>
      simp only [fairRng, decide_eq_false_iff_not]
      have hc : MeasurableSet {u : ℝ | ¬ u < 1 / 2} := MeasurableSet.compl measurableSet_Iio
      refine (draw_prob k hc hE).trans ?_
      congr 1
      have := prob_compl_eq_one_sub (μ := unit01) (s := {u : ℝ | u < 1 / 2}) measurableSet_Iio
      rw [hb, ENNReal.one_sub_inv_two] at this
      exact this
  int3_exact k v E _ hE := by
    have := uniform_exact (N := 3) (by omega) k v hE
    push_cast at this
    exact this
  int4_exact k v E _ hE := by
    have := uniform_exact (N := 4) (by omega) k v hE
    push_cast at this
    exact this
  choice4_exact k ps v w E _ hl hs hw hE := by
    have := choice_exact k (ps.map prob) (N := 4) (by rw [List.length_map, hl]) hs v w hw hE
    simp only [fairRng, hl, hs, and_self, if_true, Option.some.injEq]
    exact this
  choice16_exact k ps v w E _ hl hs hw hE := by
    have := choice_exact k (ps.map prob) (N := 16) (by rw [List.length_map, hl]) hs v w hw hE
    simp only [fairRng, hl, hs, and_self, if_true, Option.some.injEq]
    exact this

end Plaquette
