import Verif.Props.Matching
import Mathlib.Analysis.SpecialFunctions.Log.Basic

/-!
# The most likely errors (C76)
-/

namespace Plaquette
variable {n r : Nat} {stabs : List (Op n)} {w : Option (Weights FW)} {g : SynGraph FW}

open Classical in
/-- The edges that are enabled and end somewhere. -/
noncomputable def usableEdges (g : SynGraph FW) : Finset Nat :=
  (Finset.range g.edges.length).filter fun i => ∃ e, g.edges[i]? = some e ∧ e.enabled = true ∧ e.vertices ≠ []

open Classical in
/-- The probability that exactly the errors of the edges `sel` happen, if those of edge `i` happen with the probability `pr i`, independently of each other. -/
noncomputable def edgesProb (g : SynGraph FW) (pr : Nat → ℝ) (sel : Finset Nat) : ℝ := ∏ i ∈ usableEdges g, if i ∈ sel then pr i else 1 - pr i

/-- The weights of the edges are `-log(p / (1 - p))` up to errors of `ε`. -/
def WeightsAre (g : SynGraph FW) (pr : Nat → ℝ) (ε : ℝ) : Prop :=
  ∀ i ∈ usableEdges g, 0 < pr i ∧ pr i < 1 ∧ |(edgeWeight g i : ℝ) + Real.log (pr i / (1 - pr i))| ≤ ε

theorem EdgesExplain.usable {m : Nat} {sel : Finset Nat} {syn : Option (List (List Bool))} (h : EdgesExplain g r m sel syn) : sel ⊆ usableEdges g := by
  intro i hi
  obtain ⟨e, he, h2⟩ := h.1 i hi
  unfold usableEdges
  rw [Finset.mem_filter, Finset.mem_range]
  exact ⟨(List.getElem?_eq_some_iff.1 he).1, e, he, h2⟩

theorem edgesProb_eq {pr : Nat → ℝ} (hpr : ∀ i ∈ usableEdges g, 0 < pr i ∧ pr i < 1) {sel : Finset Nat} (hs : sel ⊆ usableEdges g) :
    edgesProb g pr sel = (∏ i ∈ usableEdges g, (1 - pr i)) * Real.exp (∑ i ∈ sel, Real.log (pr i / (1 - pr i))) := by
  classical
  unfold edgesProb
  rw [Real.exp_sum]
  have h1 : ∏ i ∈ sel, Real.exp (Real.log (pr i / (1 - pr i))) = ∏ i ∈ usableEdges g, if i ∈ sel then pr i / (1 - pr i) else 1 := by
    rw [Finset.prod_ite_mem, Finset.inter_eq_right.2 hs]
    refine Finset.prod_congr rfl fun i hi => ?_
    obtain ⟨h1, h2⟩ := hpr i (hs hi)
    exact Real.exp_log (div_pos h1 (by linarith))
  rw [h1, ← Finset.prod_mul_distrib]
  refine Finset.prod_congr rfl fun i hi => ?_
  obtain ⟨h1, h2⟩ := hpr i hi
  split
  · rw [mul_div_cancel₀]
    linarith
  · rw [mul_one]

/-- If the total weight is the smallest up to `δ`, then so is the probability the largest, up to a factor. -/
theorem likelihood {pr : Nat → ℝ} {ε : ℝ} (hw : WeightsAre g pr ε) {sel sel' : Finset Nat} (hs : sel ⊆ usableEdges g) (hs' : sel' ⊆ usableEdges g) {δ : ℚ}
    (h : ∑ i ∈ sel, edgeWeight g i ≤ ∑ i ∈ sel', edgeWeight g i + δ) :
    edgesProb g pr sel' ≤ edgesProb g pr sel * Real.exp ((sel.card + sel'.card) * ε + δ) := by
  have hpr : ∀ i ∈ usableEdges g, 0 < pr i ∧ pr i < 1 := fun i hi => ⟨(hw i hi).1, (hw i hi).2.1⟩
  rw [edgesProb_eq hpr hs, edgesProb_eq hpr hs', mul_assoc, ← Real.exp_add]
  refine mul_le_mul_of_nonneg_left (Real.exp_le_exp.2 ?_) (Finset.prod_nonneg fun i hi => by linarith [(hpr i hi).2])
  have h1 : ∑ i ∈ sel', Real.log (pr i / (1 - pr i)) ≤ ∑ i ∈ sel', (ε - (edgeWeight g i : ℝ)) :=
    Finset.sum_le_sum fun i hi => by have := abs_le.1 (hw i (hs' hi)).2.2; linarith [this.2]
  have h2 : ∑ i ∈ sel, (-ε - (edgeWeight g i : ℝ)) ≤ ∑ i ∈ sel, Real.log (pr i / (1 - pr i)) :=
    Finset.sum_le_sum fun i hi => by have := abs_le.1 (hw i (hs hi)).2.2; linarith [this.1]
  rw [Finset.sum_sub_distrib, Finset.sum_const, nsmul_eq_mul] at h1 h2
  have h3 : (∑ i ∈ sel, (edgeWeight g i : ℝ)) ≤ ∑ i ∈ sel', (edgeWeight g i : ℝ) + δ := by exact_mod_cast h
  linarith

/-- **C76**: with the weights `-log(p / (1 - p))`, PyMatching returns the product of the errors of edges that explain the syndrome and that are the most likely of all edges that
do, up to the rounding of the weights. -/
theorem C76_pymatching {solve : PmGraph → List Bool → Except Err (List Bool)} (hS : IsPyMatching solve) (h : mkSynGraph FW.isInf r stabs w = .ok g)
    {states : List PmGraph} (hst : setupAll (pmBackend solve) g = .ok states) {erased syn : Option (List (List Bool))} {p : Op n}
    (hp : decode (pmBackend solve) g n states erased syn = .ok p) {pr : Nat → ℝ} {ε : ℝ} (hw : WeightsAre g pr ε) :
    ∃ sel, EdgesExplain g r stabs.length sel syn ∧ EdgesProduct g sel p ∧ ∀ sel', EdgesExplain g r stabs.length sel' syn →
      edgesProb g pr sel' ≤ edgesProb g pr sel * Real.exp ((sel.card + sel'.card) * ε) := by
  obtain ⟨sel, h1, h2, h3⟩ := C72_minimal hS h hst hp
  refine ⟨sel, h1, h2, fun sel' h' => ?_⟩
  have := likelihood hw h1.usable h'.usable (δ := 0) (by rw [add_zero]; exact h3 sel' h')
  simpa using this

/-- **C76**: the same for Fusion Blossom without erasures, up to a hundredth of the largest weight for each edge. -/
theorem C76_fusionBlossom {solve : FbGraph → List Nat → List Nat → Except Err (List Nat)} (hS : IsFusionBlossom solve)
    (h : mkSynGraph FW.isInf r stabs w = .ok g) {states : List FbGraph} (hst : setupAll (fbBackend solve) g = .ok states)
    {erased syn : Option (List (List Bool))} (hno : ∀ t q, ¬ SynBit erased t q) {p : Op n} (hp : decode (fbBackend solve) g n states erased syn = .ok p) {M : ℚ}
    (hM : ∀ e ∈ g.edges, e.enabled = true → FW.weight e.weight ≤ M) {pr : Nat → ℝ} {ε : ℝ} (hw : WeightsAre g pr ε) :
    ∃ sel, EdgesExplain g r stabs.length sel syn ∧ EdgesProduct g sel p ∧ ∀ sel', EdgesExplain g r stabs.length sel' syn →
      edgesProb g pr sel' ≤ edgesProb g pr sel * Real.exp ((sel.card + sel'.card) * ε + sel.card * (M / 100)) := by
  obtain ⟨sel, h1, h2, h3⟩ := C73_rounded_partial hS h hst hp hM
  have hl : ∀ i, lossWeight g erased i = edgeWeight g i := by
    intro i
    unfold lossWeight
    rw [if_neg]
    rintro ⟨_, t, _, q, _, _, _, hs⟩
    exact hno t q hs
  simp only [hl] at h3
  refine ⟨sel, h1, h2, fun sel' h' => ?_⟩
  have := likelihood hw h1.usable h'.usable (h3 sel' h')
  simpa using this

/-- For given weights, there are probabilities that they belong to. -/
example : WeightsAre g (fun i => 1 / (1 + Real.exp (edgeWeight g i))) 0 := by
  intro i _
  have he := Real.exp_pos (edgeWeight g i : ℝ)
  refine ⟨by positivity, by rw [div_lt_one (by positivity)]; linarith, ?_⟩
  have : 1 / (1 + Real.exp (edgeWeight g i : ℝ)) / (1 - 1 / (1 + Real.exp (edgeWeight g i : ℝ))) = (Real.exp (edgeWeight g i : ℝ))⁻¹ := by
    field_simp
    ring
  rw [this, Real.log_inv, Real.log_exp]
  simp

end Plaquette
