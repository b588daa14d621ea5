import Verif.Spec.Matching
import Mathlib.Data.Finset.Powerset
import Mathlib.Data.Finset.Lattice.Fold
import Mathlib.Data.Finset.Max

/-!
# There are solvers as they are assumed
-/

namespace Plaquette
open Classical

/-- Of the sets of edges with a property there is one of smallest cost, if there is one at all. -/
theorem exists_cheapest {β : Type} [LinearOrder β] {m : Nat} {P : (Nat → Bool) → Prop} {cost : (Nat → Bool) → β}
    (hP : ∀ x y, (∀ i < m, x i = y i) → P x → P y) (hc : ∀ x y, (∀ i < m, x i = y i) → cost x = cost y) (h : ∃ y, P y) :
    ∃ s : Finset Nat, P (fun i => decide (i ∈ s)) ∧ ∀ y, P y → cost (fun i => decide (i ∈ s)) ≤ cost y := by
  have key : ∀ y, P y → ∃ s ∈ (Finset.range m).powerset.filter (fun s => P fun i => decide (i ∈ s)), cost y = cost fun i => decide (i ∈ s) := by
    intro y hy
    have e : ∀ i < m, y i = decide (i ∈ (Finset.range m).filter fun i => y i = true) := by
      intro i hi
      by_cases h : y i = true <;> simp [h, hi]
    exact ⟨(Finset.range m).filter fun i => y i = true, by
      rw [Finset.mem_filter, Finset.mem_powerset]
      exact ⟨Finset.filter_subset _ _, hP _ _ e hy⟩, hc _ _ e⟩
  obtain ⟨y, hy⟩ := h
  obtain ⟨s0, hs0, -⟩ := key y hy
  obtain ⟨s, hs, hmin⟩ := Finset.exists_min_image _ (fun s : Finset Nat => cost fun i => decide (i ∈ s)) ⟨s0, hs0⟩
  refine ⟨s, (Finset.mem_filter.1 hs).2, fun y hy => ?_⟩
  obtain ⟨s', hs', e⟩ := key y hy
  rw [e]
  exact hmin s' hs'

theorem PmGraph.cheapest (G : PmGraph) (n : Nat) (syn : List Bool) (h : ∃ y, G.Matches n syn y) :
    ∃ x, G.Matches n syn x ∧ ∀ y, G.Matches n syn y → G.cost x ≤ G.cost y := by
  obtain ⟨s, h1, h2⟩ := exists_cheapest (m := G.edges.length) (P := G.Matches n syn) (cost := G.cost) (fun x y e hx v hv => by
      rw [← hx v hv]
      have : {i : Nat | y i = true ∧ ∃ e, G.edges[i]? = some e ∧ (e.u = v ∨ e.v = v)} =
          {i : Nat | x i = true ∧ ∃ e, G.edges[i]? = some e ∧ (e.u = v ∨ e.v = v)} := by
        ext i
        simp only [Set.mem_ofPred_eq]
        refine and_congr_left fun ⟨m, hm, _⟩ => ?_
        rw [e i (List.getElem?_eq_some_iff.1 hm).1]
      rw [this]) (fun x y e => Finset.sum_congr rfl fun i hi => by rw [e i (Finset.mem_range.1 hi)]) h
  exact ⟨_, h1, h2⟩

/-- A solver for PyMatching: it exists, but it is not computed here. -/
theorem exists_pyMatching : ∃ solve, IsPyMatching solve := by
  refine ⟨fun G syn => if h : ∃ y, G.Matches syn.length syn y then .ok ((List.range G.numFaults).map fun f =>
    decide (Odd (Set.ncard {i : Nat | Classical.choose (G.cheapest syn.length syn h) i = true ∧ ∃ e, G.edges[i]? = some e ∧ e.fault = f})))
    else .error .valueError, fun n G syn hG hn => ?_⟩
  subst hn
  refine ⟨fun res hres => ?_, fun h => ⟨_, dif_pos h⟩⟩
  dsimp only at hres
  by_cases h : ∃ y, G.Matches syn.length syn y
  · rw [dif_pos h] at hres
    obtain rfl := Except.ok.inj hres
    obtain ⟨h1, h2⟩ := Classical.choose_spec (G.cheapest syn.length syn h)
    refine ⟨_, h1, h2, by simp, fun f hf => ?_⟩
    rw [List.getElem?_map, List.getElem?_range hf]
    simp
  · rw [dif_neg h] at hres; cases hres

theorem FbGraph.cheapest (G : FbGraph) (syn er : List Nat) (h : ∃ y, G.Matches syn y) :
    ∃ s : Finset Nat, G.Matches syn (fun i => decide (i ∈ s)) ∧ ∀ y, G.Matches syn y → G.cost er (fun i => decide (i ∈ s)) ≤ G.cost er y :=
  exists_cheapest (m := G.edges.length) (P := G.Matches syn) (cost := G.cost er) (fun x y e hx v hv hv' => by
      rw [← hx v hv hv']
      have : {i : Nat | y i = true ∧ ∃ e, G.edges[i]? = some e ∧ (e.1 = v ∨ e.2.1 = v)} =
          {i : Nat | x i = true ∧ ∃ e, G.edges[i]? = some e ∧ (e.1 = v ∨ e.2.1 = v)} := by
        ext i
        simp only [Set.mem_ofPred_eq]
        refine and_congr_left fun ⟨m, hm, _⟩ => ?_
        rw [e i (List.getElem?_eq_some_iff.1 hm).1]
      rw [this]) (fun x y e => Finset.sum_congr rfl fun i hi => by rw [e i (Finset.mem_range.1 hi)]) h

/-- A solver for Fusion Blossom. -/
theorem exists_fusionBlossom : ∃ solve, IsFusionBlossom solve := by
  refine ⟨fun G syn er => if h : ∃ y, G.Matches syn y then .ok (Classical.choose (G.cheapest syn er h)).toList else .error .valueError,
    fun G syn er hG _ _ => ⟨fun sel hsel => ?_, fun h => ⟨_, dif_pos h⟩⟩⟩
  dsimp only at hsel
  by_cases h : ∃ y, G.Matches syn y
  · rw [dif_pos h] at hsel
    obtain rfl := Except.ok.inj hsel
    have := Classical.choose_spec (G.cheapest syn er h)
    simp only [Finset.mem_toList]
    convert this
  · rw [dif_neg h] at hsel; cases hsel

end Plaquette
