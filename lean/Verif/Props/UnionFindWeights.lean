import Verif.Lemmas.UFScale
import Verif.Props.UnionFind

/-!
# The weights of union find relative to each other (C122)
-/

namespace Plaquette

/-- A graph with the shape of one kind of stabilisers of a planar code of size 4: four rows of three vertices, with a dangling edge at both ends of
each row. -/
def planarFour : List (List Nat) :=
  [[0], [0, 1], [1, 2], [2], [3], [3, 4], [4, 5], [5], [6], [6, 7], [7, 8], [8], [9], [9, 10], [10, 11], [11],
    [0, 3], [1, 4], [2, 5], [3, 6], [4, 7], [5, 8], [6, 9], [7, 10], [8, 11]]

/-- The claim: equal weights are as good as no weights, with the coefficient of a new decoder, which is 2. -/
def C122_statement : Prop :=
  ∀ (n : Nat) (edges : List (List Nat)) (w : ℚ) (erasure : List Nat) (syn : List Bool), IsDecodingGraph n edges → edges ≠ [] → 0 < w →
    (∀ i ∈ erasure, i < edges.length) → syn.length = n →
    unionFindDecode true n edges 2 (some (edges.map fun _ => w)) erasure syn = unionFindDecode true n edges 2 none erasure syn

theorem planarFour_ok : IsDecodingGraph 12 planarFour := by
  have h : ∀ e ∈ planarFour, (match e with | [a] => decide (a < 12) | [a, b] => decide (a ≠ b) && decide (a < 12) && decide (b < 12) | _ => false) = true := by
    decide
  intro e he
  have := h e he
  match e, this with
  | [a], h => exact .inl ⟨a, rfl, of_decide_eq_true h⟩
  | [a, b], h =>
    simp only [Bool.and_eq_true, decide_eq_true_eq] at h
    exact .inr ⟨a, b, rfl, h.1.1, h.1.2, h.2⟩

/-- The syndrome of the witness: the vertices 1, 6, 7 and 8. -/
def planarFourSyndrome : List Bool := (List.range 12).map fun v => decide (v ∈ [1, 6, 7, 8])

theorem planarFour_unweighted : unionFindDecode true 12 planarFour 2 none [] planarFourSyndrome =
    .ok ((List.range 25).map fun i => decide (i ∈ [8, 11, 17, 20])) := by decide +kernel

theorem planarFour_weighted : unionFindDecode true 12 planarFour 2 (some (planarFour.map fun _ => 1)) [] planarFourSyndrome =
    .ok ((List.range 25).map fun i => decide (i ∈ [9, 10, 17, 20])) := by decide +kernel

/-- With the coefficient 2 equal weights change the correction: for the syndrome at the vertices 1, 6, 7 and 8 of the graph `planarFour`
the corrections with and without weights differ by a chain from the left side to the right side, so that one of them leads to a
logical error. -/
theorem C122_equal_counterexample : ¬ C122_statement := by
  intro h
  have h1 := h 12 planarFour 1 [] planarFourSyndrome planarFour_ok (by simp [planarFour]) one_pos (by simp) rfl
  rw [planarFour_unweighted, planarFour_weighted] at h1
  revert h1
  decide

theorem min_scale {w : ℚ} (hw : 0 < w) : ∀ l : List ℚ, (l.map fun x => w * x).min? = l.min?.map fun x => w * x := by
  intro l
  cases l with
  | nil => rfl
  | cons a l =>
    rw [List.map_cons, List.min?_cons', List.min?_cons', Option.map_some]
    congr 1
    induction l generalizing a with
    | nil => rfl
    | cons b l ih =>
      rw [List.map_cons, List.foldl_cons, List.foldl_cons, ← ih, ← mul_min_of_nonneg a b hw.le]

theorem ufWeights_scale (support : Bool) (m : Nat) (c : ℚ) {w : ℚ} (hw : 0 < w) (ws : List ℚ) :
    ufWeights support m c (some (ws.map fun x => w * x)) = ufWeights support m c (some ws) := by
  have hf : (ws.map fun x => w * x).filter (fun w => decide (w ≠ 0)) = (ws.filter fun w => decide (w ≠ 0)).map fun x => w * x := by
    rw [List.filter_map]
    congr 1
    refine List.filter_congr fun x _ => ?_
    simp [hw.ne']
  unfold ufWeights
  dsimp only
  rw [hf, min_scale hw]
  cases hm : (ws.filter fun w => decide (w ≠ 0)).min? with
  | none => rfl
  | some lo =>
    simp only [Option.map_some, List.length_map]
    have hg : ∀ i, c * (ws.map fun x => w * x).getD i 0 / (w * lo) = c * ws.getD i 0 / lo := by
      intro i
      rw [List.getD_eq_getElem?_getD, List.getD_eq_getElem?_getD, List.getElem?_map]
      cases ws[i]? with
      | none => simp
      | some x =>
        simp only [Option.map_some, Option.getD_some]
        rw [show c * (w * x) = w * (c * x) by ring, mul_div_mul_left _ _ hw.ne']
    simp only [hg]

/-- **C122.** Only the ratios of the weights matter: multiplying all weights by a positive number does not change the correction, for
all graphs, weights, coefficients, erasures and syndromes. -/
theorem C122_scale (support : Bool) (n : Nat) (edges : List (List Nat)) (c : ℚ) {w : ℚ} (hw : 0 < w) (ws : List ℚ) (erasure : List Nat)
    (syn : List Bool) :
    unionFindDecode support n edges c (some (ws.map fun x => w * x)) erasure syn = unionFindDecode support n edges c (some ws) erasure syn := by
  unfold unionFindDecode
  rw [ufWeights_scale support edges.length c hw ws]

/-- **C122.** With the coefficient 1, equal weights are as good as no weights. -/
theorem C122_equal_partial (n : Nat) {edges : List (List Nat)} (he : edges ≠ []) {w : ℚ} (hw : 0 < w) (erasure : List Nat) (syn : List Bool) :
    unionFindDecode true n edges 1 (some (edges.map fun _ => w)) erasure syn = unionFindDecode true n edges 1 none erasure syn := by
  have h1 : edges.map (fun _ => w) = (edges.map fun _ => (1 : ℚ)).map fun x => w * x := by simp
  rw [h1, C122_scale true n edges 1 hw]
  have h2 : ∃ p, ufWeights true edges.length 1 (some (edges.map fun _ => (1 : ℚ))) = .ok p ∧ p.1 = (fun _ => 1) ∧
      ∀ i, i < edges.length → p.2 i = 1 / 2 := by
    have hf : (edges.map fun _ => (1 : ℚ)).filter (fun w => decide (w ≠ 0)) = edges.map fun _ => (1 : ℚ) := by
      rw [List.filter_eq_self]
      intro x hx
      obtain ⟨_, _, rfl⟩ := List.mem_map.1 hx
      simp
    cases hm : (edges.map fun _ => (1 : ℚ)).min? with
    | none =>
      rw [List.min?_eq_none_iff, List.map_eq_nil_iff] at hm
      exact absurd hm he
    | some lo =>
      obtain ⟨_, _, hlo⟩ := List.mem_map.1 (List.min?_mem hm)
      refine ⟨(fun _ => 1, fun i => ufIncrement (1 * (edges.map fun _ => (1 : ℚ)).getD i 0 / lo)), ?_, rfl, fun i hi => ?_⟩
      · simp only [ufWeights, hf, hm, if_true, List.length_map]
      · dsimp only
        rw [← hlo, List.getD_eq_getElem?_getD, List.getElem?_map, List.getElem?_eq_getElem hi]
        norm_num [ufIncrement]
  obtain ⟨p, hp, hp1, hp2⟩ := h2
  have h3 : UGraph.unionFind ⟨n, edges, p.1, p.2⟩ erasure syn = UGraph.unionFind ⟨n, edges, fun _ => 2, fun _ => 1⟩ erasure syn := by
    have e1 : (⟨n, edges, p.1, p.2⟩ : UGraph) = UGraph.withInc (UGraph.sc (1 / 2) ⟨n, edges, fun _ => 2, fun _ => 1⟩) p.2 := by
      unfold UGraph.withInc UGraph.sc
      rw [hp1]
      congr 1
      funext i
      norm_num
    rw [e1, withInc_unionFind fun i hi => ?_, sc_unionFind (by norm_num)]
    rw [hp2 i hi]
    show (1 : ℚ) / 2 = 1 / 2 * 1
    norm_num
  unfold unionFindDecode
  rw [hp]
  simp only [h3]
  rfl

/-! ## Examples -/

example : unionFindDecode true 12 planarFour 1 (some (planarFour.map fun _ => 3)) [] planarFourSyndrome =
    .ok ((List.range 25).map fun i => decide (i ∈ [8, 11, 17, 20])) := by
  rw [C122_equal_partial 12 (by simp [planarFour]) (by norm_num)]
  decide +kernel

/-- The two corrections of the witness differ by a chain of four edges from the left side to the right side. -/
example : (List.range 25).filter (fun i => (decide (i ∈ [8, 11, 17, 20]) ^^ decide (i ∈ [9, 10, 17, 20]))) = [8, 9, 10, 11] ∧
    [8, 9, 10, 11].map (fun i => planarFour.getD i []) = [[6], [6, 7], [7, 8], [8]] := by decide

end Plaquette
