import Verif.Lemmas.UFSpan
import Verif.Props.Erasure

/-!
# The union find decoder (C36, C37)
-/

namespace Plaquette

theorem correctable_iff {n : Nat} {edges : List (List Nat)} {sel : Nat → Prop} {syn : List Bool} :
    Correctable n edges sel syn ↔ EvenClusters n edges sel (synAt syn) := by
  refine ⟨Correctable.even, fun h v hv => ?_⟩
  rcases h v hv with ⟨u, i, h1, h2, h3⟩ | h1
  · exact .inl ⟨u, i, sameCluster_iff.2 h1, h2, h3⟩
  · right
    convert h1 using 2
    ext u
    simp only [Set.mem_ofPred_eq, sameCluster_iff, synAt_iff]

theorem bd_of_explains {n : Nat} {edges : List (List Nat)} {corr syn : List Bool} (h : Explains n edges corr syn) (v : Nat) (hv : v < n) :
    bd edges (fun i => corr.getD i false) v = synAt syn v := by
  have hc : corr = (List.range edges.length).map fun i => corr.getD i false := by
    rw [← h.1]
    refine List.ext_getElem (by simp) fun i h1 h2 => ?_
    simp [List.getD_eq_getElem?_getD, h1]
  have h1 := h.2 v hv
  rw [← synAt_iff, hc, ← bd_odd] at h1
  exact Bool.eq_iff_iff.2 h1

/-- **C35, converse.** A syndrome that is explained by selected edges is even on every cluster of selected edges without a dangling
edge. With `C35_peeling`: the erasure decoder explains the syndrome whenever some choice of the selected edges does. -/
theorem C35_explained_correctable {n : Nat} {edges : List (List Nat)} (hg : IsDecodingGraph n edges) {sel : Nat → Prop}
    {corr syn : List Bool} (hsub : ∀ i, corr[i]? = some true → sel i) (h : Explains n edges corr syn) : Correctable n edges sel syn := by
  rw [correctable_iff]
  refine InSpan.even hg (x := fun i => corr.getD i false) (fun i _ hx => hsub i ?_) (bd_of_explains h)
  rw [List.getD_eq_getElem?_getD] at hx
  revert hx
  cases corr[i]? <;> simp

/-- The graph given to union find: maximal growth and growth increments are positive. -/
structure UGraph.Valid (g : UGraph) : Prop where
  graph : IsDecodingGraph g.n g.edges
  max : ∀ i, i < g.edges.length → 0 < g.maxGrowth i
  inc : ∀ i, i < g.edges.length → 0 < g.increment i

/-- **C36.** If the syndrome is correctable at all (every component of the graph has a dangling edge or an even number of syndrome
vertices), then cluster growth ends, no assertion fails, and the edges it returns contain the erased ones and form clusters which are
even or have a dangling edge. -/
theorem C36_growth {g : UGraph} (hg : g.Valid) {erasure : List Nat} (her : ∀ i ∈ erasure, i < g.edges.length) {syn : List Bool}
    (hlen : syn.length = g.n) (h : Correctable g.n g.edges (fun _ => True) syn) :
    ∃ sel, g.unionFind erasure syn = .ok sel ∧ (∀ i ∈ erasure, i ∈ sel) ∧ (∀ i ∈ sel, i < g.edges.length) ∧
      Correctable g.n g.edges (· ∈ sel) syn := by
  rcases unionFind_spec hg.graph hg.max hg.inc her hlen with ⟨sel, h1, h2, h3, h4, _⟩ | ⟨_, h1⟩
  · exact ⟨sel, h1, h2, h3, correctable_iff.2 h4⟩
  · exact absurd (correctable_iff.1 h) h1

/-- The statement of C36 for connected graphs. -/
theorem C36_connected {g : UGraph} (hg : g.Valid) (hconn : ∀ u v, u < g.n → v < g.n → SameCluster g.edges (fun _ => True) u v)
    {erasure : List Nat} (her : ∀ i ∈ erasure, i < g.edges.length) {syn : List Bool} (hlen : syn.length = g.n)
    (h : (∃ v, [v] ∈ g.edges) ∨ Even (Set.ncard {u : Nat | syn[u]? = some true})) :
    ∃ sel, g.unionFind erasure syn = .ok sel ∧ (∀ i ∈ erasure, i ∈ sel) ∧ (∀ i ∈ sel, i < g.edges.length) ∧
      Correctable g.n g.edges (· ∈ sel) syn := by
  refine C36_growth hg her hlen fun v hv => ?_
  rcases h with ⟨u, hu⟩ | h
  · left
    obtain ⟨i, hi⟩ := List.getElem?_of_mem hu
    have hun : u < g.n := by
      rcases hg.graph _ hu with ⟨a, ha, hlt⟩ | ⟨a, b, ha, _⟩
      · obtain rfl : u = a := by simpa using ha
        exact hlt
      · simp at ha
    exact ⟨u, i, hconn v u hv hun, trivial, hi⟩
  · right
    convert h using 2
    ext u
    simp only [Set.mem_ofPred_eq]
    refine ⟨fun h => h.2.2, fun h => ?_⟩
    have hu : u < g.n := by rw [← hlen]; exact (List.getElem?_eq_some_iff.1 h).1
    exact ⟨hu, hconn v u hv hu, h⟩

/-- **C36.** A syndrome is refused, with an `AssertionError`, exactly if it is not correctable. -/
theorem C36_refused {g : UGraph} (hg : g.Valid) {erasure : List Nat} (her : ∀ i ∈ erasure, i < g.edges.length) {syn : List Bool}
    (hlen : syn.length = g.n) :
    g.unionFind erasure syn = .error .assertionError ↔ ¬ Correctable g.n g.edges (fun _ => True) syn := by
  rcases unionFind_spec hg.graph hg.max hg.inc her hlen with ⟨sel, h1, _, h3, h4, _⟩ | ⟨h0, h1⟩
  · rw [h1]
    simp only [reduceCtorEq, false_iff, not_not]
    obtain ⟨corr, _, _, h5⟩ := C35_peeling hg.graph h3 hlen (correctable_iff.2 h4)
    exact C35_explained_correctable hg.graph (fun _ _ => trivial) h5
  · exact ⟨fun _ h => h1 (correctable_iff.1 h), fun _ => h0⟩

theorem checkUEdge_of {n : Nat} {edges : List (List Nat)} (hg : IsDecodingGraph n edges) :
    loopE (fun (_ : Unit) e => checkUEdge n e) () edges = .ok () := by
  obtain ⟨_, h, _⟩ := loopE_inv (f := fun (_ : Unit) e => checkUEdge n e) (fun _ _ => True) edges 0 () trivial (by
    intro j e _ hj _
    refine ⟨(), ?_, trivial⟩
    rcases hg e (List.mem_of_getElem? hj) with ⟨a, rfl, ha⟩ | ⟨a, b, rfl, hab, ha, hb⟩
    · simp [checkUEdge, ha]
    · simp [checkUEdge, ha, hb, hab])
  exact h

/-- The weights the decoder accepts: none; or, for `UnionFind`, one nonnegative weight for each edge, not all of them zero. -/
def WeightsOk (support : Bool) (m : Nat) : Option (List ℚ) → Prop
  | none => True
  | some ws => support = true ∧ ws.length = m ∧ (∀ w ∈ ws, 0 ≤ w) ∧ ∃ w ∈ ws, w ≠ 0

theorem ufIncrement_pos {w : ℚ} (h : 0 ≤ w) : 0 < ufIncrement w := by
  unfold ufIncrement
  split
  · norm_num
  · rename_i h0
    have : 0 < w := lt_of_le_of_ne h (Ne.symm h0)
    positivity

theorem ufWeights_ok {support : Bool} {m : Nat} {c : ℚ} (hc : 0 ≤ c) {weights : Option (List ℚ)} (h : WeightsOk support m weights) :
    ∃ p, ufWeights support m c weights = .ok p ∧ ∀ i, i < m → 0 < p.1 i ∧ 0 < p.2 i := by
  cases weights with
  | none => exact ⟨_, rfl, fun i _ => ⟨by norm_num, by norm_num⟩⟩
  | some ws =>
    obtain ⟨hs, hl, hpos, w, hw, hw0⟩ := h
    have hne : ws.filter (fun w => decide (w ≠ 0)) ≠ [] := by
      intro hcon
      have : w ∈ ws.filter (fun w => decide (w ≠ 0)) := List.mem_filter.2 ⟨hw, by simpa using hw0⟩
      rw [hcon] at this; simp at this
    cases hm : (ws.filter fun w => decide (w ≠ 0)).min? with
    | none => exact absurd (List.min?_eq_none_iff.1 hm) hne
    | some lo =>
      refine ⟨(fun _ => 1, fun i => ufIncrement (c * ws.getD i 0 / lo)), by simp only [ufWeights, hm, hs, hl, if_true], fun i hi => ⟨one_pos, ufIncrement_pos ?_⟩⟩
      have hlo : 0 ≤ lo := hpos lo (List.mem_filter.1 (List.min?_mem hm)).1
      have hwi : 0 ≤ ws.getD i 0 := by
        rw [List.getD_eq_getElem?_getD, List.getElem?_eq_getElem (by omega)]
        exact hpos _ (List.getElem_mem _)
      positivity

/-- **C37.** For every graph, erasure, accepted weights and correctable syndrome: the union find decoder (with or without support for
weights) does not fail, and the edges it returns explain the syndrome. -/
theorem C37_decode {n : Nat} {edges : List (List Nat)} (hg : IsDecodingGraph n edges) {support : Bool} {c : ℚ} (hc : 0 ≤ c)
    {weights : Option (List ℚ)} (hw : WeightsOk support edges.length weights) {erasure : List Nat} (her : ∀ i ∈ erasure, i < edges.length)
    {syn : List Bool} (hlen : syn.length = n) (h : Correctable n edges (fun _ => True) syn) :
    ∃ corr, unionFindDecode support n edges c weights erasure syn = .ok corr ∧ Explains n edges corr syn := by
  obtain ⟨p, h1, h2⟩ := ufWeights_ok hc hw
  obtain ⟨sel, h3, _, h4, h5⟩ := C36_growth (g := ⟨n, edges, p.1, p.2⟩) ⟨hg, fun i hi => (h2 i hi).1, fun i hi => (h2 i hi).2⟩ her hlen h
  obtain ⟨corr, h6, _, h7⟩ := C35_peeling hg h4 hlen h5
  refine ⟨corr, ?_, h7⟩
  unfold unionFindDecode
  simp only [checkUEdge_of hg, h1, h3]
  exact h6

/-- **C37.** The decoder gives an explanation of the syndrome whenever there is one, whatever the erasure and the weights are; otherwise
it raises an `AssertionError`. -/
theorem C37_iff {n : Nat} {edges : List (List Nat)} (hg : IsDecodingGraph n edges) {support : Bool} {c : ℚ} (hc : 0 ≤ c)
    {weights : Option (List ℚ)} (hw : WeightsOk support edges.length weights) {erasure : List Nat} (her : ∀ i ∈ erasure, i < edges.length)
    {syn : List Bool} (hlen : syn.length = n) :
    ((∃ corr, Explains n edges corr syn) ∧
      ∃ corr, unionFindDecode support n edges c weights erasure syn = .ok corr ∧ Explains n edges corr syn) ∨
    ((¬ ∃ corr, Explains n edges corr syn) ∧ unionFindDecode support n edges c weights erasure syn = .error .assertionError) := by
  by_cases h : Correctable n edges (fun _ => True) syn
  · obtain ⟨corr, h1, h2⟩ := C37_decode hg hc hw her hlen h
    exact .inl ⟨⟨corr, h2⟩, corr, h1, h2⟩
  · right
    obtain ⟨p, h1, h2⟩ := ufWeights_ok hc hw
    have h3 := (C36_refused (g := ⟨n, edges, p.1, p.2⟩) ⟨hg, fun i hi => (h2 i hi).1, fun i hi => (h2 i hi).2⟩ her hlen).2 h
    refine ⟨fun ⟨corr, hcorr⟩ => h (C35_explained_correctable hg (fun _ _ => trivial) hcorr), ?_⟩
    unfold unionFindDecode
    simp only [checkUEdge_of hg, h1, h3]

/-- **C37.** Weights that are all zero are refused by both classes, and any weights by `UnionFindNoWeights`. -/
theorem C37_weights_refused {n : Nat} {edges : List (List Nat)} (hg : IsDecodingGraph n edges) (support : Bool) (c : ℚ) (ws : List ℚ)
    (h : support = false ∨ ∀ w ∈ ws, w = 0) (erasure : List Nat) (syn : List Bool) :
    unionFindDecode support n edges c (some ws) erasure syn = .error .valueError := by
  unfold unionFindDecode
  simp only [checkUEdge_of hg]
  have : ufWeights support edges.length c (some ws) = .error .valueError := by
    cases hm : (ws.filter fun w => decide (w ≠ 0)).min? with
    | none => simp only [ufWeights, hm]
    | some lo =>
      rcases h with h | h
      · simp only [ufWeights, hm, h]; rfl
      · have := List.mem_filter.1 (List.min?_mem hm)
        simp [h lo this.1] at this
  simp only [this]

/-! ## Examples -/

/-- A path of five vertices with a dangling edge at its end: an erased edge, one syndrome vertex away from it. -/
def examplePath : List (List Nat) := [[0, 1], [1, 2], [2, 3], [3, 4], [4]]

example : IsDecodingGraph 5 examplePath := by
  intro e he
  simp only [examplePath, List.mem_cons, List.not_mem_nil, or_false] at he
  rcases he with rfl | rfl | rfl | rfl | rfl <;> simp

example : unionFindDecode true 5 examplePath 1 none [0] [false, false, true, false, false] =
    .ok [false, false, true, true, true] := by decide +kernel

example : unionFindDecode false 5 examplePath 1 none [] [false, true, true, false, false] =
    .ok [false, true, false, false, false] := by decide +kernel

/-- A large weight on an edge keeps the decoder from using it. -/
example : unionFindDecode true 3 [[0, 1], [1, 2], [0], [2]] 1 (some [1, 1, 1, 1]) [] [true, true, false] = .ok [true, false, false, false] := by
  decide +kernel

example : unionFindDecode true 3 [[0, 1], [1, 2], [0], [2]] 1 (some [5, 1, 1, 1]) [] [true, true, false] = .ok [false, true, true, true] := by
  decide +kernel

/-- Two syndrome vertices in different components, none of which has a dangling edge. -/
example : unionFindDecode true 4 [[0, 1], [2, 3]] 1 none [] [true, false, true, false] = .error .assertionError := by decide +kernel

example : unionFindDecode true 2 [[0, 1]] 1 (some [0]) [] [true, true] = .error .valueError := by decide +kernel

/-- The hypotheses of `C36_connected` and `C37_decode`. -/
example : Correctable 5 examplePath (fun _ => True) [false, false, true, false, false] := by
  have h3 : SameCluster examplePath (fun _ => True) 3 4 := .step (.refl 3) (i := 3) (e := [3, 4]) trivial rfl (by simp) (by simp)
  have back : ∀ k, k < 4 → SameCluster examplePath (fun _ => True) k (k + 1) := fun k hk => by
    rcases (show k = 0 ∨ k = 1 ∨ k = 2 ∨ k = 3 by omega) with rfl | rfl | rfl | rfl
    · exact .step (.refl 0) (i := 0) (e := [0, 1]) trivial rfl (by simp) (by simp)
    · exact .step (.refl 1) (i := 1) (e := [1, 2]) trivial rfl (by simp) (by simp)
    · exact .step (.refl 2) (i := 2) (e := [2, 3]) trivial rfl (by simp) (by simp)
    · exact h3
  have tr : ∀ {a b c}, SameCluster examplePath (fun _ => True) a b → SameCluster examplePath (fun _ => True) b c →
      SameCluster examplePath (fun _ => True) a c := fun h1 h2 =>
    sameCluster_iff.2 ((sameCluster_iff.1 h1).trans (sameCluster_iff.1 h2))
  intro v hv
  refine .inl ⟨4, 4, ?_, trivial, rfl⟩
  rcases (show v = 0 ∨ v = 1 ∨ v = 2 ∨ v = 3 ∨ v = 4 by omega) with rfl | rfl | rfl | rfl | rfl
  · exact tr (tr (tr (back 0 (by omega)) (back 1 (by omega))) (back 2 (by omega))) h3
  · exact tr (tr (back 1 (by omega)) (back 2 (by omega))) h3
  · exact tr (back 2 (by omega)) h3
  · exact h3
  · exact .refl 4

example : WeightsOk true 5 (some [1, 2, 0, 1, 3 / 2]) := ⟨rfl, rfl, by simp; norm_num, 1, by simp, by norm_num⟩

end Plaquette
