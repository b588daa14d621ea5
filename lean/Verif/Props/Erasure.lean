import Verif.Lemmas.ErasureMain
import Mathlib.Data.Set.Card
import Mathlib.Algebra.Ring.Parity

/-!
# The erasure decoder (C35)
-/

namespace Plaquette

/-- The graphs the decoder is for: an edge is one vertex (a dangling edge) or two different vertices, all among the `n` vertices of
the graph. -/
def IsDecodingGraph (n : Nat) (edges : List (List Nat)) : Prop :=
  ∀ e ∈ edges, (∃ a, e = [a] ∧ a < n) ∨ ∃ a b, e = [a, b] ∧ a ≠ b ∧ a < n ∧ b < n

/-- Two vertices are in the same cluster of edges: there is a path of these edges between them. -/
inductive SameCluster (edges : List (List Nat)) (sel : Nat → Prop) : Nat → Nat → Prop
  | refl (v : Nat) : SameCluster edges sel v v
  | step {v u w i : Nat} {e : List Nat} : SameCluster edges sel v u → sel i → edges[i]? = some e → u ∈ e → w ∈ e →
      SameCluster edges sel v w

/-- Every cluster has a dangling edge or an even number of vertices with a syndrome. -/
def Correctable (n : Nat) (edges : List (List Nat)) (sel : Nat → Prop) (syn : List Bool) : Prop :=
  ∀ v, v < n → (∃ u i, SameCluster edges sel v u ∧ sel i ∧ edges[i]? = some [u]) ∨
    Even (Set.ncard {u | u < n ∧ SameCluster edges sel v u ∧ syn[u]? = some true})

/-- The chosen edges explain the syndrome: the vertices at which an odd number of them end are the vertices of the syndrome. -/
def Explains (n : Nat) (edges : List (List Nat)) (corr syn : List Bool) : Prop :=
  corr.length = edges.length ∧ ∀ v, v < n →
    (Odd (Set.ncard {i : Nat | corr[i]? = some true ∧ ∃ e : List Nat, edges[i]? = some e ∧ v ∈ e}) ↔ syn[v]? = some true)

/-- The syndrome as the decoder sees it. -/
def synAt (syn : List Bool) : Nat → Bool := fun v => syn.getD v false

theorem synAt_iff (syn : List Bool) (v : Nat) : synAt syn v = true ↔ syn[v]? = some true := by
  unfold synAt
  rw [List.getD_eq_getElem?_getD]
  cases syn[v]? <;> simp

theorem sameCluster_iff {edges : List (List Nat)} {sel : Nat → Prop} {a b : Nat} :
    SameCluster edges sel a b ↔ JoinedBy edges sel a b := by
  constructor
  · intro h
    induction h with
    | refl => exact .refl
    | step _ hi he hu hw ih => exact ih.tail ⟨_, _, hi, he, hu, hw⟩
  · intro h
    induction h with
    | refl => exact .refl _
    | tail _ hs ih =>
      obtain ⟨i, e, hi, he, hu, hw⟩ := hs
      exact .step ih hi he hu hw

theorem Correctable.even {n : Nat} {edges : List (List Nat)} {sel : Nat → Prop} {syn : List Bool}
    (h : Correctable n edges sel syn) : EvenClusters n edges sel (synAt syn) := by
  intro v hv
  rcases h v hv with ⟨u, i, h1, h2, h3⟩ | h1
  · exact .inl ⟨u, i, sameCluster_iff.1 h1, h2, h3⟩
  · right
    convert h1 using 2
    ext u
    simp only [Set.mem_ofPred_eq, sameCluster_iff, synAt_iff]

theorem bd_odd {edges : List (List Nat)} (x : Nat → Bool) (v : Nat) :
    bd edges x v = true ↔ Odd (Set.ncard {i : Nat | ((List.range edges.length).map x)[i]? = some true ∧ ∃ e : List Nat, edges[i]? = some e ∧ v ∈ e}) := by
  have hset : {i : Nat | ((List.range edges.length).map x)[i]? = some true ∧ ∃ e : List Nat, edges[i]? = some e ∧ v ∈ e} =
      (((List.range edges.length).filter fun i => x i && touches edges i v).toFinset : Set Nat) := by
    ext i
    simp only [Set.mem_ofPred_eq, List.coe_toFinset, List.mem_filter, List.mem_range, Bool.and_eq_true, List.getElem?_map]
    constructor
    · rintro ⟨h1, e, he, hv⟩
      have hi := (List.getElem?_eq_some_iff.1 he).1
      rw [List.getElem?_range hi] at h1
      exact ⟨hi, by simpa using h1, by rw [touches_some he]; simpa using hv⟩
    · rintro ⟨hi, hx, ht⟩
      rw [List.getElem?_range hi]
      have he : edges[i]? = some edges[i] := List.getElem?_eq_getElem hi
      rw [touches_some he] at ht
      exact ⟨by simp [hx], _, he, of_decide_eq_true ht⟩
  rw [hset, Set.ncard_coe_finset, List.toFinset_card_of_nodup (List.nodup_range.filter _), Nat.odd_iff]
  exact xsum_eq_odd _ _

/-- **C35.** For every graph, selection of edges and syndrome such that each cluster of selected edges has a dangling edge or an
even number of syndrome vertices: the decoder does not fail, and it returns selected edges that explain the syndrome. -/
theorem C35_peeling {n : Nat} {edges : List (List Nat)} (hg : IsDecodingGraph n edges) {sel : List Nat}
    (hsel : ∀ i ∈ sel, i < edges.length) {syn : List Bool} (hlen : syn.length = n) (h : Correctable n edges (· ∈ sel) syn) :
    ∃ corr, erasureDecode n edges sel (synAt syn) = .ok corr ∧ (∀ i, corr[i]? = some true → i ∈ sel) ∧
      Explains n edges corr syn := by
  obtain ⟨x, h1, h2, h3⟩ := erasureDecode_spec hg hsel (synAt syn)
  have hspan : InSpan edges (fun i => decide (i ∈ sel)) (synAt syn) := by
    refine EvenClusters.span hg _ _ (fun v hv => ?_) le_rfl ?_
    · have := (List.getElem?_eq_some_iff.1 ((synAt_iff syn v).1 hv)).1; omega
    · simpa using h.even
  refine ⟨_, h1, fun i hi => ?_, by simp, fun v _ => ?_⟩
  · rw [List.getElem?_map] at hi
    have hil : i < edges.length := by
      by_contra hcon
      rw [List.getElem?_eq_none (by simpa using hcon)] at hi
      simp at hi
    rw [List.getElem?_range hil] at hi
    exact h2 i (by simpa using hi)
  · rw [← bd_odd, h3 hspan, synAt_iff]

/-- **C35.** Whatever the syndrome is, the decoder ends without an error and chooses among the selected edges. -/
theorem C35_total {n : Nat} {edges : List (List Nat)} (hg : IsDecodingGraph n edges) {sel : List Nat}
    (hsel : ∀ i ∈ sel, i < edges.length) (syn : List Bool) :
    ∃ corr, erasureDecode n edges sel (synAt syn) = .ok corr ∧ corr.length = edges.length ∧ ∀ i, corr[i]? = some true → i ∈ sel := by
  obtain ⟨x, h1, h2, _⟩ := erasureDecode_spec hg hsel (synAt syn)
  refine ⟨_, h1, by simp, fun i hi => ?_⟩
  rw [List.getElem?_map] at hi
  have hil : i < edges.length := by
    by_contra hcon
    rw [List.getElem?_eq_none (by simpa using hcon)] at hi
    simp at hi
  rw [List.getElem?_range hil] at hi
  exact h2 i (by simpa using hi)

/-- **C35.** Once the lists of neighbours are there, a vertex can be disabled exactly if no enabled edge ends at it; otherwise the
call is refused. -/
theorem C35_disable {g : EGraph} (hg : IsDecodingGraph g.n g.edges)
    (ends : ∀ i e, g.eOn i = true → g.edges[i]? = some e → ∀ v ∈ e, g.vOn v = true)
    (vlt : ∀ v, g.vOn v = true → v < g.n) (elt : ∀ i, g.eOn i = true → i < g.edges.length) :
    ∃ g', g.updateNeighbours = .ok g' ∧ ∀ v, v < g.n →
      ((∃ i e, g.eOn i = true ∧ g.edges[i]? = some e ∧ v ∈ e) → g'.enableVertex v false = .error .assertionError) ∧
      ((¬ ∃ i e, g.eOn i = true ∧ g.edges[i]? = some e ∧ v ∈ e) →
        ∃ g'', g'.enableVertex v false = .ok g'' ∧ g''.vOn v = false ∧ ∀ u, u ≠ v → g''.vOn u = g.vOn u) := by
  obtain ⟨N, h1, h2⟩ := updateNeighbours_spec ⟨hg, ends, vlt, elt⟩
  refine ⟨_, h1, fun v hv => ⟨?_, fun hno => ?_⟩⟩
  · rintro ⟨i, e, hi, he, hve⟩
    have hinc : ∃ o, Inc e v o := by
      rcases hg e (List.mem_of_getElem? he) with ⟨a, rfl, _⟩ | ⟨a, b, rfl, hab, _, _⟩
      · rw [List.mem_singleton] at hve
        subst hve
        exact ⟨_, .single _⟩
      · rcases List.mem_pair.1 hve with rfl | rfl
        · exact ⟨_, .left _ _ hab⟩
        · exact ⟨_, .right _ _ hab.symm⟩
    obtain ⟨o, ho⟩ := hinc
    have hm := (h2.mem v i o).2 ⟨hi, e, he, ho⟩
    have hne : (N v).length ≠ 0 := by
      intro h0
      rw [List.eq_nil_of_length_eq_zero h0] at hm
      cases hm
    simp only [EGraph.enableVertex, if_pos hv, if_neg hne]
  · have h0 : (N v).length = 0 := by
      rw [List.length_eq_zero_iff, List.eq_nil_iff_forall_not_mem]
      rintro ⟨i, o⟩ hm
      obtain ⟨hi, e, he, ho⟩ := (h2.mem v i o).1 hm
      refine hno ⟨i, e, hi, he, ?_⟩
      cases ho <;> simp
    refine ⟨{ g with nbr := some N, vOn := Function.update g.vOn v false }, ?_, by simp, fun u hu => by simp [hu]⟩
    simp only [EGraph.enableVertex, if_pos hv, if_pos h0]

/-- A square with a diagonal and a dangling edge, and a separate pair of vertices. -/
def exampleGraph : List (List Nat) := [[0, 1], [1, 2], [2, 3], [3, 0], [0, 2], [3], [4, 5], [1, 2], [0]]

example : IsDecodingGraph 6 exampleGraph := by
  unfold IsDecodingGraph exampleGraph
  intro e he
  simp only [List.mem_cons, List.not_mem_nil, or_false] at he
  rcases he with rfl | rfl | rfl | rfl | rfl | rfl | rfl | rfl | rfl <;> simp

/-- Non-vacuity of `C35_disable`: one enabled edge between the vertices 0 and 1, and a third vertex. -/
example : ∃ g : EGraph, IsDecodingGraph g.n g.edges ∧ (∀ i e, g.eOn i = true → g.edges[i]? = some e → ∀ v ∈ e, g.vOn v = true) ∧
    (∀ v, g.vOn v = true → v < g.n) ∧ (∀ i, g.eOn i = true → i < g.edges.length) ∧
    (∃ i e, g.eOn i = true ∧ g.edges[i]? = some e ∧ 0 ∈ e) ∧ ¬ ∃ i e, g.eOn i = true ∧ g.edges[i]? = some e ∧ 2 ∈ e := by
  refine ⟨{ n := 3, edges := [[0, 1]], vOn := fun v => decide (v < 3), eOn := fun i => decide (i = 0), nbr := none, leaves := none },
    ?_, ?_, ?_, ?_, ?_, ?_⟩
  · intro e he
    rw [List.mem_singleton] at he
    subst he
    exact .inr ⟨0, 1, rfl, by decide, by decide, by decide⟩
  · intro i e hi he v hv
    simp only [decide_eq_true_eq] at hi
    subst hi
    simp only [List.getElem?_cons_zero, Option.some.injEq] at he
    subst he
    simp only [List.mem_cons, List.not_mem_nil, or_false] at hv
    simp only [decide_eq_true_eq]
    omega
  · intro v hv; simpa using hv
  · intro i hi; simp at hi; simp [hi]
  · exact ⟨0, [0, 1], by simp, by simp, by simp⟩
  · rintro ⟨i, e, hi, he, hv⟩
    simp only [decide_eq_true_eq] at hi
    subst hi
    simp only [List.getElem?_cons_zero, Option.some.injEq] at he
    subst he
    simp at hv

/-- The whole graph is selected: one syndrome vertex on the square (which has a dangling edge), two on the pair. -/
example : erasureDecode 6 exampleGraph [0, 1, 2, 3, 4, 5, 6, 7, 8] (synAt [false, true, false, false, true, true]) =
    .ok [true, false, false, false, false, false, true, false, true] := by decide +kernel

example : erasureDecode 6 exampleGraph [1, 2, 3, 7] (synAt [true, true, false, false, false, false]) =
    .ok [false, true, true, true, false, false, false, false, false] := by decide +kernel

/-- An odd cluster without a dangling edge: the decoder returns a wrong answer and does not say so. -/
theorem C35_odd_cluster : erasureDecode 2 [[0, 1]] [0] (synAt [true, false]) = .ok [false] ∧
    ¬ Explains 2 [[0, 1]] [false] [true, false] := by
  refine ⟨by decide +kernel, fun h => ?_⟩
  have h1 := (h.2 0 (by omega)).2 (by simp)
  have : {i : Nat | ([false] : List Bool)[i]? = some true ∧ ∃ e : List Nat, [[0, 1]][i]? = some e ∧ 0 ∈ e} = ∅ := by
    ext i
    cases i with
    | zero => simp
    | succ i => simp
  rw [this] at h1
  simp at h1

/-- A selection that satisfies the hypotheses of `C35_peeling`. -/
example : Correctable 2 [[0, 1], [1]] (· ∈ [0, 1]) [true, false] := by
  intro v hv
  refine .inl ⟨1, 1, ?_, by simp, by simp⟩
  rcases (show v = 0 ∨ v = 1 by omega) with rfl | rfl
  · exact .step (.refl 0) (i := 0) (e := [0, 1]) (by simp) (by simp) (by simp) (by simp)
  · exact .refl 1

end Plaquette
