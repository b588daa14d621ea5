import Verif.Model.UnionFindSwitches
import Verif.Lemmas.UFStep
import Verif.Lemmas.FaultEdges

/-!
# Lemmas on the switches of union find
-/

namespace Plaquette

/-! ## Growth and what leaves it alone -/

theorem loopE_pres {σ α : Type} {f : σ → α → Except Err σ} {P : σ → Prop} (hf : ∀ s a s', f s a = .ok s' → P s → P s') :
    ∀ (l : List α) (s s' : σ), loopE f s l = .ok s' → P s → P s'
  | [], s, s', h, hP => by
    obtain rfl : s = s' := by simpa [loopE] using h
    exact hP
  | a :: l, s, s', h, hP => by
    unfold loopE at h
    cases h1 : f s a with
    | error x => simp only [h1] at h; simp at h
    | ok s1 =>
      simp only [h1] at h
      exact loopE_pres hf l s1 s' h (hf s a s1 h1 hP)

theorem toInterior_growth {s s' : UState} {v : Nat} (h : s.toInterior v = .ok s') : s'.growth = s.growth := by
  unfold UState.toInterior at h
  split at h
  · cases h; rfl
  · cases h

theorem addVertex_growth {s s' : UState} {c v : Nat} (h : s.addVertex c v = .ok s') : s'.growth = s.growth := by
  unfold UState.addVertex UState.toBoundaryRoot UState.toBoundaryChild at h
  split at h
  · cases h
  · split at h
    · cases h
    · rename_i h1
      split at h1 <;> cases h1
      cases h; rfl
  · split at h
    · cases h
    · split at h
      · cases h
      · rename_i h1
        split at h1 <;> cases h1
        cases h; rfl

theorem updateAfterGrowth_growth {g : UGraph} {s s' : UState} {c : Nat} (h : g.updateAfterGrowth s c = .ok s') :
    s'.growth = s.growth := by
  unfold UGraph.updateAfterGrowth at h
  split at h
  · cases h; rfl
  · split at h
    · cases h
    · rename_i s1 B1 h1
      cases h
      refine loopE_pres (P := fun t : UState × List Nat => t.1.growth = s.growth) (fun t v t' ht hP => ?_) _ _ _ h1 rfl
      unfold UGraph.updateVertex at ht
      split at ht
      · split at ht
        · cases ht
        · rename_i h2
          cases ht
          exact (toInterior_growth h2).trans hP
      · cases ht; exact hP

theorem refresh_growth {s s' : UState} (h : s.refresh = .ok s') : s'.growth = s.growth := by
  unfold UState.refresh at h
  split at h
  · cases h
  · rename_i s1 L h1
    cases h
    refine loopE_pres (P := fun t : UState × List Nat => t.1.growth = s.growth) (fun t v t' ht hP => ?_) _ _ _ h1 rfl
    unfold UState.refreshStep at ht
    split at ht
    · cases ht; exact hP
    · split at ht
      · cases ht; exact hP
      · cases ht

theorem findRoot_growth : ∀ (k : Nat) {s : UState} {v : Nat} {p : UState × Nat}, UState.findRoot k s v = .ok p → p.1.growth = s.growth
  | 0, _, _, _, h => by simp [UState.findRoot] at h
  | k + 1, s, v, p, h => by
    unfold UState.findRoot at h
    split at h
    · split at h
      · cases h
      · cases h; rfl
    · split at h
      · cases h
      · rename_i h1
        cases h
        have := findRoot_growth k h1
        exact this

theorem rCluster_growth {g : UGraph} {s : UState} {v : Nat} {p : UState × Nat} (h : g.rCluster s v = .ok p) : p.1.growth = s.growth := by
  unfold UGraph.rCluster at h
  split at h
  · cases h
  · rename_i h1
    split at h
    · cases h
    · cases h
      have := findRoot_growth _ h1
      exact this

theorem mergeInto_growth {s s' : UState} {a b : Nat} {A B : List Nat} (h : s.mergeInto a b A B = .ok s') : s'.growth = s.growth := by
  unfold UState.mergeInto UState.setParent UState.reopen at h
  split at h
  · split at h
    · cases h
    · rename_i h1
      split at h1
      · cases h1
      · cases h1
        dsimp only at h
        split at h
        · split at h
          · cases h
          · cases h; rfl
        · cases h; rfl
  · cases h

theorem merge_growth {s s' : UState} {a b : Nat} (h : s.merge a b = .ok s') : s'.growth = s.growth := by
  unfold UState.merge at h
  split at h
  · cases h; rfl
  · split at h
    · split at h
      · exact mergeInto_growth h
      · exact mergeInto_growth h
    · cases h

theorem joinEdge_growth {g : UGraph} {s s' : UState} {a b : Nat} (h : g.joinEdge s a b = .ok s') : s'.growth = s.growth := by
  unfold UGraph.joinEdge at h
  split at h
  · split at h
    · split at h
      · cases h
      · rename_i h1
        split at h
        · cases h
        · rename_i h2
          exact (merge_growth h).trans ((rCluster_growth h2).trans (rCluster_growth h1))
    · split at h
      · split at h
        · cases h
        · rename_i h1
          exact (addVertex_growth h).trans (rCluster_growth h1)
      · cases h
  · cases h

theorem handleEdge_growth {g : UGraph} {s s' : UState} {i : Nat} (h : g.handleEdge s i = .ok s') : s'.growth = s.growth := by
  unfold UGraph.handleEdge at h
  split at h
  · split at h
    · split at h
      · cases h
      · rename_i h1
        cases h
        exact rCluster_growth h1
    · cases h
  · split at h
    · exact joinEdge_growth h
    · exact joinEdge_growth h
  · cases h

theorem dfsEdge_growth {g : UGraph} {c : Nat} {t t' : DfsState} {p : Nat × Option Nat} (h : g.dfsEdge c t p = .ok t') :
    t'.s.growth = t.s.growth := by
  unfold UGraph.dfsEdge at h
  split at h
  · cases h; rfl
  · dsimp only at h
    split at h
    · split at h
      · cases h; rfl
      · split at h
        · split at h
          · cases h
          · rename_i h1
            cases h
            exact addVertex_growth h1
        · cases h; rfl
    · cases h; rfl

theorem dfs_growth {g : UGraph} {c : Nat} : ∀ (k : Nat) {t t' : DfsState}, g.dfs c k t = .ok t' → t'.s.growth = t.s.growth
  | 0, t, t', h => by
    unfold UGraph.dfs at h
    split at h
    · cases h; rfl
    · cases h
  | k + 1, t, t', h => by
    unfold UGraph.dfs at h
    split at h
    · cases h; rfl
    · split at h
      · cases h
      · rename_i h1
        refine (dfs_growth k h).trans ?_
        exact loopE_pres (P := fun u : DfsState => u.s.growth = t.s.growth) (fun _ _ _ hu hP => (dfsEdge_growth hu).trans hP) _ _ _ h1 rfl

theorem erasureEdge_growth {g : UGraph} {t t' : UState × (Nat → Bool)} {i : Nat} (h : g.erasureEdge t i = .ok t') :
    t'.1.growth = t.1.growth := by
  unfold UGraph.erasureEdge at h
  split at h
  · cases h; rfl
  · split at h
    · split at h
      · cases h
      · rename_i h1
        split at h
        · cases h
        · rename_i h2
          split at h
          · cases h
          · rename_i h3
            cases h
            have h4 := addVertex_growth h1
            exact (updateAfterGrowth_growth h3).trans ((dfs_growth _ h2).trans h4)
    · cases h

theorem syndromeVertex_growth {g : UGraph} {s s' : UState} {v : Nat} (h : g.syndromeVertex s v = .ok s') : s'.growth = s.growth := by
  unfold UGraph.syndromeVertex at h
  split at h
  · split at h
    · cases h
    · rename_i h1
      have h4 := addVertex_growth h1
      exact (updateAfterGrowth_growth h).trans h4
  · cases h; rfl

/-- The edges are not grown at all, or complete. -/
def AllOrNothing (s : UState) : Prop := ∀ i, s.growth i = 0 ∨ 1 ≤ s.growth i

theorem init_allOrNothing {g : UGraph} (hm : ∀ i, g.maxGrowth i = 1) {erasure : List Nat} {syn : List Bool} {s : UState}
    (h : g.init erasure syn = .ok s) : AllOrNothing s := by
  unfold UGraph.init at h
  split at h
  · split at h
    · cases h
    · rename_i s1 h1
      split at h
      · cases h
      · rename_i t h2
        have h3 : AllOrNothing s1 := by
          refine loopE_pres (P := AllOrNothing) (fun s i s' hs hP => ?_) _ _ _ h1 fun i => .inl rfl
          unfold UGraph.eraseStep at hs
          split at hs
          · cases hs
            split
            · exact hP
            · intro j
              show Function.update s.growth i (g.maxGrowth i) j = 0 ∨ _ ≤ Function.update s.growth i (g.maxGrowth i) j
              by_cases hj : j = i
              · subst hj; rw [Function.update_self, hm]; exact .inr le_rfl
              · rw [Function.update_of_ne hj]; exact hP j
          · cases hs
        have h4 : t.1.growth = s1.growth :=
          loopE_pres (P := fun u : UState × (Nat → Bool) => u.1.growth = s1.growth) (fun _ _ _ hu hP => (erasureEdge_growth hu).trans hP) _ _ _ h2 rfl
        have h5 : s.growth = t.1.growth :=
          loopE_pres (P := fun u : UState => u.growth = t.1.growth) (fun _ _ _ hu hP => (syndromeVertex_growth hu).trans hP) _ _ _ h rfl
        intro i
        rw [h5, h4]
        exact h3 i
  · cases h

/-! ## Chosen increments -/

theorem growEdgeBy_none (g : UGraph) : g.growEdgeBy none = g.growEdge := rfl

theorem growCluster_off (g : UGraph) (t : GrowthState) (B : List Nat) : g.growCluster false t B = (B.flatMap g.edgesAt).foldl g.growEdge t := rfl

theorem growClusters_off (g : UGraph) : ∀ (Bs : List (List Nat)) (t : GrowthState),
    Bs.foldl (g.growCluster false) t = (Bs.flatten.flatMap g.edgesAt).foldl g.growEdge t
  | [], _ => rfl
  | B :: Bs, t => by
    rw [List.foldl_cons, growClusters_off g Bs, List.flatten_cons, List.flatMap_append, List.foldl_append, growCluster_off]

/-- With the switch off it is the step of `Verif/Model/UnionFind.lean`. -/
theorem stepWith_off (g : UGraph) (s : UState) : g.stepWith false s = g.step s := by
  unfold UGraph.stepWith UGraph.step UGraph.toGrow
  simp only [growClusters_off]
  rfl

theorem runWith_off (g : UGraph) : ∀ (k : Nat) (s : UState), g.runWith false k s = g.run k s
  | 0, _ => rfl
  | k + 1, s => by
    unfold UGraph.runWith UGraph.run
    rw [stepWith_off]
    simp only [runWith_off g k]
    rfl

/-- The graph with all increments one. -/
def UGraph.unit (g : UGraph) : UGraph := { g with increment := fun _ => 1 }

theorem growEdge_allOrNothing {g : UGraph} {t : GrowthState} (hP : AllOrNothing t.s) (hm : ∀ i, g.maxGrowth i = 1) (i : Nat) :
    AllOrNothing (g.unit.growEdge t i).s ∧ g.growEdgeBy (some 1) t i = g.unit.growEdge t i := by
  refine ⟨?_, rfl⟩
  unfold UGraph.growEdge
  split
  · exact hP
  · rename_i h
    intro j
    show Function.update t.s.growth i (t.s.growth i + 1) j = 0 ∨ 1 ≤ Function.update t.s.growth i (t.s.growth i + 1) j
    by_cases hj : j = i
    · subst hj
      rw [Function.update_self]
      have : ¬ g.maxGrowth j ≤ t.s.growth j := fun hc => h (decide_eq_true hc)
      rw [hm] at this
      rcases hP j with h0 | h0
      · rw [h0]; exact .inr (by norm_num)
      · exact absurd h0 this
    · rw [Function.update_of_ne hj]; exact hP j

theorem growEdges_allOrNothing {g : UGraph} (hm : ∀ i, g.maxGrowth i = 1) : ∀ (l : List Nat) (t : GrowthState), AllOrNothing t.s →
    AllOrNothing (l.foldl g.unit.growEdge t).s
  | [], _, h => h
  | i :: l, _, h => growEdges_allOrNothing hm l _ (growEdge_allOrNothing h hm i).1

theorem growEdge_done (g : UGraph) (inc : Option ℚ) (t : GrowthState) : ∀ l : List Nat, (∀ i ∈ l, g.complete t.s i = true) →
    l.foldl (g.growEdgeBy inc) t = t
  | [], _ => rfl
  | i :: l, h => by
    have h1 : g.growEdgeBy inc t i = t := by
      unfold UGraph.growEdgeBy
      rw [if_pos (h i (by simp))]
    rw [List.foldl_cons, h1]
    exact growEdge_done g inc t l fun j hj => h j (by simp [hj])

/-- If the edges are not grown at all or complete, a chosen increment is one, and growth is that with all increments one. -/
theorem growCluster_on {g : UGraph} (hm : ∀ i, g.maxGrowth i = 1) {t : GrowthState} (hP : AllOrNothing t.s) (B : List Nat) :
    g.growCluster true t B = (B.flatMap g.edgesAt).foldl g.unit.growEdge t := by
  unfold UGraph.growCluster UGraph.chooseIncrement
  generalize hl : B.flatMap g.edgesAt = l
  simp only [if_true]
  cases h : ((l.filter fun i => !g.complete t.s i).map fun i => g.maxGrowth i - t.s.growth i).min? with
  | none =>
    have h1 : ∀ i ∈ l, g.complete t.s i = true := by
      rw [List.min?_eq_none_iff, List.map_eq_nil_iff, List.filter_eq_nil_iff] at h
      intro i hi
      simpa using h i hi
    rw [growEdge_done g none t l h1]
    exact (growEdge_done g.unit none t l h1).symm
  | some x =>
    obtain ⟨i, hi, rfl⟩ := List.mem_map.1 (List.min?_mem h)
    have h2 : t.s.growth i = 0 := by
      have h3 := (List.mem_filter.1 hi).2
      rcases hP i with h0 | h0
      · exact h0
      · rw [← hm i] at h0
        simp only [UGraph.complete, decide_eq_true h0] at h3
        cases h3
    rw [hm, h2, sub_zero]
    rfl

theorem growClusters_on {g : UGraph} (hm : ∀ i, g.maxGrowth i = 1) : ∀ (Bs : List (List Nat)) (t : GrowthState), AllOrNothing t.s →
    Bs.foldl (g.growCluster true) t = Bs.foldl (g.unit.growCluster false) t ∧ AllOrNothing (Bs.foldl (g.unit.growCluster false) t).s
  | [], _, h => ⟨rfl, h⟩
  | B :: Bs, t, h => by
    have h1 : AllOrNothing (g.unit.growCluster false t B).s := growEdges_allOrNothing hm _ t h
    rw [List.foldl_cons, List.foldl_cons, growCluster_on hm h B]
    exact growClusters_on hm Bs _ h1

theorem stepWith_on {g : UGraph} (hm : ∀ i, g.maxGrowth i = 1) {s : UState} (hP : AllOrNothing s) :
    g.stepWith true s = g.unit.stepWith false s ∧ ∀ s', g.unit.stepWith false s = .ok s' → AllOrNothing s' := by
  unfold UGraph.stepWith
  cases h1 : s.refresh with
  | error x => exact ⟨rfl, fun _ h => by cases h⟩
  | ok s1 =>
    have hP1 : AllOrNothing s1 := fun i => by rw [refresh_growth h1]; exact hP i
    dsimp only
    by_cases ho : s1.openList = []
    · simp only [if_pos ho]
      exact ⟨trivial, fun s' h => by cases h; exact hP1⟩
    simp only [if_neg ho]
    cases h2 : s1.openBoundaries s1.openList with
    | error x => exact ⟨rfl, fun _ h => by cases h⟩
    | ok Bs =>
      dsimp only
      obtain ⟨h3, h4⟩ := growClusters_on hm (Bs.filter fun B => decide (B.length ≤ ((Bs.map List.length).min?).getD 0))
        { s := s1, grown := 0, new := [] } hP1
      rw [h3]
      refine ⟨rfl, fun s' h => ?_⟩
      split at h
      · cases h
      · split at h
        · cases h; exact h4
        · split at h
          · cases h
          · rename_i s2 h5
            have h6 := loopE_pres (P := fun u : UState => AllOrNothing u)
              (fun a b c hu hP i => by rw [handleEdge_growth hu]; exact hP i) _ _ _ h5 h4
            exact loopE_pres (P := fun u : UState => AllOrNothing u)
              (fun a b c hu hP i => by rw [updateAfterGrowth_growth hu]; exact hP i) _ _ _ h h6

theorem runWith_on {g : UGraph} (hm : ∀ i, g.maxGrowth i = 1) : ∀ (k : Nat) {s : UState}, AllOrNothing s →
    g.runWith true k s = g.unit.runWith false k s
  | 0, _, _ => rfl
  | k + 1, s, hP => by
    unfold UGraph.runWith
    rw [(stepWith_on hm hP).1]
    split
    · rfl
    · cases h : g.unit.stepWith false s with
      | error x => rfl
      | ok s1 => exact runWith_on hm k ((stepWith_on hm hP).2 s1 h)

theorem unit_dfs (g : UGraph) (c : Nat) : ∀ (k : Nat) (t : DfsState), g.unit.dfs c k t = g.dfs c k t
  | 0, _ => rfl
  | k + 1, t => by
    unfold UGraph.dfs
    simp only [unit_dfs g c k]
    rfl

theorem unit_init (g : UGraph) (erasure : List Nat) (syn : List Bool) : g.unit.init erasure syn = g.init erasure syn := by
  have h : g.unit.erasureEdge = g.erasureEdge := by
    funext t i
    unfold UGraph.erasureEdge
    simp only [unit_dfs]
    rfl
  unfold UGraph.init
  rw [h]
  rfl

theorem unit_budget (g : UGraph) (hm : ∀ i, g.maxGrowth i = 1) : g.unit.budget = g.edges.length + 1 := by
  unfold UGraph.budget UGraph.unit
  simp [hm]

/-- With maximal growth one, union find with chosen increments is union find with all increments one. -/
theorem finalWith_on {g : UGraph} (hm : ∀ i, g.maxGrowth i = 1) (erasure : List Nat) (syn : List Bool) :
    g.finalWith true erasure syn = g.unit.finalWith false erasure syn := by
  unfold UGraph.finalWith
  rw [unit_init]
  cases h : g.init erasure syn with
  | error x => rfl
  | ok s =>
    simp only [if_true, unit_budget g hm]
    exact runWith_on hm _ (init_allOrNothing hm h)

theorem finalWith_off (g : UGraph) (erasure : List Nat) (syn : List Bool) :
    g.unionFind erasure syn = match g.finalWith false erasure syn with
      | .error x => .error x
      | .ok s => .ok ((List.range g.edges.length).filter (g.complete s)) := by
  unfold UGraph.unionFind UGraph.finalWith
  cases g.init erasure syn with
  | error x => rfl
  | ok s =>
    simp only [runWith_off]
    rfl

/-! ## Split edges -/

theorem splitEdges_length (n : Nat) (edges : List (List Nat)) : (splitEdges n edges).length = 2 * edges.length := by simp [splitEdges]

theorem splitEdges_get {n : Nat} {edges : List (List Nat)} {j : Nat} (hj : j < 2 * edges.length) :
    (splitEdges n edges)[j]? = some (halfEdge n edges j) := by
  unfold splitEdges
  rw [List.getElem?_map, List.getElem?_range hj]
  rfl

theorem halfEdge_first {n : Nat} {edges : List (List Nat)} {i a : Nat} {rest : List Nat} (h : edges[i]? = some (a :: rest)) :
    halfEdge n edges (2 * i) = [a, n + i] := by
  unfold halfEdge
  rw [show 2 * i / 2 = i by omega, h]
  simp

theorem halfEdge_second1 {n : Nat} {edges : List (List Nat)} {i a : Nat} (h : edges[i]? = some [a]) :
    halfEdge n edges (2 * i + 1) = [n + i] := by
  unfold halfEdge
  rw [show (2 * i + 1) / 2 = i by omega, h]
  simp [show (2 * i + 1) % 2 = 1 by omega]

theorem halfEdge_second2 {n : Nat} {edges : List (List Nat)} {i a b : Nat} (h : edges[i]? = some [a, b]) :
    halfEdge n edges (2 * i + 1) = [n + i, b] := by
  unfold halfEdge
  rw [show (2 * i + 1) / 2 = i by omega, h]
  simp [show (2 * i + 1) % 2 = 1 by omega]

theorem splitEdges_wf {n : Nat} {edges : List (List Nat)} (hwf : EdgesWf n edges) : EdgesWf (n + edges.length) (splitEdges n edges) := by
  intro e he
  obtain ⟨j, hj, rfl⟩ := List.mem_map.1 he
  have hj := List.mem_range.1 hj
  have hi : j / 2 < edges.length := by omega
  have hget : edges[j / 2]? = some edges[j / 2] := List.getElem?_eq_getElem hi
  rcases Nat.mod_two_eq_zero_or_one j with h0 | h0
  · have hj2 : j = 2 * (j / 2) := by omega
    rcases hwf _ (List.getElem_mem hi) with ⟨a, ha, hlt⟩ | ⟨a, b, ha, hne, hlt, hlt'⟩
    all_goals
      rw [ha] at hget
      rw [hj2, halfEdge_first hget]
      exact .inr ⟨a, n + j / 2, rfl, by omega, by omega, by omega⟩
  · have hj2 : j = 2 * (j / 2) + 1 := by omega
    rcases hwf _ (List.getElem_mem hi) with ⟨a, ha, hlt⟩ | ⟨a, b, ha, hne, hlt, hlt'⟩
    · rw [ha] at hget
      rw [hj2, halfEdge_second1 hget]
      exact .inl ⟨n + j / 2, rfl, by omega⟩
    · rw [ha] at hget
      rw [hj2, halfEdge_second2 hget]
      exact .inr ⟨n + j / 2, b, rfl, by omega, by omega, by omega⟩

theorem xsum_pairs (m : Nat) (f : Nat → Bool) :
    xsum (List.range (2 * m)) f = xsum (List.range m) fun i => f (2 * i) ^^ f (2 * i + 1) := by
  rw [Nat.mul_comm, xsum_range_mul]
  refine xsum_congr fun i _ => ?_
  simp [List.range_succ, xsum, Nat.mul_comm]

/-- What the halves of an edge touch among the vertices of the code: together what the edge touches. -/
theorem touches_halves {n : Nat} {edges : List (List Nat)} (hwf : EdgesWf n edges) {i : Nat} (hi : i < edges.length) {v : Nat} (hv : v < n) :
    (touches (splitEdges n edges) (2 * i) v ^^ touches (splitEdges n edges) (2 * i + 1) v) = touches edges i v := by
  have hget : edges[i]? = some edges[i] := List.getElem?_eq_getElem hi
  rcases hwf _ (List.getElem_mem hi) with ⟨a, ha, hlt⟩ | ⟨a, b, ha, hne, hlt, hlt'⟩
  · rw [ha] at hget
    rw [touches_some hget, touches_some ((splitEdges_get (by omega)).trans (by rw [halfEdge_first hget])),
      touches_some ((splitEdges_get (by omega)).trans (by rw [halfEdge_second1 hget]))]
    simp [show v ≠ n + i by omega]
  · rw [ha] at hget
    rw [touches_some hget, touches_some ((splitEdges_get (by omega)).trans (by rw [halfEdge_first hget])),
      touches_some ((splitEdges_get (by omega)).trans (by rw [halfEdge_second2 hget]))]
    by_cases h1 : v = a <;> by_cases h2 : v = b <;> simp [h1, h2, show v ≠ n + i by omega] <;> omega

/-- The additional vertex of an edge is touched by its two halves only. -/
theorem touches_middle {n : Nat} {edges : List (List Nat)} (hwf : EdgesWf n edges) {i k : Nat} (hi : i < edges.length) :
    touches (splitEdges n edges) (2 * i) (n + k) = decide (k = i) ∧ touches (splitEdges n edges) (2 * i + 1) (n + k) = decide (k = i) := by
  have hget : edges[i]? = some edges[i] := List.getElem?_eq_getElem hi
  rcases hwf _ (List.getElem_mem hi) with ⟨a, ha, hlt⟩ | ⟨a, b, ha, hne, hlt, hlt'⟩
  · rw [ha] at hget
    rw [touches_some ((splitEdges_get (by omega)).trans (by rw [halfEdge_first hget])),
      touches_some ((splitEdges_get (by omega)).trans (by rw [halfEdge_second1 hget]))]
    simp [show n + k ≠ a by omega]
  · rw [ha] at hget
    rw [touches_some ((splitEdges_get (by omega)).trans (by rw [halfEdge_first hget])),
      touches_some ((splitEdges_get (by omega)).trans (by rw [halfEdge_second2 hget]))]
    simp [show n + k ≠ a by omega, show n + k ≠ b by omega]

theorem bd_middle {n : Nat} {edges : List (List Nat)} (hwf : EdgesWf n edges) (x : Nat → Bool) {k : Nat} (hk : k < edges.length) :
    bd (splitEdges n edges) x (n + k) = (x (2 * k) ^^ x (2 * k + 1)) := by
  unfold bd
  rw [splitEdges_length, xsum_pairs, xsum_single List.nodup_range (List.mem_range.2 hk)]
  · obtain ⟨h1, h2⟩ := touches_middle hwf (k := k) hk
    rw [h1, h2]
    simp
  · intro j hj hne
    obtain ⟨h1, h2⟩ := touches_middle hwf (k := k) (List.mem_range.1 hj)
    rw [h1, h2]
    simp [hne.symm]

theorem bd_split {n : Nat} {edges : List (List Nat)} (hwf : EdgesWf n edges) {x y : Nat → Bool}
    (hxy : ∀ i, i < edges.length → x (2 * i) = y i ∧ x (2 * i + 1) = y i) {v : Nat} (hv : v < n) :
    bd (splitEdges n edges) x v = bd edges y v := by
  unfold bd
  rw [splitEdges_length, xsum_pairs]
  refine xsum_congr fun i hi => ?_
  have hi := List.mem_range.1 hi
  rw [(hxy i hi).1, (hxy i hi).2, ← touches_halves hwf hi hv]
  cases y i <;> simp

end Plaquette
