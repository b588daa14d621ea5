import Verif.Model.UnionFind
import Mathlib.Algebra.Order.Field.Basic
import Mathlib.Tactic.Positivity
import Mathlib.Tactic.FieldSimp

/-!
# Union find with all growth values multiplied by a number
-/

namespace Plaquette

/-- All growth values multiplied by a number. -/
def UState.sc (l : ℚ) (s : UState) : UState := { s with growth := fun i => l * s.growth i }

/-- Maximal growth and growth increments multiplied by a number. -/
def UGraph.sc (l : ℚ) (g : UGraph) : UGraph := { g with maxGrowth := fun i => l * g.maxGrowth i, increment := fun i => l * g.increment i }

variable {l : ℚ} {s : UState} {g : UGraph}

theorem loopE_hom {σ τ α : Type} {f : σ → α → Except Err σ} {f' : τ → α → Except Err τ} {φ : σ → τ}
    (h : ∀ s a, f' (φ s) a = (f s a).map φ) : ∀ (as : List α) (s : σ), loopE f' (φ s) as = (loopE f s as).map φ
  | [], _ => rfl
  | a :: as, s => by
    unfold loopE
    rw [h s a]
    cases f s a with
    | error x => rfl
    | ok s1 => exact loopE_hom h as s1

theorem sc_complete (hl : 0 < l) (g : UGraph) (s : UState) (i : Nat) : (g.sc l).complete (s.sc l) i = g.complete s i := by
  unfold UGraph.complete
  show decide (l * g.maxGrowth i ≤ l * s.growth i) = _
  rw [decide_eq_decide]
  exact mul_le_mul_iff_right₀ hl

theorem sc_allComplete (hl : 0 < l) (v : Nat) : (g.sc l).allComplete (s.sc l) v = g.allComplete s v := by
  unfold UGraph.allComplete
  rw [show (g.sc l).complete (s.sc l) = g.complete s from funext (sc_complete hl g s)]
  rfl

theorem sc_setCluster (c : Nat) (d : UCluster) : (s.sc l).setCluster c d = (s.setCluster c d).sc l := rfl

theorem sc_toInterior (v : Nat) : (s.sc l).toInterior v = (s.toInterior v).map (UState.sc l) := by
  unfold UState.toInterior
  show (if s.state v = .boundary then _ else _) = _
  split <;> rfl

theorem sc_toBoundaryRoot (v c : Nat) : (s.sc l).toBoundaryRoot v c = (s.toBoundaryRoot v c).map (UState.sc l) := by
  unfold UState.toBoundaryRoot
  show (if s.state v = .unused then _ else _) = _
  split <;> rfl

theorem sc_toBoundaryChild (v c : Nat) : (s.sc l).toBoundaryChild v c = (s.toBoundaryChild v c).map (UState.sc l) := by
  unfold UState.toBoundaryChild
  show (if s.state v = .unused then _ else _) = _
  split <;> rfl

theorem sc_addVertex (c v : Nat) : (s.sc l).addVertex c v = (s.addVertex c v).map (UState.sc l) := by
  unfold UState.addVertex
  rw [sc_toBoundaryRoot, show (s.sc l).clusters = s.clusters from rfl]
  cases (s.clusters c).boundary with
  | none => rfl
  | some B =>
    cases B with
    | nil => dsimp only; cases s.toBoundaryRoot v c <;> rfl
    | cons b B =>
      dsimp only
      cases (s.clusters c).root with
      | none => rfl
      | some r =>
        dsimp only
        rw [sc_toBoundaryChild]
        cases s.toBoundaryChild v r <;> rfl

theorem sc_reopen (c : Nat) : (s.sc l).reopen c = (s.reopen c).map (UState.sc l) := by
  unfold UState.reopen
  show (if (s.clusters c).opened then _ else _) = _
  split <;> rfl

theorem sc_setParent (v r : Nat) : (s.sc l).setParent v r = (s.setParent v r).map (UState.sc l) := by
  unfold UState.setParent
  show (if (s.cluster v = none) = (s.parent v = none) then _ else _) = _
  split <;> rfl

theorem sc_mergeInto (a b : Nat) (A B : List Nat) : (s.sc l).mergeInto a b A B = (s.mergeInto a b A B).map (UState.sc l) := by
  unfold UState.mergeInto
  rw [show (s.sc l).clusters = s.clusters from rfl]
  cases (s.clusters a).root with
  | none => rfl
  | some ra =>
    cases (s.clusters b).root with
    | none => rfl
    | some rb =>
      dsimp only
      rw [sc_setParent]
      cases s.setParent rb ra with
      | error x => rfl
      | ok s1 =>
        simp only [Except.map, show (s1.sc l).clusters = s1.clusters from rfl, sc_setCluster]
        simp only [show ∀ t : UState, (t.sc l).clusters = t.clusters from fun _ => rfl, sc_setCluster, sc_reopen]
        split <;> rfl

theorem sc_merge (a b : Nat) : (s.sc l).merge a b = (s.merge a b).map (UState.sc l) := by
  unfold UState.merge
  rw [show (s.sc l).clusters = s.clusters from rfl]
  split
  · rfl
  · cases (s.clusters a).boundary with
    | none => rfl
    | some A =>
      cases (s.clusters b).boundary with
      | none => rfl
      | some B =>
        dsimp only
        rw [sc_mergeInto, sc_mergeInto]
        split <;> rfl

theorem sc_findRoot : ∀ (k : Nat) (s : UState) (v : Nat),
    UState.findRoot k (s.sc l) v = (UState.findRoot k s v).map fun p => (p.1.sc l, p.2)
  | 0, _, _ => rfl
  | k + 1, s, v => by
    unfold UState.findRoot
    rw [show (s.sc l).parent = s.parent from rfl, show (s.sc l).cluster = s.cluster from rfl]
    cases s.parent v with
    | none => dsimp only; split <;> rfl
    | some p =>
      dsimp only
      rw [sc_findRoot k s p]
      cases UState.findRoot k s p <;> rfl

theorem sc_rCluster (v : Nat) : (g.sc l).rCluster (s.sc l) v = (g.rCluster s v).map fun p => (p.1.sc l, p.2) := by
  unfold UGraph.rCluster
  rw [show (g.sc l).n = g.n from rfl, sc_findRoot]
  cases UState.findRoot g.n s v with
  | error x => rfl
  | ok p =>
    simp only [Except.map, show (p.1.sc l).cluster = p.1.cluster from rfl]
    cases p.1.cluster p.2 <;> rfl

theorem sc_updateVertex (hl : 0 < l) (t : UState × List Nat) (v : Nat) :
    (g.sc l).updateVertex (t.1.sc l, t.2) v = (g.updateVertex t v).map fun p => (p.1.sc l, p.2) := by
  unfold UGraph.updateVertex
  dsimp only
  rw [sc_allComplete hl, sc_toInterior]
  split
  · cases t.1.toInterior v <;> rfl
  · rfl

theorem sc_updateAfterGrowth (hl : 0 < l) (s : UState) (c : Nat) :
    (g.sc l).updateAfterGrowth (s.sc l) c = (g.updateAfterGrowth s c).map (UState.sc l) := by
  unfold UGraph.updateAfterGrowth
  rw [show (s.sc l).clusters = s.clusters from rfl]
  cases (s.clusters c).boundary with
  | none => rfl
  | some B =>
    dsimp only
    have h := loopE_hom (φ := fun p : UState × List Nat => (p.1.sc l, p.2)) (fun t v => sc_updateVertex (g := g) hl t v) B (s, [])
    dsimp only at h
    rw [h]
    cases loopE g.updateVertex (s, []) B <;> rfl

theorem sc_refresh (s : UState) : (s.sc l).refresh = s.refresh.map (UState.sc l) := by
  unfold UState.refresh
  have h := loopE_hom (f := UState.refreshStep) (f' := UState.refreshStep) (φ := fun p : UState × List Nat => (p.1.sc l, p.2)) (fun t c => by
    unfold UState.refreshStep
    dsimp only
    rw [show (t.1.sc l).clusters = t.1.clusters from rfl]
    split
    · rfl
    · split <;> rfl) s.openList (s, [])
  dsimp only at h
  rw [show (s.sc l).openList = s.openList from rfl, h]
  cases loopE UState.refreshStep (s, []) s.openList <;> rfl

theorem sc_eraseStep (hl : 0 < l) (s : UState) (i : Nat) : (g.sc l).eraseStep (s.sc l) i = (g.eraseStep s i).map (UState.sc l) := by
  unfold UGraph.eraseStep
  rw [sc_complete hl, show (g.sc l).edges = g.edges from rfl]
  split
  · simp only [Except.map]
    split
    · rfl
    · congr 1
      have h : Function.update (fun i => l * s.growth i) i (l * g.maxGrowth i) = fun j => l * Function.update s.growth i (g.maxGrowth i) j := by
        funext j
        by_cases hj : j = i
        · subst hj; simp
        · simp [hj]
      exact congrArg (fun G => ({ s with growth := G } : UState)) h
  · rfl

/-- The state of the search with growth values multiplied. -/
def DfsState.sc (l : ℚ) (t : DfsState) : DfsState := { t with s := t.s.sc l }

theorem sc_dfsEdge (hl : 0 < l) (c : Nat) (t : DfsState) (p : Nat × Option Nat) :
    (g.sc l).dfsEdge c (t.sc l) p = (g.dfsEdge c t p).map (DfsState.sc l) := by
  unfold UGraph.dfsEdge
  show (if t.visited p.1 = true then _ else _) = _
  split
  · rfl
  · show (if (g.sc l).complete (t.s.sc l) p.1 = true then _ else _) = _
    rw [sc_complete hl]
    dsimp only
    split
    · cases p.2 with
      | none => rfl
      | some u =>
        show (if t.s.state u = .unused then _ else _) = _
        dsimp only
        split
        · show (match (t.s.sc l).addVertex c u with | .error x => _ | .ok s => _) = _
          rw [sc_addVertex]
          cases t.s.addVertex c u <;> rfl
        · rfl
    · rfl

theorem sc_dfs (hl : 0 < l) (c : Nat) : ∀ (k : Nat) (t : DfsState), (g.sc l).dfs c k (t.sc l) = (g.dfs c k t).map (DfsState.sc l)
  | 0, t => by
    unfold UGraph.dfs
    show (if t.todo = [] then _ else _) = _
    split <;> rfl
  | k + 1, t => by
    unfold UGraph.dfs
    rw [show (t.sc l).todo = t.todo from rfl]
    cases t.todo with
    | nil => rfl
    | cons v rest =>
      dsimp only
      have h := loopE_hom (φ := DfsState.sc l) (fun t p => sc_dfsEdge (g := g) hl c t p) (g.nbrs v) { t with todo := rest }
      rw [show ({ t.sc l with todo := rest } : DfsState) = DfsState.sc l { t with todo := rest } from rfl, show (g.sc l).nbrs v = g.nbrs v from rfl, h]
      cases loopE (g.dfsEdge c) { t with todo := rest } (g.nbrs v) with
      | error x => rfl
      | ok t1 => exact sc_dfs hl c k t1

theorem sc_erasureEdge (hl : 0 < l) (t : UState × (Nat → Bool)) (i : Nat) :
    (g.sc l).erasureEdge (t.1.sc l, t.2) i = (g.erasureEdge t i).map fun p => (p.1.sc l, p.2) := by
  unfold UGraph.erasureEdge
  dsimp only
  rw [sc_complete hl, show (g.sc l).edges = g.edges from rfl, show (g.sc l).n = g.n from rfl]
  split
  · rfl
  · cases g.edges[i]? with
    | none => rfl
    | some e =>
      cases e with
      | nil => rfl
      | cons v e =>
        dsimp only
        rw [show (t.1.sc l).addCluster = t.1.addCluster.sc l from rfl, sc_addVertex, show (t.1.sc l).nClusters = t.1.nClusters from rfl]
        cases t.1.addCluster.addVertex t.1.nClusters v with
        | error x => rfl
        | ok s1 =>
          simp only [Except.map]
          rw [show (⟨s1.sc l, t.2, [v]⟩ : DfsState) = DfsState.sc l ⟨s1, t.2, [v]⟩ from rfl, sc_dfs hl]
          cases g.dfs t.1.nClusters g.n ⟨s1, t.2, [v]⟩ with
          | error x => rfl
          | ok d =>
            simp only [Except.map]
            rw [show (d.sc l).s = d.s.sc l from rfl, sc_updateAfterGrowth hl]
            cases g.updateAfterGrowth d.s t.1.nClusters <;> rfl

theorem sc_syndromeVertex (hl : 0 < l) (s : UState) (v : Nat) : (g.sc l).syndromeVertex (s.sc l) v = (g.syndromeVertex s v).map (UState.sc l) := by
  unfold UGraph.syndromeVertex
  rw [show (s.sc l).syn = s.syn from rfl, show (s.sc l).state = s.state from rfl, show (s.sc l).addCluster = s.addCluster.sc l from rfl,
    show (s.sc l).nClusters = s.nClusters from rfl, sc_addVertex]
  split
  · cases s.addCluster.addVertex s.nClusters v with
    | error x => rfl
    | ok s1 => exact sc_updateAfterGrowth hl s1 _
  · rfl

theorem sc_init (hl : 0 < l) (erasure : List Nat) (syn : List Bool) : (g.sc l).init erasure syn = (g.init erasure syn).map (UState.sc l) := by
  unfold UGraph.init
  rw [show (g.sc l).n = g.n from rfl, show (g.sc l).edges = g.edges from rfl]
  split
  · have hf : UState.fresh (fun v => syn.getD v false) = (UState.fresh fun v => syn.getD v false).sc l := by
      unfold UState.fresh UState.sc
      simp
    rw [hf, loopE_hom (φ := UState.sc l) (fun s i => sc_eraseStep (g := g) hl s i), ← hf]
    cases loopE g.eraseStep (UState.fresh fun v => syn.getD v false) erasure with
    | error x => rfl
    | ok s1 =>
      simp only [Except.map]
      have h := loopE_hom (φ := fun p : UState × (Nat → Bool) => (p.1.sc l, p.2)) (fun t i => sc_erasureEdge (g := g) hl t i)
        (List.range g.edges.length) (s1, fun _ => false)
      dsimp only at h
      rw [h]
      cases loopE g.erasureEdge (s1, fun _ => false) (List.range g.edges.length) with
      | error x => rfl
      | ok t => exact loopE_hom (φ := UState.sc l) (fun s v => sc_syndromeVertex (g := g) hl s v) _ _
  · rfl

/-- The state of growing with growth values multiplied. -/
def GrowthState.sc (l : ℚ) (t : GrowthState) : GrowthState := { t with s := t.s.sc l }

theorem sc_growEdge (hl : 0 < l) (t : GrowthState) (i : Nat) : (g.sc l).growEdge (t.sc l) i = (g.growEdge t i).sc l := by
  unfold UGraph.growEdge
  show (if (g.sc l).complete (t.s.sc l) i = true then _ else _) = _
  rw [sc_complete hl]
  split
  · rfl
  · have h : ({ (t.sc l).s with growth := Function.update (t.sc l).s.growth i ((t.sc l).s.growth i + (g.sc l).increment i) } : UState) =
        UState.sc l { t.s with growth := Function.update t.s.growth i (t.s.growth i + g.increment i) } := by
      have h : Function.update (fun i => l * t.s.growth i) i (l * t.s.growth i + l * g.increment i) =
          fun j => l * Function.update t.s.growth i (t.s.growth i + g.increment i) j := by
        funext j
        by_cases hj : j = i
        · subst hj; simp [mul_add]
        · simp [hj]
      exact congrArg (fun G => ({ t.s with growth := G } : UState)) h
    dsimp only
    rw [h, sc_complete hl]
    rfl

theorem sc_growEdges (hl : 0 < l) : ∀ (is : List Nat) (t : GrowthState), is.foldl (g.sc l).growEdge (t.sc l) = (is.foldl g.growEdge t).sc l
  | [], _ => rfl
  | i :: is, t => by
    rw [List.foldl_cons, List.foldl_cons, sc_growEdge hl]
    exact sc_growEdges hl is _

theorem sc_openBoundaries (s : UState) : ∀ cs : List Nat, (s.sc l).openBoundaries cs = s.openBoundaries cs
  | [] => rfl
  | c :: cs => by
    unfold UState.openBoundaries
    rw [sc_openBoundaries s cs]
    rfl

theorem sc_joinEdge (s : UState) (a b : Nat) : (g.sc l).joinEdge (s.sc l) a b = (g.joinEdge s a b).map (UState.sc l) := by
  unfold UGraph.joinEdge
  rw [show (s.sc l).state = s.state from rfl, sc_rCluster]
  split
  · split
    · cases g.rCluster s a with
      | error x => rfl
      | ok p =>
        simp only [Except.map]
        rw [sc_rCluster]
        cases g.rCluster p.1 b with
        | error x => rfl
        | ok q => exact sc_merge _ _
    · split
      · cases g.rCluster s a with
        | error x => rfl
        | ok p => exact sc_addVertex _ _
      · rfl
  · rfl

theorem sc_handleEdge (s : UState) (i : Nat) : (g.sc l).handleEdge (s.sc l) i = (g.handleEdge s i).map (UState.sc l) := by
  unfold UGraph.handleEdge
  rw [show (g.sc l).edges = g.edges from rfl, show (s.sc l).state = s.state from rfl]
  split
  · split
    · rw [sc_rCluster]
      cases g.rCluster s _ <;> rfl
    · rfl
  · split
    · exact sc_joinEdge s _ _
    · exact sc_joinEdge s _ _
  · rfl

theorem sc_step (hl : 0 < l) (s : UState) : (g.sc l).step (s.sc l) = (g.step s).map (UState.sc l) := by
  unfold UGraph.step
  rw [sc_refresh]
  cases s.refresh with
  | error x => rfl
  | ok s1 =>
    simp only [Except.map]
    rw [show (s1.sc l).openList = s1.openList from rfl]
    split
    · rfl
    · rw [sc_openBoundaries]
      cases s1.openBoundaries s1.openList with
      | error x => rfl
      | ok Bs =>
        dsimp only
        have h := sc_growEdges (g := g) hl (g.toGrow Bs) { s := s1, grown := 0, new := [] }
        rw [show (g.sc l).toGrow Bs = g.toGrow Bs from rfl, show ({ s := s1.sc l, grown := 0, new := [] } : GrowthState) = GrowthState.sc l { s := s1, grown := 0, new := [] } from rfl, h]
        generalize (g.toGrow Bs).foldl g.growEdge { s := s1, grown := 0, new := [] } = t
        rw [show (t.sc l).grown = t.grown from rfl, show (t.sc l).new = t.new from rfl, show (t.sc l).s = t.s.sc l from rfl]
        split
        · rfl
        · split
          · rfl
          · rw [loopE_hom (φ := UState.sc l) (fun s i => sc_handleEdge (g := g) s i)]
            cases loopE g.handleEdge t.s t.new with
            | error x => rfl
            | ok s2 => exact loopE_hom (φ := UState.sc l) (fun s c => sc_updateAfterGrowth (g := g) hl s c) _ _

theorem sc_run (hl : 0 < l) : ∀ (k : Nat) (s : UState), (g.sc l).run k (s.sc l) = (g.run k s).map (UState.sc l)
  | 0, s => by
    unfold UGraph.run
    show (if s.openList = [] then _ else _) = _
    split <;> rfl
  | k + 1, s => by
    unfold UGraph.run
    show (if s.openList = [] then _ else _) = _
    split
    · rfl
    · rw [sc_step hl]
      cases g.step s with
      | error x => rfl
      | ok s1 => exact sc_run hl k s1

theorem sc_budget (hl : 0 < l) : (g.sc l).budget = g.budget := by
  unfold UGraph.budget
  show ((List.range g.edges.length).map fun i => ⌈l * g.maxGrowth i / (l * g.increment i)⌉₊).sum + 1 = _
  simp only [mul_div_mul_left _ _ hl.ne']

/-- Multiplying all growth parameters by a positive number does not change the result of union find. -/
theorem sc_unionFind (hl : 0 < l) (erasure : List Nat) (syn : List Bool) : (g.sc l).unionFind erasure syn = g.unionFind erasure syn := by
  unfold UGraph.unionFind
  rw [sc_init hl, sc_budget hl]
  cases g.init erasure syn with
  | error x => rfl
  | ok s1 =>
    simp only [Except.map]
    rw [sc_run hl]
    cases g.run g.budget s1 with
    | error x => rfl
    | ok s2 =>
      simp only [Except.map]
      rw [show (g.sc l).complete (s2.sc l) = g.complete s2 from funext (sc_complete hl g s2)]
      rfl

/-! ## Increments beyond the edges -/

/-- The graph with other increments. -/
def UGraph.withInc (g : UGraph) (inc : Nat → ℚ) : UGraph := { g with increment := inc }

theorem withInc_dfs (g : UGraph) (inc : Nat → ℚ) (c : Nat) : ∀ (k : Nat) (t : DfsState), (g.withInc inc).dfs c k t = g.dfs c k t
  | 0, _ => rfl
  | k + 1, t => by
    unfold UGraph.dfs
    simp only [withInc_dfs g inc c k]
    rfl

theorem withInc_init (g : UGraph) (inc : Nat → ℚ) (erasure : List Nat) (syn : List Bool) :
    (g.withInc inc).init erasure syn = g.init erasure syn := by
  have h : (g.withInc inc).erasureEdge = g.erasureEdge := by
    funext t i
    unfold UGraph.erasureEdge
    simp only [withInc_dfs]
    rfl
  unfold UGraph.init
  rw [h]
  rfl

theorem toGrow_lt {Bs : List (List Nat)} {i : Nat} (h : i ∈ g.toGrow Bs) : i < g.edges.length := by
  unfold UGraph.toGrow UGraph.edgesAt UGraph.nbrs at h
  obtain ⟨v, _, hi⟩ := List.mem_flatMap.1 h
  obtain ⟨p, hp, rfl⟩ := List.mem_map.1 hi
  obtain ⟨j, hj, he⟩ := List.mem_filterMap.1 hp
  obtain ⟨o, _, rfl⟩ := Option.map_eq_some_iff.1 he
  exact List.mem_range.1 hj

theorem withInc_growEdges {inc : Nat → ℚ} (h : ∀ i, i < g.edges.length → inc i = g.increment i) : ∀ (is : List Nat) (t : GrowthState),
    (∀ i ∈ is, i < g.edges.length) → is.foldl (g.withInc inc).growEdge t = is.foldl g.growEdge t
  | [], _, _ => rfl
  | i :: is, t, hi => by
    have h1 : (g.withInc inc).growEdge t i = g.growEdge t i := by
      unfold UGraph.growEdge
      rw [show (g.withInc inc).increment i = g.increment i from h i (hi i (by simp))]
      rfl
    rw [List.foldl_cons, List.foldl_cons, h1]
    exact withInc_growEdges h is _ fun j hj => hi j (by simp [hj])

theorem withInc_step {inc : Nat → ℚ} (h : ∀ i, i < g.edges.length → inc i = g.increment i) (s : UState) :
    (g.withInc inc).step s = g.step s := by
  unfold UGraph.step
  cases s.refresh with
  | error x => rfl
  | ok s1 =>
    dsimp only
    split
    · rfl
    · cases s1.openBoundaries s1.openList with
      | error x => rfl
      | ok Bs =>
        dsimp only
        rw [show (g.withInc inc).toGrow Bs = g.toGrow Bs from rfl, withInc_growEdges h _ _ fun i hi => toGrow_lt hi]
        rfl

theorem withInc_run {inc : Nat → ℚ} (h : ∀ i, i < g.edges.length → inc i = g.increment i) : ∀ (k : Nat) (s : UState),
    (g.withInc inc).run k s = g.run k s
  | 0, _ => rfl
  | k + 1, s => by
    unfold UGraph.run
    rw [withInc_step h]
    simp only [withInc_run h k]

theorem withInc_unionFind {inc : Nat → ℚ} (h : ∀ i, i < g.edges.length → inc i = g.increment i) (erasure : List Nat) (syn : List Bool) :
    (g.withInc inc).unionFind erasure syn = g.unionFind erasure syn := by
  have hb : (g.withInc inc).budget = g.budget := by
    unfold UGraph.budget
    congr 2
    refine List.map_congr_left fun i hi => ?_
    show ⌈g.maxGrowth i / inc i⌉₊ = _
    rw [h i (List.mem_range.1 hi)]
  unfold UGraph.unionFind
  rw [withInc_init, hb]
  cases g.init erasure syn with
  | error x => rfl
  | ok s =>
    dsimp only
    rw [withInc_run h]
    rfl

end Plaquette
