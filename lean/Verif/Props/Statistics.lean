import Verif.Model.Statistics
import Verif.Props.Syngraph

/-!
# C104: statistics of a syndrome graph, and combined results
-/

namespace Plaquette
variable {W : Type} [LinearOrder W] {n : Nat} {isInf : W → Bool} {r : Nat} {stabs : List (Op n)} {w : Option (Weights W)}
  {g : SynGraph W}

theorem kind_first (h : mkSynGraph isInf r stabs w = .ok g) {i : Nat} (hi : i < r * (2 * n)) :
    ∃ e, g.edges[i]? = some e ∧ e.isQubit = true ∧ e.vertices.length ≤ 2 ∧ ∀ v ∈ e.vertices, v < r * stabs.length := by
  obtain ⟨-, hq, -⟩ := C32_edges h
  have hn : 0 < 2 * n := by
    rcases Nat.eq_zero_or_pos (2 * n) with h0 | h0
    · rw [h0] at hi; omega
    · exact h0
  have ht : i / (2 * n) < r := (Nat.div_lt_iff_lt_mul hn).2 hi
  have hm := Nat.mod_lt i hn
  have hd : i / (2 * n) * (2 * n) + i % (2 * n) = i := by rw [Nat.mul_comm]; exact Nat.div_add_mod i (2 * n)
  have hlt : ∀ t < r, ∀ (v : Nat) (e : SEdge W) {P : Op n → Prop}, (∀ v, v ∈ e.vertices ↔ ∃ s gen, stabs[s]? = some gen ∧ v = t * stabs.length + s ∧ P gen) →
      v ∈ e.vertices → v < r * stabs.length := by
    intro t ht v e P hv hh
    obtain ⟨s, gen, hs, rfl, -⟩ := (hv v).1 hh
    have := (List.getElem?_eq_some_iff.1 hs).1
    have h2 : (t + 1) * stabs.length ≤ r * stabs.length := Nat.mul_le_mul_right _ ht
    rw [Nat.add_mul] at h2
    omega
  by_cases hx : i % (2 * n) < n
  · obtain ⟨e, j, hj, he, hk, -, hl, hv⟩ := hq _ ht ⟨i % (2 * n), hx⟩ true
    rw [if_pos rfl] at hj
    rw [hj] at he
    simp only at he
    rw [hd] at he
    exact ⟨e, he, by rw [SEdge.isQubit, hk], hl, fun v hh => hlt _ ht v e hv hh⟩
  · obtain ⟨e, j, hj, he, hk, -, hl, hv⟩ := hq _ ht ⟨i % (2 * n) - n, by omega⟩ false
    rw [if_neg (by decide)] at hj
    rw [hj] at he
    simp only at he
    rw [show n + (i % (2 * n) - n) = i % (2 * n) by omega, hd] at he
    exact ⟨e, he, by rw [SEdge.isQubit, hk], hl, fun v hh => hlt _ ht v e hv hh⟩

theorem kind_rest (h : mkSynGraph isInf r stabs w = .ok g) {i : Nat} (hi : i < (r - 1) * stabs.length) :
    ∃ e, g.edges[r * (2 * n) + i]? = some e ∧ e.isQubit = false ∧ e.vertices.length = 2 ∧ ∀ v ∈ e.vertices, v < r * stabs.length := by
  obtain ⟨-, -, hs⟩ := C32_edges h
  have hn : 0 < stabs.length := by
    rcases Nat.eq_zero_or_pos stabs.length with h0 | h0
    · rw [h0] at hi; omega
    · exact h0
  have ht : i / stabs.length < r - 1 := (Nat.div_lt_iff_lt_mul hn).2 hi
  have hd : i / stabs.length * stabs.length + i % stabs.length = i := by rw [Nat.mul_comm]; exact Nat.div_add_mod i _
  obtain ⟨e, he, hk, hv⟩ := hs (i / stabs.length) (Nat.add_lt_of_lt_sub ht) (i % stabs.length) (Nat.mod_lt _ hn)
  rw [hd] at he
  refine ⟨e, he, by rw [SEdge.isQubit, hk], by rw [hv]; rfl, fun v hh => ?_⟩
  have hm := Nat.mod_lt i hn
  have h2 : (i / stabs.length + 2) * stabs.length ≤ r * stabs.length := Nat.mul_le_mul_right _ (Nat.add_lt_of_lt_sub ht)
  rw [Nat.add_mul] at h2
  rw [hv] at hh
  simp only [List.mem_cons, List.not_mem_nil, or_false, Nat.add_mul] at hh
  rcases hh with rfl | rfl <;> omega

/-- **C104** The numbers of edges: by number of vertices, and by kind. -/
theorem C104_edges (h : mkSynGraph isInf r stabs w = .ok g) :
    g.statistics.nEdges = g.statistics.n2Edges + g.statistics.n1Edges + g.statistics.n0Edges ∧
    g.statistics.nEdges = g.statistics.nEdgesQubit + g.statistics.nEdgesStab ∧
    g.statistics.nEdgesQubit = r * (2 * n) ∧ g.statistics.nEdgesStab = (r - 1) * stabs.length := by
  obtain ⟨hlen, -⟩ := C32_edges h
  have hsplit : g.edges = g.edges.take (r * (2 * n)) ++ g.edges.drop (r * (2 * n)) := (List.take_append_drop _ _).symm
  have h1 : ∀ e ∈ g.edges.take (r * (2 * n)), e.isQubit = true ∧ e.vertices.length ≤ 2 := by
    intro e he
    obtain ⟨i, hi, rfl⟩ := List.getElem_of_mem he
    rw [List.length_take] at hi
    obtain ⟨e, he, a, b, -⟩ := kind_first h (i := i) (by omega)
    rw [List.getElem_take]
    rw [List.getElem?_eq_getElem (by omega), Option.some.injEq] at he
    rw [he]; exact ⟨a, b⟩
  have h2 : ∀ e ∈ g.edges.drop (r * (2 * n)), e.isQubit = false ∧ e.vertices.length ≤ 2 := by
    intro e he
    obtain ⟨i, hi, rfl⟩ := List.getElem_of_mem he
    rw [List.length_drop] at hi
    obtain ⟨e, he, a, b, -⟩ := kind_rest h (i := i) (by omega)
    rw [List.getElem_drop]
    rw [List.getElem?_eq_getElem (by omega), Option.some.injEq] at he
    rw [he]; exact ⟨a, b.le⟩
  have h3 : ∀ e ∈ g.edges, e.vertices.length ≤ 2 := by
    intro e he
    rw [hsplit, List.mem_append] at he
    rcases he with he | he
    · exact (h1 e he).2
    · exact (h2 e he).2
  have hc : ∀ l : List (SEdge W), (∀ e ∈ l, e.vertices.length ≤ 2) → l.length = (l.countP fun e => e.vertices.length == 2) +
      (l.countP fun e => e.vertices.length == 1) + (l.countP fun e => e.vertices.length == 0) := by
    intro l
    induction l with
    | nil => intro _; rfl
    | cons e l ih =>
      intro hl
      have := ih fun e he => hl e (by simp [he])
      have hv := hl e (by simp)
      simp only [List.length_cons, List.countP_cons]
      have : e.vertices.length = 0 ∨ e.vertices.length = 1 ∨ e.vertices.length = 2 := by omega
      rcases this with hh | hh | hh <;> simp [hh] <;> omega
  have hq : g.statistics.nEdgesQubit = r * (2 * n) := by
    show (g.edges.countP fun e => e.isQubit) = _
    rw [hsplit, List.countP_append, List.countP_eq_length.2 (fun e he => (h1 e he).1),
      List.countP_eq_zero.2 (fun e he => by simp [(h2 e he).1]), List.length_take]
    omega
  have hs : g.statistics.nEdgesStab = (r - 1) * stabs.length := by
    show (g.edges.countP fun e => !e.isQubit) = _
    rw [hsplit, List.countP_append, List.countP_eq_zero.2 (fun e he => by simp [(h1 e he).1]),
      List.countP_eq_length.2 (fun e he => by simp [(h2 e he).1]), List.length_drop]
    omega
  refine ⟨hc _ h3, ?_, hq, hs⟩
  rw [hq, hs]
  exact hlen

theorem stats_comps_disjoint (h : mkSynGraph isInf r stabs w = .ok g) : g.components.Pairwise fun c c' => List.Disjoint c.vertexIdx c'.vertexIdx := by
  obtain ⟨h1, h2, -⟩ := C34_vertices h
  rw [List.pairwise_iff_getElem]
  intro i j hi hj hij v hv hv'
  obtain ⟨k, -, hk⟩ := h2 v ((h1 _ (List.getElem_mem hi)).2.2 v hv)
  have a := hk i ⟨_, List.getElem?_eq_getElem hi, hv⟩
  have b := hk j ⟨_, List.getElem?_eq_getElem hj, hv'⟩
  omega

/-- The vertices of all components are all vertices. -/
theorem comps_vertices (h : mkSynGraph isInf r stabs w = .ok g) :
    (g.components.flatMap Component.vertexIdx).Perm (List.range (r * stabs.length)) := by
  obtain ⟨h1, h2, -⟩ := C34_vertices h
  rw [List.perm_ext_iff_of_nodup ?_ List.nodup_range]
  · intro v
    rw [List.mem_flatMap, List.mem_range]
    constructor
    · rintro ⟨c, hc, hv⟩
      exact (h1 c hc).2.2 v hv
    · intro hv
      obtain ⟨k, ⟨c, hc, hvc⟩, -⟩ := h2 v hv
      exact ⟨c, List.mem_of_getElem? hc, hvc⟩
  · rw [List.nodup_flatMap]
    exact ⟨fun c hc => (h1 c hc).2.1, stats_comps_disjoint h⟩

theorem edges_disjoint (h : mkSynGraph isInf r stabs w = .ok g) : g.components.Pairwise fun c c' => List.Disjoint c.edgeIdx c'.edgeIdx := by
  have hd := stats_comps_disjoint h
  refine hd.imp_of_mem ?_
  intro c c' hc hc' hdis i hi hi'
  obtain ⟨-, h2, -⟩ := C34_edges h hc
  obtain ⟨-, -, h3⟩ := C34_edges h hc'
  obtain ⟨e, he, -, v, hv, hvc⟩ := (h2 i).1 hi
  exact hdis hvc (h3 i hi' e he v hv)

/-- The edges of all components are the enabled edges with a vertex. -/
theorem comps_edges (h : mkSynGraph isInf r stabs w = .ok g) :
    (g.components.flatMap Component.edgeIdx).Perm ((List.range g.edges.length).filter fun i =>
      match g.edges[i]? with | some e => e.enabled && e.vertices.length != 0 | none => false) := by
  obtain ⟨-, v2, -⟩ := C34_vertices h
  rw [List.perm_ext_iff_of_nodup ?_ (List.nodup_range.filter _)]
  · intro i
    rw [List.mem_flatMap, List.mem_filter, List.mem_range]
    constructor
    · rintro ⟨c, hc, hi⟩
      obtain ⟨e, he, ha, v, hv, -⟩ := ((C34_edges h hc).2.1 i).1 hi
      refine ⟨(List.getElem?_eq_some_iff.1 he).1, ?_⟩
      rw [he]
      have : e.vertices.length ≠ 0 := fun h0 => by
        rw [List.length_eq_zero_iff] at h0
        rw [h0] at hv
        cases hv
      simp [ha, this]
    · rintro ⟨hi, hh⟩
      rw [List.getElem?_eq_getElem hi] at hh
      simp only [Bool.and_eq_true, bne_iff_ne, ne_eq, List.length_eq_zero_iff] at hh
      obtain ⟨v, hv⟩ := List.exists_mem_of_ne_nil _ hh.2
      have hvl : v < r * stabs.length := by
        rcases Nat.lt_or_ge i (r * (2 * n)) with hlt | hge
        · obtain ⟨e, he, -, -, k⟩ := kind_first h hlt
          rw [List.getElem?_eq_getElem hi, Option.some.injEq] at he
          exact k v (he ▸ hv)
        · have hl := (C32_edges h).1
          obtain ⟨e, he, -, -, k⟩ := kind_rest h (i := i - r * (2 * n)) (by omega)
          rw [Nat.add_sub_cancel' hge, List.getElem?_eq_getElem hi, Option.some.injEq] at he
          exact k v (he ▸ hv)
      obtain ⟨k, ⟨c, hc, hvc⟩, -⟩ := v2 v hvl
      have hcm := List.mem_of_getElem? hc
      exact ⟨c, hcm, ((C34_edges h hcm).2.1 i).2 ⟨_, List.getElem?_eq_getElem hi, hh.1, v, hv, hvc⟩⟩
  · rw [List.nodup_flatMap]
    exact ⟨fun c hc => (C34_edges h hc).1.imp fun hlt => Nat.ne_of_lt hlt, edges_disjoint h⟩

theorem range_count (l : List (SEdge W)) (P : SEdge W → Bool) :
    ((List.range l.length).filter fun i => match l[i]? with | some e => P e | none => false).length = l.countP P := by
  induction l using List.reverseRecOn with
  | nil => rfl
  | append_singleton l e ih =>
    rw [List.length_append, List.length_singleton, List.range_succ, List.filter_append, List.length_append, List.countP_append, ← ih]
    congr 1
    · congr 1
      refine List.filter_congr fun i hi => ?_
      rw [List.getElem?_append_left (List.mem_range.1 hi)]
    · simp only [List.filter_cons, List.getElem?_concat_length, List.filter_nil, List.countP_cons, List.countP_nil]
      cases P e <;> rfl

/-- A component without edges is a single vertex. -/
theorem single_of_no_edges (h : mkSynGraph isInf r stabs w = .ok g) {c : Component W} (hc : c ∈ g.components) (he : c.edgeIdx = []) :
    c.vertexIdx.length = 1 := by
  obtain ⟨h1, -, h3⟩ := C34_vertices h
  obtain ⟨hne, hnd, -⟩ := h1 c hc
  obtain ⟨u, hu⟩ := List.exists_mem_of_ne_nil _ hne
  have hall : ∀ v ∈ c.vertexIdx, v = u := by
    intro v hv
    have hj := (h3 c hc u hu v).1 hv
    clear hv
    induction hj with
    | refl => rfl
    | tail hj hs ih =>
      obtain ⟨e, hm, ha, hx, -⟩ := hs
      rw [ih] at hx
      obtain ⟨i, hi⟩ := List.mem_iff_getElem?.1 hm
      have := ((C34_edges h hc).2.1 i).2 ⟨e, hi, ha, u, hx, hu⟩
      rw [he] at this
      cases this
  have : c.vertexIdx.length ≤ 1 := by
    by_contra hcon
    have h0 := hall _ (List.getElem_mem (show 0 < c.vertexIdx.length by omega))
    have h1 := hall _ (List.getElem_mem (show 1 < c.vertexIdx.length by omega))
    have := (List.Nodup.getElem_inj_iff hnd).1 (h0.trans h1.symm)
    omega
  have := List.length_pos_iff.2 hne
  omega

/-- **C104** Every vertex is in one component: the vertices of the components with edges and the components without edges (which
are single vertices) add up to all vertices. -/
theorem C104_vertices (h : mkSynGraph isInf r stabs w = .ok g) :
    g.statistics.nVertices = r * stabs.length ∧
    (g.statistics.nVertices : Int) = g.statistics.nVerticesInComp.sum + g.statistics.nCompTrivial ∧
    (g.statistics.nComp : Int) = g.statistics.nCompNontrivial + g.statistics.nCompTrivial := by
  obtain ⟨_, _, _, hB⟩ := mkSynGraph_built h
  have hv : g.statistics.nVertices = r * stabs.length := by
    show g.nRounds * g.nStab = _
    rw [hB.nRounds, hB.nStab]
  have hp := (comps_vertices h).length_eq
  rw [List.length_flatMap, List.length_range] at hp
  have key : ∀ l : List (Component W), (∀ c ∈ l, c ∈ g.components) →
      (l.map fun c => c.vertexIdx.length).sum + (l.filter fun c => !c.edges.isEmpty).length =
        ((l.filter fun c => !c.edges.isEmpty).map fun c => c.vertexIdx.length).sum + l.length := by
    intro l
    induction l with
    | nil => intro _; rfl
    | cons c l ih =>
      intro hl
      have ih := ih fun c hc => hl c (by simp [hc])
      have hc := hl c (by simp)
      by_cases he : c.edges = []
      · have hi : c.edgeIdx = [] := by
          have := (C34_copy h hc).1
          rw [he] at this
          exact List.length_eq_zero_iff.1 this.symm
        have := single_of_no_edges h hc hi
        simp only [List.map_cons, List.sum_cons, this, List.length_cons]
        rw [List.filter_cons_of_neg (by simp [he])]
        omega
      · simp only [List.map_cons, List.sum_cons, List.length_cons]
        rw [List.filter_cons_of_pos (by simpa using he)]
        simp only [List.map_cons, List.sum_cons, List.length_cons]
        omega
  refine ⟨hv, ?_, ?_⟩
  · have hk := key _ fun _ hc => hc
    rw [hp] at hk
    rw [hv]
    show ((r * stabs.length : Nat) : Int) = ((((g.components.filter fun c => !c.edges.isEmpty).map fun c => c.vertexIdx.length).sum : Nat) : Int) +
      ((g.components.length : Int) - ((g.components.filter fun c => !c.edges.isEmpty).length : Nat))
    omega
  · show (g.components.length : Int) = (g.withEdges.length : Int) + ((g.components.length : Int) - g.withEdges.length)
    omega

/-- **C104** Every edge is disabled, without vertices, or in exactly one component. -/
theorem C104_components (h : mkSynGraph isInf r stabs w = .ok g) :
    g.statistics.nEdgesInComp.sum + g.statistics.nEdgesDisabled + (g.edges.countP fun e => e.enabled && e.vertices.length == 0) =
      g.statistics.nEdges := by
  have hp := (comps_edges h).length_eq
  rw [List.length_flatMap, range_count g.edges fun e => e.enabled && e.vertices.length != 0] at hp
  have key : ∀ l : List (Component W), (∀ c ∈ l, c ∈ g.components) →
      (l.map fun c => c.edgeIdx.length).sum = ((l.filter fun c => !c.edges.isEmpty).map fun c => c.edges.length).sum := by
    intro l
    induction l with
    | nil => intro _; rfl
    | cons c l ih =>
      intro hl
      have ih := ih fun c hc => hl c (by simp [hc])
      have hc := (C34_copy h (hl c (by simp))).1
      by_cases he : c.edges = []
      · rw [List.filter_cons_of_neg (by simp [he])]
        rw [he] at hc
        simp only [List.map_cons, List.sum_cons, ← hc, ih]
        simp
      · rw [List.filter_cons_of_pos (by simpa using he)]
        simp only [List.map_cons, List.sum_cons, ih, hc]
  have hs : g.statistics.nEdgesInComp.sum = g.edges.countP fun e => e.enabled && e.vertices.length != 0 := by
    rw [← hp]
    exact (key _ fun _ hc => hc).symm
  rw [hs]
  show _ + (g.edges.countP fun e => !e.enabled) + _ = g.edges.length
  generalize g.edges = l
  induction l with
  | nil => rfl
  | cons e l ih =>
    simp only [List.countP_cons, List.length_cons]
    rw [← ih]
    cases e.enabled <;> by_cases hv : e.vertices.length = 0 <;> simp [hv] <;> omega

/-! ### Combined results -/

omit [LinearOrder W] in
/-- Writing the values of a component. -/
theorem write_all (out : List Bool) (ps : List (Nat × Bool)) (hlt : ∀ p ∈ ps, p.1 < out.length) (hnd : (ps.map Prod.fst).Nodup) :
    ∃ out', loopE (fun out (p : Nat × Bool) => if p.1 < out.length then .ok (out.set p.1 p.2) else .error .indexError) out ps = .ok out' ∧
      out'.length = out.length ∧ (∀ p ∈ ps, out'[p.1]? = some p.2) ∧ ∀ i, i ∉ ps.map Prod.fst → out'[i]? = out[i]? := by
  induction ps generalizing out with
  | nil => exact ⟨out, rfl, rfl, by simp, fun _ _ => rfl⟩
  | cons p ps ih =>
    rw [List.map_cons, List.nodup_cons] at hnd
    obtain ⟨out', h1, h2, h3, h4⟩ := ih (out.set p.1 p.2) (fun q hq => by rw [List.length_set]; exact hlt q (by simp [hq])) hnd.2
    have hp := hlt p (by simp)
    refine ⟨out', ?_, by rw [h2, List.length_set], ?_, ?_⟩
    · rw [loopE, if_pos hp]; exact h1
    · intro q hq
      rcases List.mem_cons.1 hq with rfl | hq
      · rw [h4 _ hnd.1, List.getElem?_set_self hp]
      · exact h3 q hq
    · intro i hi
      simp only [List.map_cons, List.mem_cons, not_or] at hi
      rw [h4 i hi.2, List.getElem?_set_ne (Ne.symm hi.1)]

/-- **C104** Combining one result for each component with edges: the result for each edge of a component is that of the component,
and all other edges are not selected. -/
theorem C104_combine (h : mkSynGraph isInf r stabs w = .ok g) {results : List (List Bool)}
    (hr : List.Forall₂ (fun c res => res.length = c.edges.length) g.withEdges results) :
    ∃ out, g.combine results = .ok out ∧ out.length = g.edges.length ∧
      (∀ (k : Nat) (c : Component W) (res : List Bool), g.withEdges[k]? = some c → results[k]? = some res →
        ∀ (j i : Nat), c.edgeIdx[j]? = some i → out[i]? = res[j]?) ∧
      ∀ i < g.edges.length, (∀ c ∈ g.components, i ∉ c.edgeIdx) → out[i]? = some false := by
  have hsub : g.withEdges.Sublist g.components := List.filter_sublist
  have hdis := (edges_disjoint h).sublist hsub
  have hlen : ∀ c ∈ g.components, ∀ i ∈ c.edgeIdx, i < g.edges.length := by
    intro c hc i hi
    obtain ⟨e, he, -⟩ := ((C34_edges h hc).2.1 i).1 hi
    exact (List.getElem?_eq_some_iff.1 he).1
  have key : ∀ (cs : List (Component W)) (rs : List (List Bool)) (out : List Bool), (∀ c ∈ cs, c ∈ g.components) →
      cs.Pairwise (fun c c' => List.Disjoint c.edgeIdx c'.edgeIdx) → List.Forall₂ (fun c res => res.length = c.edges.length) cs rs →
      out.length = g.edges.length → ∃ out', loopE combineStep out (cs.zip rs) = .ok out' ∧ out'.length = g.edges.length ∧
        (∀ (k : Nat) (c : Component W) (res : List Bool), cs[k]? = some c → rs[k]? = some res →
          ∀ (j i : Nat), c.edgeIdx[j]? = some i → out'[i]? = res[j]?) ∧
        ∀ i, (∀ c ∈ cs, i ∉ c.edgeIdx) → out'[i]? = out[i]? := by
    intro cs
    induction cs with
    | nil =>
      intro rs out _ _ hr ho
      cases hr
      exact ⟨out, rfl, ho, by simp, fun _ _ => rfl⟩
    | cons c cs ih =>
      intro rs out hm hp hr ho
      obtain ⟨res, rs', hres, hr', rfl⟩ := List.forall₂_cons_left_iff.1 hr
      have hc := hm c (by simp)
      have hcl : res.length = c.edgeIdx.length := by rw [hres, (C34_copy h hc).1]
      have hfst : (c.edgeIdx.zip res).map Prod.fst = c.edgeIdx := List.map_fst_zip (by omega)
      obtain ⟨o1, w1, w2, w3, w4⟩ := write_all out (c.edgeIdx.zip res) (by
        intro p hp
        rw [ho]
        exact hlen c hc p.1 (by rw [← hfst]; exact List.mem_map_of_mem hp)) (by
        rw [hfst]
        exact (C34_edges h hc).1.imp fun hlt => Nat.ne_of_lt hlt)
      rw [List.pairwise_cons] at hp
      obtain ⟨o2, k1, k2, k3, k4⟩ := ih rs' o1 (fun c hc => hm c (by simp [hc])) hp.2 hr' (by rw [w2, ho])
      refine ⟨o2, ?_, k2, ?_, ?_⟩
      · rw [List.zip_cons_cons, loopE, combineStep, if_neg (by simp [hcl]), w1]
        exact k1
      · intro k c' res' hk hk' j i hj
        cases k with
        | zero =>
          simp only [List.getElem?_cons_zero, Option.some.injEq] at hk hk'
          subst hk hk'
          have hi : i ∈ c.edgeIdx := List.mem_of_getElem? hj
          rw [k4 i fun c' hc' hi' => hp.1 c' hc' hi hi']
          have hjl := (List.getElem?_eq_some_iff.1 hj).1
          have hmem : (i, res[j]'(by omega)) ∈ c.edgeIdx.zip res := by
            rw [List.mem_iff_getElem?]
            exact ⟨j, by rw [List.getElem?_zip_eq_some]; exact ⟨hj, List.getElem?_eq_getElem _⟩⟩
          rw [w3 _ hmem, List.getElem?_eq_getElem]
        | succ k =>
          simp only [List.getElem?_cons_succ] at hk hk'
          exact k3 k c' res' hk hk' j i hj
      · intro i hi
        rw [k4 i fun c' hc' => hi c' (by simp [hc']), w4 i (by rw [hfst]; exact hi c (by simp))]
  obtain ⟨out, a1, a2, a3, a4⟩ := key g.withEdges results (List.replicate g.edges.length false) (fun c hc => hsub.subset hc) hdis hr (by simp)
  refine ⟨out, ?_, a2, a3, fun i hi hn => ?_⟩
  · rw [SynGraph.combine, if_neg (by rw [hr.length_eq]; simp)]
    exact a1
  · rw [a4 i fun c hc => hn c (hsub.subset hc), List.getElem?_replicate, if_pos hi]

omit [LinearOrder W] in
/-- Results for a wrong number of components, or of the wrong length, fail an assertion. -/
theorem C104_combine_length (results : List (List Bool)) (h : results.length ≠ g.withEdges.length) :
    g.combine results = .error .assertionError := by
  rw [SynGraph.combine, if_pos h]

/-- Non-vacuity: two rounds of the stabiliser `ZZ` on two qubits. -/
example : (mkSynGraph (fun _ : Nat => false) 2 [mulOp (singleOp false .Z (0 : Fin 2)) (singleOp false .Z 1)] none).map
    (fun g => (g.statistics, (g.combine [[true, false, true]]).toOption)) =
    .ok (⟨2, 9, 1, 4, 4, 8, 1, 2, [2], [3], 1, 1, 0⟩, some [true, false, false, false, false, false, false, false, true]) := by
  decide +kernel

end Plaquette
