import Verif.Lemmas.DecoderGraph

/-!
# Decoding all components
-/

namespace Plaquette
variable {W σ : Type} {n : Nat} [LinearOrder W] {isInf : W → Bool} {r : Nat} {stabs : List (Op n)} {w : Option (Weights W)} {g : SynGraph W}

/-- Edges have at most two vertices, which are different. -/
theorem edge_vertices (h : mkSynGraph isInf r stabs w = .ok g) {i : Nat} {e : SEdge W} (he : g.edges[i]? = some e) :
    e.vertices.Nodup ∧ e.vertices.length ≤ 2 := by
  rcases edge_cases h he with ⟨t, o, l, _, _, _, hv, hl⟩ | ⟨t, s, _, hs, _, hv⟩
  · refine ⟨?_, hl⟩
    rw [hv]
    refine List.Nodup.map_on (fun a _ b _ hab => ?_) ((flipped_sorted stabs _).imp fun h => Nat.ne_of_lt h)
    simpa [vertexIdx] using hab
  · rw [hv]
    have : t * stabs.length + s ≠ (t + 1) * stabs.length + s := by nlinarith
    simpa using this

/-- What is used of a component. -/
structure CompOk {W : Type} (g : SynGraph W) (c : Component W) : Prop where
  vnodup : c.vertexIdx.Nodup
  enodup : c.edgeIdx.Nodup
  len : c.edges.length = c.edgeIdx.length
  get : ∀ (j i : Nat) (e : SEdge W), c.edgeIdx[j]? = some i → g.edges[i]? = some e → c.edges[j]? = some (e.vertices.map c.vertexIdx.idxOf) ∧
    ∀ v ∈ e.vertices, v ∈ c.vertexIdx
  mem : ∀ i, i ∈ c.edgeIdx ↔ ∃ e : SEdge W, g.edges[i]? = some e ∧ e.enabled = true ∧ ∃ v ∈ e.vertices, v ∈ c.vertexIdx

theorem compOk (h : mkSynGraph isInf r stabs w = .ok g) {c : Component W} (hc : c ∈ g.components) : CompOk g c := by
  have hE := C34_edges h hc
  obtain ⟨qs, es, k, hB⟩ := mkSynGraph_built h
  obtain ⟨x, hx, hcx, hv, hi, hs1, hs2, he, hw⟩ := hB.mem_component hc
  refine ⟨hs1.imp fun h => Nat.ne_of_lt h, hs2.imp fun h => Nat.ne_of_lt h, by rw [he, List.length_map], ?_, hE.2.1⟩
  intro j i e hj hie
  refine ⟨?_, hE.2.2 i (List.mem_of_getElem? hj) e hie⟩
  rw [he, List.getElem?_map, hj, Option.map_some, vertsAt_get hie]

theorem CompOk.index {c : Component W} (hc : CompOk g c) {i : Nat} (hi : i ∈ c.edgeIdx) : ∃ (j : Nat) (e : SEdge W), c.edgeIdx[j]? = some i ∧ g.edges[i]? = some e := by
  obtain ⟨j, hj⟩ := List.getElem?_of_mem hi
  obtain ⟨e, he, _⟩ := (hc.mem i).1 hi
  exact ⟨j, e, hj, he⟩

theorem compGraph (h : mkSynGraph isInf r stabs w = .ok g) {c : Component W} (hc : c ∈ g.components) : IsDecodingGraph c.nVertices c.edges := by
  intro l hl
  have hok := compOk h hc
  obtain ⟨j, hj⟩ := List.getElem?_of_mem hl
  have hjl := (List.getElem?_eq_some_iff.1 hj).1
  rw [hok.len] at hjl
  have hji := List.getElem?_eq_getElem hjl
  obtain ⟨e, he, _, v, hv, _⟩ := (hok.mem _).1 (List.getElem_mem hjl)
  obtain ⟨h1, h2⟩ := hok.get j _ e hji he
  obtain ⟨h3, h4⟩ := edge_vertices h he
  rw [h1] at hj
  have hj : e.vertices.map c.vertexIdx.idxOf = l := by simpa using hj
  have hlt : ∀ v ∈ e.vertices, c.vertexIdx.idxOf v < c.nVertices := fun v hv => List.idxOf_lt_length_of_mem (h2 v hv)
  generalize e.vertices = vs at *
  match vs, hv, h4 with
  | [a], _, _ => exact .inl ⟨_, hj.symm, hlt a (by simp)⟩
  | [a, b], _, _ =>
    refine .inr ⟨_, _, hj.symm, ?_, hlt a (by simp), hlt b (by simp)⟩
    intro heq
    have := (List.idxOf_inj (h2 a (by simp))).1 heq
    subst this
    simp at h3

/-- The edges of different components are different. -/
theorem comps_disjoint (h : mkSynGraph isInf r stabs w = .ok g) : g.components.Pairwise fun c d => ∀ i ∈ c.edgeIdx, i ∉ d.edgeIdx := by
  obtain ⟨qs, es, k, hB⟩ := mkSynGraph_built h
  obtain ⟨h1, h2⟩ := hB.component
  rw [List.pairwise_iff_getElem]
  intro a b ha hb hab i hi hi'
  have ea := h2 a (by omega)
  have eb := h2 b (by omega)
  rw [List.getElem?_eq_getElem ha] at ea
  rw [List.getElem?_eq_getElem hb] at eb
  simp only [Option.some.injEq] at ea eb
  rw [ea] at hi
  rw [eb] at hi'
  have e1 := of_decide_eq_true (List.mem_filter.1 hi).2
  have e2 := of_decide_eq_true (List.mem_filter.1 hi').2
  rw [e1] at e2
  simp at e2
  omega

/-- The results for all components with edges explain the syndrome on the whole graph. -/
theorem results_bd (h : mkSynGraph isInf r stabs w = .ok g) {rs : List (List Nat × List Bool)} {syn : Nat → Bool}
    (hkeys : rs.map (·.1) = g.withEdges.map (·.edgeIdx))
    (hrs : ∀ (k : Nat) (c : Component W) (p : List Nat × List Bool), g.withEdges[k]? = some c → rs[k]? = some p → Explains c.nVertices c.edges p.2 (c.vertexIdx.map syn))
    (hno : ∀ c ∈ g.components, c.edges = [] → ∀ v ∈ c.vertexIdx, syn v = false) :
    ∀ v, v < r * stabs.length → bd g.verts (updateResults rs) v = syn v := by
  have hsub : g.withEdges.Sublist g.components := List.filter_sublist
  have hdis : rs.Pairwise (fun p q => ∀ i ∈ p.1, i ∉ q.1) := by
    have h1 := ((comps_disjoint h).sublist hsub)
    have h2 : (g.withEdges.map (·.edgeIdx)).Pairwise fun p q => ∀ i ∈ p, i ∉ q := List.pairwise_map.2 h1
    rw [← hkeys] at h2
    exact List.pairwise_map.1 h2
  have hpair : ∀ (k : Nat) (p : List Nat × List Bool), rs[k]? = some p → ∃ c : Component W, g.withEdges[k]? = some c ∧ p.1 = c.edgeIdx := by
    intro k p hp
    have h1 : (rs.map (·.1))[k]? = some p.1 := by rw [List.getElem?_map, hp]; rfl
    rw [hkeys, List.getElem?_map] at h1
    cases hc : g.withEdges[k]? with
    | none => rw [hc] at h1; simp at h1
    | some c => rw [hc] at h1; exact ⟨c, rfl, by simpa using h1.symm⟩
  have hcomp : ∀ (k : Nat) (c : Component W), g.withEdges[k]? = some c → c ∈ g.components := fun k c hc => hsub.subset (List.mem_of_getElem? hc)
  intro v hv
  obtain ⟨-, hpart, -⟩ := C34_vertices h
  obtain ⟨k, ⟨c, hck, hvc⟩, -⟩ := hpart v hv
  have hcm : c ∈ g.components := List.mem_of_getElem? hck
  have hok := compOk h hcm
  have hlen : g.verts.length = g.edges.length := by simp [SynGraph.verts]
  -- an edge that counts at `v` is in `c`
  have hin : ∀ i, (updateResults rs i && touches g.verts i v) = true → i ∈ c.edgeIdx := by
    intro i hi
    obtain ⟨h1, h2⟩ := Bool.and_eq_true_iff.1 hi
    have hmem : ∃ p ∈ rs, i ∈ p.1 := by
      by_contra hcon
      push Not at hcon
      have := updateResults_other rs (fun _ => false) hcon
      unfold updateResults at h1
      rw [this] at h1
      simp at h1
    obtain ⟨p, hp, hip⟩ := hmem
    obtain ⟨k', hk'⟩ := List.getElem?_of_mem hp
    obtain ⟨c', hc', hpc⟩ := hpair k' p hk'
    rw [hpc] at hip
    obtain ⟨e, he, hen, _⟩ := ((compOk h (hcomp k' c' hc')).mem i).1 hip
    rw [touches_some (verts_get he)] at h2
    exact (hok.mem i).2 ⟨e, he, hen, v, of_decide_eq_true h2, hvc⟩
  by_cases hce : c.edges = []
  · rw [hno c hcm hce v hvc]
    unfold bd
    refine xsum_zero fun i _ => ?_
    by_contra hcon
    have hi := hin i (by simpa using hcon)
    have : c.edgeIdx = [] := by rw [← List.length_eq_zero_iff, ← hok.len, hce]; rfl
    rw [this] at hi; simp at hi
  · have hcw : c ∈ g.withEdges := List.mem_filter.2 ⟨hcm, by simpa using hce⟩
    obtain ⟨k', hk'⟩ := List.getElem?_of_mem hcw
    have hkl : k' < rs.length := by
      have h1 := congrArg List.length hkeys
      rw [List.length_map, List.length_map] at h1
      have := (List.getElem?_eq_some_iff.1 hk').1
      omega
    have hp := List.getElem?_eq_getElem hkl
    have hE := hrs k' c _ hk' hp
    obtain ⟨c', hc', hpc⟩ := hpair k' _ hp
    rw [hk'] at hc'
    obtain rfl : c = c' := by simpa using hc'
    generalize hpd : rs[k'] = p at *
    have hu : c.vertexIdx.idxOf v < c.nVertices := List.idxOf_lt_length_of_mem hvc
    have hB := bd_of_explains hE (c.vertexIdx.idxOf v) hu
    have hsyn : synAt (c.vertexIdx.map syn) (c.vertexIdx.idxOf v) = syn v := by
      unfold synAt
      have hu' : c.vertexIdx.idxOf v < c.vertexIdx.length := hu
      rw [List.getD_eq_getElem?_getD, List.getElem?_map, List.getElem?_eq_getElem hu', List.getElem_idxOf hu']
      rfl
    rw [hsyn] at hB
    rw [← hB]
    unfold bd
    rw [hlen, xsum_subset List.nodup_range hok.enodup (fun i hi => by
        obtain ⟨e, he, _⟩ := (hok.mem i).1 hi
        exact List.mem_range.2 (List.getElem?_eq_some_iff.1 he).1) (fun i _ hi => by
        by_contra hcon
        exact hi (hin i (by simpa using hcon)))]
    rw [← range_getD c.edgeIdx, xsum_map, ← hok.len]
    refine xsum_congr fun j hj => ?_
    have hjl : j < c.edgeIdx.length := by rw [← hok.len]; exact List.mem_range.1 hj
    have hji := List.getElem?_eq_getElem hjl
    have hgd : c.edgeIdx.getD j 0 = c.edgeIdx[j] := by rw [List.getD_eq_getElem?_getD, hji]; rfl
    have hR : updateResults rs (c.edgeIdx[j]) = p.2.getD j false := by
      unfold updateResults
      refine updateResults_get rs _ hdis p (List.mem_of_getElem? hp) (by rw [hpc]; exact hok.enodup) ?_ (by rw [hpc]; exact hji)
      rw [hE.1, hpc, hok.len]
    rw [hgd, hR]
    obtain ⟨e, he, _⟩ := (hok.mem _).1 (List.getElem_mem hjl)
    obtain ⟨h1, h2⟩ := hok.get j _ e hji he
    rw [touches_some (verts_get he), touches_some h1]
    congr 1
    refine decide_eq_decide.2 ?_
    rw [List.mem_map]
    constructor
    · intro hve; exact ⟨v, hve, rfl⟩
    · rintro ⟨u, hu1, hu2⟩
      rw [← (List.idxOf_inj (h2 u hu1)).1 hu2]
      exact hu1

end Plaquette
