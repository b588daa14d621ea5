import Verif.Props.Erased
import Verif.Lemmas.UFReach

/-!
# How many lines the errors and the correction cross, in the whole syndrome graph
-/

namespace Plaquette
variable {W σ : Type} {n : Nat} [LinearOrder W] {isInf : W → Bool} {r : Nat} {stabs : List (Op n)} {w : Option (Weights W)} {g : SynGraph W}

/-- The lines that are crossed by a correction or by errors. -/
def linesOf {P : Type} [CommRing P] {m : Nat} {edges : List (List Nat)} (Y : Layout P m edges) (x corr : Nat → Bool) : Set P :=
  {p | ∃ i < edges.length, (corr i = true ∨ x i = true) ∧ Y.seg i = some p}

/-- The decoders of the components do not go far beyond the errors: at most `K` lines for each error, and one for each erased edge. -/
def Short (K : Nat) (b : Backend W σ) (g : SynGraph W) (states : List σ) : Prop :=
  ∀ (k : Nat) (c : Component W) (s : σ), g.withEdges[k]? = some c → states[k]? = some s →
    ∀ er syn corr x, er.length = c.edges.length → syn.length = c.nVertices → b.decode s er syn = .ok corr → Explains c.nVertices c.edges x syn →
    ∀ (P : Type) [CommRing P] (Y : Layout P c.nVertices c.edges), (∀ i j p q, Y.seg i = some p → Y.seg j = some q → p ≠ q + 1) →
      (linesOf Y (x.getD · false) (corr.getD · false)).Finite ∧ (linesOf Y (x.getD · false) (corr.getD · false)).ncard ≤
        K * (List.range c.edges.length).countP (fun j => x.getD j false && !er.getD j false) +
          (List.range c.edges.length).countP (fun j => er.getD j false)

/-- The union find decoder without weights does not go far. -/
theorem uf_short {isInf : FW → Bool} {g : SynGraph FW} (h : mkSynGraph isInf r stabs none = .ok g) {support : Bool}
    {states : List UGraph} (hst : setupAll (ufBackend support) g = .ok states) : Short 3 (ufBackend support) g states := by
  obtain ⟨hl, hget⟩ := mapLoop_get hst
  intro k c s hk hs er syn corr x her hsyn hd hx P _ Y hodd
  obtain ⟨G, hG, hG2⟩ := hget k c hk
  rw [hs] at hG2
  obtain rfl := Option.some.inj hG2
  have hcm := (mem_withEdges hk).1
  have hgr := compGraph h hcm
  have hwt : c.weights.all (·.isNone) = true := by
    rw [List.all_eq_true]
    intro y hy
    obtain ⟨j, hj⟩ := List.getElem?_of_mem hy
    obtain ⟨h1, h2, h3⟩ := C34_copy h hcm
    have hjl : j < c.edgeIdx.length := by rw [← h2]; exact (List.getElem?_eq_some_iff.1 hj).1
    obtain ⟨e, he, _⟩ := ((compOk h hcm).mem _).1 (List.getElem_mem hjl)
    obtain ⟨l, _, _, h6⟩ := h3 j _ e (List.getElem?_eq_getElem hjl) he
    rw [hj, Option.some.injEq] at h6
    have h7 : e.weight = none := C33_weights h e (List.mem_of_getElem? he)
    rw [h6, h7]; rfl
  have hGe : s = ⟨c.nVertices, c.edges, fun _ => 2, fun _ => 1⟩ := by
    have h0 : ufBackendWeights c.weights = .ok none := by
      simp only [ufBackendWeights, isWeighted, hwt, if_true]
    have hG' : ufSetup support c = .ok s := hG
    unfold ufSetup at hG'
    cases h1 : loopE (fun (_ : Unit) e => checkUEdge c.nVertices e) () c.edges with
    | error e => simp only [h1] at hG'; cases hG'
    | ok u =>
      simp only [h1, h0, ufWeights] at hG'
      cases hG'; rfl
  subst hGe
  have hmem : ∀ i, i ∈ whereTrue er ↔ i < er.length ∧ er.getD i false = true := by
    intro i
    unfold whereTrue
    rw [List.mem_filter, List.mem_range]
  have hw : ∀ i ∈ whereTrue er, i < c.edges.length := fun i hi => by rw [← her]; exact ((hmem i).1 hi).1
  have h9 : ufDecode ⟨c.nVertices, c.edges, fun _ => 2, fun _ => 1⟩ er syn = .ok corr := hd
  unfold ufDecode at h9
  cases hu : UGraph.unionFind ⟨c.nVertices, c.edges, fun _ => 2, fun _ => 1⟩ (whereTrue er) syn with
  | error e => simp only [hu] at h9; cases h9
  | ok sel =>
    simp only [hu] at h9
    have hlines := unionFind_lines (g := ⟨c.nVertices, c.edges, fun _ => 2, fun _ => 1⟩) Y (x.getD · false) (whereTrue er) hgr (fun _ => rfl)
      (fun _ => rfl) hw hsyn (fun v hv => bd_of_explains hx v hv) hodd hu
    have hsel : ∀ i ∈ sel, i < c.edges.length := by
      rcases unionFind_spec (g := ⟨c.nVertices, c.edges, fun _ => 2, fun _ => 1⟩) hgr (fun i _ => by norm_num) (fun i _ => by norm_num) hw hsyn with
        ⟨sel', h1, _, h2, _⟩ | ⟨h1, _⟩
      · rw [hu] at h1; cases h1; exact h2
      · rw [hu] at h1; cases h1
    obtain ⟨y, h10, h11, _⟩ := erasureDecode_spec hgr hsel (synAt syn)
    have h12 : erasureDecode c.nVertices c.edges sel (synAt syn) = .ok corr := h9
    rw [h10] at h12
    cases h12
    have hsub : linesOf Y (x.getD · false) (((List.range c.edges.length).map y).getD · false) ⊆
        crossed (g := ⟨c.nVertices, c.edges, fun _ => 2, fun _ => 1⟩) Y (x.getD · false) (· ∈ sel) := by
      rintro p ⟨i, hi, h1, h2⟩
      refine ⟨i, hi, h1.imp (fun h3 => ?_) id, h2⟩
      refine h11 i ?_
      simpa [List.getD_eq_getElem?_getD, hi] using h3
    refine ⟨hlines.1.subset hsub, (Set.ncard_le_ncard hsub hlines.1).trans (hlines.2.trans ?_)⟩
    refine Nat.add_le_add (Nat.mul_le_mul_left 3 ?_) ?_
    · unfold errEdges
      rw [List.countP_eq_length_filter, ← List.toFinset_card_of_nodup (List.nodup_range.filter _)]
      refine Finset.card_le_card fun i hi => ?_
      rw [Finset.mem_filter, Finset.mem_range, hmem] at hi
      rw [List.mem_toFinset, List.mem_filter, List.mem_range]
      refine ⟨hi.1, ?_⟩
      rw [Bool.and_eq_true]
      refine ⟨hi.2.1, ?_⟩
      have := hi.2.2
      rw [not_and] at this
      simpa using this (by rw [her]; exact hi.1)
    · unfold whereTrue
      rw [List.countP_eq_length_filter, her]

/-! ## The layout of a component -/

omit [LinearOrder W] in
/-- The layout of a component. -/
def Layout.comp {P : Type} [CommRing P] {m : Nat} (Y : Layout P m g.verts) {c : Component W} (hok : CompOk g c) : Layout P c.nVertices c.edges where
  pos u := Y.pos (c.vertexIdx.getD u 0)
  seg j := (c.edgeIdx[j]?).bind Y.seg
  same := by
    intro j a b hj hs
    have hjl : j < c.edgeIdx.length := by rw [← hok.len]; exact (List.getElem?_eq_some_iff.1 hj).1
    have hji := List.getElem?_eq_getElem hjl
    obtain ⟨e, he, _⟩ := (hok.mem _).1 (List.getElem_mem hjl)
    obtain ⟨h1, h2⟩ := hok.get j _ e hji he
    rw [hj, Option.some.injEq] at h1
    have hv := verts_get he
    rw [hji, Option.bind_some] at hs
    have hback : ∀ v ∈ e.vertices, c.vertexIdx.getD (c.vertexIdx.idxOf v) 0 = v := fun v hv => by
      have hlt := List.idxOf_lt_length_of_mem (h2 v hv)
      rw [List.getD_eq_getElem?_getD, List.getElem?_eq_getElem hlt, List.getElem_idxOf hlt]; rfl
    generalize e.vertices = vs at *
    match vs, h1, hv, hback with
    | [u, v], h1, hv, hback =>
      obtain ⟨rfl, rfl⟩ : a = c.vertexIdx.idxOf u ∧ b = c.vertexIdx.idxOf v := by simpa using h1
      rw [hback u (by simp), hback v (by simp)]
      exact Y.same _ _ _ hv hs
  cross := by
    intro j a b p hj hs
    have hjl : j < c.edgeIdx.length := by rw [← hok.len]; exact (List.getElem?_eq_some_iff.1 hj).1
    have hji := List.getElem?_eq_getElem hjl
    obtain ⟨e, he, _⟩ := (hok.mem _).1 (List.getElem_mem hjl)
    obtain ⟨h1, h2⟩ := hok.get j _ e hji he
    rw [hj, Option.some.injEq] at h1
    have hv := verts_get he
    rw [hji, Option.bind_some] at hs
    have hback : ∀ v ∈ e.vertices, c.vertexIdx.getD (c.vertexIdx.idxOf v) 0 = v := fun v hv => by
      have hlt := List.idxOf_lt_length_of_mem (h2 v hv)
      rw [List.getD_eq_getElem?_getD, List.getElem?_eq_getElem hlt, List.getElem_idxOf hlt]; rfl
    generalize e.vertices = vs at *
    match vs, h1, hv, hback with
    | [u, v], h1, hv, hback =>
      obtain ⟨rfl, rfl⟩ : a = c.vertexIdx.idxOf u ∧ b = c.vertexIdx.idxOf v := by simpa using h1
      rw [hback u (by simp), hback v (by simp)]
      exact Y.cross _ _ _ _ hv hs
  dangle := by
    intro j a p hj hs
    have hjl : j < c.edgeIdx.length := by rw [← hok.len]; exact (List.getElem?_eq_some_iff.1 hj).1
    have hji := List.getElem?_eq_getElem hjl
    obtain ⟨e, he, _⟩ := (hok.mem _).1 (List.getElem_mem hjl)
    obtain ⟨h1, h2⟩ := hok.get j _ e hji he
    rw [hj, Option.some.injEq] at h1
    have hv := verts_get he
    rw [hji, Option.bind_some] at hs
    have hback : ∀ v ∈ e.vertices, c.vertexIdx.getD (c.vertexIdx.idxOf v) 0 = v := fun v hv => by
      have hlt := List.idxOf_lt_length_of_mem (h2 v hv)
      rw [List.getD_eq_getElem?_getD, List.getElem?_eq_getElem hlt, List.getElem_idxOf hlt]; rfl
    generalize e.vertices = vs at *
    match vs, h1, hv, hback with
    | [u], h1, hv, hback =>
      obtain rfl : a = c.vertexIdx.idxOf u := by simpa using h1
      rw [hback u (by simp)]
      exact Y.dangle _ _ _ hv hs

/-! ## All components -/

/-- What the decoder of a component has done, for an edge that is in the correction. -/
theorem results_src (h : mkSynGraph isInf r stabs w = .ok g) {b : Backend W σ} {states : List σ}
    {er sy : List (List Bool)} {rs : List (List Nat × List Bool)} (hrs : mapLoop (decodeOne b g er sy) (g.withEdges.zip states) = .ok rs)
    (hst : states.length = g.withEdges.length) :
    (∀ (k : Nat) (c : Component W), g.withEdges[k]? = some c → ∃ st corr, states[k]? = some st ∧
      b.decode st (c.edgeIdx.map (edgeErased g er)) (c.vertexIdx.map (vertexSyndrome g sy)) = .ok corr ∧
      ∀ (j i : Nat), c.edgeIdx[j]? = some i → updateResults rs i = corr.getD j false) ∧
    ∀ i, updateResults rs i = true → ∃ c ∈ g.withEdges, i ∈ c.edgeIdx := by
  have hsub : g.withEdges.Sublist g.components := List.filter_sublist
  obtain ⟨hl, hget⟩ := mapLoop_get hrs
  have hone : ∀ (k : Nat) (c : Component W), g.withEdges[k]? = some c → ∃ st corr, states[k]? = some st ∧ rs[k]? = some (c.edgeIdx, corr) ∧
      b.decode st (c.edgeIdx.map (edgeErased g er)) (c.vertexIdx.map (vertexSyndrome g sy)) = .ok corr ∧ corr.length = c.edges.length := by
    intro k c hk
    have hkl : k < states.length := by rw [hst]; exact (List.getElem?_eq_some_iff.1 hk).1
    obtain ⟨q, hq1, hq2⟩ := hget k (c, states[k]) (by rw [List.getElem?_zip_eq_some]; exact ⟨hk, List.getElem?_eq_getElem hkl⟩)
    refine ⟨states[k], ?_⟩
    unfold decodeOne at hq1
    cases hd : b.decode states[k] (c.edgeIdx.map (edgeErased g er)) (c.vertexIdx.map (vertexSyndrome g sy)) with
    | error e => simp only [hd] at hq1; cases hq1
    | ok corr =>
      simp only [hd] at hq1
      split at hq1
      · rename_i hcl
        cases hq1
        exact ⟨corr, List.getElem?_eq_getElem hkl, hq2, rfl, hcl⟩
      · cases hq1
  have hkeys : rs.map (·.1) = g.withEdges.map (·.edgeIdx) := by
    refine List.ext_getElem? fun k => ?_
    rw [List.getElem?_map, List.getElem?_map]
    cases hk : g.withEdges[k]? with
    | none =>
      have : rs[k]? = none := by
        rw [List.getElem?_eq_none_iff] at hk ⊢
        rw [hl, List.length_zip]; omega
      rw [this]; rfl
    | some c =>
      obtain ⟨st, corr, _, h2, _⟩ := hone k c hk
      rw [h2]; rfl
  have hdis : rs.Pairwise (fun p q => ∀ i ∈ p.1, i ∉ q.1) := by
    have h2 : (g.withEdges.map (·.edgeIdx)).Pairwise fun p q => ∀ i ∈ p, i ∉ q := List.pairwise_map.2 ((comps_disjoint h).sublist hsub)
    rw [← hkeys] at h2
    exact List.pairwise_map.1 h2
  refine ⟨fun k c hk => ?_, fun i hi => ?_⟩
  · obtain ⟨st, corr, h1, h2, h3, h4⟩ := hone k c hk
    have hok := compOk h (mem_withEdges hk).1
    refine ⟨st, corr, h1, h3, fun j i hj => ?_⟩
    unfold updateResults
    exact updateResults_get rs _ hdis (c.edgeIdx, corr) (List.mem_of_getElem? h2) hok.enodup (by rw [h4]; exact hok.len) hj
  · by_contra hcon
    push Not at hcon
    have : updateResults rs i = false := by
      refine updateResults_other rs _ fun p hp hip => ?_
      have h1 : p.1 ∈ rs.map (·.1) := List.mem_map.2 ⟨p, hp, rfl⟩
      rw [hkeys, List.mem_map] at h1
      obtain ⟨c, hc, hpc⟩ := h1
      exact hcon c hc (by rw [hpc]; exact hip)
    rw [this] at hi; cases hi

theorem countP_getD (l : List Nat) (f : Nat → Bool) : (List.range l.length).countP (fun j => (l.map f).getD j false) = l.countP f := by
  conv_rhs => rw [← range_getD l, List.countP_map]
  refine List.countP_congr fun j hj => ?_
  have hjl := List.mem_range.1 hj
  simp [List.getD_eq_getElem?_getD, hjl]

/-- The lines that the whole correction and the errors cross: `K` for each error that is not erased, and one for each erased edge, where
only the edges of some components count (`rel`), which are the only ones that cross lines. -/
theorem lines_total (h : mkSynGraph isInf r stabs w = .ok g) {b : Backend W σ} {states : List σ} {K : Nat} (hS : Short K b g states)
    (hst : states.length = g.withEdges.length) {er sy : List (List Bool)} {rs : List (List Nat × List Bool)}
    (hrs : mapLoop (decodeOne b g er sy) (g.withEdges.zip states) = .ok rs) {x : Nat → Bool} (hx : ∀ i, x i = true → enabledAt g.edges i = true)
    (hxv : ∀ i e, x i = true → g.edges[i]? = some e → e.vertices ≠ [])
    (hbd : ∀ v, v < r * stabs.length → bd g.verts x v = vertexSyndrome g sy v) {P : Type} [CommRing P] (Y : Layout P (r * stabs.length) g.verts)
    (hodd : ∀ i j p q, Y.seg i = some p → Y.seg j = some q → p ≠ q + 1) (rel : Nat → Bool) (hrel : ∀ i p, Y.seg i = some p → rel i = true)
    (hcomp : ∀ c ∈ g.components, ∀ i ∈ c.edgeIdx, ∀ j ∈ c.edgeIdx, rel i = true → rel j = true) :
    (linesOf Y x (updateResults rs)).Finite ∧ (linesOf Y x (updateResults rs)).ncard ≤
      K * ((Finset.range g.edges.length).filter fun i => x i = true ∧ rel i = true ∧ edgeErased g er i = false).card +
        ((Finset.range g.edges.length).filter fun i => rel i = true ∧ enabledAt g.edges i = true ∧ edgeErased g er i = true).card := by
  have hsub : g.withEdges.Sublist g.components := List.filter_sublist
  obtain ⟨hres, hin⟩ := results_src h hrs hst
  set R := updateResults rs with hR
  have hlen : g.verts.length = g.edges.length := by simp [SynGraph.verts]
  -- one component
  have hone : ∀ c ∈ g.withEdges, {p | ∃ i ∈ c.edgeIdx, (R i = true ∨ x i = true) ∧ Y.seg i = some p}.Finite ∧
      {p | ∃ i ∈ c.edgeIdx, (R i = true ∨ x i = true) ∧ Y.seg i = some p}.ncard ≤
        K * c.edgeIdx.countP (fun i => x i && rel i && !edgeErased g er i) + c.edgeIdx.countP (fun i => rel i && edgeErased g er i) := by
    intro c hc
    obtain ⟨k, hk⟩ := List.getElem?_of_mem hc
    have hcm := hsub.subset hc
    have hok := compOk h hcm
    by_cases hr : ∃ i ∈ c.edgeIdx, rel i = true
    · obtain ⟨i0, hi0, hr0⟩ := hr
      have hall : ∀ i ∈ c.edgeIdx, rel i = true := fun i hi => hcomp c hcm i0 hi0 i hi hr0
      obtain ⟨st, corr, h1, h2, h3⟩ := hres k c hk
      have hex := explains_component h hx hbd hcm
      have hodd' : ∀ i j p q, (Y.comp hok).seg i = some p → (Y.comp hok).seg j = some q → p ≠ q + 1 := by
        intro i j p q hi hj
        have hi' : (c.edgeIdx[i]?).bind Y.seg = some p := hi
        have hj' : (c.edgeIdx[j]?).bind Y.seg = some q := hj
        rw [Option.bind_eq_some_iff] at hi' hj'
        obtain ⟨_, _, hi'⟩ := hi'
        obtain ⟨_, _, hj'⟩ := hj'
        exact hodd _ _ _ _ hi' hj'
      obtain ⟨h4, h5⟩ := hS k c st hk h1 _ _ corr (c.edgeIdx.map x) (by rw [List.length_map, hok.len]) (by rw [List.length_map]; rfl) h2 hex P
        (Y.comp hok) hodd'
      have hset : {p | ∃ i ∈ c.edgeIdx, (R i = true ∨ x i = true) ∧ Y.seg i = some p} =
          linesOf (Y.comp hok) ((c.edgeIdx.map x).getD · false) (corr.getD · false) := by
        ext p
        constructor
        · rintro ⟨i, hi, h6, h7⟩
          obtain ⟨j, hj⟩ := List.getElem?_of_mem hi
          refine ⟨j, by rw [hok.len]; exact (List.getElem?_eq_some_iff.1 hj).1, ?_, ?_⟩
          · rw [h3 j i hj] at h6
            simpa [List.getD_eq_getElem?_getD, hj] using h6
          · show (c.edgeIdx[j]?).bind Y.seg = some p
            rw [hj]; exact h7
        · rintro ⟨j, hj, h6, h7⟩
          have hjl : j < c.edgeIdx.length := by rw [← hok.len]; exact hj
          have hji := List.getElem?_eq_getElem hjl
          refine ⟨c.edgeIdx[j], List.getElem_mem hjl, ?_, ?_⟩
          · rw [h3 j _ hji]
            simpa [List.getD_eq_getElem?_getD, hjl] using h6
          · have h8 : (c.edgeIdx[j]?).bind Y.seg = some p := h7
            rw [hji] at h8; exact h8
      rw [hset]
      refine ⟨h4, h5.trans (le_of_eq ?_)⟩
      have e1 : (List.range c.edges.length).countP (fun j => (c.edgeIdx.map x).getD j false && !(c.edgeIdx.map (edgeErased g er)).getD j false) =
          c.edgeIdx.countP (fun i => x i && rel i && !edgeErased g er i) := by
        rw [← countP_getD c.edgeIdx, hok.len]
        refine List.countP_congr fun j hj => ?_
        have hjl := List.mem_range.1 hj
        simp [List.getD_eq_getElem?_getD, hjl, hall _ (List.getElem_mem hjl)]
      have e2 : (List.range c.edges.length).countP (fun j => (c.edgeIdx.map (edgeErased g er)).getD j false) =
          c.edgeIdx.countP (fun i => rel i && edgeErased g er i) := by
        rw [hok.len, countP_getD]
        refine List.countP_congr fun i hi => ?_
        simp [hall i hi]
      rw [e1, e2]
    · push Not at hr
      have hset : {p | ∃ i ∈ c.edgeIdx, (R i = true ∨ x i = true) ∧ Y.seg i = some p} = ∅ := by
        refine Set.eq_empty_of_forall_notMem ?_
        rintro p ⟨i, hi, _, h7⟩
        exact hr i hi (hrel i p h7)
      rw [hset]
      simp
  -- all components
  have hall : ∀ l : List (Component W), l.Sublist g.withEdges →
      {p | ∃ c ∈ l, ∃ i ∈ c.edgeIdx, (R i = true ∨ x i = true) ∧ Y.seg i = some p}.Finite ∧
      {p | ∃ c ∈ l, ∃ i ∈ c.edgeIdx, (R i = true ∨ x i = true) ∧ Y.seg i = some p}.ncard ≤
        K * (l.flatMap (·.edgeIdx)).countP (fun i => x i && rel i && !edgeErased g er i) +
          (l.flatMap (·.edgeIdx)).countP (fun i => rel i && edgeErased g er i) := by
    intro l
    induction l with
    | nil => intro _; simp
    | cons c l ih =>
      intro hs
      obtain ⟨h1, h2⟩ := ih ((List.sublist_cons_self c l).trans hs)
      obtain ⟨h3, h4⟩ := hone c (hs.subset (by simp))
      have hset : {p | ∃ c' ∈ c :: l, ∃ i ∈ c'.edgeIdx, (R i = true ∨ x i = true) ∧ Y.seg i = some p} =
          {p | ∃ i ∈ c.edgeIdx, (R i = true ∨ x i = true) ∧ Y.seg i = some p} ∪
          {p | ∃ c ∈ l, ∃ i ∈ c.edgeIdx, (R i = true ∨ x i = true) ∧ Y.seg i = some p} := by
        ext p
        simp only [List.mem_cons, exists_eq_or_imp, Set.mem_ofPred_eq, Set.mem_union]
      rw [hset]
      refine ⟨h3.union h1, (Set.ncard_union_le _ _).trans ?_⟩
      rw [List.flatMap_cons, List.countP_append, List.countP_append, Nat.mul_add]
      omega
  obtain ⟨h1, h2⟩ := hall g.withEdges (List.Sublist.refl _)
  have hset : linesOf Y x R ⊆ {p | ∃ c ∈ g.withEdges, ∃ i ∈ c.edgeIdx, (R i = true ∨ x i = true) ∧ Y.seg i = some p} := by
    rintro p ⟨i, hi, h6, h7⟩
    rcases h6 with h6 | h6
    · obtain ⟨c, hc, hic⟩ := hin i h6
      exact ⟨c, hc, i, hic, .inl h6, h7⟩
    · rw [hlen] at hi
      have he := List.getElem?_eq_getElem hi
      have hen := hx i h6
      rw [enabledAt_get he] at hen
      obtain ⟨v, hv⟩ := List.exists_mem_of_ne_nil _ (hxv i _ h6 he)
      obtain ⟨-, hpart, -⟩ := C34_vertices h
      have hvl : v < r * stabs.length := by
        obtain ⟨qs, es, k, hB⟩ := mkSynGraph_built h
        exact hB.lt i v (by rw [vertsAt_get he]; exact hv)
      obtain ⟨k, ⟨c, hck, hvc⟩, -⟩ := hpart v hvl
      have hcm : c ∈ g.components := List.mem_of_getElem? hck
      have hok := compOk h hcm
      have hic : i ∈ c.edgeIdx := (hok.mem i).2 ⟨_, he, hen, v, hv, hvc⟩
      refine ⟨c, List.mem_filter.2 ⟨hcm, ?_⟩, i, hic, .inr h6, h7⟩
      have : c.edges ≠ [] := by
        intro h0
        have : c.edgeIdx = [] := by rw [← List.length_eq_zero_iff, ← hok.len, h0]; rfl
        rw [this] at hic; simp at hic
      simpa using this
  refine ⟨h1.subset hset, (Set.ncard_le_ncard hset h1).trans (h2.trans ?_)⟩
  have hnd : (g.withEdges.flatMap (·.edgeIdx)).Nodup := by
    rw [List.nodup_flatMap]
    exact ⟨fun c hc => (compOk h (hsub.subset hc)).enodup, ((comps_disjoint h).sublist hsub).imp fun hd i hi => hd i hi⟩
  have hmem : ∀ i ∈ g.withEdges.flatMap (·.edgeIdx), i < g.edges.length ∧ enabledAt g.edges i = true := by
    intro i hi
    obtain ⟨c, hc, hic⟩ := List.mem_flatMap.1 hi
    obtain ⟨e, he, hen, _⟩ := ((compOk h (hsub.subset hc)).mem i).1 hic
    exact ⟨(List.getElem?_eq_some_iff.1 he).1, by rw [enabledAt_get he]; exact hen⟩
  refine Nat.add_le_add (Nat.mul_le_mul_left K ?_) ?_
  · rw [List.countP_eq_length_filter, ← List.toFinset_card_of_nodup (hnd.filter _)]
    refine Finset.card_le_card fun i hi => ?_
    rw [List.mem_toFinset, List.mem_filter] at hi
    rw [Finset.mem_filter, Finset.mem_range]
    simp only [Bool.and_eq_true, Bool.not_eq_true'] at hi
    exact ⟨(hmem i hi.1).1, hi.2.1.1, hi.2.1.2, hi.2.2⟩
  · rw [List.countP_eq_length_filter, ← List.toFinset_card_of_nodup (hnd.filter _)]
    refine Finset.card_le_card fun i hi => ?_
    rw [List.mem_toFinset, List.mem_filter] at hi
    rw [Finset.mem_filter, Finset.mem_range]
    simp only [Bool.and_eq_true] at hi
    exact ⟨(hmem i hi.1).1, hi.2.1, (hmem i hi.1).2, hi.2.2⟩

end Plaquette
