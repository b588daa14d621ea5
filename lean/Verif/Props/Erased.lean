import Verif.Props.Decoder
import Verif.Lemmas.Rotated

/-!
# Erasures (C56)
-/

namespace Plaquette

/-- **C56.** If the erased edges form clusters that are even or have a dangling edge, cluster growth returns exactly the erased edges. -/
theorem C56_growth {g : UGraph} (hg : g.Valid) {erasure : List Nat} (her : ∀ i ∈ erasure, i < g.edges.length) {syn : List Bool}
    (hlen : syn.length = g.n) (h : Correctable g.n g.edges (· ∈ erasure) syn) :
    ∃ sel, g.unionFind erasure syn = .ok sel ∧ ∀ i, i ∈ sel ↔ i ∈ erasure :=
  unionFind_erasure hg.graph hg.max her hlen (correctable_iff.1 h)

/-- **C56.** If some of the erased edges explain the syndrome, then the correction of union find consists of erased edges. -/
theorem C56_decode {n : Nat} {edges : List (List Nat)} (hg : IsDecodingGraph n edges) {support : Bool} {c : ℚ} (hc : 0 ≤ c)
    {weights : Option (List ℚ)} (hw : WeightsOk support edges.length weights) {erasure : List Nat} (her : ∀ i ∈ erasure, i < edges.length)
    {syn : List Bool} (hlen : syn.length = n) {x : List Bool} (hx : ∀ i, x[i]? = some true → i ∈ erasure) (h : Explains n edges x syn) :
    ∃ corr, unionFindDecode support n edges c weights erasure syn = .ok corr ∧ Explains n edges corr syn ∧
      ∀ i, corr[i]? = some true → i ∈ erasure := by
  have hcor := C35_explained_correctable hg hx h
  obtain ⟨p, h1, h2⟩ := ufWeights_ok hc hw
  obtain ⟨sel, h3, h4⟩ := C56_growth (g := ⟨n, edges, p.1, p.2⟩) ⟨hg, fun i hi => (h2 i hi).1, fun i hi => (h2 i hi).2⟩ her hlen hcor
  obtain ⟨corr, h6, h7, h8⟩ := C35_peeling hg (fun i hi => her i ((h4 i).1 hi)) hlen (by simpa only [h4] using hcor)
  refine ⟨corr, ?_, h8, fun i hi => (h4 i).1 (h7 i hi)⟩
  unfold unionFindDecode
  simp only [checkUEdge_of hg, h1, h3]
  exact h6

variable {W σ : Type} {n : Nat} [LinearOrder W] {isInf : W → Bool} {r : Nat} {stabs : List (Op n)} {w : Option (Weights W)} {g : SynGraph W}

/-- The decoders of the components use erased edges only, if erased edges are enough. -/
def Confined (b : Backend W σ) (g : SynGraph W) (states : List σ) : Prop :=
  ∀ (k : Nat) (c : Component W) (s : σ), g.withEdges[k]? = some c → states[k]? = some s →
    ∀ er syn corr, er.length = c.edges.length → syn.length = c.nVertices →
      Correctable c.nVertices c.edges (fun j => er[j]? = some true) syn → b.decode s er syn = .ok corr →
      ∀ j : Nat, corr[j]? = some true → er[j]? = some true

/-- What `decode` has done when it returns. -/
theorem decode_inv (h : mkSynGraph isInf r stabs w = .ok g) {b : Backend W σ} {states : List σ} {erased syn : Option (List (List Bool))} {p : Op n}
    (hp : decode b g n states erased syn = .ok p) :
    ∃ er sy rs, arrayOr r n erased = .ok er ∧ arrayOr r stabs.length syn = .ok sy ∧ (∀ c ∈ g.components, Decodable c (vertexSyndrome g sy)) ∧
      mapLoop (decodeOne b g er sy) (g.withEdges.zip states) = .ok rs ∧ pauliFrame g n (updateResults rs) = .ok p := by
  obtain ⟨qs, es, k, hB⟩ := mkSynGraph_built h
  unfold decode decodeAll at hp
  rw [hB.nRounds, hB.nQubits, hB.nStab] at hp
  cases he : arrayOr r n erased with
  | error e => simp only [he] at hp; cases hp
  | ok er =>
  cases hs : arrayOr r stabs.length syn with
  | error e => simp only [he, hs] at hp; cases hp
  | ok sy =>
  simp only [he, hs] at hp
  rcases checkAll_spec h (vertexSyndrome g sy) with ⟨h1, h2⟩ | ⟨h1, h2⟩
  · simp only [h2] at hp
    cases hm : mapLoop (decodeOne b g er sy) (g.withEdges.zip states) with
    | error e => simp only [hm] at hp; cases hp
    | ok rs => simp only [hm] at hp; exact ⟨er, sy, rs, rfl, rfl, h1, hm, hp⟩
  · simp only [h2] at hp; cases hp

/-- Edges that explain the syndrome of the graph explain the syndrome of each component. -/
theorem explains_component (h : mkSynGraph isInf r stabs w = .ok g) {x syn : Nat → Bool} (hx : ∀ i, x i = true → enabledAt g.edges i = true)
    (hb : ∀ v, v < r * stabs.length → bd g.verts x v = syn v) {c : Component W} (hc : c ∈ g.components) :
    Explains c.nVertices c.edges (c.edgeIdx.map x) (c.vertexIdx.map syn) := by
  have hok := compOk h hc
  have hlen : g.verts.length = g.edges.length := by simp [SynGraph.verts]
  refine ⟨by rw [List.length_map, hok.len], fun u hu => ?_⟩
  have hcx : c.edgeIdx.map x = (List.range c.edges.length).map fun j => (c.edgeIdx.map x).getD j false := by
    refine List.ext_getElem (by rw [List.length_map, List.length_map, List.length_range, hok.len]) fun i h1 h2 => ?_
    have h3 : i < c.edgeIdx.length := by rw [List.length_map] at h1; exact h1
    simp [List.getD_eq_getElem?_getD, h3]
  have hu' : u < c.vertexIdx.length := hu
  have hvl := ((C34_vertices h).1 c hc).2.2 _ (List.getElem_mem hu')
  have hvc : c.vertexIdx[u] ∈ c.vertexIdx := List.getElem_mem hu'
  have hsy : (c.vertexIdx.map syn)[u]? = some (syn c.vertexIdx[u]) := synAt_map c syn hu
  rw [hcx, ← bd_odd, hsy, Option.some.injEq, ← hb _ hvl]
  refine Bool.eq_iff_iff.1 ?_
  unfold bd
  conv_rhs => rw [hlen]
  rw [xsum_subset (l := List.range g.edges.length) List.nodup_range hok.enodup (fun i hi => by
      obtain ⟨e, he, _⟩ := (hok.mem i).1 hi
      exact List.mem_range.2 (List.getElem?_eq_some_iff.1 he).1) (fun i _ hi => by
      by_contra hcon
      obtain ⟨h1, h2⟩ := Bool.and_eq_true_iff.1 (by simpa using hcon : (x i && touches g.verts i c.vertexIdx[u]) = true)
      have hen := hx i h1
      cases he : g.edges[i]? with
      | none => simp [enabledAt, he] at hen
      | some e =>
        rw [enabledAt_get he] at hen
        rw [touches_some (verts_get he)] at h2
        exact hi ((hok.mem i).2 ⟨e, he, hen, _, of_decide_eq_true h2, hvc⟩))]
  conv_rhs => rw [← range_getD c.edgeIdx, xsum_map, ← hok.len]
  refine xsum_congr fun j hj => ?_
  have hjl : j < c.edgeIdx.length := by rw [← hok.len]; exact List.mem_range.1 hj
  have hji := List.getElem?_eq_getElem hjl
  have hgd : c.edgeIdx.getD j 0 = c.edgeIdx[j] := by rw [List.getD_eq_getElem?_getD, hji]; rfl
  have hxd : (c.edgeIdx.map x).getD j false = x c.edgeIdx[j] := by rw [List.getD_eq_getElem?_getD, List.getElem?_map, hji]; rfl
  rw [hgd]
  simp only [hxd]
  obtain ⟨e, he, _⟩ := (hok.mem _).1 (List.getElem_mem hjl)
  obtain ⟨h1, h2⟩ := hok.get j _ e hji he
  rw [touches_some (verts_get he), touches_some h1]
  congr 1
  refine decide_eq_decide.2 ?_
  rw [List.mem_map]
  constructor
  · rintro ⟨y, hy1, hy2⟩
    have : y = c.vertexIdx[u] := by
      have hlt := List.idxOf_lt_length_of_mem (h2 y hy1)
      have := List.getElem_idxOf hlt
      simp only [hy2] at this
      exact this.symm
    rw [← this]; exact hy1
  · intro hve; exact ⟨_, hve, hok.vnodup.idxOf_getElem _ _⟩

omit [LinearOrder W] in
theorem edgeErased_iff {erased : Option (List (List Bool))} {er : List (List Bool)}
    (hbit : ∀ t q, at2 er t q = true ↔ SynBit erased t q) (i : Nat) :
    edgeErased g er i = true ↔ ∃ (e : SEdge W) (t o q : Nat) (b : Bool), g.edges[i]? = some e ∧ e.kind = .qubit t o q b ∧ SynBit erased t q := by
  unfold edgeErased
  cases he : g.edges[i]? with
  | none => simp
  | some e =>
    cases hk : e.kind with
    | qubit t o q b =>
      simp only [Option.map_some, hk, Option.some.injEq]
      rw [hbit]
      constructor
      · intro hh; exact ⟨e, t, o, q, b, rfl, hk, hh⟩
      · rintro ⟨e', t', o', q', b', rfl, hk', hh⟩
        rw [hk] at hk'
        cases hk'
        exact hh
    | stab t s =>
      simp only [Option.map_some, hk, Option.some.injEq]
      constructor
      · intro hh; cases hh
      · rintro ⟨e', t', o', q', b', rfl, hk', _⟩
        rw [hk] at hk'; cases hk'

/-- Errors on erased qubits explain the syndrome: the edges of a selection stand for single-qubit errors on qubits that are erased in the
round of the edge, they are all enabled (`onlyEnabled`) or not, and an odd number of them ends at vertex `[t, s]` exactly if the bit is
set. -/
def ErasureExplains (onlyEnabled : Bool) (g : SynGraph W) (r m : Nat) (erased syn : Option (List (List Bool))) : Prop :=
  ∃ sel : Set Nat, (∀ i ∈ sel, ∃ (e : SEdge W) (t o q : Nat) (b : Bool), g.edges[i]? = some e ∧ (onlyEnabled = true → e.enabled = true) ∧
      e.kind = .qubit t o q b ∧ SynBit erased t q) ∧
    ∀ t < r, ∀ s < m, (Odd (Set.ncard {i | i ∈ sel ∧ ∃ e : SEdge W, g.edges[i]? = some e ∧ t * m + s ∈ e.vertices}) ↔ SynBit syn t s)

theorem letter_beq : ((Letter.Z == Letter.X) = false ∧ (Letter.Z == Letter.Y) = false) ∧ (Letter.X == Letter.Z) = false ∧ (Letter.X == Letter.Y) = false := by
  decide

theorem anti_Z (p : Op n) (q : Fin n) : anti p (singleOp false .Z q) = p.x q := by
  refine sgn_injective ?_
  rw [sgn_anti, Finset.prod_eq_single q]
  · congr 1; simp [antiBit, singleOp, letter_beq]
  · intro q' _ hq; simp [antiBit, singleOp, hq, sgn]
  · simp

theorem anti_X (p : Op n) (q : Fin n) : anti p (singleOp false .X q) = p.z q := by
  refine sgn_injective ?_
  rw [sgn_anti, Finset.prod_eq_single q]
  · congr 1; simp [antiBit, singleOp, letter_beq]
  · intro q' _ hq; simp [antiBit, singleOp, hq, sgn]
  · simp

/-- The core of C56. -/
theorem erased_core (h : mkSynGraph isInf r stabs w = .ok g) {b : Backend W σ} {states : List σ} (hb : Sound b g states) (hc : Confined b g states)
    {er sy : List (List Bool)} {rs : List (List Nat × List Bool)} (hrs : mapLoop (decodeOne b g er sy) (g.withEdges.zip states) = .ok rs)
    {x : Nat → Bool} (hx : ∀ i, x i = true → enabledAt g.edges i = true ∧ edgeErased g er i = true)
    (hbd : ∀ v, v < r * stabs.length → bd g.verts x v = vertexSyndrome g sy v) :
    ∀ i, updateResults rs i = true → edgeErased g er i = true := by
  have hsub : g.withEdges.Sublist g.components := List.filter_sublist
  have hone : ∀ q ∈ rs, ∃ c ∈ g.withEdges, q.1 = c.edgeIdx ∧ q.2.length = c.edgeIdx.length ∧
      ∀ (j i : Nat), c.edgeIdx[j]? = some i → q.2[j]? = some true → edgeErased g er i = true := by
    intro q hq
    obtain ⟨⟨c, st⟩, hcs, hq1⟩ := mapLoop_src hrs hq
    obtain ⟨k, hk⟩ := List.getElem?_of_mem hcs
    rw [List.getElem?_zip_eq_some] at hk
    have hcm := (mem_withEdges hk.1).1
    have hok := compOk h hcm
    unfold decodeOne at hq1
    cases hd : b.decode st (c.edgeIdx.map (edgeErased g er)) (c.vertexIdx.map (vertexSyndrome g sy)) with
    | error e => simp only [hd] at hq1; cases hq1
    | ok corr =>
      simp only [hd] at hq1
      split at hq1
      · rename_i hl
        cases hq1
        refine ⟨c, List.mem_of_getElem? hk.1, rfl, by rw [← hok.len]; exact hl, fun j i hj hjt => ?_⟩
        have hex := explains_component h (fun i hi => (hx i hi).1) hbd hcm
        have hcor := C35_explained_correctable (compGraph h hcm) (sel := fun j => (c.edgeIdx.map (edgeErased g er))[j]? = some true)
          (fun j hj => by
            rw [List.getElem?_map, Option.map_eq_some_iff] at hj ⊢
            obtain ⟨i, hi, hxi⟩ := hj
            exact ⟨i, hi, (hx i hxi).2⟩) hex
        have := hc k c st hk.1 hk.2 _ _ _ (by rw [List.length_map, hok.len]) (by rw [List.length_map]; rfl) hcor hd j hjt
        rw [List.getElem?_map, hj] at this
        simpa using this
      · cases hq1
  have hdis : rs.Pairwise (fun p q => ∀ i ∈ p.1, i ∉ q.1) := by
    have hkeys : rs.map (·.1) = g.withEdges.map (·.edgeIdx) := by
      obtain ⟨hl, hget⟩ := mapLoop_get hrs
      refine List.ext_getElem? fun k => ?_
      rw [List.getElem?_map, List.getElem?_map]
      cases hk : g.withEdges[k]? with
      | none =>
        have : rs[k]? = none := by
          rw [List.getElem?_eq_none_iff] at hk ⊢
          rw [hl, List.length_zip]; omega
        rw [this]; rfl
      | some c =>
        have hkl := (List.getElem?_eq_some_iff.1 hk).1
        have hkl' : k < states.length := by rw [hb.1]; exact hkl
        obtain ⟨q, hq1, hq2⟩ := hget k (c, states[k]) (by rw [List.getElem?_zip_eq_some]; exact ⟨hk, List.getElem?_eq_getElem hkl'⟩)
        rw [hq2, Option.map_some, Option.map_some]
        unfold decodeOne at hq1
        cases hd : b.decode states[k] (c.edgeIdx.map (edgeErased g er)) (c.vertexIdx.map (vertexSyndrome g sy)) with
        | error e => simp only [hd] at hq1; cases hq1
        | ok corr =>
          simp only [hd] at hq1
          split at hq1
          · cases hq1; rfl
          · cases hq1
    have h2 : (g.withEdges.map (·.edgeIdx)).Pairwise fun p q => ∀ i ∈ p, i ∉ q := List.pairwise_map.2 ((comps_disjoint h).sublist hsub)
    rw [← hkeys] at h2
    exact List.pairwise_map.1 h2
  intro i hi
  by_cases hmem : ∃ q ∈ rs, i ∈ q.1
  · obtain ⟨q, hq, hiq⟩ := hmem
    obtain ⟨c, hcm, h1, h2, h3⟩ := hone q hq
    have hok := compOk h (hsub.subset hcm)
    obtain ⟨j, hj⟩ := List.getElem?_of_mem hiq
    have hR : updateResults rs i = q.2.getD j false := by
      unfold updateResults
      exact updateResults_get rs _ hdis q hq (by rw [h1]; exact hok.enodup) (by rw [h1]; exact h2) hj
    rw [hR, List.getD_eq_getElem?_getD] at hi
    refine h3 j i (by rw [← h1]; exact hj) ?_
    revert hi
    cases q.2[j]? <;> simp
  · push Not at hmem
    have : updateResults rs i = false := updateResults_other rs _ hmem
    rw [this] at hi; cases hi

/-- **C56.** For every backend that uses erased edges only if they are enough: if the syndrome is explained by errors on erased qubits
whose edges are enabled, then the correction acts on no qubit that was not erased in any round. -/
theorem C56_confined (h : mkSynGraph isInf r stabs w = .ok g) {b : Backend W σ} {states : List σ} (hb : Sound b g states) (hc : Confined b g states)
    {erased syn : Option (List (List Bool))} (hex : ErasureExplains true g r stabs.length erased syn) {p : Op n}
    (hp : decode b g n states erased syn = .ok p) (q : Fin n) (hq : ∀ t < r, ¬ SynBit erased t q) : p.x q = false ∧ p.z q = false := by
  obtain ⟨er, sy, rs, he, hs, hd, hm, hfr⟩ := decode_inv h hp
  obtain ⟨er', he', hbe⟩ := arrayOr_ok (arrayOr_shape he)
  rw [he] at he'; cases he'
  obtain ⟨sy', hs', hbs⟩ := arrayOr_ok (arrayOr_shape hs)
  rw [hs] at hs'; cases hs'
  obtain ⟨sel, hen, hodd⟩ := hex
  classical
  have hcore := erased_core h hb hc hm (x := fun i => decide (i ∈ sel)) (fun i hi => by
      obtain ⟨e, t, o, q, b, h1, h2, h3, h4⟩ := hen i (of_decide_eq_true hi)
      exact ⟨by rw [enabledAt_get h1]; exact h2 rfl, (edgeErased_iff hbe i).2 ⟨e, t, o, q, b, h1, h3, h4⟩⟩) (fun v hv => by
      have hm0 : 0 < stabs.length := by
        by_contra h0
        have : stabs.length = 0 := by omega
        rw [this] at hv; simp at hv
      have hdm := Nat.div_add_mod v stabs.length
      have hml := Nat.mod_lt v hm0
      have hvt : v / stabs.length < r := Nat.div_lt_of_lt_mul (by rw [Nat.mul_comm]; exact hv)
      have hve : v = v / stabs.length * stabs.length + v % stabs.length := by rw [Nat.mul_comm]; exact hdm.symm
      refine Bool.eq_iff_iff.2 ?_
      rw [hve, bd_verts, vertexSyndrome_iff h hbs hml, ← hodd _ hvt _ hml]
      simp only [Set.mem_ofPred_eq, decide_eq_true_eq])
  obtain ⟨p', hp1, hp2⟩ := pauliFrame_spec (n := n) (edge_op_lt h) (updateResults rs)
  rw [hfr] at hp1; cases hp1
  have key : ∀ l : Letter, anti p (singleOp false l q) = false := by
    intro l
    rw [hp2]
    refine xsum_zero fun i _ => ?_
    by_contra hcon
    obtain ⟨h1, h2⟩ := Bool.and_eq_true_iff.1 (by simpa only [Bool.not_eq_false] using hcon)
    obtain ⟨e, t, o, q', b', h3, h4, h5⟩ := (edgeErased_iff hbe i).1 (hcore i h1)
    rcases edge_cases h h3 with ⟨t', o', l', ht', hl', hk', _, _⟩ | ⟨t', s', _, _, hk', _⟩
    · rw [h4] at hk'
      cases hk'
      have hne : l'.2 ≠ q := by
        rintro rfl
        exact hq t ht' h5
      rw [xsum_zero (fun o2 _ => ?_)] at h2
      · cases h2
      · unfold opIs
        rw [h3]
        by_cases ho : o = o2
        · subst ho
          have : opAnti (singleOp false l q) o = false := by
            unfold opAnti
            rw [hl']
            refine sgn_injective ?_
            show sgn (anti _ _) = _
            rw [sgn_anti]
            refine Finset.prod_eq_one fun j _ => ?_
            by_cases hj : j = q
            · subst hj; simp [antiBit, singleOp, Ne.symm hne, sgn]
            · simp [antiBit, singleOp, hj, sgn]
          rw [this]; simp
        · simp [h4, EdgeKind.op, ho]
    · rw [h4] at hk'; cases hk'
  exact ⟨by rw [← anti_Z]; exact key .Z, by rw [← anti_X]; exact key .X⟩

theorem uf_confined {isInf : FW → Bool} {w : Option (Weights FW)} {g : SynGraph FW} (h : mkSynGraph isInf r stabs w = .ok g) {support : Bool}
    {states : List UGraph} (hst : setupAll (ufBackend support) g = .ok states) : Confined (ufBackend support) g states := by
  obtain ⟨hl, hget⟩ := mapLoop_get hst
  intro k c s hk hs er syn corr her hsyn hcor hd j hj
  obtain ⟨G, hG, hG2⟩ := hget k c hk
  rw [hs] at hG2
  obtain rfl := Option.some.inj hG2
  obtain ⟨wt, p, h1, h2, rfl⟩ := ufSetup_ok hG
  have hgr := compGraph h (mem_withEdges hk).1
  obtain ⟨p', hp', hpos⟩ := ufWeights_ok (c := 2) (by norm_num) h2
  rw [h1] at hp'
  obtain rfl := Except.ok.inj hp'
  have hv : UGraph.Valid ⟨c.nVertices, c.edges, p.1, p.2⟩ := ⟨hgr, fun i hi => (hpos i hi).1, fun i hi => (hpos i hi).2⟩
  have hmem : ∀ i, i ∈ whereTrue er ↔ er[i]? = some true := by
    intro i
    unfold whereTrue
    rw [List.mem_filter, List.mem_range, List.getD_eq_getElem?_getD]
    constructor
    · rintro ⟨h3, h4⟩
      rw [List.getElem?_eq_getElem h3] at h4 ⊢
      simpa using h4
    · intro h3
      exact ⟨(List.getElem?_eq_some_iff.1 h3).1, by rw [h3]; rfl⟩
  have hw : ∀ i ∈ whereTrue er, i < c.edges.length := by
    intro i hi
    have := (List.mem_filter.1 hi).1
    rw [List.mem_range] at this; omega
  obtain ⟨sel, h3, h4⟩ := C56_growth hv hw hsyn (by simpa only [hmem] using hcor)
  obtain ⟨corr', h6, h7, h8⟩ := C35_peeling hgr (fun i hi => hw i ((h4 i).1 hi)) hsyn (sel := sel) (by simpa only [h4, hmem] using hcor)
  have h9 : ufDecode ⟨c.nVertices, c.edges, p.1, p.2⟩ er syn = .ok corr := hd
  unfold ufDecode at h9
  simp only [h3] at h9
  have h10 : erasureDecode c.nVertices c.edges sel (synAt syn) = .ok corr := h9
  rw [h6] at h10
  cases h10
  exact (hmem j).1 ((h4 j).1 (h7 j hj))

/-- C56: if errors on erased qubits explain the syndrome, then the correction of the union find decoder acts on erased qubits only. -/
def C56_statement : Prop :=
  ∀ (n r : Nat) (stabs : List (Op n)) (w : Option (Weights FW)) (g : SynGraph FW) (support : Bool) (states : List UGraph)
    (erased syn : Option (List (List Bool))) (p : Op n), mkSynGraph FW.isInf r stabs w = .ok g → setupAll (ufBackend support) g = .ok states →
    ErasureExplains false g r stabs.length erased syn → decode (ufBackend support) g n states erased syn = .ok p →
    ∀ q : Fin n, (∀ t < r, ¬ SynBit erased t q) → p.x q = false ∧ p.z q = false

/-- **C56**, without what fails: the edges of the errors that explain the syndrome have to be enabled. (Edges with infinite weights and
all but one of several parallel edges are disabled, and the erasure of a qubit with a disabled edge is lost.) -/
theorem C56_erased_partial {w : Option (Weights FW)} {g : SynGraph FW} (h : mkSynGraph FW.isInf r stabs w = .ok g) {support : Bool}
    {states : List UGraph} (hst : setupAll (ufBackend support) g = .ok states) {erased syn : Option (List (List Bool))}
    (her : ShapeOk r n erased) (hsyn : ShapeOk r stabs.length syn) (hex : ErasureExplains true g r stabs.length erased syn) :
    ∃ p : Op n, decode (ufBackend support) g n states erased syn = .ok p ∧
      ∀ q : Fin n, (∀ t < r, ¬ SynBit erased t q) → p.x q = false ∧ p.z q = false := by
  obtain ⟨h1, h2⟩ := uf_good h hst
  have hE : Explainable g r stabs.length syn := by
    obtain ⟨sel, h3, h4⟩ := hex
    refine ⟨sel, fun i hi => ?_, h4⟩
    obtain ⟨e, t, o, q, b, h5, h6, _⟩ := h3 i hi
    exact ⟨e, h5, h6 rfl⟩
  rcases C39_refused h h1 h2 her hsyn with ⟨_, p, h4⟩ | ⟨h3, _⟩
  · exact ⟨p, h4, C56_confined h h1 (uf_confined h hst) hex h4⟩
  · exact absurd hE h3

/-! ## The counterexample -/

/-- The product of the same Pauli operator on some qubits. -/
def lettersOn {n : Nat} (l : Letter) (qs : List (Fin n)) : Op n :=
  ⟨fun q => decide (q ∈ qs) && (l == .X || l == .Y), fun q => decide (q ∈ qs) && (l == .Z || l == .Y), false⟩

/-- The rotated planar code of size 3. -/
def rot3Code : StabCode 9 :=
  ⟨[lettersOn .X [0, 1, 3, 4], lettersOn .Z [1, 2, 4, 5], lettersOn .Z [3, 4, 6, 7], lettersOn .X [4, 5, 7, 8], lettersOn .X [1, 2],
    lettersOn .X [6, 7], lettersOn .Z [0, 3], lettersOn .Z [5, 8]], [lettersOn .X [0, 3, 6], lettersOn .Z [0, 1, 2]]⟩

/-- A code as lists of bits. -/
def StabCode.bits {n : Nat} (c : StabCode n) : List (List Bool × List Bool) :=
  (c.stabilisers ++ c.logicalOps).map fun o => (List.ofFn o.x, List.ofFn o.z)

set_option maxRecDepth 100000 in
/-- It is the code the library makes. -/
theorem rot3_made (r : Nat) : ∃ c, makeRotated r 3 false = .ok c ∧ c.code.bits = rot3Code.bits := by
  refine ⟨_, by
    rw [makeRotated, Rotated.make (by omega) diagOrder (by decide)]
    exact mkLatCode_ok (Rotated.wf diagOrder (by omega)) (Rotated.full diagOrder (by omega)) r, ?_⟩
  show (Rotated.lat 3 false diagOrder).code.bits = _
  decide +kernel

/-- The qubits 2 and 5 are erased. -/
def rot3Erased : List (List Bool) := [[false, false, true, false, false, true, false, false, false]]

/-- The syndrome of `X` errors on the qubits 2 and 5. -/
def rot3Syn : List (List Bool) := [[false, false, false, false, false, false, false, true]]

example : rot3Syn = [rot3Code.stabilisers.map fun s => commSign s (lettersOn .X [2, 5]) == 1] := by decide +kernel

/-- All that is used of the run. -/
def rot3Run : Bool :=
  match mkSynGraph FW.isInf 1 rot3Code.stabilisers none with
  | .error _ => false
  | .ok g =>
    match setupAll (ufBackend true) g with
    | .error _ => false
    | .ok states =>
      match decode (ufBackend true) g 9 states (some rot3Erased) (some rot3Syn) with
      | .error _ => false
      | .ok p =>
        (List.ofFn p.x == List.ofFn (lettersOn (n := 9) .X [8]).x) && (List.ofFn p.z == List.ofFn (lettersOn (n := 9) .X [8]).z) && !p.r &&
          decide ((g.edges[2]?).map SEdge.kind = some (.qubit 0 2 2 true)) &&
          decide ((g.edges[5]?).map SEdge.kind = some (.qubit 0 5 5 true)) &&
          (List.range 8).all fun v => bd g.verts (fun i => i == 2 || i == 5) v == at2 rot3Syn 0 v

set_option maxRecDepth 100000 in
theorem rot3Run_ok : rot3Run = true := by decide +kernel

theorem rot3_witness : ∃ g states, mkSynGraph FW.isInf 1 rot3Code.stabilisers none = .ok g ∧ setupAll (ufBackend true) g = .ok states ∧
    decode (ufBackend true) g 9 states (some rot3Erased) (some rot3Syn) = .ok (lettersOn .X [8]) ∧
    ErasureExplains false g 1 8 (some rot3Erased) (some rot3Syn) := by
  have h := rot3Run_ok
  unfold rot3Run at h
  cases hg : mkSynGraph FW.isInf 1 rot3Code.stabilisers none with
  | error e => simp only [hg] at h; cases h
  | ok g =>
  cases hs : setupAll (ufBackend true) g with
  | error e => simp only [hg, hs] at h; cases h
  | ok states =>
  cases hd : decode (ufBackend true) g 9 states (some rot3Erased) (some rot3Syn) with
  | error e => simp only [hg, hs, hd] at h; cases h
  | ok p =>
  simp only [hg, hs, hd, Bool.and_eq_true, decide_eq_true_eq, List.all_eq_true, List.mem_range, beq_iff_eq, List.ofFn_inj,
    Bool.not_eq_true'] at h
  obtain ⟨⟨⟨⟨⟨hx, hz⟩, hr⟩, h2⟩, h5⟩, hb⟩ := h
  obtain rfl : p = lettersOn .X [8] := Op.ext hx hz hr
  refine ⟨g, states, rfl, hs, hd, {i | (i == 2 || i == 5) = true}, fun i hi => ?_, fun t ht s hs => ?_⟩
  · rcases (by simpa using hi : i = 2 ∨ i = 5) with rfl | rfl
    · obtain ⟨e, he, hk⟩ := Option.map_eq_some_iff.1 h2
      exact ⟨e, 0, 2, 2, true, he, by simp, hk, _, _, rfl, rfl, rfl⟩
    · obtain ⟨e, he, hk⟩ := Option.map_eq_some_iff.1 h5
      exact ⟨e, 0, 5, 5, true, he, by simp, hk, _, _, rfl, rfl, rfl⟩
  · obtain rfl : t = 0 := by omega
    rw [← bd_verts (g := g) (fun i => i == 2 || i == 5), hb _ (by omega), Nat.zero_mul, Nat.zero_add]
    obtain ⟨l, hl, hl2⟩ := arrayOr_ok (r := 1) (m := 8) (a := some rot3Syn) (by rintro l h; cases h; decide)
    cases hl
    exact hl2 0 s

/-- **C56 is false**: on the rotated planar code of size 3 the qubits 2 and 5 are erased and flipped. The edge of qubit 2 is parallel to that
of qubit 1 and is disabled, so that the decoder does not know of its erasure, and corrects qubit 8 instead. -/
theorem C56_erased_counterexample : ¬ C56_statement := by
  intro h
  obtain ⟨g, states, h1, h2, h3, h4⟩ := rot3_witness
  have := (h 9 1 _ none g true states _ _ _ h1 h2 h4 h3 8 (by
    intro t ht
    obtain rfl : t = 0 := by omega
    rintro ⟨a, row, ha, hr, hb⟩
    cases ha
    cases hr
    simp at hb)).1
  exact absurd this (by decide)

/-- The consequence: what is left, `X` on the qubits 2, 5 and 8, commutes with all stabilisers and is not a product of stabilisers: it
anticommutes with a logical operator. Two erasures on a code of distance 3 are not corrected. -/
theorem C56_erased_failure : ∃ g states p, mkSynGraph FW.isInf 1 rot3Code.stabilisers none = .ok g ∧ setupAll (ufBackend true) g = .ok states ∧
    decode (ufBackend true) g 9 states (some rot3Erased) (some rot3Syn) = .ok p ∧
    (∀ s ∈ rot3Code.stabilisers, Commutes (opMat p * opMat (lettersOn .X [2, 5])) (opMat s)) ∧
    ∃ l ∈ rot3Code.logicalOps, ¬ Commutes (opMat p * opMat (lettersOn .X [2, 5])) (opMat l) := by
  obtain ⟨g, states, h1, h2, h3, -⟩ := rot3_witness
  refine ⟨g, states, _, h1, h2, h3, fun s hs => ?_, lettersOn .Z [0, 1, 2], by simp [rot3Code], ?_⟩
  · rw [← residual_iff, anticommutes_iff, anticommutes_iff]
    revert s
    decide +kernel
  · rw [← residual_iff, anticommutes_iff, anticommutes_iff]
    decide +kernel

/-! ## Examples -/

/-- All edges of a path are erased except the first one, and the second and third one are wrong. -/
example : Explains 5 examplePath [false, true, true, false, false] [false, true, false, true, false] ∧
    unionFindDecode true 5 examplePath 1 none [1, 2, 3] [false, true, false, true, false] = .ok [false, true, true, false, false] := by
  refine ⟨⟨rfl, fun v hv => ?_⟩, by decide +kernel⟩
  have := bd_odd (edges := examplePath) (fun i => [false, true, true, false, false].getD i false) v
  have hl : (List.range examplePath.length).map (fun i => [false, true, true, false, false].getD i false) = [false, true, true, false, false] := by decide
  rw [hl] at this
  rw [← this]
  clear this
  revert v
  decide +kernel

/-- The repetition code of size 3, the middle qubit is erased and flipped. -/
example : ∃ g states, mkSynGraph FW.isInf 1 rep3Stabs none = .ok g ∧ setupAll (ufBackend true) g = .ok states ∧
    ErasureExplains true g 1 rep3Stabs.length (some [[false, true, false]]) (some [[true, true]]) := by
  have h : (match mkSynGraph FW.isInf 1 rep3Stabs none with
    | .error _ => false
    | .ok g => (match setupAll (ufBackend true) g with | .ok _ => true | .error _ => false) &&
      decide ((g.edges[1]?).map (fun e => (e.kind, e.enabled)) = some (.qubit 0 1 1 true, true)) &&
      (List.range 2).all fun v => bd g.verts (fun i => i == 1) v == at2 [[true, true]] 0 v) = true := by decide +kernel
  cases hg : mkSynGraph FW.isInf 1 rep3Stabs none with
  | error e => simp only [hg] at h; cases h
  | ok g =>
  cases hs : setupAll (ufBackend true) g with
  | error e => simp only [hg, hs] at h; cases h
  | ok states =>
  simp only [hg, hs, Bool.and_eq_true, decide_eq_true_eq, List.all_eq_true, List.mem_range, beq_iff_eq, true_and] at h
  refine ⟨g, states, rfl, hs, {i | (i == 1) = true}, fun i hi => ?_, fun t ht s hs => ?_⟩
  · obtain rfl : i = 1 := by simpa using hi
    obtain ⟨e, he, hk⟩ := Option.map_eq_some_iff.1 h.1
    rw [Prod.mk.injEq] at hk
    exact ⟨e, 0, 1, 1, true, he, fun _ => hk.2, hk.1, _, _, rfl, rfl, rfl⟩
  · obtain rfl : t = 0 := by omega
    have hs : s < 2 := hs
    rw [← bd_verts (g := g) (fun i => i == 1), h.2 _ (by omega), Nat.zero_mul, Nat.zero_add]
    obtain ⟨l, hl, hl2⟩ := arrayOr_ok (r := 1) (m := 2) (a := some [[true, true]]) (by rintro l h; cases h; decide)
    cases hl
    exact hl2 0 s

end Plaquette
