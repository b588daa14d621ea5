import Verif.Lemmas.MatchingGood
import Verif.Lemmas.CorrectedCode
import Mathlib.Algebra.BigOperators.Fin

/-!
# Lightest explanations in the whole syndrome graph
-/

namespace Plaquette
variable {W σ : Type} [LinearOrder W] {n r : Nat} {stabs : List (Op n)} {isInf : W → Bool} {w : Option (Weights W)} {g : SynGraph W}

/-! ## What the whole decoder does -/

/-- The decoders of the components find lightest explanations, for weights that may depend on what is erased. -/
def Light (b : Backend W σ) (g : SynGraph W) (states : List σ) (wt : Component W → List Bool → Nat → ℚ) : Prop :=
  ∀ (k : Nat) (c : Component W) (s : σ), g.withEdges[k]? = some c → states[k]? = some s →
    ∀ er syn corr, er.length = c.edges.length → syn.length = c.nVertices → b.decode s er syn = .ok corr →
      IsLightest c.nVertices c.edges (wt c er) corr syn

omit [LinearOrder W] in
theorem Light.sound {b : Backend W σ} {states : List σ} {wt : Component W → List Bool → Nat → ℚ} (h : Light b g states wt)
    (hl : states.length = g.withEdges.length) : Sound b g states :=
  ⟨hl, fun k c s hk hs er syn corr h1 h2 h3 => (h k c s hk hs er syn corr h1 h2 h3).1⟩

theorem totalWeight_map {l : List Nat} {w : Nat → ℚ} {W : Nat → ℚ} {x : Nat → Bool} (h : ∀ j i : Nat, l[j]? = some i → w j = W i) :
    totalWeight w (l.map x) = (l.map fun i => if x i = true then W i else 0).sum := by
  unfold totalWeight
  rw [List.length_map, Finset.sum_range, ← Fin.sum_univ_fun_getElem]
  refine Finset.sum_congr rfl fun j _ => ?_
  rw [List.getElem?_map, List.getElem?_eq_getElem j.2, h j _ (List.getElem?_eq_getElem j.2)]
  simp

theorem xsum_odd {m : Nat} {f : Nat → Bool} {S : Set Nat} (hS : ∀ i, i ∈ S ↔ i < m ∧ f i = true) :
    xsum (List.range m) f = true ↔ Odd S.ncard := by
  rw [xsum_ncard]
  have : {t | t < m ∧ f t = true} = S := by ext i; exact (hS i).symm
  rw [this]

theorem anti_single_letter (a b : Letter) (q q' : Fin n) (ha : a = if a == .X then .X else .Z) :
    anti (singleOp false a q) (singleOp false (if b == .X then .Z else .X) q') = true ↔ q = q' ∧ (a == .X) = (b == .X) := by
  have h0 : anti (singleOp false a q) (singleOp false (if b == .X then .Z else .X) q') =
      if b == .X then (singleOp false a q).x q' else (singleOp false a q).z q' := by
    split
    · rw [anti_Z]
    · rw [anti_X]
  rw [h0]
  by_cases hq : q' = q
  · subst hq
    have : a ≠ .Y := by rintro rfl; revert ha; decide
    cases a <;> cases b <;> first | exact absurd rfl this | simp [singleOp] | skip
    all_goals decide
  · have : q ≠ q' := fun h => hq h.symm
    simp [singleOp, hq, this]

/-- The product of the errors of the edges. -/
theorem frame_product (h : mkSynGraph isInf r stabs w = .ok g) {res : Nat → Bool} {p : Op n} (hp : pauliFrame g n res = .ok p) :
    EdgesProduct g ((Finset.range g.edges.length).filter fun i => res i = true) p := by
  obtain ⟨p1, hp1, hp2⟩ := pauliFrame_spec (n := n) (edge_op_lt h) res
  rw [hp] at hp1; cases hp1
  have key : ∀ (q : Fin n) (b : Letter), (anti p (singleOp false (if b == .X then .Z else .X) q) = true ↔
      Odd (Set.ncard {i | i ∈ ((Finset.range g.edges.length).filter fun i => res i = true) ∧
        ∃ (e : SEdge W) (t o : Nat), g.edges[i]? = some e ∧ e.kind = .qubit t o q (b == .X)})) := by
    intro q b
    rw [hp2]
    refine xsum_odd fun i => ?_
    rw [Set.mem_ofPred_eq, Finset.mem_filter, Finset.mem_range, Bool.and_eq_true, and_assoc]
    refine and_congr_right fun hi => and_congr_right fun _ => ?_
    have hie := List.getElem?_eq_getElem hi
    show _ ↔ edgeAnti g (singleOp false (if b == .X then .Z else .X) q) i = true
    rcases edge_cases h hie with ⟨t, o, l, _, hl, hkd, _⟩ | ⟨t, s, _, _, hkd, _⟩
    · rw [edgeAnti_qubit hie hkd (qubit_idx h hie hkd).2.2, opAnti, hl]
      show _ ↔ anti (singleOp false l.1 l.2) _ = true
      rw [anti_single_letter _ _ _ _ (errorOps_idx hl).2]
      constructor
      · rintro ⟨e, t', o', he, hk⟩
        rw [hie] at he; cases he
        rw [hkd, EdgeKind.qubit.injEq] at hk
        exact ⟨Fin.ext hk.2.2.1, hk.2.2.2⟩
      · rintro ⟨h1, h2⟩
        exact ⟨_, t, o, hie, by rw [hkd, h1, h2]⟩
    · rw [edgeAnti_stab hie hkd]
      simp only [Bool.false_eq_true, iff_false]
      rintro ⟨e, t', o, he, hk⟩
      rw [hie] at he; cases he
      rw [hkd] at hk; cases hk
  exact fun q => ⟨by rw [← anti_Z]; exact key q .X, by rw [← anti_X]; exact key q .Z⟩

/-- An enabled edge that ends somewhere is in one of the components. -/
theorem exists_comp (h : mkSynGraph isInf r stabs w = .ok g) {i : Nat} {e : SEdge W} (he : g.edges[i]? = some e) (hen : e.enabled = true)
    (hv : e.vertices ≠ []) : ∃ c ∈ g.withEdges, i ∈ c.edgeIdx := by
  obtain ⟨v, hv⟩ := List.exists_mem_of_ne_nil _ hv
  obtain ⟨-, hpart, -⟩ := C34_vertices h
  have hvl : v < r * stabs.length := by
    obtain ⟨qs, es, k, hB⟩ := mkSynGraph_built h
    exact hB.lt i v (by rw [vertsAt_get he]; exact hv)
  obtain ⟨k, ⟨c, hck, hvc⟩, -⟩ := hpart v hvl
  have hcm : c ∈ g.components := List.mem_of_getElem? hck
  have hok := compOk h hcm
  have hic : i ∈ c.edgeIdx := (hok.mem i).2 ⟨_, he, hen, v, hv, hvc⟩
  refine ⟨c, List.mem_filter.2 ⟨hcm, ?_⟩, hic⟩
  have : c.edges ≠ [] := by
    intro h0
    have : c.edgeIdx = [] := by rw [← List.length_eq_zero_iff, ← hok.len, h0]; rfl
    rw [this] at hic; simp at hic
  simpa using this

/-- Sums over edges, component by component. -/
theorem sum_comps (h : mkSynGraph isInf r stabs w = .ok g) {x : Nat → Bool} {sel : Finset Nat} (hx : ∀ i, i ∈ sel ↔ x i = true)
    (hin : ∀ i, x i = true → ∃ c ∈ g.withEdges, i ∈ c.edgeIdx) (wt : Nat → ℚ) :
    ∑ i ∈ sel, wt i = (g.withEdges.map fun c => (c.edgeIdx.map fun i => if x i = true then wt i else 0).sum).sum := by
  have hsub : g.withEdges.Sublist g.components := List.filter_sublist
  have hnd : (g.withEdges.flatMap (·.edgeIdx)).Nodup := by
    rw [List.nodup_flatMap]
    exact ⟨fun c hc => (compOk h (hsub.subset hc)).enodup, ((comps_disjoint h).sublist hsub).imp fun hd i hi => hd i hi⟩
  have h1 : (g.withEdges.map fun c => (c.edgeIdx.map fun i => if x i = true then wt i else 0).sum).sum =
      ((g.withEdges.flatMap (·.edgeIdx)).map fun i => if x i = true then wt i else 0).sum := by
    induction g.withEdges with
    | nil => rfl
    | cons c l ih => rw [List.map_cons, List.sum_cons, ih, List.flatMap_cons, List.map_append, List.sum_append]
  rw [h1, ← List.sum_toFinset _ hnd, ← Finset.sum_filter]
  refine Finset.sum_congr ?_ fun _ _ => rfl
  ext i
  rw [Finset.mem_filter, List.mem_toFinset, List.mem_flatMap, hx]
  exact ⟨fun hi => ⟨hin i hi, hi⟩, fun hi => hi.2⟩

theorem bd_of_edges (h : mkSynGraph isInf r stabs w = .ok g) {syn : Option (List (List Bool))} {sy : List (List Bool)}
    (hbs : ∀ t s, at2 sy t s = true ↔ SynBit syn t s) {x : Nat → Bool} :
    (∀ t < r, ∀ s < stabs.length, (Odd (Set.ncard {i | x i = true ∧ ∃ e : SEdge W, g.edges[i]? = some e ∧ t * stabs.length + s ∈ e.vertices}) ↔
      SynBit syn t s)) ↔ ∀ v, v < r * stabs.length → bd g.verts x v = vertexSyndrome g sy v := by
  constructor
  · intro hodd v hv
    have hm0 : 0 < stabs.length := by
      by_contra h0
      have : stabs.length = 0 := by omega
      rw [this] at hv; simp at hv
    have hdm := Nat.div_add_mod v stabs.length
    have hml := Nat.mod_lt v hm0
    have hvt : v / stabs.length < r := Nat.div_lt_of_lt_mul (by rw [Nat.mul_comm]; exact hv)
    have hve : v = v / stabs.length * stabs.length + v % stabs.length := by rw [Nat.mul_comm]; exact hdm.symm
    refine Bool.eq_iff_iff.2 ?_
    rw [hve, bd_verts, vertexSyndrome_iff h hbs hml, ← hodd _ hvt _ hml]
    simp only [Set.mem_ofPred_eq]
  · intro hbd t ht s hs
    have hv : t * stabs.length + s < r * stabs.length := by
      calc t * stabs.length + s < t * stabs.length + stabs.length := by omega
        _ = (t + 1) * stabs.length := by rw [Nat.add_mul, Nat.one_mul]
        _ ≤ r * stabs.length := Nat.mul_le_mul_right _ ht
    rw [← vertexSyndrome_iff h hbs hs, ← hbd _ hv, bd_verts]
    simp only [Set.mem_ofPred_eq]

/-- If the decoders of the components find lightest explanations, then so does the whole decoder. -/
theorem light_total (h : mkSynGraph isInf r stabs w = .ok g) {b : Backend W σ} {states : List σ} {wt : Component W → List Bool → Nat → ℚ}
    (hL : Light b g states wt) (hst : states.length = g.withEdges.length) {erased syn : Option (List (List Bool))} {p : Op n}
    (hp : decode b g n states erased syn = .ok p) {er : List (List Bool)} (her : arrayOr r n erased = .ok er) (Wg : Nat → ℚ)
    (hW : ∀ c ∈ g.components, ∀ j i : Nat, c.edgeIdx[j]? = some i → wt c (c.edgeIdx.map (edgeErased g er)) j = Wg i) :
    ∃ sel, EdgesExplain g r stabs.length sel syn ∧ EdgesProduct g sel p ∧
      ∀ sel', EdgesExplain g r stabs.length sel' syn → ∑ i ∈ sel, Wg i ≤ ∑ i ∈ sel', Wg i := by
  classical
  obtain ⟨er', sy, rs, he, hs, hd, hm, hfr⟩ := decode_inv h hp
  rw [her] at he; cases he
  obtain ⟨sy', hs', hbs⟩ := arrayOr_ok (arrayOr_shape hs)
  rw [hs] at hs'; cases hs'
  obtain ⟨hres, hin⟩ := results_src h hm hst
  have hbd := decode_core h (hL.sound hst) hd hm
  have hsel : ∀ i, i ∈ ((Finset.range g.edges.length).filter fun i => updateResults rs i = true) ↔ updateResults rs i = true := by
    intro i
    rw [Finset.mem_filter, Finset.mem_range]
    refine ⟨fun hi => hi.2, fun hi => ⟨?_, hi⟩⟩
    obtain ⟨c, hc, hic⟩ := hin i hi
    obtain ⟨e, hie, _⟩ := ((compOk h (List.mem_filter.1 hc).1).mem i).1 hic
    exact (List.getElem?_eq_some_iff.1 hie).1
  refine ⟨_, ⟨fun i hi => ?_, ?_⟩, frame_product h hfr, fun sel' hsel' => ?_⟩
  · obtain ⟨c, hc, hic⟩ := hin i ((hsel i).1 hi)
    obtain ⟨e, hie, hen, v, hv, _⟩ := ((compOk h (List.mem_filter.1 hc).1).mem i).1 hic
    exact ⟨e, hie, hen, fun h0 => by rw [h0] at hv; cases hv⟩
  · simp only [hsel]
    exact (bd_of_edges h hbs).2 hbd
  · have hin' : ∀ i, decide (i ∈ sel') = true → ∃ c ∈ g.withEdges, i ∈ c.edgeIdx := by
      intro i hi
      obtain ⟨e, h1, h2, h3⟩ := hsel'.1 i (of_decide_eq_true hi)
      exact exists_comp h h1 h2 h3
    have hbd' := (bd_of_edges (x := fun i => decide (i ∈ sel')) h hbs).1 (by simpa only [decide_eq_true_eq] using hsel'.2)
    have hen' : ∀ i, decide (i ∈ sel') = true → enabledAt g.edges i = true := by
      intro i hi
      obtain ⟨e, h1, h2, _⟩ := hsel'.1 i (of_decide_eq_true hi)
      rw [enabledAt_get h1]; exact h2
    rw [sum_comps h hsel hin, sum_comps h (x := fun i => decide (i ∈ sel')) (fun i => by simp) hin']
    refine List.sum_le_sum fun c hc => ?_
    obtain ⟨k, hk⟩ := List.getElem?_of_mem hc
    have hcm := (mem_withEdges hk).1
    have hok := compOk h hcm
    obtain ⟨st, corr, h1, h2, h3⟩ := hres k c hk
    obtain ⟨h4, h5⟩ := hL k c st hk h1 _ _ corr (by rw [List.length_map, hok.len]) (by rw [List.length_map]; rfl) h2
    have h6 : corr = c.edgeIdx.map (updateResults rs) := by
      refine List.ext_getElem (by rw [h4.1, List.length_map, hok.len]) fun j hj1 hj2 => ?_
      rw [List.length_map] at hj2
      rw [List.getElem_map, h3 j _ (List.getElem?_eq_getElem hj2), List.getD_eq_getElem?_getD, List.getElem?_eq_getElem hj1]
      rfl
    have := h5 _ (explains_component h hen' hbd' hcm)
    rw [h6, totalWeight_map (hW c hcm), totalWeight_map (hW c hcm)] at this
    exact this

end Plaquette
