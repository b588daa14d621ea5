import Verif.Lemmas.Corrected
import Verif.Lemmas.LineLattice

/-!
# Few faults are corrected: lattice codes and union find
-/

namespace Plaquette
variable {n : Nat} {W σ : Type} [LinearOrder W] {isInf : W → Bool} {r : Nat} {stabs : List (Op n)} {w : Option (Weights W)} {g : SynGraph W} {d : Nat}

/-- Without weights the union find decoders of all components can be set up. -/
theorem uf_setup {isInf : FW → Bool} {g : SynGraph FW} (h : mkSynGraph isInf r stabs none = .ok g) (support : Bool) :
    ∃ states, setupAll (ufBackend support) g = .ok states := by
  refine mapLoop_ok_iff.2 fun c hc => ?_
  have hcm : c ∈ g.components := (List.mem_filter.1 hc).1
  have hwt : c.weights.all (·.isNone) = true := by
    rw [List.all_eq_true]
    intro y hy
    obtain ⟨j, hj⟩ := List.getElem?_of_mem hy
    obtain ⟨h1, h2, h3⟩ := C34_copy h hcm
    have hjl : j < c.edgeIdx.length := by rw [← h2]; exact (List.getElem?_eq_some_iff.1 hj).1
    obtain ⟨e, he, _⟩ := ((compOk h hcm).mem _).1 (List.getElem_mem hjl)
    obtain ⟨l, _, _, h6⟩ := h3 j _ e (List.getElem?_eq_getElem hjl) he
    rw [hj, Option.some.injEq] at h6
    have h7 : e.weight = none := C33_weights h e (List.mem_of_getElem? he)
    rw [h6, h7]; rfl
  have h0 : ufBackendWeights c.weights = .ok none := by
    simp only [ufBackendWeights, isWeighted, hwt, if_true]
  refine ⟨⟨c.nVertices, c.edges, fun _ => 2, fun _ => 1⟩, ?_⟩
  show ufSetup support c = _
  unfold ufSetup
  simp only [checkUEdge_of (compGraph h hcm), h0, ufWeights]

/-- If no weight is infinite, enabled edges can explain every syndrome that faults show. -/
theorem shows_explainable_finite {f : Faults n} {syn : Option (List (List Bool))} (hf : f.Shows r stabs syn)
    (h : mkSynGraph isInf r stabs w = .ok g) (hfin : AllFinite isInf g) (hsyn : ShapeOk r stabs.length syn) : Explainable g r stabs.length syn := by
  obtain ⟨qs, es, k, hB⟩ := mkSynGraph_built h
  obtain ⟨sy, _, hbit⟩ := arrayOr_ok hsyn
  have hbd0 := hf.bd h hbit
  have hlen : g.verts.length = g.edges.length := by simp [SynGraph.verts]
  have hbdx : ∀ v, v < r * stabs.length → bd g.verts (repEdge g (f.edge g)) v = vertexSyndrome g sy v := by
    intro v hv
    rw [← hbd0 v hv]
    unfold bd
    rw [hlen]
    refine repEdge_sum_finite h hfin (fun j e _ hje hv => ?_) (fun j e _ hje hv i e' hie hv' _ => ?_)
    · rw [touches_some (verts_get hje), hv]; simp
    · rw [touches_some (verts_get hje), touches_some (verts_get hie), hv']
  refine ⟨{i | i < g.edges.length ∧ repEdge g (f.edge g) i = true}, ?_, ?_⟩
  · rintro i ⟨hi, hx⟩
    exact ⟨_, List.getElem?_eq_getElem hi, (repEdge_true (List.getElem?_eq_getElem hi) hx).1⟩
  · intro t ht s hs
    have hv : t * stabs.length + s < r * stabs.length := by
      have : (t + 1) * stabs.length ≤ r * stabs.length := Nat.mul_le_mul_right _ ht
      rw [Nat.add_mul] at this; omega
    rw [← hbit]
    have h1 := hbdx _ hv
    have h2 : vertexSyndrome g sy (t * stabs.length + s) = at2 sy t s := by
      unfold vertexSyndrome
      rw [hB.nStab]
      have hm : 0 < stabs.length := by omega
      rw [Nat.mul_comm, Nat.mul_add_div hm, Nat.div_eq_of_lt hs, Nat.mul_add_mod, Nat.mod_eq_of_lt hs, Nat.add_zero]
    rw [← h2, ← h1, bd_odd]
    have : ∀ (A B : Set Nat), A = B → (Odd A.ncard ↔ Odd B.ncard) := by rintro A _ rfl; rfl
    refine this _ _ ?_
    ext i
    simp only [Set.mem_ofPred_eq, hlen, List.getElem?_map]
    constructor
    · rintro ⟨⟨hi, hx⟩, e, he, hm⟩
      exact ⟨by rw [List.getElem?_range hi]; simpa using hx, e.vertices, verts_get he, hm⟩
    · rintro ⟨hx, vs, hvs, hm⟩
      have hi : i < g.edges.length := by rw [← hlen]; exact (List.getElem?_eq_some_iff.1 hvs).1
      rw [List.getElem?_range hi] at hx
      have h3 := verts_get (List.getElem?_eq_getElem hi)
      rw [h3] at hvs
      cases hvs
      exact ⟨⟨hi, by simpa using hx⟩, _, List.getElem?_eq_getElem hi, hm⟩

/-- Without weights, enabled edges can explain every syndrome that faults show. -/
theorem shows_explainable {f : Faults n} {syn : Option (List (List Bool))} (hf : f.Shows r stabs syn)
    (h : mkSynGraph isInf r stabs none = .ok g) (hsyn : ShapeOk r stabs.length syn) : Explainable g r stabs.length syn :=
  shows_explainable_finite hf h (allFinite_none h) hsyn

/-- The logical operators of a lattice that are lines of a system of `d` parallel lines. -/
def Lattice.HasLines (L : Lattice) (d : Nat) (v : Pos) : Prop :=
  ∃ (D : L.Lines d) (k : Nat), k < d ∧ ∀ c, anti (L.vop v) c = anti (D.lineOp k) c

/-- Anticommutation in words. -/
theorem corrected_iff {f : Faults n} {l p : Op n} : (Anticommutes (opMat l) (opMat p) ↔
    Odd (Set.ncard {t | t < r ∧ Anticommutes (opMat l) (opMat (f.data t))})) ↔ anti p l = xsum (List.range r) fun t => anti (f.data t) l := by
  have h1 : {t | t < r ∧ Anticommutes (opMat l) (opMat (f.data t))} = (((List.range r).filter fun t => anti (f.data t) l).toFinset : Set Nat) := by
    ext t
    simp only [Set.mem_ofPred_eq, List.coe_toFinset, List.mem_filter, List.mem_range]
    rw [anticommutes_iff, anti_symm]
  rw [h1, Set.ncard_coe_finset, List.toFinset_card_of_nodup (List.nodup_range.filter _), Nat.odd_iff, ← xsum_eq_odd, anticommutes_iff, anti_symm]
  exact Bool.eq_iff_iff.symm

/-- Few faults are corrected on a lattice with many parallel lines. -/
theorem Lattice.Wf.corrected {L : Lattice} (hw : L.Wf) {isInf : FW → Bool} {g : SynGraph FW} (h : mkSynGraph isInf r L.code.stabilisers none = .ok g)
    {σ : Type} {b : Backend FW σ} {states : List σ} (hb : Sound b g states) {K : Nat} (hK : 2 ≤ K) (hS : Short K b g states) {f : Faults L.dataqubits.length}
    {erased syn : Option (List (List Bool))} (hf : f.Shows r L.code.stabilisers syn)
    (hen : ∀ (i : Nat) (e : SEdge FW) (t o q : Nat) (b : Bool), g.edges[i]? = some e → e.kind = .qubit t o q b → SynBit erased t q → e.vertices ≠ [] → e.enabled = true)
    (hcount : K * f.count r L.code.stabilisers.length erased + erasures L.dataqubits.length r erased < d) {p : Op L.dataqubits.length}
    (hp : decode b g L.dataqubits.length states erased syn = .ok p) {v : Pos} (hv : L.HasLines d v) :
    anti p (L.vop v) = xsum (List.range r) fun t => anti (f.data t) (L.vop v) := by
  obtain ⟨D, k, hk, hD⟩ := hv
  have := corrected_lines h hb hK hS (D.system hw) hf hen hcount hp hk
  have h2 : ∀ c, anti c (L.vop v) = anti c (D.lineOp k) := fun c => by rw [anti_symm, hD, anti_symm]
  rw [h2, show anti p (D.lineOp k) = _ from this]
  refine xsum_congr fun t _ => ?_
  rw [h2]; rfl

/-! ## Edges without vertices -/

/-- The correction consists of edges with vertices. -/
theorem decode_touching (h : mkSynGraph isInf r stabs w = .ok g) {b : Backend W σ} {states : List σ} (hb : Sound b g states)
    {erased syn : Option (List (List Bool))} {p : Op n} (hp : decode b g n states erased syn = .ok p) {m : Op n}
    (hm : ∀ l ∈ errorOps n, flipped stabs (singleOp false l.1 l.2) ≠ [] → anti (singleOp false l.1 l.2) m = false) : anti p m = false := by
  obtain ⟨er, sy, rs, he, hs, hd, hmm, hfr⟩ := decode_inv h hp
  obtain ⟨p1, hp1, hp2⟩ := pauliFrame_spec (n := n) (edge_op_lt h) (updateResults rs)
  rw [hfr] at hp1; cases hp1
  rw [hp2]
  refine xsum_zero fun i hi => ?_
  cases hu : updateResults rs i with
  | false => rfl
  | true =>
    obtain ⟨c, hc, hic⟩ := (results_src h hmm hb.1).2 i hu
    have hcm : c ∈ g.components := (List.mem_filter.1 hc).1
    obtain ⟨e, hie, _, v, hv, _⟩ := ((compOk h hcm).mem i).1 hic
    rw [Bool.true_and]
    show edgeAnti g m i = false
    rcases edge_cases h hie with ⟨t, o, l, _, hl, hkd, hvs, _⟩ | ⟨t, s, _, _, hkd, _⟩
    · rw [edgeAnti_qubit hie hkd (qubit_idx h hie hkd).2.2, opAnti, hl]
      refine hm l (List.mem_of_getElem? hl) fun h0 => ?_
      rw [hvs, h0] at hv
      cases hv
    · exact edgeAnti_stab hie hkd _

/-! ## Graphs without parallel edges -/

/-- If different errors flip different stabilisers, all edges of errors are enabled. -/
theorem enabled_of_simple_finite (h : mkSynGraph isInf r stabs w = .ok g) (hfin : AllFinite isInf g)
    (hs : ∀ l ∈ errorOps n, ∀ l' ∈ errorOps n, flipped stabs (singleOp false l.1 l.2) ≠ [] →
      flipped stabs (singleOp false l.1 l.2) = flipped stabs (singleOp false l'.1 l'.2) → l = l')
    (i : Nat) (e : SEdge W) (t o q : Nat) (b : Bool) (hie : g.edges[i]? = some e) (hk : e.kind = .qubit t o q b) (hv : e.vertices ≠ []) :
    e.enabled = true := by
  obtain ⟨j, ej, hj, hjv, hje, _⟩ := parallel_finite h hfin hie hv
  rcases parallel_kind h hie hj hjv.symm hv with ⟨t', o1, o2, l, l', hl, hl', hk1, hk2, hfl⟩ | ⟨t', s, hk1, _⟩
  · have hne : flipped stabs (singleOp false l.1 l.2) ≠ [] := by
      rcases edge_cases h hie with ⟨t3, o3, l3, _, hl3, hk3, hv3, _⟩ | ⟨t3, s, _, _, hk3, _⟩
      · intro h0
        rw [hk1, EdgeKind.qubit.injEq] at hk3
        obtain ⟨_, rfl, _⟩ := hk3
        rw [hl] at hl3; cases hl3
        rw [hv3, h0] at hv
        exact hv rfl
      · rw [hk1] at hk3; cases hk3
    have := hs l (List.mem_of_getElem? hl) l' (List.mem_of_getElem? hl') hne hfl
    subst this
    have h1 := (errorOps_idx hl).1
    have h2 := (errorOps_idx hl').1
    have : i = j := by
      rw [(qubit_idx h hie hk1).1, (qubit_idx h hj hk2).1, h1, h2]
    subst this
    rw [hie] at hj; cases hj
    exact hje
  · rw [hk] at hk1; cases hk1

theorem enabled_of_simple (h : mkSynGraph isInf r stabs none = .ok g)
    (hs : ∀ l ∈ errorOps n, ∀ l' ∈ errorOps n, flipped stabs (singleOp false l.1 l.2) ≠ [] →
      flipped stabs (singleOp false l.1 l.2) = flipped stabs (singleOp false l'.1 l'.2) → l = l')
    (i : Nat) (e : SEdge W) (t o q : Nat) (b : Bool) (hie : g.edges[i]? = some e) (hk : e.kind = .qubit t o q b) (hv : e.vertices ≠ []) :
    e.enabled = true :=
  enabled_of_simple_finite h (allFinite_none h) hs i e t o q b hie hk hv

end Plaquette
