import Verif.Lemmas.SynComp

/-!
# The construction of the syndrome graph
-/

namespace Plaquette
variable {W : Type} {n : Nat}

/-- The edges before weights are set. -/
def rawEdges (r : Nat) (stabs : List (Op n)) (qs : List (SEdge W)) : List (SEdge W) := qs ++ stabEdges r stabs.length

theorem rawEdges_lt {r : Nat} {stabs : List (Op n)} {qs : List (SEdge W)} (h : qubitEdges r stabs = .ok qs) :
    ∀ i, ∀ v ∈ vertsAt (rawEdges r stabs qs) i, v < r * stabs.length := by
  obtain ⟨hlen, hq⟩ := qubitEdges_spec h
  obtain ⟨slen, hs⟩ := stabEdges_spec (W := W) r stabs.length
  have hmul : ∀ t s, t < r → s < stabs.length → t * stabs.length + s < r * stabs.length := by
    intro t s ht hs'
    have : (t + 1) * stabs.length ≤ r * stabs.length := Nat.mul_le_mul_right _ ht
    rw [Nat.add_mul] at this
    omega
  intro i v hv
  unfold vertsAt rawEdges at hv
  by_cases hi : i < qs.length
  · rw [List.getElem?_append_left hi] at hv
    rw [hlen] at hi
    have hn : 0 < 2 * n := Nat.pos_of_ne_zero fun h => by rw [h] at hi; omega
    have ht : i / (2 * n) < r := (Nat.div_lt_iff_lt_mul hn).mpr hi
    have hl : i % (2 * n) < (errorOps n).length := by rw [errorOps_len]; exact Nat.mod_lt _ hn
    obtain ⟨-, he⟩ := hq (i / (2 * n)) (i % (2 * n)) _ ht (List.getElem?_eq_getElem hl)
    rw [Nat.div_add_mod' i (2 * n)] at he
    rw [he] at hv
    simp only [Option.map_some, Option.getD_some, List.mem_map] at hv
    obtain ⟨s, hsm, rfl⟩ := hv
    have : s < stabs.length := List.mem_range.mp (List.mem_filter.mp hsm).1
    exact hmul _ _ ht this
  · rw [List.getElem?_append_right (by omega)] at hv
    by_cases hi2 : i - qs.length < (stabEdges r stabs.length : List (SEdge W)).length
    · generalize hk : i - qs.length = k at hv hi2
      rw [slen] at hi2
      have hm : 0 < stabs.length := Nat.pos_of_ne_zero fun h => by rw [h] at hi2; omega
      have ht : k / stabs.length < r - 1 := (Nat.div_lt_iff_lt_mul hm).mpr hi2
      have hs2 := Nat.mod_lt k hm
      have he := hs (k / stabs.length) (k % stabs.length) ht hs2
      rw [Nat.div_add_mod'] at he
      rw [he] at hv
      simp only [stabEdge, vertexIdx, Option.map_some, Option.getD_some, List.mem_cons, List.not_mem_nil, or_false] at hv
      generalize k / stabs.length = T at ht hv
      rcases hv with rfl | rfl
      · exact hmul _ _ (by omega) hs2
      · exact hmul _ _ (by omega) hs2
    · rw [List.getElem?_eq_none (by omega)] at hv
      simp at hv

theorem rawEdges_plain {r : Nat} {stabs : List (Op n)} {qs : List (SEdge W)} (h : qubitEdges r stabs = .ok qs) :
    ∀ e ∈ rawEdges r stabs qs, e.weight = none ∧ e.enabled = true := by
  intro e he
  rcases List.mem_append.mp he with he | he
  · unfold qubitEdges at h
    cases hl : mapLoop (fun t => mapLoop (qubitEdge (W := W) stabs t) (errorOps n).zipIdx) (List.range r) with
    | error e => rw [hl] at h; cases h
    | ok L =>
      rw [hl] at h
      cases h
      obtain ⟨b, hb, heb⟩ := List.mem_flatten.mp he
      obtain ⟨t, -, ht⟩ := mapLoop_src hl hb
      obtain ⟨o, -, ho⟩ := mapLoop_src ht heb
      rw [(qubitEdge_ok_iff.mp ho).2]
      exact ⟨rfl, rfl⟩
  · unfold stabEdges at he
    obtain ⟨t, -, he⟩ := List.mem_flatMap.mp he
    obtain ⟨s, -, rfl⟩ := List.mem_map.mp he
    exact ⟨rfl, rfl⟩

theorem enabledAt_get {es : List (SEdge W)} {i : Nat} {e : SEdge W} (h : es[i]? = some e) : enabledAt es i = e.enabled := by
  simp [enabledAt, h]

theorem weightAt_get {es : List (SEdge W)} {i : Nat} {e : SEdge W} (h : es[i]? = some e) : weightAt es i = e.weight := by
  simp [weightAt, h]

theorem vertsAt_get {es : List (SEdge W)} {i : Nat} {e : SEdge W} (h : es[i]? = some e) : vertsAt es i = e.vertices := by
  simp [vertsAt, h]

theorem vertsAt_ne {es : List (SEdge W)} {i : Nat} (h : vertsAt es i ≠ []) : ∃ e, es[i]? = some e := by
  cases he : es[i]? with
  | none => simp [vertsAt, he] at h
  | some e => exact ⟨e, rfl⟩

/-- The weights of the edges are those of their kind. -/
theorem optWeights_get {m : Nat} {w : Option (Weights W)} {es es' : List (SEdge W)} (h : optWeights n m w es = .ok es')
    (hp : ∀ e ∈ es, e.weight = none ∧ e.enabled = true) : ∀ e ∈ es', e.enabled = true ∧ match w with
      | none => e.weight = none
      | some w => ∃ px pz ms, broadcastW n w.pauliX = .ok px ∧ broadcastW n w.pauliZ = .ok pz ∧ broadcastW m w.measurement = .ok ms ∧
        (match e.kind with
          | .qubit _ _ q true => px[q]?
          | .qubit _ _ q false => pz[q]?
          | .stab _ s => ms[s]?) = some e.weight := by
  cases w with
  | none =>
    cases h
    exact fun e he => ⟨(hp e he).2, (hp e he).1⟩
  | some w =>
    obtain ⟨px, pz, ms, h1, h2, h3, h⟩ := setWeights_spec h
    intro e he
    obtain ⟨e0, he0, hs⟩ := mapLoop_src h he
    obtain ⟨-, hk, hen⟩ := setWeight_keeps hs
    refine ⟨hen.trans (hp e0 he0).2, px, pz, ms, h1, h2, h3, ?_⟩
    rw [hk]
    unfold setWeight at hs
    dsimp only at hs
    split at hs
    · cases hs
    · rename_i x hx
      cases hs
      exact hx

theorem optWeights_shape {m : Nat} {w : Option (Weights W)} {es es' : List (SEdge W)} (h : optWeights n m w es = .ok es') :
    shape es' = shape es := by
  cases w with
  | none => cases h; rfl
  | some w =>
    obtain ⟨px, pz, ms, -, -, -, h⟩ := setWeights_spec h
    exact mapLoop_shape h

theorem disableInf_weight (isInf : W → Bool) (es : List (SEdge W)) (i : Nat) : weightAt (disableInf isInf es) i = weightAt es i := by
  unfold weightAt disableInf
  rw [List.getElem?_map]
  cases h : es[i]? with
  | none => rfl
  | some e =>
    simp only [Option.map_some, Option.bind_some]
    cases hw : e.weight with
    | none => simp [hw]
    | some w => dsimp only; split <;> simp [hw]

theorem disableInf_enabled (isInf : W → Bool) (es : List (SEdge W)) (i : Nat) :
    enabledAt (disableInf isInf es) i = true ↔ enabledAt es i = true ∧ ∀ w, weightAt es i = some w → isInf w = false := by
  unfold enabledAt disableInf weightAt
  rw [List.getElem?_map]
  cases h : es[i]? with
  | none => simp
  | some e =>
    simp only [Option.map_some, Option.getD_some, Option.bind_some]
    cases hw : e.weight with
    | none => simp
    | some w => cases hi : isInf w <;> simp [hi]

/-- The steps of a successful construction. -/
structure Built [LinearOrder W] (isInf : W → Bool) (r : Nat) (stabs : List (Op n)) (w : Option (Weights W)) (g : SynGraph W)
    (qs es : List (SEdge W)) (k : Nat) : Prop where
  ne : stabs ≠ []
  qubit : qubitEdges r stabs = .ok qs
  weights : optWeights n stabs.length w (rawEdges r stabs qs) = .ok es
  dup : disableDuplicates (r * stabs.length) (disableInf isInf es) = .ok g.edges
  comps : initComps (r * stabs.length) g.edges = .ok (g.comps, k)
  components : mapLoop (mkComponent (r * stabs.length) g.edges g.comps) (List.range k) = .ok g.components
  nRounds : g.nRounds = r
  nQubits : g.nQubits = n
  nStab : g.nStab = stabs.length

variable [LinearOrder W]

theorem mkSynGraph_built {isInf : W → Bool} {r : Nat} {stabs : List (Op n)} {w : Option (Weights W)} {g : SynGraph W}
    (h : mkSynGraph isInf r stabs w = .ok g) : ∃ qs es k, Built isInf r stabs w g qs es k := by
  unfold mkSynGraph at h
  match stabs with
  | [] => cases h
  | s :: ss =>
    dsimp only at h
    generalize hS : s :: ss = S at h
    cases hq : (qubitEdges r S : Except Err (List (SEdge W))) with
    | error e => rw [hq] at h; cases h
    | ok qs =>
      rw [hq] at h
      dsimp only at h
      cases hw : optWeights n S.length w (qs ++ stabEdges r S.length) with
      | error e => rw [hw] at h; cases h
      | ok es =>
        rw [hw] at h
        dsimp only at h
        cases hd : disableDuplicates (r * S.length) (disableInf isInf es) with
        | error e => rw [hd] at h; cases h
        | ok es' =>
          rw [hd] at h
          dsimp only at h
          cases hc : initComps (r * S.length) es' with
          | error e => rw [hc] at h; cases h
          | ok sk =>
            obtain ⟨st, k⟩ := sk
            rw [hc] at h
            dsimp only at h
            cases hm : mapLoop (mkComponent (r * S.length) es' st) (List.range k) with
            | error e => rw [hm] at h; cases h
            | ok cs =>
              rw [hm] at h
              cases h
              exact ⟨qs, es, k, ⟨by rw [← hS]; simp, hq, hw, hd, hc, hm, rfl, rfl, rfl⟩⟩

variable {isInf : W → Bool} {r : Nat} {stabs : List (Op n)} {w : Option (Weights W)} {g : SynGraph W} {qs es : List (SEdge W)} {k : Nat}

theorem Built.inf_lt (h : Built isInf r stabs w g qs es k) : ∀ i, ∀ v ∈ vertsAt (disableInf isInf es) i, v < r * stabs.length := by
  intro i v hv
  rw [shape_vertsAt ((disableInf_shape isInf es).trans (optWeights_shape h.weights)) i] at hv
  exact rawEdges_lt h.qubit i v hv

theorem Built.shape (h : Built isInf r stabs w g qs es k) : shape g.edges = shape (rawEdges r stabs qs) :=
  ((disableDuplicates_spec h.inf_lt h.dup).1.shape.trans (disableInf_shape isInf es)).trans (optWeights_shape h.weights)

theorem Built.get (h : Built isInf r stabs w g qs es k) {i : Nat} {e : SEdge W} (he : g.edges[i]? = some e) :
    ∃ e0, es[i]? = some e0 ∧ e0.kind = e.kind ∧ e0.weight = e.weight := by
  have hsp := (disableDuplicates_spec h.inf_lt h.dup).1
  obtain ⟨e0, h0, -, hk⟩ := shape_get (hsp.shape.trans (disableInf_shape isInf es)) he
  refine ⟨e0, h0, hk, ?_⟩
  rw [← weightAt_get h0, ← disableInf_weight isInf, ← hsp.weight, weightAt_get he]

theorem Built.lt (h : Built isInf r stabs w g qs es k) : ∀ i, ∀ v ∈ vertsAt g.edges i, v < r * stabs.length := by
  intro i v hv
  rw [shape_vertsAt h.shape i] at hv
  exact rawEdges_lt h.qubit i v hv

theorem Built.found (h : Built isInf r stabs w g qs es k) : Found (r * stabs.length) g.edges g.comps k ∧
    ∀ v < r * stabs.length, ∃ c < k, g.comps.v v = some c := by
  obtain ⟨st, k', h1, h2, h3⟩ := initComps_spec h.lt
  have := h1.symm.trans h.comps
  simp only [Except.ok.injEq, Prod.mk.injEq] at this
  obtain ⟨rfl, rfl⟩ := this
  exact ⟨h2, h3⟩

/-- The construction succeeds if each error flips at most two stabilisers, the weights have the right lengths, and parallel edges do not
mix weights with no weights. -/
theorem mkSynGraph_total (hs : stabs ≠ []) (hq : qubitEdges r stabs = .ok qs)
    (hw : optWeights n stabs.length w (rawEdges r stabs qs) = .ok es) (hu : Unmixed es) : ∃ g, mkSynGraph isInf r stabs w = .ok g := by
  have hlt : ∀ i, ∀ v ∈ vertsAt (disableInf isInf es) i, v < r * stabs.length := by
    intro i v hv
    rw [shape_vertsAt ((disableInf_shape isInf es).trans (optWeights_shape hw)) i] at hv
    exact rawEdges_lt hq i v hv
  obtain ⟨es', hd⟩ := disableDuplicates_total (es := disableInf isInf es) (fun i j h0 h => by
    rw [disableInf_weight, disableInf_weight]
    exact hu i j (by rwa [shape_vertsAt (disableInf_shape isInf es)] at h0)
      (by rwa [shape_vertsAt (disableInf_shape isInf es), shape_vertsAt (disableInf_shape isInf es)] at h)) (r * stabs.length)
  have hlt' : ∀ i, ∀ v ∈ vertsAt es' i, v < r * stabs.length := by
    intro i v hv
    rw [(disableDuplicates_spec hlt hd).1.verts] at hv
    exact hlt i v hv
  obtain ⟨st, k, h1, h2, -⟩ := initComps_spec hlt'
  obtain ⟨cs, h3⟩ := components_ok hlt' h2
  unfold mkSynGraph
  match stabs with
  | [] => exact absurd rfl hs
  | s :: ss =>
    unfold rawEdges at hw
    dsimp only
    rw [hq]
    dsimp only
    rw [hw]
    dsimp only
    rw [hd]
    dsimp only
    rw [h1]
    dsimp only
    rw [h3]
    exact ⟨_, rfl⟩

/-- The components of a successful construction. -/
theorem Built.component (h : Built isInf r stabs w g qs es k) : g.components.length = k ∧ ∀ c < k, g.components[c]? = some
      { vertexIdx := (List.range (r * stabs.length)).filter fun v => g.comps.v v = some c
        edgeIdx := (List.range g.edges.length).filter fun i => g.comps.e i = some c
        edges := ((List.range g.edges.length).filter fun i => g.comps.e i = some c).map fun i =>
          (vertsAt g.edges i).map ((List.range (r * stabs.length)).filter fun v => g.comps.v v = some c).idxOf
        weights := ((List.range g.edges.length).filter fun i => g.comps.e i = some c).map (weightAt g.edges) } := by
  obtain ⟨h1, h2⟩ := mapLoop_get h.components
  refine ⟨by rw [h1, List.length_range], fun c hc => ?_⟩
  obtain ⟨b, hb, hg⟩ := h2 c c (List.getElem?_range hc)
  rw [mkComponent_ok h.lt h.found.1 hc] at hb
  cases hb
  exact hg

theorem Built.mem_component (h : Built isInf r stabs w g qs es k) {c : Component W} (hc : c ∈ g.components) :
    ∃ x < k, g.components[x]? = some c ∧ (∀ v, v ∈ c.vertexIdx ↔ g.comps.v v = some x) ∧ (∀ i, i ∈ c.edgeIdx ↔ g.comps.e i = some x) ∧
      c.vertexIdx.Pairwise (· < ·) ∧ c.edgeIdx.Pairwise (· < ·) ∧
      c.edges = c.edgeIdx.map (fun i => (vertsAt g.edges i).map c.vertexIdx.idxOf) ∧ c.weights = c.edgeIdx.map (weightAt g.edges) := by
  obtain ⟨h1, h2⟩ := h.component
  obtain ⟨x, hx⟩ := List.mem_iff_getElem?.mp hc
  have hxk : x < k := by rw [← h1]; exact (List.getElem?_eq_some_iff.mp hx).1
  have := h2 x hxk
  rw [hx] at this
  simp only [Option.some.injEq] at this
  refine ⟨x, hxk, hx, ?_, ?_, ?_, ?_, ?_, ?_⟩
  · intro v
    rw [this]
    simp only [List.mem_filter, List.mem_range, decide_eq_true_eq]
    exact ⟨fun h => h.2, fun hv => ⟨(h.found.1.lt v x hv).2, hv⟩⟩
  · intro i
    rw [this]
    simp only [List.mem_filter, List.mem_range, decide_eq_true_eq]
    refine ⟨fun h => h.2, fun hi => ⟨?_, hi⟩⟩
    obtain ⟨-, v, hv, -⟩ := (h.found.1.e i x).mp hi
    exact vertsAt_lt hv
  · rw [this]; exact List.Pairwise.filter _ List.pairwise_lt_range
  · rw [this]; exact List.Pairwise.filter _ List.pairwise_lt_range
  · rw [this]
  · rw [this]

end Plaquette
