import Verif.Lemmas.FaultEdges

/-!
# Few faults are corrected, if there are many parallel logical operators
-/

namespace Plaquette
variable {n : Nat} {W σ : Type} [LinearOrder W] {isInf : W → Bool} {r : Nat} {stabs : List (Op n)} {w : Option (Weights W)} {g : SynGraph W} {d : Nat}

/-! ## Parallel edges -/

/-- No weight is infinite. -/
def AllFinite (isInf : W → Bool) (g : SynGraph W) : Prop := ∀ e ∈ g.edges, ∀ x, e.weight = some x → isInf x = false

theorem allFinite_none (h : mkSynGraph isInf r stabs none = .ok g) : AllFinite isInf g := by
  intro e he x hx
  have : e.weight = none := C33_weights h e he
  rw [this] at hx; cases hx

/-- If no weight is infinite, one of several parallel edges is enabled. -/
theorem parallel_finite (h : mkSynGraph isInf r stabs w = .ok g) (hfin : AllFinite isInf g) {i : Nat} {e : SEdge W} (he : g.edges[i]? = some e) (hv : e.vertices ≠ []) :
    ∃ (b : Nat) (eb : SEdge W), g.edges[b]? = some eb ∧ eb.vertices = e.vertices ∧ eb.enabled = true ∧
      ∀ (j : Nat) (ej : SEdge W), g.edges[j]? = some ej → ej.vertices = e.vertices → ej.enabled = true → j = b := by
  obtain ⟨b, eb, h1, h2, h3⟩ := C33_parallel h he hv
  exact ⟨b, eb, h1, h2, (h3 b eb h1 h2).2.2.2 ⟨rfl, hfin eb (List.mem_of_getElem? h1)⟩, fun j ej hj hjv hje => ((h3 j ej hj hjv).2.2.1 hje).1⟩

/-- Without weights, one of several parallel edges is enabled. -/
theorem parallel_enabled (h : mkSynGraph isInf r stabs none = .ok g) {i : Nat} {e : SEdge W} (he : g.edges[i]? = some e) (hv : e.vertices ≠ []) :
    ∃ (b : Nat) (eb : SEdge W), g.edges[b]? = some eb ∧ eb.vertices = e.vertices ∧ eb.enabled = true ∧
      ∀ (j : Nat) (ej : SEdge W), g.edges[j]? = some ej → ej.vertices = e.vertices → ej.enabled = true → j = b :=
  parallel_finite h (allFinite_none h) he hv

/-- Parallel edges are errors in the same round that flip the same stabilisers, or the same wrong outcome. -/
theorem parallel_kind (h : mkSynGraph isInf r stabs w = .ok g) {i j : Nat} {e e' : SEdge W} (he : g.edges[i]? = some e) (he' : g.edges[j]? = some e')
    (hv : e.vertices = e'.vertices) (hne : e.vertices ≠ []) :
    (∃ t o o' l l', (errorOps n)[o]? = some l ∧ (errorOps n)[o']? = some l' ∧ e.kind = .qubit t o l.2.val (l.1 == .X) ∧ e'.kind = .qubit t o' l'.2.val (l'.1 == .X) ∧
      flipped stabs (singleOp false l.1 l.2) = flipped stabs (singleOp false l'.1 l'.2)) ∨
    ∃ t s, e.kind = .stab (t + 1) s ∧ e'.kind = .stab (t + 1) s := by
  have hmix : ∀ (t t' s' : Nat) (F : List Nat), (∀ s ∈ F, s < stabs.length) → s' < stabs.length →
      F.map (vertexIdx stabs.length t) = [t' * stabs.length + s', (t' + 1) * stabs.length + s'] → False := by
    intro t t' s' F hF hs' hF2
    have hF3 := congrArg List.length hF2
    rw [List.length_map] at hF3
    match F, hF3, hF2 with
    | [a, b], _, hF2 =>
      obtain ⟨h1, h2⟩ : vertexIdx stabs.length t a = t' * stabs.length + s' ∧ vertexIdx stabs.length t b = (t' + 1) * stabs.length + s' := by simpa using hF2
      have h3 := vertex_inj (hF a (by simp)) hs' h1
      have h4 := vertex_inj (hF b (by simp)) hs' h2
      omega
  rcases edge_cases h he with ⟨t, o, l, _, hl, hk, hvs, _⟩ | ⟨t, s, _, hs, hk, hvs⟩
  · rcases edge_cases h he' with ⟨t', o', l', _, hl', hk', hvs', _⟩ | ⟨t', s', _, hs', hk', hvs'⟩
    · left
      have hF := fun s => LineSystem.flipped_lt (stabs := stabs) (o := singleOp false l.1 l.2) (s := s)
      have hF' := fun s => LineSystem.flipped_lt (stabs := stabs) (o := singleOp false l'.1 l'.2) (s := s)
      rw [hvs, hvs'] at hv
      rw [hvs] at hne
      have key : t = t' ∧ flipped stabs (singleOp false l.1 l.2) = flipped stabs (singleOp false l'.1 l'.2) := by
        generalize flipped stabs (singleOp false l.1 l.2) = F at *
        generalize flipped stabs (singleOp false l'.1 l'.2) = F' at *
        have htt : t = t' := by
          match F, F', hv, hne with
          | a :: F, b :: F', hv, _ =>
            obtain ⟨h1, _⟩ : vertexIdx stabs.length t a = vertexIdx stabs.length t' b ∧ _ := by simpa using hv
            exact (vertex_inj (hF a (by simp)) (hF' b (by simp)) h1).1
        subst htt
        refine ⟨rfl, ?_⟩
        refine List.map_injective_iff.2 (fun a b hab => ?_) hv
        simpa [vertexIdx] using hab
      obtain ⟨rfl, h2⟩ := key
      exact ⟨t, o, o', l, l', hl, hl', hk, hk', h2⟩
    · rw [hvs, hvs'] at hv
      exact (hmix _ _ _ _ (fun s => LineSystem.flipped_lt) hs' hv).elim
  · rcases edge_cases h he' with ⟨t', o', l', _, hl', hk', hvs', _⟩ | ⟨t', s', _, hs', hk', hvs'⟩
    · rw [hvs, hvs'] at hv
      exact (hmix _ _ _ _ (fun s => LineSystem.flipped_lt) hs hv.symm).elim
    · right
      rw [hvs, hvs'] at hv
      obtain ⟨h1, _⟩ : t * stabs.length + s = t' * stabs.length + s' ∧ _ := by simpa using hv
      obtain ⟨rfl, rfl⟩ := vertex_inj hs hs' h1
      exact ⟨t, s, hk, hk'⟩

/-- The enabled edges that stand for a set of edges. -/
def repEdge (g : SynGraph W) (x : Nat → Bool) (i : Nat) : Bool :=
  (enabledAt g.edges i && !(vertsAt g.edges i).isEmpty) && xsum (List.range g.edges.length) fun j => x j && decide (vertsAt g.edges j = vertsAt g.edges i)

omit [LinearOrder W] in
theorem repEdge_true {x : Nat → Bool} {i : Nat} {e : SEdge W} (he : g.edges[i]? = some e) (hx : repEdge g x i = true) :
    e.enabled = true ∧ e.vertices ≠ [] ∧ ∃ j e', g.edges[j]? = some e' ∧ x j = true ∧ e'.vertices = e.vertices := by
  unfold repEdge at hx
  rw [enabledAt_get he, vertsAt_get he, Bool.and_eq_true, Bool.and_eq_true] at hx
  obtain ⟨⟨h1, h2⟩, h3⟩ := hx
  obtain ⟨j, hj, h4⟩ := xsum_true h3
  rw [List.mem_range] at hj
  have hje := List.getElem?_eq_getElem hj
  rw [Bool.and_eq_true, decide_eq_true_eq, vertsAt_get hje] at h4
  exact ⟨h1, by simpa using h2, j, _, hje, h4.1, h4.2⟩

/-- Sums over the representatives. -/
theorem repEdge_sum_finite (h : mkSynGraph isInf r stabs w = .ok g) (hfin : AllFinite isInf g) {x F : Nat → Bool}
    (hF0 : ∀ j e, x j = true → g.edges[j]? = some e → e.vertices = [] → F j = false)
    (hF : ∀ j e, x j = true → g.edges[j]? = some e → e.vertices ≠ [] → ∀ i e', g.edges[i]? = some e' → e'.vertices = e.vertices → e'.enabled = true → F i = F j) :
    (xsum (List.range g.edges.length) fun i => repEdge g x i && F i) = xsum (List.range g.edges.length) fun i => x i && F i := by
  have h1 : (xsum (List.range g.edges.length) fun i => repEdge g x i && F i) = xsum (List.range g.edges.length) fun i =>
      xsum (List.range g.edges.length) fun j => x j && (enabledAt g.edges i && !(vertsAt g.edges i).isEmpty && decide (vertsAt g.edges j = vertsAt g.edges i) && F i) := by
    refine xsum_congr fun i _ => ?_
    unfold repEdge
    rw [← xsum_and, Bool.and_comm, ← xsum_and]
    refine xsum_congr fun j _ => ?_
    cases x j <;> cases F i <;> simp
  rw [h1, xsum_comm]
  refine xsum_congr fun j hj => ?_
  rw [xsum_and]
  cases hx : x j with
  | false => rfl
  | true =>
    rw [Bool.true_and, Bool.true_and]
    have hje := List.getElem?_eq_getElem (List.mem_range.1 hj)
    generalize g.edges[j]'(List.mem_range.1 hj) = e at hje
    rw [vertsAt_get hje]
    by_cases hv : e.vertices = []
    · rw [hF0 j e hx hje hv]
      refine xsum_zero fun i _ => ?_
      rw [hv]
      by_cases h0 : vertsAt g.edges i = []
      · simp [h0]
      · have : ¬ ([] = vertsAt g.edges i) := fun h1 => h0 h1.symm
        simp [this]
    · obtain ⟨b, eb, h2, h3, h4, h5⟩ := parallel_finite h hfin hje hv
      rw [xsum_single (i := b) List.nodup_range (List.mem_range.2 (List.getElem?_eq_some_iff.1 h2).1)]
      · rw [enabledAt_get h2, vertsAt_get h2, h4, h3, hF j e hx hje hv b eb h2 h3 h4]
        simp [hv]
      · intro i hi hne
        by_contra hc
        rw [Bool.not_eq_false] at hc
        have hie := List.getElem?_eq_getElem (List.mem_range.1 hi)
        rw [enabledAt_get hie, vertsAt_get hie, Bool.and_eq_true, Bool.and_eq_true, Bool.and_eq_true, decide_eq_true_eq] at hc
        exact hne (h5 i _ hie hc.1.2.symm hc.1.1.1)

theorem repEdge_sum (h : mkSynGraph isInf r stabs none = .ok g) {x F : Nat → Bool}
    (hF0 : ∀ j e, x j = true → g.edges[j]? = some e → e.vertices = [] → F j = false)
    (hF : ∀ j e, x j = true → g.edges[j]? = some e → e.vertices ≠ [] → ∀ i e', g.edges[i]? = some e' → e'.vertices = e.vertices → e'.enabled = true → F i = F j) :
    (xsum (List.range g.edges.length) fun i => repEdge g x i && F i) = xsum (List.range g.edges.length) fun i => x i && F i :=
  repEdge_sum_finite h (allFinite_none h) hF0 hF

/-! ## The relevant edges -/

/-- The errors that can cross a line, and the wrong outcomes they can be confused with. -/
def LineSystem.relEdge (D : LineSystem stabs d) (g : SynGraph W) (i : Nat) : Bool :=
  match (g.edges[i]?).map SEdge.kind with
  | some (.qubit _ o _ _) => match (errorOps n)[o]? with | some l => (l.1 == .X) == D.side l.2 | none => false
  | some (.stab _ s) => D.kd s
  | none => false

omit [LinearOrder W] in
theorem LineSystem.relEdge_qubit (D : LineSystem stabs d) {i : Nat} {e : SEdge W} (he : g.edges[i]? = some e) {t o q : Nat} {b : Bool}
    (hk : e.kind = .qubit t o q b) {l : Letter × Fin n} (hl : (errorOps n)[o]? = some l) : D.relEdge g i = ((l.1 == .X) == D.side l.2) := by
  unfold LineSystem.relEdge; rw [he]; simp only [Option.map_some, hk, hl]

omit [LinearOrder W] in
theorem LineSystem.relEdge_stab (D : LineSystem stabs d) {i : Nat} {e : SEdge W} (he : g.edges[i]? = some e) {t s : Nat} (hk : e.kind = .stab t s) :
    D.relEdge g i = D.kd s := by
  unfold LineSystem.relEdge; rw [he]; simp only [Option.map_some, hk]

theorem errorOps_idx {o : Nat} {l : Letter × Fin n} (hl : (errorOps n)[o]? = some l) :
    o = (if l.1 == .X then l.2.val else n + l.2.val) ∧ l.1 = if l.1 == .X then .X else .Z := by
  have ho : o < 2 * n := by
    have := (List.getElem?_eq_some_iff.1 hl).1
    rwa [errorOps_len] at this
  by_cases hn : o < n
  · have := errorOps_X (n := n) ⟨o, hn⟩
    simp only at this
    rw [hl] at this
    cases this
    simp
  · have := errorOps_Z (n := n) ⟨o - n, by omega⟩
    have ho' : n + (o - n) = o := by omega
    simp only [ho'] at this
    rw [hl] at this
    cases this
    simp [letter_beq, ho']

theorem LineSystem.relEdge_vertex (D : LineSystem stabs d) (h : mkSynGraph isInf r stabs w = .ok g) {i : Nat} {e : SEdge W} (he : g.edges[i]? = some e)
    {v : Nat} (hv : v ∈ e.vertices) : D.relEdge g i = D.kd (v % stabs.length) := by
  rcases edge_cases h he with ⟨t, o, l, _, hl, hk, hvs, _⟩ | ⟨t, s, _, hs, hk, hvs⟩
  · rw [D.relEdge_qubit he hk hl]
    rw [hvs, List.mem_map] at hv
    obtain ⟨s, hs, rfl⟩ := hv
    rw [LineSystem.vertex_mod (LineSystem.flipped_lt hs)]
    rw [(errorOps_idx hl).2] at hs
    exact (D.kind _ _ s hs).symm
  · rw [D.relEdge_stab he hk]
    rw [hvs] at hv
    have : v = vertexIdx stabs.length t s ∨ v = vertexIdx stabs.length (t + 1) s := by simpa [vertexIdx] using hv
    rcases this with rfl | rfl <;> rw [LineSystem.vertex_mod hs]

theorem LineSystem.relEdge_comp (D : LineSystem stabs d) (h : mkSynGraph isInf r stabs w = .ok g) {c : Component W} (hc : c ∈ g.components) {i j : Nat}
    (hi : i ∈ c.edgeIdx) (hj : j ∈ c.edgeIdx) (hr : D.relEdge g i = true) : D.relEdge g j = true := by
  have hok := compOk h hc
  obtain ⟨e, he, _, v, hv, hvc⟩ := (hok.mem i).1 hi
  obtain ⟨e', he', _, v', hv', hvc'⟩ := (hok.mem j).1 hj
  rw [D.relEdge_vertex h he hv] at hr
  rw [D.relEdge_vertex h he' hv']
  have hJ := ((C34_vertices h).2.2 c hc v hvc v').1 hvc'
  have key : ∀ u, Joined g.edges v u → D.kd (u % stabs.length) = true := by
    intro u hu
    unfold Joined at hu
    induction hu with
    | refl => exact hr
    | tail _ hstep ih =>
      obtain ⟨e2, he2, _, h1, h2⟩ := hstep
      obtain ⟨k, hk⟩ := List.getElem?_of_mem he2
      rw [← D.relEdge_vertex h hk h2, D.relEdge_vertex h hk h1]
      exact ih
  exact key v' hJ

theorem LineSystem.relEdge_seg (D : LineSystem stabs d) (h : mkSynGraph isInf r stabs w = .ok g) {i : Nat} {p : ZMod (2 * d)}
    (hs : D.seg g i = some p) : D.relEdge g i = true := by
  cases he : g.edges[i]? with
  | none => unfold LineSystem.seg at hs; rw [he] at hs; cases hs
  | some e =>
    rcases edge_cases h he with ⟨t, o, l, _, hl, hk, _⟩ | ⟨t, s, _, _, hk, _⟩
    · rw [D.seg_qubit he hk, Option.map_eq_some_iff] at hs
      obtain ⟨k, hk', _⟩ := hs
      obtain ⟨h1, h2⟩ := D.line_lt hk'
      rw [D.relEdge_qubit he hk hl]
      unfold opAnti at h2
      simp only [hl] at h2
      rw [anti_symm, (errorOps_idx hl).2] at h2
      rw [D.rel k h1 _ _ h2, beq_self_eq_true]
    · rw [D.seg_stab he hk] at hs; cases hs

/-! ## The indices of the edges -/

theorem qubit_idx (h : mkSynGraph isInf r stabs w = .ok g) {i : Nat} {e : SEdge W} (he : g.edges[i]? = some e) {t o q : Nat} {b : Bool}
    (hk : e.kind = .qubit t o q b) : i = t * (2 * n) + o ∧ t < r ∧ o < 2 * n := by
  rcases edge_index h (List.getElem?_eq_some_iff.1 he).1 with ⟨t', o', ht, ho, rfl⟩ | ⟨t', s', ht, hs, rfl⟩
  · obtain ⟨e', l, he', _, hk', _⟩ := qubit_edge h ht ho
    rw [he] at he'; cases he'
    rw [hk, EdgeKind.qubit.injEq] at hk'
    obtain ⟨rfl, rfl, _⟩ := hk'
    exact ⟨rfl, ht, ho⟩
  · obtain ⟨e', he', hk', _⟩ := (C32_edges h).2.2 t' ht s' hs
    rw [he] at he'; cases he'
    rw [hk] at hk'; cases hk'

theorem stab_idx (h : mkSynGraph isInf r stabs w = .ok g) {i : Nat} {e : SEdge W} (he : g.edges[i]? = some e) {t s : Nat}
    (hk : e.kind = .stab (t + 1) s) : i = r * (2 * n) + (t * stabs.length + s) ∧ t + 1 < r ∧ s < stabs.length := by
  rcases edge_index h (List.getElem?_eq_some_iff.1 he).1 with ⟨t', o', ht, ho, rfl⟩ | ⟨t', s', ht, hs, rfl⟩
  · obtain ⟨e', l, he', _, hk', _⟩ := qubit_edge h ht ho
    rw [he] at he'; cases he'
    rw [hk] at hk'; cases hk'
  · obtain ⟨e', he', hk', _⟩ := (C32_edges h).2.2 t' ht s' hs
    rw [he] at he'; cases he'
    rw [hk, EdgeKind.stab.injEq] at hk'
    obtain ⟨h1, rfl⟩ := hk'
    obtain rfl : t = t' := by omega
    exact ⟨rfl, ht, hs⟩

/-! ## The theorem -/

theorem pairs_finite {r : Nat} (P : Nat × Fin n → Prop) : {p : Nat × Fin n | p.1 < r ∧ P p}.Finite :=
  ((Set.finite_lt_nat r).prod Set.finite_univ).subset fun p hp => ⟨hp.1, Set.mem_univ _⟩

theorem pairs_finite' {r m : Nat} (P : Nat × Nat → Prop) : {p : Nat × Nat | p.1 < r ∧ p.2 < m ∧ P p}.Finite :=
  ((Set.finite_lt_nat r).prod (Set.finite_lt_nat m)).subset fun p hp => ⟨hp.1, hp.2.1⟩

theorem opBit_bits {p : Op n} {o : Nat} {l : Letter × Fin n} (hl : (errorOps n)[o]? = some l) (hb : opBit p o = true) : (p.x l.2 || p.z l.2) = true := by
  unfold opBit at hb
  simp only [hl] at hb
  split at hb <;> simp [hb]

/-- If `K` times the number of faults on qubits that were not erased, and the number of erasures, are together smaller than the number of
parallel logical operators, then the correction and the errors have the same effect on them. -/
theorem corrected_lines (h : mkSynGraph isInf r stabs none = .ok g) {b : Backend W σ} {states : List σ} (hb : Sound b g states) {K : Nat} (hK : 2 ≤ K) (hS : Short K b g states)
    (D : LineSystem stabs d) {f : Faults n} {erased syn : Option (List (List Bool))} (hf : f.Shows r stabs syn)
    (hen : ∀ (i : Nat) (e : SEdge W) (t o q : Nat) (b : Bool), g.edges[i]? = some e → e.kind = .qubit t o q b → SynBit erased t q → e.vertices ≠ [] → e.enabled = true)
    (hcount : K * f.count r stabs.length erased + erasures n r erased < d) {p : Op n} (hp : decode b g n states erased syn = .ok p) {k : Nat} (hk : k < d) :
    anti p (D.T k) = xsum (List.range r) fun t => anti (f.data t) (D.T k) := by
  obtain ⟨er, sy, rs, he, hs, hd, hm, hfr⟩ := decode_inv h hp
  obtain ⟨er', he', hbe⟩ := arrayOr_ok (arrayOr_shape he)
  rw [he] at he'; cases he'
  obtain ⟨sy', hs', hbs⟩ := arrayOr_ok (arrayOr_shape hs)
  rw [hs] at hs'; cases hs'
  have hbdR := decode_core h hb hd hm
  have hbd0 := hf.bd h hbs
  obtain ⟨p1, hp1, hp2⟩ := pauliFrame_spec (n := n) (edge_op_lt h) (updateResults rs)
  rw [hfr] at hp1; cases hp1
  obtain ⟨p0, hp01, hp02⟩ := pauliFrame_spec (n := n) (edge_op_lt h) (f.edge g)
  have hp03 : ∀ m, anti p0 m = xsum (List.range r) fun t => anti (f.data t) m := fun m => (hp02 m).trans (f.frame h m)
  -- the same stabilisers
  have hstab : ∀ gen ∈ stabs, anti p gen = anti p0 gen := by
    intro gen hgen
    obtain ⟨s, hs⟩ := List.getElem?_of_mem hgen
    obtain ⟨q1, h1, h2⟩ := frame_of_bd h hbdR
    obtain ⟨q0, h3, h4⟩ := frame_of_bd h hbd0
    rw [hfr] at h1; cases h1
    rw [hp01] at h3; cases h3
    rw [h2 s gen hs, h4 s gen hs]
  rw [← hp03]
  -- the faults
  have hqubit : ∀ (j : Nat) (e : SEdge W) (t o : Nat) (l : Letter × Fin n), f.edge g j = true → g.edges[j]? = some e → (errorOps n)[o]? = some l →
      e.kind = .qubit t o l.2.val (l.1 == .X) → 2 ≤ d ∧ (e.vertices ≠ [] → SynBit erased t l.2 ∧ e.enabled = true ∨ ¬ SynBit erased t l.2 ∧ 3 ≤ d) := by
    intro j e t o l hj hje hl hkd
    obtain ⟨_, ht, _⟩ := qubit_idx h hje hkd
    rw [f.edge_qubit hje hkd] at hj
    have hbits := opBit_bits hl hj
    by_cases hse : SynBit erased t l.2
    · have : 0 < erasures n r erased := by
        unfold erasures
        rw [Set.ncard_pos (pairs_finite (fun p => SynBit erased p.1 p.2))]
        exact ⟨(t, l.2), ht, hse⟩
      exact ⟨by omega, fun hv => .inl ⟨hse, hen j e t o _ _ hje hkd hse hv⟩⟩
    · have : 0 < f.count r stabs.length erased := by
        unfold Faults.count
        refine Nat.lt_of_lt_of_le ?_ (Nat.le_add_right _ _)
        rw [Set.ncard_pos (pairs_finite (fun p => ((f.data p.1).x p.2 || (f.data p.1).z p.2) = true ∧ ¬ SynBit erased p.1 p.2))]
        exact ⟨(t, l.2), ht, hbits, hse⟩
      have := Nat.mul_le_mul hK this
      exact ⟨by omega, fun _ => .inr ⟨hse, by omega⟩⟩
  set x := repEdge g (f.edge g) with hx
  have hbdx : ∀ v, v < r * stabs.length → bd g.verts x v = vertexSyndrome g sy v := by
    intro v hv
    rw [← hbd0 v hv]
    have hlen : g.verts.length = g.edges.length := by simp [SynGraph.verts]
    unfold bd
    rw [hlen]
    refine repEdge_sum h (fun j e _ hje hv => ?_) (fun j e _ hje hv i e' hie hv' _ => ?_)
    · rw [touches_some (verts_get hje), hv]; simp
    · rw [touches_some (verts_get hje), touches_some (verts_get hie), hv']
  have hline : ∀ k < d, (xsum (List.range g.edges.length) fun i => x i && edgeAnti g (D.T k) i) = anti p0 (D.T k) := by
    intro k hk
    rw [hp02]
    refine repEdge_sum h (fun j e hj hje hv => ?_) (fun j e hj hje hv i e' hie hv' hen' => ?_)
    · rcases edge_cases h hje with ⟨t, o, l, _, hl, hkd, hvs, _⟩ | ⟨t, s, _, _, hkd, _⟩
      · have h2 := (hqubit j e t o l hj hje hl hkd).1
        show edgeAnti g (D.T k) j = false
        rw [edgeAnti_qubit hje hkd (qubit_idx h hje hkd).2.2]
        rw [hvs, List.map_eq_nil_iff] at hv
        exact D.no_line h2 hl hv hk
      · exact edgeAnti_stab hje hkd _
    · show edgeAnti g (D.T k) i = edgeAnti g (D.T k) j
      rcases parallel_kind h hje hie hv'.symm hv with ⟨t, o, o', l, l', hl, hl', hkd, hkd', hfl⟩ | ⟨t, s, hkd, hkd'⟩
      · rcases (hqubit j e t o l hj hje hl hkd).2 hv with ⟨_, hej⟩ | ⟨_, h3⟩
        · obtain ⟨b', eb, _, _, _, huniq⟩ := parallel_enabled h hje hv
          rw [huniq i e' hie hv' hen', huniq j e hje rfl hej]
        · rw [edgeAnti_qubit hje hkd (qubit_idx h hje hkd).2.2, edgeAnti_qubit hie hkd' (qubit_idx h hie hkd').2.2]
          exact (D.same_line h3 hl hl' hfl hk).symm
      · rw [edgeAnti_stab hje hkd, edgeAnti_stab hie hkd']
  -- the lines
  obtain ⟨hfin, hcard⟩ := lines_total h hS hb.1 hm (x := x) (fun i hi => by
      cases hie : g.edges[i]? with
      | none =>
        rw [hx] at hi
        unfold repEdge enabledAt at hi
        rw [hie] at hi; simp at hi
      | some e => rw [enabledAt_get hie]; exact (repEdge_true hie hi).1)
    (fun i e hi hie => (repEdge_true hie hi).2.1) hbdx (D.layout h) (fun i j p q h1 h2 => D.seg_odd h1 h2) (D.relEdge g)
    (fun i p h1 => D.relEdge_seg h h1) (fun c hc i hi j hj hr => D.relEdge_comp h hc hi hj hr)
  have herI : ∀ i e t o q b, g.edges[i]? = some e → e.kind = .qubit t o q b → (edgeErased g er i = true ↔ SynBit erased t q) := by
    intro i e t o q b hie hkd
    rw [edgeErased_iff hbe]
    constructor
    · rintro ⟨e', t', o', q', b', h1, h2, h3⟩
      rw [hie] at h1; cases h1
      rw [hkd] at h2; cases h2
      exact h3
    · intro h3; exact ⟨e, t, o, q, b, hie, hkd, h3⟩
  have hA : ((Finset.range g.edges.length).filter fun i => x i = true ∧ D.relEdge g i = true ∧ edgeErased g er i = false).card ≤ f.count r stabs.length erased := by
    have hev : ∀ i ∈ (Finset.range g.edges.length).filter (fun i => x i = true ∧ D.relEdge g i = true ∧ edgeErased g er i = false),
        ∃ (ev : (Nat × Fin n) ⊕ (Nat × Nat)) (j : Nat) (e e' : SEdge W), g.edges[i]? = some e ∧ e.enabled = true ∧ e.vertices ≠ [] ∧ g.edges[j]? = some e' ∧
          e'.vertices = e.vertices ∧
          ((∃ t q, ev = .inl (t, q) ∧ (t < r ∧ ((f.data t).x q || (f.data t).z q) = true ∧ ¬ SynBit erased t q) ∧
            j = t * (2 * n) + (if D.side q then q.val else n + q.val)) ∨
          ∃ t s, ev = .inr (t, s) ∧ (t < r ∧ s < stabs.length ∧ f.meas t s) ∧ j = r * (2 * n) + (t * stabs.length + s)) := by
      intro i hi
      rw [Finset.mem_filter, Finset.mem_range] at hi
      obtain ⟨hil, hxi, hri, hei⟩ := hi
      have hie := List.getElem?_eq_getElem hil
      generalize g.edges[i] = e at hie
      obtain ⟨h1, h2, j, e', h3, h4, h5⟩ := repEdge_true hie hxi
      have hrj : D.relEdge g j = true := by
        obtain ⟨v, hv⟩ := List.exists_mem_of_ne_nil _ h2
        rw [D.relEdge_vertex h h3 (by rw [h5]; exact hv), ← D.relEdge_vertex h hie hv]; exact hri
      rcases edge_cases h h3 with ⟨t, o, l, ht, hl, hkd, _⟩ | ⟨t, s, ht, hs, hkd, _⟩
      · have hbits := h4
        rw [f.edge_qubit h3 hkd] at hbits
        have hbits := opBit_bits hl hbits
        have hnot : ¬ SynBit erased t l.2 := by
          intro hse
          obtain ⟨b', eb, _, _, _, huniq⟩ := parallel_enabled h hie h2
          have hji : j = i := by
            rw [huniq i e hie rfl h1, huniq j e' h3 h5 (hen j e' t o _ _ h3 hkd hse (by rw [h5]; exact h2))]
          subst hji
          rw [(herI j e' t o _ _ h3 hkd).2 hse] at hei
          cases hei
        refine ⟨.inl (t, l.2), j, e, e', hie, h1, h2, h3, h5, .inl ⟨t, l.2, rfl, ⟨ht, hbits, hnot⟩, ?_⟩⟩
        rw [D.relEdge_qubit h3 hkd hl] at hrj
        have hsd : (l.1 == .X) = D.side l.2 := by simpa using hrj
        rw [(qubit_idx h h3 hkd).1, ← hsd, ← (errorOps_idx hl).1]
      · have hmeas := h4
        rw [f.edge_stab h3 hkd, Nat.add_sub_cancel] at hmeas
        have hmeas := @of_decide_eq_true _ (Classical.propDecidable _) hmeas
        exact ⟨.inr (t, s), j, e, e', hie, h1, h2, h3, h5, .inr ⟨t, s, rfl, ⟨by omega, hs, hmeas⟩, (stab_idx h h3 hkd).1⟩⟩
    choose! ev hev using hev
    have hfin1 : {p : Nat × Fin n | p.1 < r ∧ ((f.data p.1).x p.2 || (f.data p.1).z p.2) = true ∧ ¬ SynBit erased p.1 p.2}.Finite :=
      pairs_finite (fun p => ((f.data p.1).x p.2 || (f.data p.1).z p.2) = true ∧ ¬ SynBit erased p.1 p.2)
    have hfin2 : {p : Nat × Nat | p.1 < r ∧ p.2 < stabs.length ∧ f.meas p.1 p.2}.Finite := pairs_finite' (fun p => f.meas p.1 p.2)
    rw [← Set.ncard_coe_finset]
    have hle := Set.ncard_le_ncard_of_injOn (s := (((Finset.range g.edges.length).filter fun i => x i = true ∧ D.relEdge g i = true ∧ edgeErased g er i = false) : Set Nat))
      (t := Sum.inl '' {p : Nat × Fin n | p.1 < r ∧ ((f.data p.1).x p.2 || (f.data p.1).z p.2) = true ∧ ¬ SynBit erased p.1 p.2} ∪
        Sum.inr '' {p : Nat × Nat | p.1 < r ∧ p.2 < stabs.length ∧ f.meas p.1 p.2}) ev (fun i hi => by
          obtain ⟨j, e, e', _, _, _, _, _, h6⟩ := hev i (Finset.mem_coe.1 hi)
          rcases h6 with ⟨t, q, h6, h7, _⟩ | ⟨t, s, h6, h7, _⟩
          · rw [h6]; exact .inl ⟨(t, q), h7, rfl⟩
          · rw [h6]; exact .inr ⟨(t, s), h7, rfl⟩) (fun i hi i' hi' heq => by
          obtain ⟨j, e, e1, h1, h2, h3, h4, h5, h6⟩ := hev i (Finset.mem_coe.1 hi)
          obtain ⟨j', e', e1', h1', h2', h3', h4', h5', h6'⟩ := hev i' (Finset.mem_coe.1 hi')
          have hjj : j = j' := by
            rcases h6 with ⟨t, q, h6, _, h8⟩ | ⟨t, s, h6, _, h8⟩ <;> rcases h6' with ⟨t', q', h6', _, h8'⟩ | ⟨t', s', h6', _, h8'⟩
            · rw [h6, h6'] at heq; cases heq; rw [h8, h8']
            · rw [h6, h6'] at heq; cases heq
            · rw [h6, h6'] at heq; cases heq
            · rw [h6, h6'] at heq; cases heq; rw [h8, h8']
          subst hjj
          rw [h4] at h4'; cases h4'
          obtain ⟨b', eb, _, _, _, huniq⟩ := parallel_enabled h h1 h3
          rw [huniq i e h1 rfl h2, huniq i' e' h1' (by rw [← h5', h5]) h2']) ((hfin1.image _).union (hfin2.image _))
    refine hle.trans ((Set.ncard_union_le _ _).trans ?_)
    rw [Set.ncard_image_of_injective _ Sum.inl_injective, Set.ncard_image_of_injective _ Sum.inr_injective]
    exact le_rfl
  have hB : ((Finset.range g.edges.length).filter fun i => D.relEdge g i = true ∧ enabledAt g.edges i = true ∧ edgeErased g er i = true).card ≤ erasures n r erased := by
    have hev : ∀ i ∈ (Finset.range g.edges.length).filter (fun i => D.relEdge g i = true ∧ enabledAt g.edges i = true ∧ edgeErased g er i = true),
        ∃ ev : Nat × Fin n, (ev.1 < r ∧ SynBit erased ev.1 ev.2) ∧ i = ev.1 * (2 * n) + (if D.side ev.2 then ev.2.val else n + ev.2.val) := by
      intro i hi
      rw [Finset.mem_filter, Finset.mem_range] at hi
      obtain ⟨hil, hri, _, hei⟩ := hi
      obtain ⟨e, t, o, q, b', h3, hkd, hse⟩ := (edgeErased_iff hbe i).1 hei
      rcases edge_cases h h3 with ⟨t', o', l, ht, hl, hkd', _⟩ | ⟨t', s, ht, hs, hkd', _⟩
      · have hkd2 := hkd'
        rw [hkd, EdgeKind.qubit.injEq] at hkd2
        obtain ⟨rfl, rfl, rfl, _⟩ := hkd2
        refine ⟨(t, l.2), ⟨ht, hse⟩, ?_⟩
        rw [D.relEdge_qubit h3 hkd' hl] at hri
        have hsd : (l.1 == .X) = D.side l.2 := by simpa using hri
        rw [(qubit_idx h h3 hkd').1, ← hsd, ← (errorOps_idx hl).1]
      · rw [hkd] at hkd'; cases hkd'
    rcases isEmpty_or_nonempty (Nat × Fin n) with hemp | hnon
    · rw [Finset.card_eq_zero.2 (Finset.eq_empty_of_forall_notMem fun i hi => hemp.elim (hev i hi).choose)]
      exact Nat.zero_le _
    choose! ev hev using hev
    unfold erasures
    rw [← Set.ncard_coe_finset]
    refine Set.ncard_le_ncard_of_injOn ev (fun i hi => (hev i (Finset.mem_coe.1 hi)).1) (fun i hi i' hi' heq => ?_)
      (pairs_finite (fun p => SynBit erased p.1 p.2))
    rw [(hev i (Finset.mem_coe.1 hi)).2, (hev i' (Finset.mem_coe.1 hi')).2, heq]
  obtain ⟨k0, hk0, hout⟩ := LineSystem.exists_line hfin (Nat.lt_of_le_of_lt (hcard.trans (Nat.add_le_add (Nat.mul_le_mul_left K hA) hB)) hcount)
  refine D.const hstab hk0 hk ?_
  have hzero : ∀ y : Nat → Bool, (∀ i, y i = true → updateResults rs i = true ∨ x i = true) →
      (xsum (List.range g.edges.length) fun i => y i && edgeAnti g (D.T k0) i) = false := by
    intro y hy
    refine xsum_zero fun i hi => ?_
    by_contra hc
    rw [Bool.not_eq_false, Bool.and_eq_true] at hc
    have hil := List.mem_range.1 hi
    have hie := List.getElem?_eq_getElem hil
    refine hout ⟨i, by simpa [SynGraph.verts] using hil, hy i hc.1, ?_⟩
    rcases edge_cases h hie with ⟨t, o, l, ht, hl, hkd, _⟩ | ⟨t, s, ht, hs, hkd, _⟩
    · have h2 := hc.2
      rw [edgeAnti_qubit hie hkd (qubit_idx h hie hkd).2.2] at h2
      show D.seg g i = _
      rw [D.seg_qubit hie hkd, D.line_some.2 ⟨hk0, h2⟩]; rfl
    · have h2 := hc.2
      rw [edgeAnti_stab hie hkd] at h2; cases h2
  rw [← hline k0 hk0, hzero x (fun i hi => .inr hi), hp2]
  exact hzero _ (fun i hi => .inl hi)

end Plaquette
