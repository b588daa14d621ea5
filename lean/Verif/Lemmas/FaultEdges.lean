import Verif.Lemmas.LineSystem
import Verif.Spec.Faults

/-!
# The edges that stand for the faults of a memory experiment
-/

namespace Plaquette
variable {n : Nat} {W σ : Type} [LinearOrder W] {isInf : W → Bool} {r : Nat} {stabs : List (Op n)} {w : Option (Weights W)} {g : SynGraph W} {d : Nat}

/-! ## Sums over all edges -/

theorem xsum_append (l k : List Nat) (f : Nat → Bool) : xsum (l ++ k) f = (xsum l f ^^ xsum k f) := by
  induction l with
  | nil => simp
  | cons a l ih => rw [List.cons_append, xsum_cons, xsum_cons, ih, Bool.xor_assoc]

theorem xsum_range_add (a b : Nat) (f : Nat → Bool) :
    xsum (List.range (a + b)) f = (xsum (List.range a) f ^^ xsum (List.range b) fun i => f (a + i)) := by
  rw [List.range_add, xsum_append, xsum_map]

theorem xsum_range_mul (a b : Nat) (f : Nat → Bool) :
    xsum (List.range (a * b)) f = xsum (List.range a) fun t => xsum (List.range b) fun o => f (t * b + o) := by
  induction a with
  | zero => simp
  | succ a ih => rw [Nat.succ_mul, xsum_range_add, ih, List.range_succ, xsum_append]; simp

/-- The edge of an error on a qubit. -/
theorem qubit_edge (h : mkSynGraph isInf r stabs w = .ok g) {t o : Nat} (ht : t < r) (ho : o < 2 * n) :
    ∃ (e : SEdge W) (l : Letter × Fin n), g.edges[t * (2 * n) + o]? = some e ∧ (errorOps n)[o]? = some l ∧ e.kind = .qubit t o l.2.val (l.1 == .X) ∧
      e.vertices = (flipped stabs (singleOp false l.1 l.2)).map (vertexIdx stabs.length t) ∧ (l.1 = .X ∨ l.1 = .Z) := by
  obtain ⟨h1, h2, h3⟩ := C32_edges h
  have key : ∃ (q : Fin n) (isX : Bool), o = (if isX then q.val else n + q.val) := by
    by_cases hn : o < n
    · exact ⟨⟨o, hn⟩, true, rfl⟩
    · exact ⟨⟨o - n, by omega⟩, false, by simp; omega⟩
  obtain ⟨q, isX, rfl⟩ := key
  obtain ⟨e, i, rfl, he, hk, _⟩ := h2 t ht q isX
  rcases edge_cases h he with ⟨t', o', l, _, hl, hk', hv, _⟩ | ⟨t', s, _, _, hk', _⟩
  · have hk2 := hk'
    rw [hk, EdgeKind.qubit.injEq] at hk2
    obtain ⟨rfl, rfl, _⟩ := hk2
    refine ⟨e, l, he, hl, hk', hv, ?_⟩
    · cases isX
      · simp only [Bool.false_eq_true, if_false, errorOps_Z] at hl
        cases hl; exact .inr rfl
      · simp only [if_true, errorOps_X] at hl
        cases hl; exact .inl rfl
  · rw [hk] at hk'; cases hk'

/-- All edges. -/
theorem edge_index (h : mkSynGraph isInf r stabs w = .ok g) {i : Nat} (hi : i < g.edges.length) :
    (∃ t o, t < r ∧ o < 2 * n ∧ i = t * (2 * n) + o) ∨ ∃ t s, t + 1 < r ∧ s < stabs.length ∧ i = r * (2 * n) + (t * stabs.length + s) := by
  rw [(C32_edges h).1] at hi
  by_cases hlt : i < r * (2 * n)
  · left
    have hn : 0 < 2 * n := by
      by_contra h0
      have : 2 * n = 0 := by omega
      rw [this] at hlt; simp at hlt
    exact ⟨i / (2 * n), i % (2 * n), Nat.div_lt_of_lt_mul (by rw [Nat.mul_comm]; exact hlt), Nat.mod_lt _ hn, by rw [Nat.mul_comm]; exact (Nat.div_add_mod _ _).symm⟩
  · right
    have hlt2 : i - r * (2 * n) < (r - 1) * stabs.length := by omega
    have hm : 0 < stabs.length := by
      by_contra h0
      have : stabs.length = 0 := by omega
      rw [this] at hlt2; simp at hlt2
    obtain ⟨j, hj⟩ : ∃ j, j = i - r * (2 * n) := ⟨_, rfl⟩
    rw [← hj] at hlt2
    have h1 : j / stabs.length < r - 1 := Nat.div_lt_of_lt_mul (by rw [Nat.mul_comm]; exact hlt2)
    refine ⟨j / stabs.length, j % stabs.length, Nat.add_lt_of_lt_sub h1, Nat.mod_lt _ hm, ?_⟩
    have := Nat.div_add_mod j stabs.length
    rw [Nat.mul_comm] at this
    rw [this]
    omega

/-- A sum over all edges. -/
theorem edges_sum (h : mkSynGraph isInf r stabs w = .ok g) (F : Nat → Bool) :
    xsum (List.range g.edges.length) F = ((xsum (List.range r) fun t => xsum (List.range (2 * n)) fun o => F (t * (2 * n) + o)) ^^
      xsum (List.range (r - 1)) fun t => xsum (List.range stabs.length) fun s => F (r * (2 * n) + (t * stabs.length + s))) := by
  rw [(C32_edges h).1, xsum_range_add, xsum_range_mul, xsum_range_mul]

/-- Anticommutation as a sum over single-qubit errors. -/
theorem anti_ops (p m : Op n) : anti p m = xsum (List.range (2 * n)) fun o =>
    (match (errorOps n)[o]? with | some l => if l.1 == .X then p.x l.2 else p.z l.2 | none => false) && opAnti m o := by
  have h2 : 2 * n = n + n := by omega
  rw [h2, xsum_range_add]
  refine sgn_injective ?_
  rw [sgn_anti, sgn_xor]
  have key : ∀ (f : Nat → Bool), sgn (xsum (List.range n) f) = ∏ q : Fin n, sgn (f q.val) := by
    intro f
    have h3 : ∀ m, sgn (xsum (List.range m) f) = ∏ q ∈ Finset.range m, sgn (f q) := by
      intro m
      induction m with
      | zero => simp [sgn]
      | succ m ih => rw [List.range_succ, xsum_append, sgn_xor, ih, Finset.prod_range_succ]; simp
    rw [h3, Finset.prod_range]
  rw [key, key, ← Finset.prod_mul_distrib]
  refine Finset.prod_congr rfl fun q _ => ?_
  rw [← sgn_xor]
  congr 1
  simp only [errorOps_X, errorOps_Z, opAnti]
  rw [anti_symm _ m, anti_symm _ m, anti_Z, anti_X]
  simp only [antiBit, letter_beq.1.1]
  simp

/-! ## The edges of the faults -/

/-- The part of an operator that is the given single-qubit error. -/
def opBit (p : Op n) (o : Nat) : Bool := match (errorOps n)[o]? with | some l => if l.1 == .X then p.x l.2 else p.z l.2 | none => false

/-- Whether the error of an edge anticommutes with an operator. -/
def edgeAnti (g : SynGraph W) (m : Op n) (i : Nat) : Bool := xsum (List.range (2 * n)) fun o => opIs g.edges i o && opAnti m o

omit [LinearOrder W] in
theorem edgeAnti_qubit {i : Nat} {e : SEdge W} (he : g.edges[i]? = some e) {t o q : Nat} {b : Bool} (hk : e.kind = .qubit t o q b) (ho : o < 2 * n)
    (m : Op n) : edgeAnti g m i = opAnti m o := by
  unfold edgeAnti
  rw [xsum_single List.nodup_range (List.mem_range.2 ho)]
  · simp [opIs, he, hk, EdgeKind.op]
  · intro j _ hj
    have : (o = j) = False := eq_false (Ne.symm hj)
    simp [opIs, he, hk, EdgeKind.op, this]

omit [LinearOrder W] in
theorem edgeAnti_stab {i : Nat} {e : SEdge W} (he : g.edges[i]? = some e) {t s : Nat} (hk : e.kind = .stab t s) (m : Op n) : edgeAnti g m i = false := by
  refine xsum_zero fun j _ => ?_
  simp [opIs, he, hk, EdgeKind.op]

open Classical in
/-- The edges of the faults: those of the errors on the data, and those of the wrong outcomes. -/
noncomputable def Faults.edge (f : Faults n) (g : SynGraph W) (i : Nat) : Bool :=
  match (g.edges[i]?).map SEdge.kind with
  | some (.qubit t o _ _) => opBit (f.data t) o
  | some (.stab t s) => decide (f.meas (t - 1) s)
  | none => false

omit [LinearOrder W] in
theorem Faults.edge_qubit (f : Faults n) {i : Nat} {e : SEdge W} (he : g.edges[i]? = some e) {t o q : Nat} {b : Bool} (hk : e.kind = .qubit t o q b) :
    f.edge g i = opBit (f.data t) o := by
  unfold Faults.edge; rw [he]; simp only [Option.map_some, hk]

open Classical in
omit [LinearOrder W] in
theorem Faults.edge_stab (f : Faults n) {i : Nat} {e : SEdge W} (he : g.edges[i]? = some e) {t s : Nat} (hk : e.kind = .stab t s) :
    f.edge g i = decide (f.meas (t - 1) s) := by
  unfold Faults.edge; rw [he]; simp only [Option.map_some, hk]

/-- Together the errors are the product of the errors of the rounds. -/
theorem Faults.frame (f : Faults n) (h : mkSynGraph isInf r stabs w = .ok g) (m : Op n) :
    (xsum (List.range g.edges.length) fun i => f.edge g i && edgeAnti g m i) = xsum (List.range r) fun t => anti (f.data t) m := by
  rw [edges_sum h]
  have h2 : (xsum (List.range (r - 1)) fun t => xsum (List.range stabs.length) fun s =>
      f.edge g (r * (2 * n) + (t * stabs.length + s)) && edgeAnti g m (r * (2 * n) + (t * stabs.length + s))) = false := by
    refine xsum_zero fun t ht => xsum_zero fun s hs => ?_
    obtain ⟨e, he, hk, _⟩ := (C32_edges h).2.2 t (by have := List.mem_range.1 ht; omega) s (List.mem_range.1 hs)
    rw [edgeAnti_stab he hk, Bool.and_false]
  rw [h2, Bool.xor_false]
  refine xsum_congr fun t ht => ?_
  rw [anti_ops]
  refine xsum_congr fun o ho => ?_
  obtain ⟨e, l, he, hl, hk, _⟩ := qubit_edge h (List.mem_range.1 ht) (List.mem_range.1 ho)
  rw [f.edge_qubit he hk, edgeAnti_qubit he hk (List.mem_range.1 ho)]
  rfl

theorem vertex_inj {m t s t' s' : Nat} (hs : s < m) (hs' : s' < m) (h : t * m + s = t' * m + s') : t = t' ∧ s = s' := by
  have h1 : s = s' := by
    have := congrArg (· % m) h
    simp only [Nat.mul_add_mod_self_right, Nat.mod_eq_of_lt hs, Nat.mod_eq_of_lt hs'] at this
    exact this
  subst h1
  have h2 : t * m = t' * m := by omega
  exact ⟨Nat.eq_of_mul_eq_mul_right (by omega) h2, rfl⟩

theorem touches_qubit (h : mkSynGraph isInf r stabs w = .ok g) {t o : Nat} (ht : t < r) (ho : o < 2 * n) {t' s : Nat} {gen : Op n} (hs : stabs[s]? = some gen) :
    touches g.verts (t * (2 * n) + o) (t' * stabs.length + s) = (decide (t = t') && opAnti gen o) := by
  obtain ⟨e, l, he, hl, hk, hv, _⟩ := qubit_edge h ht ho
  have hsl := (List.getElem?_eq_some_iff.1 hs).1
  rw [touches_some (verts_get he), hv]
  refine Bool.eq_iff_iff.2 ?_
  rw [decide_eq_true_eq, List.mem_map, Bool.and_eq_true, decide_eq_true_eq]
  unfold opAnti
  simp only [hl]
  rw [← anticommutes_iff]
  constructor
  · rintro ⟨s', h1, h2⟩
    obtain ⟨h3, h4⟩ := vertex_inj (LineSystem.flipped_lt h1) hsl h2
    subst h4
    rw [mem_flipped] at h1
    obtain ⟨gen', h5, h6⟩ := h1
    rw [hs] at h5; cases h5
    exact ⟨h3, h6⟩
  · rintro ⟨rfl, h6⟩
    exact ⟨s, mem_flipped.2 ⟨gen, hs, h6⟩, rfl⟩

theorem touches_stab (h : mkSynGraph isInf r stabs w = .ok g) {t s : Nat} (ht : t + 1 < r) (hs : s < stabs.length) {t' s' : Nat} (hs' : s' < stabs.length) :
    touches g.verts (r * (2 * n) + (t * stabs.length + s)) (t' * stabs.length + s') = (decide (s = s') && (decide (t = t') || decide (t + 1 = t'))) := by
  obtain ⟨e, he, hk, hv⟩ := (C32_edges h).2.2 t ht s hs
  rw [touches_some (verts_get he), hv]
  refine Bool.eq_iff_iff.2 ?_
  simp only [decide_eq_true_eq, List.mem_cons, List.not_mem_nil, or_false, Bool.and_eq_true, Bool.or_eq_true]
  constructor
  · rintro (h1 | h1)
    · obtain ⟨rfl, rfl⟩ := vertex_inj hs' hs h1; simp
    · obtain ⟨rfl, rfl⟩ := vertex_inj hs' hs h1; simp
  · rintro ⟨rfl, rfl | rfl⟩ <;> simp

/-- The faults explain the syndrome they show. -/
theorem Faults.Shows.bd {f : Faults n} {syn : Option (List (List Bool))} (hf : f.Shows r stabs syn) (h : mkSynGraph isInf r stabs w = .ok g)
    {sy : List (List Bool)} (hbit : ∀ t s, at2 sy t s = true ↔ SynBit syn t s) :
    ∀ v, v < r * stabs.length → bd g.verts (f.edge g) v = vertexSyndrome g sy v := by
  classical
  intro v hv
  have hm0 : 0 < stabs.length := by
    by_contra h0
    have : stabs.length = 0 := by omega
    rw [this] at hv; simp at hv
  obtain ⟨t, s, ht, hs, rfl⟩ : ∃ t s, t < r ∧ s < stabs.length ∧ v = t * stabs.length + s :=
    ⟨v / stabs.length, v % stabs.length, Nat.div_lt_of_lt_mul (by rw [Nat.mul_comm]; exact hv), Nat.mod_lt _ hm0,
      by rw [Nat.mul_comm]; exact (Nat.div_add_mod _ _).symm⟩
  have hgen := List.getElem?_eq_getElem hs
  refine Bool.eq_iff_iff.2 ?_
  rw [vertexSyndrome_iff h hbit hs, hf.bit t ht s _ hgen]
  have hlen : g.verts.length = g.edges.length := by simp [SynGraph.verts]
  unfold Plaquette.bd
  rw [hlen, edges_sum h]
  have e1 : (xsum (List.range r) fun t' => xsum (List.range (2 * n)) fun o =>
      f.edge g (t' * (2 * n) + o) && touches g.verts (t' * (2 * n) + o) (t * stabs.length + s)) = anti (f.data t) stabs[s] := by
    rw [xsum_single List.nodup_range (List.mem_range.2 ht)]
    · rw [anti_ops]
      refine xsum_congr fun o ho => ?_
      obtain ⟨e, l, he, hl, hk, _⟩ := qubit_edge h ht (List.mem_range.1 ho)
      rw [f.edge_qubit he hk, touches_qubit h ht (List.mem_range.1 ho) hgen]
      simp [opBit]
    · intro t' ht' hne
      refine xsum_zero fun o ho => ?_
      rw [touches_qubit h (List.mem_range.1 ht') (List.mem_range.1 ho) hgen]
      simp [hne]
  have e2 : (xsum (List.range (r - 1)) fun t' => xsum (List.range stabs.length) fun s' =>
      f.edge g (r * (2 * n) + (t' * stabs.length + s')) && touches g.verts (r * (2 * n) + (t' * stabs.length + s')) (t * stabs.length + s)) =
      (decide (f.meas t s) ^^ decide (0 < t ∧ f.meas (t - 1) s)) := by
    have e3 : (xsum (List.range (r - 1)) fun t' => xsum (List.range stabs.length) fun s' =>
        f.edge g (r * (2 * n) + (t' * stabs.length + s')) && touches g.verts (r * (2 * n) + (t' * stabs.length + s')) (t * stabs.length + s)) =
        xsum (List.range (r - 1)) fun t' => (decide (t' = t) && decide (f.meas t' s)) ^^ (decide (t' + 1 = t) && decide (f.meas t' s)) := by
      refine xsum_congr fun t' ht' => ?_
      have ht2 : t' + 1 < r := by have := List.mem_range.1 ht'; omega
      rw [xsum_single List.nodup_range (List.mem_range.2 hs)]
      · obtain ⟨e, he, hk, _⟩ := (C32_edges h).2.2 t' ht2 s hs
        rw [f.edge_stab he hk, touches_stab h ht2 hs hs, Nat.add_sub_cancel]
        by_cases a1 : t' = t
        · subst a1; simp
        · by_cases a2 : t' + 1 = t <;> simp [a1, a2]
      · intro s' hs' hne
        rw [touches_stab h ht2 (List.mem_range.1 hs') hs]
        simp [hne]
    rw [e3, xsum_xor]
    congr 1
    · by_cases hlt : t + 1 < r
      · rw [xsum_single (i := t) List.nodup_range (List.mem_range.2 (by omega)) (fun j _ hj => by simp [hj])]
        simp
      · rw [xsum_zero (fun j hj => by
          have : j ≠ t := by have := List.mem_range.1 hj; omega
          simp [this])]
        rw [decide_eq_false (hf.last t s (by omega))]
    · by_cases h0 : 0 < t
      · rw [xsum_single (i := t - 1) List.nodup_range (List.mem_range.2 (by omega)) (fun j _ hj => by
          have : j + 1 ≠ t := by omega
          simp [this])]
        have : t - 1 + 1 = t := by omega
        simp [this, h0]
      · rw [xsum_zero (fun j hj => by
          have : j + 1 ≠ t := by omega
          simp [this])]
        simp [h0]
  rw [e1, e2]
  rw [anticommutes_iff, anti_symm]
  by_cases a1 : anti (f.data t) stabs[s] = true <;> by_cases a2 : f.meas t s <;> by_cases a3 : 0 < t ∧ f.meas (t - 1) s <;>
    simp [a1, a2, a3, Xor]

end Plaquette
