import Mathlib.Data.Set.Card
import Verif.Lemmas.SynMain

/-!
# Properties of the syndrome graph (C32–C34)

`W` is the type of weights (any linear order); `none` is the weight `nan` of a graph without weights.
-/

namespace Plaquette
variable {W : Type} [LinearOrder W] {n : Nat} {isInf : W → Bool} {r : Nat} {stabs : List (Op n)} {w : Option (Weights W)}
  {g : SynGraph W}

/-! ### C32 -/

/-- The Pauli error `X` or `Z` on one qubit. -/
def errorOn (isX : Bool) (q : Fin n) : Op n := singleOp false (if isX then .X else .Z) q

/-- **C32** The edges of the syndrome graph of `r` rounds and `m` stabilisers: for every round and every data qubit one edge for the error
`X` and one for `Z`, whose vertices are those of the stabilisers that anticommute with the error in that round (at most two); for
every stabiliser one edge between each round and the next one; no other edges. Vertex `t * m + s` stands for stabiliser `s` in
round `t`. -/
theorem C32_edges (h : mkSynGraph isInf r stabs w = .ok g) :
    g.edges.length = r * (2 * n) + (r - 1) * stabs.length ∧
    (∀ t < r, ∀ (q : Fin n) (isX : Bool), ∃ e i, i = (if isX then q.val else n + q.val) ∧ g.edges[t * (2 * n) + i]? = some e ∧
      e.kind = .qubit t i q.val isX ∧ e.vertices.Nodup ∧ e.vertices.length ≤ 2 ∧
      ∀ v, v ∈ e.vertices ↔ ∃ s gen, stabs[s]? = some gen ∧ v = t * stabs.length + s ∧ Anticommutes (opMat (errorOn isX q)) (opMat gen)) ∧
    ∀ t, t + 1 < r → ∀ s < stabs.length, ∃ e, g.edges[r * (2 * n) + (t * stabs.length + s)]? = some e ∧
      e.kind = .stab (t + 1) s ∧ e.vertices = [t * stabs.length + s, (t + 1) * stabs.length + s] := by
  obtain ⟨qs, es, k, hB⟩ := mkSynGraph_built h
  have hsh := hB.shape.symm
  obtain ⟨hlen, hq⟩ := qubitEdges_spec hB.qubit
  obtain ⟨slen, hs⟩ := stabEdges_spec (W := W) r stabs.length
  refine ⟨?_, fun t ht q isX => ?_, fun t ht s hs' => ?_⟩
  · rw [← shape_len, ← hsh, shape_len, rawEdges, List.length_append, hlen, slen]
  · obtain ⟨i, hi, hio⟩ : ∃ i, i = (if isX then q.val else n + q.val) ∧ (errorOps n)[i]? = some (if isX then .X else .Z, q) := by
      cases isX with
      | true => exact ⟨_, rfl, errorOps_X q⟩
      | false => exact ⟨_, rfl, errorOps_Z q⟩
    obtain ⟨h2, he⟩ := hq t i _ ht hio
    have hlt : t * (2 * n) + i < qs.length := by
      exact (List.getElem?_eq_some_iff.mp he).1
    have he' : (rawEdges r stabs qs)[t * (2 * n) + i]? = some _ := (List.getElem?_append_left hlt).trans he
    obtain ⟨e, e1, e2, e3⟩ := shape_get hsh he'
    refine ⟨e, i, hi, e1, ?_, ?_, ?_, ?_⟩
    · rw [e3]
      cases isX <;> rfl
    · rw [e2]
      refine List.Nodup.map_on (fun a _ b _ hab => ?_) ((flipped_sorted stabs _).imp fun h => Nat.ne_of_lt h)
      simpa [vertexIdx] using hab
    · rw [e2, List.length_map]; exact h2
    · intro v
      rw [e2]
      simp only [List.mem_map, mem_flipped]
      constructor
      · rintro ⟨s, ⟨gen, a, b⟩, rfl⟩
        exact ⟨s, gen, a, rfl, b⟩
      · rintro ⟨s, gen, a, rfl, b⟩
        exact ⟨s, ⟨gen, a, b⟩, rfl⟩
  · have he := hs t s (by omega) hs'
    have he' : (rawEdges r stabs qs)[r * (2 * n) + (t * stabs.length + s)]? = some (stabEdge stabs.length (t + 1) s) := by
      unfold rawEdges
      rw [List.getElem?_append_right (by omega), hlen, Nat.add_sub_cancel_left]
      exact he
    obtain ⟨e, e1, e2, e3⟩ := shape_get hsh he'
    exact ⟨e, e1, e3, e2⟩

/-- The number of generators that anticommute with an error. -/
noncomputable def numFlipped (stabs : List (Op n)) (e : Op n) : Nat :=
  {s : Nat | ∃ gen, stabs[s]? = some gen ∧ Anticommutes (opMat e) (opMat gen)}.ncard

theorem numFlipped_eq (stabs : List (Op n)) (e : Op n) : numFlipped stabs e = (flipped stabs e).length := by
  have hn : (flipped stabs e).Nodup := (flipped_sorted stabs e).imp fun h => Nat.ne_of_lt h
  have : {s : Nat | ∃ gen, stabs[s]? = some gen ∧ Anticommutes (opMat e) (opMat gen)} = ((flipped stabs e).toFinset : Set Nat) := by
    ext s
    simp only [Set.mem_setOf_eq, List.coe_toFinset, mem_flipped]
  unfold numFlipped
  rw [this, Set.ncard_coe_finset, List.toFinset_card_of_nodup hn]

theorem qubitEdges_ok_iff : (∃ qs : List (SEdge W), qubitEdges r stabs = .ok qs) ↔
    r = 0 ∨ ∀ (isX : Bool) (q : Fin n), numFlipped stabs (errorOn isX q) ≤ 2 := by
  constructor
  · rintro ⟨qs, h⟩
    rcases Nat.eq_zero_or_pos r with h0 | h0
    · exact .inl h0
    · refine .inr fun isX q => ?_
      rw [numFlipped_eq]
      cases isX with
      | true => exact ((qubitEdges_spec h).2 0 _ _ h0 (errorOps_X q)).1
      | false => exact ((qubitEdges_spec h).2 0 _ _ h0 (errorOps_Z q)).1
  · intro h
    have hl : ∃ L, mapLoop (fun t => mapLoop (qubitEdge (W := W) stabs t) (errorOps n).zipIdx) (List.range r) = .ok L := by
      rw [mapLoop_ok_iff]
      intro t ht
      rw [mapLoop_ok_iff]
      intro o ho
      rcases h with h | h
      · rw [h] at ht; cases ht
      · refine ⟨_, qubitEdge_ok_iff.mpr ⟨?_, rfl⟩⟩
        obtain ⟨⟨l, q⟩, i⟩ := o
        have hm : (l, q) ∈ errorOps n := by
          have := List.mem_zipIdx ho
          rw [this.2.2]
          exact List.getElem_mem _
        unfold errorOps at hm
        rcases List.mem_append.mp hm with hm | hm
        · obtain ⟨q', -, hq⟩ := List.mem_map.mp hm
          cases hq
          rw [← numFlipped_eq]
          exact h true q
        · obtain ⟨q', -, hq⟩ := List.mem_map.mp hm
          cases hq
          rw [← numFlipped_eq]
          exact h false q
    obtain ⟨L, hL⟩ := hl
    exact ⟨L.flatten, by unfold qubitEdges; rw [hL]⟩

/-- **C32** Without weights the graph can be built exactly if there is a stabiliser and every single-qubit error `X` or `Z` flips at most
two of them (with no rounds the second condition is void). -/
theorem C32_defined : (∃ g, mkSynGraph isInf r stabs none = .ok g) ↔
    stabs ≠ [] ∧ (r = 0 ∨ ∀ (isX : Bool) (q : Fin n), numFlipped stabs (errorOn isX q) ≤ 2) := by
  rw [← qubitEdges_ok_iff (W := W)]
  constructor
  · rintro ⟨g, h⟩
    obtain ⟨qs, es, k, hB⟩ := mkSynGraph_built h
    exact ⟨hB.ne, qs, hB.qubit⟩
  · rintro ⟨hne, qs, hq⟩
    refine mkSynGraph_total hne hq (w := none) rfl ?_
    have hN : ∀ i, weightAt (rawEdges r stabs qs) i = none := by
      intro i
      cases he : (rawEdges r stabs qs)[i]? with
      | none => simp [weightAt, he]
      | some e => rw [weightAt_get he]; exact (rawEdges_plain hq e (List.mem_of_getElem? he)).1
    intro i j _ _
    rw [hN, hN]

/-- The stabilisers of the repetition code of size 3. -/
def rep3Stabs : List (Op 3) := [mulOp (singleOp false .Z 0) (singleOp false .Z 1), mulOp (singleOp false .Z 1) (singleOp false .Z 2)]

/-- Weights for it: 5 and 9 for `X` on the outer qubits, 7 for the middle one; 99 is infinite. -/
def rep3Weights : Weights Nat := ⟨.arr [some 5, some 7, some 99], .num (some 99), .num (some 2)⟩

/-- The edges of two rounds with their weights: dangling edges for the outer qubits, no vertices for `Z`, measurement edges between the
rounds. -/
example : (mkSynGraph (· == 99) 2 rep3Stabs (some rep3Weights)).map (fun g => g.edges.map fun e => (e.vertices, e.weight, e.enabled)) =
    .ok [([0], some 5, true), ([0, 1], some 7, true), ([1], some 99, false), ([], some 99, false), ([], some 99, false), ([], some 99, false),
      ([2], some 5, true), ([2, 3], some 7, true), ([3], some 99, false), ([], some 99, false), ([], some 99, false), ([], some 99, false),
      ([0, 2], some 2, true), ([1, 3], some 2, true)] := by decide +kernel

/-! ### C33 -/

/-- The weight `x` is the number that was given, the single entry of the array, or entry `i` of the array. -/
def WeightFor (a : WArg W) (i : Nat) (x : Option W) : Prop :=
  match a with
  | .num y => x = y
  | .arr [y] => x = y
  | .arr l => l[i]? = some x

/-- The weight given for an error: `pauliX` and `pauliZ` by qubit, `measurement` by stabiliser. -/
def GivenWeight (w : Option (Weights W)) (kind : EdgeKind) (x : Option W) : Prop :=
  match w with
  | none => x = none
  | some w => match kind with
    | .qubit _ _ q isX => WeightFor (if isX then w.pauliX else w.pauliZ) q x
    | .stab _ s => WeightFor w.measurement s x

omit [LinearOrder W] in
theorem broadcastW_for {m i : Nat} {a : WArg W} {l : List (Option W)} {x : Option W} (h : broadcastW m a = .ok l) (hi : l[i]? = some x) :
    WeightFor a i x := by
  have hrep : ∀ (k : Nat) (y : Option W), (List.replicate k y)[i]? = some x → x = y := by
    intro k y hk
    rw [List.getElem?_replicate] at hk
    split at hk
    · exact (Option.some.inj hk).symm
    · cases hk
  cases a with
  | num y =>
    cases h
    exact hrep _ _ hi
  | arr l' =>
    unfold broadcastW at h
    match l' with
    | [] =>
      dsimp only at h
      split at h
      · cases h; exact hi
      · split at h <;> cases h
        exact hi
    | [y] =>
      dsimp only at h
      split at h
      · cases h
        match i with
        | 0 => exact (Option.some.inj hi).symm
        | i + 1 => simp at hi
      · cases h
        exact hrep _ _ hi
    | y :: z :: l' =>
      dsimp only at h
      split at h
      · cases h; exact hi
      · split at h <;> cases h
        exact hi

/-- **C33** Every edge keeps the weight that was given for it. -/
theorem C33_weights (h : mkSynGraph isInf r stabs w = .ok g) : ∀ e ∈ g.edges, GivenWeight w e.kind e.weight := by
  obtain ⟨qs, es, k, hB⟩ := mkSynGraph_built h
  intro e he
  obtain ⟨i, hi⟩ := List.mem_iff_getElem?.mp he
  obtain ⟨e0, h0, hk, hw⟩ := hB.get hi
  have := (optWeights_get hB.weights (rawEdges_plain hB.qubit) e0 (List.mem_of_getElem? h0)).2
  rw [hk, hw] at this
  unfold GivenWeight
  cases w with
  | none => exact this
  | some w =>
    obtain ⟨px, pz, ms, h1, h2, h3, hx⟩ := this
    dsimp only
    cases hkind : e.kind with
    | qubit t i q isX =>
      rw [hkind] at hx
      cases isX with
      | true => exact broadcastW_for h1 hx
      | false => exact broadcastW_for h2 hx
    | stab t s =>
      rw [hkind] at hx
      exact broadcastW_for h3 hx

/-- **C33** Among all edges with the same vertices (at least one vertex) there is one, `b`, that is as light as every other one, and
exactly that edge stays enabled – unless its weight is infinite, and then none. Without weights it is the first edge; a group in
which only some edges have a weight does not occur. -/
theorem C33_parallel (h : mkSynGraph isInf r stabs w = .ok g) {i : Nat} {e : SEdge W} (he : g.edges[i]? = some e) (hv : e.vertices ≠ []) :
    ∃ (b : Nat) (eb : SEdge W), g.edges[b]? = some eb ∧ eb.vertices = e.vertices ∧
      ∀ (j : Nat) (ej : SEdge W), g.edges[j]? = some ej → ej.vertices = e.vertices →
        (∀ x y, eb.weight = some x → ej.weight = some y → x ≤ y) ∧ (ej.weight.isSome ↔ eb.weight.isSome) ∧
        (ej.enabled = true ↔ j = b ∧ ∀ x, eb.weight = some x → isInf x = false) := by
  obtain ⟨qs, es, k, hB⟩ := mkSynGraph_built h
  obtain ⟨hW, -, hen, hbest⟩ := disableDuplicates_spec hB.inf_lt hB.dup
  have hve : ∀ (i : Nat) (e : SEdge W), g.edges[i]? = some e → vertsAt (disableInf isInf es) i = e.vertices := fun i e he => by
    rw [← hW.verts, vertsAt_get he]
  have hwe : ∀ (i : Nat) (e : SEdge W), g.edges[i]? = some e → weightAt (disableInf isInf es) i = e.weight := fun i e he => by
    rw [← hW.weight, weightAt_get he]
  obtain ⟨b, hb1, hb2⟩ := hbest i (by rw [hve i e he]; exact hv)
  rw [hve i e he] at hb1
  obtain ⟨eb, heb⟩ := vertsAt_ne (es := g.edges) (i := b) (by rw [hW.verts, hb1]; exact hv)
  refine ⟨b, eb, heb, by rw [← hve b eb heb, hb1], fun j ej hej hvj => ?_⟩
  have hprec : j ≠ b → Prec (disableInf isInf es) b j := hb2 j (by rw [hve j ej hej, hvj, hb1])
  refine ⟨fun x y hx hy => ?_, ?_, ?_⟩
  · by_cases hjb : j = b
    · subst hjb
      rw [heb] at hej
      cases hej
      rw [hx] at hy
      cases hy
      exact le_refl _
    · have := hprec hjb
      unfold Prec at this
      rw [hwe b eb heb, hwe j ej hej, hx, hy] at this
      rcases this with h | h
      · exact h.le
      · exact h.1.le
  · by_cases hjb : j = b
    · subst hjb
      rw [heb] at hej
      cases hej
      rfl
    · have := hprec hjb
      unfold Prec at this
      rw [hwe b eb heb, hwe j ej hej] at this
      cases hx : eb.weight <;> cases hy : ej.weight <;> rw [hx, hy] at this <;> simp_all
  · rw [← enabledAt_get hej, hen j (by rw [hve j ej hej, hvj]; exact hv), disableInf_enabled]
    have hplain : enabledAt es j = true := by
      obtain ⟨e0, h0, -, -⟩ := hB.get hej
      rw [enabledAt_get h0]
      exact (optWeights_get hB.weights (rawEdges_plain hB.qubit) e0 (List.mem_of_getElem? h0)).1
    have hwj : weightAt es j = ej.weight := by rw [← disableInf_weight isInf, hwe j ej hej]
    rw [hwj]
    constructor
    · rintro ⟨⟨-, h1⟩, h2⟩
      have hjb : j = b := by
        by_contra hne
        exact (hprec hne).asymm (h2 b (by rw [hve j ej hej, hvj, hb1]) (Ne.symm hne))
      subst hjb
      rw [heb] at hej
      cases hej
      exact ⟨rfl, h1⟩
    · rintro ⟨rfl, h1⟩
      rw [heb] at hej
      cases hej
      exact ⟨⟨hplain, h1⟩, hb2⟩

/-- **C33** An edge without vertices stays enabled unless its weight is infinite. -/
theorem C33_no_vertices (h : mkSynGraph isInf r stabs w = .ok g) {e : SEdge W} (he : e ∈ g.edges) (hv : e.vertices = []) :
    e.enabled = true ↔ ∀ x, e.weight = some x → isInf x = false := by
  obtain ⟨qs, es, k, hB⟩ := mkSynGraph_built h
  obtain ⟨hW, hno, -, -⟩ := disableDuplicates_spec hB.inf_lt hB.dup
  obtain ⟨i, hi⟩ := List.mem_iff_getElem?.mp he
  obtain ⟨e0, h0, hk, hw⟩ := hB.get hi
  have hplain : enabledAt es i = true := by
    rw [enabledAt_get h0]
    exact (optWeights_get hB.weights (rawEdges_plain hB.qubit) e0 (List.mem_of_getElem? h0)).1
  rw [← enabledAt_get hi, hno i (by rw [← hW.verts, vertsAt_get hi, hv]), disableInf_enabled, weightAt_get h0, hw]
  exact ⟨fun h => h.2, fun h => ⟨hplain, h⟩⟩

/-- Two qubits and the stabiliser `ZZ`: the errors `X` on either qubit are parallel edges. -/
example : (mkSynGraph (· == 99) 1 [mulOp (singleOp false .Z (0 : Fin 2)) (singleOp false .Z 1)]
      (some ⟨.arr [some 8, some 3], .num (some 1), .num (some 1)⟩)).map (fun g => g.edges.map fun e => (e.vertices, e.weight, e.enabled)) =
    .ok [([0], some 8, false), ([0], some 3, true), ([], some 1, true), ([], some 1, true)] := by decide +kernel

/-- Weights and missing weights on parallel edges: `ValueError`. -/
example : (mkSynGraph (· == 99) 1 [mulOp (singleOp false .Z (0 : Fin 2)) (singleOp false .Z 1)]
      (some ⟨.arr [some 8, none], .num (some 1), .num (some 1)⟩)).map (fun g => g.edges) = .error .valueError := by decide +kernel

/-! ### C34 -/

/-- Joined by a path of enabled edges. -/
def Joined (es : List (SEdge W)) : Nat → Nat → Prop :=
  Relation.ReflTransGen fun u v => ∃ e ∈ es, e.enabled = true ∧ u ∈ e.vertices ∧ v ∈ e.vertices

omit [LinearOrder W] in
theorem joined_iff {es : List (SEdge W)} {u v : Nat} : Joined es u v ↔ SConn es u v := by
  have : (fun u v => ∃ e ∈ es, e.enabled = true ∧ u ∈ e.vertices ∧ v ∈ e.vertices) = SAdj es := by
    funext u v
    refine propext ⟨?_, ?_⟩
    · rintro ⟨e, he, a, b, c⟩
      obtain ⟨i, hi⟩ := List.mem_iff_getElem?.mp he
      exact ⟨i, by rw [enabledAt_get hi]; exact a, by rw [vertsAt_get hi]; exact b, by rw [vertsAt_get hi]; exact c⟩
    · rintro ⟨i, a, b, c⟩
      obtain ⟨e, he⟩ := vertsAt_ne (List.ne_nil_of_mem b)
      rw [enabledAt_get he] at a
      rw [vertsAt_get he] at b c
      exact ⟨e, List.mem_of_getElem? he, a, b, c⟩
  unfold Joined SConn
  rw [this]

/-- **C34** The components are a partition of the vertices: every vertex is in exactly one component, once, and two vertices are in the
same one exactly if they are joined by a path of enabled edges. -/
theorem C34_vertices (h : mkSynGraph isInf r stabs w = .ok g) :
    (∀ c ∈ g.components, c.vertexIdx ≠ [] ∧ c.vertexIdx.Nodup ∧ ∀ v ∈ c.vertexIdx, v < r * stabs.length) ∧
    (∀ v < r * stabs.length, ∃! k : Nat, ∃ c : Component W, g.components[k]? = some c ∧ v ∈ c.vertexIdx) ∧
    ∀ c ∈ g.components, ∀ u ∈ c.vertexIdx, ∀ v, v ∈ c.vertexIdx ↔ Joined g.edges u v := by
  obtain ⟨qs, es, k, hB⟩ := mkSynGraph_built h
  obtain ⟨hF, hall⟩ := hB.found
  refine ⟨fun c hc => ?_, fun v hv => ?_, fun c hc u hu v => ?_⟩
  · obtain ⟨x, hx, -, hv, -, hs, -⟩ := hB.mem_component hc
    refine ⟨fun h0 => ?_, hs.imp fun h => Nat.ne_of_lt h, fun v hvc => (hF.lt v x ((hv v).mp hvc)).2⟩
    obtain ⟨v, hvx⟩ := hF.ne x hx
    have := (hv v).mpr hvx
    rw [h0] at this
    cases this
  · obtain ⟨x, hx, hvx⟩ := hall v hv
    have hxl : x < g.components.length := by rw [hB.component.1]; exact hx
    have key : ∀ y c, g.components[y]? = some c → (v ∈ c.vertexIdx ↔ g.comps.v v = some y) := by
      intro y c hy
      have hyk : y < k := by rw [← hB.component.1]; exact (List.getElem?_eq_some_iff.mp hy).1
      have := hB.component.2 y hyk
      rw [hy] at this
      simp only [Option.some.injEq] at this
      rw [this]
      simp only [List.mem_filter, List.mem_range, decide_eq_true_eq]
      exact ⟨fun h => h.2, fun hh => ⟨hv, hh⟩⟩
    refine ⟨x, ⟨_, List.getElem?_eq_getElem hxl, (key x _ (List.getElem?_eq_getElem hxl)).mpr hvx⟩, ?_⟩
    rintro y ⟨c, hy, hvc⟩
    have := (key y c hy).mp hvc
    rw [hvx] at this
    exact (Option.some.inj this).symm
  · obtain ⟨x, hx, -, hv, -⟩ := hB.mem_component hc
    rw [joined_iff, hv v]
    have hux := (hv u).mp hu
    refine ⟨fun hvx => hF.conn u v x hux hvx, fun hconn => ?_⟩
    induction hconn with
    | refl => exact hux
    | tail _ hadj ih => exact hF.closed x hx _ _ ih hadj

/-- **C34** The edges of a component are, in order, the enabled edges that touch one of its vertices; all their vertices are in the
component, so that every enabled edge with a vertex belongs to exactly one component. -/
theorem C34_edges (h : mkSynGraph isInf r stabs w = .ok g) {c : Component W} (hc : c ∈ g.components) :
    c.edgeIdx.Pairwise (· < ·) ∧
    (∀ i, i ∈ c.edgeIdx ↔ ∃ e, g.edges[i]? = some e ∧ e.enabled = true ∧ ∃ v ∈ e.vertices, v ∈ c.vertexIdx) ∧
    ∀ i ∈ c.edgeIdx, ∀ e, g.edges[i]? = some e → ∀ v ∈ e.vertices, v ∈ c.vertexIdx := by
  obtain ⟨qs, es, k, hB⟩ := mkSynGraph_built h
  obtain ⟨hF, -⟩ := hB.found
  obtain ⟨x, hx, -, hv, hi, -, hs, -⟩ := hB.mem_component hc
  refine ⟨hs, fun i => ?_, fun i hic e he v hve => ?_⟩
  · rw [hi i, hF.e i x]
    constructor
    · rintro ⟨a, v, b, hvx⟩
      obtain ⟨e, he⟩ := vertsAt_ne (List.ne_nil_of_mem b)
      rw [enabledAt_get he] at a
      rw [vertsAt_get he] at b
      exact ⟨e, he, a, v, b, (hv v).mpr hvx⟩
    · rintro ⟨e, he, a, v, b, hvc⟩
      rw [enabledAt_get he, vertsAt_get he]
      exact ⟨a, v, b, (hv v).mp hvc⟩
  · obtain ⟨a, u, b, hux⟩ := (hF.e i x).mp ((hi i).mp hic)
    rw [hv v]
    exact hF.closed x hx u v hux ⟨i, a, b, by rw [vertsAt_get he]; exact hve⟩

/-- **C34** The graph handed to the decoder is a copy of the component: edge `j` of the copy joins the copies of the vertices of the
`j`-th edge of the component and has the same weight. -/
theorem C34_copy (h : mkSynGraph isInf r stabs w = .ok g) {c : Component W} (hc : c ∈ g.components) :
    c.edges.length = c.edgeIdx.length ∧ c.weights.length = c.edgeIdx.length ∧
    ∀ (j i : Nat) (e : SEdge W), c.edgeIdx[j]? = some i → g.edges[i]? = some e →
      ∃ l, c.edges[j]? = some l ∧ l.map (fun u => c.vertexIdx[u]?) = e.vertices.map some ∧ c.weights[j]? = some e.weight := by
  have hin := (C34_edges h hc).2.2
  obtain ⟨qs, es, k, hB⟩ := mkSynGraph_built h
  obtain ⟨x, hx, -, -, -, -, -, he, hw⟩ := hB.mem_component hc
  refine ⟨by rw [he, List.length_map], by rw [hw, List.length_map], fun j i e hj hi => ?_⟩
  refine ⟨e.vertices.map c.vertexIdx.idxOf, by rw [he, List.getElem?_map, hj, ← vertsAt_get hi]; rfl, ?_,
    by rw [hw, List.getElem?_map, hj, ← weightAt_get hi]; rfl⟩
  rw [List.map_map]
  refine List.map_congr_left fun v hv => ?_
  have hvc := hin i (List.mem_of_getElem? hj) e hi v hv
  simp only [Function.comp_apply]
  rw [List.getElem?_eq_getElem (List.idxOf_lt_length_of_mem hvc)]
  simp

/-- The repetition code without measurement errors: one component for each round. -/
example : (mkSynGraph (· == 99) 2 rep3Stabs (some ⟨.num (some 1), .num (some 1), .num (some 99)⟩)).map
      (fun g => g.components.map fun c => (c.vertexIdx, c.edgeIdx, c.edges)) =
    .ok [([0, 1], [0, 1, 2], [[0], [0, 1], [1]]), ([2, 3], [6, 7, 8], [[0], [0, 1], [1]])] := by decide +kernel

end Plaquette
