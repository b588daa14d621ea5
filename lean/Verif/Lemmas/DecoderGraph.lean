import Verif.Lemmas.Frame
import Verif.Props.Syngraph
import Verif.Props.UnionFind

/-!
# From the results for the components to the syndrome graph
-/

namespace Plaquette
variable {W σ : Type} {n : Nat}

/-! ## The results for the edges -/

theorem setResults_other (ks : List Nat) : ∀ (vs : List Bool) (res : Nat → Bool) {i : Nat}, i ∉ ks → (ks.zip vs).foldl setResult res i = res i := by
  induction ks with
  | nil => intro vs res i _; rfl
  | cons k ks ih =>
    intro vs res i hi
    cases vs with
    | nil => rfl
    | cons v vs =>
      rw [List.zip_cons_cons, List.foldl_cons, ih vs _ (fun h => hi (List.mem_cons_of_mem _ h))]
      exact Function.update_of_ne (fun h => hi (by rw [h]; simp)) _ _

theorem setResults_get (ks : List Nat) (hn : ks.Nodup) : ∀ (vs : List Bool) (res : Nat → Bool) {j i : Nat}, vs.length = ks.length → ks[j]? = some i →
    (ks.zip vs).foldl setResult res i = vs.getD j false := by
  induction ks with
  | nil => intro vs res j i _ h; simp at h
  | cons k ks ih =>
    intro vs res j i hl hj
    cases vs with
    | nil => simp at hl
    | cons v vs =>
      rw [List.zip_cons_cons, List.foldl_cons]
      cases j with
      | zero =>
        obtain rfl : k = i := by simpa using hj
        rw [setResults_other ks vs _ (List.nodup_cons.1 hn).1]
        simp [setResult]
      | succ j =>
        rw [ih (List.nodup_cons.1 hn).2 vs _ (by simpa using hl) (by simpa using hj)]
        simp

theorem updateResults_other : ∀ (rs : List (List Nat × List Bool)) (res : Nat → Bool) {i : Nat}, (∀ p ∈ rs, i ∉ p.1) →
    rs.foldl (fun res p => (p.1.zip p.2).foldl setResult res) res i = res i := by
  intro rs
  induction rs with
  | nil => intro res i _; rfl
  | cons p rs ih =>
    intro res i h
    rw [List.foldl_cons, ih _ (fun q hq => h q (List.mem_cons_of_mem _ hq)), setResults_other _ _ _ (h p (by simp))]

theorem updateResults_get : ∀ (rs : List (List Nat × List Bool)) (res : Nat → Bool), rs.Pairwise (fun p q => ∀ i ∈ p.1, i ∉ q.1) →
    ∀ p ∈ rs, p.1.Nodup → p.2.length = p.1.length → ∀ {j i : Nat}, p.1[j]? = some i →
    rs.foldl (fun res p => (p.1.zip p.2).foldl setResult res) res i = p.2.getD j false := by
  intro rs
  induction rs with
  | nil => intro res _ p hp; simp at hp
  | cons a rs ih =>
    intro res hpw p hp hn hl j i hj
    rw [List.pairwise_cons] at hpw
    rw [List.foldl_cons]
    rcases List.mem_cons.1 hp with rfl | hp
    · rw [updateResults_other rs _ (fun q hq => hpw.1 q hq i (List.mem_of_getElem? hj))]
      exact setResults_get _ hn _ _ hl hj
    · exact ih _ hpw.2 p hp hn hl hj

/-! ## The edges of the graph -/

variable [LinearOrder W] {isInf : W → Bool} {r : Nat} {stabs : List (Op n)} {w : Option (Weights W)} {g : SynGraph W}

/-- Every edge is a qubit edge or a measurement edge. -/
theorem edge_cases (h : mkSynGraph isInf r stabs w = .ok g) {i : Nat} {e : SEdge W} (he : g.edges[i]? = some e) :
    (∃ t o l, t < r ∧ (errorOps n)[o]? = some l ∧ e.kind = .qubit t o l.2.val (l.1 == .X) ∧
      e.vertices = (flipped stabs (singleOp false l.1 l.2)).map (vertexIdx stabs.length t) ∧ e.vertices.length ≤ 2) ∨
    ∃ t s, t + 1 < r ∧ s < stabs.length ∧ e.kind = .stab (t + 1) s ∧ e.vertices = [t * stabs.length + s, (t + 1) * stabs.length + s] := by
  obtain ⟨qs, es, k, hB⟩ := mkSynGraph_built h
  obtain ⟨hlen, hq⟩ := qubitEdges_spec hB.qubit
  obtain ⟨slen, hs⟩ := stabEdges_spec (W := W) r stabs.length
  obtain ⟨e0, h0, hv, hk⟩ := shape_get hB.shape he
  have hi := (List.getElem?_eq_some_iff.1 h0).1
  unfold rawEdges at h0 hi
  rw [List.length_append, hlen, slen] at hi
  by_cases hlt : i < r * (2 * n)
  · left
    rw [List.getElem?_append_left (by rw [hlen]; exact hlt)] at h0
    have h2n : 0 < 2 * n := by
      rcases Nat.eq_zero_or_pos (2 * n) with h1 | h1
      · rw [h1] at hlt; simp at hlt
      · exact h1
    have ht : i / (2 * n) < r := (Nat.div_lt_iff_lt_mul h2n).2 hlt
    have ho : i % (2 * n) < (errorOps n).length := by rw [errorOps_len]; exact Nat.mod_lt _ h2n
    obtain ⟨h1, h2⟩ := hq _ _ _ ht (List.getElem?_eq_getElem ho)
    rw [Nat.div_add_mod' i (2 * n), h0] at h2
    simp only [Option.some.injEq] at h2
    refine ⟨_, _, _, ht, List.getElem?_eq_getElem ho, ?_, ?_, ?_⟩
    · rw [← hk, h2]
    · rw [← hv, h2]
    · rw [← hv, h2, List.length_map]; exact h1
  · right
    rw [List.getElem?_append_right (by rw [hlen]; omega), hlen] at h0
    set x := i - r * (2 * n) with hx
    have hxl : x < (r - 1) * stabs.length := by omega
    have hm : 0 < stabs.length := by
      rcases Nat.eq_zero_or_pos stabs.length with h1 | h1
      · rw [h1] at hxl; simp at hxl
      · exact h1
    have ht : x / stabs.length < r - 1 := (Nat.div_lt_iff_lt_mul hm).2 hxl
    have := hs _ _ ht (Nat.mod_lt x hm)
    rw [Nat.div_add_mod' x stabs.length, h0] at this
    simp only [Option.some.injEq] at this
    refine ⟨x / stabs.length, x % stabs.length, Nat.add_lt_of_lt_sub ht, Nat.mod_lt x hm, ?_, ?_⟩
    · rw [← hk, this]; rfl
    · rw [← hv, this]; rfl

theorem edge_op_lt (h : mkSynGraph isInf r stabs w = .ok g) : ∀ (e : SEdge W), e ∈ g.edges → ∀ o, e.kind.op = some o → o < 2 * n := by
  intro e he o ho
  obtain ⟨i, hi⟩ := List.getElem?_of_mem he
  rcases edge_cases h hi with ⟨t, o', l, _, hl, hk, _⟩ | ⟨t, s, _, _, hk, _⟩
  · rw [hk] at ho
    obtain rfl : o' = o := by simpa [EdgeKind.op] using ho
    have := (List.getElem?_eq_some_iff.1 hl).1
    rwa [errorOps_len] at this
  · rw [hk] at ho; simp [EdgeKind.op] at ho

/-- The vertices of the graph, as a list of lists. -/
def SynGraph.verts (g : SynGraph W) : List (List Nat) := g.edges.map (·.vertices)

omit [LinearOrder W] in
theorem verts_get {i : Nat} {e : SEdge W} (he : g.edges[i]? = some e) : g.verts[i]? = some e.vertices := by
  unfold SynGraph.verts; rw [List.getElem?_map, he]; rfl

/-- The ends of an edge in all rounds of one stabiliser: a measurement edge has two or none, a qubit edge one if the error
anticommutes with the stabiliser. -/
theorem rounds_touched (h : mkSynGraph isInf r stabs w = .ok g) {s : Nat} {gen : Op n} (hs : stabs[s]? = some gen) {i : Nat} (hi : i < g.edges.length) :
    xsum (List.range r) (fun t => touches g.verts i (t * stabs.length + s)) =
      xsum (List.range (2 * n)) fun o => opIs g.edges i o && opAnti gen o := by
  have hsl := (List.getElem?_eq_some_iff.1 hs).1
  have hm : 0 < stabs.length := by omega
  have he := List.getElem?_eq_getElem hi
  have hinj : ∀ t t' s', s' < stabs.length → t * stabs.length + s = t' * stabs.length + s' → t = t' ∧ s = s' := by
    intro t t' s' hs' heq
    have h1 : (t * stabs.length + s) / stabs.length = (t' * stabs.length + s') / stabs.length := by rw [heq]
    have h2 : (t * stabs.length + s) % stabs.length = (t' * stabs.length + s') % stabs.length := by rw [heq]
    rw [Nat.add_comm, Nat.add_mul_div_right _ _ hm, Nat.div_eq_of_lt hsl, Nat.add_comm (t' * stabs.length), Nat.add_mul_div_right _ _ hm, Nat.div_eq_of_lt hs'] at h1
    rw [Nat.add_comm, Nat.add_mul_mod_self_right, Nat.mod_eq_of_lt hsl, Nat.add_comm (t' * stabs.length), Nat.add_mul_mod_self_right, Nat.mod_eq_of_lt hs'] at h2
    omega
  rcases edge_cases h he with ⟨t, o, l, ht, hl, hk, hv, _⟩ | ⟨t, s', ht, hs', hk, hv⟩
  · have hfl : ∀ t', touches g.verts i (t' * stabs.length + s) = (decide (t' = t) && opAnti gen o) := by
      intro t'
      rw [touches_some (verts_get he), hv]
      refine Bool.eq_iff_iff.2 ?_
      simp only [decide_eq_true_eq, List.mem_map, Bool.and_eq_true, vertexIdx]
      have hA : opAnti gen o = true ↔ s ∈ flipped stabs (singleOp false l.1 l.2) := by
        unfold opAnti
        rw [mem_flipped, hl]
        simp only [hs, Option.some.injEq, exists_eq_left']
        rw [← commSign_one_iff, commSign_eq]
        cases anti (singleOp false l.1 l.2) gen <;> simp [bit]
      rw [hA]
      constructor
      · rintro ⟨s', hs', heq⟩
        have hs'l : s' < stabs.length := by
          obtain ⟨_, hg, _⟩ := mem_flipped.1 hs'
          exact (List.getElem?_eq_some_iff.1 hg).1
        obtain ⟨rfl, rfl⟩ := hinj t' t s' hs'l heq.symm
        exact ⟨rfl, hs'⟩
      · rintro ⟨rfl, hs'⟩
        exact ⟨s, hs', rfl⟩
    have hol : o < 2 * n := by
      have := (List.getElem?_eq_some_iff.1 hl).1
      rwa [errorOps_len] at this
    rw [xsum_congr (fun t' _ => hfl t'), xsum_single List.nodup_range (List.mem_range.2 ht) (fun t' _ ht' => by simp [ht'])]
    have hop : ∀ o', opIs g.edges i o' = decide (o = o') := by
      intro o'; unfold opIs; rw [he]; simp [hk, EdgeKind.op]
    rw [xsum_single List.nodup_range (List.mem_range.2 hol) (fun o' _ ho' => by rw [hop]; simp [Ne.symm ho'])]
    rw [hop]; simp
  · have hz : xsum (List.range (2 * n)) (fun o => opIs g.edges i o && opAnti gen o) = false := by
      refine xsum_zero fun o _ => ?_
      unfold opIs; rw [he]; simp [hk, EdgeKind.op]
    rw [hz]
    have hfl : ∀ t', touches g.verts i (t' * stabs.length + s) = ((decide (t' = t) && decide (s = s')) ^^ (decide (t' = t + 1) && decide (s = s'))) := by
      intro t'
      rw [touches_some (verts_get he), hv]
      have hiff : ∀ u, t' * stabs.length + s = u * stabs.length + s' ↔ t' = u ∧ s = s' := fun u =>
        ⟨fun heq => hinj t' u s' hs' heq, by rintro ⟨rfl, rfl⟩; rfl⟩
      simp only [List.mem_cons, List.not_mem_nil, or_false, hiff]
      by_cases h1 : t' = t
      · subst h1; simp
      · simp [h1]
    rw [xsum_congr (fun t' _ => hfl t'), xsum_xor, xsum_single List.nodup_range (List.mem_range.2 (show t < r by omega)) (fun t' _ ht' => by simp [ht']),
      xsum_single List.nodup_range (List.mem_range.2 ht) (fun t' _ ht' => by simp [ht'])]
    simp

/-- A selection of edges that explains the syndrome of all vertices: the frame anticommutes with a stabiliser iff its syndrome is odd
over all rounds. -/
theorem frame_of_bd (h : mkSynGraph isInf r stabs w = .ok g) {res syn : Nat → Bool} (hb : ∀ v, v < r * stabs.length → bd g.verts res v = syn v) :
    ∃ p : Op n, pauliFrame g n res = .ok p ∧ ∀ s gen, stabs[s]? = some gen →
      anti p gen = xsum (List.range r) fun t => syn (t * stabs.length + s) := by
  obtain ⟨p, h1, h2⟩ := pauliFrame_spec (n := n) (edge_op_lt h) res
  refine ⟨p, h1, fun s gen hs => ?_⟩
  have hsl := (List.getElem?_eq_some_iff.1 hs).1
  have hlen : g.verts.length = g.edges.length := by simp [SynGraph.verts]
  rw [h2 gen]
  have h3 : xsum (List.range r) (fun t => syn (t * stabs.length + s)) =
      xsum (List.range r) (fun t => xsum (List.range g.edges.length) fun i => res i && touches g.verts i (t * stabs.length + s)) := by
    refine xsum_congr fun t ht => ?_
    have ht := List.mem_range.1 ht
    rw [← hb _ (by nlinarith : t * stabs.length + s < r * stabs.length), bd, hlen]
  rw [h3, xsum_comm]
  refine xsum_congr fun i hi => ?_
  rw [xsum_and, rounds_touched h hs (List.mem_range.1 hi)]

end Plaquette
