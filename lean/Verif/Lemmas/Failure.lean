import Verif.Lemmas.MatchingMain
import Verif.Lemmas.Trail

/-!
# What is wrong when a lightest explanation does not undo the faults

Then there is a closed trail of relevant edges that crosses all lines and half of whose edges are faulty or erased.
-/

namespace Plaquette
variable {n : Nat} {W : Type} [LinearOrder W] {isInf : W → Bool} {r : Nat} {stabs : List (Op n)} {w : Option (Weights W)} {g : SynGraph W} {d : Nat}

theorem sound2_edge (h : mkSynGraph isInf r stabs w = .ok g) {i : Nat} (hv : vertsAt g.edges i ≠ []) : Sound2 (vertsAt g.edges) i := by
  obtain ⟨e, he⟩ := vertsAt_ne hv
  rw [vertsAt_get he] at hv
  unfold Sound2
  rw [vertsAt_get he]
  rcases edge_cases h he with ⟨t, o, l, ht, hl, hk, hvs, hlen⟩ | ⟨t, s, ht, hs, hk, hvs⟩
  · have hnd : e.vertices.Nodup := by
      rw [hvs]
      refine List.Nodup.map (fun a b hab => ?_) (List.nodup_range.filter _)
      simpa [vertexIdx] using hab
    match e.vertices, hlen, hnd, hv with
    | [a], _, _, _ => exact .inl ⟨a, rfl⟩
    | [a, b], _, hnd, _ => exact .inr ⟨a, b, rfl, by simpa using hnd⟩
  · refine .inr ⟨_, _, hvs, ?_⟩
    rw [Nat.add_mul]
    omega

/-- The value at the end of a trail. -/
def atEnd (ψ : Nat → Bool) : Option Nat → Bool
  | none => false
  | some v => ψ v

theorem Trail.ends {E : Nat → List Nat} {o c : Option Nat} {L : List Nat} (h : Trail E o L c) (ψ : Nat → Bool) :
    xsum L (fun i => xsum (E i) ψ) = (atEnd ψ o ^^ atEnd ψ c) := by
  have key : ∀ (i : Nat) (o c : Option Nat), Goes E i o c → xsum (E i) ψ = (atEnd ψ o ^^ atEnd ψ c) := by
    intro i o c h
    cases h with
    | along h => rw [h]; simp [xsum_cons, atEnd]
    | back h => rw [h]; simp [xsum_cons, atEnd, Bool.xor_comm]
    | enter h => rw [h]; simp [xsum_cons, atEnd]
    | leave h => rw [h]; simp [xsum_cons, atEnd]
  induction h with
  | one h => rw [xsum_cons, xsum_nil, key _ _ _ h, Bool.xor_false]
  | cons _ _ h ih =>
    rw [xsum_cons, ih, key _ _ _ h, Bool.xor_comm, Bool.xor_assoc, ← Bool.xor_assoc (atEnd _ _) (atEnd _ _) (atEnd _ _), Bool.xor_self, Bool.false_xor]

/-- Which lines an edge crosses, from the columns of its ends. -/
theorem LineSystem.edge_shift (D : LineSystem stabs d) (h : mkSynGraph isInf r stabs w = .ok g) {i : Nat} {e : SEdge W} (he : g.edges[i]? = some e)
    {k : Nat} (hk : k + 1 < d) :
    (edgeAnti g (D.T k) i ^^ edgeAnti g (D.T (k + 1)) i) = xsum e.vertices fun v => decide (D.col (v % stabs.length) = k + 1) := by
  rcases edge_cases h he with ⟨t, o, l, ht, hl, hkd, hvs, hlen⟩ | ⟨t, s, ht, hs, hkd, hvs⟩
  · rw [edgeAnti_qubit he hkd (qubit_idx h he hkd).2.2, edgeAnti_qubit he hkd (qubit_idx h he hkd).2.2, D.parity hl hk, hvs, xsum_map]
    refine xsum_congr fun s hs => ?_
    rw [LineSystem.vertex_mod (LineSystem.flipped_lt hs)]
  · rw [edgeAnti_stab he hkd, edgeAnti_stab he hkd, hvs]
    have h1 : (t * stabs.length + s) % stabs.length = s := LineSystem.vertex_mod (t := t) hs
    have h2 : ((t + 1) * stabs.length + s) % stabs.length = s := LineSystem.vertex_mod (t := t + 1) hs
    simp [xsum_cons, h1, h2]

theorem LineSystem.edge_unique (D : LineSystem stabs d) (h : mkSynGraph isInf r stabs w = .ok g) {i : Nat} {e : SEdge W} (he : g.edges[i]? = some e)
    {k l : Nat} (hk : k < d) (hl : l < d) (h1 : edgeAnti g (D.T k) i = true) (h2 : edgeAnti g (D.T l) i = true) : k = l := by
  rcases edge_cases h he with ⟨t, o, a, ht, ha, hkd, hvs, hlen⟩ | ⟨t, s, ht, hs, hkd, hvs⟩
  · rw [edgeAnti_qubit he hkd (qubit_idx h he hkd).2.2] at h1 h2
    exact D.unique hk hl h1 h2
  · rw [edgeAnti_stab he hkd] at h1; cases h1

theorem LineSystem.edge_rel (D : LineSystem stabs d) (h : mkSynGraph isInf r stabs w = .ok g) {i : Nat} {e : SEdge W} (he : g.edges[i]? = some e)
    {k : Nat} (hk : k < d) (h1 : edgeAnti g (D.T k) i = true) : D.relEdge g i = true := by
  rcases edge_cases h he with ⟨t, o, l, ht, hl, hkd, hvs, hlen⟩ | ⟨t, s, ht, hs, hkd, hvs⟩
  · refine D.relEdge_seg h (p := ((2 * k : Nat) : ZMod (2 * d))) ?_
    rw [edgeAnti_qubit he hkd (qubit_idx h he hkd).2.2] at h1
    rw [D.seg_qubit he hkd, D.line_some.2 ⟨hk, h1⟩]; rfl
  · rw [edgeAnti_stab he hkd] at h1; cases h1

/-- A closed trail that crosses a line an odd number of times does so with all lines, and is long. -/
theorem LineSystem.long (D : LineSystem stabs d) (h : mkSynGraph isInf r stabs w = .ok g) {o : Option Nat} {L : List Nat} (hL : Trail (vertsAt g.edges) o L o)
    (hlt : ∀ i ∈ L, i < g.edges.length) {k : Nat} (hk : k < d) (hodd : xsum L (edgeAnti g (D.T k)) = true) :
    d ≤ L.length ∧ ∀ i ∈ L, D.relEdge g i = true := by
  have hstep : ∀ l, l + 1 < d → xsum L (edgeAnti g (D.T (l + 1))) = xsum L (edgeAnti g (D.T l)) := by
    intro l hl
    have h1 := hL.ends fun v => decide (D.col (v % stabs.length) = l + 1)
    rw [Bool.xor_self] at h1
    have h2 : xsum L (fun i => xsum (vertsAt g.edges i) fun v => decide (D.col (v % stabs.length) = l + 1)) =
        xsum L fun i => edgeAnti g (D.T l) i ^^ edgeAnti g (D.T (l + 1)) i := by
      refine xsum_congr fun i hi => ?_
      have hie := List.getElem?_eq_getElem (hlt i hi)
      rw [D.edge_shift h hie hl, vertsAt_get hie]
    rw [h2, xsum_xor] at h1
    revert h1
    cases xsum L (edgeAnti g (D.T l)) <;> cases xsum L (edgeAnti g (D.T (l + 1))) <;> simp
  have hall : ∀ l < d, xsum L (edgeAnti g (D.T l)) = xsum L (edgeAnti g (D.T 0)) := by
    intro l
    induction l with
    | zero => intro _; rfl
    | succ l ih => intro hl; rw [hstep l hl, ih (by omega)]
  have hex : ∀ l < d, ∃ i ∈ L, edgeAnti g (D.T l) i = true := fun l hl => xsum_true (by rw [hall l hl, ← hall k hk, hodd])
  constructor
  · choose! φ hφ1 hφ2 using hex
    have := Finset.card_le_card_of_injOn (s := Finset.range d) (t := L.toFinset) φ (fun l hl => List.mem_toFinset.2 (hφ1 l (by simpa using hl)))
      (fun l hl l' hl' heq => by
        have hl := Finset.mem_range.1 (Finset.mem_coe.1 hl)
        have hl' := Finset.mem_range.1 (Finset.mem_coe.1 hl')
        have hie := List.getElem?_eq_getElem (hlt _ (hφ1 l hl))
        exact D.edge_unique h hie hl hl' (hφ2 l hl) (by rw [heq]; exact hφ2 l' hl'))
    rw [Finset.card_range, List.toFinset_card_of_nodup hL.nodup] at this
    exact this
  · obtain ⟨j, hj, hja⟩ := hex k hk
    have hrj := D.edge_rel h (List.getElem?_eq_getElem (hlt j hj)) hk hja
    intro i hi
    rw [← hrj]
    refine hL.all (P := D.relEdge g) (fun a b v ha hb => ?_) i hi j hj
    obtain ⟨ea, hea⟩ := vertsAt_ne (es := g.edges) (i := a) (List.ne_nil_of_mem ha)
    obtain ⟨eb, heb⟩ := vertsAt_ne (es := g.edges) (i := b) (List.ne_nil_of_mem hb)
    rw [vertsAt_get hea] at ha
    rw [vertsAt_get heb] at hb
    rw [D.relEdge_vertex h hea ha, D.relEdge_vertex h heb hb]

theorem anti_of_product (h : mkSynGraph isInf r stabs w = .ok g) {sel : Finset Nat} (hlt : ∀ i ∈ sel, i < g.edges.length) {p : Op n} (hp : EdgesProduct g sel p) (m : Op n) :
    anti p m = xsum (List.range g.edges.length) fun i => decide (i ∈ sel) && edgeAnti g m i := by
  obtain ⟨p1, hp1, hp2⟩ := pauliFrame_spec (n := n) (edge_op_lt h) (fun i => decide (i ∈ sel))
  have hp3 := frame_product h hp1
  have hs : ((Finset.range g.edges.length).filter fun i => decide (i ∈ sel) = true) = sel := by
    ext i
    rw [Finset.mem_filter, Finset.mem_range, decide_eq_true_eq]
    exact ⟨fun h => h.2, fun h => ⟨hlt i h, h⟩⟩
  rw [hs] at hp3
  have hx : p.x = p1.x := funext fun q => Bool.eq_iff_iff.2 ((hp q).1.trans (hp3 q).1.symm)
  have hz : p.z = p1.z := funext fun q => Bool.eq_iff_iff.2 ((hp q).2.trans (hp3 q).2.symm)
  rw [anti_congr hx hz rfl rfl]
  exact hp2 m

open Classical in
/-- If a lightest explanation (where erased edges cost nothing, and the weights of the others differ by at most a factor `ρ`) has not the same effect as the
faults on a line, then there is a closed trail of relevant edges that crosses all lines, at least one in `ρ + 1` of whose edges is faulty or erased. -/
theorem failure_weighted (h : mkSynGraph isInf r stabs w = .ok g) (hfin : AllFinite isInf g) (D : LineSystem stabs d) (hd : 2 ≤ d) {f : Faults n} {syn : Option (List (List Bool))}
    (hsyn : ShapeOk r stabs.length syn) (hf : f.Shows r stabs syn) {era : Nat → Bool}
    (hen : ∀ (i : Nat) (e : SEdge W), g.edges[i]? = some e → era i = true → e.vertices ≠ [] → e.enabled = true)
    {sel : Finset Nat} (hsel : EdgesExplain g r stabs.length sel syn) {p : Op n} (hp : EdgesProduct g sel p)
    {Wg : Nat → ℚ} {a : ℚ} {ρ : Nat} (ha : 0 < a)
    (hWg : ∀ (i : Nat) (e : SEdge W), g.edges[i]? = some e → e.enabled = true → e.vertices ≠ [] → if era i = true then Wg i = 0 else a ≤ Wg i ∧ Wg i ≤ ρ * a)
    (hmin : ∀ sel', EdgesExplain g r stabs.length sel' syn → ∑ i ∈ sel, Wg i ≤ ∑ i ∈ sel', Wg i)
    {k : Nat} (hk : k < d) (hbad : anti p (D.T k) ≠ xsum (List.range r) fun t => anti (f.data t) (D.T k)) :
    ∃ o L A, Trail (vertsAt g.edges) o L o ∧ (∀ i ∈ L, i < g.edges.length ∧ vertsAt g.edges i ≠ [] ∧ D.relEdge g i = true) ∧ d ≤ L.length ∧ A ⊆ L.toFinset ∧
      L.length ≤ (ρ + 1) * A.card ∧ ∀ i ∈ A, f.edge g i = true ∨ era i = true := by
  obtain ⟨sy, _, hbs⟩ := arrayOr_ok hsyn
  have hlen : g.verts.length = g.edges.length := by simp [SynGraph.verts]
  have hlt : ∀ i ∈ sel, i < g.edges.length := fun i hi => by
    obtain ⟨e, he, _⟩ := hsel.1 i hi
    exact (List.getElem?_eq_some_iff.1 he).1
  have hbd0 := hf.bd h hbs
  have hbd1 := (bd_of_edges (x := fun i => decide (i ∈ sel)) h hbs).1 (by simpa only [decide_eq_true_eq] using hsel.2)
  have htouch : ∀ i v, touches g.verts i v = decide (v ∈ vertsAt g.edges i) := by
    intro i v
    cases he : g.edges[i]? with
    | none =>
      have h1 : g.verts[i]? = none := by unfold SynGraph.verts; rw [List.getElem?_map, he]; rfl
      simp [touches, h1, vertsAt, he]
    | some e => rw [touches_some (verts_get he), vertsAt_get he]
  have hbig : ∀ i v, v ∈ vertsAt g.edges i → v < r * stabs.length := by
    obtain ⟨qs, es, k, hB⟩ := mkSynGraph_built h
    exact fun i v hv => hB.lt i v hv
  -- the edges in which faults and correction differ
  set z : Nat → Bool := fun i => (f.edge g i ^^ decide (i ∈ sel)) && !(vertsAt g.edges i).isEmpty with hz
  set Z := (List.range g.edges.length).filter z with hZ
  have hsumZ : ∀ F : Nat → Bool, (∀ i < g.edges.length, vertsAt g.edges i = [] → F i = false) →
      xsum Z F = ((xsum (List.range g.edges.length) fun i => f.edge g i && F i) ^^ xsum (List.range g.edges.length) fun i => decide (i ∈ sel) && F i) := by
    intro F hF
    rw [hZ, xsum_filter, ← xsum_xor]
    refine xsum_congr fun i hi => ?_
    by_cases h0 : vertsAt g.edges i = []
    · rw [hF i (List.mem_range.1 hi) h0]; simp
    · have : (vertsAt g.edges i).isEmpty = false := by simpa using h0
      rw [hz]
      simp only [this]
      cases f.edge g i <;> cases decide (i ∈ sel) <;> simp
  have hnd : Z.Nodup := List.nodup_range.filter _
  have hmemZ : ∀ i ∈ Z, i < g.edges.length ∧ vertsAt g.edges i ≠ [] ∧ (f.edge g i ^^ decide (i ∈ sel)) = true := by
    intro i hi
    rw [hZ, List.mem_filter, List.mem_range, hz] at hi
    simp only [Bool.and_eq_true, Bool.not_eq_true', List.isEmpty_eq_false_iff] at hi
    exact ⟨hi.1, hi.2.2, hi.2.1⟩
  have hev : ∀ v, xsum Z (fun i => decide (v ∈ vertsAt g.edges i)) = false := by
    intro v
    by_cases hv : v < r * stabs.length
    · rw [hsumZ _ fun i _ h0 => by simp [h0]]
      have h1 := hbd0 v hv
      have h2 := hbd1 v hv
      unfold bd at h1 h2
      rw [hlen] at h1 h2
      simp only [htouch] at h1 h2
      rw [h1, h2, Bool.xor_self]
    · refine xsum_zero fun i _ => decide_eq_false fun h0 => hv (hbig i v h0)
  have hφ : xsum Z (edgeAnti g (D.T k)) = true := by
    rw [hsumZ]
    · rw [f.frame h, ← anti_of_product h hlt hp]
      revert hbad
      cases anti p (D.T k) <;> cases (xsum (List.range r) fun t => anti (f.data t) (D.T k)) <;> simp
    · intro i hi h0
      have hie := List.getElem?_eq_getElem hi
      rw [vertsAt_get hie] at h0
      rcases edge_cases h hie with ⟨t, o, l, _, hl, hkd, hvs, _⟩ | ⟨t, s, _, _, hkd, _⟩
      · rw [edgeAnti_qubit hie hkd (qubit_idx h hie hkd).2.2]
        rw [hvs, List.map_eq_nil_iff] at h0
        exact D.no_line hd hl h0 hk
      · exact edgeAnti_stab hie hkd _
  obtain ⟨o, L, hL, hLZ, hLφ⟩ := odd_trail (E := vertsAt g.edges) Z.length Z le_rfl hnd (fun i hi => sound2_edge h (hmemZ i hi).2.1) hev hφ
  have hLlt : ∀ i ∈ L, i < g.edges.length := fun i hi => (hmemZ i (hLZ i hi)).1
  obtain ⟨hlong, hrel⟩ := D.long h hL hLlt hk hLφ
  refine ⟨o, L, L.toFinset.filter fun i => f.edge g i = true ∨ era i = true, hL, fun i hi => ⟨hLlt i hi, (hmemZ i (hLZ i hi)).2.1, hrel i hi⟩, hlong,
    Finset.filter_subset _ _, ?_, fun i hi => (Finset.mem_filter.1 hi).2⟩
  -- another explanation
  set y : Nat → Bool := fun i => decide (i ∈ sel) ^^ decide (i ∈ L) with hy
  have hbdy : ∀ v, v < r * stabs.length → bd g.verts (repEdge g y) v = vertexSyndrome g sy v := by
    intro v hv
    have h1 : bd g.verts (repEdge g y) v = bd g.verts y v := by
      unfold bd
      rw [hlen]
      refine repEdge_sum_finite h hfin (fun j e _ hje hv => ?_) (fun j e _ hje hv i e' hie hv' _ => ?_)
      · rw [touches_some (verts_get hje), hv]; simp
      · rw [touches_some (verts_get hje), touches_some (verts_get hie), hv']
    have h2 : bd g.verts (fun i => decide (i ∈ L)) v = false := by
      unfold bd
      rw [hlen, ← xsum_filter]
      have hperm : ((List.range g.edges.length).filter fun i => decide (i ∈ L)).Perm L := by
        refine (List.perm_ext_iff_of_nodup (List.nodup_range.filter _) hL.nodup).2 fun i => ?_
        rw [List.mem_filter, List.mem_range, decide_eq_true_eq]
        exact ⟨fun h => h.2, fun h => ⟨hLlt i h, h⟩⟩
      rw [xsum_perm hperm]
      simp only [htouch]
      rw [hL.touch fun i hi => sound2_edge h (hmemZ i (hLZ i hi)).2.1, Bool.xor_self]
    rw [h1, hy, bd_xor, h2, Bool.xor_false, hbd1 v hv]
  have hrange : ∀ i, repEdge g y i = true → i < g.edges.length := by
    intro i hi
    by_contra hc
    have : g.edges[i]? = none := List.getElem?_eq_none_iff.2 (by omega)
    unfold repEdge enabledAt at hi
    rw [this] at hi; simp at hi
  have hsel' : EdgesExplain g r stabs.length ((Finset.range g.edges.length).filter fun i => repEdge g y i = true) syn := by
    have hmem : ∀ i, i ∈ ((Finset.range g.edges.length).filter fun i => repEdge g y i = true) ↔ repEdge g y i = true := fun i => by
      rw [Finset.mem_filter, Finset.mem_range]
      exact ⟨fun h => h.2, fun h => ⟨hrange i h, h⟩⟩
    refine ⟨fun i hi => ?_, ?_⟩
    · rw [hmem] at hi
      have hie := List.getElem?_eq_getElem (hrange i hi)
      obtain ⟨h1, h2, _⟩ := repEdge_true hie hi
      exact ⟨_, hie, h1, h2⟩
    · simp only [hmem]
      exact (bd_of_edges h hbs).2 hbdy
  have hle0 := hmin _ hsel'
  -- compare the weights
  set y' : Finset Nat := (Finset.range g.edges.length).filter fun i => repEdge g y i = true with hy'
  set C : Finset Nat := sel \ L.toFinset with hC
  set S1 : Finset Nat := (L.toFinset.filter fun i => i ∈ sel).filter fun i => ¬ era i = true with hS1
  set S2 : Finset Nat := (L.toFinset.filter fun i => i ∉ sel).filter fun i => ¬ era i = true with hS2
  have hWsel : ∀ i ∈ sel, if era i = true then Wg i = 0 else a ≤ Wg i ∧ Wg i ≤ ρ * a := fun i hi => by
    obtain ⟨e, h1, h2, h3⟩ := hsel.1 i hi
    exact hWg i e h1 h2 h3
  have hWy : ∀ i ∈ y', if era i = true then Wg i = 0 else a ≤ Wg i ∧ Wg i ≤ ρ * a := fun i hi => by
    obtain ⟨e, h1, h2, h3⟩ := hsel'.1 i hi
    exact hWg i e h1 h2 h3
  have hnn : ∀ i ∈ sel, 0 ≤ Wg i := fun i hi => by
    have := hWsel i hi
    split at this
    · exact this.ge
    · exact ha.le.trans this.1
  have hlow : ∑ i ∈ C, Wg i + S1.card * a ≤ ∑ i ∈ sel, Wg i := by
    have h1 : ∑ i ∈ sel, Wg i = ∑ i ∈ C, Wg i + ∑ i ∈ sel ∩ L.toFinset, Wg i := by
      rw [hC, ← Finset.sum_sdiff (s₁ := sel ∩ L.toFinset) Finset.inter_subset_left, Finset.sdiff_inter_self_left]
    have h2 : ∑ i ∈ S1, a ≤ ∑ i ∈ sel ∩ L.toFinset, Wg i := by
      refine (Finset.sum_le_sum (g := Wg) fun i hi => ?_).trans (Finset.sum_le_sum_of_subset_of_nonneg (fun i hi => ?_) fun i hi _ => hnn i (Finset.mem_inter.1 hi).1)
      · simp only [hS1, Finset.mem_filter] at hi
        have := hWsel i hi.1.2
        rw [if_neg hi.2] at this
        exact this.1
      · simp only [hS1, Finset.mem_filter] at hi
        exact Finset.mem_inter.2 ⟨hi.1.2, hi.1.1⟩
    rw [Finset.sum_const, nsmul_eq_mul] at h2
    linarith
  have hex : ∀ i ∈ (y' \ C).filter (fun i => ¬ era i = true), ∃ j ∈ S2, ∃ e e' : SEdge W, g.edges[i]? = some e ∧ g.edges[j]? = some e' ∧
      e'.vertices = e.vertices ∧ e.enabled = true ∧ e.vertices ≠ [] := by
    intro i hi
    obtain ⟨hi, hi2⟩ := Finset.mem_filter.1 hi
    obtain ⟨hi, hiC⟩ := Finset.mem_sdiff.1 hi
    obtain ⟨hi0, hi1⟩ := Finset.mem_filter.1 hi
    have hie := List.getElem?_eq_getElem (hrange i hi1)
    obtain ⟨h1, h2, j, e', h3, h4, h5⟩ := repEdge_true hie hi1
    obtain ⟨b', eb, _, _, _, huniq⟩ := parallel_finite h hfin hie h2
    have hji : e'.enabled = true → j = i := fun hj => by rw [huniq i _ hie rfl h1, ← huniq j e' h3 h5 hj]
    have hjs : j ∉ sel := by
      intro hjs
      obtain ⟨e2, h6, h7, _⟩ := hsel.1 j hjs
      rw [h3] at h6; cases h6
      have := hji h7
      subst this
      refine hiC (Finset.mem_sdiff.2 ⟨hjs, fun hL => ?_⟩)
      have hL := List.mem_toFinset.1 hL
      simp [hy, hjs, hL] at h4
    have hjL : j ∈ L := by
      by_contra hL
      simp [hy, hjs, hL] at h4
    refine ⟨j, ?_, _, e', hie, h3, h5, h1, h2⟩
    simp only [hS2, Finset.mem_filter, List.mem_toFinset]
    refine ⟨⟨hjL, hjs⟩, fun hej => hi2 ?_⟩
    have := hji (hen j e' h3 hej (by rw [h5]; exact h2))
    rwa [← this]
  have hcard : ((y' \ C).filter fun i => ¬ era i = true).card ≤ S2.card := by
    choose! φ hφ1 hφ2 using hex
    refine Finset.card_le_card_of_injOn φ hφ1 fun i hi i' hi' heq => ?_
    obtain ⟨e, e', h1, h2, h3, h4, h5⟩ := hφ2 i (Finset.mem_coe.1 hi)
    obtain ⟨e1, e1', h1', h2', h3', h4', h5'⟩ := hφ2 i' (Finset.mem_coe.1 hi')
    rw [heq] at h2
    rw [h2] at h2'; cases h2'
    obtain ⟨b', eb, _, _, _, huniq⟩ := parallel_finite h hfin h1 h5
    rw [huniq i e h1 rfl h4, huniq i' e1 h1' (by rw [← h3', h3]) h4']
  have hup : ∑ i ∈ y', Wg i ≤ ∑ i ∈ C, Wg i + S2.card * (ρ * a) := by
    have h1 : ∑ i ∈ y', Wg i = ∑ i ∈ y' \ C, Wg i + ∑ i ∈ y' ∩ C, Wg i := by
      rw [← Finset.sum_sdiff (s₁ := y' ∩ C) Finset.inter_subset_left, Finset.sdiff_inter_self_left]
    have h2 : ∑ i ∈ y' ∩ C, Wg i ≤ ∑ i ∈ C, Wg i :=
      Finset.sum_le_sum_of_subset_of_nonneg Finset.inter_subset_right fun i hi _ => hnn i (Finset.mem_sdiff.1 hi).1
    have h3 : ∑ i ∈ y' \ C, Wg i ≤ ∑ i ∈ (y' \ C).filter (fun i => ¬ era i = true), ρ * a := by
      rw [Finset.sum_filter]
      refine Finset.sum_le_sum fun i hi => ?_
      have := hWy i (Finset.mem_sdiff.1 hi).1
      by_cases hei : era i = true
      · rw [if_pos hei] at this; rw [if_neg (by simpa using hei), this]
      · rw [if_neg hei] at this; rw [if_pos hei]; exact this.2
    rw [Finset.sum_const, nsmul_eq_mul] at h3
    have h4 : (((y' \ C).filter fun i => ¬ era i = true).card : ℚ) * (ρ * a) ≤ S2.card * (ρ * a) :=
      mul_le_mul_of_nonneg_right (by exact_mod_cast hcard) (by positivity)
    linarith
  have hle : S1.card ≤ ρ * S2.card := by
    have h1 : (S1.card : ℚ) * a ≤ (ρ * S2.card : ℕ) * a := by push_cast; linarith
    exact_mod_cast le_of_mul_le_mul_right h1 ha
  have hS3 : L.length = (L.toFinset.filter fun i => era i = true).card + (((L.toFinset.filter fun i => i ∈ sel).filter fun i => ¬ era i = true).card +
      ((L.toFinset.filter fun i => i ∉ sel).filter fun i => ¬ era i = true).card) := by
    rw [← List.toFinset_card_of_nodup hL.nodup, ← Finset.card_filter_add_card_filter_not (s := L.toFinset) (fun i => era i = true),
      ← Finset.card_filter_add_card_filter_not (s := L.toFinset.filter fun i => ¬ era i = true) (fun i => i ∈ sel), Finset.filter_comm, Finset.filter_comm (fun i => ¬ era i = true) (fun i => ¬ i ∈ sel)]
  have hS4 : (L.toFinset.filter fun i => era i = true).card + ((L.toFinset.filter fun i => i ∉ sel).filter fun i => ¬ era i = true).card ≤
      (L.toFinset.filter fun i => f.edge g i = true ∨ era i = true).card := by
    rw [← Finset.card_union_of_disjoint]
    · refine Finset.card_le_card fun i hi => ?_
      simp only [Finset.mem_union, Finset.mem_filter, List.mem_toFinset] at hi ⊢
      rcases hi with hi | hi
      · exact ⟨hi.1, .inr hi.2⟩
      · refine ⟨hi.1.1, .inl ?_⟩
        have := (hmemZ i (hLZ i hi.1.1)).2.2
        simpa [hi.1.2] using this
    · rw [Finset.disjoint_left]
      intro i h1 h2
      simp only [Finset.mem_filter] at h1 h2
      exact h2.2 h1.2
  have hS3' : L.length = (L.toFinset.filter fun i => era i = true).card + (S1.card + S2.card) := hS3
  have hS4' : (L.toFinset.filter fun i => era i = true).card + S2.card ≤ (L.toFinset.filter fun i => f.edge g i = true ∨ era i = true).card := hS4
  have h5 : (ρ + 1) * ((L.toFinset.filter fun i => era i = true).card + S2.card) ≤ (ρ + 1) * (L.toFinset.filter fun i => f.edge g i = true ∨ era i = true).card :=
    Nat.mul_le_mul_left _ hS4'
  have h6 : (L.toFinset.filter fun i => era i = true).card ≤ (ρ + 1) * (L.toFinset.filter fun i => era i = true).card := Nat.le_mul_of_pos_left _ (by omega)
  have h7 : (ρ + 1) * S2.card = ρ * S2.card + S2.card := by ring
  rw [Nat.mul_add] at h5
  omega

open Classical in
/-- If a lightest explanation (where erased edges cost nothing) has not the same effect as the faults on a line, then there is a closed
trail of relevant edges that crosses all lines, at least half of whose edges are faulty or erased. -/
theorem failure_trail (h : mkSynGraph isInf r stabs none = .ok g) (D : LineSystem stabs d) (hd : 2 ≤ d) {f : Faults n} {syn : Option (List (List Bool))}
    (hsyn : ShapeOk r stabs.length syn) (hf : f.Shows r stabs syn) {era : Nat → Bool}
    (hen : ∀ (i : Nat) (e : SEdge W), g.edges[i]? = some e → era i = true → e.vertices ≠ [] → e.enabled = true)
    {sel : Finset Nat} (hsel : EdgesExplain g r stabs.length sel syn) {p : Op n} (hp : EdgesProduct g sel p)
    (hmin : ∀ sel', EdgesExplain g r stabs.length sel' syn → ∑ i ∈ sel, (if era i = true then (0 : ℚ) else 1) ≤ ∑ i ∈ sel', (if era i = true then (0 : ℚ) else 1))
    {k : Nat} (hk : k < d) (hbad : anti p (D.T k) ≠ xsum (List.range r) fun t => anti (f.data t) (D.T k)) :
    ∃ o L A, Trail (vertsAt g.edges) o L o ∧ (∀ i ∈ L, i < g.edges.length ∧ vertsAt g.edges i ≠ [] ∧ D.relEdge g i = true) ∧ d ≤ L.length ∧ A ⊆ L.toFinset ∧
      L.length ≤ 2 * A.card ∧ ∀ i ∈ A, f.edge g i = true ∨ era i = true := by
  obtain ⟨o, L, A, h1, h2, h3, h4, h5, h6⟩ := failure_weighted h (allFinite_none h) D hd hsyn hf hen hsel hp (a := 1) (ρ := 1) one_pos (fun i e _ _ _ => by
    by_cases hi : era i = true
    · rw [if_pos hi, if_pos hi]
    · rw [if_neg hi, if_neg hi]; norm_num) hmin hk hbad
  exact ⟨o, L, A, h1, h2, h3, h4, by omega, h6⟩

end Plaquette
