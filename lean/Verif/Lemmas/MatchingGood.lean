import Verif.Lemmas.MatchingFb
import Verif.Lemmas.LinesMain

/-!
# The matching decoders find lightest explanations
-/

namespace Plaquette
variable {W : Type} [LinearOrder W] {n r : Nat} {stabs : List (Op n)}

/-! ## The graphs of components -/

/-- The vertices of an edge are in increasing order. -/
theorem edge_sorted {isInf : W → Bool} {w : Option (Weights W)} {g : SynGraph W} (h : mkSynGraph isInf r stabs w = .ok g) {i : Nat} {e : SEdge W}
    (he : g.edges[i]? = some e) : e.vertices.Pairwise (· < ·) := by
  rcases edge_cases h he with ⟨t, o, l, _, _, _, hv, _⟩ | ⟨t, s, _, hs, _, hv⟩
  · rw [hv, List.pairwise_map]
    have : (flipped stabs (singleOp false l.1 l.2)).Pairwise (· < ·) := List.pairwise_lt_range.filter _
    exact this.imp fun hab => by unfold vertexIdx; omega
  · rw [hv]
    have : t * stabs.length + s < (t + 1) * stabs.length + s := by rw [Nat.add_mul]; omega
    simpa using this

/-- Enabled edges with the same vertices are the same. -/
theorem enabled_unique {isInf : W → Bool} {w : Option (Weights W)} {g : SynGraph W} (h : mkSynGraph isInf r stabs w = .ok g) {i j : Nat}
    {e f : SEdge W} (he : g.edges[i]? = some e) (hf : g.edges[j]? = some f) (hv : e.vertices = f.vertices) (hne : e.vertices ≠ [])
    (h1 : e.enabled = true) (h2 : f.enabled = true) : i = j := by
  obtain ⟨b, eb, _, _, h5⟩ := C33_parallel h he hne
  rw [((h5 i e he rfl).2.2.1 h1).1, ((h5 j f hf hv.symm).2.2.1 h2).1]

theorem comp_simple {isInf : W → Bool} {w : Option (Weights W)} {g : SynGraph W} (h : mkSynGraph isInf r stabs w = .ok g) {c : Component W}
    (hc : c ∈ g.components) : SimpleEdges c.edges := by
  obtain ⟨hl, _, hcopy⟩ := C34_copy h hc
  have hok := compOk h hc
  have hback : ∀ (j : Nat) (a b : Nat), c.edges[j]? = some [a, b] → ∃ (i : Nat) (e : SEdge W), c.edgeIdx[j]? = some i ∧ g.edges[i]? = some e ∧
      e.enabled = true ∧ e.vertices.map some = [c.vertexIdx[a]?, c.vertexIdx[b]?] := by
    intro j a b hj
    have hjl : j < c.edgeIdx.length := by rw [← hl]; exact (List.getElem?_eq_some_iff.1 hj).1
    obtain ⟨e, he, hen, _⟩ := (hok.mem _).1 (List.getElem_mem hjl)
    obtain ⟨l, e1, e2, _⟩ := hcopy j _ e (List.getElem?_eq_getElem hjl) he
    rw [hj] at e1; cases e1
    exact ⟨_, e, List.getElem?_eq_getElem hjl, he, hen, e2.symm⟩
  have hpair : ∀ (l : List Nat) (x y : Option Nat), l.map some = [x, y] → ∃ p q, l = [p, q] ∧ x = some p ∧ y = some q := by
    intro l x y hl
    match l, hl with
    | [p, q], hl => exact ⟨p, q, rfl, by simp at hl; exact hl.1.symm, by simp at hl; exact hl.2.symm⟩
  unfold SimpleEdges
  rw [List.pairwise_iff_getElem]
  intro j k hj hk hjk a b hab
  have hja : c.edges[j]? = some [a, b] := by rw [List.getElem?_eq_getElem hj, hab]
  obtain ⟨i, e, h1, h2, h3, h4⟩ := hback j a b hja
  obtain ⟨p, q, hpq, hxa, hxb⟩ := hpair _ _ _ h4
  have hs := edge_sorted h h2
  rw [hpq] at hs
  have hlt : p < q := by simpa using hs
  have main : ∀ x y, c.edges[k] = [x, y] → (x = a ∧ y = b ∨ x = b ∧ y = a) → False := by
    intro x y hxy hor
    obtain ⟨i', e', g1, g2, g3, g4⟩ := hback k x y (by rw [List.getElem?_eq_getElem hk, hxy])
    obtain ⟨p', q', hpq', hxa', hxb'⟩ := hpair _ _ _ g4
    have hs' := edge_sorted h g2
    rw [hpq'] at hs'
    have hlt' : p' < q' := by simpa using hs'
    rcases hor with ⟨rfl, rfl⟩ | ⟨rfl, rfl⟩
    · rw [hxa] at hxa'; rw [hxb] at hxb'
      cases hxa'; cases hxb'
      have := enabled_unique h h2 g2 (by rw [hpq, hpq']) (by rw [hpq]; simp) h3 g3
      subst this
      have := (List.nodup_iff_getElem?_ne_getElem?.1 hok.enodup) j k hjk (by rw [← hl]; exact hk)
      exact this (by rw [h1, g1])
    · rw [hxb] at hxa'; rw [hxa] at hxb'
      cases hxa'; cases hxb'
      omega
  exact ⟨fun h0 => main a b h0 (.inl ⟨rfl, rfl⟩), fun h0 => main b a h0 (.inr ⟨rfl, rfl⟩)⟩

/-- A correctable syndrome can be explained. -/
theorem exists_explains {n : Nat} {edges : List (List Nat)} (hg : IsDecodingGraph n edges) {syn : List Bool} (hl : syn.length = n)
    (h : Correctable n edges (fun _ => True) syn) : ∃ y, Explains n edges y syn := by
  have hsame : ∀ a b, SameCluster edges (fun _ => True) a b ↔ SameCluster edges (· ∈ List.range edges.length) a b := by
    intro a b
    constructor
    · intro hab
      induction hab with
      | refl => exact .refl _
      | step _ _ he hu hw ih => exact .step ih (List.mem_range.2 (List.getElem?_eq_some_iff.1 he).1) he hu hw
    · intro hab
      induction hab with
      | refl => exact .refl _
      | step _ _ he hu hw ih => exact .step ih trivial he hu hw
  obtain ⟨corr, _, _, h3⟩ := C35_peeling hg (sel := List.range edges.length) (fun i hi => List.mem_range.1 hi) hl (by
    intro v hv
    rcases h v hv with ⟨u, i, h1, _, h3⟩ | h1
    · exact .inl ⟨u, i, (hsame v u).1 h1, List.mem_range.2 (List.getElem?_eq_some_iff.1 h3).1, h3⟩
    · right
      convert h1 using 2
      ext u
      simp only [Set.mem_ofPred_eq, hsame])
  exact ⟨corr, h3⟩

/-- Without weights no edge of a component has one. -/
theorem comp_none {isInf : W → Bool} {g : SynGraph W} (h : mkSynGraph isInf r stabs none = .ok g) {c : Component W} (hc : c ∈ g.components) :
    ∀ x ∈ c.weights, x = none := by
  intro y hy
  obtain ⟨j, hj⟩ := List.getElem?_of_mem hy
  obtain ⟨h1, h2, h3⟩ := C34_copy h hc
  have hjl : j < c.edgeIdx.length := by rw [← h2]; exact (List.getElem?_eq_some_iff.1 hj).1
  obtain ⟨e, he, _⟩ := ((compOk h hc).mem _).1 (List.getElem_mem hjl)
  obtain ⟨l, _, _, h6⟩ := h3 j _ e (List.getElem?_eq_getElem hjl) he
  rw [hj, Option.some.injEq] at h6
  have h7 : e.weight = none := C33_weights h e (List.mem_of_getElem? he)
  rw [h6, h7]

theorem comp_lengths {isInf : W → Bool} {w : Option (Weights W)} {g : SynGraph W} (h : mkSynGraph isInf r stabs w = .ok g) {c : Component W}
    (hc : c ∈ g.components) : c.weights.length = c.edges.length := by
  obtain ⟨h1, h2, _⟩ := C34_copy h hc
  omega

/-! ## The weights of Fusion Blossom -/

theorem maxWeight_ge {l : List ℚ} : ∀ w ∈ l, w ≤ maxWeight l := by
  unfold maxWeight
  have : ∀ (l : List ℚ) (b : ℚ), b ≤ l.foldl max b ∧ ∀ x ∈ l, x ≤ l.foldl max b := by
    intro l
    induction l with
    | nil => simp
    | cons a l ih =>
      intro b
      obtain ⟨h1, h2⟩ := ih (max b a)
      refine ⟨(le_max_left _ _).trans h1, fun x hx => ?_⟩
      rcases List.mem_cons.1 hx with rfl | hx
      · exact (le_max_right _ _).trans h1
      · exact h2 x hx
  exact fun w hw => (this l _).2 w hw

theorem fbWeights_ok {m : Nat} {ws : List (Option FW)} {l : List Int} (h : fbWeights m ws = .ok l) : SaneWeights ws ∧ (∀ w ∈ l, 0 ≤ w) ∧
    ((∀ x ∈ ws, x = none) ∧ l = List.replicate m 1 ∨
      (∀ x ∈ ws, ∃ q : ℚ, 0 ≤ q ∧ x = some ((q : WithTop ℚ) : FW)) ∧ 0 < maxWeight (ws.map FW.weight) ∧
        l = (ws.map FW.weight).map fun w => ⌊100 * w / maxWeight (ws.map FW.weight)⌋) := by
  unfold fbWeights at h
  split at h
  · cases h
  · next h1 =>
    cases h
    refine ⟨.inl (isWeighted_inv h1), fun w hw => ?_, .inl ⟨isWeighted_inv h1, rfl⟩⟩
    rw [List.eq_of_mem_replicate hw]; decide
  · next h1 =>
    split at h
    · cases h
    · next h2 =>
      split at h
      · cases h
      · next l' h3 =>
        split at h
        · cases h
        · next hmax =>
          cases h
          obtain ⟨hne, h4, rfl⟩ := weighted_inv h1 h2 h3
          have hnn : ∀ w ∈ ws.map FW.weight, 0 ≤ w := by
            intro w hw
            obtain ⟨x, hx, rfl⟩ := List.mem_map.1 hw
            obtain ⟨q, hq, rfl⟩ := h4 x hx
            exact hq
          obtain ⟨x, hx⟩ := List.exists_mem_of_ne_nil _ hne
          have hpos : 0 < maxWeight (ws.map FW.weight) :=
            lt_of_le_of_ne ((hnn _ (List.mem_map_of_mem hx)).trans (maxWeight_ge _ (List.mem_map_of_mem hx))) (Ne.symm hmax)
          refine ⟨.inr h4, fun w hw => ?_, .inr ⟨h4, hpos, rfl⟩⟩
          obtain ⟨q, hq, rfl⟩ := List.mem_map.1 hw
          exact Int.floor_nonneg.2 (div_nonneg (mul_nonneg (by norm_num) (hnn q hq)) hpos.le)

theorem fbWeights_length {m : Nat} {ws : List (Option FW)} {l : List Int} (h : fbWeights m ws = .ok l) (hl : ws.length = m) : l.length = m := by
  rcases (fbWeights_ok h).2.2 with ⟨_, rfl⟩ | ⟨_, _, rfl⟩
  · simp
  · simpa using hl

theorem fbSetup_inv {c : Component FW} {G : FbGraph} (h : fbSetup c = .ok G) (hg : IsDecodingGraph c.nVertices c.edges) (hs : SimpleEdges c.edges)
    (hl : c.weights.length = c.edges.length) : ∃ ws, fbWeights c.edges.length c.weights = .ok ws ∧ G.Shows c ws := by
  cases hw : fbWeights c.edges.length c.weights with
  | error e => unfold fbSetup at h; simp only [hw] at h; cases h
  | ok ws =>
    obtain ⟨G', h1, h2⟩ := fbSetup_shows hw (fbWeights_length hw hl) (fbWeights_ok hw).2.1 hg hs
    rw [h] at h1; cases h1
    exact ⟨ws, rfl, h2⟩

/-! ## Short corrections -/

/-- A correction with no more edges that are not erased than the errors crosses few lines. -/
theorem lines_light {nv : Nat} {edges : List (List Nat)} {P : Type} [CommRing P] (Y : Layout P nv edges) {er corr x : List Bool}
    (h : (List.range edges.length).countP (fun j => corr.getD j false && !er.getD j false) ≤
      (List.range edges.length).countP (fun j => x.getD j false && !er.getD j false)) :
    (linesOf Y (x.getD · false) (corr.getD · false)).Finite ∧ (linesOf Y (x.getD · false) (corr.getD · false)).ncard ≤
      2 * (List.range edges.length).countP (fun j => x.getD j false && !er.getD j false) +
        (List.range edges.length).countP (fun j => er.getD j false) := by
  classical
  have hcount : ∀ p : Nat → Bool, (List.range edges.length).countP p = ((Finset.range edges.length).filter fun j => p j = true).card := by
    intro p
    rw [List.countP_eq_length_filter, ← List.toFinset_card_of_nodup (List.nodup_range.filter _), List.toFinset_filter, List.toFinset_range]
  let I := (Finset.range edges.length).filter fun j => corr.getD j false = true ∨ x.getD j false = true
  have hsub : linesOf Y (x.getD · false) (corr.getD · false) ⊆ ((I.image fun i => (Y.seg i).getD 0) : Set P) := by
    rintro p ⟨i, hi, h1, h2⟩
    rw [Finset.mem_coe, Finset.mem_image]
    exact ⟨i, Finset.mem_filter.2 ⟨Finset.mem_range.2 hi, h1⟩, by rw [h2]; rfl⟩
  refine ⟨(Finset.finite_toSet _).subset hsub, (Set.ncard_le_ncard hsub (Finset.finite_toSet _)).trans ?_⟩
  rw [Set.ncard_coe_finset]
  refine Finset.card_image_le.trans ?_
  have hI : I ⊆ ((Finset.range edges.length).filter fun j => (corr.getD j false && !er.getD j false) = true) ∪
      (((Finset.range edges.length).filter fun j => (x.getD j false && !er.getD j false) = true) ∪
        (Finset.range edges.length).filter fun j => er.getD j false = true) := by
    intro i hi
    obtain ⟨h1, h2⟩ := Finset.mem_filter.1 hi
    simp only [Finset.mem_union, Finset.mem_filter, h1, true_and, Bool.and_eq_true, Bool.not_eq_true']
    cases er.getD i false <;> tauto
  have := (Finset.card_le_card hI).trans ((Finset.card_union_le _ _).trans (Nat.add_le_add_left (Finset.card_union_le _ _) _))
  rw [hcount, hcount] at h
  rw [hcount, hcount]
  omega

/-- The number of edges of an explanation that are not erased is minimal if the weights are all the same. -/
theorem light_count {nv : Nat} {edges : List (List Nat)} {w : Nat → ℚ} {q : ℚ} (hq : 0 < q) {er corr syn x : List Bool}
    (hw : ∀ i < edges.length, w i = if er[i]? = some true then 0 else q) (h : IsLightest nv edges w corr syn) (hx : Explains nv edges x syn) :
    (List.range edges.length).countP (fun j => corr.getD j false && !er.getD j false) ≤
      (List.range edges.length).countP (fun j => x.getD j false && !er.getD j false) := by
  have key : ∀ y : List Bool, y.length = edges.length →
      totalWeight w y = ((List.range edges.length).countP (fun j => y.getD j false && !er.getD j false) : ℚ) * q := by
    intro y hy
    unfold totalWeight
    rw [hy, List.countP_eq_length_filter, ← List.toFinset_card_of_nodup (List.nodup_range.filter _), List.toFinset_filter, List.toFinset_range,
      ← nsmul_eq_mul, ← Finset.sum_const, Finset.sum_filter]
    refine Finset.sum_congr rfl fun i hi => ?_
    rw [Finset.mem_range] at hi
    rw [hw i hi, List.getD_eq_getElem?_getD, List.getD_eq_getElem?_getD, List.getElem?_eq_getElem (by omega : i < y.length)]
    cases hyi : y[i] <;> cases he : er[i]? with
    | none => simp
    | some b => cases b <;> simp
  have := h.2 x hx
  rw [key corr h.1.1, key x hx.1] at this
  have := le_of_mul_le_mul_right this hq
  exact_mod_cast this

end Plaquette
