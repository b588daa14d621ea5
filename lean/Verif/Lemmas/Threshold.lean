import Verif.Lemmas.Failure
import Verif.Lemmas.Rare
import Verif.Lemmas.MatchingBackend
import Verif.Spec.LocalNoise

/-!
# Random faults are corrected with high probability
-/

open MeasureTheory
open scoped ENNReal

namespace Plaquette
variable {n : Nat} {W : Type} [LinearOrder W] {isInf : W → Bool} {r : Nat} {stabs : List (Op n)} {w : Option (Weights W)} {g : SynGraph W} {d : Nat}

/-! ## Relevant edges and places -/

/-- The index of the relevant edge of a place. -/
def LineSystem.edgeOf (D : LineSystem stabs d) (r : Nat) : Place n → Nat
  | .inl (t, q) => t * (2 * n) + (if D.side q then q.val else n + q.val)
  | .inr (t, s) => r * (2 * n) + (t * stabs.length + s)

theorem LineSystem.edge_place (D : LineSystem stabs d) (h : mkSynGraph isInf r stabs w = .ok g) {i : Nat} (hi : i < g.edges.length) (hrel : D.relEdge g i = true) :
    ∃ a : Place n, Place.Within r stabs.length a ∧ i = D.edgeOf r a ∧
      ∀ (f : Faults n) (erased : Option (List (List Bool))), (f.edge g i = true ∨
        ∃ (e : SEdge W) (t o q : Nat) (b : Bool), g.edges[i]? = some e ∧ e.kind = .qubit t o q b ∧ SynBit erased t q) → f.At erased a := by
  have hie := List.getElem?_eq_getElem hi
  rcases edge_cases h hie with ⟨t, o, l, ht, hl, hkd, _⟩ | ⟨t, s, ht, hs, hkd, _⟩
  · refine ⟨.inl (t, l.2), ht, ?_, fun f erased hf => ?_⟩
    · rw [D.relEdge_qubit hie hkd hl] at hrel
      have hsd : (l.1 == .X) = D.side l.2 := by simpa using hrel
      show i = t * (2 * n) + _
      rw [(qubit_idx h hie hkd).1, ← hsd, ← (errorOps_idx hl).1]
    · rcases hf with hf | ⟨e, t', o', q', b', h1, h2, h3⟩
      · rw [f.edge_qubit hie hkd] at hf
        exact .inl (opBit_bits hl hf)
      · rw [hie] at h1; cases h1
        rw [hkd, EdgeKind.qubit.injEq] at h2
        obtain ⟨rfl, _, rfl, _⟩ := h2
        exact .inr h3
  · refine ⟨.inr (t, s), ⟨by omega, hs⟩, (stab_idx h hie hkd).1, fun f erased hf => ?_⟩
    rcases hf with hf | ⟨e, t', o', q', b', h1, h2, h3⟩
    · rw [f.edge_stab hie hkd, Nat.add_sub_cancel] at hf
      exact @of_decide_eq_true _ (Classical.propDecidable _) hf
    · rw [hie] at h1; cases h1
      rw [hkd] at h2; cases h2

/-- The relevant edges that end somewhere. -/
def LineSystem.rels (D : LineSystem stabs d) (g : SynGraph W) : Finset Nat :=
  (Finset.range g.edges.length).filter fun i => vertsAt g.edges i ≠ [] ∧ D.relEdge g i = true

omit [LinearOrder W] in
theorem LineSystem.mem_rels (D : LineSystem stabs d) {i : Nat} : i ∈ D.rels g ↔ i < g.edges.length ∧ vertsAt g.edges i ≠ [] ∧ D.relEdge g i = true := by
  unfold LineSystem.rels
  rw [Finset.mem_filter, Finset.mem_range]

theorem LineSystem.card_rels (D : LineSystem stabs d) (h : mkSynGraph isInf r stabs w = .ok g) : (D.rels g).card ≤ r * (n + stabs.length) := by
  classical
  have hsub : D.rels g ⊆ ((Finset.range r ×ˢ (Finset.univ : Finset (Fin n))).disjSum (Finset.range r ×ˢ Finset.range stabs.length)).image (D.edgeOf r) := by
    intro i hi
    obtain ⟨h1, _, h3⟩ := D.mem_rels.1 hi
    obtain ⟨a, ha, rfl, _⟩ := D.edge_place h h1 h3
    refine Finset.mem_image.2 ⟨a, ?_, rfl⟩
    rcases a with ⟨t, q⟩ | ⟨t, s⟩
    · rw [Finset.inl_mem_disjSum, Finset.mem_product, Finset.mem_range]
      exact ⟨ha, Finset.mem_univ _⟩
    · rw [Finset.inr_mem_disjSum, Finset.mem_product, Finset.mem_range, Finset.mem_range]
      exact ha
  refine (Finset.card_le_card hsub).trans (Finset.card_image_le.trans ?_)
  rw [Finset.card_disjSum, Finset.card_product, Finset.card_product]
  simp [Nat.mul_add]

/-- Few relevant edges end at a vertex. -/
theorem LineSystem.degree (D : LineSystem stabs d) (h : mkSynGraph isInf r stabs w = .ok g) {wt : Nat}
    (hwt : ∀ gen ∈ stabs, ∃ S : Finset (Fin n), S.card ≤ wt ∧ ∀ q, (gen.x q || gen.z q) = true → q ∈ S) (v : Nat) :
    ((D.rels g).filter fun i => v ∈ vertsAt g.edges i).card ≤ wt + 1 + 1 := by
  classical
  rcases Finset.eq_empty_or_nonempty ((D.rels g).filter fun i => v ∈ vertsAt g.edges i) with h0 | ⟨i0, hi0⟩
  · rw [h0]; simp
  have hv : v < r * stabs.length := by
    obtain ⟨qs, es, k, hB⟩ := mkSynGraph_built h
    exact hB.lt i0 v (Finset.mem_filter.1 hi0).2
  have hm0 : 0 < stabs.length := by
    by_contra h0
    have : stabs.length = 0 := by omega
    rw [this] at hv; simp at hv
  have hml := Nat.mod_lt v hm0
  have hve : v / stabs.length * stabs.length + v % stabs.length = v := by rw [Nat.mul_comm]; exact Nat.div_add_mod v stabs.length
  obtain ⟨S, hS, hSq⟩ := hwt _ (List.getElem_mem hml)
  have hsub : (D.rels g).filter (fun i => v ∈ vertsAt g.edges i) ⊆
      (S.image fun q => v / stabs.length * (2 * n) + (if D.side q then q.val else n + q.val)) ∪ {r * (2 * n) + v, r * (2 * n) + (v - stabs.length)} := by
    intro i hi
    obtain ⟨hi, hvi⟩ := Finset.mem_filter.1 hi
    obtain ⟨h1, _, hrel⟩ := D.mem_rels.1 hi
    have hie := List.getElem?_eq_getElem h1
    rw [vertsAt_get hie] at hvi
    rw [Finset.mem_union]
    rcases edge_cases h hie with ⟨t, o, l, ht, hl, hkd, hvs, _⟩ | ⟨t, s, ht, hs, hkd, hvs⟩
    · left
      rw [hvs, List.mem_map] at hvi
      obtain ⟨s, hs, hsv⟩ := hvi
      have hsl := LineSystem.flipped_lt hs
      obtain ⟨rfl, rfl⟩ := vertex_inj hsl hml (show t * stabs.length + s = _ from hsv.trans hve.symm)
      obtain ⟨gen, hgen, hanti⟩ := mem_flipped.mp hs
      rw [List.getElem?_eq_getElem hml, Option.some.injEq] at hgen
      rw [Finset.mem_image]
      refine ⟨l.2, hSq _ ?_, ?_⟩
      · rw [hgen]
        rw [anticommutes_iff] at hanti
        rw [(errorOps_idx hl).2] at hanti
        by_contra hc
        rw [Bool.not_eq_true, Bool.or_eq_false_iff] at hc
        cases hX : (l.1 == .X) with
        | true => rw [hX, if_pos rfl, anti_symm, anti_X, hc.2] at hanti; cases hanti
        | false => rw [hX, if_neg Bool.false_ne_true, anti_symm, anti_Z, hc.1] at hanti; cases hanti
      · rw [D.relEdge_qubit hie hkd hl] at hrel
        have hsd : (l.1 == .X) = D.side l.2 := by simpa using hrel
        rw [(qubit_idx h hie hkd).1, ← hsd, ← (errorOps_idx hl).1]
    · right
      rw [(stab_idx h hie hkd).1]
      rw [hvs] at hvi
      have : v = t * stabs.length + s ∨ v = (t + 1) * stabs.length + s := by simpa using hvi
      rw [Finset.mem_insert, Finset.mem_singleton]
      rcases this with h1 | h1
      · left; rw [h1]
      · right
        rw [h1, Nat.add_mul, Nat.one_mul]
        omega
  refine (Finset.card_le_card hsub).trans ((Finset.card_union_le _ _).trans ?_)
  have h1 : (S.image fun q => v / stabs.length * (2 * n) + (if D.side q then q.val else n + q.val)).card ≤ wt := Finset.card_image_le.trans hS
  have h2 : ({r * (2 * n) + v, r * (2 * n) + (v - stabs.length)} : Finset Nat).card ≤ 2 := Finset.card_le_two
  omega

/-! ## The probability of a failure on a line -/

/-- The edges have the smallest total weight of those that explain the syndrome, for weights that are 0 for erased edges and otherwise differ by at most a
factor `ρ`. -/
def NearlyFewest (g : SynGraph W) (r n m ρ : Nat) (erased syn : Option (List (List Bool))) (sel : Finset Nat) : Prop :=
  ∃ (Wg : Nat → ℚ) (a : ℚ), 0 < a ∧ (∀ er, arrayOr r n erased = .ok er → ∀ (i : Nat) (e : SEdge W), g.edges[i]? = some e → e.enabled = true → e.vertices ≠ [] →
      if edgeErased g er i = true then Wg i = 0 else a ≤ Wg i ∧ Wg i ≤ ρ * a) ∧
    ∀ sel', EdgesExplain g r m sel' syn → ∑ i ∈ sel, Wg i ≤ ∑ i ∈ sel', Wg i

theorem line_rare_weighted (h : mkSynGraph isInf r stabs w = .ok g) (hfin : AllFinite isInf g) {ρ : Nat} (D : LineSystem stabs d) (hd : 2 ≤ d) {wt : Nat}
    (hwt : ∀ gen ∈ stabs, ∃ S : Finset (Fin n), S.card ≤ wt ∧ ∀ q, (gen.x q || gen.z q) = true → q ∈ S)
    {Ω : Type*} [MeasurableSpace Ω] {μ : Measure Ω} {p q : ℝ≥0∞} (hq : q ≤ 1) (hpq : (2 * ((wt + 1 : Nat) : ℝ≥0∞)) ^ (ρ + 1) * p ≤ q ^ (ρ + 1))
    {f : Ω → Faults n} {erased syn : Ω → Option (List (List Bool))} (hN : LocalNoise μ p r stabs.length f erased)
    (her : ∀ ω, ShapeOk r n (erased ω)) (hsyn : ∀ ω, ShapeOk r stabs.length (syn ω)) (hf : ∀ ω, (f ω).Shows r stabs (syn ω))
    (hen : ∀ ω (i : Nat) (e : SEdge W) (t o q : Nat) (b : Bool), g.edges[i]? = some e → e.kind = .qubit t o q b → SynBit (erased ω) t q → e.vertices ≠ [] → e.enabled = true)
    {k : Nat} (hk : k < d) :
    μ {ω | ∃ sel c, EdgesExplain g r stabs.length sel (syn ω) ∧ EdgesProduct g sel c ∧
        NearlyFewest g r n stabs.length ρ (erased ω) (syn ω) sel ∧
        anti c (D.T k) ≠ xsum (List.range r) fun t => anti ((f ω).data t) (D.T k)} ≤
      2 * ((r * (n + stabs.length) : Nat) : ℝ≥0∞) * q ^ d * (1 - q)⁻¹ := by
  set bad : Ω → Nat → Prop := fun ω i => (f ω).edge g i = true ∨
    ∃ (e : SEdge W) (t o q : Nat) (b : Bool), g.edges[i]? = some e ∧ e.kind = .qubit t o q b ∧ SynBit (erased ω) t q with hbad
  have hb : ∀ A ⊆ D.rels g, μ {ω | ∀ i ∈ A, bad ω i} ≤ p ^ A.card := by
    intro A hA
    have hex : ∀ i : Nat, i ∈ A → ∃ a : Place n, Place.Within r stabs.length a ∧ i = D.edgeOf r a ∧ ∀ ω, bad ω i → (f ω).At (erased ω) a := by
      intro i hi
      obtain ⟨h1, _, h3⟩ := D.mem_rels.1 (hA hi)
      obtain ⟨a, ha, h4, h5⟩ := D.edge_place h h1 h3
      exact ⟨a, ha, h4, fun ω hω => h5 _ _ hω⟩
    choose φ h1 h2 h3 using hex
    have hinj : Function.Injective fun i : {i // i ∈ A} => φ i.1 i.2 := by
      intro i j hij
      have h4 := h2 i.1 i.2
      have h5 := h2 j.1 j.2
      simp only at hij
      rw [hij, ← h5] at h4
      exact Subtype.ext h4
    have hcard : (A.attach.image fun i => φ i.1 i.2).card = A.card := by
      rw [Finset.card_image_of_injective _ hinj, Finset.card_attach]
    rw [← hcard]
    have hsub : {ω | ∀ i ∈ A, bad ω i} ⊆ {ω | ∀ a ∈ A.attach.image (fun i => φ i.1 i.2), (f ω).At (erased ω) a} := by
      intro ω hω a ha
      obtain ⟨i, _, rfl⟩ := Finset.mem_image.1 ha
      exact h3 i.1 i.2 ω (hω i.1 i.2)
    refine (measure_mono hsub).trans (hN _ fun a ha => ?_)
    · obtain ⟨i, _, rfl⟩ := Finset.mem_image.1 ha
      exact h1 i.1 i.2
  have hrare := trails_rare_part (E := vertsAt g.edges) μ (Nat.succ_pos ρ) (R := D.rels g) (bad := bad) (fun i hi => sound2_edge h (D.mem_rels.1 hi).2.1) (Δ := wt + 1) (by omega)
    (D.degree h hwt) hb hq hpq (d := d) (by omega)
  refine (measure_mono fun ω hω => ?_).trans (hrare.trans ?_)
  · obtain ⟨sel, c, h1, h2, ⟨Wg, a, ha, hWg, h3⟩, h4⟩ := hω
    obtain ⟨er, he, hbe⟩ := arrayOr_ok (her ω)
    obtain ⟨o, L, A, h5, h6, h7, h8, h9, h10⟩ := failure_weighted h hfin D hd (hsyn ω) (hf ω) (era := edgeErased g er) (fun i e hie hei hv => by
      obtain ⟨e', t, o, q', b, h1, h2, h3⟩ := (edgeErased_iff hbe i).1 hei
      exact hen ω i e t o q' b hie (by rw [hie] at h1; cases h1; exact h2) h3 hv) h1 h2 ha (hWg er he) h3 hk h4
    exact ⟨o, L, A, h5, fun i hi => D.mem_rels.2 (h6 i hi), h7, h8, h9, fun i hi => (h10 i hi).imp id (edgeErased_iff hbe i).1⟩
  · gcongr
    exact_mod_cast D.card_rels h

open Classical in
theorem line_rare (h : mkSynGraph isInf r stabs none = .ok g) (D : LineSystem stabs d) (hd : 2 ≤ d) {wt : Nat}
    (hwt : ∀ gen ∈ stabs, ∃ S : Finset (Fin n), S.card ≤ wt ∧ ∀ q, (gen.x q || gen.z q) = true → q ∈ S)
    {Ω : Type*} [MeasurableSpace Ω] {μ : Measure Ω} {p q : ℝ≥0∞} (hq : q ≤ 1) (hpq : 4 * ((wt + 1 : Nat) : ℝ≥0∞) ^ 2 * p ≤ q ^ 2)
    {f : Ω → Faults n} {erased syn : Ω → Option (List (List Bool))} (hN : LocalNoise μ p r stabs.length f erased)
    (her : ∀ ω, ShapeOk r n (erased ω)) (hsyn : ∀ ω, ShapeOk r stabs.length (syn ω)) (hf : ∀ ω, (f ω).Shows r stabs (syn ω))
    (hen : ∀ ω (i : Nat) (e : SEdge W) (t o q : Nat) (b : Bool), g.edges[i]? = some e → e.kind = .qubit t o q b → SynBit (erased ω) t q → e.vertices ≠ [] → e.enabled = true)
    {k : Nat} (hk : k < d) :
    μ {ω | ∃ sel c, EdgesExplain g r stabs.length sel (syn ω) ∧ EdgesProduct g sel c ∧
        (∀ er, arrayOr r n (erased ω) = .ok er → ∀ sel', EdgesExplain g r stabs.length sel' (syn ω) →
          ∑ i ∈ sel, (if edgeErased g er i = true then (0 : ℚ) else 1) ≤ ∑ i ∈ sel', (if edgeErased g er i = true then (0 : ℚ) else 1)) ∧
        anti c (D.T k) ≠ xsum (List.range r) fun t => anti ((f ω).data t) (D.T k)} ≤
      2 * ((r * (n + stabs.length) : Nat) : ℝ≥0∞) * q ^ d * (1 - q)⁻¹ := by
  refine (measure_mono fun ω hω => ?_).trans (line_rare_weighted h (allFinite_none h) (ρ := 1) D hd hwt hq (by rw [mul_pow]; norm_num at hpq ⊢; exact hpq) hN her hsyn hf hen hk)
  obtain ⟨sel, c, h1, h2, h3, h4⟩ := hω
  obtain ⟨er, he, hbe⟩ := arrayOr_ok (her ω)
  refine ⟨sel, c, h1, h2, ⟨fun i => if edgeErased g er i = true then (0 : ℚ) else 1, 1, one_pos, fun er' he' i e _ _ _ => ?_, h3 er he⟩, h4⟩
  rw [he] at he'; cases he'
  by_cases hi : edgeErased g er i = true
  · rw [if_pos hi]; simp only [if_pos hi]
  · rw [if_neg hi]; simp only [if_neg hi]; norm_num

end Plaquette
