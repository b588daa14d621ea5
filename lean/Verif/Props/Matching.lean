import Verif.Lemmas.MatchingBackend
import Verif.Lemmas.MatchingSolver
import Mathlib.Tactic.IntervalCases

/-!
# The decoders PyMatching (C72) and Fusion Blossom (C73)
-/

namespace Plaquette
variable {n r : Nat} {stabs : List (Op n)} {w : Option (Weights FW)} {g : SynGraph FW}

/-! ## PyMatching -/

/-- **C72 (set-up)**: the decoder can be set up exactly if in every component with edges there are no weights, or all are finite and not negative. In
particular the library does not refuse an edge because there are two between the same nodes, however many edges end at the boundary. -/
theorem C72_setup (solve : PmGraph → List Bool → Except Err (List Bool)) (h : mkSynGraph FW.isInf r stabs w = .ok g) :
    (∃ states, setupAll (pmBackend solve) g = .ok states) ↔ ∀ c ∈ g.components, c.edges ≠ [] → SaneWeights c.weights := by
  have hmem : ∀ c, c ∈ g.withEdges ↔ c ∈ g.components ∧ c.edges ≠ [] := fun c => by
    unfold SynGraph.withEdges
    rw [List.mem_filter]
    simp
  constructor
  · rintro ⟨states, hst⟩ c hc hne
    obtain ⟨k, hk⟩ := List.getElem?_of_mem ((hmem c).2 ⟨hc, hne⟩)
    obtain ⟨hl, hget⟩ := pm_states h hst
    have hlt : k < states.length := by rw [hl]; exact (List.getElem?_eq_some_iff.1 hk).1
    exact (hget k c _ hk (List.getElem?_eq_getElem hlt)).2
  · exact fun hw => pm_setup solve h fun c hc => hw c ((hmem c).1 hc).1 ((hmem c).1 hc).2

/-- **C72 (set-up)**: without weights, and with weights that are finite and not negative (infinite ones disable edges), the decoder can be set up. -/
theorem C72_sane (solve : PmGraph → List Bool → Except Err (List Bool)) (h : mkSynGraph FW.isInf r stabs w = .ok g)
    (hw : (∀ e ∈ g.edges, e.weight = none) ∨ ∀ e ∈ g.edges, e.enabled = true → ∃ q : ℚ, 0 ≤ q ∧ e.weight = some ((q : WithTop ℚ) : FW)) :
    ∃ states, setupAll (pmBackend solve) g = .ok states :=
  pm_setup solve h fun _ hc => comp_sane h (List.mem_filter.1 hc).1 hw

/-- **C72 (minimum weight)**: what the decoder returns is the product of the errors of edges that explain the syndrome, and no other edges that do have a smaller
total weight, in the whole syndrome graph. -/
theorem C72_minimal {solve : PmGraph → List Bool → Except Err (List Bool)} (hS : IsPyMatching solve) (h : mkSynGraph FW.isInf r stabs w = .ok g)
    {states : List PmGraph} (hst : setupAll (pmBackend solve) g = .ok states) {erased syn : Option (List (List Bool))} {p : Op n}
    (hp : decode (pmBackend solve) g n states erased syn = .ok p) :
    ∃ sel, EdgesExplain g r stabs.length sel syn ∧ EdgesProduct g sel p ∧
      ∀ sel', EdgesExplain g r stabs.length sel' syn → ∑ i ∈ sel, edgeWeight g i ≤ ∑ i ∈ sel', edgeWeight g i := by
  obtain ⟨er, _, _, he, _⟩ := decode_inv h hp
  refine light_total h (pm_light' hS h hst) (pm_states h hst).1 hp he _ fun c hc j i hj => ?_
  obtain ⟨e, h1, _, h3⟩ := comp_weight h hc hj
  rw [edgeWeight_eq h1, ← h3]
  rfl

/-- **C72 (answers)**: without erasures, the syndromes that are accepted are those that some enabled edges explain. -/
theorem C72_answers {solve : PmGraph → List Bool → Except Err (List Bool)} (hS : IsPyMatching solve) (h : mkSynGraph FW.isInf r stabs w = .ok g)
    {states : List PmGraph} (hst : setupAll (pmBackend solve) g = .ok states) {erased syn : Option (List (List Bool))} (her : ShapeOk r n erased)
    (hno : ∀ t q, ¬ SynBit erased t q) (hsyn : ShapeOk r stabs.length syn) :
    (Explainable g r stabs.length syn ∧ ∃ p, decode (pmBackend solve) g n states erased syn = .ok p) ∨
    (¬ Explainable g r stabs.length syn ∧ decode (pmBackend solve) g n states erased syn = .error .valueError) := by
  rw [pm_decode_raw h her hno]
  exact C39_refused h ((pm_light hS h hst).sound (pm_states h hst).1) (pm_complete hS h hst) her hsyn

/-- **C72 (erasures)**: nothing is returned if a qubit is erased whose errors are detected. -/
theorem C72_erased {solve : PmGraph → List Bool → Except Err (List Bool)} (h : mkSynGraph FW.isInf r stabs w = .ok g)
    {states : List PmGraph} (hst : setupAll (pmBackend solve) g = .ok states) {erased syn : Option (List (List Bool))} {i : Nat} {e : SEdge FW}
    {t o q : Nat} {b : Bool} (he : g.edges[i]? = some e) (hen : e.enabled = true) (hv : e.vertices ≠ []) (hk : e.kind = .qubit t o q b)
    (hq : SynBit erased t q) (p : Op n) : decode (pmBackend solve) g n states erased syn ≠ .ok p := by
  intro hp
  obtain ⟨er, sy, rs, he', hs, hd, hm, hfr⟩ := decode_inv h hp
  obtain ⟨er', he'', hbe⟩ := arrayOr_ok (arrayOr_shape he')
  rw [he'] at he''; cases he''
  obtain ⟨c, hc, hic⟩ := exists_comp h he hen hv
  have her : edgeErased g er i = true := (edgeErased_iff hbe i).2 ⟨e, t, o, q, b, he, hk, hq⟩
  obtain ⟨k, hkc⟩ := List.getElem?_of_mem hc
  obtain ⟨j, hj⟩ := List.getElem?_of_mem hic
  have hlt : k < states.length := by rw [(pm_states h hst).1]; exact (List.getElem?_eq_some_iff.1 hkc).1
  obtain ⟨_, hget⟩ := mapLoop_get hm
  obtain ⟨y, hy, -⟩ := hget k (c, states[k]) (by rw [List.getElem?_zip_eq_some]; exact ⟨hkc, List.getElem?_eq_getElem hlt⟩)
  unfold decodeOne at hy
  cases hb : (pmBackend solve).decode states[k] (c.edgeIdx.map (edgeErased g er)) (c.vertexIdx.map (vertexSyndrome g sy)) with
  | error x => simp only [hb] at hy; cases hy
  | ok corr => exact (pmDecode_ok hb).2 j (by rw [List.getElem?_map, hj]; exact congrArg some her)

/-! ## Fusion Blossom -/

open Classical in
/-- The weight of an edge that may be erased: 0 if it is. -/
noncomputable def lossWeight (g : SynGraph FW) (erased : Option (List (List Bool))) (i : Nat) : ℚ :=
  if ∃ (e : SEdge FW) (t o q : Nat) (b : Bool), g.edges[i]? = some e ∧ e.kind = .qubit t o q b ∧ SynBit erased t q then 0 else edgeWeight g i

/-- C73: what Fusion Blossom returns is the product of the errors of edges that explain the syndrome with the smallest total weight, where erased edges have
weight 0. -/
def C73_statement : Prop := ∀ (n r : Nat) (stabs : List (Op n)) (w : Option (Weights FW)) (g : SynGraph FW)
  (solve : FbGraph → List Nat → List Nat → Except Err (List Nat)) (states : List FbGraph) (erased syn : Option (List (List Bool))) (p : Op n),
  IsFusionBlossom solve → mkSynGraph FW.isInf r stabs w = .ok g → setupAll (fbBackend solve) g = .ok states →
  decode (fbBackend solve) g n states erased syn = .ok p → ∃ sel, EdgesExplain g r stabs.length sel syn ∧ EdgesProduct g sel p ∧
    ∀ sel', EdgesExplain g r stabs.length sel' syn → ∑ i ∈ sel, lossWeight g erased i ≤ ∑ i ∈ sel', lossWeight g erased i

/-! ### The counterexample: the weights are rounded -/

/-- `ZZII`, `IZZZ`, `IIIZ` -/
def fb4Stabs : List (Op 4) := [⟨fun _ => false, fun q => decide (q.val ∈ [0, 1]), false⟩,
  ⟨fun _ => false, fun q => decide (q.val ∈ [1, 2, 3]), false⟩, ⟨fun _ => false, fun q => decide (q.val ∈ [3]), false⟩]

/-- The weights 1, 0.9, 0.9 and 100 of the errors X. -/
def fb4Weights : Weights FW := ⟨.arr (([1, 9 / 10, 9 / 10, 100] : List ℚ).map fun q => some ((q : WithTop ℚ) : FW)),
  .num (some ((1 : ℚ) : WithTop ℚ)), .num (some ((1 : ℚ) : WithTop ℚ))⟩

/-- The edges with vertices come first; with the edges of each component there are the rounded weights. -/
def fb4Check : Bool :=
  match mkSynGraph FW.isInf 1 fb4Stabs (some fb4Weights) with
  | .error _ => false
  | .ok g => decide (g.edges.map SEdge.vertices = [[0], [0, 1], [1], [1, 2], [], [], [], []]) &&
      decide (g.edges.map (fun e => (e.kind, e.enabled)) = (List.range 4).map (fun q => (.qubit 0 q q true, true)) ++
        (List.range 4).map (fun q => (.qubit 0 (4 + q) q false, true))) &&
      decide ((g.edges.map fun e => FW.weight e.weight) = [1, 9 / 10, 9 / 10, 100, 1, 1, 1, 1]) &&
      decide ((g.components.map fun c => (c.edgeIdx, fbW c)) = [([0, 1, 2, 3], [1, 0, 0, 100])])

set_option maxRecDepth 100000 in
theorem fb4Check_ok : fb4Check = true := by decide +kernel


theorem ncard_filter {α : Type} {sel : Finset Nat} {L : List α} {P : α → Bool} : Set.ncard {i | i ∈ sel ∧ ∃ e, L[i]? = some e ∧ P e = true} =
    (sel.filter fun i => (L[i]?).any P = true).card := by
  rw [← Set.ncard_coe_finset]
  congr 1
  ext i
  simp [Option.any_eq_true]

set_option maxRecDepth 10000 in
theorem fb4_two : ∀ sel ∈ (Finset.range 4).powerset,
    ((Odd (sel.filter fun i => ([[0], [0, 1], [1], [1, 2], [], [], [], []] : List (List Nat))[i]?.any (fun l => decide (0 ∈ l)) = true).card ∧
     ¬ Odd (sel.filter fun i => ([[0], [0, 1], [1], [1, 2], [], [], [], []] : List (List Nat))[i]?.any (fun l => decide (1 ∈ l)) = true).card ∧
     ¬ Odd (sel.filter fun i => ([[0], [0, 1], [1], [1, 2], [], [], [], []] : List (List Nat))[i]?.any (fun l => decide (2 ∈ l)) = true).card) ↔
     (sel = {0} ∨ sel = {1, 2})) := by decide +kernel

/-- The syndrome of the error X on the first qubit. -/
def fb4Syn : List (List Bool) := [[true, false, false]]

theorem fb4_explain {g : SynGraph FW} (hv : g.edges.map SEdge.vertices = [[0], [0, 1], [1], [1, 2], [], [], [], []])
    (hk : g.edges.map (fun e => (e.kind, e.enabled)) = (List.range 4).map (fun q => (.qubit 0 q q true, true)) ++
        (List.range 4).map (fun q => (.qubit 0 (4 + q) q false, true))) (sel : Finset Nat) :
    EdgesExplain g 1 3 sel (some fb4Syn) ↔ (sel = {0} ∨ sel = {1, 2}) := by
  have hE : ∀ i, (∃ e, g.edges[i]? = some e ∧ e.enabled = true ∧ e.vertices ≠ []) ↔ i < 4 := by
    intro i
    have h1 := congrArg (·[i]?) hv
    have h2 := congrArg (·[i]?) hk
    simp only [List.getElem?_map] at h1 h2
    have hi : i < 8 ∨ 8 ≤ i := by omega
    rcases hi with hi | hi
    · cases he : g.edges[i]? with
      | none => rw [he, List.getElem?_eq_getElem (by simpa using hi)] at h1; cases h1
      | some e =>
        rw [he] at h1 h2
        constructor
        · rintro ⟨e', he', _, hne⟩
          cases he'
          interval_cases i <;> simp at h1 <;> simp_all
        · intro h4
          refine ⟨e, rfl, ?_⟩
          interval_cases i <;> simp [List.range_succ] at h1 h2 <;> simp [h1, h2]
    · cases he : g.edges[i]? with
      | none => simp; omega
      | some e =>
        rw [he] at h1
        rw [List.getElem?_eq_none (by simpa using hi)] at h1
        cases h1
  have hset : ∀ v, Set.ncard {i | i ∈ sel ∧ ∃ e : SEdge FW, g.edges[i]? = some e ∧ v ∈ e.vertices} =
      (sel.filter fun i => ([[0], [0, 1], [1], [1, 2], [], [], [], []] : List (List Nat))[i]?.any (fun l => decide (v ∈ l)) = true).card := by
    intro v
    rw [← ncard_filter, ← hv]
    congr 1
    ext i
    simp [List.getElem?_map]
  have hs : (∀ i ∈ sel, ∃ e, g.edges[i]? = some e ∧ e.enabled = true ∧ e.vertices ≠ []) ↔ sel ∈ (Finset.range 4).powerset := by
    simp only [hE, Finset.mem_powerset, Finset.subset_iff, Finset.mem_range]
  have hb : ∀ s < 3, (SynBit (some fb4Syn) 0 s ↔ s = 0) := by
    intro s hs
    unfold SynBit fb4Syn
    interval_cases s <;> simp
  unfold EdgesExplain
  rw [hs]
  constructor
  · rintro ⟨hp, h⟩
    refine (fb4_two sel hp).1 ⟨?_, ?_, ?_⟩
    · rw [← hset, (h 0 (by omega) 0 (by omega)), hb 0 (by omega)]
    · have := h 0 (by omega) 1 (by omega); rw [hb 1 (by omega)] at this; rw [← hset]; simpa using this
    · have := h 0 (by omega) 2 (by omega); rw [hb 2 (by omega)] at this; rw [← hset]; simpa using this
  · intro h
    have hp : sel ∈ (Finset.range 4).powerset := by rcases h with rfl | rfl <;> decide
    obtain ⟨h0, h1, h2⟩ := (fb4_two sel hp).2 h
    refine ⟨hp, fun t ht s hs => ?_⟩
    obtain rfl : t = 0 := by omega
    rw [hset, hb s hs]
    interval_cases s
    · simpa using h0
    · simpa using h1
    · simpa using h2

theorem fb4_product {g : SynGraph FW} (hk : g.edges.map (fun e => (e.kind, e.enabled)) = (List.range 4).map (fun q => (.qubit 0 q q true, true)) ++
        (List.range 4).map (fun q => (.qubit 0 (4 + q) q false, true))) {p : Op 4} : (EdgesProduct g {0} p → p.x 0 = true) ∧ (EdgesProduct g {1, 2} p → p.x 0 = false) := by
  have hkind : ∀ i, (∃ (e : SEdge FW) (t o : Nat), g.edges[i]? = some e ∧ e.kind = .qubit t o ((0 : Fin 4) : Nat) true) → i = 0 := by
    rintro i ⟨e, t, o, he, hq⟩
    have h2 := congrArg (·[i]?) hk
    simp only [List.getElem?_map, he, Option.map_some, hq] at h2
    have hi : i < 8 := by
      have := (List.getElem?_eq_some_iff.1 h2.symm).1
      simpa using this
    interval_cases i <;> simp [List.range_succ] at h2 ⊢
  have hkind0 : ∃ (e : SEdge FW) (t o : Nat), g.edges[0]? = some e ∧ e.kind = .qubit t o ((0 : Fin 4) : Nat) true := by
    have h2 := congrArg (·[0]?) hk
    simp only [List.getElem?_map] at h2
    cases he : g.edges[0]? with
    | none => rw [he] at h2; simp [List.range_succ] at h2
    | some e =>
      rw [he] at h2
      simp [List.range_succ] at h2
      exact ⟨e, 0, 0, rfl, h2.1⟩
  have e1 : {i | i ∈ ({0} : Finset Nat) ∧ ∃ (e : SEdge FW) (t o : Nat), g.edges[i]? = some e ∧ e.kind = .qubit t o ((0 : Fin 4) : Nat) true} = {0} := by
    ext i
    simp only [Finset.mem_singleton, Set.mem_ofPred_eq, Set.mem_singleton_iff]
    exact ⟨fun h => h.1, fun h => ⟨h, h ▸ hkind0⟩⟩
  have e2 : {i | i ∈ ({1, 2} : Finset Nat) ∧ ∃ (e : SEdge FW) (t o : Nat), g.edges[i]? = some e ∧ e.kind = .qubit t o ((0 : Fin 4) : Nat) true} = ∅ := by
    ext i
    simp only [Set.mem_ofPred_eq, Set.mem_empty_iff_false, iff_false, not_and]
    intro hi h
    rw [hkind i h] at hi
    revert hi; decide
  constructor
  · intro h
    rw [(h 0).1, e1, Set.ncard_singleton]
    exact odd_one
  · intro h
    rw [← Bool.not_eq_true, (h 0).1, e2, Set.ncard_empty]
    decide

/-- **C73 fails**: the weights are rounded to hundredths of the largest in the component. The errors X on the second and third qubit with the weights 0.9 are chosen instead
of one on the first with the weight 1. -/
theorem C73_rounding_counterexample : ¬ C73_statement := by
  intro H
  obtain ⟨solve, hS⟩ := exists_fusionBlossom
  have hc := fb4Check_ok
  unfold fb4Check at hc
  cases hg : mkSynGraph FW.isInf 1 fb4Stabs (some fb4Weights) with
  | error e => rw [hg] at hc; cases hc
  | ok g =>
  rw [hg] at hc
  simp only [Bool.and_eq_true, decide_eq_true_eq] at hc
  obtain ⟨⟨⟨hv, hk⟩, hwt⟩, hcomp⟩ := hc
  have hcs : ∀ c ∈ g.components, c.edgeIdx = [0, 1, 2, 3] ∧ fbW c = [1, 0, 0, 100] := by
    intro c hc
    have := List.mem_map_of_mem (f := fun c => (c.edgeIdx, fbW c)) hc
    rw [hcomp] at this
    simpa using this
  have hsane : ∀ c ∈ g.withEdges, ∃ l, fbWeights c.edges.length c.weights = .ok l := by
    intro c hc
    have := (hcs c (List.mem_filter.1 hc).1).2
    unfold fbW at this
    split at this
    · next l hl => exact ⟨l, hl⟩
    · cases this
  obtain ⟨states, hst⟩ := fb_setup_of solve hg hsane
  have hL := fb_light hS hg hst
  have hl := (fb_states hg hst).1
  have hsyn : ShapeOk 1 fb4Stabs.length (some fb4Syn) := by intro l hl; cases hl; decide
  have hen : Explainable g 1 fb4Stabs.length (some fb4Syn) := by
    obtain ⟨h1, h2⟩ := (fb4_explain hv hk {0}).2 (.inl rfl)
    exact ⟨({0} : Finset Nat), fun i hi => by obtain ⟨e, a, b, _⟩ := h1 i hi; exact ⟨e, a, b⟩, h2⟩
  obtain ⟨p, hp⟩ : ∃ p, decode (fbBackend solve) g 4 states none (some fb4Syn) = .ok p := by
    rcases C39_refused (n := 4) hg (hL.sound hl) (fb_complete hS hg hst) (erased := none) (fun a h => by cases h) hsyn with ⟨_, h⟩ | ⟨h, _⟩
    · exact h
    · exact absurd hen h
  obtain ⟨er, he, hbe⟩ := arrayOr_ok (r := 1) (m := 4) (a := none) (fun a h => by cases h)
  have hno : ∀ i, edgeErased g er i = false := by
    intro i
    by_contra hc
    obtain ⟨_, _, _, _, _, _, _, _, _, h, _⟩ := (edgeErased_iff hbe i).1 (by simpa using hc)
    cases h
  obtain ⟨sel, h1, h2, h3⟩ := light_total hg hL hl hp he (fun i => (([1, 0, 0, 100] : List Int).getD i 0 : ℚ)) (fun c hc j i hj => by
    obtain ⟨e1, e2⟩ := hcs c hc
    unfold fbWt
    rw [if_neg (by rw [List.getElem?_map, hj]; simp [hno]), e2]
    rw [e1] at hj
    have hjl := (List.getElem?_eq_some_iff.1 hj).1
    have : j = i := by
      simp only [List.length_cons, List.length_nil] at hjl
      interval_cases j <;> simpa using hj
    rw [this])
  have hsel : sel = {1, 2} := by
    rcases (fb4_explain hv hk sel).1 h1 with rfl | h
    · have := h3 {1, 2} ((fb4_explain hv hk _).2 (.inr rfl))
      simp at this
      norm_num at this
    · exact h
  subst hsel
  have hx := (fb4_product hk).2 h2
  obtain ⟨sel, k1, k2, k3⟩ := H 4 1 _ _ g solve states none (some fb4Syn) p hS hg hst hp
  have hw : ∀ i, lossWeight g none i = ([1, 9 / 10, 9 / 10, 100, 1, 1, 1, 1] : List ℚ).getD i 1 := by
    intro i
    unfold lossWeight
    rw [if_neg (by rintro ⟨_, _, _, _, _, _, _, _, _, h, _⟩; cases h)]
    unfold edgeWeight
    rw [← hwt]
    cases hi : g.edges[i]? with
    | none => simp [hi, FW.weight]
    | some e => simp [hi]
  rcases (fb4_explain hv hk sel).1 k1 with rfl | rfl
  · rw [(fb4_product hk).1 k2] at hx
    cases hx
  · have := k3 {0} ((fb4_explain hv hk _).2 (.inl rfl))
    simp [hw] at this
    norm_num at this

/-! ### What holds -/

/-- **C73 (partial; set-up)**: without weights, and with positive weights, the decoder can be set up. (If all weights of a component are zero, then zero is divided by zero.) -/
theorem C73_sane_partial (solve : FbGraph → List Nat → List Nat → Except Err (List Nat)) (h : mkSynGraph FW.isInf r stabs w = .ok g)
    (hw : (∀ e ∈ g.edges, e.weight = none) ∨ ∀ e ∈ g.edges, e.enabled = true → ∃ q : ℚ, 0 < q ∧ e.weight = some ((q : WithTop ℚ) : FW)) :
    ∃ states, setupAll (fbBackend solve) g = .ok states := by
  refine fb_setup_of solve h fun c hc => ?_
  have hcm := (List.mem_filter.1 hc).1
  refine fbWeights_total ?_
  have hne : c.weights ≠ [] := by
    intro h0
    have h1 := comp_lengths h hcm
    have h2 := (List.mem_filter.1 hc).2
    rw [h0] at h1
    rw [List.length_eq_zero_iff.1 h1.symm] at h2
    cases h2
  have key : ∀ x ∈ c.weights, ∃ e ∈ g.edges, e.enabled = true ∧ x = e.weight := by
    intro x hx
    obtain ⟨j, hj⟩ := List.getElem?_of_mem hx
    obtain ⟨h1, h2, h3⟩ := C34_copy h hcm
    have hjl : j < c.edgeIdx.length := by rw [← h2]; exact (List.getElem?_eq_some_iff.1 hj).1
    obtain ⟨e, he, hen, hwt⟩ := comp_weight h hcm (List.getElem?_eq_getElem hjl)
    rw [List.getD_eq_getElem?_getD, hj] at hwt
    exact ⟨e, List.mem_of_getElem? he, hen, hwt⟩
  rcases hw with hw | hw
  · exact .inl fun x hx => by obtain ⟨e, he, _, rfl⟩ := key x hx; exact hw e he
  · right
    obtain ⟨x, hx⟩ := List.exists_mem_of_ne_nil _ hne
    refine ⟨fun x hx => ?_, x, hx, ?_⟩
    · obtain ⟨e, he, hen, rfl⟩ := key x hx
      obtain ⟨q, hq, e⟩ := hw e he hen
      exact ⟨q, hq.le, e⟩
    · obtain ⟨e, he, hen, rfl⟩ := key x hx
      obtain ⟨q, hq, e⟩ := hw e he hen
      rw [e]; exact hq

/-- **C73 (partial; answers)**: the syndromes that are accepted are those that some enabled edges explain. -/
theorem C73_answers_partial {solve : FbGraph → List Nat → List Nat → Except Err (List Nat)} (hS : IsFusionBlossom solve) (h : mkSynGraph FW.isInf r stabs w = .ok g)
    {states : List FbGraph} (hst : setupAll (fbBackend solve) g = .ok states) {erased syn : Option (List (List Bool))} (her : ShapeOk r n erased)
    (hsyn : ShapeOk r stabs.length syn) :
    (Explainable g r stabs.length syn ∧ ∃ p, decode (fbBackend solve) g n states erased syn = .ok p) ∨
    (¬ Explainable g r stabs.length syn ∧ decode (fbBackend solve) g n states erased syn = .error .valueError) :=
  C39_refused h ((fb_light hS h hst).sound (fb_states h hst).1) (fb_complete hS h hst) her hsyn

/-- **C73 (partial; rounding)**: what the decoder returns is the product of the errors of edges that explain the syndrome, and it exceeds the smallest total weight by at most
a hundredth of the largest weight for each of its edges. -/
theorem C73_rounded_partial {solve : FbGraph → List Nat → List Nat → Except Err (List Nat)} (hS : IsFusionBlossom solve)
    (h : mkSynGraph FW.isInf r stabs w = .ok g) {states : List FbGraph} (hst : setupAll (fbBackend solve) g = .ok states)
    {erased syn : Option (List (List Bool))} {p : Op n} (hp : decode (fbBackend solve) g n states erased syn = .ok p) {M : ℚ}
    (hM : ∀ e ∈ g.edges, e.enabled = true → FW.weight e.weight ≤ M) :
    ∃ sel, EdgesExplain g r stabs.length sel syn ∧ EdgesProduct g sel p ∧ ∀ sel', EdgesExplain g r stabs.length sel' syn →
      ∑ i ∈ sel, lossWeight g erased i ≤ ∑ i ∈ sel', lossWeight g erased i + sel.card * (M / 100) := by
  obtain ⟨er, _, _, he, _⟩ := decode_inv h hp
  obtain ⟨er', he', hbe⟩ := arrayOr_ok (arrayOr_shape he)
  rw [he] at he'; cases he'
  obtain ⟨hl, hget⟩ := fb_states h hst
  have hwith : ∀ c ∈ g.withEdges, fbWeights c.edges.length c.weights = .ok (fbW c) := by
    intro c hc
    obtain ⟨k, hk⟩ := List.getElem?_of_mem hc
    have hlt : k < states.length := by rw [hl]; exact (List.getElem?_eq_some_iff.1 hk).1
    exact (hget k c _ hk (List.getElem?_eq_getElem hlt)).2
  have hMc : ∀ c ∈ g.components, ∀ x ∈ c.weights, FW.weight x ≤ M := by
    intro c hcm x hx
    obtain ⟨j, hj⟩ := List.getElem?_of_mem hx
    obtain ⟨h1, h2, h3⟩ := C34_copy h hcm
    have hjl : j < c.edgeIdx.length := by rw [← h2]; exact (List.getElem?_eq_some_iff.1 hj).1
    obtain ⟨e, he, hen, hwt⟩ := comp_weight h hcm (List.getElem?_eq_getElem hjl)
    rw [List.getD_eq_getElem?_getD, hj] at hwt
    have hwt : x = e.weight := hwt
    rw [hwt]
    exact hM e (List.mem_of_getElem? he) hen
  have hL : Light (fbBackend solve) g states fun c er j => fbWt c er j * fbUnit c := fun k c s hk hs er syn corr e1 e2 e3 =>
    (fb_light hS h hst k c s hk hs er syn corr e1 e2 e3).scale
      (fbW_near (hwith c (List.mem_of_getElem? hk)) (comp_lengths h (mem_withEdges hk).1) (hMc c (mem_withEdges hk).1)).1.le
  obtain ⟨Wg, hW⟩ := exists_global h fun c j => fbWt c (c.edgeIdx.map (edgeErased g er)) j * fbUnit c
  obtain ⟨sel, h1, h2, h3⟩ := light_total h hL hl hp he Wg hW
  have near : ∀ i, (∃ e, g.edges[i]? = some e ∧ e.enabled = true ∧ e.vertices ≠ []) →
      Wg i ≤ lossWeight g erased i ∧ lossWeight g erased i ≤ Wg i + M / 100 := by
    rintro i ⟨e, hie, hen, hv⟩
    obtain ⟨c, hc, hic⟩ := exists_comp h hie hen hv
    have hcm := (List.mem_filter.1 hc).1
    obtain ⟨j, hj⟩ := List.getElem?_of_mem hic
    obtain ⟨e', he', _, hwt⟩ := comp_weight h hcm hj
    rw [hie] at he'
    obtain rfl := Option.some.inj he'
    have hjl : j < c.edges.length := by rw [(compOk h hcm).len]; exact (List.getElem?_eq_some_iff.1 hj).1
    obtain ⟨hu, hn⟩ := fbW_near (hwith c hc) (comp_lengths h hcm) (hMc c hcm)
    obtain ⟨n1, n2⟩ := hn j hjl
    have hM0 : 0 ≤ M := by
      have := (comp_sane_nonneg (hwith c hc)) j
      have h2 := hMc c hcm _ (List.getElem_mem (l := c.weights) (n := j) (by rw [comp_lengths h hcm]; exact hjl))
      rw [List.getD_eq_getElem?_getD, List.getElem?_eq_getElem (by rw [comp_lengths h hcm]; exact hjl)] at this
      exact le_trans this h2
    rw [← hW c hcm j i hj]
    unfold lossWeight fbWt
    rw [List.getElem?_map, hj]
    by_cases her : edgeErased g er i = true
    · rw [if_pos ((edgeErased_iff hbe i).1 her), if_pos (by simp [her])]
      constructor
      · simp
      · simp; linarith
    · rw [if_neg (fun hx => her ((edgeErased_iff hbe i).2 hx)), if_neg (by simpa using her), edgeWeight_eq hie, ← hwt]
      exact ⟨n1, n2⟩
  refine ⟨sel, h1, h2, fun sel' h' => ?_⟩
  calc ∑ i ∈ sel, lossWeight g erased i ≤ ∑ i ∈ sel, (Wg i + M / 100) := Finset.sum_le_sum fun i hi => (near i (h1.1 i hi)).2
    _ = ∑ i ∈ sel, Wg i + sel.card * (M / 100) := by rw [Finset.sum_add_distrib, Finset.sum_const, nsmul_eq_mul]
    _ ≤ ∑ i ∈ sel', Wg i + sel.card * (M / 100) := by linarith [h3 sel' h']
    _ ≤ ∑ i ∈ sel', lossWeight g erased i + sel.card * (M / 100) := by
      have := Finset.sum_le_sum (s := sel') fun i hi => (near i (h'.1 i hi)).1
      linarith

/-- **C73 (partial; without weights)**: without weights, the number of edges that are not erased is the smallest. -/
theorem C73_unweighted_partial {solve : FbGraph → List Nat → List Nat → Except Err (List Nat)} (hS : IsFusionBlossom solve)
    (h : mkSynGraph FW.isInf r stabs w = .ok g) (hw : ∀ e ∈ g.edges, e.weight = none) {states : List FbGraph} (hst : setupAll (fbBackend solve) g = .ok states)
    {erased syn : Option (List (List Bool))} {p : Op n} (hp : decode (fbBackend solve) g n states erased syn = .ok p) :
    ∃ sel, EdgesExplain g r stabs.length sel syn ∧ EdgesProduct g sel p ∧ ∀ sel', EdgesExplain g r stabs.length sel' syn →
      ∑ i ∈ sel, lossWeight g erased i ≤ ∑ i ∈ sel', lossWeight g erased i := by
  obtain ⟨er, _, _, he, _⟩ := decode_inv h hp
  obtain ⟨er', he', hbe⟩ := arrayOr_ok (arrayOr_shape he)
  rw [he] at he'; cases he'
  refine light_total h (fb_light hS h hst) (fb_states h hst).1 hp he _ fun c hc j i hj => ?_
  obtain ⟨e, hie, hen, hwt⟩ := comp_weight h hc hj
  have hjl : j < c.edges.length := by rw [(compOk h hc).len]; exact (List.getElem?_eq_some_iff.1 hj).1
  have hnone : ∀ x ∈ c.weights, x = none := by
    intro x hx
    obtain ⟨j, hj⟩ := List.getElem?_of_mem hx
    have hjl : j < c.edgeIdx.length := by rw [← (C34_copy h hc).2.1]; exact (List.getElem?_eq_some_iff.1 hj).1
    obtain ⟨e, he, hen, hwt⟩ := comp_weight h hc (List.getElem?_eq_getElem hjl)
    rw [List.getD_eq_getElem?_getD, hj] at hwt
    exact hwt.trans (hw e (List.mem_of_getElem? he))
  have hW : fbW c = List.replicate c.edges.length 1 := by unfold fbW; rw [fbWeights_none hnone]
  unfold lossWeight fbWt
  rw [List.getElem?_map, hj]
  by_cases her : edgeErased g er i = true
  · rw [if_pos ((edgeErased_iff hbe i).1 her), if_pos (by simp [her])]
  · rw [if_neg (fun hx => her ((edgeErased_iff hbe i).2 hx)), if_neg (by simpa using her), edgeWeight_eq hie, hw e (List.mem_of_getElem? hie), hW,
      List.getD_eq_getElem?_getD, List.getElem?_replicate_of_lt hjl]
    rfl

/-! ### Examples -/

/-- There are graphs and syndromes for C72: PyMatching finds the error X on the first qubit, where Fusion Blossom does not. -/
example : ∃ (solve : PmGraph → List Bool → Except Err (List Bool)) (g : SynGraph FW) (states : List PmGraph) (p : Op 4), IsPyMatching solve ∧
    mkSynGraph FW.isInf 1 fb4Stabs (some fb4Weights) = .ok g ∧ setupAll (pmBackend solve) g = .ok states ∧
    decode (pmBackend solve) g 4 states none (some fb4Syn) = .ok p ∧ p.x 0 = true := by
  obtain ⟨solve, hS⟩ := exists_pyMatching
  have hc := fb4Check_ok
  unfold fb4Check at hc
  cases hg : mkSynGraph FW.isInf 1 fb4Stabs (some fb4Weights) with
  | error e => rw [hg] at hc; cases hc
  | ok g =>
  rw [hg] at hc
  simp only [Bool.and_eq_true, decide_eq_true_eq] at hc
  obtain ⟨⟨⟨hv, hk⟩, hwt⟩, hcomp⟩ := hc
  have hsane : ∀ c ∈ g.components, c.edges ≠ [] → SaneWeights c.weights := by
    intro c hc _
    have := List.mem_map_of_mem (f := fun c => (c.edgeIdx, fbW c)) hc
    rw [hcomp] at this
    have : fbW c = [1, 0, 0, 100] := by simp at this; exact this.2
    unfold fbW at this
    split at this
    · next l hl => exact (fbWeights_ok hl).1
    · cases this
  obtain ⟨states, hst⟩ := (C72_setup solve hg).2 hsane
  have hsyn : ShapeOk 1 fb4Stabs.length (some fb4Syn) := by intro l hl; cases hl; decide
  have hen : Explainable g 1 fb4Stabs.length (some fb4Syn) := by
    obtain ⟨h1, h2⟩ := (fb4_explain hv hk {0}).2 (.inl rfl)
    exact ⟨({0} : Finset Nat), fun i hi => by obtain ⟨e, a, b, _⟩ := h1 i hi; exact ⟨e, a, b⟩, h2⟩
  rcases C72_answers (n := 4) hS hg hst (erased := none) (fun a h => by cases h) (fun t q h => by obtain ⟨_, _, h, _⟩ := h; cases h) hsyn with ⟨_, p, hp⟩ | ⟨h, _⟩
  · refine ⟨solve, g, states, p, hS, rfl, hst, hp, ?_⟩
    obtain ⟨sel, h1, h2, h3⟩ := C72_minimal hS hg hst hp
    have hw : ∀ i, edgeWeight g i = ([1, 9 / 10, 9 / 10, 100, 1, 1, 1, 1] : List ℚ).getD i 1 := by
      intro i
      unfold edgeWeight
      rw [← hwt]
      cases hi : g.edges[i]? with
      | none => simp [hi, FW.weight]
      | some e => simp [hi]
    rcases (fb4_explain hv hk sel).1 h1 with rfl | rfl
    · exact (fb4_product hk).1 h2
    · have := h3 {0} ((fb4_explain hv hk _).2 (.inl rfl))
      simp [hw] at this
      norm_num at this
  · exact absurd hen h

/-- Without weights, the hypotheses of C73 are met by every syndrome graph and every syndrome that passes the check. -/
example (h : mkSynGraph FW.isInf r stabs none = .ok g) {syn : Option (List (List Bool))} (hsyn : ShapeOk r stabs.length syn)
    (hex : Explainable g r stabs.length syn) : ∃ (solve : FbGraph → List Nat → List Nat → Except Err (List Nat)) (states : List FbGraph) (p : Op n),
    IsFusionBlossom solve ∧ setupAll (fbBackend solve) g = .ok states ∧ decode (fbBackend solve) g n states none syn = .ok p := by
  obtain ⟨solve, hS⟩ := exists_fusionBlossom
  obtain ⟨states, hst, _, _, hd⟩ := (fb_few hS).2 n r stabs g h
  obtain ⟨p, hp⟩ := hd none syn (fun a h => by cases h) hsyn (by simp) hex
  exact ⟨solve, states, p, hS, hst, hp⟩

end Plaquette
