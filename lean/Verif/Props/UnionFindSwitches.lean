import Verif.Lemmas.UFSwitches
import Verif.Props.UnionFind

/-!
# Split edges, chosen growth increments and the normalisation coefficient of union find (C121)
-/

namespace Plaquette

theorem explains_of_bd {n : Nat} {edges : List (List Nat)} {syn : List Bool} {x : Nat → Bool}
    (h : ∀ v, v < n → bd edges x v = synAt syn v) : Explains n edges ((List.range edges.length).map x) syn :=
  ⟨by simp, fun v hv => by rw [← bd_odd, h v hv, synAt_iff]⟩

theorem exists_explains {n : Nat} {edges : List (List Nat)} (hg : IsDecodingGraph n edges) {syn : List Bool} (hlen : syn.length = n)
    (h : Correctable n edges (fun _ => True) syn) : ∃ corr, Explains n edges corr syn := by
  obtain ⟨corr, _, h1⟩ := C37_decode (support := true) (c := 1) (weights := none) (erasure := []) hg (by norm_num) trivial (by simp) hlen h
  exact ⟨corr, h1⟩

theorem synAt_pad {syn : List Bool} {n m : Nat} (hlen : syn.length = n) :
    (∀ v, v < n → synAt (syn ++ List.replicate m false) v = synAt syn v) ∧ ∀ k, synAt (syn ++ List.replicate m false) (n + k) = false := by
  constructor
  · intro v hv
    unfold synAt
    rw [List.getD_eq_getElem?_getD, List.getD_eq_getElem?_getD, List.getElem?_append_left (by omega)]
  · intro k
    unfold synAt
    rw [List.getD_eq_getElem?_getD, List.getElem?_append_right (by omega), List.getElem?_replicate]
    split <;> rfl

theorem splitGraph_ok {n : Nat} {edges : List (List Nat)} (hg : IsDecodingGraph n edges) :
    IsDecodingGraph (n + edges.length) (splitEdges n edges) := splitEdges_wf hg

/-- The halves that explain a syndrome come in pairs, and the edges of these pairs explain the syndrome. -/
theorem explains_unsplit {n : Nat} {edges : List (List Nat)} (hg : IsDecodingGraph n edges) {syn corr : List Bool} (hlen : syn.length = n)
    (h : Explains (n + edges.length) (splitEdges n edges) corr (syn ++ List.replicate edges.length false)) :
    Explains n edges ((List.range edges.length).map fun i => corr.getD (2 * i) false) syn ∧
      ∀ i, i < edges.length → corr.getD (2 * i) false = corr.getD (2 * i + 1) false := by
  have hmid : ∀ i, i < edges.length → corr.getD (2 * i) false = corr.getD (2 * i + 1) false := by
    intro i hi
    have h1 := bd_of_explains h (n + i) (by omega)
    rw [bd_middle hg _ hi, (synAt_pad hlen).2] at h1
    revert h1
    cases corr.getD (2 * i) false <;> cases corr.getD (2 * i + 1) false <;> simp
  refine ⟨explains_of_bd fun v hv => ?_, hmid⟩
  rw [← (synAt_pad hlen).1 v hv, ← bd_of_explains h v (by omega)]
  exact (bd_split hg (x := fun i => corr.getD i false) (y := fun i => corr.getD (2 * i) false) (fun i hi => ⟨rfl, (hmid i hi).symm⟩) hv).symm

/-- A syndrome can be corrected with the edges if and only if it can be corrected with their halves. -/
theorem correctable_split {n : Nat} {edges : List (List Nat)} (hg : IsDecodingGraph n edges) {syn : List Bool} (hlen : syn.length = n) :
    Correctable (n + edges.length) (splitEdges n edges) (fun _ => True) (syn ++ List.replicate edges.length false) ↔
      Correctable n edges (fun _ => True) syn := by
  constructor
  · intro h
    obtain ⟨corr, h1⟩ := exists_explains (splitGraph_ok hg) (by simp [hlen]) h
    exact C35_explained_correctable hg (fun _ _ => trivial) (explains_unsplit hg hlen h1).1
  · intro h
    obtain ⟨corr, h1⟩ := exists_explains hg hlen h
    refine C35_explained_correctable (splitGraph_ok hg) (fun _ _ => trivial) (explains_of_bd (x := fun j => corr.getD (j / 2) false) fun v hv => ?_)
    by_cases hvn : v < n
    · rw [(synAt_pad hlen).1 v hvn, ← bd_of_explains h1 v hvn]
      refine bd_split hg (fun i _ => ⟨?_, ?_⟩) hvn
      · show corr.getD (2 * i / 2) false = _
        rw [show 2 * i / 2 = i by omega]
      · show corr.getD ((2 * i + 1) / 2) false = _
        rw [show (2 * i + 1) / 2 = i by omega]
    · obtain ⟨k, rfl⟩ : ∃ k, v = n + k := ⟨v - n, by omega⟩
      rw [(synAt_pad hlen).2, bd_middle hg _ (by omega), show 2 * k / 2 = k by omega, show (2 * k + 1) / 2 = k by omega, Bool.xor_self]

theorem mem_splitErasure {m : Nat} {erasure : List Nat} (her : ∀ i ∈ erasure, i < m) :
    (∀ j ∈ splitErasure m erasure, j < 2 * m) ∧ ∀ i ∈ erasure, 2 * i ∈ splitErasure m erasure ∧ 2 * i + 1 ∈ splitErasure m erasure := by
  unfold splitErasure
  constructor
  · intro j hj
    obtain ⟨i, hi, hj⟩ := List.mem_flatMap.1 hj
    have := her i hi
    rw [if_pos this, List.mem_pair] at hj
    omega
  · intro i hi
    have := her i hi
    exact ⟨List.mem_flatMap.2 ⟨i, hi, by simp [this]⟩, List.mem_flatMap.2 ⟨i, hi, by simp [this]⟩⟩

/-- **C121.** Union find on split edges. For every graph, positive growth parameters, erasure and correctable syndrome: it ends, no
assertion fails, and the edges it returns contain the erased ones and form clusters which are even or have a dangling edge. A syndrome
that is not correctable is refused with an `AssertionError`. -/
theorem C121_split_growth {n : Nat} {edges : List (List Nat)} (hg : IsDecodingGraph n edges) {maxGrowth increment : Nat → ℚ}
    (hmax : ∀ i, i < 2 * edges.length → 0 < maxGrowth i) (hinc : ∀ i, i < 2 * edges.length → 0 < increment i) {erasure : List Nat}
    (her : ∀ i ∈ erasure, i < edges.length) {syn : List Bool} (hlen : syn.length = n) :
    (Correctable n edges (fun _ => True) syn → ∃ sel, splitUnionFind false n edges maxGrowth increment erasure syn = .ok sel ∧
      (∀ i ∈ erasure, i ∈ sel) ∧ (∀ i ∈ sel, i < edges.length) ∧ Correctable n edges (· ∈ sel) syn) ∧
    (¬ Correctable n edges (fun _ => True) syn →
      splitUnionFind false n edges maxGrowth increment erasure syn = .error .assertionError) := by
  obtain ⟨he1, he2⟩ := mem_splitErasure her
  let code : Nat → Nat := fun j => if j % 2 = 0 then j / 2 else edges.length + j / 2
  let g : UGraph := ⟨n + edges.length, splitEdges n edges, fun j => maxGrowth (code j), fun j => increment (code j)⟩
  have hcode : ∀ j, j < 2 * edges.length → code j < 2 * edges.length := by
    intro j hj
    show (if j % 2 = 0 then j / 2 else edges.length + j / 2) < _
    split <;> omega
  have hl : g.edges.length = 2 * edges.length := splitEdges_length n edges
  have hv : g.Valid := ⟨splitGraph_ok hg, fun i hi => hmax _ (hcode i (by omega)), fun i hi => hinc _ (hcode i (by omega))⟩
  have her' : ∀ i ∈ splitErasure edges.length erasure, i < g.edges.length := fun i hi => by rw [hl]; exact he1 i hi
  have hsl : (syn ++ List.replicate edges.length false).length = g.n := by simp [hlen, g]
  have hoff := finalWith_off g (splitErasure edges.length erasure) (syn ++ List.replicate edges.length false)
  have hdef : splitUnionFind false n edges maxGrowth increment erasure syn =
      match g.finalWith false (splitErasure edges.length erasure) (syn ++ List.replicate edges.length false) with
      | .error x => .error x
      | .ok s => .ok ((List.range edges.length).filter fun i => g.complete s (2 * i) && g.complete s (2 * i + 1)) := by
    unfold splitUnionFind
    rw [if_pos hlen]
    rfl
  constructor
  · intro h
    obtain ⟨sel, h1, h2, h3, h4⟩ := C36_growth hv her' hsl ((correctable_split hg hlen).2 h)
    obtain ⟨corr, _, h5, h6⟩ := C35_peeling hv.graph h3 hsl h4
    rw [hoff] at h1
    cases hf : g.finalWith false (splitErasure edges.length erasure) (syn ++ List.replicate edges.length false) with
    | error x => rw [hf] at h1; cases h1
    | ok s =>
      rw [hf] at h1
      have hsel : sel = (List.range g.edges.length).filter (g.complete s) := by cases h1; rfl
      have hmem : ∀ j, j < 2 * edges.length → (g.complete s j = true ↔ j ∈ sel) := by
        intro j hj
        rw [hsel, List.mem_filter, List.mem_range, hl]
        exact ⟨fun h => ⟨hj, h⟩, fun h => h.2⟩
      rw [hdef, hf]
      refine ⟨_, rfl, fun i hi => ?_, fun i hi => List.mem_range.1 (List.mem_filter.1 hi).1, ?_⟩
      · have hi' := her i hi
        rw [List.mem_filter, List.mem_range, Bool.and_eq_true, hmem _ (by omega), hmem _ (by omega)]
        exact ⟨hi', h2 _ (he2 i hi).1, h2 _ (he2 i hi).2⟩
      · obtain ⟨h7, h8⟩ := explains_unsplit hg hlen h6
        refine C35_explained_correctable hg (fun i hi => ?_) h7
        rw [List.getElem?_map] at hi
        have hil : i < edges.length := by
          by_contra hcon
          rw [List.getElem?_eq_none (by simpa using hcon)] at hi
          simp at hi
        rw [List.getElem?_range hil] at hi
        have h9 : corr.getD (2 * i) false = true := by simpa using hi
        have hget : ∀ j, corr.getD j false = true → corr[j]? = some true := fun j hj => by
          rw [List.getD_eq_getElem?_getD] at hj
          revert hj
          cases corr[j]? <;> simp
        rw [List.mem_filter, List.mem_range, Bool.and_eq_true, hmem _ (by omega), hmem _ (by omega)]
        exact ⟨hil, h5 _ (hget _ h9), h5 _ (hget _ ((h8 i hil).symm.trans h9))⟩
  · intro h
    have h1 := (C36_refused hv her' hsl).2 fun hc => h ((correctable_split hg hlen).1 hc)
    rw [hoff] at h1
    rw [hdef]
    cases hf : g.finalWith false (splitErasure edges.length erasure) (syn ++ List.replicate edges.length false) with
    | error x =>
      rw [hf] at h1
      cases h1
      rfl
    | ok s => rw [hf] at h1; cases h1

/-- With both switches off it is the decoder of C37. -/
theorem C121_off (support : Bool) (n : Nat) (edges : List (List Nat)) (c : ℚ) (weights : Option (List ℚ)) (erasure : List Nat)
    (syn : List Bool) : switchedDecode false false support n edges c weights erasure syn =
      unionFindDecode support n edges c weights erasure syn := by
  unfold switchedDecode unionFindDecode plainUnionFind
  simp only [Bool.false_and, Bool.false_eq_true, if_false]
  cases loopE (fun (_ : Unit) e => checkUEdge n e) () edges with
  | error x => rfl
  | ok u =>
    dsimp only
    cases ufWeights support edges.length c weights with
    | error x => rfl
    | ok p =>
      dsimp only
      rw [finalWith_off]
      cases UGraph.finalWith ⟨n, edges, p.1, p.2⟩ false erasure syn <;> rfl

theorem splitUnionFind_on (n : Nat) (edges : List (List Nat)) (increment : Nat → ℚ) (erasure : List Nat) (syn : List Bool) :
    splitUnionFind true n edges (fun _ => 1) increment erasure syn = splitUnionFind false n edges (fun _ => 1) (fun _ => 1) erasure syn := by
  unfold splitUnionFind
  dsimp only
  rw [finalWith_on (fun _ => rfl)]
  rfl

theorem plainUnionFind_on (n : Nat) (edges : List (List Nat)) (increment : Nat → ℚ) (erasure : List Nat) (syn : List Bool) :
    plainUnionFind true n edges (fun _ => 1) increment erasure syn = plainUnionFind false n edges (fun _ => 1) (fun _ => 1) erasure syn := by
  unfold plainUnionFind
  dsimp only
  rw [finalWith_on (fun _ => rfl)]
  rfl

theorem plainUnionFind_off (n : Nat) (edges : List (List Nat)) (maxGrowth increment : Nat → ℚ) (erasure : List Nat) (syn : List Bool) :
    plainUnionFind false n edges maxGrowth increment erasure syn = UGraph.unionFind ⟨n, edges, maxGrowth, increment⟩ erasure syn := by
  rw [finalWith_off]
  rfl

theorem ufWeights_some {support : Bool} {m : Nat} {c : ℚ} {ws : List ℚ} {p : (Nat → ℚ) × (Nat → ℚ)} (h : ufWeights support m c (some ws) = .ok p) :
    p.1 = fun _ => 1 := by
  cases hm : (ws.filter fun w => decide (w ≠ 0)).min? with
  | none => simp only [ufWeights, hm] at h; cases h
  | some lo =>
    simp only [ufWeights, hm] at h
    by_cases hs : support = true
    · rw [if_pos hs] at h
      by_cases hl : ws.length = m
      · rw [if_pos hl] at h
        cases h; rfl
      · rw [if_neg hl] at h
        cases h
    · rw [if_neg hs] at h
      cases h

/-- **C121.** For every graph, values of the two switches, erasure and accepted weights (one for each edge of the graph of union find):
the decoder gives an explanation of the syndrome whenever there is one, and raises an `AssertionError` otherwise. -/
theorem C121_iff {n : Nat} {edges : List (List Nat)} (hg : IsDecodingGraph n edges) (split choose : Bool) {support : Bool} {c : ℚ} (hc : 0 ≤ c)
    {weights : Option (List ℚ)} (hw : WeightsOk support (if split then 2 * edges.length else edges.length) weights) {erasure : List Nat}
    (her : ∀ i ∈ erasure, i < edges.length) {syn : List Bool} (hlen : syn.length = n) :
    ((∃ corr, Explains n edges corr syn) ∧
      ∃ corr, switchedDecode split choose support n edges c weights erasure syn = .ok corr ∧ Explains n edges corr syn) ∨
    ((¬ ∃ corr, Explains n edges corr syn) ∧ switchedDecode split choose support n edges c weights erasure syn = .error .assertionError) := by
  obtain ⟨p, hp, hpos⟩ := ufWeights_ok hc hw
  have key : (Correctable n edges (fun _ => True) syn →
      ∃ sel, (if split then splitUnionFind else plainUnionFind) (choose && weights.isSome) n edges p.1 p.2 erasure syn = .ok sel ∧
        (∀ i ∈ sel, i < edges.length) ∧ Correctable n edges (· ∈ sel) syn) ∧
      (¬ Correctable n edges (fun _ => True) syn →
        (if split then splitUnionFind else plainUnionFind) (choose && weights.isSome) n edges p.1 p.2 erasure syn = .error .assertionError) := by
    have hred : ∃ q : (Nat → ℚ) × (Nat → ℚ), (∀ i, i < (if split then 2 * edges.length else edges.length) → 0 < q.1 i ∧ 0 < q.2 i) ∧
        (if split then splitUnionFind else plainUnionFind) (choose && weights.isSome) n edges p.1 p.2 erasure syn =
        (if split then splitUnionFind else plainUnionFind) false n edges q.1 q.2 erasure syn := by
      cases hcw : choose && weights.isSome with
      | false => exact ⟨p, hpos, rfl⟩
      | true =>
        cases weights with
        | none => simp at hcw
        | some ws =>
          refine ⟨(fun _ => 1, fun _ => 1), fun i _ => ⟨one_pos, one_pos⟩, ?_⟩
          rw [ufWeights_some hp]
          cases split with
          | true => exact splitUnionFind_on n edges p.2 erasure syn
          | false => exact plainUnionFind_on n edges p.2 erasure syn
    obtain ⟨q, hq, hrw⟩ := hred
    rw [hrw]
    cases split with
    | true =>
      simp only [if_true] at hq ⊢
      obtain ⟨h1, h2⟩ := C121_split_growth hg (fun i hi => (hq i hi).1) (fun i hi => (hq i hi).2) her hlen
      refine ⟨fun h => ?_, h2⟩
      obtain ⟨sel, h3, _, h4, h5⟩ := h1 h
      exact ⟨sel, h3, h4, h5⟩
    | false =>
      simp only [Bool.false_eq_true, if_false] at hq ⊢
      have hv : UGraph.Valid ⟨n, edges, q.1, q.2⟩ := ⟨hg, fun i hi => (hq i hi).1, fun i hi => (hq i hi).2⟩
      rw [plainUnionFind_off]
      refine ⟨fun h => ?_, (C36_refused hv her hlen).2⟩
      obtain ⟨sel, h3, _, h4, h5⟩ := C36_growth hv her hlen h
      exact ⟨sel, h3, h4, h5⟩
  unfold switchedDecode
  simp only [checkUEdge_of hg, hp]
  by_cases h : Correctable n edges (fun _ => True) syn
  · obtain ⟨sel, h3, h4, h5⟩ := key.1 h
    obtain ⟨corr, h6, _, h7⟩ := C35_peeling hg h4 hlen h5
    refine .inl ⟨⟨corr, h7⟩, corr, ?_, h7⟩
    rw [h3]
    exact h6
  · refine .inr ⟨fun ⟨corr, hcorr⟩ => h (C35_explained_correctable hg (fun _ _ => trivial) hcorr), ?_⟩
    rw [key.2 h]

/-- The claim of the documentation of `choose_growth_increment`: with the switch on, the weights determine how edges grow, so that there
is a graph, an erasure and a syndrome for which other weights (of the same length, not negative) give another correction. -/
def C121_statement : Prop :=
  ∃ (n : Nat) (edges : List (List Nat)) (ws ws' : List ℚ) (erasure : List Nat) (syn : List Bool), IsDecodingGraph n edges ∧
    WeightsOk true edges.length (some ws) ∧ WeightsOk true edges.length (some ws') ∧
    switchedDecode false true true n edges 2 (some ws) erasure syn ≠ switchedDecode false true true n edges 2 (some ws') erasure syn

/-- **C121, chosen increments.** With the switch for chosen increments on, the correction does not depend on the values of the weights
and of the normalisation coefficient, with or without split edges. -/
theorem C121_choose (split : Bool) (n : Nat) (edges : List (List Nat)) {c c' : ℚ} (hc : 0 ≤ c) (hc' : 0 ≤ c') {ws ws' : List ℚ}
    (hw : WeightsOk true (if split then 2 * edges.length else edges.length) (some ws))
    (hw' : WeightsOk true (if split then 2 * edges.length else edges.length) (some ws')) (erasure : List Nat) (syn : List Bool) :
    switchedDecode split true true n edges c (some ws) erasure syn = switchedDecode split true true n edges c' (some ws') erasure syn := by
  obtain ⟨p, hp, _⟩ := ufWeights_ok hc hw
  obtain ⟨q, hq, _⟩ := ufWeights_ok hc' hw'
  unfold switchedDecode
  simp only [hp, hq, ufWeights_some hp, ufWeights_some hq, Option.isSome_some, Bool.and_true]
  cases split with
  | true => simp only [if_true, splitUnionFind_on]
  | false => simp only [Bool.false_eq_true, if_false, plainUnionFind_on]

theorem C121_choose_counterexample : ¬ C121_statement := by
  rintro ⟨n, edges, ws, ws', erasure, syn, _, h1, h2, h3⟩
  exact h3 (C121_choose false n edges (by norm_num) (by norm_num) h1 h2 erasure syn)

/-- **C121, split edges and weights.** With split edges the weights of a decoding graph, one for each edge, are refused. -/
theorem C121_split_weights {n : Nat} {edges : List (List Nat)} (hg : IsDecodingGraph n edges) (choose : Bool) (c : ℚ) {ws : List ℚ}
    (hl : ws.length = edges.length) (h0 : ∃ w ∈ ws, w ≠ 0) (erasure : List Nat) (syn : List Bool) :
    switchedDecode true choose true n edges c (some ws) erasure syn = .error .assertionError := by
  obtain ⟨w, hw, hw0⟩ := h0
  have hlt : 0 < ws.length := List.length_pos_of_mem hw
  have h1 : ufWeights true (2 * edges.length) c (some ws) = .error .assertionError := by
    have hm : w ∈ ws.filter fun w => decide (w ≠ 0) := List.mem_filter.2 ⟨hw, by simpa using hw0⟩
    cases h : (ws.filter fun w => decide (w ≠ 0)).min? with
    | none =>
      rw [List.min?_eq_none_iff.1 h] at hm
      simp at hm
    | some lo => simp only [ufWeights, h, if_true, if_neg (show ¬ ws.length = 2 * edges.length by omega)]
  unfold switchedDecode
  simp only [checkUEdge_of hg, if_true, h1]

/-- **C121, normalisation coefficient.** The setter refuses what is not a number and what is negative, and keeps the numbers that are not
negative; it also keeps infinity and NaN. -/
theorem C121_coefficient (v : CoefficientValue) :
    (setCoefficient v = .error .typeError ↔ v = .other) ∧
    (setCoefficient v = .error .valueError ↔ v = .negInf ∨ ∃ x, v = .num x ∧ x < 0) ∧
    (∀ x, setCoefficient v = .ok (.num x) ↔ v = .num x ∧ 0 ≤ x) ∧
    (setCoefficient v = .ok .inf ↔ v = .inf) ∧ (setCoefficient v = .ok .nan ↔ v = .nan) := by
  cases v with
  | num y =>
    by_cases h : y < 0
    · simp only [setCoefficient, if_pos h]
      refine ⟨by simp, by simp [h], fun x => ?_, by simp, by simp⟩
      simp only [reduceCtorEq, false_iff, not_and, CoefficientValue.num.injEq]
      rintro rfl
      exact not_le.2 h
    · simp only [setCoefficient, if_neg h]
      refine ⟨by simp, by simp [h], fun x => ?_, by simp, by simp⟩
      simp only [Except.ok.injEq, Coefficient.num.injEq, CoefficientValue.num.injEq]
      constructor
      · rintro rfl; exact ⟨rfl, not_lt.1 h⟩
      · exact fun h => h.1
  | inf => simp [setCoefficient]
  | negInf => simp [setCoefficient]
  | nan => simp [setCoefficient]
  | other => simp [setCoefficient]

/-- Growing by zero changes nothing. -/
theorem grow_zero {g : UGraph} (h0 : ∀ i, g.increment i = 0) : ∀ (l : List Nat) (t : GrowthState),
    (l.foldl g.growEdge t).s = t.s ∧ (l.foldl g.growEdge t).new = t.new
  | [], _ => ⟨rfl, rfl⟩
  | i :: l, t => by
    rw [List.foldl_cons]
    obtain ⟨h1, h2⟩ := grow_zero h0 l (g.growEdge t i)
    rw [h1, h2]
    unfold UGraph.growEdge
    split
    · exact ⟨rfl, rfl⟩
    · rename_i h
      have hs : { t.s with growth := Function.update t.s.growth i (t.s.growth i + g.increment i) } = t.s := by
        rw [h0, add_zero, Function.update_eq_self]
      dsimp only
      rw [hs, if_neg h]
      exact ⟨rfl, rfl⟩

theorem refresh_same {s : UState} (h : ∀ c ∈ s.openList, (s.clusters c).parity = 1) : s.refresh = .ok s := by
  have key : ∀ (l acc : List Nat), (∀ c ∈ l, (s.clusters c).parity = 1) → loopE UState.refreshStep (s, acc) l = .ok (s, acc ++ l) := by
    intro l
    induction l with
    | nil => intro acc _; simp [loopE]
    | cons a l ih =>
      intro acc hl
      have h1 : UState.refreshStep (s, acc) a = .ok (s, acc ++ [a]) := by
        unfold UState.refreshStep
        rw [if_pos (hl a (by simp))]
      rw [loopE_step h1, ih (acc ++ [a]) fun c hc => hl c (by simp [hc]), List.append_assoc]
      rfl
  unfold UState.refresh
  rw [key s.openList [] h]
  rfl

/-- The graph of two vertices and an edge, with the increments that a coefficient of infinity gives: one over infinity is zero. -/
def endlessGraph : UGraph := ⟨2, [[0, 1]], fun _ => 1, fun _ => 0⟩

/-- **C121.** With a coefficient of infinity, which the setter accepts, union find does not end: on a graph of two vertices and an edge,
for the syndrome at both vertices, the `while` loop is not over after any number of steps. -/
theorem C121_endless : ∃ s, endlessGraph.init [] [true, true] = .ok s ∧ ∀ k, endlessGraph.run k s = .error .unmodelled := by
  have h : (match endlessGraph.init [] [true, true] with
      | .error _ => false
      | .ok s => decide (s.openList ≠ []) && s.openList.all (fun c => decide ((s.clusters c).parity = 1)) &&
        match s.openBoundaries s.openList with
        | .error _ => false
        | .ok Bs => decide (((endlessGraph.toGrow Bs).foldl endlessGraph.growEdge { s := s, grown := 0, new := [] }).grown ≠ 0)) = true := by
    decide +kernel
  cases h1 : endlessGraph.init [] [true, true] with
  | error x => rw [h1] at h; cases h
  | ok s =>
    rw [h1] at h
    dsimp only at h
    rw [Bool.and_eq_true, Bool.and_eq_true] at h
    obtain ⟨⟨ho, hp⟩, hg⟩ := h
    have ho := of_decide_eq_true ho
    have hp : ∀ c ∈ s.openList, (s.clusters c).parity = 1 := fun c hc => of_decide_eq_true (List.all_eq_true.1 hp c hc)
    cases h2 : s.openBoundaries s.openList with
    | error x => rw [h2] at hg; cases hg
    | ok Bs =>
      rw [h2] at hg
      have hg := of_decide_eq_true hg
      have hstep : endlessGraph.step s = .ok s := by
        unfold UGraph.step
        obtain ⟨h3, h4⟩ := grow_zero (g := endlessGraph) (fun _ => rfl) (endlessGraph.toGrow Bs) { s := s, grown := 0, new := [] }
        simp only [refresh_same hp, if_neg ho, h2, if_neg hg, h4, if_true, h3]
      refine ⟨s, rfl, fun k => ?_⟩
      induction k with
      | zero => simp [UGraph.run, ho]
      | succ k ih =>
        unfold UGraph.run
        simp only [if_neg ho, hstep]
        exact ih

/-! ## Examples -/

/-- A path of five vertices with split edges: an erased edge, one syndrome vertex away from it. -/
example : switchedDecode true false true 5 examplePath 2 none [0] [false, false, true, false, false] =
    .ok [false, false, true, true, true] := by decide +kernel

/-- Chosen increments: a large weight does not keep the decoder from using an edge, as it does without them. -/
example : switchedDecode false true true 3 [[0, 1], [1, 2], [0], [2]] 1 (some [5, 1, 1, 1]) [] [true, true, false] =
    .ok [true, false, false, false] := by decide +kernel

example : unionFindDecode true 3 [[0, 1], [1, 2], [0], [2]] 1 (some [5, 1, 1, 1]) [] [true, true, false] =
    .ok [false, true, true, true] := by decide +kernel

/-- Both switches, with weights for the halves. -/
example : switchedDecode true true true 2 [[0, 1], [1]] 1 (some [1, 2, 3, 4]) [] [true, false] = .ok [true, true] := by decide +kernel

example : switchedDecode true false true 2 [[0, 1], [1]] 1 (some [1, 2]) [] [true, false] = .error .assertionError := by decide +kernel

example : switchedDecode true false true 4 [[0, 1], [2, 3]] 1 none [] [true, false, true, false] = .error .assertionError := by decide +kernel

/-- An erased edge that is not there. -/
example : switchedDecode true false true 2 [[0, 1], [1]] 1 none [2] [true, false] = .error .indexError := by decide +kernel

example : WeightsOk true (if true then 2 * 2 else 2) (some [1, 2, 3, 4]) := ⟨rfl, rfl, by simp, 1, by simp, by norm_num⟩

example : splitEdges 2 [[0, 1], [1]] = [[0, 2], [2, 1], [1, 3], [3]] := by decide

end Plaquette
