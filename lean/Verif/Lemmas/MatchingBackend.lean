import Verif.Lemmas.MatchingMain
import Verif.Props.Correction

/-!
# The backends PyMatching and Fusion Blossom
-/

namespace Plaquette
variable {n r : Nat} {stabs : List (Op n)} {isInf : FW → Bool} {w : Option (Weights FW)} {g : SynGraph FW}

/-- Explanations exist for the syndromes that pass the check, so that a decoder that finds one if there is one is complete. -/
theorem complete_of {σ : Type} (h : mkSynGraph isInf r stabs w = .ok g) {b : Backend FW σ} {states : List σ}
    (hb : ∀ (k : Nat) (c : Component FW) (s : σ), g.withEdges[k]? = some c → states[k]? = some s → ∀ er syn, er.length = c.edges.length →
      syn.length = c.nVertices → (∃ y, Explains c.nVertices c.edges y syn) → ∃ corr, b.decode s er syn = .ok corr) : Complete b g states :=
  fun k c s hk hs er syn her hsyn hcor => hb k c s hk hs er syn her hsyn (exists_explains (compGraph h (mem_withEdges hk).1) hsyn hcor)

/-! ## PyMatching -/

/-- PyMatching without the check for erasures. -/
def pmRaw (solve : PmGraph → List Bool → Except Err (List Bool)) : Backend FW PmGraph := ⟨pmSetup, fun G _ syn => solve G syn⟩

theorem pm_states {solve : PmGraph → List Bool → Except Err (List Bool)} (h : mkSynGraph isInf r stabs w = .ok g) {states : List PmGraph}
    (hst : setupAll (pmBackend solve) g = .ok states) : states.length = g.withEdges.length ∧
    ∀ (k : Nat) (c : Component FW) (s : PmGraph), g.withEdges[k]? = some c → states[k]? = some s → s.Shows c ∧ SaneWeights c.weights := by
  obtain ⟨hl, hget⟩ := mapLoop_get hst
  refine ⟨hl, fun k c s hk hs => ?_⟩
  obtain ⟨G, hG, hG2⟩ := hget k c hk
  rw [hs] at hG2
  obtain rfl := Option.some.inj hG2
  have hcm := (mem_withEdges hk).1
  exact pmSetup_shows hG (compGraph h hcm) (comp_lengths h hcm)

/-- The weights of PyMatching. -/
def pmWt (c : Component FW) (_ : List Bool) (i : Nat) : ℚ := FW.weight (c.weights.getD i none)

theorem pm_light {solve : PmGraph → List Bool → Except Err (List Bool)} (hS : IsPyMatching solve) (h : mkSynGraph isInf r stabs w = .ok g)
    {states : List PmGraph} (hst : setupAll (pmBackend solve) g = .ok states) : Light (pmRaw solve) g states pmWt :=
  fun k c s hk hs _ _ corr _ hsyn hd => (pm_lightest hS ((pm_states h hst).2 k c s hk hs).1 hsyn).1 corr hd

theorem pmDecode_ok {solve : PmGraph → List Bool → Except Err (List Bool)} {G : PmGraph} {er syn res : List Bool}
    (h : (pmBackend solve).decode G er syn = .ok res) : solve G syn = .ok res ∧ ∀ i : Nat, er[i]? ≠ some true := by
  have h : pmDecode solve G er syn = .ok res := h
  unfold pmDecode at h
  split at h
  · cases h
  · next hany =>
    refine ⟨h, fun i hi => hany ?_⟩
    rw [List.any_eq_true]
    exact ⟨true, List.mem_of_getElem? hi, rfl⟩

theorem pm_light' {solve : PmGraph → List Bool → Except Err (List Bool)} (hS : IsPyMatching solve) (h : mkSynGraph isInf r stabs w = .ok g)
    {states : List PmGraph} (hst : setupAll (pmBackend solve) g = .ok states) : Light (pmBackend solve) g states pmWt :=
  fun k c s hk hs er syn corr her hsyn hd => pm_light hS h hst k c s hk hs er syn corr her hsyn (pmDecode_ok hd).1

theorem pm_complete {solve : PmGraph → List Bool → Except Err (List Bool)} (hS : IsPyMatching solve) (h : mkSynGraph isInf r stabs w = .ok g)
    {states : List PmGraph} (hst : setupAll (pmBackend solve) g = .ok states) : Complete (pmRaw solve) g states :=
  complete_of h fun k c s hk hs _ _ _ hsyn hex => (pm_lightest hS ((pm_states h hst).2 k c s hk hs).1 hsyn).2 hex

theorem mapLoop_congr {α β : Type} {f f' : α → Except Err β} {l : List α} (h : ∀ a ∈ l, f a = f' a) : mapLoop f l = mapLoop f' l := by
  induction l with
  | nil => rfl
  | cons a l ih => rw [mapLoop, mapLoop, h a (by simp), ih fun b hb => h b (by simp [hb])]

/-- Without erasures, the check for erasures passes. -/
theorem pm_decode_raw {solve : PmGraph → List Bool → Except Err (List Bool)} (h : mkSynGraph isInf r stabs w = .ok g) {states : List PmGraph}
    {erased syn : Option (List (List Bool))} (her : ShapeOk r n erased) (hno : ∀ t q, ¬ SynBit erased t q) :
    decode (pmBackend solve) g n states erased syn = decode (pmRaw solve) g n states erased syn := by
  obtain ⟨qs, es, k, hB⟩ := mkSynGraph_built h
  obtain ⟨er, he, hbit⟩ := arrayOr_ok her
  have hfalse : ∀ i, edgeErased g er i = false := by
    intro i
    by_contra hc
    obtain ⟨_, t, _, q, _, _, _, hs⟩ := (edgeErased_iff hbit i).1 (by simpa using hc)
    exact hno t q hs
  unfold decode decodeAll
  rw [hB.nRounds, hB.nQubits]
  simp only [he]
  have : ∀ sy, mapLoop (decodeOne (pmBackend solve) g er sy) (g.withEdges.zip states) = mapLoop (decodeOne (pmRaw solve) g er sy) (g.withEdges.zip states) := by
    intro sy
    refine mapLoop_congr fun c _ => ?_
    unfold decodeOne
    have : (pmBackend solve).decode c.2 (c.1.edgeIdx.map (edgeErased g er)) = (pmRaw solve).decode c.2 (c.1.edgeIdx.map (edgeErased g er)) := by
      funext syn
      show pmDecode _ _ _ _ = _
      unfold pmDecode
      rw [if_neg]
      · rfl
      · rw [List.any_eq_true]
        rintro ⟨b, hb, hb'⟩
        obtain ⟨i, _, rfl⟩ := List.mem_map.1 hb
        rw [hfalse] at hb'; cases hb'
    rw [this]
  simp only [this]

/-- The set-up succeeds if the weights are finite and not negative, or if there are none. -/
theorem pm_setup (solve : PmGraph → List Bool → Except Err (List Bool)) (h : mkSynGraph isInf r stabs w = .ok g)
    (hw : ∀ c ∈ g.withEdges, SaneWeights c.weights) : ∃ states, setupAll (pmBackend solve) g = .ok states := by
  refine mapLoop_ok_iff.2 fun c hc => ?_
  have hcm : c ∈ g.components := (List.mem_filter.1 hc).1
  exact pmSetup_total (compGraph h hcm) (comp_simple h hcm) (hw c hc)

/-- The weight of an edge of a component is that of the edge of the syndrome graph. -/
theorem comp_weight (h : mkSynGraph isInf r stabs w = .ok g) {c : Component FW} (hc : c ∈ g.components) {j i : Nat} (hj : c.edgeIdx[j]? = some i) :
    ∃ e, g.edges[i]? = some e ∧ e.enabled = true ∧ c.weights.getD j none = e.weight := by
  obtain ⟨e, he, hen, _⟩ := ((compOk h hc).mem i).1 (List.mem_of_getElem? hj)
  obtain ⟨l, _, _, h6⟩ := (C34_copy h hc).2.2 j i e hj he
  exact ⟨e, he, hen, by rw [List.getD_eq_getElem?_getD, h6]; rfl⟩

theorem comp_sane (h : mkSynGraph isInf r stabs w = .ok g) {c : Component FW} (hc : c ∈ g.components)
    (hw : (∀ e ∈ g.edges, e.weight = none) ∨ ∀ e ∈ g.edges, e.enabled = true → ∃ q : ℚ, 0 ≤ q ∧ e.weight = some ((q : WithTop ℚ) : FW)) :
    SaneWeights c.weights := by
  have key : ∀ x ∈ c.weights, ∃ e ∈ g.edges, e.enabled = true ∧ x = e.weight := by
    intro x hx
    obtain ⟨j, hj⟩ := List.getElem?_of_mem hx
    obtain ⟨h1, h2, h3⟩ := C34_copy h hc
    have hjl : j < c.edgeIdx.length := by rw [← h2]; exact (List.getElem?_eq_some_iff.1 hj).1
    obtain ⟨e, he, hen, hwt⟩ := comp_weight h hc (List.getElem?_eq_getElem hjl)
    rw [List.getD_eq_getElem?_getD, hj] at hwt
    exact ⟨e, List.mem_of_getElem? he, hen, hwt⟩
  rcases hw with hw | hw
  · left
    intro x hx
    obtain ⟨e, he, _, rfl⟩ := key x hx
    exact hw e he
  · right
    intro x hx
    obtain ⟨e, he, hen, rfl⟩ := key x hx
    exact hw e he hen

theorem edgeWeight_eq {i : Nat} {e : SEdge FW} (he : g.edges[i]? = some e) : edgeWeight g i = FW.weight e.weight := by
  unfold edgeWeight; rw [he]; rfl

theorem unit_weight {nv : Nat} {edges : List (List Nat)} {wt : Nat → ℚ} {er corr syn x : List Bool} {P : Type} [CommRing P] (Y : Layout P nv edges)
    (hw : ∀ i < edges.length, wt i = if er[i]? = some true then 0 else 1) (h : IsLightest nv edges wt corr syn) (hx : Explains nv edges x syn) :
    (linesOf Y (x.getD · false) (corr.getD · false)).Finite ∧ (linesOf Y (x.getD · false) (corr.getD · false)).ncard ≤
      2 * (List.range edges.length).countP (fun j => x.getD j false && !er.getD j false) +
        (List.range edges.length).countP (fun j => er.getD j false) := lines_light Y (light_count one_pos hw h hx)

/-- PyMatching without weights corrects few faults. -/
theorem pm_few {solve : PmGraph → List Bool → Except Err (List Bool)} (hS : IsPyMatching solve) : Few 2 false (pmBackend solve) := by
  refine ⟨le_rfl, fun n r stabs g hg => ?_⟩
  obtain ⟨states, hst⟩ := pm_setup solve hg fun c hc => .inl (comp_none hg (List.mem_filter.1 hc).1)
  have hl := (pm_states hg hst).1
  refine ⟨states, hst, (pm_light' hS hg hst).sound hl, ?_, fun erased syn her hsyn hno hex => ?_⟩
  · intro k c s hk hs er syn corr x her hsyn hd hx P _ Y _
    refine unit_weight Y (fun i hi => ?_) (pm_light' hS hg hst k c s hk hs er syn corr her hsyn hd) hx
    rw [if_neg ((pmDecode_ok hd).2 i)]
    unfold pmWt
    rw [List.getD_eq_getElem?_getD]
    cases hi : c.weights[i]? with
    | none => rfl
    | some y => rw [comp_none hg (mem_withEdges hk).1 y (List.mem_of_getElem? hi)]; rfl
  · rw [pm_decode_raw hg her (hno rfl)]
    rcases C39_refused (n := n) hg ((pm_light hS hg hst).sound hl) (pm_complete hS hg hst) her hsyn with ⟨_, h⟩ | ⟨hne, _⟩
    · exact h
    · exact absurd hex hne

/-! ## Fusion Blossom -/

/-- The rounded weights of a component. -/
def fbW (c : Component FW) : List Int :=
  match fbWeights c.edges.length c.weights with
  | .ok l => l
  | .error _ => []

/-- The weights of Fusion Blossom: erased edges have weight 0. -/
def fbWt (c : Component FW) (er : List Bool) (i : Nat) : ℚ := if er[i]? = some true then 0 else ((fbW c).getD i 0 : ℚ)

theorem fb_states {solve : FbGraph → List Nat → List Nat → Except Err (List Nat)} (h : mkSynGraph isInf r stabs w = .ok g) {states : List FbGraph}
    (hst : setupAll (fbBackend solve) g = .ok states) : states.length = g.withEdges.length ∧
    ∀ (k : Nat) (c : Component FW) (s : FbGraph), g.withEdges[k]? = some c → states[k]? = some s →
      s.Shows c (fbW c) ∧ fbWeights c.edges.length c.weights = .ok (fbW c) := by
  obtain ⟨hl, hget⟩ := mapLoop_get hst
  refine ⟨hl, fun k c s hk hs => ?_⟩
  obtain ⟨G, hG, hG2⟩ := hget k c hk
  rw [hs] at hG2
  obtain rfl := Option.some.inj hG2
  have hcm := (mem_withEdges hk).1
  obtain ⟨ws, h1, h2⟩ := fbSetup_inv hG (compGraph h hcm) (comp_simple h hcm) (comp_lengths h hcm)
  have : fbW c = ws := by unfold fbW; rw [h1]
  rw [this]
  exact ⟨h2, h1⟩

theorem fb_light {solve : FbGraph → List Nat → List Nat → Except Err (List Nat)} (hS : IsFusionBlossom solve) (h : mkSynGraph isInf r stabs w = .ok g)
    {states : List FbGraph} (hst : setupAll (fbBackend solve) g = .ok states) : Light (fbBackend solve) g states fbWt :=
  fun k c s hk hs _ _ corr her hsyn hd => (fb_lightest hS ((fb_states h hst).2 k c s hk hs).1 her hsyn).1 corr hd

theorem fb_complete {solve : FbGraph → List Nat → List Nat → Except Err (List Nat)} (hS : IsFusionBlossom solve) (h : mkSynGraph isInf r stabs w = .ok g)
    {states : List FbGraph} (hst : setupAll (fbBackend solve) g = .ok states) : Complete (fbBackend solve) g states :=
  complete_of h fun k c s hk hs _ _ her hsyn hex => (fb_lightest hS ((fb_states h hst).2 k c s hk hs).1 her hsyn).2 hex

theorem fbWeights_none {m : Nat} {ws : List (Option FW)} (h : ∀ x ∈ ws, x = none) : fbWeights m ws = .ok (List.replicate m 1) := by
  unfold fbWeights
  rw [isWeighted_none h]

theorem fb_setup_of (solve : FbGraph → List Nat → List Nat → Except Err (List Nat)) (h : mkSynGraph isInf r stabs w = .ok g)
    (hw : ∀ c ∈ g.withEdges, ∃ l, fbWeights c.edges.length c.weights = .ok l) : ∃ states, setupAll (fbBackend solve) g = .ok states := by
  refine mapLoop_ok_iff.2 fun c hc => ?_
  have hcm : c ∈ g.components := (List.mem_filter.1 hc).1
  obtain ⟨l, hl⟩ := hw c hc
  obtain ⟨G, hG, _⟩ := fbSetup_shows hl (fbWeights_length hl (comp_lengths h hcm)) (fbWeights_ok hl).2.1 (compGraph h hcm) (comp_simple h hcm)
  exact ⟨G, hG⟩

/-- Fusion Blossom without weights corrects few faults, also with erasures. -/
theorem fb_few {solve : FbGraph → List Nat → List Nat → Except Err (List Nat)} (hS : IsFusionBlossom solve) : Few 2 true (fbBackend solve) := by
  refine ⟨le_rfl, fun n r stabs g hg => ?_⟩
  have hnone : ∀ c ∈ g.withEdges, fbWeights c.edges.length c.weights = .ok (List.replicate c.edges.length 1) := fun c hc =>
    fbWeights_none (comp_none hg (List.mem_filter.1 hc).1)
  obtain ⟨states, hst⟩ := fb_setup_of solve hg fun c hc => ⟨_, hnone c hc⟩
  have hl := (fb_states hg hst).1
  refine ⟨states, hst, (fb_light hS hg hst).sound hl, ?_, fun erased syn her hsyn _ hex => ?_⟩
  · intro k c s hk hs er syn corr x her hsyn hd hx P _ Y _
    refine unit_weight Y (fun i hi => ?_) (fb_light hS hg hst k c s hk hs er syn corr her hsyn hd) hx
    unfold fbWt
    have : fbW c = List.replicate c.edges.length 1 := by unfold fbW; rw [hnone c (List.mem_of_getElem? hk)]
    rw [this]
    simp [List.getD_eq_getElem?_getD, hi]
  · rcases C39_refused (n := n) hg ((fb_light hS hg hst).sound hl) (fb_complete hS hg hst) her hsyn with ⟨_, h⟩ | ⟨hne, _⟩
    · exact h
    · exact absurd hex hne

/-! ## Rounding -/

theorem maxWeight_le {l : List ℚ} {M : ℚ} (hne : l ≠ []) (h : ∀ w ∈ l, w ≤ M) : maxWeight l ≤ M := by
  unfold maxWeight
  have : ∀ (l : List ℚ) (b : ℚ), b ≤ M → (∀ w ∈ l, w ≤ M) → l.foldl max b ≤ M := by
    intro l
    induction l with
    | nil => exact fun b hb _ => hb
    | cons a l ih => exact fun b hb h => ih _ (max_le hb (h a (by simp))) fun w hw => h w (by simp [hw])
  refine this l _ ?_ h
  cases l with
  | nil => exact absurd rfl hne
  | cons a l => exact h a (by simp)

theorem fbWeights_total {m : Nat} {ws : List (Option FW)}
    (h : (∀ x ∈ ws, x = none) ∨ (∀ x ∈ ws, ∃ q : ℚ, 0 ≤ q ∧ x = some ((q : WithTop ℚ) : FW)) ∧ ∃ x ∈ ws, 0 < FW.weight x) : ∃ l, fbWeights m ws = .ok l := by
  rcases h with h | ⟨h, x, hx, hpos⟩
  · exact ⟨_, fbWeights_none h⟩
  · obtain ⟨h1, h2, h3⟩ := isWeighted_some (List.ne_nil_of_mem hx) h
    refine ⟨(ws.map FW.weight).map fun w => ⌊100 * w / maxWeight (ws.map FW.weight)⌋, ?_⟩
    unfold fbWeights
    rw [h1]
    simp only [h2, h3]
    rw [if_neg]
    have := maxWeight_ge (l := ws.map FW.weight) _ (List.mem_map_of_mem hx)
    intro h0
    rw [h0] at this
    exact absurd hpos (not_lt.2 this)

/-- The unit of the rounded weights. -/
def fbUnit (c : Component FW) : ℚ := if fbW c = List.replicate c.edges.length 1 ∧ (∀ x ∈ c.weights, x = none) then 1 else maxWeight (c.weights.map FW.weight) / 100

/-- Rounded weights differ by less than one unit. -/
theorem fbW_near {c : Component FW} (h : fbWeights c.edges.length c.weights = .ok (fbW c)) (hl : c.weights.length = c.edges.length) {M : ℚ} (hM : ∀ x ∈ c.weights, FW.weight x ≤ M) :
    0 < fbUnit c ∧ ∀ i < c.edges.length, ((fbW c).getD i 0 : ℚ) * fbUnit c ≤ FW.weight (c.weights.getD i none) ∧
      FW.weight (c.weights.getD i none) ≤ ((fbW c).getD i 0 : ℚ) * fbUnit c + M / 100 := by
  unfold fbUnit
  by_cases hc : fbW c = List.replicate c.edges.length 1 ∧ (∀ x ∈ c.weights, x = none)
  · rw [if_pos hc]
    refine ⟨one_pos, fun i hi => ?_⟩
    have hx : c.weights[i]? = some none := by
      rw [List.getElem?_eq_getElem (by omega)]
      exact congrArg some (hc.2 _ (List.getElem_mem _))
    have hw : FW.weight (c.weights.getD i none) = 1 := by rw [List.getD_eq_getElem?_getD, hx]; rfl
    rw [hw, hc.1, List.getD_eq_getElem?_getD, List.getElem?_replicate_of_lt hi]
    have : (1 : ℚ) ≤ M := hM none (List.mem_of_getElem? hx)
    simp
    linarith
  · rw [if_neg hc]
    rcases (fbWeights_ok h).2.2 with ⟨h1, h2⟩ | ⟨h1, h2, h3⟩
    · exact absurd ⟨h2, h1⟩ hc
    · set m := maxWeight (c.weights.map FW.weight) with hm
      refine ⟨by positivity, fun i hi => ?_⟩
      have hil : i < c.weights.length := by omega
      have hmM : m ≤ M := maxWeight_le (by intro h0; rw [List.map_eq_nil_iff] at h0; rw [h0] at hil; simp at hil) fun w hw => by
        obtain ⟨x, hx, rfl⟩ := List.mem_map.1 hw; exact hM x hx
      have e1 : (fbW c).getD i 0 = ⌊100 * FW.weight (c.weights.getD i none) / m⌋ := by
        rw [h3, List.getD_eq_getElem?_getD, List.getElem?_map, List.getElem?_map, List.getElem?_eq_getElem hil,
          List.getD_eq_getElem?_getD, List.getElem?_eq_getElem hil]
        rfl
      rw [e1]
      set x := FW.weight (c.weights.getD i none)
      have k1 := Int.floor_le (100 * x / m)
      have k2 := Int.lt_floor_add_one (100 * x / m)
      rw [le_div_iff₀ h2] at k1
      rw [div_lt_iff₀ h2] at k2
      constructor
      · linarith
      · linarith

theorem totalWeight_scale {w : Nat → ℚ} {u : ℚ} {x : List Bool} : totalWeight (fun i => w i * u) x = totalWeight w x * u := by
  unfold totalWeight
  rw [Finset.sum_mul]
  exact Finset.sum_congr rfl fun i _ => by split <;> simp

theorem IsLightest.scale {nv : Nat} {edges : List (List Nat)} {w : Nat → ℚ} {u : ℚ} (hu : 0 ≤ u) {corr syn : List Bool} (h : IsLightest nv edges w corr syn) :
    IsLightest nv edges (fun i => w i * u) corr syn :=
  ⟨h.1, fun y hy => by rw [totalWeight_scale, totalWeight_scale]; exact mul_le_mul_of_nonneg_right (h.2 y hy) hu⟩

/-- Each edge is in one component only, so that weights may be given by component. -/
theorem exists_global {W : Type} [LinearOrder W] {isInf : W → Bool} {w : Option (Weights W)} {g : SynGraph W} (h : mkSynGraph isInf r stabs w = .ok g) (f : Component W → Nat → ℚ) :
    ∃ Wg : Nat → ℚ, ∀ c ∈ g.components, ∀ j i : Nat, c.edgeIdx[j]? = some i → f c j = Wg i := by
  classical
  refine ⟨fun i => if hx : ∃ p : Component W × Nat, p.1 ∈ g.components ∧ p.1.edgeIdx[p.2]? = some i then f (Classical.choose hx).1 (Classical.choose hx).2 else 0, ?_⟩
  intro c hc j i hj
  have hx : ∃ p : Component W × Nat, p.1 ∈ g.components ∧ p.1.edgeIdx[p.2]? = some i := ⟨(c, j), hc, hj⟩
  dsimp only
  rw [dif_pos hx]
  obtain ⟨h1, h2⟩ := Classical.choose_spec hx
  generalize Classical.choose hx = p at h1 h2
  obtain ⟨c', j'⟩ := p
  dsimp only at h1 h2 ⊢
  have e1 : c = c' := by
    by_contra hne
    have hpw := (comps_disjoint h).imp (S := fun c d => ∀ i, ¬ (i ∈ c.edgeIdx ∧ i ∈ d.edgeIdx)) fun hd i hi => hd i hi.1 hi.2
    haveI : Std.Symm fun c d : Component W => ∀ i, ¬ (i ∈ c.edgeIdx ∧ i ∈ d.edgeIdx) := ⟨fun a b hab i hi => hab i ⟨hi.2, hi.1⟩⟩
    exact (hpw.forall hc h1 hne) i ⟨List.mem_of_getElem? hj, List.mem_of_getElem? h2⟩
  subst e1
  have e2 : j = j' := by
    have hn := (compOk h hc).enodup
    have l1 := (List.getElem?_eq_some_iff.1 hj)
    have l2 := (List.getElem?_eq_some_iff.1 h2)
    obtain ⟨a1, b1⟩ := l1
    obtain ⟨a2, b2⟩ := l2
    exact (hn.getElem_inj_iff).1 (b1.trans b2.symm)
  rw [e2]

theorem comp_sane_nonneg {m : Nat} {ws : List (Option FW)} {l : List Int} (h : fbWeights m ws = .ok l) (i : Nat) : 0 ≤ FW.weight (ws.getD i none) :=
  (fbWeights_ok h).1.nonneg i

end Plaquette
