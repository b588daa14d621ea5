import Verif.Props.Threshold
import Verif.Props.Weights
import Verif.Props.Matching
import Mathlib.Analysis.SpecialFunctions.Pow.NNReal

/-!
# Random faults below a threshold are corrected by decoders with weights (C110)
-/

open MeasureTheory
open scoped ENNReal NNReal

namespace Plaquette

/-! ## Weights that differ by a factor -/

/-- Numbers as weights, for the errors X and Z on every data qubit and the wrong outcomes of every stabiliser. -/
def numberWeights (px pz pm : List ℚ) : Weights FW :=
  ⟨.arr (px.map fun q : ℚ => some ((q : WithTop ℚ) : FW)), .arr (pz.map fun q : ℚ => some ((q : WithTop ℚ) : FW)), .arr (pm.map fun q : ℚ => some ((q : WithTop ℚ) : FW))⟩

/-- Positive weights for `n` data qubits and `m` stabilisers that differ by at most a factor `ρ`. -/
structure Alike (n m ρ : Nat) (px pz pm : List ℚ) (a : ℚ) : Prop where
  x : px.length = n
  z : pz.length = n
  m : pm.length = m
  pos : 0 < a
  low : ∀ q ∈ px ++ pz ++ pm, a ≤ q
  high : ∀ q ∈ px ++ pz ++ pm, q ≤ ρ * a

variable {n r ρ : Nat} {stabs : List (Op n)} {px pz pm : List ℚ} {a : ℚ} {g : SynGraph FW}

theorem weightFor_mem {l : List ℚ} {i : Nat} {x : Option FW} (h : WeightFor (.arr (l.map fun q : ℚ => some ((q : WithTop ℚ) : FW))) i x) :
    ∃ q ∈ l, x = some ((q : WithTop ℚ) : FW) := by
  have key : ∀ l' : List (Option FW), WeightFor (.arr l') i x → x ∈ l' := by
    intro l' h
    match l', h with
    | [], h => simp [WeightFor] at h
    | [y], h => simp only [WeightFor] at h; rw [h]; simp
    | y :: z :: l', h => exact List.mem_of_getElem? (by simpa only [WeightFor] using h)
  obtain ⟨q, hq, rfl⟩ := List.mem_map.1 (key _ h)
  exact ⟨q, hq, rfl⟩

/-- Every edge has one of the numbers as its weight. -/
theorem Alike.edge (hA : Alike n stabs.length ρ px pz pm a) (h : mkSynGraph FW.isInf r stabs (some (numberWeights px pz pm)) = .ok g) {e : SEdge FW} (he : e ∈ g.edges) :
    ∃ q : ℚ, a ≤ q ∧ q ≤ ρ * a ∧ e.weight = some ((q : WithTop ℚ) : FW) := by
  have h1 := C33_weights h e he
  have key : ∃ q ∈ px ++ pz ++ pm, e.weight = some ((q : WithTop ℚ) : FW) := by
    unfold GivenWeight at h1
    dsimp only at h1
    split at h1
    · split at h1
      · obtain ⟨q, hq, hx⟩ := weightFor_mem h1; exact ⟨q, by simp [hq], hx⟩
      · obtain ⟨q, hq, hx⟩ := weightFor_mem h1; exact ⟨q, by simp [hq], hx⟩
    · obtain ⟨q, hq, hx⟩ := weightFor_mem h1; exact ⟨q, by simp [hq], hx⟩
  obtain ⟨q, hq, hx⟩ := key
  exact ⟨q, hA.low q hq, hA.high q hq, hx⟩

theorem Alike.finite (hA : Alike n stabs.length ρ px pz pm a) (h : mkSynGraph FW.isInf r stabs (some (numberWeights px pz pm)) = .ok g) : AllFinite FW.isInf g := by
  intro e he x hx
  obtain ⟨q, _, _, hq⟩ := hA.edge h he
  rw [hq] at hx; cases hx
  simp [FW.isInf]

theorem Alike.graph (hA : Alike n stabs.length ρ px pz pm a) (h0 : ∃ g, mkSynGraph FW.isInf 1 stabs none = .ok g) (r : Nat) :
    ∃ g, mkSynGraph FW.isInf r stabs (some (numberWeights px pz pm)) = .ok g := by
  obtain ⟨h1, h2⟩ := C32_defined.1 h0
  refine mkSynGraph_arrays h1 (h2.resolve_left (by decide)) (by rw [List.length_map, hA.x]) (by rw [List.length_map, hA.z]) (by rw [List.length_map, hA.m]) ?_ ?_ ?_ <;>
  · intro x hx
    obtain ⟨q, _, rfl⟩ := List.mem_map.1 hx
    rfl

/-! ## Decoders that find light explanations -/

/-- Set up with such weights, the decoder answers every syndrome that can be explained with an explanation that is the lightest for weights that differ by at
most a factor `κ`. -/
def LightWith {σ : Type} (lossy : Bool) (ρ κ : Nat) (b : Backend FW σ) : Prop :=
  ∀ (n r : Nat) (stabs : List (Op n)) (px pz pm : List ℚ) (a : ℚ) (g : SynGraph FW), Alike n stabs.length ρ px pz pm a →
    mkSynGraph FW.isInf r stabs (some (numberWeights px pz pm)) = .ok g →
    ∃ states, setupAll b g = .ok states ∧ Sound b g states ∧
      ∀ erased syn, ShapeOk r n erased → ShapeOk r stabs.length syn → (lossy = false → ∀ t q, ¬ SynBit erased t q) →
        Explainable g r stabs.length syn → ∃ p, decode b g n states erased syn = .ok p ∧
          ∃ sel, EdgesExplain g r stabs.length sel syn ∧ EdgesProduct g sel p ∧ NearlyFewest g r n stabs.length κ erased syn sel

theorem pm_lightWith {solve : PmGraph → List Bool → Except Err (List Bool)} (hS : IsPyMatching solve) (ρ : Nat) : LightWith false ρ ρ (pmBackend solve) := by
  intro n r stabs px pz pm a g hA h
  obtain ⟨states, hst⟩ := C72_sane solve h (.inr fun e he _ => by
    obtain ⟨q, h1, _, h2⟩ := hA.edge h he
    exact ⟨q, hA.pos.le.trans h1, h2⟩)
  refine ⟨states, hst, (pm_light' hS h hst).sound (pm_states h hst).1, fun erased syn her hsyn hno hex => ?_⟩
  rcases C72_answers hS h hst her (hno rfl) hsyn with ⟨_, p, hp⟩ | ⟨hn, _⟩
  · obtain ⟨sel, h1, h2, h3⟩ := C72_minimal hS h hst hp
    refine ⟨p, hp, sel, h1, h2, edgeWeight g, a, hA.pos, fun er he i e hie _ _ => ?_, h3⟩
    obtain ⟨er', he', hbe⟩ := arrayOr_ok her
    rw [he] at he'; cases he'
    rw [if_neg fun h => by
      obtain ⟨_, t, _, q, _, _, _, hs⟩ := (edgeErased_iff hbe i).1 h
      exact hno rfl t q hs]
    obtain ⟨q, h4, h5, h6⟩ := hA.edge h (List.mem_of_getElem? hie)
    rw [edgeWeight_eq hie, h6]
    exact ⟨h4, h5⟩
  · exact absurd hex hn

theorem fb_lightWith {solve : FbGraph → List Nat → List Nat → Except Err (List Nat)} (hS : IsFusionBlossom solve) {ρ κ : Nat} (hκ : 100 ≤ κ * (100 / ρ)) :
    LightWith true ρ κ (fbBackend solve) := by
  intro n r stabs px pz pm a g hA h
  have hpos : 0 < 100 / ρ := by
    rcases Nat.eq_zero_or_pos (100 / ρ) with h0 | h0
    · rw [h0] at hκ; omega
    · exact h0
  have hρ : 0 < ρ := by
    rcases Nat.eq_zero_or_pos ρ with h0 | h0
    · rw [h0] at hpos; simp at hpos
    · exact h0
  obtain ⟨states, hst⟩ := C73_sane_partial solve h (.inr fun e he _ => by
    obtain ⟨q, h1, _, h2⟩ := hA.edge h he
    exact ⟨q, hA.pos.trans_le h1, h2⟩)
  have hl := (fb_states h hst).1
  have hsound := (fb_light hS h hst).sound hl
  refine ⟨states, hst, hsound, fun erased syn her hsyn _ hex => ?_⟩
  rcases C39_refused h hsound (fb_complete hS h hst) her hsyn with ⟨_, p, hp⟩ | ⟨hn, _⟩
  · obtain ⟨er, he, hbe⟩ := arrayOr_ok her
    obtain ⟨Wg, hWg⟩ := exists_global h fun c j => fbWt c (c.edgeIdx.map (edgeErased g er)) j
    obtain ⟨sel, h1, h2, h3⟩ := light_total h (fb_light hS h hst) hl hp he Wg hWg
    refine ⟨p, hp, sel, h1, h2, Wg, ((100 / ρ : Nat) : ℚ), by exact_mod_cast hpos, fun er' he' i e hie hen hv => ?_, h3⟩
    rw [he] at he'; cases he'
    obtain ⟨c, hc, hic⟩ := exists_comp h hie hen hv
    have hcm := (List.mem_filter.1 hc).1
    obtain ⟨j, hj⟩ := List.getElem?_of_mem hic
    rw [← hWg c hcm j i hj]
    unfold fbWt
    rw [List.getElem?_map, hj]
    by_cases hei : edgeErased g er i = true
    · rw [if_pos hei, if_pos (by simp [hei])]
    · rw [if_neg hei, if_neg (by simpa using hei)]
      obtain ⟨k, hk⟩ := List.getElem?_of_mem hc
      obtain ⟨s, hs⟩ : ∃ s, states[k]? = some s := ⟨_, List.getElem?_eq_getElem (by rw [hl]; exact (List.getElem?_eq_some_iff.1 hk).1)⟩
      have hjl : j < c.weights.length := by rw [(C34_copy h hcm).2.1]; exact (List.getElem?_eq_some_iff.1 hj).1
      -- the weights of the component
      have hcw : ∀ x ∈ c.weights, ∃ q : ℚ, a ≤ q ∧ q ≤ ρ * a ∧ x = some ((q : WithTop ℚ) : FW) := by
        intro x hx
        obtain ⟨j', hj'⟩ := List.getElem?_of_mem hx
        have hjl' : j' < c.edgeIdx.length := by rw [← (C34_copy h hcm).2.1]; exact (List.getElem?_eq_some_iff.1 hj').1
        obtain ⟨e', he', _, hwt⟩ := comp_weight h hcm (List.getElem?_eq_getElem hjl')
        rw [List.getD_eq_getElem?_getD, hj'] at hwt
        obtain ⟨q, h4, h5, h6⟩ := hA.edge h (List.mem_of_getElem? he')
        exact ⟨q, h4, h5, hwt.trans h6⟩
      rcases (fbWeights_ok ((fb_states h hst).2 k c s hk hs).2).2.2 with ⟨h4, _⟩ | ⟨_, h5, h6⟩
      · obtain ⟨q, _, _, hx⟩ := hcw _ (List.getElem_mem hjl)
        have h7 := h4 _ (List.getElem_mem hjl)
        rw [hx] at h7; cases h7
      · set M := maxWeight (c.weights.map FW.weight) with hM
        obtain ⟨q, hq1, hq2, hx⟩ := hcw _ (List.getElem_mem hjl)
        have hval : (fbW c).getD j 0 = ⌊100 * q / M⌋ := by
          rw [h6, List.getD_eq_getElem?_getD, List.getElem?_map, List.getElem?_map, List.getElem?_eq_getElem hjl, hx]
          rfl
        have hqM : q ≤ M := by
          refine maxWeight_ge q (List.mem_map.2 ⟨_, List.getElem_mem hjl, ?_⟩)
          rw [hx]; rfl
        have hMa : M ≤ ρ * a := by
          refine maxWeight_le (fun h0 => ?_) fun y hy => ?_
          · rw [List.map_eq_nil_iff] at h0
            rw [h0] at hjl; simp at hjl
          · obtain ⟨x, hx, rfl⟩ := List.mem_map.1 hy
            obtain ⟨q', _, h8, rfl⟩ := hcw x hx
            exact h8
        rw [hval]
        constructor
        · have h8 : ((100 / ρ : Nat) : ℤ) ≤ ⌊100 * q / M⌋ := by
            rw [Int.le_floor]
            push_cast
            have h9 : (((100 / ρ : Nat) : ℤ) : ℚ) ≤ 100 / ρ := by
              have := @Nat.cast_div_le ℚ _ _ _ 100 ρ
              push_cast at this ⊢
              exact_mod_cast this
            have h10 : (100 : ℚ) / ρ ≤ 100 * q / M := by
              have hρ' : (0 : ℚ) < ρ := by exact_mod_cast hρ
              rw [div_le_div_iff₀ hρ' h5]
              nlinarith
            exact_mod_cast h9.trans h10
          have h11 : (((100 / ρ : Nat) : ℤ) : ℚ) ≤ ((⌊100 * q / M⌋ : ℤ) : ℚ) := Int.cast_le.2 h8
          rwa [Int.cast_natCast] at h11
        · have h8 : ⌊100 * q / M⌋ ≤ 100 := by
            have : (⌊100 * q / M⌋ : ℚ) ≤ 100 := (Int.floor_le _).trans (by rw [div_le_iff₀ h5]; linarith)
            exact_mod_cast this
          have h9 : ⌊100 * q / M⌋ ≤ ((κ * (100 / ρ) : Nat) : ℤ) := h8.trans (by exact_mod_cast hκ)
          have h10 : ((⌊100 * q / M⌋ : ℤ) : ℚ) ≤ (((κ * (100 / ρ) : Nat) : ℤ) : ℚ) := Int.cast_le.2 h9
          rwa [Int.cast_natCast, Nat.cast_mul] at h10
  · exact absurd hex hn

/-! ## The probability of a failure -/

/-- The decoder, set up with weights, finds a correction that undoes the faults on all logical operators. -/
def CorrectsWith {σ : Type} (b : Backend FW σ) (w : Weights FW) (c : LatCode) (rounds : Nat) (f : Faults c.n) (erased syn : Option (List (List Bool))) : Prop :=
  ∃ g states p, mkSynGraph FW.isInf rounds c.code.stabilisers (some w) = .ok g ∧ setupAll b g = .ok states ∧
    decode b g c.n states erased syn = .ok p ∧ f.Corrected rounds c.code.logicalOps p

theorem rare_weighted_logs {L : Lattice} (hw : L.Wf) {rounds d wt deg ρ κ : Nat} (hd : 2 ≤ d) (hwt : Sparse L.code.stabilisers wt deg) {σ : Type}
    {b : Backend FW σ} {lossy : Bool} (hb : LightWith lossy ρ κ b) {px pz pm : List ℚ} {a : ℚ} (hW : Alike L.dataqubits.length L.code.stabilisers.length ρ px pz pm a)
    {g : SynGraph FW} (hg : mkSynGraph FW.isInf rounds L.code.stabilisers (some (numberWeights px pz pm)) = .ok g) {states : List σ} (hst : setupAll b g = .ok states)
    {Ω : Type} [MeasurableSpace Ω] {μ : Measure Ω} {p q : ℝ≥0∞} (hq : q ≤ 1) (hpq : (2 * ((wt + 1 : Nat) : ℝ≥0∞)) ^ (κ + 1) * p ≤ q ^ (κ + 1))
    {f : Ω → Faults L.dataqubits.length} {erased syn : Ω → Option (List (List Bool))} (hT : Trials μ p L.code.stabilisers rounds f erased syn)
    (hE : lossy = false → ∀ ω t q, ¬ SynBit (erased ω) t q) (hA : (∀ ω t q, ¬ SynBit (erased ω) t q) ∨ L.Apart)
    (logs : List Pos) (hl : ∀ v ∈ logs, L.HasLines d v ∨ ((∀ q, ∀ a : Letter, a ≠ .Y → flipped L.code.stabilisers (singleOp false a q) ≠ [] →
      anti (singleOp false a q) (L.vop v) = false) ∧ ∀ ω, ∀ t < rounds, anti ((f ω).data t) (L.vop v) = false)) :
    μ {ω | ¬ ∃ p, decode b g L.dataqubits.length states (erased ω) (syn ω) = .ok p ∧ (f ω).Corrected rounds (logs.map L.vop) p} ≤
      logs.length * (2 * ((rounds * (L.dataqubits.length + L.code.stabilisers.length) : Nat) : ℝ≥0∞) * q ^ d * (1 - q)⁻¹) := by
  classical
  have hfin := hW.finite hg
  obtain ⟨states', hst', hsound, hdec⟩ := hb _ _ _ _ _ _ _ g hW hg
  rw [hst, Except.ok.injEq] at hst'
  subst hst'
  have hwt' : ∀ gen ∈ L.code.stabilisers, ∃ S : Finset (Fin L.dataqubits.length), S.card ≤ wt ∧ ∀ q, (gen.x q || gen.z q) = true → q ∈ S := by
    intro gen hgen
    refine ⟨((List.finRange L.dataqubits.length).filter fun q => gen.x q || gen.z q).toFinset, ?_, fun q hq => ?_⟩
    · rw [List.toFinset_card_of_nodup ((List.nodup_finRange _).filter _), ← List.countP_eq_length_filter]
      exact hwt.weight gen hgen
    · rw [List.mem_toFinset, List.mem_filter]
      exact ⟨List.mem_finRange _, hq⟩
  have hen : ∀ ω (i : Nat) (e : SEdge FW) (t o q : Nat) (b : Bool), g.edges[i]? = some e → e.kind = .qubit t o q b → SynBit (erased ω) t q → e.vertices ≠ [] →
      e.enabled = true := by
    intro ω i e t o q b hie hk hs hv
    rcases hA with hA | hA
    · exact absurd hs (hA ω t q)
    · exact enabled_of_simple_finite hg hfin (hw.simple hA) i e t o q b hie hk hv
  -- what goes wrong on one of the logical operators
  let bad : Fin logs.length → Set Ω := fun j => {ω | ∃ p, (∃ sel, EdgesExplain g rounds L.code.stabilisers.length sel (syn ω) ∧ EdgesProduct g sel p ∧
      NearlyFewest g rounds L.dataqubits.length L.code.stabilisers.length κ (erased ω) (syn ω) sel) ∧
    decode b g L.dataqubits.length states (erased ω) (syn ω) = .ok p ∧
    anti p (L.vop logs[j]) ≠ xsum (List.range rounds) fun t => anti ((f ω).data t) (L.vop logs[j])}
  have hsub : {ω | ¬ ∃ p, decode b g L.dataqubits.length states (erased ω) (syn ω) = .ok p ∧ (f ω).Corrected rounds (logs.map L.vop) p} ⊆ ⋃ j, bad j := by
    intro ω hω
    obtain ⟨p, hp, hsel⟩ := hdec (erased ω) (syn ω) (hT.erased_shape ω) (hT.syn_shape ω) (fun h => hE h ω) (shows_explainable_finite (hT.shows ω) hg hfin (hT.syn_shape ω))
    by_contra hc
    refine hω ⟨p, hp, fun l hl' => corrected_iff.2 ?_⟩
    by_contra hne
    obtain ⟨v, hv, rfl⟩ := List.mem_map.1 hl'
    obtain ⟨j, hj, rfl⟩ := List.getElem_of_mem hv
    exact hc (Set.mem_iUnion.2 ⟨⟨j, hj⟩, p, hsel, hp, hne⟩)
  refine (measure_mono hsub).trans ((measure_iUnion_fintype_le _ _).trans ((Finset.sum_le_card_nsmul _ _
    (2 * ((rounds * (L.dataqubits.length + L.code.stabilisers.length) : Nat) : ℝ≥0∞) * q ^ d * (1 - q)⁻¹) fun j _ => ?_).trans ?_))
  · rcases hl logs[j] (List.getElem_mem j.2) with ⟨D, k, hk, hD⟩ | ⟨h1, h2⟩
    · refine (measure_mono fun ω hω => ?_).trans (line_rare_weighted hg hfin (D.system hw) hd hwt' hq hpq hT.noise hT.erased_shape hT.syn_shape hT.shows hen hk)
      obtain ⟨c, ⟨sel, h1, h2, h3⟩, _, h4⟩ := hω
      refine ⟨sel, c, h1, h2, h3, fun h5 => h4 ?_⟩
      have hD : ∀ c, anti (L.vop logs[j]) c = anti (D.lineOp k) c := hD
      rw [anti_symm, hD, anti_symm]
      refine h5.trans (xsum_congr fun t _ => ?_)
      rw [anti_symm, anti_symm (f ω |>.data t), hD]; rfl
    · refine le_of_eq_of_le ?_ (zero_le)
      rw [show bad j = ∅ from ?_, measure_empty]
      refine Set.eq_empty_iff_forall_notMem.2 fun ω hω => ?_
      obtain ⟨c, _, hp, h4⟩ := hω
      refine h4 ?_
      have h1 : ∀ q, ∀ a : Letter, a ≠ .Y → flipped L.code.stabilisers (singleOp false a q) ≠ [] → anti (singleOp false a q) (L.vop logs[j]) = false := h1
      rw [decode_touching hg hsound hp fun l hl h => h1 l.2 l.1 (by
        obtain ⟨o, ho⟩ := List.getElem?_of_mem hl
        rw [(errorOps_idx ho).2]
        split <;> decide) h]
      exact (xsum_zero fun t ht => h2 ω t (List.mem_range.1 ht)).symm
  · rw [Finset.card_univ, Fintype.card_fin, nsmul_eq_mul]

theorem rare_weighted {L : Lattice} (hw : L.Wf) {r rounds d wt deg ρ κ : Nat} (hd : 2 ≤ d) (hm : Made r (L.latCode r)) (hwt : Sparse L.code.stabilisers wt deg) {σ : Type}
    {b : Backend FW σ} {lossy : Bool} (hb : LightWith lossy ρ κ b) {px pz pm : List ℚ} {a : ℚ} (hW : Alike L.dataqubits.length L.code.stabilisers.length ρ px pz pm a)
    {Ω : Type} [MeasurableSpace Ω] {μ : Measure Ω} {p q : ℝ≥0∞} (hq : q ≤ 1) (hpq : (2 * ((wt + 1 : Nat) : ℝ≥0∞)) ^ (κ + 1) * p ≤ q ^ (κ + 1))
    {f : Ω → Faults L.dataqubits.length} {erased syn : Ω → Option (List (List Bool))} (hT : Trials μ p L.code.stabilisers rounds f erased syn)
    (hE : lossy = false → ∀ ω t q, ¬ SynBit (erased ω) t q) (hA : (∀ ω t q, ¬ SynBit (erased ω) t q) ∨ L.Apart)
    (hl : ∀ l ∈ L.logicals, L.HasLines d l.1 ∨ ((∀ q, ∀ a : Letter, a ≠ .Y → flipped L.code.stabilisers (singleOp false a q) ≠ [] →
      anti (singleOp false a q) (L.vop l.1) = false) ∧ ∀ ω, ∀ t < rounds, anti ((f ω).data t) (L.vop l.1) = false)) :
    μ {ω | ¬ CorrectsWith b (numberWeights px pz pm) (L.latCode r) rounds (f ω) (erased ω) (syn ω)} ≤
      L.logicals.length * (2 * ((rounds * (L.dataqubits.length + L.code.stabilisers.length) : Nat) : ℝ≥0∞) * q ^ d * (1 - q)⁻¹) := by
  obtain ⟨g, hg⟩ := hW.graph (C59_graph hm FW.isInf 1) rounds
  obtain ⟨states, hst, -⟩ := hb _ _ _ _ _ _ _ g hW hg
  have h := rare_weighted_logs hw hd hwt hb hW hg hst hq hpq hT hE hA (L.logicals.map Prod.fst) fun v hv => by
    obtain ⟨l, hl', rfl⟩ := List.mem_map.1 hv
    exact hl l hl'
  rw [List.length_map] at h
  refine (measure_mono fun ω hω => ?_).trans h
  rintro ⟨p, hp, hc⟩
  refine hω ⟨g, states, p, hg, hst, hp, ?_⟩
  have hlog : (L.latCode r).code.logicalOps = (L.logicals.map Prod.fst).map L.vop := by rw [List.map_map]; rfl
  rw [hlog]
  exact hc

/-- With weights that differ by at most a factor `ρ` and random faults of a rate `p` with `Kᵏ p ≤ qᵏ`, the decoder fails on the code with probability at most
`32 rounds d² qᵈ / (1 - q)`. -/
def FailsRarelyWith {σ : Type} (b : Backend FW σ) (c : LatCode) (ρ d K k : Nat) (erasures phases : Bool) : Prop :=
  ∀ (rounds : Nat) (px pz pm : List ℚ) (a : ℚ) (Ω : Type) [MeasurableSpace Ω] (μ : Measure Ω) (p q : ℝ≥0∞) (f : Ω → Faults c.n) (erased syn : Ω → Option (List (List Bool))),
    Alike c.n c.code.stabilisers.length ρ px pz pm a → Trials μ p c.code.stabilisers rounds f erased syn → (erasures = false → ∀ ω t q, ¬ SynBit (erased ω) t q) →
    (phases = false → ∀ ω t q, ((f ω).data t).z q = false) → q ≤ 1 → K ^ k * p ≤ q ^ k →
    μ {ω | ¬ CorrectsWith b (numberWeights px pz pm) c rounds (f ω) (erased ω) (syn ω)} ≤ 32 * rounds * d ^ 2 * q ^ d * (1 - q)⁻¹

/-- The decoders PyMatching and Fusion Blossom fail rarely. The latter rounds the weights. -/
def BothFailRarelyWith (c : LatCode) (d K : Nat) (erasures phases : Bool) : Prop :=
  (∀ solve, IsPyMatching solve → ∀ ρ, FailsRarelyWith (pmBackend solve) c ρ d K (ρ + 1) false phases) ∧
    ∀ solve, IsFusionBlossom solve → ∀ ρ κ, 100 ≤ κ * (100 / ρ) → FailsRarelyWith (fbBackend solve) c ρ d K (κ + 1) erasures phases

theorem both_weighted {L : Lattice} (hw : L.Wf) {r d wt deg K : Nat} (hd : 2 ≤ d) (hm : Made r (L.latCode r)) (hwt : Sparse L.code.stabilisers wt deg)
    (hK : K = 2 * (wt + 1)) (hs : L.logicals.length * (L.dataqubits.length + L.code.stabilisers.length) ≤ 16 * d ^ 2) {erasures phases : Bool}
    (hA : erasures = false ∨ L.Apart)
    (hl : ∀ l ∈ L.logicals, L.HasLines d l.1 ∨ (phases = false ∧ (∀ q, ∀ a : Letter, a ≠ .Y → flipped L.code.stabilisers (singleOp false a q) ≠ [] →
      anti (singleOp false a q) (L.vop l.1) = false) ∧ ∀ p : Op L.dataqubits.length, (∀ q, p.z q = false) → anti p (L.vop l.1) = false)) :
    BothFailRarelyWith (L.latCode r) d K erasures phases := by
  have key : ∀ {σ : Type} {b : Backend FW σ} {lossy : Bool} {ρ κ : Nat} (e : Bool), LightWith lossy ρ κ b → (lossy = false → e = false) → (e = false ∨ L.Apart) →
      FailsRarelyWith b (L.latCode r) ρ d K (κ + 1) e phases := by
    intro σ b lossy ρ κ e hb he hA rounds px pz pm a Ω _ μ p q f erased syn hW hT hE hz hq hpq
    refine (rare_weighted hw hd hm hwt hb hW hq (by rw [hK] at hpq; push_cast at hpq ⊢; exact hpq) hT (fun h => hE (he h)) (hA.imp_left hE) fun l hl' => ?_).trans (bound_le hs)
    rcases hl l hl' with h | ⟨h1, h2, h3⟩
    · exact .inl h
    · exact .inr ⟨h2, fun ω t _ => h3 _ (hz h1 ω t)⟩
  exact ⟨fun solve hS ρ => key false (pm_lightWith hS ρ) (fun _ => rfl) (.inl rfl), fun solve hS ρ κ hκ => key erasures (fb_lightWith hS hκ) (by simp) hA⟩

/-- **C110** On the planar code of size at least 3, with weights that differ by at most a factor `ρ`, PyMatching fails with probability at most
`32 rounds size² q^size / (1 - q)` for random faults of rate at most `(q / 10) ^ (ρ + 1)`. So does Fusion Blossom, also with erased qubits, if `ρ` divides 100. -/
theorem C110_planar (r size : Nat) (h3 : 3 ≤ size) : ∃ c, makePlanar r size = .ok c ∧ BothFailRarelyWith c size 10 true true := by
  have hc : makePlanar r size = .ok ((Planar.lat size crossOrder).latCode r) := by
    rw [makePlanar, Planar.make size (by omega) crossOrder (by decide)]; exact mkLatCode_ok (Planar.wf _ _ (by omega)) (Planar.full _ _ (by omega)) r
  have hw := Planar.wf size crossOrder (by omega)
  refine ⟨_, hc, both_weighted hw (by omega) (.planar (by omega) hc) ((sparse_iff hw).2 (Planar.sparse (by omega))) (by norm_num) ?_ (.inr (Planar.apart h3)) fun l hl => .inl ?_⟩
  · exact Planar.places (by omega)
  · have hl : l ∈ Planar.logs size := hl
    simp only [Planar.logs, List.mem_cons, List.not_mem_nil, or_false] at hl
    rcases hl with rfl | rfl
    · exact ⟨Planar.linesX (by omega), size - 1, by omega, Planar.line_x (by omega)⟩
    · exact ⟨Planar.linesZ (by omega), size - 1, by omega, Planar.line_z (by omega)⟩

/-- **C110** The same for the toric code. -/
theorem C110_toric (r size : Nat) (h3 : 3 ≤ size) : ∃ c, makeToric r size = .ok c ∧ BothFailRarelyWith c size 10 true true := by
  have h2 : 2 ≤ size := by omega
  have hc : makeToric r size = .ok ((Toric.lat size crossOrder).latCode r) := by
    rw [makeToric, Toric.make h2 crossOrder (by decide)]; exact mkLatCode_ok (Toric.wf _ h2) (Toric.full _ h2) r
  have hw := Toric.wf crossOrder h2
  refine ⟨_, hc, both_weighted hw h2 (.toric h2 hc) ((sparse_iff hw).2 (Toric.sparse h2)) (by norm_num) ?_ (.inr (Toric.apart h3)) fun l hl => .inl ?_⟩
  · exact Toric.places h2
  · have hl : l ∈ (Toric.fam size).logs := hl
    simp only [Toric.fam, List.mem_cons, List.not_mem_nil, or_false] at hl
    rcases hl with rfl | rfl | rfl | rfl
    · exact ⟨Toric.linesX0 h2, 0, by omega, Toric.line_X0 h2⟩
    · exact ⟨Toric.linesZ0 h2, size - 1, by omega, Toric.line_Z0 h2⟩
    · exact ⟨Toric.linesX1 h2, 0, by omega, Toric.line_X1 h2⟩
    · exact ⟨Toric.linesZ1 h2, size - 1, by omega, Toric.line_Z1 h2⟩

/-- **C110** The same for the rotated code and the XZZX code, without erased qubits. -/
theorem C110_rotated (r size : Nat) (xzzx : Bool) (h2 : 2 ≤ size) : ∃ c, makeRotated r size xzzx = .ok c ∧ BothFailRarelyWith c size 10 false true := by
  have hc : makeRotated r size xzzx = .ok ((Rotated.lat size xzzx diagOrder).latCode r) := by
    rw [makeRotated, Rotated.make h2 diagOrder (by decide)]; exact mkLatCode_ok (Rotated.wf _ h2) (Rotated.full _ h2) r
  have hw := Rotated.wf (xzzx := xzzx) diagOrder h2
  refine ⟨_, hc, both_weighted hw h2 (.rotated h2 hc) ((sparse_iff hw).2 (Rotated.sparse h2)) (by norm_num) ?_ (.inl rfl) fun l hl => .inl ?_⟩
  · exact Rotated.places h2
  · have hl : l ∈ (Rotated.fam size xzzx).logs := hl
    simp only [Rotated.fam, List.mem_cons, List.not_mem_nil, or_false] at hl
    rcases hl with rfl | rfl
    · exact ⟨Rotated.linesX h2, 0, by omega, Rotated.line_x h2⟩
    · exact ⟨Rotated.linesZ h2, 0, by omega, Rotated.line_z h2⟩

/-- **C110** The same for the repetition code and errors without phase flips, with rates up to `(q / 6) ^ (ρ + 1)`. -/
theorem C110_repetition (r size : Nat) (hodd : size % 2 = 1) (h3 : 3 ≤ size) : ∃ c, makeRepetition r size = .ok c ∧ BothFailRarelyWith c size 6 true false := by
  have hc : makeRepetition r size = .ok ((Rep.lat size).latCode r) := by
    rw [makeRepetition, Rep.make size hodd h3]; exact mkLatCode_ok (Rep.wf size h3) (Rep.full size h3) r
  have hw := Rep.wf size h3
  refine ⟨_, hc, both_weighted hw (by omega) (.repetition (by omega) hc) ((sparse_iff hw).2 (Rep.sparse h3)) (by norm_num) ?_ (.inr (Rep.apart h3)) fun l hl => ?_⟩
  · exact Rep.places hodd h3
  · have hl : l ∈ Rep.logs size := hl
    simp only [Rep.logs, List.mem_cons, List.not_mem_nil, or_false] at hl
    rcases hl with rfl | rfl
    · refine .inr ⟨rfl, fun q a ha hne => ?_, fun p hp => Rep.anti_x h3 hp⟩
      refine Rep.anti_x h3 fun q' => ?_
      cases a with
      | X => simp [singleOp]
      | Y => exact absurd rfl ha
      | Z =>
        obtain ⟨s, hs⟩ := List.exists_mem_of_ne_nil _ hne
        obtain ⟨st, hst, hfl⟩ := (Rep.wf size h3).mem_flipped.1 hs
        obtain ⟨i, hi, rfl⟩ := Rep.stab_get (List.mem_of_getElem? hst)
        exact absurd rfl ((Rep.flips_iff (List.getElem_mem q.2) hi).1 hfl).1
    · exact .inl ⟨Rep.linesZ h3, size - 1, by omega, Rep.line_z h3⟩

/-! ## The threshold -/

/-- Below the rate `1 / Kᵏ`, the probability of a failure becomes as small as one likes on large codes of the family, for numbers of rounds up to any power of the
size and all weights that differ by at most a factor `ρ`. -/
def BelowThresholdWith {σ : Type} (b : Backend FW σ) (make : Nat → Except Err LatCode) (ok : Nat → Prop) (ρ K k : Nat) (erasures phases : Bool) : Prop :=
  ∀ (p : ℝ≥0∞), K ^ k * p < 1 → ∀ (j : Nat) (ε : ℝ≥0∞), 0 < ε → ∃ N, ∀ size, N ≤ size → ok size → ∃ c, make size = .ok c ∧
    ∀ (rounds : Nat) (px pz pm : List ℚ) (a : ℚ) (Ω : Type) [MeasurableSpace Ω] (μ : Measure Ω) (f : Ω → Faults c.n) (erased syn : Ω → Option (List (List Bool))),
      rounds ≤ size ^ j → Alike c.n c.code.stabilisers.length ρ px pz pm a → Trials μ p c.code.stabilisers rounds f erased syn →
      (erasures = false → ∀ ω t q, ¬ SynBit (erased ω) t q) → (phases = false → ∀ ω t q, ((f ω).data t).z q = false) →
      μ {ω | ¬ CorrectsWith b (numberWeights px pz pm) c rounds (f ω) (erased ω) (syn ω)} ≤ ε

theorem threshold_weighted {σ : Type} {b : Backend FW σ} {make : Nat → Except Err LatCode} {ok : Nat → Prop} {ρ K k : Nat} {erasures phases : Bool} (hk : 0 < k)
    (h : ∀ size, ok size → ∃ c, make size = .ok c ∧ FailsRarelyWith b c ρ size K k erasures phases) : BelowThresholdWith b make ok ρ K k erasures phases := by
  intro p hp j ε hε
  have hpt : (K : ℝ≥0∞) ^ k * p ≠ ⊤ := ne_top_of_lt hp
  obtain ⟨x, hx⟩ := WithTop.ne_top_iff_exists.1 hpt
  have hx : (x : ℝ≥0∞) = K ^ k * p := hx
  have hx1 : x < 1 := by rw [← hx] at hp; exact_mod_cast hp
  have hk' : (k : ℝ) ≠ 0 := by exact_mod_cast hk.ne'
  obtain ⟨y, hy1, hy⟩ : ∃ y : ℝ≥0, y < 1 ∧ y ^ k = x :=
    ⟨x ^ ((k : ℝ)⁻¹), NNReal.rpow_lt_one hx1 (by positivity), NNReal.rpow_inv_natCast_pow x hk.ne'⟩
  obtain ⟨N, hN⟩ := eventually_small (q := y) hy1 j hε
  refine ⟨N, fun size hs hok => ?_⟩
  obtain ⟨c, hc, hr⟩ := h size hok
  refine ⟨c, hc, fun rounds px pz pm a Ω _ μ f erased syn hrounds hW hT hE hz => ?_⟩
  refine (hr rounds px pz pm a Ω μ p y f erased syn hW hT hE hz ?_ ?_).trans (le_trans ?_ (hN size hs))
  · exact_mod_cast hy1.le
  · rw [← hx, ← ENNReal.coe_pow, hy]
  · gcongr

/-- **C110** PyMatching has a threshold with weights that differ by at most a factor `ρ`, on all families of codes: at least `10 ^ -(ρ + 1)`, and `6 ^ -(ρ + 1)` for the
repetition code. -/
theorem C110_pymatching (r ρ : Nat) {solve : PmGraph → List Bool → Except Err (List Bool)} (hS : IsPyMatching solve) :
    BelowThresholdWith (pmBackend solve) (makePlanar r) (3 ≤ ·) ρ 10 (ρ + 1) false true ∧
      BelowThresholdWith (pmBackend solve) (makeToric r) (3 ≤ ·) ρ 10 (ρ + 1) false true ∧
      (∀ xzzx, BelowThresholdWith (pmBackend solve) (fun s => makeRotated r s xzzx) (2 ≤ ·) ρ 10 (ρ + 1) false true) ∧
      BelowThresholdWith (pmBackend solve) (makeRepetition r) (fun s => s % 2 = 1 ∧ 3 ≤ s) ρ 6 (ρ + 1) false false := by
  refine ⟨threshold_weighted (by omega) fun s h => ?_, threshold_weighted (by omega) fun s h => ?_, fun xzzx => threshold_weighted (by omega) fun s h => ?_,
    threshold_weighted (by omega) fun s h => ?_⟩
  · obtain ⟨c, hc, hb⟩ := C110_planar r s h; exact ⟨c, hc, hb.1 solve hS ρ⟩
  · obtain ⟨c, hc, hb⟩ := C110_toric r s h; exact ⟨c, hc, hb.1 solve hS ρ⟩
  · obtain ⟨c, hc, hb⟩ := C110_rotated r s xzzx h; exact ⟨c, hc, hb.1 solve hS ρ⟩
  · obtain ⟨c, hc, hb⟩ := C110_repetition r s h.1 h.2; exact ⟨c, hc, hb.1 solve hS ρ⟩

/-- **C110** So has Fusion Blossom, which rounds the weights to hundredths of the largest: with `κ = ρ` if `ρ` divides 100. -/
theorem C110_fusionblossom (r : Nat) {ρ κ : Nat} (hκ : 100 ≤ κ * (100 / ρ)) {solve : FbGraph → List Nat → List Nat → Except Err (List Nat)} (hS : IsFusionBlossom solve) :
    BelowThresholdWith (fbBackend solve) (makePlanar r) (3 ≤ ·) ρ 10 (κ + 1) true true ∧
      BelowThresholdWith (fbBackend solve) (makeToric r) (3 ≤ ·) ρ 10 (κ + 1) true true ∧
      (∀ xzzx, BelowThresholdWith (fbBackend solve) (fun s => makeRotated r s xzzx) (2 ≤ ·) ρ 10 (κ + 1) false true) ∧
      BelowThresholdWith (fbBackend solve) (makeRepetition r) (fun s => s % 2 = 1 ∧ 3 ≤ s) ρ 6 (κ + 1) true false := by
  refine ⟨threshold_weighted (by omega) fun s h => ?_, threshold_weighted (by omega) fun s h => ?_, fun xzzx => threshold_weighted (by omega) fun s h => ?_,
    threshold_weighted (by omega) fun s h => ?_⟩
  · obtain ⟨c, hc, hb⟩ := C110_planar r s h; exact ⟨c, hc, hb.2 solve hS ρ κ hκ⟩
  · obtain ⟨c, hc, hb⟩ := C110_toric r s h; exact ⟨c, hc, hb.2 solve hS ρ κ hκ⟩
  · obtain ⟨c, hc, hb⟩ := C110_rotated r s xzzx h; exact ⟨c, hc, hb.2 solve hS ρ κ hκ⟩
  · obtain ⟨c, hc, hb⟩ := C110_repetition r s h.1 h.2; exact ⟨c, hc, hb.2 solve hS ρ κ hκ⟩

/-- There are such weights: 1 for the errors X, 2 for the errors Z and 3/2 for wrong outcomes differ by at most a factor 2. With them, and independent faults of a rate of
one in a million in five rounds of the planar code of size 9, both decoders fail with probability at most 15 in a million. -/
example : ∃ c solve₁ solve₂, makePlanar 5 9 = .ok c ∧ IsPyMatching solve₁ ∧ IsFusionBlossom solve₂ ∧
    ∃ (px pz pm : List ℚ), Alike c.n c.code.stabilisers.length 2 px pz pm 1 ∧
    ∃ (μ : Measure (Place c.n → Bool)) (syn : (Place c.n → Bool) → Option (List (List Bool))), IsProbabilityMeasure μ ∧
      Trials μ (1 / 1000000 : ℝ≥0) c.code.stabilisers 5 (markedFaults 5) (fun _ => none) syn ∧
      μ {ω | ¬ CorrectsWith (pmBackend solve₁) (numberWeights px pz pm) c 5 (markedFaults 5 ω) none (syn ω)} ≤ (15 / 1000000 : ℝ≥0) ∧
      μ {ω | ¬ CorrectsWith (fbBackend solve₂) (numberWeights px pz pm) c 5 (markedFaults 5 ω) none (syn ω)} ≤ (15 / 1000000 : ℝ≥0) := by
  obtain ⟨c, hc, h1, h2⟩ := C110_planar 5 9 (by decide)
  obtain ⟨solve₁, hS₁⟩ := exists_pyMatching
  obtain ⟨solve₂, hS₂⟩ := exists_fusionBlossom
  have hW : Alike c.n c.code.stabilisers.length 2 (List.replicate c.n 1) (List.replicate c.n 2) (List.replicate c.code.stabilisers.length (3 / 2)) 1 := by
    refine ⟨by simp, by simp, by simp, one_pos, fun q hq => ?_, fun q hq => ?_⟩ <;>
    · simp only [List.mem_append, List.mem_replicate] at hq
      rcases hq with (⟨_, rfl⟩ | ⟨_, rfl⟩) | ⟨_, rfl⟩ <;> norm_num
  obtain ⟨μ, syn, hμ, _, hT⟩ := exists_trials c.code.stabilisers 5 (1 / 1000000) (by rw [← NNReal.coe_le_coe]; push_cast; norm_num)
  have hq : (((1 / 10 : ℝ≥0)) : ℝ≥0∞) ≤ 1 := by exact_mod_cast (by rw [← NNReal.coe_le_coe]; push_cast; norm_num : (1 / 10 : ℝ≥0) ≤ 1)
  have hpq : ((10 : Nat) : ℝ≥0∞) ^ (2 + 1) * ((1 / 1000000 : ℝ≥0) : ℝ≥0∞) ≤ ((1 / 10 : ℝ≥0) : ℝ≥0∞) ^ (2 + 1) := by
    exact_mod_cast (by rw [← NNReal.coe_le_coe]; push_cast; norm_num : (10 : ℝ≥0) ^ 3 * (1 / 1000000) ≤ (1 / 10) ^ 3)
  have hno : ∀ (_ : Place c.n → Bool) (t q : Nat), ¬ SynBit none t q := fun _ _ _ ⟨_, _, h, _⟩ => by cases h
  have hε : 32 * ((5 : Nat) : ℝ≥0∞) * ((9 : Nat) : ℝ≥0∞) ^ 2 * ((1 / 10 : ℝ≥0) : ℝ≥0∞) ^ 9 * (1 - ((1 / 10 : ℝ≥0) : ℝ≥0∞))⁻¹ ≤ (15 / 1000000 : ℝ≥0) := by
    have h9 : (1 : ℝ≥0∞) - ((1 / 10 : ℝ≥0) : ℝ≥0∞) = ((9 / 10 : ℝ≥0) : ℝ≥0∞) := by
      have h : (1 : ℝ≥0) - 1 / 10 = 9 / 10 := tsub_eq_of_eq_add (by rw [← NNReal.coe_inj]; push_cast; norm_num)
      rw [← ENNReal.coe_one, ← ENNReal.coe_sub, h]
    rw [h9, ← ENNReal.coe_inv (by rw [Ne, ← NNReal.coe_inj]; push_cast; norm_num)]
    exact_mod_cast (by rw [← NNReal.coe_le_coe]; push_cast; norm_num : 32 * 5 * 9 ^ 2 * (1 / 10 : ℝ≥0) ^ 9 * (9 / 10 : ℝ≥0)⁻¹ ≤ (15 / 1000000 : ℝ≥0))
  exact ⟨c, solve₁, solve₂, hc, hS₁, hS₂, _, _, _, hW, μ, syn, hμ, hT, (h1 solve₁ hS₁ 2 5 _ _ _ _ _ μ _ _ _ _ _ hW hT (fun _ => hno) (by simp) hq hpq).trans hε,
    (h2 solve₂ hS₂ 2 2 (by decide) 5 _ _ _ _ _ μ _ _ _ _ _ hW hT (fun _ => hno) (by simp) hq hpq).trans hε⟩

end Plaquette
