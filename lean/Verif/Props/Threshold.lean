import Verif.Lemmas.Threshold
import Verif.Lemmas.MatchingSolver
import Verif.Props.GateErrors
import Verif.Props.Codes
import Mathlib.Analysis.SpecificLimits.Normed
import Mathlib.Probability.ProductMeasure

/-!
# Random faults below a threshold are corrected by PyMatching and Fusion Blossom (C90)
-/

open MeasureTheory
open scoped ENNReal NNReal

namespace Plaquette

/-! ## Decoders that find explanations with the fewest edges -/

open Classical in
/-- Set up without weights, the decoder answers every syndrome that can be explained with an explanation that has the fewest edges that are not erased. -/
def Fewest {σ : Type} (lossy : Bool) (b : Backend FW σ) : Prop :=
  ∀ (n r : Nat) (stabs : List (Op n)) (g : SynGraph FW), mkSynGraph FW.isInf r stabs none = .ok g →
    ∃ states, setupAll b g = .ok states ∧ Sound b g states ∧
      ∀ erased syn, ShapeOk r n erased → ShapeOk r stabs.length syn → (lossy = false → ∀ t q, ¬ SynBit erased t q) →
        Explainable g r stabs.length syn → ∃ p, decode b g n states erased syn = .ok p ∧
          ∃ sel, EdgesExplain g r stabs.length sel syn ∧ EdgesProduct g sel p ∧ ∀ er, arrayOr r n erased = .ok er →
            ∀ sel', EdgesExplain g r stabs.length sel' syn →
              ∑ i ∈ sel, (if edgeErased g er i = true then (0 : ℚ) else 1) ≤ ∑ i ∈ sel', (if edgeErased g er i = true then (0 : ℚ) else 1)

theorem pm_fewest {solve : PmGraph → List Bool → Except Err (List Bool)} (hS : IsPyMatching solve) : Fewest false (pmBackend solve) := by
  intro n r stabs g hg
  obtain ⟨states, hst, hsound, _, hdec⟩ := (pm_few hS).2 n r stabs g hg
  refine ⟨states, hst, hsound, fun erased syn her hsyn hno hex => ?_⟩
  obtain ⟨p, hp⟩ := hdec erased syn her hsyn hno hex
  obtain ⟨er, he, hbe⟩ := arrayOr_ok her
  obtain ⟨sel, h1, h2, h3⟩ := light_total hg (pm_light' hS hg hst) (pm_states hg hst).1 hp he (fun i => if edgeErased g er i = true then (0 : ℚ) else 1) (by
    intro c hc j i hj
    rw [if_neg (fun h => by
      obtain ⟨_, t, _, q, _, _, _, hs⟩ := (edgeErased_iff hbe i).1 h
      exact hno rfl t q hs)]
    unfold pmWt
    rw [List.getD_eq_getElem?_getD]
    cases hi : c.weights[j]? with
    | none => rfl
    | some y => rw [comp_none hg hc y (List.mem_of_getElem? hi)]; rfl)
  refine ⟨p, hp, sel, h1, h2, fun er' he' => ?_⟩
  rw [he] at he'; cases he'
  exact h3

theorem fb_fewest {solve : FbGraph → List Nat → List Nat → Except Err (List Nat)} (hS : IsFusionBlossom solve) : Fewest true (fbBackend solve) := by
  intro n r stabs g hg
  obtain ⟨states, hst, hsound, _, hdec⟩ := (fb_few hS).2 n r stabs g hg
  refine ⟨states, hst, hsound, fun erased syn her hsyn hno hex => ?_⟩
  obtain ⟨p, hp⟩ := hdec erased syn her hsyn hno hex
  obtain ⟨er, he, hbe⟩ := arrayOr_ok her
  obtain ⟨sel, h1, h2, h3⟩ := light_total hg (fb_light hS hg hst) (fb_states hg hst).1 hp he (fun i => if edgeErased g er i = true then (0 : ℚ) else 1) (by
    intro c hc j i hj
    have hjl : j < c.edgeIdx.length := (List.getElem?_eq_some_iff.1 hj).1
    have hn : fbW c = List.replicate c.edges.length 1 := by
      unfold fbW; rw [fbWeights_none (comp_none hg hc)]
    unfold fbWt
    rw [List.getElem?_map, hj, hn]
    have : j < c.edges.length := by rw [(compOk hg hc).len]; exact hjl
    simp [List.getD_eq_getElem?_getD, this])
  refine ⟨p, hp, sel, h1, h2, fun er' he' => ?_⟩
  rw [he] at he'; cases he'
  exact h3

/-! ## The probability of a failure -/

/-- Random faults of rate `p` in some rounds, and what is seen of them. -/
structure Trials {Ω : Type} [MeasurableSpace Ω] (μ : Measure Ω) (p : ℝ≥0∞) {n : Nat} (stabs : List (Op n)) (rounds : Nat) (f : Ω → Faults n)
    (erased syn : Ω → Option (List (List Bool))) : Prop where
  erased_shape : ∀ ω, ShapeOk rounds n (erased ω)
  syn_shape : ∀ ω, ShapeOk rounds stabs.length (syn ω)
  shows : ∀ ω, (f ω).Shows rounds stabs (syn ω)
  noise : LocalNoise μ p rounds stabs.length f erased

/-- The decoder finds a correction that undoes the faults on the given logical operators. -/
def CorrectsOn {σ : Type} (b : Backend FW σ) (L : Lattice) (logs : List Pos) (rounds : Nat) (f : Faults L.dataqubits.length) (erased syn : Option (List (List Bool))) : Prop :=
  ∃ g states p, mkSynGraph FW.isInf rounds L.code.stabilisers none = .ok g ∧ setupAll b g = .ok states ∧
    decode b g L.dataqubits.length states erased syn = .ok p ∧ f.Corrected rounds (logs.map L.vop) p

theorem rare_logs {L : Lattice} (hw : L.Wf) {r rounds d wt : Nat} (hd : 2 ≤ d) (hm : Made r (L.latCode r)) (hwt : Sparse L.code.stabilisers wt deg) {σ : Type} {b : Backend FW σ}
    {lossy : Bool} (hb : Fewest lossy b) {Ω : Type} [MeasurableSpace Ω] {μ : Measure Ω} {p q : ℝ≥0∞} (hq : q ≤ 1) (hpq : 4 * ((wt + 1 : Nat) : ℝ≥0∞) ^ 2 * p ≤ q ^ 2)
    {f : Ω → Faults L.dataqubits.length} {erased syn : Ω → Option (List (List Bool))} (hT : Trials μ p L.code.stabilisers rounds f erased syn)
    (hE : lossy = false → ∀ ω t q, ¬ SynBit (erased ω) t q) (hA : (∀ ω t q, ¬ SynBit (erased ω) t q) ∨ L.Apart)
    (logs : List Pos) (hl : ∀ v ∈ logs, L.HasLines d v ∨ ((∀ q, ∀ a : Letter, a ≠ .Y → flipped L.code.stabilisers (singleOp false a q) ≠ [] →
      anti (singleOp false a q) (L.vop v) = false) ∧ ∀ ω, ∀ t < rounds, anti ((f ω).data t) (L.vop v) = false)) :
    μ {ω | ¬ CorrectsOn b L logs rounds (f ω) (erased ω) (syn ω)} ≤
      logs.length * (2 * ((rounds * (L.dataqubits.length + L.code.stabilisers.length) : Nat) : ℝ≥0∞) * q ^ d * (1 - q)⁻¹) := by
  classical
  obtain ⟨g, hg⟩ := C59_graph hm FW.isInf rounds
  obtain ⟨states, hst, hsound, hdec⟩ := hb _ _ _ g hg
  have hwt' : ∀ gen ∈ L.code.stabilisers, ∃ S : Finset (Fin L.dataqubits.length), S.card ≤ wt ∧ ∀ q, (gen.x q || gen.z q) = true → q ∈ S := by
    intro gen hgen
    refine ⟨((List.finRange L.dataqubits.length).filter fun q => gen.x q || gen.z q).toFinset, ?_, fun q hq => ?_⟩
    · rw [List.toFinset_card_of_nodup ((List.nodup_finRange _).filter _), ← List.countP_eq_length_filter]
      exact hwt.weight gen hgen
    · rw [List.mem_toFinset, List.mem_filter]
      exact ⟨List.mem_finRange _, hq⟩
  have hen : ∀ ω (i : Nat) (e : SEdge FW) (t o q : Nat) (b : Bool), g.edges[i]? = some e → e.kind = .qubit t o q b → SynBit (erased ω) t q → e.vertices ≠ [] →
      e.enabled = true := by
    intro ω i e t o q b hie hk hs hv
    rcases hA with hA | hA
    · exact absurd hs (hA ω t q)
    · exact enabled_of_simple hg (hw.simple hA) i e t o q b hie hk hv
  -- what goes wrong on one of the logical operators
  let bad : Fin logs.length → Set Ω := fun j => {ω | ∃ p, (∃ sel, EdgesExplain g rounds L.code.stabilisers.length sel (syn ω) ∧ EdgesProduct g sel p ∧
    ∀ er, arrayOr rounds L.dataqubits.length (erased ω) = .ok er → ∀ sel', EdgesExplain g rounds L.code.stabilisers.length sel' (syn ω) →
      ∑ i ∈ sel, (if edgeErased g er i = true then (0 : ℚ) else 1) ≤ ∑ i ∈ sel', (if edgeErased g er i = true then (0 : ℚ) else 1)) ∧
    decode b g L.dataqubits.length states (erased ω) (syn ω) = .ok p ∧
    anti p (L.vop logs[j]) ≠ xsum (List.range rounds) fun t => anti ((f ω).data t) (L.vop logs[j])}
  have hsub : {ω | ¬ CorrectsOn b L logs rounds (f ω) (erased ω) (syn ω)} ⊆ ⋃ j, bad j := by
    intro ω hω
    obtain ⟨p, hp, hsel⟩ := hdec (erased ω) (syn ω) (hT.erased_shape ω) (hT.syn_shape ω) (fun h => hE h ω) (shows_explainable (hT.shows ω) hg (hT.syn_shape ω))
    by_contra hc
    refine hω ⟨g, states, p, hg, hst, hp, fun l hl' => corrected_iff.2 ?_⟩
    by_contra hne
    obtain ⟨v, hv, rfl⟩ := List.mem_map.1 hl'
    obtain ⟨j, hj, rfl⟩ := List.getElem_of_mem hv
    exact hc (Set.mem_iUnion.2 ⟨⟨j, hj⟩, p, hsel, hp, hne⟩)
  refine (measure_mono hsub).trans ((measure_iUnion_fintype_le _ _).trans ((Finset.sum_le_card_nsmul _ _
    (2 * ((rounds * (L.dataqubits.length + L.code.stabilisers.length) : Nat) : ℝ≥0∞) * q ^ d * (1 - q)⁻¹) fun j _ => ?_).trans ?_))
  · rcases hl logs[j] (List.getElem_mem j.2) with ⟨D, k, hk, hD⟩ | ⟨h1, h2⟩
    · refine (measure_mono fun ω hω => ?_).trans (line_rare hg (D.system hw) hd hwt' hq hpq hT.noise hT.erased_shape hT.syn_shape hT.shows hen hk)
      obtain ⟨c, ⟨sel, h1, h2, h3⟩, _, h4⟩ := hω
      refine ⟨sel, c, h1, h2, h3, fun h5 => h4 ?_⟩
      have hD : ∀ c, anti (L.vop logs[j]) c = anti (D.lineOp k) c := hD
      rw [anti_symm, hD, anti_symm]
      refine h5.trans (xsum_congr fun t _ => ?_)
      rw [anti_symm, anti_symm (f ω |>.data t), hD]; rfl
    · refine le_of_eq_of_le ?_ (zero_le)
      rw [show bad j = ∅ from ?_, measure_empty]
      refine Set.eq_empty_iff_forall_notMem.2 fun ω hω => ?_
      obtain ⟨c, _, hp, h4⟩ := hω
      refine h4 ?_
      have h1 : ∀ q, ∀ a : Letter, a ≠ .Y → flipped L.code.stabilisers (singleOp false a q) ≠ [] → anti (singleOp false a q) (L.vop logs[j]) = false := h1
      rw [decode_touching hg hsound hp fun l hl h => h1 l.2 l.1 (by
        obtain ⟨o, ho⟩ := List.getElem?_of_mem hl
        rw [(errorOps_idx ho).2]
        split <;> decide) h]
      exact (xsum_zero fun t ht => h2 ω t (List.mem_range.1 ht)).symm
  · rw [Finset.card_univ, Fintype.card_fin, nsmul_eq_mul]

theorem rare_on {L : Lattice} (hw : L.Wf) {r rounds d wt : Nat} (hd : 2 ≤ d) (hm : Made r (L.latCode r)) (hwt : Sparse L.code.stabilisers wt deg) {σ : Type} {b : Backend FW σ}
    {lossy : Bool} (hb : Fewest lossy b) {Ω : Type} [MeasurableSpace Ω] {μ : Measure Ω} {p q : ℝ≥0∞} (hq : q ≤ 1) (hpq : 4 * ((wt + 1 : Nat) : ℝ≥0∞) ^ 2 * p ≤ q ^ 2)
    {f : Ω → Faults L.dataqubits.length} {erased syn : Ω → Option (List (List Bool))} (hT : Trials μ p L.code.stabilisers rounds f erased syn)
    (hE : lossy = false → ∀ ω t q, ¬ SynBit (erased ω) t q) (hA : (∀ ω t q, ¬ SynBit (erased ω) t q) ∨ L.Apart)
    (hl : ∀ l ∈ L.logicals, L.HasLines d l.1 ∨ ((∀ q, ∀ a : Letter, a ≠ .Y → flipped L.code.stabilisers (singleOp false a q) ≠ [] →
      anti (singleOp false a q) (L.vop l.1) = false) ∧ ∀ ω, ∀ t < rounds, anti ((f ω).data t) (L.vop l.1) = false)) :
    μ {ω | ¬ Corrects b (L.latCode r) rounds (f ω) (erased ω) (syn ω)} ≤
      L.logicals.length * (2 * ((rounds * (L.dataqubits.length + L.code.stabilisers.length) : Nat) : ℝ≥0∞) * q ^ d * (1 - q)⁻¹) := by
  have := rare_logs hw hd hm hwt hb hq hpq hT hE hA (L.logicals.map Prod.fst) fun v hv => by
    obtain ⟨l, hl', rfl⟩ := List.mem_map.1 hv
    exact hl l hl'
  rw [List.length_map] at this
  refine (measure_mono fun ω hω => ?_).trans this
  rintro ⟨g, states, p, h1, h2, h3, h4⟩
  refine hω ⟨g, states, p, h1, h2, h3, ?_⟩
  rw [List.map_map] at h4
  exact h4

/-- With random faults of a rate `p` with `K p ≤ q²`, the decoder fails on the code with probability at most `32 rounds d² qᵈ / (1 - q)`. -/
def FailsRarely {σ : Type} (b : Backend FW σ) (c : LatCode) (d K : Nat) (erasures phases : Bool) : Prop :=
  ∀ (rounds : Nat) (Ω : Type) [MeasurableSpace Ω] (μ : Measure Ω) (p q : ℝ≥0∞) (f : Ω → Faults c.n) (erased syn : Ω → Option (List (List Bool))),
    Trials μ p c.code.stabilisers rounds f erased syn → (erasures = false → ∀ ω t q, ¬ SynBit (erased ω) t q) →
    (phases = false → ∀ ω t q, ((f ω).data t).z q = false) → q ≤ 1 → K * p ≤ q ^ 2 →
    μ {ω | ¬ Corrects b c rounds (f ω) (erased ω) (syn ω)} ≤ 32 * rounds * d ^ 2 * q ^ d * (1 - q)⁻¹

/-- The decoders PyMatching and Fusion Blossom fail rarely. -/
def BothFailRarely (c : LatCode) (d K : Nat) (erasures phases : Bool) : Prop :=
  (∀ solve, IsPyMatching solve → FailsRarely (pmBackend solve) c d K false phases) ∧
    ∀ solve, IsFusionBlossom solve → FailsRarely (fbBackend solve) c d K erasures phases

theorem bound_le {l r s d : Nat} {q y : ℝ≥0∞} (h : l * s ≤ 16 * d ^ 2) :
    (l : ℝ≥0∞) * (2 * ((r * s : Nat) : ℝ≥0∞) * q * y) ≤ 32 * r * d ^ 2 * q * y := by
  have h1 : (l : ℝ≥0∞) * (2 * ((r * s : Nat) : ℝ≥0∞) * q * y) = ((2 * r * (l * s) : Nat) : ℝ≥0∞) * q * y := by
    push_cast; ring
  have h2 : (32 : ℝ≥0∞) * r * d ^ 2 = ((2 * r * (16 * d ^ 2) : Nat) : ℝ≥0∞) := by
    push_cast; ring
  rw [h1, h2]
  gcongr

/-- Both decoders, on a lattice. -/
theorem both_on {L : Lattice} (hw : L.Wf) {r d wt deg K : Nat} (hd : 2 ≤ d) (hm : Made r (L.latCode r)) (hwt : Sparse L.code.stabilisers wt deg)
    (hK : K = 4 * (wt + 1) ^ 2) (hs : L.logicals.length * (L.dataqubits.length + L.code.stabilisers.length) ≤ 16 * d ^ 2) {erasures phases : Bool}
    (hA : erasures = false ∨ L.Apart)
    (hl : ∀ l ∈ L.logicals, L.HasLines d l.1 ∨ (phases = false ∧ (∀ q, ∀ a : Letter, a ≠ .Y → flipped L.code.stabilisers (singleOp false a q) ≠ [] →
      anti (singleOp false a q) (L.vop l.1) = false) ∧ ∀ p : Op L.dataqubits.length, (∀ q, p.z q = false) → anti p (L.vop l.1) = false)) :
    BothFailRarely (L.latCode r) d K erasures phases := by
  have key : ∀ {σ : Type} {b : Backend FW σ} {lossy : Bool} (e : Bool), Fewest lossy b → (lossy = false → e = false) → (e = false ∨ L.Apart) →
      FailsRarely b (L.latCode r) d K e phases := by
    intro σ b lossy e hb he hA rounds Ω _ μ p q f erased syn hT hE hz hq hpq
    refine (rare_on hw hd hm hwt hb hq (by rw [hK] at hpq; push_cast at hpq ⊢; exact hpq) hT (fun h => hE (he h)) (hA.imp_left hE) fun l hl' => ?_).trans (bound_le hs)
    rcases hl l hl' with h | ⟨h1, h2, h3⟩
    · exact .inl h
    · exact .inr ⟨h2, fun ω t _ => h3 _ (hz h1 ω t)⟩
  exact ⟨fun solve hS => key false (pm_fewest hS) (fun _ => rfl) (.inl rfl), fun solve hS => key erasures (fb_fewest hS) (by simp) hA⟩

theorem Planar.places {size : Nat} (h2 : 2 ≤ size) :
    (Planar.lat size crossOrder).logicals.length * ((Planar.lat size crossOrder).dataqubits.length + (Planar.lat size crossOrder).code.stabilisers.length) ≤ 16 * size ^ 2 := by
  have hc : makePlanar 1 size = .ok ((Planar.lat size crossOrder).latCode 1) := by
    rw [makePlanar, Planar.make size (by omega) crossOrder (by decide)]; exact mkLatCode_ok (Planar.wf _ _ (by omega)) (Planar.full _ _ (by omega)) 1
  obtain ⟨c', hc', hp⟩ := C30_planar 1 size (by omega)
  rw [hc] at hc'; cases hc'
  have h1 : (Planar.lat size crossOrder).dataqubits.length = _ := hp.data
  have h2 : (Planar.lat size crossOrder).code.stabilisers.length = _ := hp.stabs
  rw [h2, h1, show (Planar.lat size crossOrder).logicals.length = 2 from rfl]
  obtain ⟨k, rfl⟩ : ∃ k, size = k + 1 := ⟨size - 1, by omega⟩
  rw [Nat.add_sub_cancel]
  nlinarith [Nat.zero_le k]

theorem Toric.places {size : Nat} (h2 : 2 ≤ size) :
    (Toric.lat size crossOrder).logicals.length * ((Toric.lat size crossOrder).dataqubits.length + (Toric.lat size crossOrder).code.stabilisers.length) ≤ 16 * size ^ 2 := by
  have hc : makeToric 1 size = .ok ((Toric.lat size crossOrder).latCode 1) := by
    rw [makeToric, Toric.make h2 crossOrder (by decide)]; exact mkLatCode_ok (Toric.wf _ h2) (Toric.full _ h2) 1
  obtain ⟨c', hc', hp⟩ := C30_toric 1 size h2
  rw [hc] at hc'; cases hc'
  have h1 : (Toric.lat size crossOrder).dataqubits.length = _ := hp.data
  have h2 : (Toric.lat size crossOrder).code.stabilisers.length = _ := hp.stabs
  rw [h2, h1, show (Toric.lat size crossOrder).logicals.length = 4 from rfl]
  nlinarith

theorem Rotated.places {size : Nat} {xzzx : Bool} (h2 : 2 ≤ size) :
    (Rotated.lat size xzzx diagOrder).logicals.length * ((Rotated.lat size xzzx diagOrder).dataqubits.length + (Rotated.lat size xzzx diagOrder).code.stabilisers.length) ≤ 16 * size ^ 2 := by
  have hc : makeRotated 1 size xzzx = .ok ((Rotated.lat size xzzx diagOrder).latCode 1) := by
    rw [makeRotated, Rotated.make h2 diagOrder (by decide)]; exact mkLatCode_ok (Rotated.wf _ h2) (Rotated.full _ h2) 1
  obtain ⟨c', hc', hp⟩ := C30_rotated 1 size xzzx h2
  rw [hc] at hc'; cases hc'
  have h1 : (Rotated.lat size xzzx diagOrder).dataqubits.length = _ := hp.data
  have h2 : (Rotated.lat size xzzx diagOrder).code.stabilisers.length = _ := hp.stabs
  rw [h2, h1, show (Rotated.lat size xzzx diagOrder).logicals.length = 2 from rfl]
  have := Nat.sub_le (size ^ 2) 1
  nlinarith

theorem Rep.places {size : Nat} (hodd : size % 2 = 1) (h3 : 3 ≤ size) :
    (Rep.lat size).logicals.length * ((Rep.lat size).dataqubits.length + (Rep.lat size).code.stabilisers.length) ≤ 16 * size ^ 2 := by
  have hc : makeRepetition 1 size = .ok ((Rep.lat size).latCode 1) := by
    rw [makeRepetition, Rep.make size hodd h3]; exact mkLatCode_ok (Rep.wf size h3) (Rep.full size h3) 1
  obtain ⟨c', hc', hp⟩ := C30_repetition 1 size hodd h3
  rw [hc] at hc'; cases hc'
  have h1 : (Rep.lat size).dataqubits.length = _ := hp.data
  have h2 : (Rep.lat size).code.stabilisers.length = _ := hp.stabs
  rw [h2, h1, show (Rep.lat size).logicals.length = 2 from rfl]
  have := Nat.sub_le size 1
  nlinarith

/-- **C90** On the planar code of size at least 3, PyMatching and Fusion Blossom (the latter also with erased qubits) fail with probability at most
`32 rounds size² q^size / (1 - q)` for random faults of rate at most `q² / 100`. -/
theorem C90_planar (r size : Nat) (h3 : 3 ≤ size) : ∃ c, makePlanar r size = .ok c ∧ BothFailRarely c size 100 true true := by
  have hc : makePlanar r size = .ok ((Planar.lat size crossOrder).latCode r) := by
    rw [makePlanar, Planar.make size (by omega) crossOrder (by decide)]; exact mkLatCode_ok (Planar.wf _ _ (by omega)) (Planar.full _ _ (by omega)) r
  have hw := Planar.wf size crossOrder (by omega)
  refine ⟨_, hc, both_on hw (by omega) (.planar (by omega) hc) ((sparse_iff hw).2 (Planar.sparse (by omega))) (by norm_num) ?_ (.inr (Planar.apart h3)) fun l hl => .inl ?_⟩
  · exact Planar.places (by omega)
  · have hl : l ∈ Planar.logs size := hl
    simp only [Planar.logs, List.mem_cons, List.not_mem_nil, or_false] at hl
    rcases hl with rfl | rfl
    · exact ⟨Planar.linesX (by omega), size - 1, by omega, Planar.line_x (by omega)⟩
    · exact ⟨Planar.linesZ (by omega), size - 1, by omega, Planar.line_z (by omega)⟩

/-- **C90** The same for the toric code. -/
theorem C90_toric (r size : Nat) (h3 : 3 ≤ size) : ∃ c, makeToric r size = .ok c ∧ BothFailRarely c size 100 true true := by
  have h2 : 2 ≤ size := by omega
  have hc : makeToric r size = .ok ((Toric.lat size crossOrder).latCode r) := by
    rw [makeToric, Toric.make h2 crossOrder (by decide)]; exact mkLatCode_ok (Toric.wf _ h2) (Toric.full _ h2) r
  have hw := Toric.wf crossOrder h2
  refine ⟨_, hc, both_on hw h2 (.toric h2 hc) ((sparse_iff hw).2 (Toric.sparse h2)) (by norm_num) ?_ (.inr (Toric.apart h3)) fun l hl => .inl ?_⟩
  · exact Toric.places h2
  · have hl : l ∈ (Toric.fam size).logs := hl
    simp only [Toric.fam, List.mem_cons, List.not_mem_nil, or_false] at hl
    rcases hl with rfl | rfl | rfl | rfl
    · exact ⟨Toric.linesX0 h2, 0, by omega, Toric.line_X0 h2⟩
    · exact ⟨Toric.linesZ0 h2, size - 1, by omega, Toric.line_Z0 h2⟩
    · exact ⟨Toric.linesX1 h2, 0, by omega, Toric.line_X1 h2⟩
    · exact ⟨Toric.linesZ1 h2, size - 1, by omega, Toric.line_Z1 h2⟩

/-- **C90** The same for the rotated code and the XZZX code, without erased qubits. -/
theorem C90_rotated (r size : Nat) (xzzx : Bool) (h2 : 2 ≤ size) : ∃ c, makeRotated r size xzzx = .ok c ∧ BothFailRarely c size 100 false true := by
  have hc : makeRotated r size xzzx = .ok ((Rotated.lat size xzzx diagOrder).latCode r) := by
    rw [makeRotated, Rotated.make h2 diagOrder (by decide)]; exact mkLatCode_ok (Rotated.wf _ h2) (Rotated.full _ h2) r
  have hw := Rotated.wf (xzzx := xzzx) diagOrder h2
  refine ⟨_, hc, both_on hw h2 (.rotated h2 hc) ((sparse_iff hw).2 (Rotated.sparse h2)) (by norm_num) ?_ (.inl rfl) fun l hl => .inl ?_⟩
  · exact Rotated.places h2
  · have hl : l ∈ (Rotated.fam size xzzx).logs := hl
    simp only [Rotated.fam, List.mem_cons, List.not_mem_nil, or_false] at hl
    rcases hl with rfl | rfl
    · exact ⟨Rotated.linesX h2, 0, by omega, Rotated.line_x h2⟩
    · exact ⟨Rotated.linesZ h2, 0, by omega, Rotated.line_z h2⟩

/-- **C90** The same for the repetition code and errors without phase flips, with rates up to `q² / 36`. -/
theorem C90_repetition (r size : Nat) (hodd : size % 2 = 1) (h3 : 3 ≤ size) : ∃ c, makeRepetition r size = .ok c ∧ BothFailRarely c size 36 true false := by
  have hc : makeRepetition r size = .ok ((Rep.lat size).latCode r) := by
    rw [makeRepetition, Rep.make size hodd h3]; exact mkLatCode_ok (Rep.wf size h3) (Rep.full size h3) r
  have hw := Rep.wf size h3
  refine ⟨_, hc, both_on hw (by omega) (.repetition (by omega) hc) ((sparse_iff hw).2 (Rep.sparse h3)) (by norm_num) ?_ (.inr (Rep.apart h3)) fun l hl => ?_⟩
  · exact Rep.places hodd h3
  · have hl : l ∈ Rep.logs size := hl
    simp only [Rep.logs, List.mem_cons, List.not_mem_nil, or_false] at hl
    rcases hl with rfl | rfl
    · refine .inr ⟨rfl, fun q a ha hne => ?_, fun p hp => Rep.anti_x h3 hp⟩
      refine Rep.anti_x h3 fun q' => ?_
      cases a with
      | X => simp [singleOp]
      | Y => exact absurd rfl ha
      | Z =>
        obtain ⟨s, hs⟩ := List.exists_mem_of_ne_nil _ hne
        obtain ⟨st, hst, hfl⟩ := (Rep.wf size h3).mem_flipped.1 hs
        obtain ⟨i, hi, rfl⟩ := Rep.stab_get (List.mem_of_getElem? hst)
        exact absurd rfl ((Rep.flips_iff (List.getElem_mem q.2) hi).1 hfl).1
    · exact .inl ⟨Rep.linesZ h3, size - 1, by omega, Rep.line_z h3⟩

/-! ## The threshold -/

/-- Below the rate `1 / K`, the probability of a failure becomes as small as one likes on large codes of the family, for numbers of rounds up to any power of the size. -/
def BelowThreshold {σ : Type} (b : Backend FW σ) (make : Nat → Except Err LatCode) (ok : Nat → Prop) (K : Nat) (erasures phases : Bool) : Prop :=
  ∀ (p : ℝ≥0∞), K * p < 1 → ∀ (j : Nat) (ε : ℝ≥0∞), 0 < ε → ∃ N, ∀ size, N ≤ size → ok size → ∃ c, make size = .ok c ∧
    ∀ (rounds : Nat) (Ω : Type) [MeasurableSpace Ω] (μ : Measure Ω) (f : Ω → Faults c.n) (erased syn : Ω → Option (List (List Bool))), rounds ≤ size ^ j →
      Trials μ p c.code.stabilisers rounds f erased syn → (erasures = false → ∀ ω t q, ¬ SynBit (erased ω) t q) →
      (phases = false → ∀ ω t q, ((f ω).data t).z q = false) → μ {ω | ¬ Corrects b c rounds (f ω) (erased ω) (syn ω)} ≤ ε

theorem eventually_small {q : ℝ≥0} (hq : q < 1) (j : Nat) {ε : ℝ≥0∞} (hε : 0 < ε) :
    ∃ N, ∀ d : Nat, N ≤ d → 32 * ((d ^ j : Nat) : ℝ≥0∞) * d ^ 2 * (q : ℝ≥0∞) ^ d * (1 - (q : ℝ≥0∞))⁻¹ ≤ ε := by
  have h1 : Filter.Tendsto (fun d : Nat => (d : ℝ) ^ (j + 2) * (q : ℝ) ^ d) Filter.atTop (nhds 0) :=
    tendsto_pow_const_mul_const_pow_of_abs_lt_one (j + 2) (by rw [abs_of_nonneg q.coe_nonneg]; exact_mod_cast hq)
  have h2 : Filter.Tendsto (fun d : Nat => (d : ℝ≥0) ^ (j + 2) * q ^ d) Filter.atTop (nhds 0) := by
    rw [← NNReal.tendsto_coe]
    push_cast
    exact h1
  have h3 : Filter.Tendsto (fun d : Nat => (32 : ℝ≥0∞) * (((d : ℝ≥0) ^ (j + 2) * q ^ d : ℝ≥0) : ℝ≥0∞) * (1 - (q : ℝ≥0∞))⁻¹) Filter.atTop (nhds 0) := by
    have hc : (32 : ℝ≥0∞) * (1 - (q : ℝ≥0∞))⁻¹ ≠ ⊤ := by
      refine ENNReal.mul_ne_top (by simp) ?_
      rw [Ne, ENNReal.inv_eq_top, tsub_eq_zero_iff_le, not_le]
      exact_mod_cast hq
    have := ENNReal.Tendsto.const_mul (a := (32 : ℝ≥0∞) * (1 - (q : ℝ≥0∞))⁻¹) (ENNReal.tendsto_coe.2 h2) (.inr hc)
    rw [ENNReal.coe_zero, mul_zero] at this
    refine this.congr fun d => by ring
  obtain ⟨N, hN⟩ := Filter.eventually_atTop.1 (h3.eventually (ge_mem_nhds hε))
  refine ⟨N, fun d hd => le_of_eq_of_le ?_ (hN d hd)⟩
  push_cast
  ring

theorem threshold_of {σ : Type} {b : Backend FW σ} {make : Nat → Except Err LatCode} {ok : Nat → Prop} {K : Nat} {erasures phases : Bool} (hK : 0 < K)
    (h : ∀ size, ok size → ∃ c, make size = .ok c ∧ FailsRarely b c size K erasures phases) : BelowThreshold b make ok K erasures phases := by
  intro p hp j ε hε
  have hpt : K * p ≠ ⊤ := ne_top_of_lt hp
  obtain ⟨x, hx⟩ := WithTop.ne_top_iff_exists.1 hpt
  have hx : (x : ℝ≥0∞) = K * p := hx
  have hx1 : x < 1 := by rw [← hx] at hp; exact_mod_cast hp
  obtain ⟨N, hN⟩ := eventually_small (q := NNReal.sqrt x) (by rw [← NNReal.sqrt_one]; exact NNReal.sqrt_lt_sqrt.2 hx1) j hε
  refine ⟨N, fun size hs hok => ?_⟩
  obtain ⟨c, hc, hr⟩ := h size hok
  refine ⟨c, hc, fun rounds Ω _ μ f erased syn hrounds hT hE hz => ?_⟩
  refine (hr rounds Ω μ p (NNReal.sqrt x) f erased syn hT hE hz ?_ ?_).trans (le_trans ?_ (hN size hs))
  · have : NNReal.sqrt x ≤ 1 := by rw [← NNReal.sqrt_one]; exact NNReal.sqrt_le_sqrt.2 hx1.le
    exact_mod_cast this
  · rw [← hx, ← ENNReal.coe_pow, NNReal.sq_sqrt]
  · gcongr

/-- **C90** PyMatching has a threshold on all families of codes: below rate 1/100 (1/36 for the repetition code) failures become rare. -/
theorem C90_pymatching (r : Nat) {solve : PmGraph → List Bool → Except Err (List Bool)} (hS : IsPyMatching solve) :
    BelowThreshold (pmBackend solve) (makePlanar r) (3 ≤ ·) 100 false true ∧ BelowThreshold (pmBackend solve) (makeToric r) (3 ≤ ·) 100 false true ∧
      (∀ xzzx, BelowThreshold (pmBackend solve) (fun s => makeRotated r s xzzx) (2 ≤ ·) 100 false true) ∧
      BelowThreshold (pmBackend solve) (makeRepetition r) (fun s => s % 2 = 1 ∧ 3 ≤ s) 36 false false := by
  refine ⟨threshold_of (by decide) fun s h => ?_, threshold_of (by decide) fun s h => ?_, fun xzzx => threshold_of (by decide) fun s h => ?_,
    threshold_of (by decide) fun s h => ?_⟩
  · obtain ⟨c, hc, hb⟩ := C90_planar r s h; exact ⟨c, hc, hb.1 solve hS⟩
  · obtain ⟨c, hc, hb⟩ := C90_toric r s h; exact ⟨c, hc, hb.1 solve hS⟩
  · obtain ⟨c, hc, hb⟩ := C90_rotated r s xzzx h; exact ⟨c, hc, hb.1 solve hS⟩
  · obtain ⟨c, hc, hb⟩ := C90_repetition r s h.1 h.2; exact ⟨c, hc, hb.1 solve hS⟩

/-- **C90** Fusion Blossom has a threshold on all families of codes, with erased qubits on those where the erasures are not lost. -/
theorem C90_fusionblossom (r : Nat) {solve : FbGraph → List Nat → List Nat → Except Err (List Nat)} (hS : IsFusionBlossom solve) :
    BelowThreshold (fbBackend solve) (makePlanar r) (3 ≤ ·) 100 true true ∧ BelowThreshold (fbBackend solve) (makeToric r) (3 ≤ ·) 100 true true ∧
      (∀ xzzx, BelowThreshold (fbBackend solve) (fun s => makeRotated r s xzzx) (2 ≤ ·) 100 false true) ∧
      BelowThreshold (fbBackend solve) (makeRepetition r) (fun s => s % 2 = 1 ∧ 3 ≤ s) 36 true false := by
  refine ⟨threshold_of (by decide) fun s h => ?_, threshold_of (by decide) fun s h => ?_, fun xzzx => threshold_of (by decide) fun s h => ?_,
    threshold_of (by decide) fun s h => ?_⟩
  · obtain ⟨c, hc, hb⟩ := C90_planar r s h; exact ⟨c, hc, hb.2 solve hS⟩
  · obtain ⟨c, hc, hb⟩ := C90_toric r s h; exact ⟨c, hc, hb.2 solve hS⟩
  · obtain ⟨c, hc, hb⟩ := C90_rotated r s xzzx h; exact ⟨c, hc, hb.2 solve hS⟩
  · obtain ⟨c, hc, hb⟩ := C90_repetition r s h.1 h.2; exact ⟨c, hc, hb.2 solve hS⟩

/-! The hypotheses are met by independent faults: a bit flip of each data qubit before each round, and a wrong outcome of each stabiliser in all rounds but the
last, each with probability `p`. -/

/-- A coin that shows `true` with probability `p`. -/
noncomputable def coin (p : ℝ≥0) : Measure Bool := p • Measure.dirac true + (1 - p) • Measure.dirac false

theorem coin_true (p : ℝ≥0) : coin p {true} = p := by
  simp [coin, Measure.dirac_apply]

instance coin_prob (p : ℝ≥0) [hp : Fact (p ≤ 1)] : IsProbabilityMeasure (coin p) := by
  refine ⟨?_⟩
  simp only [coin, Measure.coe_add, Measure.coe_nnreal_smul_apply, Pi.add_apply, measure_univ, mul_one]
  exact_mod_cast add_tsub_cancel_of_le hp.out

/-- The faults that are marked by a choice of places. -/
def markedFaults {n : Nat} (r : Nat) (ω : Place n → Bool) : Faults n :=
  ⟨fun t => ⟨fun q => ω (.inl (t, q)), fun _ => false, false⟩, fun t s => t + 1 < r ∧ ω (.inr (t, s)) = true⟩

theorem markedFaults_at {n : Nat} {r : Nat} {ω : Place n → Bool} {a : Place n} (h : (markedFaults r ω).At none a) : ω a = true := by
  match a with
  | .inl (t, q) =>
    rcases h with h | ⟨_, _, h, _⟩
    · simpa [markedFaults] using h
    · cases h
  | .inr (t, s) => exact h.2

theorem coin_pi {ι : Type} (p : ℝ≥0) [Fact (p ≤ 1)] (A : Finset ι) : Measure.infinitePi (fun _ : ι => coin p) {ω | ∀ a ∈ A, ω a = true} = (p : ℝ≥0∞) ^ A.card := by
  have h := Measure.infinitePi_pi (fun _ : ι => coin p) (s := A) (t := fun _ => {true}) (fun _ _ => MeasurableSet.of_discrete)
  rw [Finset.prod_congr rfl fun i _ => coin_true p, Finset.prod_const] at h
  rw [← h]
  congr 1

theorem exists_trials {n : Nat} (stabs : List (Op n)) (rounds : Nat) (p : ℝ≥0) (hp : p ≤ 1) :
    ∃ (μ : Measure (Place n → Bool)) (syn : (Place n → Bool) → Option (List (List Bool))), IsProbabilityMeasure μ ∧
      (∀ A : Finset (Place n), μ {ω | ∀ a ∈ A, ω a = true} = (p : ℝ≥0∞) ^ A.card) ∧ Trials μ p stabs rounds (markedFaults rounds) (fun _ => none) syn := by
  have : Fact (p ≤ 1) := ⟨hp⟩
  have h : ∀ ω : Place n → Bool, ∃ syn, ShapeOk rounds stabs.length (some syn) ∧ (markedFaults rounds ω).Shows rounds stabs (some syn) :=
    fun ω => exists_shows fun t s ht hm => absurd hm.1 (by omega)
  choose syn h1 h2 using h
  refine ⟨Measure.infinitePi fun _ => coin p, fun ω => some (syn ω), inferInstance, coin_pi p, ⟨fun ω a h => (by cases h), h1, h2, fun A hA => ?_⟩⟩
  rw [← coin_pi p A]
  exact measure_mono fun ω hω a ha => markedFaults_at (hω a ha)

/-- Independent faults of rate 1/10000 in five rounds of the planar code of size 9: PyMatching and Fusion Blossom fail with probability at most 15 in a million. -/
example : ∃ c solve₁ solve₂, makePlanar 5 9 = .ok c ∧ IsPyMatching solve₁ ∧ IsFusionBlossom solve₂ ∧
    ∃ (μ : Measure (Place c.n → Bool)) (syn : (Place c.n → Bool) → Option (List (List Bool))), IsProbabilityMeasure μ ∧
      Trials μ (1 / 10000 : ℝ≥0) c.code.stabilisers 5 (markedFaults 5) (fun _ => none) syn ∧
      μ {ω | ¬ Corrects (pmBackend solve₁) c 5 (markedFaults 5 ω) none (syn ω)} ≤ (15 / 1000000 : ℝ≥0) ∧
      μ {ω | ¬ Corrects (fbBackend solve₂) c 5 (markedFaults 5 ω) none (syn ω)} ≤ (15 / 1000000 : ℝ≥0) := by
  obtain ⟨c, hc, h1, h2⟩ := C90_planar 5 9 (by decide)
  obtain ⟨solve₁, hS₁⟩ := exists_pyMatching
  obtain ⟨solve₂, hS₂⟩ := exists_fusionBlossom
  obtain ⟨μ, syn, hμ, _, hT⟩ := exists_trials c.code.stabilisers 5 (1 / 10000) (by rw [← NNReal.coe_le_coe]; push_cast; norm_num)
  have hq : (((1 / 10 : ℝ≥0)) : ℝ≥0∞) ≤ 1 := by exact_mod_cast (by rw [← NNReal.coe_le_coe]; push_cast; norm_num : (1 / 10 : ℝ≥0) ≤ 1)
  have hpq : ((100 : Nat) : ℝ≥0∞) * ((1 / 10000 : ℝ≥0) : ℝ≥0∞) ≤ ((1 / 10 : ℝ≥0) : ℝ≥0∞) ^ 2 := by
    exact_mod_cast (by rw [← NNReal.coe_le_coe]; push_cast; norm_num : (100 : ℝ≥0) * (1 / 10000) ≤ (1 / 10) ^ 2)
  have hno : ∀ (_ : Place c.n → Bool) (t q : Nat), ¬ SynBit none t q := fun _ _ _ ⟨_, _, h, _⟩ => by cases h
  have hε : 32 * ((5 : Nat) : ℝ≥0∞) * ((9 : Nat) : ℝ≥0∞) ^ 2 * ((1 / 10 : ℝ≥0) : ℝ≥0∞) ^ 9 * (1 - ((1 / 10 : ℝ≥0) : ℝ≥0∞))⁻¹ ≤ (15 / 1000000 : ℝ≥0) := by
    have h9 : (1 : ℝ≥0∞) - ((1 / 10 : ℝ≥0) : ℝ≥0∞) = ((9 / 10 : ℝ≥0) : ℝ≥0∞) := by
      have h : (1 : ℝ≥0) - 1 / 10 = 9 / 10 := tsub_eq_of_eq_add (by rw [← NNReal.coe_inj]; push_cast; norm_num)
      rw [← ENNReal.coe_one, ← ENNReal.coe_sub, h]
    rw [h9, ← ENNReal.coe_inv (by rw [Ne, ← NNReal.coe_inj]; push_cast; norm_num)]
    exact_mod_cast (by rw [← NNReal.coe_le_coe]; push_cast; norm_num : 32 * 5 * 9 ^ 2 * (1 / 10 : ℝ≥0) ^ 9 * (9 / 10 : ℝ≥0)⁻¹ ≤ (15 / 1000000 : ℝ≥0))
  exact ⟨c, solve₁, solve₂, hc, hS₁, hS₂, μ, syn, hμ, hT, (h1 solve₁ hS₁ 5 _ μ _ _ _ _ _ hT (fun _ => hno) (by simp) hq hpq).trans hε,
    (h2 solve₂ hS₂ 5 _ μ _ _ _ _ _ hT (fun _ => hno) (by simp) hq hpq).trans hε⟩

end Plaquette
