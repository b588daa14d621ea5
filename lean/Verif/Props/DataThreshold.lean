import Verif.Props.WeightedThreshold

/-!
# Decoders made from error data correct random faults below a threshold (C111)
-/

open MeasureTheory
open scoped ENNReal NNReal

namespace Plaquette

/-! ## Weights of error data -/

/-- The probabilities of the edges of the syndrome graph of a code all lie between `lo` and `hi`, where a Pauli error that the error data do not mention has the
probability `tiny`. -/
structure DataBetween (tiny : ℚ) (C : LatCode) (errs : ErrData) (lo hi : ℚ) : Prop where
  keys : KeysOk errs
  numeric : NumericData errs
  ok : DataOk C.lattice errs
  x : ∀ q < C.n, fill tiny (pauliProb errs q .X) + fill tiny (pauliProb errs q .Y) ∈ Set.Icc lo hi
  z : ∀ q < C.n, fill tiny (pauliProb errs q .Y) + fill tiny (pauliProb errs q .Z) ∈ Set.Icc lo hi
  m : ∀ s < C.code.stabilisers.length, measProb errs (C.n + s) ∈ Set.Icc lo hi

/-- The weights of probabilities between `lo` and `hi` are numbers between `a` and `ρ a`. -/
def LogBetween (negLog : ℚ → Option FW) (lo hi : ℚ) (ρ : Nat) (a : ℚ) : Prop :=
  0 < a ∧ ∀ x ∈ Set.Icc lo hi, ∃ q : ℚ, a ≤ q ∧ q ≤ ρ * a ∧ negLog x = some ((q : WithTop ℚ) : FW)

/-- A single positive number lies between itself and itself. -/
theorem logBetween_single {negLog : ℚ → Option FW} {u q : ℚ} (hq : 0 < q) (h : negLog u = some ((q : WithTop ℚ) : FW)) : LogBetween negLog u u 1 q := by
  refine ⟨hq, fun x hx => ⟨q, le_refl _, by simp, ?_⟩⟩
  rw [le_antisymm hx.2 hx.1, h]

/-- The weight of a probability is the logarithm of the odds, rounded with a relative error of at most `δ`. -/
def RoundedLog (δ : ℝ) (negLog : ℚ → Option FW) : Prop :=
  ∀ x : ℚ, 0 < x → x < 1 / 2 → ∃ q : ℚ, negLog x = some ((q : WithTop ℚ) : FW) ∧ (1 - δ) * Real.log ((1 - x) / x) ≤ q ∧ (q : ℝ) ≤ (1 + δ) * Real.log ((1 - x) / x)

theorem odds_anti {x y : ℚ} (hx : 0 < x) (hxy : x ≤ y) (hy : y < 1 / 2) : Real.log ((1 - y) / y) ≤ Real.log ((1 - x) / x) := by
  have hx' : (0 : ℝ) < x := by exact_mod_cast hx
  have hxy' : (x : ℝ) ≤ y := by exact_mod_cast hxy
  have hy' : (y : ℝ) < 1 / 2 := by have : ((y : ℚ) : ℝ) < ((1 / 2 : ℚ) : ℝ) := by exact_mod_cast hy
                                   push_cast at this; exact this
  have hy0 : (0 : ℝ) < y := hx'.trans_le hxy'
  refine Real.log_le_log (div_pos (by linarith) hy0) ?_
  rw [div_le_div_iff₀ hy0 hx']
  nlinarith

/-- The logarithms of probabilities that are not too far apart differ by at most a factor. -/
theorem logBetween_rounded {negLog : ℚ → Option FW} {δ : ℝ} (hδ0 : 0 ≤ δ) (hδ : δ < 1) (h : RoundedLog δ negLog) {lo hi : ℚ} (h0 : 0 < lo) (hlh : lo ≤ hi) (hh : hi < 1 / 2) {ρ : Nat}
    (hρ : (1 + δ) * Real.log ((1 - lo) / lo) < ρ * ((1 - δ) * Real.log ((1 - hi) / hi))) : ∃ a, LogBetween negLog lo hi ρ a := by
  have hhi : (0 : ℝ) < hi := by exact_mod_cast h0.trans_le hlh
  have hh' : (hi : ℝ) < 1 / 2 := by
    have : ((hi : ℚ) : ℝ) < ((1 / 2 : ℚ) : ℝ) := by exact_mod_cast hh
    push_cast at this; exact this
  have hlog : 0 < Real.log ((1 - hi) / hi) := Real.log_pos (by rw [lt_div_iff₀ hhi]; linarith)
  have hlo : 0 < Real.log ((1 - lo) / lo) := hlog.trans_le (odds_anti h0 hlh hh)
  have hl : 0 < (1 + δ) * Real.log ((1 - lo) / lo) := by positivity
  have hρ0 : (0 : ℝ) < ρ := by
    have : 0 < (1 - δ) * Real.log ((1 - hi) / hi) := mul_pos (by linarith) hlog
    by_contra hc
    have : (ρ : ℝ) * ((1 - δ) * Real.log ((1 - hi) / hi)) ≤ 0 := mul_nonpos_of_nonpos_of_nonneg (not_lt.1 hc) this.le
    linarith
  obtain ⟨a, ha1, ha2⟩ := exists_rat_btwn ((div_lt_iff₀' hρ0).2 hρ)
  refine ⟨a, ?_, fun x hx => ?_⟩
  · have : (0 : ℝ) < a := (div_pos hl hρ0).trans ha1
    exact_mod_cast this
  · obtain ⟨q, hq, h1, h2⟩ := h x (h0.trans_le hx.1) (hx.2.trans_lt hh)
    refine ⟨q, ?_, ?_, hq⟩
    · have h3 : (1 - δ) * Real.log ((1 - hi) / hi) ≤ (1 - δ) * Real.log ((1 - x) / x) :=
        mul_le_mul_of_nonneg_left (odds_anti (h0.trans_le hx.1) hx.2 hh) (by linarith)
      have : (a : ℝ) ≤ q := by linarith
      exact_mod_cast this
    · have h3 : (1 + δ) * Real.log ((1 - x) / x) ≤ (1 + δ) * Real.log ((1 - lo) / lo) :=
        mul_le_mul_of_nonneg_left (odds_anti h0 hx.1 (hx.2.trans_lt hh)) (by linarith)
      rw [div_lt_iff₀' hρ0] at ha1
      have : (q : ℝ) ≤ ((ρ * a : ℚ) : ℝ) := by push_cast; linarith
      exact_mod_cast this

theorem numbers_of {negLog : ℚ → Option FW} {lo hi a : ℚ} {ρ : Nat} (hlog : LogBetween negLog lo hi ρ a) (l : List ℚ) (hl : ∀ v ∈ l, v ∈ Set.Icc lo hi) :
    ∃ l' : List ℚ, l'.length = l.length ∧ (∀ q ∈ l', a ≤ q ∧ q ≤ ρ * a) ∧ l.map negLog = l'.map fun q : ℚ => some ((q : WithTop ℚ) : FW) := by
  induction l with
  | nil => exact ⟨[], rfl, by simp, rfl⟩
  | cons v l ih =>
    obtain ⟨l', h1, h2, h3⟩ := ih fun w hw => hl w (.tail _ hw)
    obtain ⟨q, h4, h5, h6⟩ := hlog.2 v (hl v (.head _))
    refine ⟨q :: l', by simp [h1], ?_, by simp [h3, h6]⟩
    intro q' hq'
    rcases List.mem_cons.1 hq' with rfl | hq'
    · exact ⟨h4, h5⟩
    · exact h2 q' hq'

/-- The weights that are computed from such error data differ by at most a factor. -/
theorem DataBetween.weights {tiny lo hi a : ℚ} {C : LatCode} {errs : ErrData} {negLog : ℚ → Option FW} {ρ : Nat} (hD : DataBetween tiny C errs lo hi) (hC : C.Ok)
    (hlog : LogBetween negLog lo hi ρ a) {weighted : Option Bool} (hw : weighted ≠ some false) :
    ∃ px pz pm, Alike C.n C.code.stabilisers.length ρ px pz pm a ∧
      managerWeights negLog C (some (completeErrors tiny C.lattice.dataqubits.length (some errs))) weighted none = .ok (some (numberWeights px pz pm)) := by
  have hk' := keysOk_complete tiny C.lattice.dataqubits.length hD.keys
  obtain ⟨p, hp⟩ := (hD.ok.complete (tiny := tiny) hC.indexed hD.keys).probs hC.indexed hC.size.symm.le hC.stabs.symm.le (numeric_completeData hD.keys hD.numeric)
  obtain ⟨⟨x1, x2⟩, ⟨z1, z2⟩, m1, m2⟩ := edgeProbs_spec hC hk' hp
  have hval : ∀ q < C.n, ∀ a, pauliProb (completeErrors tiny C.lattice.dataqubits.length (some errs)) q a = fill tiny (pauliProb errs q a) :=
    fun q hq a => pauliProb_complete hD.numeric (by rw [← hC.size]; exact hq) a
  obtain ⟨px, hpx1, hpx2, hpx3⟩ := numbers_of hlog p.px fun v hv => by
    obtain ⟨q, hq⟩ := List.mem_iff_getElem?.mp hv
    have hq' : q < C.n := by rw [← x1]; exact (List.getElem?_eq_some_iff.mp hq).1
    rw [x2 q hq', hval q hq', hval q hq'] at hq
    obtain rfl := Option.some.inj hq
    exact hD.x q hq'
  obtain ⟨pz, hpz1, hpz2, hpz3⟩ := numbers_of hlog p.pz fun v hv => by
    obtain ⟨q, hq⟩ := List.mem_iff_getElem?.mp hv
    have hq' : q < C.n := by rw [← z1]; exact (List.getElem?_eq_some_iff.mp hq).1
    rw [z2 q hq', hval q hq', hval q hq'] at hq
    obtain rfl := Option.some.inj hq
    exact hD.z q hq'
  obtain ⟨pm, hpm1, hpm2, hpm3⟩ := numbers_of hlog p.pm fun v hv => by
    obtain ⟨s, hs⟩ := List.mem_iff_getElem?.mp hv
    have hs' : s < C.code.stabilisers.length := by rw [← m1]; exact (List.getElem?_eq_some_iff.mp hs).1
    rw [m2 s hs', measProb_complete] at hs
    obtain rfl := Option.some.inj hs
    exact hD.m s hs'
  have hall : ∀ q ∈ px ++ pz ++ pm, a ≤ q ∧ q ≤ ρ * a := by
    intro q hq
    rcases List.mem_append.1 hq with hq | hq
    · rcases List.mem_append.1 hq with hq | hq
      · exact hpx2 q hq
      · exact hpz2 q hq
    · exact hpm2 q hq
  refine ⟨px, pz, pm, ⟨hpx1.trans x1, hpz1.trans z1, hpm1.trans m1, hlog.1, fun q hq => (hall q hq).1, fun q hq => (hall q hq).2⟩, ?_⟩
  unfold managerWeights
  rw [if_neg (by simp)]
  have : weighted.getD ((some (completeErrors tiny C.lattice.dataqubits.length (some errs))).isSome || (none : Option (Weights FW)).isSome) = true := by
    match weighted, hw with
    | none, _ => rfl
    | some true, _ => rfl
    | some false, hw => exact absurd rfl hw
  rw [if_pos this]
  dsimp only
  rw [hp]
  show Except.ok (some (p.weights negLog)) = _
  unfold EdgeProbs.weights numberWeights
  rw [hpx3, hpz3, hpm3]

/-! ## Decoders from error data -/

/-- The decoder that `from_code` makes from error data whose weights differ by at most a factor `ρ` fails on random faults of a rate `p` with `Kᵏ p ≤ qᵏ` with probability
at most `32 rounds d² qᵈ / (1 - q)`. -/
def DataFailsRarely {σ : Type} (b : Backend FW σ) (c : LatCode) (ρ d K k : Nat) (erasures phases : Bool) : Prop :=
  ∀ (negLog : ℚ → Option FW) (tiny lo hi a : ℚ) (errs : ErrData) (weighted : Option Bool), weighted ≠ some false → LogBetween negLog lo hi ρ a →
    DataBetween tiny c errs lo hi →
    ∃ g states, fromCode FW.isInf negLog tiny b c (some errs) weighted none = .ok (g, states) ∧
      ∀ (Ω : Type) [MeasurableSpace Ω] (μ : Measure Ω) (p q : ℝ≥0∞) (f : Ω → Faults c.n) (erased syn : Ω → Option (List (List Bool))),
        Trials μ p c.code.stabilisers c.nRounds f erased syn → (erasures = false → ∀ ω t q, ¬ SynBit (erased ω) t q) →
        (phases = false → ∀ ω t q, ((f ω).data t).z q = false) → q ≤ 1 → K ^ k * p ≤ q ^ k →
        μ {ω | ¬ ∃ corr, decode b g c.n states (erased ω) (syn ω) = .ok corr ∧ (f ω).Corrected c.nRounds c.code.logicalOps corr} ≤
          32 * c.nRounds * d ^ 2 * q ^ d * (1 - q)⁻¹

theorem data_rare {σ : Type} {b : Backend FW σ} {c : LatCode} {r ρ κ d K k : Nat} {lossy erasures phases : Bool} (hm : Made r c) (hb : LightWith lossy ρ κ b)
    (h : FailsRarelyWith b c ρ d K k erasures phases) : DataFailsRarely b c ρ d K k erasures phases := by
  intro negLog tiny lo hi a errs weighted hw hlog hD
  obtain ⟨px, pz, pm, hA, hmw⟩ := hD.weights hm.codeOk hlog hw
  obtain ⟨g, hg⟩ := hA.graph (C59_graph hm FW.isInf 1) c.nRounds
  obtain ⟨states, hst, -⟩ := hb _ _ _ _ _ _ _ g hA hg
  refine ⟨g, states, ?_, fun Ω _ μ p q f erased syn hT hE hz hq hpq => ?_⟩
  · unfold fromCode manager
    rw [hmw]
    show (mkSynGraph FW.isInf c.nRounds c.code.stabilisers (some (numberWeights px pz pm))).bind _ = _
    rw [hg]
    show (setupAll b g).bind _ = _
    rw [hst]
    rfl
  · refine (measure_mono fun ω hω => ?_).trans (h c.nRounds px pz pm a Ω μ p q f erased syn hA hT hE hz hq hpq)
    rintro ⟨g', states', corr, h1, h2, h3, h4⟩
    rw [hg] at h1; cases h1
    rw [hst] at h2; cases h2
    exact hω ⟨corr, h3, h4⟩

/-- PyMatching and Fusion Blossom, made from error data, fail rarely. -/
def BothDataFailRarely (c : LatCode) (d K : Nat) (erasures phases : Bool) : Prop :=
  (∀ solve, IsPyMatching solve → ∀ ρ, DataFailsRarely (pmBackend solve) c ρ d K (ρ + 1) false phases) ∧
    ∀ solve, IsFusionBlossom solve → ∀ ρ κ, 100 ≤ κ * (100 / ρ) → DataFailsRarely (fbBackend solve) c ρ d K (κ + 1) erasures phases

theorem both_data {c : LatCode} {r d K : Nat} {erasures phases : Bool} (hm : Made r c) (h : BothFailRarelyWith c d K erasures phases) :
    BothDataFailRarely c d K erasures phases :=
  ⟨fun solve hS ρ => data_rare hm (pm_lightWith hS ρ) (h.1 solve hS ρ), fun solve hS ρ κ hκ => data_rare hm (fb_lightWith hS hκ) (h.2 solve hS ρ κ hκ)⟩

/-- **C111** On the planar code of size at least 3, `from_code` with error data whose weights differ by at most a factor `ρ` makes decoders that fail with probability
at most `32 rounds size² q^size / (1 - q)` for random faults of rate at most `(q / 10) ^ (ρ + 1)`, whatever the error data say about the rates. -/
theorem C111_planar (r size : Nat) (h3 : 3 ≤ size) : ∃ c, makePlanar r size = .ok c ∧ c.nRounds = r ∧ BothDataFailRarely c size 10 true true := by
  obtain ⟨c, hc, h⟩ := C110_planar r size h3
  have hm : Made r c := .planar (by omega) hc
  obtain ⟨L, rfl, -⟩ := hm.lattice
  exact ⟨_, hc, rfl, both_data hm h⟩

/-- **C111** The same for the toric code. -/
theorem C111_toric (r size : Nat) (h3 : 3 ≤ size) : ∃ c, makeToric r size = .ok c ∧ c.nRounds = r ∧ BothDataFailRarely c size 10 true true := by
  obtain ⟨c, hc, h⟩ := C110_toric r size h3
  have hm : Made r c := .toric (by omega) hc
  obtain ⟨L, rfl, -⟩ := hm.lattice
  exact ⟨_, hc, rfl, both_data hm h⟩

/-- **C111** The same for the rotated code and the XZZX code, without erased qubits. -/
theorem C111_rotated (r size : Nat) (xzzx : Bool) (h2 : 2 ≤ size) :
    ∃ c, makeRotated r size xzzx = .ok c ∧ c.nRounds = r ∧ BothDataFailRarely c size 10 false true := by
  obtain ⟨c, hc, h⟩ := C110_rotated r size xzzx h2
  have hm : Made r c := .rotated h2 hc
  obtain ⟨L, rfl, -⟩ := hm.lattice
  exact ⟨_, hc, rfl, both_data hm h⟩

/-- **C111** The same for the repetition code and errors without phase flips, with rates up to `(q / 6) ^ (ρ + 1)`. -/
theorem C111_repetition (r size : Nat) (hodd : size % 2 = 1) (h3 : 3 ≤ size) :
    ∃ c, makeRepetition r size = .ok c ∧ c.nRounds = r ∧ BothDataFailRarely c size 6 true false := by
  obtain ⟨c, hc, h⟩ := C110_repetition r size hodd h3
  have hm : Made r c := .repetition (by omega) hc
  obtain ⟨L, rfl, -⟩ := hm.lattice
  exact ⟨_, hc, rfl, both_data hm h⟩

/-- **C111** If the weights are the logarithms of the odds up to rounding, the factor is that of the logarithms of the largest and the smallest odds. -/
theorem C111_logarithms {σ : Type} {b : Backend FW σ} {c : LatCode} {ρ d K k : Nat} {erasures phases : Bool} (h : DataFailsRarely b c ρ d K k erasures phases)
    {negLog : ℚ → Option FW} {δ : ℝ} (hδ0 : 0 ≤ δ) (hδ : δ < 1) (hlog : RoundedLog δ negLog) {tiny lo hi : ℚ} (h0 : 0 < lo) (hlh : lo ≤ hi) (hh : hi < 1 / 2)
    (hρ : (1 + δ) * Real.log ((1 - lo) / lo) < ρ * ((1 - δ) * Real.log ((1 - hi) / hi))) {errs : ErrData} (hD : DataBetween tiny c errs lo hi)
    {weighted : Option Bool} (hw : weighted ≠ some false) :
    ∃ g states, fromCode FW.isInf negLog tiny b c (some errs) weighted none = .ok (g, states) ∧
      ∀ (Ω : Type) [MeasurableSpace Ω] (μ : Measure Ω) (p q : ℝ≥0∞) (f : Ω → Faults c.n) (erased syn : Ω → Option (List (List Bool))),
        Trials μ p c.code.stabilisers c.nRounds f erased syn → (erasures = false → ∀ ω t q, ¬ SynBit (erased ω) t q) →
        (phases = false → ∀ ω t q, ((f ω).data t).z q = false) → q ≤ 1 → K ^ k * p ≤ q ^ k →
        μ {ω | ¬ ∃ corr, decode b g c.n states (erased ω) (syn ω) = .ok corr ∧ (f ω).Corrected c.nRounds c.code.logicalOps corr} ≤
          32 * c.nRounds * d ^ 2 * q ^ d * (1 - q)⁻¹ := by
  obtain ⟨a, ha⟩ := logBetween_rounded hδ0 hδ hlog h0 hlh hh hρ
  exact h negLog tiny lo hi a errs weighted hw ha hD

/-- **C111** If all edges are equally likely, the factor is 1. -/
theorem C111_equal {σ : Type} {b : Backend FW σ} {c : LatCode} {d K k : Nat} {erasures phases : Bool} (h : DataFailsRarely b c 1 d K k erasures phases)
    {negLog : ℚ → Option FW} (hlog : LogLike negLog) {tiny u : ℚ} (h0 : 0 < u) (hh : u < 1 / 2) {errs : ErrData} (hD : DataBetween tiny c errs u u)
    {weighted : Option Bool} (hw : weighted ≠ some false) :
    ∃ g states, fromCode FW.isInf negLog tiny b c (some errs) weighted none = .ok (g, states) ∧
      ∀ (Ω : Type) [MeasurableSpace Ω] (μ : Measure Ω) (p q : ℝ≥0∞) (f : Ω → Faults c.n) (erased syn : Ω → Option (List (List Bool))),
        Trials μ p c.code.stabilisers c.nRounds f erased syn → (erasures = false → ∀ ω t q, ¬ SynBit (erased ω) t q) →
        (phases = false → ∀ ω t q, ((f ω).data t).z q = false) → q ≤ 1 → K ^ k * p ≤ q ^ k →
        μ {ω | ¬ ∃ corr, decode b g c.n states (erased ω) (syn ω) = .ok corr ∧ (f ω).Corrected c.nRounds c.code.logicalOps corr} ≤
          32 * c.nRounds * d ^ 2 * q ^ d * (1 - q)⁻¹ := by
  obtain ⟨q, hq, hl⟩ := hlog.2 u h0 hh
  exact h negLog tiny u u q errs weighted hw (logBetween_single hq hl) hD

/-! ## Uniform error data -/

/-- Depolarizing errors with the same probability on all data qubits, and wrong outcomes with twice that probability. -/
def uniformErrs (n m : Nat) (x : ℚ) : ErrData :=
  [("pauli".toList, (List.range n).map fun q : Nat => (QKey.int (q : Int), [(['x'], .flt x), (['y'], .flt x), (['z'], .flt x)])),
    ("measurement".toList, (List.range m).map fun s : Nat => (QKey.int ((n + s : Nat) : Int), [(['p'], .flt (2 * x))]))]

theorem uniformErrs_cases {n m : Nat} {x : ℚ} {name : List Char} {d : ErrDict ℚ} (h : dictGet (uniformErrs n m x) name = some d) :
    (name = "pauli".toList ∧ d = (List.range n).map fun q : Nat => (QKey.int (q : Int), [(['x'], Raw.flt x), (['y'], .flt x), (['z'], .flt x)])) ∨
      (name = "measurement".toList ∧ d = (List.range m).map fun s : Nat => (QKey.int ((n + s : Nat) : Int), [(['p'], Raw.flt (2 * x))])) := by
  have := dictGet_some_mem h
  simp only [uniformErrs, List.mem_cons, List.not_mem_nil, or_false, Prod.mk.injEq] at this
  exact this

theorem checkStab_range {L : Lattice} (hL : L.Indexed) {s : Nat} (hs : s < L.stabgens.length) : L.checkStab (.int ((L.dataqubits.length + s : Nat) : Int)) = .ok () := by
  refine Lattice.checkStab_ok.mpr ⟨_, L.stabgens[s].1, rfl, ?_, ?_⟩
  · rw [hL.equbits]
    unfold Lattice.occupied
    rw [List.getElem?_append_left (by simp; omega), List.getElem?_append_right (by omega), Nat.add_sub_cancel_left, List.getElem?_map, List.getElem?_eq_getElem hs]
    rfl
  · unfold Lattice.isStab
    rw [List.any_eq_true]
    exact ⟨_, List.getElem_mem hs, by simp⟩

theorem uniform_between {C : LatCode} (hC : C.Ok) {x : ℚ} (hx : 0 < x) (tiny : ℚ) :
    DataBetween tiny C (uniformErrs C.n C.code.stabilisers.length x) (2 * x) (2 * x) := by
  have hpauli : dictGet (uniformErrs C.n C.code.stabilisers.length x) "pauli".toList =
      some ((List.range C.n).map fun q : Nat => (QKey.int (q : Int), [(['x'], Raw.flt x), (['y'], .flt x), (['z'], .flt x)])) := rfl
  have hmeas : dictGet (uniformErrs C.n C.code.stabilisers.length x) "measurement".toList =
      some ((List.range C.code.stabilisers.length).map fun s : Nat => (QKey.int ((C.n + s : Nat) : Int), [(['p'], Raw.flt (2 * x))])) := rfl
  have hk : KeysOk (uniformErrs C.n C.code.stabilisers.length x) := by
    intro name d hd
    rcases uniformErrs_cases hd with ⟨-, rfl⟩ | ⟨-, rfl⟩ <;> rw [List.map_map] <;> refine List.Nodup.map ?_ List.nodup_range <;>
    · intro a b h
      simpa using h
  have hp : ∀ q < C.n, ∀ a, pauliProb (uniformErrs C.n C.code.stabilisers.length x) q a = x := by
    intro q hq a
    have hq' : dictGet ((List.range C.n).map fun q : Nat => (QKey.int (q : Int), [(['x'], Raw.flt x), (['y'], .flt x), (['z'], .flt x)])) (.int q) =
        some [(['x'], Raw.flt x), (['y'], .flt x), (['z'], .flt x)] :=
      dictGet_of_mem (hk _ _ hpauli) (List.mem_map.mpr ⟨q, List.mem_range.mpr hq, rfl⟩)
    unfold pauliProb
    rw [hpauli]
    dsimp only
    rw [hq']
    cases a <;> rfl
  have hm : ∀ s < C.code.stabilisers.length, measProb (uniformErrs C.n C.code.stabilisers.length x) (C.n + s) = 2 * x := by
    intro s hs
    have hs' : dictGet ((List.range C.code.stabilisers.length).map fun s : Nat => (QKey.int ((C.n + s : Nat) : Int), [(['p'], Raw.flt (2 * x))])) (.int (C.n + s : Nat)) =
        some [(['p'], Raw.flt (2 * x))] :=
      dictGet_of_mem (hk _ _ hmeas) (List.mem_map.mpr ⟨s, List.mem_range.mpr hs, rfl⟩)
    unfold measProb
    rw [hmeas]
    dsimp only
    rw [hs']
    rfl
  have hf : fill tiny x = x := if_neg hx.ne'
  have h2 : x + x ∈ Set.Icc (2 * x) (2 * x) := by rw [Set.Icc_self, Set.mem_singleton_iff, two_mul]
  refine ⟨hk, ?_, ⟨?_, ?_, ?_, ?_⟩, fun q hq => by rw [hp q hq, hp q hq, hf]; exact h2, fun q hq => by rw [hp q hq, hp q hq, hf]; exact h2,
    fun s hs => by rw [hm s hs]; simp⟩
  · intro name d hd e he y hy s
    rcases uniformErrs_cases hd with ⟨-, rfl⟩ | ⟨-, rfl⟩ <;> obtain ⟨i, -, rfl⟩ := List.mem_map.1 he
    · simp only [List.mem_cons, List.not_mem_nil, or_false] at hy
      rcases hy with rfl | rfl | rfl <;> simp
    · simp only [List.mem_singleton] at hy
      subst hy; simp
  · intro e he
    simp only [uniformErrs, List.mem_cons, List.not_mem_nil, or_false] at he
    rcases he with rfl | rfl <;> dsimp only <;> decide
  · intro d hd e he
    rw [hpauli, Option.some.injEq] at hd
    subst hd
    obtain ⟨q, hq, rfl⟩ := List.mem_map.1 he
    refine ⟨checkData_range hC.indexed (by rw [← hC.size]; exact List.mem_range.1 hq), fun p hp => ?_⟩
    simp only [List.mem_cons, List.not_mem_nil, or_false] at hp
    rcases hp with rfl | rfl | rfl <;> dsimp only <;> decide
  · intro d hd
    cases hd
  · intro d hd e he
    rw [hmeas, Option.some.injEq] at hd
    subst hd
    obtain ⟨s, hs, rfl⟩ := List.mem_map.1 he
    refine ⟨?_, fun p hp => ?_⟩
    · have := checkStab_range hC.indexed (s := s) (by rw [← hC.stabs]; exact List.mem_range.1 hs)
      rw [← hC.size] at this
      exact this
    · simp only [List.mem_singleton] at hp
      subst hp; dsimp only; decide

/-- There are rounded logarithms, for every relative error. -/
theorem exists_rounded {δ : ℝ} (hδ : 0 < δ) : ∃ negLog : ℚ → Option FW, RoundedLog δ negLog := by
  have : ∀ x : ℚ, ∃ q : ℚ, 0 < x → x < 1 / 2 → (1 - δ) * Real.log ((1 - x) / x) ≤ q ∧ (q : ℝ) ≤ (1 + δ) * Real.log ((1 - x) / x) := by
    intro x
    by_cases hx : 0 < x ∧ x < 1 / 2
    · have hx0 : (0 : ℝ) < x := by exact_mod_cast hx.1
      have hx1 : (x : ℝ) < 1 / 2 := by
        have : ((x : ℚ) : ℝ) < ((1 / 2 : ℚ) : ℝ) := by exact_mod_cast hx.2
        push_cast at this; exact this
      have hlog : 0 < Real.log ((1 - x) / x) := Real.log_pos (by rw [lt_div_iff₀ hx0]; linarith)
      obtain ⟨q, h1, h2⟩ := exists_rat_btwn (show (1 - δ) * Real.log ((1 - x) / x) < (1 + δ) * Real.log ((1 - x) / x) by nlinarith)
      exact ⟨q, fun _ _ => ⟨h1.le, h2.le⟩⟩
    · exact ⟨0, fun h1 h2 => absurd ⟨h1, h2⟩ hx⟩
  choose q hq using this
  exact ⟨fun x => some ((q x : WithTop ℚ) : FW), fun x h0 h1 => ⟨q x, rfl, hq x h0 h1⟩⟩

/-- Uniform error data with a rate of 1/100 for each Pauli error, and a logarithm rounded with an error of at most 1 %. The decoders made from them fail with probability
at most 15 in a million on independent faults of a rate of one in a million, in five rounds of the planar code of size 9. -/
example : ∃ c solve₁ solve₂ negLog, makePlanar 5 9 = .ok c ∧ IsPyMatching solve₁ ∧ IsFusionBlossom solve₂ ∧ RoundedLog (1 / 100) negLog ∧
    ∃ g states₁ states₂, fromCode FW.isInf negLog (1 / 1000000000000000) (pmBackend solve₁) c (some (uniformErrs c.n c.code.stabilisers.length (1 / 100))) none none = .ok (g, states₁) ∧
      fromCode FW.isInf negLog (1 / 1000000000000000) (fbBackend solve₂) c (some (uniformErrs c.n c.code.stabilisers.length (1 / 100))) none none = .ok (g, states₂) ∧
    ∃ (μ : Measure (Place c.n → Bool)) (syn : (Place c.n → Bool) → Option (List (List Bool))), IsProbabilityMeasure μ ∧
      Trials μ (1 / 1000000 : ℝ≥0) c.code.stabilisers 5 (markedFaults 5) (fun _ => none) syn ∧
      μ {ω | ¬ ∃ corr, decode (pmBackend solve₁) g c.n states₁ none (syn ω) = .ok corr ∧ (markedFaults 5 ω).Corrected 5 c.code.logicalOps corr} ≤ (15 / 1000000 : ℝ≥0) ∧
      μ {ω | ¬ ∃ corr, decode (fbBackend solve₂) g c.n states₂ none (syn ω) = .ok corr ∧ (markedFaults 5 ω).Corrected 5 c.code.logicalOps corr} ≤ (15 / 1000000 : ℝ≥0) := by
  obtain ⟨c, hc, hr, h1, h2⟩ := C111_planar 5 9 (by decide)
  obtain ⟨solve₁, hS₁⟩ := exists_pyMatching
  obtain ⟨solve₂, hS₂⟩ := exists_fusionBlossom
  obtain ⟨negLog, hlog⟩ := exists_rounded (δ := 1 / 100) (by norm_num)
  have hD := uniform_between (Made.codeOk (.planar (by decide) hc)) (x := 1 / 100) (by norm_num) (1 / 1000000000000000)
  have hρ : (1 + (1 / 100 : ℝ)) * Real.log ((1 - ((2 * (1 / 100) : ℚ) : ℝ)) / ((2 * (1 / 100) : ℚ) : ℝ)) <
      ((2 : Nat) : ℝ) * ((1 - (1 / 100 : ℝ)) * Real.log ((1 - ((2 * (1 / 100) : ℚ) : ℝ)) / ((2 * (1 / 100) : ℚ) : ℝ))) := by
    have : 0 < Real.log ((1 - ((2 * (1 / 100) : ℚ) : ℝ)) / ((2 * (1 / 100) : ℚ) : ℝ)) := Real.log_pos (by push_cast; norm_num)
    push_cast at this ⊢
    nlinarith
  obtain ⟨g, states₁, hf₁, hP₁⟩ := C111_logarithms (h1 solve₁ hS₁ 2) (by norm_num) (by norm_num) hlog (by norm_num) le_rfl (by norm_num) hρ hD (weighted := none) (by simp)
  obtain ⟨g', states₂, hf₂, hP₂⟩ := C111_logarithms (h2 solve₂ hS₂ 2 2 (by decide)) (by norm_num) (by norm_num) hlog (by norm_num) le_rfl (by norm_num) hρ hD (weighted := none) (by simp)
  have hgg : g' = g := by
    unfold fromCode at hf₁ hf₂
    simp only [bind_ok] at hf₁ hf₂
    obtain ⟨g1, a1, s1, -, b1⟩ := hf₁
    obtain ⟨g2, a2, s2, -, b2⟩ := hf₂
    rw [a1] at a2; cases a2
    cases b1; cases b2; rfl
  subst hgg
  obtain ⟨μ, syn, hμ, _, hT⟩ := exists_trials c.code.stabilisers 5 (1 / 1000000) (by rw [← NNReal.coe_le_coe]; push_cast; norm_num)
  have hq : (((1 / 10 : ℝ≥0)) : ℝ≥0∞) ≤ 1 := by exact_mod_cast (by rw [← NNReal.coe_le_coe]; push_cast; norm_num : (1 / 10 : ℝ≥0) ≤ 1)
  have hpq : ((10 : Nat) : ℝ≥0∞) ^ (2 + 1) * ((1 / 1000000 : ℝ≥0) : ℝ≥0∞) ≤ ((1 / 10 : ℝ≥0) : ℝ≥0∞) ^ (2 + 1) := by
    exact_mod_cast (by rw [← NNReal.coe_le_coe]; push_cast; norm_num : (10 : ℝ≥0) ^ 3 * (1 / 1000000) ≤ (1 / 10) ^ 3)
  have hno : ∀ (_ : Place c.n → Bool) (t q : Nat), ¬ SynBit none t q := fun _ _ _ ⟨_, _, h, _⟩ => by cases h
  have hε : 32 * ((5 : Nat) : ℝ≥0∞) * ((9 : Nat) : ℝ≥0∞) ^ 2 * ((1 / 10 : ℝ≥0) : ℝ≥0∞) ^ 9 * (1 - ((1 / 10 : ℝ≥0) : ℝ≥0∞))⁻¹ ≤ (15 / 1000000 : ℝ≥0) := by
    have h9 : (1 : ℝ≥0∞) - ((1 / 10 : ℝ≥0) : ℝ≥0∞) = ((9 / 10 : ℝ≥0) : ℝ≥0∞) := by
      have h : (1 : ℝ≥0) - 1 / 10 = 9 / 10 := tsub_eq_of_eq_add (by rw [← NNReal.coe_inj]; push_cast; norm_num)
      rw [← ENNReal.coe_one, ← ENNReal.coe_sub, h]
    rw [h9, ← ENNReal.coe_inv (by rw [Ne, ← NNReal.coe_inj]; push_cast; norm_num)]
    exact_mod_cast (by rw [← NNReal.coe_le_coe]; push_cast; norm_num : 32 * 5 * 9 ^ 2 * (1 / 10 : ℝ≥0) ^ 9 * (9 / 10 : ℝ≥0)⁻¹ ≤ (15 / 1000000 : ℝ≥0))
  rw [hr] at hP₁ hP₂
  exact ⟨c, solve₁, solve₂, negLog, hc, hS₁, hS₂, hlog, g', states₁, states₂, hf₁, hf₂, μ, syn, hμ, hT,
    (hP₁ _ μ _ _ _ _ _ hT (fun _ => hno) (by simp) hq hpq).trans hε, (hP₂ _ μ _ _ _ _ _ hT (fun _ => hno) (by simp) hq hpq).trans hε⟩

end Plaquette
