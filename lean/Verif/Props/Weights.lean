import Verif.Lemmas.Weights
import Verif.Props.Erased
import Verif.Props.Generator

/-!
# Properties of the weights of the syndrome graph (C41, C42, C57, C58)
-/

namespace Plaquette
variable {W σ : Type} {n : Nat}

/-! ### What the error data say -/

/-- The parts of a Pauli error: an error `Y` is an error `X` (`true`) and an error `Z` (`false`). -/
def parts : Letter → List Bool
  | .X => [true]
  | .Y => [true, false]
  | .Z => [false]

/-- The name of a Pauli error in the error data. -/
def letterKey : Letter → List Char
  | .X => ['x']
  | .Y => ['y']
  | .Z => ['z']

/-- The probability of a Pauli error on a data qubit. -/
def pauliProb (errs : ErrData) (q : Nat) (a : Letter) : ℚ :=
  match dictGet errs "pauli".toList with
  | none => 0
  | some d =>
    match dictGet d (.int q) with
    | none => 0
    | some ps => paramVal ps (letterKey a)

/-- The probability of a measurement error of the qubit with that number. -/
def measProb (errs : ErrData) (i : Nat) : ℚ :=
  match dictGet errs "measurement".toList with
  | none => 0
  | some d =>
    match dictGet d (.int i) with
    | none => 0
    | some ps => paramVal ps ['p']

/-- The total probability of the errors that an edge of the syndrome graph stands for: the Pauli errors with that part, or the error of
the measurement of the stabiliser, which has the number `nData + s` in the error data. `prob` and `meas` are the probabilities of the
single errors. -/
def flipProb (prob : Nat → Letter → ℚ) (meas : Nat → ℚ) (nData : Nat) : EdgeKind → ℚ
  | .qubit _ _ q isX => (([Letter.X, .Y, .Z].filter fun a => isX ∈ parts a).map (prob q)).sum
  | .stab _ s => meas (nData + s)

/-- **C42** The parts of a Pauli error: a stabiliser is flipped by the error if it is flipped by an odd number of the parts. -/
theorem C42_parts (s : Op n) (q : Fin n) (a : Letter) :
    anti s (singleOp false a q) = (parts a).foldr (fun isX b => (anti s (errorOn isX q)) ^^ b) false := by
  have hY : anti s (singleOp false .Y q) = (s.z q ^^ s.x q) := by
    refine sgn_injective ?_
    rw [sgn_anti, Finset.prod_eq_single q]
    · congr 1; simp [antiBit, singleOp, letter_beq, Bool.xor_comm]
    · intro q' _ hq; simp [antiBit, singleOp, hq, sgn]
    · simp
  cases a with
  | X => simp [parts, errorOn]
  | Z => simp [parts, errorOn]
  | Y => rw [hY]; simp [parts, errorOn, anti_X, anti_Z]

/-! ### The computed probabilities -/

/-- A code whose sizes and indices are those of its lattice. -/
structure LatCode.Ok (C : LatCode) : Prop where
  indexed : C.lattice.Indexed
  size : C.n = C.lattice.dataqubits.length
  stabs : C.code.stabilisers.length = C.lattice.stabgens.length

/-- The dictionaries have no key twice. -/
def KeysOk (errs : ErrData) : Prop := ∀ name d, dictGet errs name = some d → (d.map Prod.fst).Nodup

theorem checkAgainstCode_ok {L : Lattice} {errs : ErrData} (h : checkAgainstCode L errs = .ok ()) :
    (∀ d, dictGet errs "pauli".toList = some d → ∀ e ∈ d, L.checkData e.1 = .ok ()) ∧
    ∀ d, dictGet errs "measurement".toList = some d → ∀ e ∈ d, L.checkStab e.1 = .ok () := by
  unfold checkAgainstCode at h
  split at h
  · cases h
  · simp only [bind_ok] at h
    obtain ⟨⟨⟩, h1, ⟨⟩, -, ⟨⟩, h3, -⟩ := h
    rw [checkIf_ok] at h1 h3
    exact ⟨fun d hd e he => (checkPhysQubit_ok.mp (h1 d hd) e he).1, fun d hd e he => (checkStabQubit_ok.mp (h3 d hd) e he).1⟩

theorem data_key {L : Lattice} {e : QKey × Params ℚ} (h : L.checkData e.1 = .ok ()) : e.1 = .int e.1.nat := by
  obtain ⟨i, p, h1, -⟩ := Lattice.checkData_ok.mp h
  rw [h1]; rfl

theorem stab_key {L : Lattice} {e : QKey × Params ℚ} (h : L.checkStab e.1 = .ok ()) : e.1 = .int e.1.nat := by
  obtain ⟨i, p, h1, -⟩ := Lattice.checkStab_ok.mp h
  rw [h1]; rfl

theorem edgeProbs_spec {C : LatCode} (hC : C.Ok) {errs : ErrData} (hk : KeysOk errs) {p : EdgeProbs} (h : edgeProbs C errs = .ok p) :
    (p.px.length = C.n ∧ ∀ q < C.n, p.px[q]? = some (pauliProb errs q .X + pauliProb errs q .Y)) ∧
    (p.pz.length = C.n ∧ ∀ q < C.n, p.pz[q]? = some (pauliProb errs q .Y + pauliProb errs q .Z)) ∧
    (p.pm.length = C.code.stabilisers.length ∧ ∀ s < C.code.stabilisers.length, p.pm[s]? = some (measProb errs (C.n + s))) := by
  unfold edgeProbs at h
  simp only [bind_ok] at h
  obtain ⟨⟨⟩, hchk, h⟩ := h
  obtain ⟨hp, hm⟩ := checkAgainstCode_ok hchk
  split at h
  · cases h
  · simp only [bind_ok] at h
    obtain ⟨eff, heff, pm, hpm, h⟩ := h
    cases h
    refine ⟨?_, ?_, ?_⟩
    · unfold pauliProb
      cases hd : dictGet errs "pauli".toList with
      | none =>
        rw [hd] at heff; cases heff
        refine ⟨by simp, fun q hq => ?_⟩
        simp [hq]
      | some d =>
        rw [hd] at heff
        simp only [pauliEff, bind_ok] at heff
        obtain ⟨qq, hloop, heff⟩ := heff
        cases heff
        obtain ⟨l1, l2, l3⟩ := setLoop_spec Prod.fst (fun e : QKey × Params ℚ => e.1.nat) (fun e => paramVal e.2 "x".toList + paramVal e.2 "y".toList) d
          (fun s s' a ha hs => (pauliStep_ok hC.indexed (hp d hd a ha) hs).1) (by
            have := hk _ _ hd
            rw [List.Nodup, List.pairwise_map] at this ⊢
            refine this.imp_of_mem fun {a b} ha hb hab hc => hab ?_
            rw [data_key (hp d hd a ha), data_key (hp d hd b hb), hc]) hloop
        have hlen : qq.1.length = C.n := by simpa using l1
        rw [updateEff_zero hlen]
        refine ⟨hlen, fun q hq => ?_⟩
        dsimp only
        cases hdq : dictGet d (.int q) with
        | none =>
          rw [l3 q]
          · simp [hq]
          · intro hmem
            obtain ⟨e, he, hen⟩ := List.mem_map.mp hmem
            refine dictGet_none.mp hdq e he ?_
            rw [data_key (hp d hd e he)]
            exact congrArg (fun k : Nat => QKey.int k) hen
        | some ps => exact l2 _ (dictGet_some_mem hdq) (by simpa [QKey.nat] using hq)
    · unfold pauliProb
      cases hd : dictGet errs "pauli".toList with
      | none =>
        rw [hd] at heff; cases heff
        refine ⟨by simp, fun q hq => ?_⟩
        simp [hq]
      | some d =>
        rw [hd] at heff
        simp only [pauliEff, bind_ok] at heff
        obtain ⟨qq, hloop, heff⟩ := heff
        cases heff
        obtain ⟨l1, l2, l3⟩ := setLoop_spec Prod.snd (fun e : QKey × Params ℚ => e.1.nat) (fun e => paramVal e.2 "y".toList + paramVal e.2 "z".toList) d
          (fun s s' a ha hs => (pauliStep_ok hC.indexed (hp d hd a ha) hs).2) (by
            have := hk _ _ hd
            rw [List.Nodup, List.pairwise_map] at this ⊢
            refine this.imp_of_mem fun {a b} ha hb hab hc => hab ?_
            rw [data_key (hp d hd a ha), data_key (hp d hd b hb), hc]) hloop
        have hlen : qq.2.length = C.n := by simpa using l1
        rw [updateEff_zero hlen]
        refine ⟨hlen, fun q hq => ?_⟩
        dsimp only
        cases hdq : dictGet d (.int q) with
        | none =>
          rw [l3 q]
          · simp [hq]
          · intro hmem
            obtain ⟨e, he, hen⟩ := List.mem_map.mp hmem
            refine dictGet_none.mp hdq e he ?_
            rw [data_key (hp d hd e he)]
            exact congrArg (fun k : Nat => QKey.int k) hen
        | some ps => exact l2 _ (dictGet_some_mem hdq) (by simpa [QKey.nat] using hq)
    · unfold measProb
      cases hd : dictGet errs "measurement".toList with
      | none =>
        rw [hd] at hpm; cases hpm
        refine ⟨by simp, fun q hq => ?_⟩
        simp [hq]
      | some d =>
        rw [hd] at hpm
        dsimp only [measEff] at hpm
        have hge : ∀ e ∈ d, C.lattice.dataqubits.length ≤ e.1.nat := by
          intro e he
          obtain ⟨i, p, h1, h2, h3⟩ := Lattice.checkStab_ok.mp (hm d hd e he)
          rw [h1]
          exact (hC.indexed.stab h2 h3).1
        obtain ⟨l1, l2, l3⟩ := setLoop_spec id (fun e : QKey × Params ℚ => e.1.nat - C.lattice.dataqubits.length) (fun e => paramVal e.2 "p".toList) d
          (fun s s' a ha hs => measStep_ok hC.indexed (hm d hd a ha) hs) (by
            have := hk _ _ hd
            rw [List.Nodup, List.pairwise_map] at this ⊢
            refine this.imp_of_mem fun {a b} ha hb hab hc => hab ?_
            have h1 := hge a ha
            have h2 := hge b hb
            rw [stab_key (hm d hd a ha), stab_key (hm d hd b hb), show a.1.nat = b.1.nat by omega]) hpm
        have hlen : pm.length = C.code.stabilisers.length := by simpa using l1
        refine ⟨hlen, fun s hs => ?_⟩
        dsimp only
        cases hdq : dictGet d (.int ((C.n + s : Nat) : Int)) with
        | none =>
          have := l3 s (by
            intro hmem
            obtain ⟨e, he, hen⟩ := List.mem_map.mp hmem
            refine dictGet_none.mp hdq e he ?_
            have := hge e he
            have hn := hC.size
            rw [stab_key (hm d hd e he)]
            exact congrArg (fun k : Nat => QKey.int k) (by omega))
          rw [id, id] at this
          rw [this]
          simp [hs]
        | some ps =>
          have hn : ((C.n + s : Nat) : Int).toNat - C.lattice.dataqubits.length = s := by have := hC.size; omega
          have := l2 _ (dictGet_some_mem hdq) (by simp only [QKey.nat, hn, id]; simpa using hs)
          simp only [QKey.nat, hn, id] at this
          exact this

/-! ### The weights of the edges -/

theorem weightFor_arr {l : List ℚ} {m i : Nat} {negLog : ℚ → Option W} {x : Option W} {v : ℚ} (hl : l.length = m) (hi : i < m)
    (hv : l[i]? = some v) (h : WeightFor (.arr (l.map negLog)) i x) : x = negLog v := by
  unfold WeightFor at h
  match l, hl, hv, h with
  | [], hl, hv, h => simp at hv
  | [y], hl, hv, h =>
    simp only [List.length_singleton] at hl
    obtain rfl : i = 0 := by omega
    simp only [List.getElem?_cons_zero, Option.some.injEq] at hv
    subst hv
    exact h
  | y :: z :: l, hl, hv, h =>
    simp only [List.map_cons] at h
    have e : (negLog y :: negLog z :: l.map negLog) = (y :: z :: l).map negLog := rfl
    rw [e, List.getElem?_map, hv] at h
    exact (Option.some.inj h).symm

section
variable [LinearOrder W] {isInf : W → Bool} {negLog : ℚ → Option W}

theorem managerWeights_some {C : LatCode} {errs : ErrData} {weighted : Option Bool} {w : Option (Weights W)}
    (h : managerWeights negLog C (some errs) weighted none = .ok w) :
    (weighted = some false ∧ w = none) ∨ (weighted ≠ some false ∧ ∃ p, edgeProbs C errs = .ok p ∧ w = some (p.weights negLog)) := by
  unfold managerWeights at h
  rw [if_neg (by simp)] at h
  split at h
  · rename_i hw
    simp only [bind_ok] at h
    obtain ⟨p, h1, h2⟩ := h
    cases h2
    refine .inr ⟨?_, p, h1, rfl⟩
    rintro rfl
    exact Bool.false_ne_true hw
  · rename_i hw
    cases h
    match weighted, hw with
    | some false, _ => exact .inl ⟨rfl, rfl⟩
    | some true, hw => exact absurd rfl hw
    | none, hw => exact absurd rfl hw

/-- **C42** The weight of an edge is `-log(p / (1 - p))` of the total probability of the errors that the edge stands for. -/
theorem C42_weights {C : LatCode} (hC : C.Ok) {errs : ErrData} (hk : KeysOk errs) {weighted : Option Bool} (hw : weighted ≠ some false)
    {g : SynGraph W} (h : manager isInf negLog C (some errs) weighted none = .ok g) :
    ∀ e ∈ g.edges, e.weight = negLog (flipProb (pauliProb errs) (measProb errs) C.n e.kind) := by
  unfold manager at h
  rw [bind_ok] at h
  obtain ⟨w, h1, h2⟩ := h
  rcases managerWeights_some h1 with ⟨h3, -⟩ | ⟨-, p, hp, rfl⟩
  · exact absurd h3 hw
  obtain ⟨⟨x1, x2⟩, ⟨z1, z2⟩, m1, m2⟩ := edgeProbs_spec hC hk hp
  intro e he
  have hg := C33_weights h2 e he
  obtain ⟨i, hi⟩ := List.mem_iff_getElem?.mp he
  rcases edge_cases h2 hi with ⟨t, o, l, -, -, hkind, -⟩ | ⟨t, s, -, hs, hkind, -⟩
  · rw [hkind] at hg ⊢
    unfold GivenWeight at hg
    dsimp only at hg
    cases hX : (l.1 == Letter.X) with
    | true =>
      rw [hX] at hg
      rw [weightFor_arr x1 l.2.isLt (x2 _ l.2.isLt) hg]
      simp [flipProb, parts]
    | false =>
      rw [hX] at hg
      rw [weightFor_arr z1 l.2.isLt (z2 _ l.2.isLt) hg]
      simp [flipProb, parts]
  · rw [hkind] at hg ⊢
    unfold GivenWeight at hg
    dsimp only at hg
    exact weightFor_arr m1 hs (m2 _ hs) hg

end

/-! ### C42: the function -/

/-- The odds of a probability. -/
noncomputable def probOdds (p : ℚ) : ENNReal := ENNReal.ofReal (p : ℝ) / ENNReal.ofReal (1 - (p : ℝ))

theorem logWeight_odds {p : ℚ} (h0 : 0 ≤ p) (h1 : p ≤ 1) : logWeight p = some (-ENNReal.log (probOdds p)) := if_pos ⟨h0, h1⟩

theorem probOdds_one : probOdds 1 = ⊤ := by
  unfold probOdds
  norm_num

theorem probOdds_lt_one {p : ℚ} (h0 : 0 ≤ p) (h1 : p < 1) : probOdds p = ENNReal.ofReal ((p : ℝ) / (1 - (p : ℝ))) := by
  have : (p : ℝ) < 1 := by exact_mod_cast h1
  unfold probOdds
  rw [ENNReal.ofReal_div_of_pos (by linarith)]

theorem probOdds_mono {p q : ℚ} (h0 : 0 ≤ p) (hpq : p < q) (h1 : q ≤ 1) : probOdds p < probOdds q := by
  have hp : (0 : ℝ) ≤ p := by exact_mod_cast h0
  have hpq' : (p : ℝ) < q := by exact_mod_cast hpq
  rw [probOdds_lt_one h0 (lt_of_lt_of_le hpq h1)]
  rcases h1.lt_or_eq with h1 | rfl
  · have hq : (q : ℝ) < 1 := by exact_mod_cast h1
    rw [probOdds_lt_one (h0.trans hpq.le) h1, ENNReal.ofReal_lt_ofReal_iff_of_nonneg (div_nonneg hp (by linarith)), div_lt_div_iff₀ (by linarith) (by linarith)]
    nlinarith
  · rw [probOdds_one]
    exact ENNReal.ofReal_lt_top

theorem probOdds_half : probOdds (1 / 2) = 1 := by
  rw [probOdds_lt_one (by norm_num) (by norm_num)]
  norm_num

theorem probOdds_zero {p : ℚ} (h0 : 0 ≤ p) (h1 : p ≤ 1) : probOdds p = 0 ↔ p = 0 := by
  constructor
  · intro h
    by_contra hne
    have := probOdds_mono le_rfl (lt_of_le_of_ne h0 (Ne.symm hne)) h1
    rw [h] at this
    exact not_lt_bot this
  · rintro rfl
    rw [probOdds_lt_one le_rfl (by norm_num)]
    norm_num

theorem probOdds_top {p : ℚ} (h0 : 0 ≤ p) (h1 : p ≤ 1) : probOdds p = ⊤ ↔ p = 1 := by
  constructor
  · intro h
    by_contra hne
    have := probOdds_mono h0 (lt_of_le_of_ne h1 hne) le_rfl
    rw [h] at this
    exact not_top_lt this
  · rintro rfl; exact probOdds_one

/-- **C42** as listed: the weight decreases strictly with the probability, is positive below 1/2, zero at 1/2, and the edge is disabled
(the weight is infinite) exactly when the probability is zero. -/
def C42_statement : Prop :=
  (∀ p q : ℚ, 0 ≤ p → p < q → q ≤ 1 → ∃ a b, logWeight p = some a ∧ logWeight q = some b ∧ b < a) ∧
  (∀ p : ℚ, 0 ≤ p → p < 1 / 2 → ∃ a, logWeight p = some a ∧ 0 < a) ∧
  logWeight (1 / 2) = some 0 ∧
  ∀ p : ℚ, 0 ≤ p → p ≤ 1 → ∃ a, logWeight p = some a ∧ (erealInf a = true ↔ p = 0)

/-- **C42** is false: the edge of an error that certainly happens is disabled as well. -/
theorem C42_certain_counterexample : ¬ C42_statement := by
  rintro ⟨-, -, -, h⟩
  obtain ⟨a, h1, h2⟩ := h 1 (by norm_num) le_rfl
  rw [logWeight_odds (by norm_num) le_rfl, probOdds_one, ENNReal.log_top] at h1
  cases h1
  exact absurd (h2.mp (by simp [erealInf])) (by norm_num)

/-- **C42** for probabilities below 1 (only the last part needs that; missing: the edge of an error that certainly happens is disabled):
the weight decreases strictly with the probability, is positive below 1/2, zero at 1/2, `+∞` exactly when the error cannot happen, and
the edge is disabled exactly when the error cannot happen. -/
theorem C42_order_partial :
    (∀ p q : ℚ, 0 ≤ p → p < q → q ≤ 1 → ∃ a b, logWeight p = some a ∧ logWeight q = some b ∧ b < a) ∧
    (∀ p : ℚ, 0 ≤ p → p < 1 / 2 → ∃ a, logWeight p = some a ∧ 0 < a) ∧
    logWeight (1 / 2) = some 0 ∧
    (∀ p : ℚ, 0 ≤ p → p ≤ 1 → (logWeight p = some ⊤ ↔ p = 0)) ∧
    ∀ p : ℚ, 0 ≤ p → p < 1 → ∃ a, logWeight p = some a ∧ (erealInf a = true ↔ p = 0) := by
  have mono : ∀ p q : ℚ, 0 ≤ p → p < q → q ≤ 1 → ∃ a b, logWeight p = some a ∧ logWeight q = some b ∧ b < a := by
    intro p q h0 hpq h1
    refine ⟨_, _, logWeight_odds h0 (hpq.le.trans h1), logWeight_odds (h0.trans hpq.le) h1, ?_⟩
    exact EReal.neg_lt_neg_iff.mpr (ENNReal.log_strictMono (probOdds_mono h0 hpq h1))
  have half : logWeight (1 / 2) = some 0 := by
    rw [logWeight_odds (by norm_num) (by norm_num), probOdds_half, ENNReal.log_one, neg_zero]
  refine ⟨mono, ?_, half, ?_, ?_⟩
  · intro p h0 h1
    obtain ⟨a, b, ha, hb, hlt⟩ := mono p (1 / 2) h0 h1 (by norm_num)
    rw [half] at hb
    cases hb
    exact ⟨a, ha, hlt⟩
  · intro p h0 h1
    rw [logWeight_odds h0 h1, Option.some.injEq, EReal.neg_eq_top_iff, ENNReal.log_eq_bot_iff, probOdds_zero h0 h1]
  · intro p h0 h1
    refine ⟨_, logWeight_odds h0 h1.le, ?_⟩
    unfold erealInf
    rw [decide_eq_true_iff, EReal.neg_eq_top_iff, EReal.neg_eq_bot_iff, ENNReal.log_eq_bot_iff, ENNReal.log_eq_top_iff, probOdds_zero h0 h1.le,
      probOdds_top h0 h1.le]
    exact ⟨fun h => h.elim id fun h => absurd h h1.ne, .inl⟩

/-- **C42** Numbers that are not probabilities get no weight (`nan`). -/
theorem C42_nan (p : ℚ) : logWeight p = none ↔ p < 0 ∨ 1 < p := by
  unfold logWeight
  split
  · rename_i h
    refine iff_of_false (by simp) ?_
    rintro (h' | h') <;> linarith [h.1, h.2]
  · rename_i h
    refine iff_of_true rfl ?_
    by_contra hc
    push Not at hc
    exact h hc

/-! ### C41: `from_code` -/

/-- No parameter is a text. -/
def NumericData (errs : ErrData) : Prop := ∀ name d, dictGet errs name = some d → ∀ e ∈ d, Numeric e.2

theorem paramVal_default (tiny : ℚ) (a : Letter) : paramVal (defaultPauli tiny) (letterKey a) = tiny := by
  cases a <;> rfl

theorem letterKey_mem (a : Letter) : letterKey a ∈ [['x'], ['y'], ['z']] := by cases a <;> simp [letterKey]

/-- The value of a parameter in an entry. -/
def entryVal (o : Option (Params ℚ)) (k : List Char) : ℚ :=
  match o with
  | none => 0
  | some ps => paramVal ps k

theorem paramVal_fillEntry {tiny : ℚ} {o : Option (Params ℚ)} (h : ∀ ps, o = some ps → Numeric ps) (a : Letter) :
    paramVal (fillEntry tiny o) (letterKey a) = fill tiny (entryVal o (letterKey a)) := by
  unfold fillEntry entryVal
  match o with
  | none =>
    rw [if_pos (by rfl), paramVal_default]
    simp [fill]
  | some [] =>
    rw [if_pos (by rfl), paramVal_default]
    simp [fill, paramVal, dictGet]
  | some (e :: ps) =>
    rw [if_neg (by simp)]
    exact paramVal_complete (h _ rfl) (letterKey_mem a)

theorem names_ne : "measurement".toList ≠ "pauli".toList ∧ "erasure".toList ≠ "pauli".toList ∧ "measurement".toList ≠ "erasure".toList := by
  decide

/-- What the completed error data say. -/
theorem complete_get (tiny : ℚ) (n : Nat) (errs : ErrData) (name : List Char) :
    dictGet (completeErrors tiny n (some errs)) name =
      if name = "pauli".toList then some (match dictGet errs "pauli".toList with
        | none => defaultDict tiny n
        | some d => (List.range n).foldl (completePauli tiny) d)
      else if name = "erasure".toList ∧ (dictGet errs "pauli".toList).isSome then (dictGet errs name).map fun d => (List.range n).foldl completeErasure d
      else dictGet errs name := by
  have hne := names_ne
  unfold completeErrors
  dsimp only
  cases hp : dictGet errs "pauli".toList with
  | none =>
    dsimp only
    rw [dictGet_set]
    simp [defaultDict]
  | some d =>
    dsimp only
    rw [dictGet_set, if_neg hne.2.1]
    cases he : dictGet errs "erasure".toList with
    | none =>
      dsimp only
      rw [dictGet_set]
      by_cases h1 : name = "pauli".toList
      · rw [if_pos h1, if_pos h1]
      · rw [if_neg h1, if_neg h1]
        split
        · rename_i h2; rw [h2.1, he]; rfl
        · rfl
    | some d' =>
      dsimp only
      rw [dictGet_set, dictGet_set]
      by_cases h1 : name = "pauli".toList
      · rw [if_pos h1, if_pos h1, if_neg (by rw [h1]; exact hne.2.1.symm)]
      · rw [if_neg h1, if_neg h1]
        by_cases h2 : name = "erasure".toList
        · rw [if_pos h2, if_pos ⟨h2, rfl⟩, h2, he]; rfl
        · rw [if_neg h2, if_neg fun h => h2 h.1]

/-- The Pauli errors in the completed error data: every probability that is zero or missing becomes `tiny`. -/
theorem pauliProb_complete {tiny : ℚ} {n : Nat} {errs : ErrData} (hnum : NumericData errs) {q : Nat} (hq : q < n) (a : Letter) :
    pauliProb (completeErrors tiny n (some errs)) q a = fill tiny (pauliProb errs q a) := by
  unfold pauliProb
  rw [complete_get, if_pos rfl]
  dsimp only
  cases hp : dictGet errs "pauli".toList with
  | none =>
    dsimp only
    rw [defaultDict_get tiny n hq]
    exact (paramVal_default tiny a).trans (by simp [fill])
  | some d =>
    dsimp only
    rw [completeFold_get, if_pos ⟨q, hq, rfl⟩]
    dsimp only
    rw [paramVal_fillEntry fun ps hps => hnum _ _ hp _ (dictGet_some_mem hps)]
    cases dictGet d (.int q) <;> rfl

theorem measProb_complete (tiny : ℚ) (n : Nat) (errs : ErrData) (i : Nat) :
    measProb (completeErrors tiny n (some errs)) i = measProb errs i := by
  unfold measProb
  rw [complete_get, if_neg names_ne.1, if_neg fun h => names_ne.2.2 h.1]

theorem keysOk_complete (tiny : ℚ) (n : Nat) {errs : ErrData} (h : KeysOk errs) : KeysOk (completeErrors tiny n (some errs)) := by
  intro name d hd
  rw [complete_get] at hd
  split at hd
  · cases hd
    cases hp : dictGet errs "pauli".toList with
    | none => exact defaultDict_nodup tiny n
    | some d => exact completeFold_nodup tiny (h _ _ hp) _
  · split at hd
    · obtain ⟨d', h1, rfl⟩ := Option.map_eq_some_iff.mp hd
      exact erasureFold_nodup (h _ _ h1) _
    · exact h _ _ hd

section
variable [LinearOrder W] {isInf : W → Bool} {negLog : ℚ → Option W}

/-- **C41**, second half: with error data (and no weights) the decoder uses the weights computed from the error data. Pauli errors whose
probability is zero or missing count with the probability `tiny` (`1e-15`). -/
theorem C41_errordata_partial {tiny : ℚ} {b : Backend W σ} {C : LatCode} (hC : C.Ok) {errs : ErrData} (hk : KeysOk errs) (hnum : NumericData errs)
    {weighted : Option Bool} (hw : weighted ≠ some false) {g : SynGraph W} {states : List σ}
    (h : fromCode isInf negLog tiny b C (some errs) weighted none = .ok (g, states)) :
    setupAll b g = .ok states ∧
    ∀ e ∈ g.edges, e.weight = negLog (flipProb (fun q a => fill tiny (pauliProb errs q a)) (measProb errs) C.n e.kind) := by
  unfold fromCode at h
  simp only [bind_ok] at h
  obtain ⟨g', h1, s, h2, h3⟩ := h
  cases h3
  refine ⟨h2, fun e he => ?_⟩
  have h4 := C42_weights hC (keysOk_complete tiny C.lattice.dataqubits.length hk) hw h1 e he
  rw [h4]
  unfold manager at h1
  rw [bind_ok] at h1
  obtain ⟨w, -, h5⟩ := h1
  obtain ⟨i, hi⟩ := List.mem_iff_getElem?.mp he
  rcases edge_cases h5 hi with ⟨t, o, l, -, -, hkind, -⟩ | ⟨t, s, -, hs, hkind, -⟩
  · rw [hkind]
    have : ∀ a, pauliProb (completeErrors tiny C.lattice.dataqubits.length (some errs)) l.2.val a = fill tiny (pauliProb errs l.2.val a) :=
      fun a => pauliProb_complete hnum (by rw [← hC.size]; exact l.2.isLt) a
    unfold flipProb
    dsimp only
    congr 3
    exact funext this
  · rw [hkind]
    unfold flipProb
    dsimp only
    rw [measProb_complete]

/-- **C41** A syndrome graph manager that is made with weights uses them. -/
theorem C41_manager {C : LatCode} {weighted : Option Bool} (hw : weighted ≠ some false) (w : Weights W) :
    manager isInf negLog C none weighted (some w) = mkSynGraph isInf C.nRounds C.code.stabilisers (some w) := by
  have h : managerWeights negLog C none weighted (some w) = .ok (some w) := by
    unfold managerWeights
    rw [if_neg (by simp)]
    match weighted, hw with
    | none, _ => rfl
    | some true, _ => rfl
    | some false, hw => exact absurd rfl hw
  unfold manager
  rw [h]
  rfl

/-- **C41** But `from_code` refuses weights, whatever the other arguments are. -/
theorem C41_refused (tiny : ℚ) (b : Backend W σ) (C : LatCode) (errs : Option ErrData) (weighted : Option Bool) (w : Weights W) :
    fromCode isInf negLog tiny b C errs weighted (some w) = .error .valueError := rfl

end

/-- **C41** as listed, first half, for the union-find decoder: if the weights make a syndrome graph and the decoder accepts it, then
`from_code(code, None, weights=w)` returns the decoder of this graph. -/
def C41_statement : Prop :=
  ∀ (negLog : ℚ → Option FW) (tiny : ℚ) (C : LatCode) (w : Weights FW) (g : SynGraph FW) (states : List UGraph),
    mkSynGraph FW.isInf C.nRounds C.code.stabilisers (some w) = .ok g → setupAll (ufBackend true) g = .ok states →
    fromCode FW.isInf negLog tiny (ufBackend true) C none none (some w) = .ok (g, states)

/-- The repetition code of size 3. -/
def rep3Lat (r : Nat) : LatCode := { lattice := Rep.lat 3, nRounds := r, n := 3, code := (Rep.lat 3).code }

theorem rep3Lat_made (r : Nat) : makeRepetition r 3 = .ok (rep3Lat r) := by
  unfold makeRepetition
  rw [Rep.make 3 (by norm_num) (by norm_num)]
  exact mkLatCode_ok (Rep.wf 3 (by norm_num)) (Rep.full 3 (by norm_num)) r

/-- Weight 1 for everything. -/
def unitWeights : Weights FW := ⟨.num (some ((1 : ℚ) : FW)), .num (some ((1 : ℚ) : FW)), .num (some ((1 : ℚ) : FW))⟩

/-- `unitWeights` make a decoder for the repetition code. -/
def rep3Unit : Bool :=
  match mkSynGraph FW.isInf 2 (rep3Lat 2).code.stabilisers (some unitWeights) with
  | .error _ => false
  | .ok g => match setupAll (ufBackend true) g with
    | .error _ => false
    | .ok _ => true

theorem rep3Unit_ok : rep3Unit = true := by decide +kernel

theorem rep3Unit_witness : ∃ g states, mkSynGraph FW.isInf 2 (rep3Lat 2).code.stabilisers (some unitWeights) = .ok g ∧
    setupAll (ufBackend true) g = .ok states := by
  have h := rep3Unit_ok
  unfold rep3Unit at h
  cases hg : mkSynGraph FW.isInf 2 (rep3Lat 2).code.stabilisers (some unitWeights) with
  | error e => rw [hg] at h; cases h
  | ok g =>
    rw [hg] at h
    dsimp only at h
    cases hs : setupAll (ufBackend true) g with
    | error e => rw [hs] at h; cases h
    | ok states => exact ⟨g, states, rfl, hs⟩

/-- **C41** is false: `from_code(code, None, weights=w)` raises. -/
theorem C41_weights_counterexample : ¬ C41_statement := by
  intro h
  obtain ⟨g, states, h1, h2⟩ := rep3Unit_witness
  have h3 := h (fun _ => none) 0 (rep3Lat 2) unitWeights g states h1 h2
  rw [C41_refused] at h3
  cases h3

/-! ### C41: error data that work -/

theorem assigned_eq {L : Lattice} : L.assignIndices.equbits = L.assignIndices.indexed := rfl

theorem fromStab_eq {n : Nat} {ss ls : List (List Char)} {L : Lattice} (h : fromStabLattice n ss ls = .ok L) : L.equbits = L.indexed := by
  unfold fromStabLattice at h
  simp only [bind_ok] at h
  obtain ⟨_, -, _, -, _, -, h⟩ := h
  cases h
  rfl

/-- The codes of all families have up-to-date indices. -/
theorem Made.codeOk {r : Nat} {c : LatCode} (h : Made r c) : c.Ok := by
  have fin : ∀ {x : Except Err Lattice} {L : Lattice}, x = .ok L → L.Wf → L.Full → L.equbits = L.indexed →
      x.bind (fun L => mkLatCode L r) = .ok c → c.Ok := by
    rintro x L rfl hw hf he h
    have h : mkLatCode L r = .ok c := h
    rw [mkLatCode_ok hw hf, Except.ok.injEq] at h
    subst h
    exact ⟨⟨hw.occ, hw.indexed, he.trans hw.indexed⟩, rfl, by simp [Lattice.code]⟩
  cases h with
  | planar h2 h => exact fin (Planar.make _ h2 crossOrder (by decide)) (Planar.wf _ _ (by omega)) (Planar.full _ _ h2) rfl h
  | toric h2 h => exact fin (Toric.make h2 crossOrder (by decide)) (Toric.wf _ h2) (Toric.full _ h2) rfl h
  | rotated h2 h => exact fin (Rotated.make h2 diagOrder (by decide)) (Rotated.wf _ h2) (Rotated.full _ h2) rfl h
  | @repetition size _ h2 h =>
    by_cases hodd : size % 2 = 1
    · have h3 : 3 ≤ size := by omega
      exact fin (Rep.make size hodd h3) (Rep.wf size h3) (Rep.full size h3) rfl h
    · rw [makeRepetition, repetitionLattice, if_pos hodd] at h
      cases h
  | fiveQubit h =>
    obtain ⟨L, hL, hw, hc, hf⟩ := goodResult_spec five_good
    exact fin hL hw hf (fromStab_eq hL) h
  | shor h =>
    obtain ⟨L, hL, hw, hc, hf⟩ := goodResult_spec shor_good
    exact fin hL hw hf (fromStab_eq hL) h

/-- What is known about the logarithm: a positive number for probabilities between 0 and 1/2, infinity for 0. -/
def LogLike (negLog : ℚ → Option FW) : Prop :=
  negLog 0 = some ((⊤ : WithTop ℚ) : FW) ∧ ∀ p : ℚ, 0 < p → p < 1 / 2 → ∃ q : ℚ, 0 < q ∧ negLog p = some ((q : WithTop ℚ) : FW)

theorem ufSetup_total {c : Component FW} (hg : IsDecodingGraph c.nVertices c.edges) (hne : c.edges ≠ []) (hl : c.weights.length = c.edges.length)
    (hw : ∀ x ∈ c.weights, ∃ q : ℚ, 0 < q ∧ x = some ((q : WithTop ℚ) : FW)) : ∃ G, ufSetup true c = .ok G := by
  have hwne : c.weights ≠ [] := by
    intro h0
    rw [h0] at hl
    exact hne (List.eq_nil_of_length_eq_zero hl.symm)
  have h1 : isWeighted c.weights = .ok true := by
    unfold isWeighted
    rw [if_neg, if_neg]
    · intro h
      obtain ⟨x, hx, hn⟩ := List.any_eq_true.mp h
      obtain ⟨q, -, rfl⟩ := hw x hx
      cases hn
    · intro h
      obtain ⟨x, hx⟩ := List.exists_mem_of_ne_nil _ hwne
      have := List.all_eq_true.mp h x hx
      obtain ⟨q, -, rfl⟩ := hw x hx
      cases this
  have h2 : checkWeightsSane c.weights = .ok () := by
    unfold checkWeightsSane
    rw [if_neg, if_neg]
    · intro h
      obtain ⟨x, hx, hn⟩ := List.any_eq_true.mp h
      obtain ⟨q, hq, rfl⟩ := hw x hx
      have hn := of_decide_eq_true hn
      have := WithTop.coe_lt_coe.mp (WithBot.coe_lt_coe.mp hn)
      linarith
    · intro h
      obtain ⟨x, hx, hn⟩ := List.any_eq_true.mp h
      obtain ⟨q, -, rfl⟩ := hw x hx
      cases hn
  obtain ⟨l, h3⟩ : ∃ l, finiteWeights c.weights = .ok l := by
    unfold finiteWeights
    rw [mapLoop_ok_iff]
    intro x hx
    obtain ⟨q, -, rfl⟩ := hw x hx
    exact ⟨q, rfl⟩
  have hlen : l.length = c.weights.length := (mapLoop_get h3).1
  have hpos : ∀ q ∈ l, 0 < q := by
    intro q hq
    obtain ⟨x, hx, hx2⟩ := mapLoop_src h3 hq
    obtain ⟨q', hq', rfl⟩ := hw x hx
    cases hx2
    exact hq'
  have h4 : ufBackendWeights c.weights = .ok (some l) := by
    unfold ufBackendWeights
    rw [h1]
    dsimp only
    rw [h2]
    dsimp only
    rw [h3]
  obtain ⟨p, h5⟩ : ∃ p, ufWeights true c.edges.length 2 (some l) = .ok p := by
    unfold ufWeights
    dsimp only
    have hlne : l ≠ [] := by
      intro h0
      rw [h0] at hlen
      exact hwne (List.eq_nil_of_length_eq_zero hlen.symm)
    obtain ⟨q, hq⟩ := List.exists_mem_of_ne_nil _ hlne
    have hf : (l.filter fun w => decide (w ≠ 0)) ≠ [] := List.ne_nil_of_mem (List.mem_filter.mpr ⟨hq, decide_eq_true (hpos q hq).ne'⟩)
    cases hm : (l.filter fun w => decide (w ≠ 0)).min? with
    | none => exact absurd (List.min?_eq_none_iff.mp hm) hf
    | some lo =>
      dsimp only
      rw [if_pos rfl, if_pos (hlen.trans hl)]
      exact ⟨_, rfl⟩
  unfold ufSetup
  rw [checkUEdge_of hg]
  dsimp only
  rw [h4]
  dsimp only
  rw [h5]
  exact ⟨_, rfl⟩

/-- An edge whose weight is infinite is disabled. -/
theorem enabled_finite [LinearOrder W] {isInf : W → Bool} {r : Nat} {stabs : List (Op n)} {w : Option (Weights W)} {g : SynGraph W}
    (h : mkSynGraph isInf r stabs w = .ok g) {e : SEdge W} (he : e ∈ g.edges) (hen : e.enabled = true) :
    ∀ x, e.weight = some x → isInf x = false := by
  obtain ⟨qs, es, k, hB⟩ := mkSynGraph_built h
  obtain ⟨i, hi⟩ := List.mem_iff_getElem?.mp he
  have hW := (disableDuplicates_spec hB.inf_lt hB.dup).1
  have h1 := hW.enabled i (by rw [enabledAt_get hi]; exact hen)
  rw [disableInf_enabled] at h1
  intro x hx
  refine h1.2 x ?_
  rw [← disableInf_weight isInf, ← hW.weight, weightAt_get hi, hx]

/-- The graph can be built with weights for every qubit and stabiliser. -/
theorem mkSynGraph_arrays [LinearOrder W] {isInf : W → Bool} {r : Nat} {stabs : List (Op n)} {px pz pm : List (Option W)}
    (hne : stabs ≠ []) (hf : ∀ (isX : Bool) (q : Fin n), numFlipped stabs (errorOn isX q) ≤ 2)
    (hx : px.length = n) (hz : pz.length = n) (hm : pm.length = stabs.length)
    (sx : ∀ x ∈ px, x.isSome = true) (sz : ∀ x ∈ pz, x.isSome = true) (sm : ∀ x ∈ pm, x.isSome = true) :
    ∃ g, mkSynGraph isInf r stabs (some ⟨.arr px, .arr pz, .arr pm⟩) = .ok g := by
  obtain ⟨qs, hq⟩ := (qubitEdges_ok_iff (W := W) (r := r) (stabs := stabs)).mpr (.inr hf)
  have bx : broadcastW n (.arr px) = .ok px := if_pos hx
  have bz : broadcastW n (.arr pz) = .ok pz := if_pos hz
  have bm : broadcastW stabs.length (.arr pm) = .ok pm := if_pos hm
  -- every raw edge gets a weight
  have kinds : ∀ e ∈ rawEdges r stabs qs, (∃ t o q isX, e.kind = .qubit t o q isX ∧ q < n) ∨ ∃ t s, e.kind = .stab t s ∧ s < stabs.length := by
    obtain ⟨g0, hg0⟩ := (C32_defined (isInf := isInf) (r := r) (stabs := stabs)).mpr ⟨hne, .inr hf⟩
    obtain ⟨qs', es', k, hB⟩ := mkSynGraph_built hg0
    have : qs' = qs := by have := hB.qubit; rw [hq] at this; cases this; rfl
    subst this
    intro e he
    obtain ⟨i, hi⟩ := List.mem_iff_getElem?.mp he
    obtain ⟨e', h1, h2, h3⟩ := shape_get hB.shape.symm hi
    rcases edge_cases hg0 h1 with ⟨t, o, l, -, -, hkind, -⟩ | ⟨t, s, -, hs, hkind, -⟩
    · exact .inl ⟨t, o, l.2.val, _, by rw [← h3, hkind], l.2.isLt⟩
    · exact .inr ⟨_, s, by rw [← h3, hkind], hs⟩
  obtain ⟨es, hes⟩ : ∃ es, mapLoop (setWeight px pz pm) (rawEdges r stabs qs) = .ok es := by
    rw [mapLoop_ok_iff]
    intro e he
    rcases kinds e he with ⟨t, o, q, isX, hk, hq'⟩ | ⟨t, s, hk, hs⟩
    · unfold setWeight
      rw [hk]
      cases isX with
      | true => dsimp only; rw [List.getElem?_eq_getElem (by omega)]; exact ⟨_, rfl⟩
      | false => dsimp only; rw [List.getElem?_eq_getElem (by omega)]; exact ⟨_, rfl⟩
    · unfold setWeight
      rw [hk]
      dsimp only
      rw [List.getElem?_eq_getElem (by omega)]
      exact ⟨_, rfl⟩
  have how : optWeights n stabs.length (some ⟨.arr px, .arr pz, .arr pm⟩) (rawEdges r stabs qs) = .ok es := by
    unfold optWeights setWeights
    dsimp only
    rw [bx, bz, bm]
    exact hes
  refine mkSynGraph_total hne hq how ?_
  have hsome : ∀ e ∈ es, e.weight.isSome = true := by
    intro e he
    obtain ⟨-, px', pz', pm', h1, h2, h3, h4⟩ := optWeights_get how (rawEdges_plain hq) e he
    dsimp only at h1 h2 h3
    rw [bx] at h1; rw [bz] at h2; rw [bm] at h3
    cases h1; cases h2; cases h3
    split at h4
    · exact sx _ (List.mem_of_getElem? h4)
    · exact sz _ (List.mem_of_getElem? h4)
    · exact sm _ (List.mem_of_getElem? h4)
  have hlen : es.length = (rawEdges r stabs qs).length := by rw [← shape_len, optWeights_shape how, shape_len]
  intro i j hne' hij
  have inside : ∀ i, vertsAt es i ≠ [] → i < es.length := by
    intro i hi
    by_contra hc
    exact hi (by unfold vertsAt; rw [List.getElem?_eq_none (by omega)]; rfl)
  have hi := inside i hne'
  have hj := inside j (hij ▸ hne')
  rw [weightAt_get (List.getElem?_eq_getElem hi), weightAt_get (List.getElem?_eq_getElem hj), hsome _ (List.getElem_mem hi),
    hsome _ (List.getElem_mem hj)]

/-- **C42** In the syndrome graph: an edge whose error cannot happen, or certainly happens, is disabled. -/
theorem C42_disabled {C : LatCode} (hC : C.Ok) {errs : ErrData} (hk : KeysOk errs) {weighted : Option Bool} (hw : weighted ≠ some false)
    {g : SynGraph EReal} (h : manager erealInf logWeight C (some errs) weighted none = .ok g) {e : SEdge EReal} (he : e ∈ g.edges)
    (hen : e.enabled = true) : flipProb (pauliProb errs) (measProb errs) C.n e.kind ≠ 0 ∧ flipProb (pauliProb errs) (measProb errs) C.n e.kind ≠ 1 := by
  have h1 := C42_weights hC hk hw h e he
  unfold manager at h
  rw [bind_ok] at h
  obtain ⟨w, -, h⟩ := h
  have h2 := enabled_finite h he hen
  constructor
  · intro h0
    rw [h0, logWeight_odds le_rfl (by norm_num), (probOdds_zero le_rfl (by norm_num)).mpr rfl, ENNReal.log_zero] at h1
    have := h2 _ h1
    simp [erealInf] at this
  · intro h0
    rw [h0, logWeight_odds (by norm_num) le_rfl, probOdds_one, ENNReal.log_top] at h1
    have := h2 _ h1
    simp [erealInf] at this

/-! ### C41: the decoder can be made -/

theorem checkData_range {L : Lattice} (hL : L.Indexed) {q : Nat} (hq : q < L.dataqubits.length) : L.checkData (.int q) = .ok () := by
  refine Lattice.checkData_ok.mpr ⟨q, L.dataqubits[q], rfl, ?_, List.getElem_mem hq⟩
  rw [hL.equbits]
  unfold Lattice.occupied
  rw [List.append_assoc, List.getElem?_append_left hq, List.getElem?_eq_getElem hq]

theorem fillStep_names {tiny : ℚ} {ps : Params ℚ} {k : List Char} (hk : k ∈ onePauliNames) (h : ∀ p ∈ ps, p.1 ∈ onePauliNames) :
    ∀ p ∈ fillStep tiny ps k, p.1 ∈ onePauliNames := by
  have hs : ∀ p ∈ dictSet ps k (.flt tiny), p.1 ∈ onePauliNames := by
    intro p hp
    rcases mem_dictSet hp with rfl | ⟨hp, -⟩
    · exact hk
    · exact h p hp
  unfold fillStep
  split
  · split
    · exact h
    · exact hs
  · exact hs

theorem fillEntry_names {tiny : ℚ} {o : Option (Params ℚ)} (h : ∀ ps, o = some ps → ∀ p ∈ ps, p.1 ∈ onePauliNames) :
    ∀ p ∈ fillEntry tiny o, p.1 ∈ onePauliNames := by
  unfold fillEntry
  split
  · intro p hp
    simp only [defaultPauli, List.mem_cons, List.not_mem_nil, or_false] at hp
    rcases hp with rfl | rfl | rfl <;> (dsimp only; decide)
  · rw [completeParams_eq]
    refine fillStep_names (by decide) (fillStep_names (by decide) (fillStep_names (by decide) ?_))
    cases o with
    | none => simp
    | some ps => exact h ps rfl

theorem fillEntry_numeric {tiny : ℚ} {o : Option (Params ℚ)} (h : ∀ ps, o = some ps → Numeric ps) : Numeric (fillEntry tiny o) := by
  unfold fillEntry
  split
  · intro e he s
    simp only [defaultPauli, List.mem_cons, List.not_mem_nil, or_false] at he
    rcases he with rfl | rfl | rfl <;> simp
  · refine numeric_complete ?_
    cases o with
    | none => intro e he; simp at he
    | some ps => exact h ps rfl

/-- An entry of the completed dictionary of Pauli errors. -/
theorem completeFold_entry {tiny : ℚ} {d : ErrDict ℚ} (hk : (d.map Prod.fst).Nodup) {n : Nat} {e : QKey × Params ℚ}
    (he : e ∈ (List.range n).foldl (completePauli tiny) d) :
    e ∈ d ∨ ∃ q < n, e = (.int (q : Nat), fillEntry tiny (dictGet d (.int (q : Nat)))) := by
  rcases mem_completeFold he with h | ⟨q, hq, h⟩
  · exact .inl h
  · refine .inr ⟨q, hq, Prod.ext h ?_⟩
    have h1 := dictGet_of_mem (completeFold_nodup tiny hk _) he
    rw [h, completeFold_get, if_pos ⟨q, hq, rfl⟩] at h1
    exact (Option.some.inj h1).symm

theorem numeric_completeData {tiny : ℚ} {n : Nat} {errs : ErrData} (hk : KeysOk errs) (h : NumericData errs) :
    NumericData (completeErrors tiny n (some errs)) := by
  intro name d hd e he
  rw [complete_get] at hd
  split at hd
  · cases hd
    cases hp : dictGet errs "pauli".toList with
    | none =>
      rw [hp] at he
      obtain ⟨q, -, rfl⟩ := List.mem_map.mp he
      exact fillEntry_numeric (tiny := tiny) (o := none) (by simp)
    | some d =>
      rw [hp] at he
      rcases completeFold_entry (hk _ _ hp) he with h1 | ⟨q, -, rfl⟩
      · exact h _ _ hp _ h1
      · exact fillEntry_numeric fun ps hps => h _ _ hp _ (dictGet_some_mem hps)
  · split at hd
    · obtain ⟨d', h1, rfl⟩ := Option.map_eq_some_iff.mp hd
      rcases mem_erasureFold he with h2 | ⟨q, -, rfl⟩
      · exact h _ _ h1 _ h2
      · intro x hx s
        simp only [List.mem_singleton] at hx
        rw [hx]; simp
    · exact h _ _ hd _ he

theorem complete_names (tiny : ℚ) (n : Nat) {errs : ErrData} (h : ∀ e ∈ errs, e.1 ∈ supportedErrors) :
    ∀ e ∈ completeErrors tiny n (some errs), e.1 ∈ supportedErrors := by
  have hp : "pauli".toList ∈ supportedErrors := by decide
  have he : "erasure".toList ∈ supportedErrors := by decide
  have step : ∀ {l : ErrData} {k : List Char} {v : ErrDict ℚ}, k ∈ supportedErrors → (∀ e ∈ l, e.1 ∈ supportedErrors) →
      ∀ e ∈ dictSet l k v, e.1 ∈ supportedErrors := by
    intro l k v hk hl e he
    rcases mem_dictSet he with rfl | ⟨he, -⟩
    · exact hk
    · exact hl e he
  unfold completeErrors
  dsimp only
  split
  · exact step hp h
  · split
    · exact step hp h
    · exact step he (step hp h)

theorem DataOk.complete {L : Lattice} (hL : L.Indexed) {tiny : ℚ} {errs : ErrData} (hk : KeysOk errs) (h : DataOk L errs) :
    DataOk L (completeErrors tiny L.dataqubits.length (some errs)) := by
  refine ⟨complete_names _ _ h.names, fun d hd e he => ?_, fun d hd e he => ?_, fun d hd e he => ?_⟩
  · rw [complete_get, if_pos rfl] at hd
    cases hd
    cases hp : dictGet errs "pauli".toList with
    | none =>
      rw [hp] at he
      obtain ⟨q, hq, rfl⟩ := List.mem_map.mp he
      exact ⟨checkData_range hL (List.mem_range.mp hq), fillEntry_names (tiny := tiny) (o := none) (by simp)⟩
    | some d =>
      rw [hp] at he
      rcases completeFold_entry (hk _ _ hp) he with h1 | ⟨q, hq, rfl⟩
      · exact h.pauli d hp e h1
      · exact ⟨checkData_range hL hq, fillEntry_names fun ps hps => (h.pauli d hp _ (dictGet_some_mem hps)).2⟩
  · rw [complete_get, if_neg names_ne.2.1] at hd
    split at hd
    · obtain ⟨d', h1, rfl⟩ := Option.map_eq_some_iff.mp hd
      rcases mem_erasureFold he with h2 | ⟨q, hq, rfl⟩
      · exact h.erasure _ h1 _ h2
      · refine ⟨checkData_range hL hq, ?_⟩
        intro p hp
        rw [List.mem_singleton] at hp
        rw [hp]; simp
    · exact h.erasure _ hd _ he
  · rw [complete_get, if_neg names_ne.1, if_neg fun h => names_ne.2.2 h.1] at hd
    exact h.meas _ hd _ he

/-- **C41** The weighted union-find decoder can be made from error data: on a code with stabilisers of which no single error flips more
than two, if the error data have known keys and names, Pauli errors with non-negative probabilities that make every qubit edge less likely
than 1/2, and measurement errors less likely than 1/2. -/
theorem C41_defined_partial {negLog : ℚ → Option FW} (hlog : LogLike negLog) {tiny : ℚ} (ht : 0 < tiny) {C : LatCode} (hC : C.Ok)
    (hne : C.code.stabilisers ≠ []) (hf : ∀ (isX : Bool) (q : Fin C.n), numFlipped C.code.stabilisers (errorOn isX q) ≤ 2)
    {errs : ErrData} (hk : KeysOk errs) (hnum : NumericData errs) (hd : DataOk C.lattice errs)
    (hpos : ∀ q < C.n, ∀ a, 0 ≤ pauliProb errs q a)
    (hX : ∀ q < C.n, fill tiny (pauliProb errs q .X) + fill tiny (pauliProb errs q .Y) < 1 / 2)
    (hZ : ∀ q < C.n, fill tiny (pauliProb errs q .Y) + fill tiny (pauliProb errs q .Z) < 1 / 2)
    (hm : ∀ s < C.code.stabilisers.length, 0 ≤ measProb errs (C.n + s) ∧ measProb errs (C.n + s) < 1 / 2)
    {weighted : Option Bool} (hw : weighted ≠ some false) :
    ∃ g states, fromCode FW.isInf negLog tiny (ufBackend true) C (some errs) weighted none = .ok (g, states) := by
  have hfill : ∀ q < C.n, ∀ a, 0 < fill tiny (pauliProb errs q a) := by
    intro q hq a
    unfold fill
    split
    · exact ht
    · rename_i h0; exact lt_of_le_of_ne (hpos q hq a) (Ne.symm h0)
  -- the weights
  have hk' := keysOk_complete tiny C.lattice.dataqubits.length hk
  have hd' : DataOk C.lattice (completeErrors tiny C.lattice.dataqubits.length (some errs)) := hd.complete hC.indexed hk
  obtain ⟨p, hp⟩ := hd'.probs hC.indexed hC.size.symm.le hC.stabs.symm.le (numeric_completeData hk hnum)
  obtain ⟨⟨x1, x2⟩, ⟨z1, z2⟩, m1, m2⟩ := edgeProbs_spec hC hk' hp
  have hval : ∀ q < C.n, ∀ a, pauliProb (completeErrors tiny C.lattice.dataqubits.length (some errs)) q a = fill tiny (pauliProb errs q a) :=
    fun q hq a => pauliProb_complete hnum (by rw [← hC.size]; exact hq) a
  have hpx : ∀ v ∈ p.px, 0 < v ∧ v < 1 / 2 := by
    intro v hv
    obtain ⟨q, hq⟩ := List.mem_iff_getElem?.mp hv
    have hq' : q < C.n := by rw [← x1]; exact (List.getElem?_eq_some_iff.mp hq).1
    rw [x2 q hq', hval q hq', hval q hq'] at hq
    obtain rfl := Option.some.inj hq
    exact ⟨add_pos (hfill q hq' _) (hfill q hq' _), hX q hq'⟩
  have hpz : ∀ v ∈ p.pz, 0 < v ∧ v < 1 / 2 := by
    intro v hv
    obtain ⟨q, hq⟩ := List.mem_iff_getElem?.mp hv
    have hq' : q < C.n := by rw [← z1]; exact (List.getElem?_eq_some_iff.mp hq).1
    rw [z2 q hq', hval q hq', hval q hq'] at hq
    obtain rfl := Option.some.inj hq
    exact ⟨add_pos (hfill q hq' _) (hfill q hq' _), hZ q hq'⟩
  have hpm : ∀ v ∈ p.pm, 0 ≤ v ∧ v < 1 / 2 := by
    intro v hv
    obtain ⟨s, hs⟩ := List.mem_iff_getElem?.mp hv
    have hs' : s < C.code.stabilisers.length := by rw [← m1]; exact (List.getElem?_eq_some_iff.mp hs).1
    rw [m2 s hs', measProb_complete] at hs
    obtain rfl := Option.some.inj hs
    exact hm s hs'
  have hlog' : ∀ v : ℚ, 0 ≤ v → v < 1 / 2 → (∃ q : ℚ, 0 < q ∧ negLog v = some ((q : WithTop ℚ) : FW)) ∨ negLog v = some ((⊤ : WithTop ℚ) : FW) := by
    intro v h0 h1
    rcases h0.lt_or_eq with h0 | h0
    · exact .inl (hlog.2 v h0 h1)
    · rw [← h0]; exact .inr hlog.1
  have hsome : ∀ v : ℚ, 0 ≤ v → v < 1 / 2 → (negLog v).isSome = true := by
    intro v h0 h1
    rcases hlog' v h0 h1 with ⟨q, -, h⟩ | h <;> rw [h] <;> rfl
  obtain ⟨g, hg⟩ := mkSynGraph_arrays (isInf := FW.isInf) (r := C.nRounds) hne hf (px := p.px.map negLog) (pz := p.pz.map negLog)
    (pm := p.pm.map negLog) (by simpa using x1) (by simpa using z1) (by simpa using m1)
    (fun x hx => by obtain ⟨v, hv, rfl⟩ := List.mem_map.mp hx; exact hsome v (hpx v hv).1.le (hpx v hv).2)
    (fun x hx => by obtain ⟨v, hv, rfl⟩ := List.mem_map.mp hx; exact hsome v (hpz v hv).1.le (hpz v hv).2)
    (fun x hx => by obtain ⟨v, hv, rfl⟩ := List.mem_map.mp hx; exact hsome v (hpm v hv).1 (hpm v hv).2)
  have hmw : managerWeights negLog C (some (completeErrors tiny C.lattice.dataqubits.length (some errs))) weighted none =
      .ok (some (p.weights negLog)) := by
    unfold managerWeights
    rw [if_neg (by simp)]
    have : weighted.getD ((some (completeErrors tiny C.lattice.dataqubits.length (some errs))).isSome || (none : Option (Weights FW)).isSome) = true := by
      match weighted, hw with
      | none, _ => rfl
      | some true, _ => rfl
      | some false, hw => exact absurd rfl hw
    rw [if_pos this]
    dsimp only
    rw [hp]
    rfl
  -- the decoders of the components
  have hedge : ∀ e ∈ g.edges, ∃ v : ℚ, 0 ≤ v ∧ v < 1 / 2 ∧ e.weight = negLog v := by
    intro e he
    have hgm : manager FW.isInf negLog C (some (completeErrors tiny C.lattice.dataqubits.length (some errs))) weighted none = .ok g := by
      unfold manager
      rw [hmw]
      exact hg
    have h4 := C42_weights hC hk' hw hgm e he
    obtain ⟨i, hi⟩ := List.mem_iff_getElem?.mp he
    rcases edge_cases hg hi with ⟨t, o, l, -, -, hkind, -⟩ | ⟨t, s, -, hs, hkind, -⟩
    · rw [h4, hkind]
      have hq := l.2.isLt
      refine ⟨_, ?_, ?_, rfl⟩
      · unfold flipProb
        refine List.sum_nonneg fun v hv => ?_
        obtain ⟨a, -, rfl⟩ := List.mem_map.mp hv
        rw [hval _ hq]
        exact (hfill _ hq a).le
      · unfold flipProb
        dsimp only
        generalize (l.1 == Letter.X) = b
        cases b with
        | true =>
          have : ([Letter.X, .Y, .Z].filter fun a => true ∈ parts a) = [.X, .Y] := by decide
          rw [this]
          simpa [hval _ hq] using hX _ hq
        | false =>
          have : ([Letter.X, .Y, .Z].filter fun a => false ∈ parts a) = [.Y, .Z] := by decide
          rw [this]
          simpa [hval _ hq] using hZ _ hq
    · rw [h4, hkind]
      refine ⟨_, ?_, ?_, rfl⟩
      · unfold flipProb
        dsimp only
        rw [measProb_complete]
        exact (hm s hs).1
      · unfold flipProb
        dsimp only
        rw [measProb_complete]
        exact (hm s hs).2
  obtain ⟨states, hst⟩ : ∃ states, setupAll (ufBackend true) g = .ok states := by
    unfold setupAll
    rw [mapLoop_ok_iff]
    intro c hc
    obtain ⟨hc1, hc2⟩ := List.mem_filter.mp hc
    have hcopy := C34_copy hg hc1
    have hok := compOk hg hc1
    refine ufSetup_total (compGraph hg hc1) (by intro h0; rw [h0] at hc2; cases hc2) (hcopy.2.1.trans hcopy.1.symm) ?_
    intro x hx
    obtain ⟨j, hj⟩ := List.mem_iff_getElem?.mp hx
    have hjl : j < c.edgeIdx.length := by rw [← hcopy.2.1]; exact (List.getElem?_eq_some_iff.mp hj).1
    obtain ⟨e, he, hen, -⟩ := (hok.mem _).mp (List.getElem_mem hjl)
    obtain ⟨l, -, -, hwt⟩ := hcopy.2.2 j _ e (List.getElem?_eq_getElem hjl) he
    rw [hj] at hwt
    obtain rfl := Option.some.inj hwt
    obtain ⟨v, v0, v1, hv⟩ := hedge e (List.mem_of_getElem? he)
    rcases hlog' v v0 v1 with ⟨q, hq, h⟩ | h
    · exact ⟨q, hq, hv.trans h⟩
    · have := enabled_finite hg (List.mem_of_getElem? he) hen _ (hv.trans h)
      exact absurd this (by decide)
  refine ⟨g, states, ?_⟩
  unfold fromCode manager
  rw [hmw]
  show (mkSynGraph FW.isInf C.nRounds C.code.stabilisers (some (p.weights negLog))).bind _ = _
  have : mkSynGraph FW.isInf C.nRounds C.code.stabilisers (some (p.weights negLog)) = .ok g := hg
  rw [this]
  show (setupAll (ufBackend true) g).bind _ = _
  rw [hst]
  rfl

/-- A function like the logarithm, for the examples. -/
def toyLog (p : ℚ) : Option FW :=
  if p = 0 then some ((⊤ : WithTop ℚ) : FW) else some (((1 / p - 2 : ℚ) : WithTop ℚ) : FW)

theorem toyLog_like : LogLike toyLog := by
  refine ⟨by simp [toyLog], fun p h0 h1 => ⟨1 / p - 2, ?_, by simp [toyLog, h0.ne']⟩⟩
  have : 2 < 1 / p := by rw [lt_div_iff₀ h0]; linarith
  linarith

/-- Error data for the repetition code: an `X` error with probability 1/10 on qubit 0, measurement errors with probability 1/20 on the
first stabiliser. -/
def rep3Errs : ErrData :=
  [("pauli".toList, [(.int 0, [("x".toList, .flt (1 / 10))])]), ("measurement".toList, [(.int 3, [("p".toList, .flt (1 / 20))])])]

/-- The weights that `from_code` computes from them; the second measurement edge has an infinite weight and is disabled. -/
example : ((fromCode FW.isInf toyLog (1 / 1000) (ufBackend true) (rep3Lat 2) (some rep3Errs) none none).toOption.map
    fun x => (x.1.edges.map fun e => (e.weight.bind FW.rat, e.enabled), x.2.length)) =
    some ((List.replicate 2 ((some (1000 / 101 - 2 : ℚ), true) :: List.replicate 5 (some 498, true))).flatten ++
      [(some 18, true), (none, false)], 1) := by decide +kernel

/-- The error data of the example meet the hypotheses of `C41_defined_partial`. -/
example : ∃ g states, fromCode FW.isInf toyLog (1 / 1000) (ufBackend true) (rep3Lat 2) (some rep3Errs) none none = .ok (g, states) := by
  have hnum : ∀ (d : ErrDict ℚ) (name : List Char), (name, d) ∈ rep3Errs →
      d = [(.int 0, [("x".toList, .flt (1 / 10))])] ∧ name = "pauli".toList ∨ d = [(.int 3, [("p".toList, .flt (1 / 20))])] ∧ name = "measurement".toList := by
    intro d name h
    simp only [rep3Errs, List.mem_cons, List.not_mem_nil, or_false, Prod.mk.injEq] at h
    rcases h with ⟨h1, h2⟩ | ⟨h1, h2⟩
    · exact .inl ⟨h2, h1⟩
    · exact .inr ⟨h2, h1⟩
  refine C41_defined_partial toyLog_like (by norm_num) (Made.codeOk (.repetition (by norm_num) (rep3Lat_made 2))) (by decide +kernel) ?_
    (errs := rep3Errs) ?_ ?_ ⟨?_, ?_, ?_, ?_⟩ ?_ ?_ ?_ ?_ (by simp)
  · show ∀ (isX : Bool) (q : Fin 3), numFlipped (rep3Lat 2).code.stabilisers (errorOn isX q) ≤ 2
    simp only [numFlipped_eq]
    decide +kernel
  · intro name d hd
    rcases hnum d name (dictGet_some_mem hd) with ⟨rfl, -⟩ | ⟨rfl, -⟩ <;> simp
  · intro name d hd e he x hx s
    rcases hnum d name (dictGet_some_mem hd) with ⟨rfl, -⟩ | ⟨rfl, -⟩ <;> simp only [List.mem_singleton] at he <;> subst he <;>
      simp only [List.mem_singleton] at hx <;> subst hx <;> simp
  · intro e he
    rcases hnum e.2 e.1 he with ⟨-, h⟩ | ⟨-, h⟩ <;> rw [h] <;> decide
  · intro d hd e he
    cases hd
    simp only [List.mem_singleton] at he
    subst he
    exact ⟨by decide +kernel, by simp only [List.mem_singleton]; rintro p rfl; dsimp only; decide⟩
  · intro d hd
    cases hd
  · intro d hd e he
    cases hd
    simp only [List.mem_singleton] at he
    subst he
    exact ⟨by decide +kernel, by simp⟩
  · show ∀ q < 3, ∀ a, 0 ≤ pauliProb rep3Errs q a
    intro q hq a
    revert q
    cases a <;> decide +kernel
  · show ∀ q < 3, _
    decide +kernel
  · show ∀ q < 3, _
    decide +kernel
  · show ∀ s < 2, 0 ≤ measProb rep3Errs (3 + s) ∧ measProb rep3Errs (3 + s) < 1 / 2
    decide +kernel

/-! ### C57: no error data -/

theorem complete_none (tiny : ℚ) (n : Nat) : completeErrors tiny n none = completeErrors tiny n (some []) := rfl

theorem fromCode_none [LinearOrder W] (isInf : W → Bool) (negLog : ℚ → Option W) (tiny : ℚ) (b : Backend W σ) (C : LatCode)
    (weighted : Option Bool) (weights : Option (Weights W)) :
    fromCode isInf negLog tiny b C none weighted weights = fromCode isInf negLog tiny b C (some []) weighted weights := rfl

/-- **C57** as documented: without error data and weights, `from_code` makes a decoder without weights. -/
def C57_statement : Prop :=
  ∀ (negLog : ℚ → Option FW) (tiny : ℚ) (C : LatCode) (g : SynGraph FW) (states : List UGraph),
    fromCode FW.isInf negLog tiny (ufBackend true) C none none none = .ok (g, states) → ∀ e ∈ g.edges, e.weight = none

/-- What `from_code` does without error data: every qubit edge has the weight of the probability `2 * tiny`, every measurement edge the
weight of the probability 0. -/
theorem C57_weights {negLog : ℚ → Option FW} {tiny : ℚ} {b : Backend FW σ} {C : LatCode} (hC : C.Ok) {weighted : Option Bool}
    (hw : weighted ≠ some false) {g : SynGraph FW} {states : List σ}
    (h : fromCode FW.isInf negLog tiny b C none weighted none = .ok (g, states)) :
    ∀ e ∈ g.edges, e.weight = match e.kind with
      | .qubit _ _ _ _ => negLog (2 * tiny)
      | .stab _ _ => negLog 0 := by
  intro e he
  rw [fromCode_none] at h
  rw [(C41_errordata_partial hC (fun _ _ h => by cases h) (fun _ _ h => by cases h) hw h).2 e he]
  have hp : ∀ q a, pauliProb [] q a = 0 := fun _ _ => rfl
  have hm : ∀ i, measProb [] i = 0 := fun _ => rfl
  cases e.kind with
  | stab t s => rfl
  | qubit t o q isX =>
    unfold flipProb
    dsimp only
    simp only [hp, fill, if_true]
    congr 1
    cases isX with
    | true =>
      have : ([Letter.X, .Y, .Z].filter fun a => true ∈ parts a) = [.X, .Y] := by decide
      rw [this]; simp; ring
    | false =>
      have : ([Letter.X, .Y, .Z].filter fun a => false ∈ parts a) = [.Y, .Z] := by decide
      rw [this]; simp; ring

/-- **C57** Without error data all measurement edges are disabled: the decoder never assumes a measurement error. -/
theorem C57_measurement {negLog : ℚ → Option FW} (hlog : LogLike negLog) {tiny : ℚ} {b : Backend FW σ} {C : LatCode} (hC : C.Ok)
    {weighted : Option Bool} (hw : weighted ≠ some false) {g : SynGraph FW} {states : List σ}
    (h : fromCode FW.isInf negLog tiny b C none weighted none = .ok (g, states)) :
    ∀ e ∈ g.edges, ∀ t s, e.kind = .stab t s → e.enabled = false := by
  intro e he t s hk
  have h1 := C57_weights hC hw h e he
  rw [hk] at h1
  unfold fromCode manager at h
  simp only [bind_ok] at h
  obtain ⟨g', ⟨w, -, h2⟩, st, -, h3⟩ := h
  cases h3
  cases hen : e.enabled with
  | false => rfl
  | true => exact absurd (enabled_finite h2 he hen _ (h1.trans hlog.1)) (by decide)

/-- What `from_code` does without error data on the repetition code. -/
def rep3None : Bool :=
  match fromCode FW.isInf toyLog (1 / 1000) (ufBackend true) (rep3Lat 2) none none none with
  | .error _ => false
  | .ok x => x.1.edges.all fun e => e.weight.isSome

theorem rep3None_ok : rep3None = true := by decide +kernel

/-- **C57** is false: the edges have weights. -/
theorem C57_unweighted_counterexample : ¬ C57_statement := by
  intro h
  have h1 := rep3None_ok
  unfold rep3None at h1
  cases hx : fromCode FW.isInf toyLog (1 / 1000) (ufBackend true) (rep3Lat 2) none none none with
  | error e => rw [hx] at h1; cases h1
  | ok x =>
    rw [hx] at h1
    obtain ⟨g, states⟩ := x
    have h2 := h toyLog (1 / 1000) (rep3Lat 2) g states hx
    have hlen : g.edges ≠ [] := by
      unfold fromCode manager at hx
      simp only [bind_ok] at hx
      obtain ⟨g', ⟨w, -, h3⟩, st, -, h4⟩ := hx
      cases h4
      intro h0
      have := (C32_edges h3).1
      rw [h0] at this
      exact absurd this (by decide)
    obtain ⟨e, he⟩ := List.exists_mem_of_ne_nil _ hlen
    have h3 := List.all_eq_true.mp h1 e he
    rw [h2 e he] at h3
    cases h3

/-- **C57** With `weighted=False` the decoder has no weights, and the disabled edges are the parallel ones only. -/
theorem C57_unweighted_partial [LinearOrder W] {isInf : W → Bool} {negLog : ℚ → Option W} {tiny : ℚ} {b : Backend W σ} {C : LatCode}
    {errs : Option ErrData} {g : SynGraph W} {states : List σ}
    (h : fromCode isInf negLog tiny b C errs (some false) none = .ok (g, states)) :
    mkSynGraph isInf C.nRounds C.code.stabilisers none = .ok g ∧ ∀ e ∈ g.edges, e.weight = none := by
  unfold fromCode manager managerWeights at h
  simp only [bind_ok] at h
  obtain ⟨g', ⟨w, hw, h2⟩, st, -, h3⟩ := h
  cases h3
  rw [if_neg (by simp), if_neg (by simp)] at hw
  cases hw
  refine ⟨h2, fun e he => ?_⟩
  exact C33_weights h2 e he

/-! ### C41: the decoder without weights -/

/-- **C41** `UnionFindNoWeights.from_code` cannot be used with the default arguments: if a decoder was made from a syndrome graph with weights,
then no edge of the graph was enabled (in a component). -/
theorem C41_noweights_refused {negLog : ℚ → Option FW} {tiny : ℚ} {C : LatCode} {errs : Option ErrData} {weighted : Option Bool} {g : SynGraph FW}
    {states : List UGraph} (h : fromCode FW.isInf negLog tiny (ufBackend false) C errs weighted none = .ok (g, states))
    (hs : ∀ e ∈ g.edges, e.weight.isSome = true) : ∀ e ∈ g.edges, e.enabled = true → e.vertices = [] := by
  unfold fromCode manager at h
  simp only [bind_ok] at h
  obtain ⟨g', ⟨w, -, hg⟩, st, hst, h3⟩ := h
  cases h3
  intro e he hen
  obtain ⟨i, hi⟩ := List.mem_iff_getElem?.mp he
  by_contra hv
  obtain ⟨v, hv⟩ := List.exists_mem_of_ne_nil _ hv
  obtain ⟨c, hc, hvc⟩ : ∃ c ∈ g.components, v ∈ c.vertexIdx := by
    have hlt : v < C.nRounds * C.code.stabilisers.length := by
      obtain ⟨qs, es, k, hB⟩ := mkSynGraph_built hg
      refine hB.inf_lt i v ?_
      rw [← (disableDuplicates_spec hB.inf_lt hB.dup).1.verts, vertsAt_get hi]
      exact hv
    obtain ⟨k, ⟨c, hc, hvc⟩, -⟩ := (C34_vertices hg).2.1 v hlt
    exact ⟨c, List.mem_of_getElem? hc, hvc⟩
  have hok := compOk hg hc
  have hcopy := C34_copy hg hc
  have hic : i ∈ c.edgeIdx := (hok.mem i).mpr ⟨e, hi, hen, v, hv, hvc⟩
  have hcne : c.edges ≠ [] := by
    intro h0
    have := hok.len
    rw [h0, List.length_nil] at this
    exact List.ne_nil_of_mem hic (List.eq_nil_of_length_eq_zero this.symm)
  have hcw : c ∈ g.withEdges := List.mem_filter.mpr ⟨hc, by simpa using hcne⟩
  obtain ⟨G, hG⟩ := mapLoop_ok_iff.mp ⟨_, hst⟩ c hcw
  have hwsome : ∀ x ∈ c.weights, x.isSome = true := by
    intro x hx
    obtain ⟨j, hj⟩ := List.mem_iff_getElem?.mp hx
    have hjl : j < c.edgeIdx.length := by rw [← hcopy.2.1]; exact (List.getElem?_eq_some_iff.mp hj).1
    obtain ⟨e', he', -⟩ := (hok.mem _).mp (List.getElem_mem hjl)
    obtain ⟨l, -, -, hwt⟩ := hcopy.2.2 j _ e' (List.getElem?_eq_getElem hjl) he'
    rw [hj] at hwt
    obtain rfl := Option.some.inj hwt
    exact hs e' (List.mem_of_getElem? he')
  have hG : ufSetup false c = .ok G := hG
  obtain ⟨wt, p, h1, h2⟩ : ∃ wt p, ufBackendWeights c.weights = .ok wt ∧ ufWeights false c.edges.length 2 wt = .ok p := by
    unfold ufSetup at hG
    split at hG
    · cases hG
    · split at hG
      · cases hG
      · rename_i wt h1
        split at hG
        · cases hG
        · rename_i p h2
          exact ⟨wt, p, h1, h2⟩
  cases wt with
  | none =>
    unfold ufBackendWeights isWeighted at h1
    rw [if_neg, if_neg] at h1
    · dsimp only at h1
      split at h1
      · cases h1
      · split at h1 <;> cases h1
    · intro ha
      obtain ⟨x, hx, hn⟩ := List.any_eq_true.mp ha
      have := hwsome x hx
      cases x <;> simp_all
    · intro ha
      have hwl : c.weights ≠ [] := by
        intro h0
        have := hcopy.2.1
        rw [h0, List.length_nil] at this
        exact List.ne_nil_of_mem hic (List.eq_nil_of_length_eq_zero this.symm)
      obtain ⟨x, hx⟩ := List.exists_mem_of_ne_nil _ hwl
      have h1 := hwsome x hx
      have h2 := List.all_eq_true.mp ha x hx
      cases x <;> simp_all
  | some l =>
    unfold ufWeights at h2
    dsimp only at h2
    split at h2
    · cases h2
    · cases h2

/-- It raises a `ValueError` for the repetition code; with `weighted=False` there is a decoder. -/
example : (match fromCode FW.isInf toyLog (1 / 1000) (ufBackend false) (rep3Lat 2) (some rep3Errs) none none with
    | .error e => decide (e = .valueError) | .ok _ => false) = true := by decide +kernel

example : (fromCode FW.isInf toyLog (1 / 1000) (ufBackend false) (rep3Lat 2) (some rep3Errs) (some false) none).toOption.isSome = true := by
  decide +kernel

/-! ### C58: the error data of the caller -/

/-- **C58** as expected of a constructor: `from_code` does not change the error data of the caller. -/
def C58_statement : Prop := ∀ (tiny : ℚ) (C : LatCode) (errs : Option ErrData), errorDataAfter tiny C errs = errs

/-- **C58** is false: the missing errors are added to the dictionary. -/
theorem C58_unchanged_counterexample : ¬ C58_statement := by
  intro h
  have h1 := h (1 / 1000) (rep3Lat 2) (some rep3Errs)
  unfold errorDataAfter at h1
  have h2 := congrArg (fun e => pauliProb e 1 .X) (Option.some.inj h1)
  have h3 : (rep3Lat 2).lattice.dataqubits.length = 3 := by decide
  rw [h3] at h2
  have hnum : NumericData rep3Errs := by
    intro name d hd e he x hx s
    have := dictGet_some_mem hd
    simp only [rep3Errs, List.mem_cons, List.not_mem_nil, or_false, Prod.mk.injEq] at this
    rcases this with ⟨-, rfl⟩ | ⟨-, rfl⟩ <;> simp only [List.mem_singleton] at he <;> subst he <;> simp only [List.mem_singleton] at hx <;>
      subst hx <;> simp
  dsimp only at h2
  rw [pauliProb_complete hnum (by norm_num)] at h2
  revert h2
  decide +kernel

/-- **C58** What changes: Pauli errors of data qubits whose probability was zero or missing have the probability `tiny`; the measurement errors
and all other errors stay. -/
theorem C58_changes {tiny : ℚ} {C : LatCode} {errs errs' : ErrData} (hnum : NumericData errs) (h : errorDataAfter tiny C (some errs) = some errs') :
    (∀ q < C.lattice.dataqubits.length, ∀ a, pauliProb errs' q a = fill tiny (pauliProb errs q a)) ∧
    (∀ i, measProb errs' i = measProb errs i) ∧
    ∀ name, name ≠ "pauli".toList → name ≠ "erasure".toList → dictGet errs' name = dictGet errs name := by
  obtain rfl := Option.some.inj h
  refine ⟨fun q hq a => pauliProb_complete hnum hq a, fun i => measProb_complete _ _ _ i, fun name h1 h2 => ?_⟩
  rw [complete_get, if_neg h1, if_neg fun h => h2 h.1]

/-- **C58** If every data qubit has all three Pauli errors with non-zero probabilities, no probability of a Pauli error changes. -/
theorem C58_unchanged_partial {tiny : ℚ} {C : LatCode} {errs errs' : ErrData} (hnum : NumericData errs)
    (hall : ∀ q < C.lattice.dataqubits.length, ∀ a, pauliProb errs q a ≠ 0) (h : errorDataAfter tiny C (some errs) = some errs') :
    (∀ q < C.lattice.dataqubits.length, ∀ a, pauliProb errs' q a = pauliProb errs q a) ∧ ∀ i, measProb errs' i = measProb errs i := by
  obtain ⟨h1, h2, -⟩ := C58_changes hnum h
  refine ⟨fun q hq a => ?_, h2⟩
  rw [h1 q hq a]
  exact if_neg (hall q hq a)

/-- **C58** A second decoder made from the same dictionary has the same syndrome graph as the first one. -/
theorem C58_again {tiny : ℚ} (ht : tiny ≠ 0) {C : LatCode} {errs errs' : ErrData} (hk : KeysOk errs) (hnum : NumericData errs)
    (h : errorDataAfter tiny C (some errs) = some errs') :
    ∀ q < C.lattice.dataqubits.length, ∀ a, pauliProb (completeErrors tiny C.lattice.dataqubits.length (some errs')) q a = pauliProb errs' q a := by
  obtain rfl := Option.some.inj h
  intro q hq a
  rw [pauliProb_complete (numeric_completeData hk hnum) hq, pauliProb_complete hnum hq]
  unfold fill
  split <;> simp_all

end Plaquette
