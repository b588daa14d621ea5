import Verif.Lemmas.GenStim
import Verif.Lemmas.RandomLocal
import Verif.Lemmas.RandomRun
import Verif.Lemmas.SimRun
import Verif.Spec.Distribution

/-!
# Runs in which given decisions are made
-/

open MeasureTheory
open scoped ENNReal

namespace Plaquette
variable {F : Type} {n : Nat} {Ω : Type} [m0 : MeasurableSpace Ω] {μ : Measure Ω} {prob : F → ℝ≥0∞} {past : Nat → MeasurableSpace Ω} {rng : Ω → Rng F} {k₀ : Nat} {api : FloatApi F}

/-- The run succeeds, and each instruction makes the given decisions. -/
def Follows (api : FloatApi F) (r : Rng F) : Sim n → List (Gate F) → List (List Event) → Prop
  | _, [], [] => True
  | S, g :: gs, w :: ws => eventOf api r S.pos g = w ∧ ∃ S', S.runGate api r g = .ok S' ∧ Follows api r S' gs ws
  | _, _, _ => False

theorem Follows.run {r : Rng F} : ∀ {gs : List (Gate F)} {ws : List (List Event)} {S : Sim n}, Follows api r S gs ws → (∃ S', S.runGates api r gs = .ok S') ∧ S.events api r gs = ws.flatten
  | [], [], S, _ => ⟨⟨S, rfl⟩, rfl⟩
  | [], _ :: _, _, h => h.elim
  | _ :: _, [], _, h => h.elim
  | g :: gs, w :: ws, S, h => by
    obtain ⟨h1, S', h2, h3⟩ := h
    obtain ⟨⟨S'', h4⟩, h5⟩ := h3.run
    refine ⟨⟨S'', ?_⟩, ?_⟩
    · rw [Sim.runGates, h2]; exact h4
    · rw [Sim.events, h1, h2, List.flatten_cons]; exact congrArg _ h5

/-- The instruction makes the decisions `w` with probability at least `p`, whatever happened before. -/
def Likely (n : Nat) (k₀ : Nat) (μ : Measure Ω) (past : Nat → MeasurableSpace Ω) (rng : Ω → Rng F) (api : FloatApi F) (g : Gate F) (x : List Event × ℝ≥0∞) : Prop :=
  ∀ S : Sim n, S.tab.Valid → k₀ ≤ S.pos → ∃ C : Set Ω, (∀ ω ∈ C, eventOf api (rng ω) S.pos g = x.1 ∧ ∃ S', S.runGate api (rng ω) g = .ok S' ∧ S'.tab.Valid) ∧
    (∀ S', MeasurableSet[past S'.pos] (C ∩ {ω | S.runGate api (rng ω) g = .ok S'})) ∧ ∀ E, MeasurableSet[past S.pos] E → x.2 * μ E ≤ μ (E ∩ C)

theorem Likely.mono {g : Gate F} {w : List Event} {p q : ℝ≥0∞} (h : Likely n k₀ μ past rng api g (w, p)) (hq : q ≤ p) : Likely n k₀ μ past rng api g (w, q) := by
  intro S hv hp
  obtain ⟨C, h1, h2, h3⟩ := h S hv hp
  exact ⟨C, h1, h2, fun E hE => (mul_le_mul_left hq _).trans (h3 E hE)⟩

/-- All instructions make the given decisions with at least the product of the probabilities. -/
theorem follows_bound (hF : FairFrom k₀ μ prob past rng) : ∀ (gs : List (Gate F)) (xs : List (List Event × ℝ≥0∞)), List.Forall₂ (Likely n k₀ μ past rng api) gs xs →
    ∀ (S : Sim n) (E : Set Ω), S.tab.Valid → k₀ ≤ S.pos → MeasurableSet[past S.pos] E →
    (xs.map Prod.snd).prod * μ E ≤ μ (E ∩ {ω | Follows api (rng ω) S gs (xs.map Prod.fst)})
  | [], [], _, S, E, _, _, _ => by
    simp [Follows]
  | g :: gs, x :: xs, h, S, E, hv, hp, hE => by
    rw [List.forall₂_cons] at h
    obtain ⟨hg, hgs⟩ := h
    obtain ⟨C, h1, h2, h3⟩ := hg S hv hp
    have ih := follows_bound hF gs xs hgs
    set A : Sim n → Set Ω := fun S' => E ∩ (C ∩ {ω | S.runGate api (rng ω) g = .ok S'}) with hA
    set U := E ∩ {ω | Follows api (rng ω) S (g :: gs) ((x :: xs).map Prod.fst)} with hU
    have hpos : ∀ S', ∀ ω ∈ A S', S.pos ≤ S'.pos := fun S' ω hω => (known_runGate hF api S g S').2 ω hω.2.2
    have hmeas : ∀ S', MeasurableSet[past S'.pos] (A S') := by
      intro S'
      by_cases hne : ∃ ω, ω ∈ A S'
      · obtain ⟨ω, hω⟩ := hne
        exact @MeasurableSet.inter _ (past S'.pos) _ _ (hF.mono (hpos S' ω hω) _ hE) (h2 S')
      · rw [Set.eq_empty_iff_forall_notMem.2 fun ω hω => hne ⟨ω, hω⟩]
        exact @MeasurableSet.empty _ (past S'.pos)
    have hm0 : ∀ S', MeasurableSet (A S') := fun S' => hF.le _ _ (hmeas S')
    have hdis : Pairwise (Function.onFun Disjoint A) := by
      intro S1 S2 hne
      rw [Function.onFun, Set.disjoint_left]
      rintro ω ⟨_, _, e1⟩ ⟨_, _, e2⟩
      exact hne (Except.ok.inj (e1.symm.trans e2))
    have hun : E ∩ C = ⋃ S', A S' := by
      ext ω
      simp only [Set.mem_iUnion, hA, Set.mem_inter_iff]
      constructor
      · rintro ⟨e1, e2⟩
        obtain ⟨_, S', e3, _⟩ := h1 ω e2
        exact ⟨S', e1, e2, e3⟩
      · rintro ⟨S', e1, e2, e3⟩
        exact ⟨e1, e2⟩
    have hstep : ∀ S', (xs.map Prod.snd).prod * μ (A S') ≤ μ.restrict U (A S') := by
      intro S'
      rw [Measure.restrict_apply (hm0 S')]
      by_cases hne : ∃ ω, ω ∈ A S'
      · obtain ⟨ω, hω⟩ := hne
        obtain ⟨_, S2, e3, hv'⟩ := h1 ω hω.2.1
        obtain rfl : S2 = S' := Except.ok.inj (e3.symm.trans hω.2.2)
        refine (ih S2 (A S2) hv' (hp.trans (hpos S2 ω hω)) (hmeas S2)).trans (measure_mono ?_)
        rintro ω' ⟨f1, f2⟩
        exact ⟨f1, f1.1, (h1 ω' f1.2.1).1, S2, f1.2.2, f2⟩
      · rw [Set.eq_empty_iff_forall_notMem.2 fun ω hω => hne ⟨ω, hω⟩]
        simp
    calc (List.map Prod.snd (x :: xs)).prod * μ E = (xs.map Prod.snd).prod * (x.2 * μ E) := by
          rw [List.map_cons, List.prod_cons, mul_comm x.2, mul_assoc]
      _ ≤ (xs.map Prod.snd).prod * μ (E ∩ C) := mul_le_mul_right (h3 E hE) _
      _ = ∑' S', (xs.map Prod.snd).prod * μ (A S') := by rw [hun, measure_iUnion hdis hm0, ENNReal.tsum_mul_left]
      _ ≤ ∑' S', μ.restrict U (A S') := ENNReal.tsum_le_tsum hstep
      _ = μ.restrict U (⋃ S', A S') := (measure_iUnion hdis hm0).symm
      _ ≤ μ.restrict U Set.univ := measure_mono (Set.subset_univ _)
      _ = μ U := Measure.restrict_apply_univ U

/-! ### The instructions of generated circuits -/

/-- An instruction without errors. -/
theorem likely_plain (hF : FairFrom k₀ μ prob past rng) {g : Gate F} (hs : GShape g) (hn : g.name.noisy = false) (hi : ∀ i : Nat, Val.int (i : Int) ∈ g.args → i < n) :
    Likely n k₀ μ past rng api g ([], 1) := by
  intro S hv hp
  have hR : ∀ r, Runnable n api r g.name g.args := by
    intro r
    cases hs with
    | @one nm h i =>
      have hq : i < n := hi i (by simp)
      rcases h with rfl | rfl | rfl
      · exact .h [⟨i, hq⟩]
      · exact .r [⟨i, hq⟩]
      · exact .m [⟨i, hq⟩]
    | @two nm h i j hij =>
      have hq : i < n := hi i (by simp)
      have hq' : j < n := hi j (by simp)
      rcases h with rfl | rfl
      · exact .cx [(⟨i, hq⟩, ⟨j, hq'⟩)] (by simpa using hij)
      · exact .cz [(⟨i, hq⟩, ⟨j, hq'⟩)] (by simpa using hij)
    | flip p i => cases hn
    | erase p i => cases hn
    | pauli h i => cases hn
    | pauli2 h hij => cases hn
  have he : g.name.isError = false := by
    cases h : g.name <;> first | rfl | (rw [h] at hn; cases hn)
  refine ⟨Set.univ, fun ω _ => ⟨?_, ?_⟩, fun S' => ?_, fun E _ => ?_⟩
  · cases hs with
    | one h i => rcases h with rfl | rfl | rfl <;> rfl
    | two h hij => rcases h with rfl | rfl <;> rfl
    | flip p i => cases hn
    | erase p i => cases hn
    | pauli h i => cases hn
    | pauli2 h hij => cases hn
  · unfold Sim.runGate
    rw [he, if_neg (by simp)]
    exact handleGate_total api (rng ω) (S := { S with inError := false }) hv (hR (rng ω))
  · rw [Set.univ_inter]
    exact (known_runGate hF api S g S').1
  · simp

/-- A Pauli channel. -/
theorem likely_pauli (hX : ExactFrom k₀ μ prob past rng) {a b c : F} {i : Nat} (hi : i < n) (hs : prob a + prob b + prob c ≤ 1) (k : Fin 4) {w : ℝ≥0∞}
    (hw : [1 - (prob a + prob b + prob c), prob a, prob b, prob c][k.val]? = some w) :
    Likely n k₀ μ past rng api ⟨.E_PAULI, [.flt a, .flt b, .flt c, .int i]⟩ ([.pauli i k], w) := by
  intro S hv hp
  have hF := hX.toFairFrom
  have hsum : ([a, b, c].map prob).sum = prob a + prob b + prob c := by simp [add_assoc]
  refine ⟨{ω | (rng ω).choice4 S.pos [a, b, c] = some k}, fun ω hω => ⟨?_, ?_⟩, fun S' => ?_, fun E hE => ?_⟩
  · have hω : (rng ω).choice4 S.pos [a, b, c] = some k := hω
    simp [eventOf, numsOf, numOf, hω]
  · have hω : (rng ω).choice4 S.pos [a, b, c] = some k := hω
    obtain ⟨S', h1, h2⟩ := applyPauli_total (S := { S with inError := false, pos := S.pos + 1 }) hv ⟨i, hi⟩ k.val k.isLt
    refine ⟨S', ?_, h2⟩
    have hq : qubitOf n (.int i : Val F) = .ok ⟨i, hi⟩ := qubitOf_int ⟨i, hi⟩
    simp only [Sim.runGate, Name.isError, Bool.false_eq_true, if_false, Sim.handleGate, List.take, numsOf, numOf, argAt, List.getElem?_cons_succ, List.getElem?_cons_zero, hq, hω]
    exact h1
  · by_cases hk : S.pos + 1 ≤ S'.pos
    · exact @MeasurableSet.inter _ (past S'.pos) _ _ (hF.mono hk _ (hF.choice4 _ _ _)) (known_runGate hF api S _ S').1
    · have : {ω | (rng ω).choice4 S.pos [a, b, c] = some k} ∩ {ω | S.runGate api (rng ω) ⟨.E_PAULI, [.flt a, .flt b, .flt c, .int i]⟩ = .ok S'} = ∅ := by
        refine Set.eq_empty_iff_forall_notMem.2 fun ω hω => hk ?_
        exact (known_pauli hF api ({ S with inError := false } : Sim n) [.flt a, .flt b, .flt c, .int i] S').2 ω hω.2
      rw [this]
      exact @MeasurableSet.empty _ (past S'.pos)
  · refine le_of_eq (hX.choice4_exact S.pos [a, b, c] k w E hp rfl (by rw [hsum]; exact hs) ?_ hE).symm
    rw [hsum]
    exact hw

theorem quiet_below (hX : ExactFrom k₀ μ prob past rng) [IsFiniteMeasure μ] {k : Nat} (hk : k₀ ≤ k) (p : F) {E : Set Ω} (hE : MeasurableSet[past k] E) :
    (1 - prob p) * μ E ≤ μ (E ∩ {ω | (rng ω).below k p = false}) := by
  have hF := hX.toFairFrom
  have hb : MeasurableSet {ω | (rng ω).below k p = true} := hF.le _ _ (hF.below k p)
  have h1 : E ∩ {ω | (rng ω).below k p = false} = E \ {ω | (rng ω).below k p = true} := by
    ext ω
    simp
  rw [h1, ENNReal.sub_mul (fun _ _ => measure_ne_top _ _), one_mul, ← measure_inter_add_sdiff E hb]
  refine tsub_le_iff_left.2 (add_le_add_left ?_ _)
  rw [measure_inter_add_sdiff E hb]
  exact hF.below_prob k p E hk hE

/-- An erasure that does not happen. -/
theorem likely_kept (hX : ExactFrom k₀ μ prob past rng) [IsFiniteMeasure μ] {p : F} {i : Nat} :
    Likely n k₀ μ past rng api ⟨.E_ERASE, [.flt p, .int i]⟩ ([.erasure i false 0], 1 - prob p) := by
  intro S hv hp
  have hF := hX.toFairFrom
  refine ⟨{ω | (rng ω).below S.pos p = false}, fun ω hω => ⟨?_, ?_⟩, fun S' => ?_, fun E hE => quiet_below hX hp p hE⟩
  · have hω : (rng ω).below S.pos p = false := hω
    simp [eventOf, numOf, hω]
  · have hω : (rng ω).below S.pos p = false := hω
    refine ⟨{ S with inError := false, erasure := S.erasure ++ [false], pos := S.pos + 1 }, ?_, hv⟩
    simp [Sim.runGate, Name.isError, Sim.handleGate, numOf, hω]
  · by_cases hk : S.pos + 1 ≤ S'.pos
    · have : {ω | (rng ω).below S.pos p = false} = {ω | (rng ω).below S.pos p = true}ᶜ := by ext ω; simp
      rw [this]
      exact @MeasurableSet.inter _ (past S'.pos) _ _ (@MeasurableSet.compl _ _ (past S'.pos) (hF.mono hk _ (hF.below _ _))) (known_runGate hF api S _ S').1
    · have : {ω | (rng ω).below S.pos p = false} ∩ {ω | S.runGate api (rng ω) ⟨.E_ERASE, [.flt p, .int i]⟩ = .ok S'} = ∅ := by
        refine Set.eq_empty_iff_forall_notMem.2 fun ω hω => hk ?_
        exact (known_erase hF api ({ S with inError := false } : Sim n) [.flt p, .int i] S').2 ω hω.2
      rw [this]
      exact @MeasurableSet.empty _ (past S'.pos)

/-- An outcome that is not flipped. -/
theorem likely_right (hX : ExactFrom k₀ μ prob past rng) [IsFiniteMeasure μ] {p : F} {i : Nat} :
    Likely n k₀ μ past rng api ⟨.ERROR, [.flt p, .name .X, .int i]⟩ ([.flip i false], 1 - prob p) := by
  intro S hv hp
  have hF := hX.toFairFrom
  refine ⟨{ω | (rng ω).below S.pos p = false}, fun ω hω => ⟨?_, ?_⟩, fun S' => ?_, fun E hE => quiet_below hX hp p hE⟩
  · have hω : (rng ω).below S.pos p = false := hω
    simp [eventOf, numOf, hω]
  · have hω : (rng ω).below S.pos p = false := hω
    refine ⟨{ S with inError := true, anyApplied := false, applyBranch := false, pos := S.pos + 1 }, ?_, hv⟩
    simp [Sim.runGate, Name.isError, Sim.handleError, numOf, hω]
  · by_cases hk : S.pos + 1 ≤ S'.pos
    · have : {ω | (rng ω).below S.pos p = false} = {ω | (rng ω).below S.pos p = true}ᶜ := by ext ω; simp
      rw [this]
      exact @MeasurableSet.inter _ (past S'.pos) _ _ (@MeasurableSet.compl _ _ (past S'.pos) (hF.mono hk _ (hF.below _ _))) (known_runGate hF api S _ S').1
    · have : {ω | (rng ω).below S.pos p = false} ∩ {ω | S.runGate api (rng ω) ⟨.ERROR, [.flt p, .name .X, .int i]⟩ = .ok S'} = ∅ := by
        refine Set.eq_empty_iff_forall_notMem.2 fun ω hω => hk ?_
        exact (known_ERROR hF api S [.flt p, .name .X, .int i] S').2 ω hω.2
      rw [this]
      exact @MeasurableSet.empty _ (past S'.pos)

end Plaquette
