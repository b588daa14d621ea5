import Verif.Lemmas.ScriptedRun
import Verif.Lemmas.RateOrder
import Verif.Lemmas.GateRounds
import Verif.Props.NoisyExperiment

/-!
# Shots in which given errors happen before the first round
-/

open MeasureTheory
open scoped ENNReal

namespace Plaquette
variable {F : Type} {n : Nat} {Ω : Type} [m0 : MeasurableSpace Ω] {μ : Measure Ω} {prob : F → ℝ≥0∞} {past : Nat → MeasurableSpace Ω} {rng : Ω → Rng F} {k₀ : Nat} {api : FloatApi F}

/-- The instructions make the decisions `evs` with probability at least `p`. -/
def Plan (n k₀ : Nat) (μ : Measure Ω) (past : Nat → MeasurableSpace Ω) (rng : Ω → Rng F) (api : FloatApi F) (gs : List (Gate F)) (evs : List Event) (p : ℝ≥0∞) : Prop :=
  ∃ xs : List (List Event × ℝ≥0∞), List.Forall₂ (Likely n k₀ μ past rng api) gs xs ∧ (xs.map Prod.fst).flatten = evs ∧ p ≤ (xs.map Prod.snd).prod

theorem Plan.nil : Plan n k₀ μ past rng api [] [] 1 := ⟨[], .nil, rfl, by simp⟩

theorem Plan.one {g : Gate F} {w : List Event} {p : ℝ≥0∞} (h : Likely n k₀ μ past rng api g (w, p)) : Plan n k₀ μ past rng api [g] w p :=
  ⟨[(w, p)], .cons h .nil, by simp, by simp⟩

theorem Plan.append {gs gs' : List (Gate F)} {e e' : List Event} {p p' : ℝ≥0∞} (h : Plan n k₀ μ past rng api gs e p) (h' : Plan n k₀ μ past rng api gs' e' p') :
    Plan n k₀ μ past rng api (gs ++ gs') (e ++ e') (p * p') := by
  obtain ⟨xs, h1, h2, h3⟩ := h
  obtain ⟨ys, k1, k2, k3⟩ := h'
  exact ⟨xs ++ ys, List.rel_append h1 k1, by rw [List.map_append, List.flatten_append, h2, k2], by rw [List.map_append, List.prod_append]; exact mul_le_mul' h3 k3⟩

theorem Plan.mono {gs : List (Gate F)} {e : List Event} {p p' : ℝ≥0∞} (h : Plan n k₀ μ past rng api gs e p) (hp : p' ≤ p) : Plan n k₀ μ past rng api gs e p' := by
  obtain ⟨xs, h1, h2, h3⟩ := h
  exact ⟨xs, h1, h2, hp.trans h3⟩

/-- A plan is followed with its probability. -/
theorem Plan.bound (hF : FairFrom k₀ μ prob past rng) {gs : List (Gate F)} {evs : List Event} {p : ℝ≥0∞} (h : Plan n k₀ μ past rng api gs evs p) (S : Sim n)
    (hv : S.tab.Valid) (hp : k₀ ≤ S.pos) {E : Set Ω} (hE : MeasurableSet[past S.pos] E) :
    p * μ E ≤ μ (E ∩ {ω | (∃ S', S.runGates api (rng ω) gs = .ok S') ∧ S.events api (rng ω) gs = evs}) := by
  obtain ⟨xs, h1, rfl, h3⟩ := h
  refine (mul_le_mul' h3 le_rfl).trans ((follows_bound hF gs xs h1 S E hv hp hE).trans ?_)
  exact measure_mono (Set.inter_subset_inter_right _ fun ω hω => Follows.run hω)

/-- Nothing happens. -/
def Event.quiet : Event → Prop
  | .pauli _ k => k = 0
  | .erasure _ hit k => hit = false ∧ k = 0
  | .flip _ hit => hit = false

/-- An instruction of a circuit without errors of gates. -/
structure SmallGate (n : Nat) (api : FloatApi F) (prob : F → ℝ≥0∞) (z : ℝ≥0∞) (g : Gate F) : Prop where
  shape : GShape g
  below : ∀ i : Nat, Val.int (i : Int) ∈ g.args → i < n
  two : g.name ≠ .E_PAULI2
  rate : g.name.noisy = true → g.rate api prob ≤ z

theorem three_flt {ps : List F} (h : ps.length = 3) : ∃ a b c, ps = [a, b, c] := by
  rcases ps with _ | ⟨a, _ | ⟨b, _ | ⟨c, _ | ⟨d, ps⟩⟩⟩⟩ <;> first | exact ⟨_, _, _, rfl⟩ | cases h

theorem pauli_rate (api : FloatApi F) (prob : F → ℝ≥0∞) (a b c : F) (i : Int) : Gate.rate api prob ⟨.E_PAULI, [.flt a, .flt b, .flt c, .int i]⟩ = prob a + prob b + prob c := by
  simp [Gate.rate, argProb, numOf, add_assoc]

/-- Nothing happens at an instruction. -/
theorem SmallGate.quiet (hX : ExactFrom k₀ μ prob past rng) [IsFiniteMeasure μ] {z : ℝ≥0∞} (hz : z ≤ 1) {g : Gate F} (h : SmallGate n api prob z g) :
    ∃ evs, Plan n k₀ μ past rng api [g] evs ((1 - z) ^ noisyCount [g]) ∧ ∀ e ∈ evs, e.quiet := by
  by_cases hn : g.name.noisy = true
  · have hc : noisyCount [g] = 1 := by simp [noisyCount, hn]
    have hr := h.rate hn
    have hb := h.below
    rw [hc, pow_one]
    cases h.shape with
    | one h' i => rcases h' with rfl | rfl | rfl <;> cases hn
    | two h' hij => rcases h' with rfl | rfl <;> cases hn
    | flip p i =>
      refine ⟨_, .one ((likely_right hX).mono ?_), by simp [Event.quiet]⟩
      refine tsub_le_tsub_left (le_trans (le_of_eq ?_) hr) _
      simp [Gate.rate, argProb, numOf]
    | erase p i =>
      refine ⟨_, .one ((likely_kept hX).mono ?_), by simp [Event.quiet]⟩
      refine tsub_le_tsub_left (le_trans (le_of_eq ?_) hr) _
      simp [Gate.rate, argProb, numOf]
    | @pauli ps hp i =>
      obtain ⟨a, b, c, rfl⟩ := three_flt hp
      have e := pauli_rate api prob a b c i
      have hr' : prob a + prob b + prob c ≤ z := by rw [← e]; exact hr
      refine ⟨_, .one ((likely_pauli hX (hb i (by simp)) (hr'.trans hz) 0 rfl).mono (tsub_le_tsub_left hr' _)), by simp [Event.quiet]⟩
    | pauli2 hp hij => exact absurd rfl h.two
  · have hc : noisyCount [g] = 0 := by simp [noisyCount, hn]
    rw [hc, pow_zero]
    exact ⟨[], .one (likely_plain hX.toFairFrom h.shape (by simpa using hn) h.below), by simp⟩

theorem noisyCount_append (a b : List (Gate F)) : noisyCount (a ++ b) = noisyCount a + noisyCount b := List.countP_append

/-- Nothing happens. -/
theorem plan_quiet (hX : ExactFrom k₀ μ prob past rng) [IsFiniteMeasure μ] {z : ℝ≥0∞} (hz : z ≤ 1) : ∀ {gs : List (Gate F)}, (∀ g ∈ gs, SmallGate n api prob z g) →
    ∃ evs, Plan n k₀ μ past rng api gs evs ((1 - z) ^ noisyCount gs) ∧ ∀ e ∈ evs, e.quiet
  | [], _ => ⟨[], by simpa [noisyCount] using Plan.nil, by simp⟩
  | g :: gs, h => by
    obtain ⟨e1, h1, k1⟩ := (h g List.mem_cons_self).quiet hX hz
    obtain ⟨e2, h2, k2⟩ := plan_quiet hX hz (gs := gs) fun g' hg' => h g' (List.mem_cons_of_mem _ hg')
    refine ⟨e1 ++ e2, ?_, fun e he => (List.mem_append.1 he).elim (k1 e) (k2 e)⟩
    have := h1.append h2
    rwa [← pow_add, ← noisyCount_append] at this

theorem plan_plain (hF : FairFrom k₀ μ prob past rng) : ∀ {gs : List (Gate F)}, (∀ g ∈ gs, GShape g ∧ g.name.noisy = false ∧ ∀ i : Nat, Val.int (i : Int) ∈ g.args → i < n) →
    Plan n k₀ μ past rng api gs [] 1
  | [], _ => Plan.nil
  | g :: gs, h => by
    obtain ⟨h1, h2, h3⟩ := h g List.mem_cons_self
    have := (Plan.one (likely_plain (api := api) hF h1 h2 h3)).append (plan_plain hF (gs := gs) fun g' hg' => h g' (List.mem_cons_of_mem _ hg'))
    rwa [one_mul] at this

/-- The given Pauli matrices and nothing else happens to the data qubits. -/
theorem plan_data (hX : ExactFrom k₀ μ prob past rng) [IsFiniteMeasure μ] {y z : ℝ≥0∞} (hz : z ≤ 1) (pg eg : Nat → List (Gate F)) (κ : Nat → Fin 4) :
    ∀ is : List Nat, (∀ i ∈ is, PauliGate i (pg i)) → (∀ i ∈ is, EraseGate i (eg i)) → (∀ g ∈ dataGates pg eg is, SmallGate n api prob z g) →
    (∀ i ∈ is, κ i ≠ 0 → ∃ args : List (Val F), pg i = [⟨.E_PAULI, args⟩] ∧ ∀ v, args[(κ i).val - 1]? = some v → y ≤ argProb api prob v) →
    Plan n k₀ μ past rng api (dataGates pg eg is)
      (is.flatMap fun i => (if pg i = [] then [] else [.pauli i (κ i)]) ++ (if eg i = [] then [] else [.erasure i false 0]))
      (y ^ is.countP (fun i => κ i ≠ 0) * (1 - z) ^ noisyCount (dataGates pg eg is))
  | [], _, _, _, _ => by simpa [noisyCount, dataGates] using Plan.nil
  | i :: is, hp, he, hg, hy => by
    have ih := plan_data hX hz pg eg κ is (fun j hj => hp j (List.mem_cons_of_mem _ hj)) (fun j hj => he j (List.mem_cons_of_mem _ hj))
      (fun g h => hg g (by unfold dataGates at h ⊢; rw [List.flatMap_cons]; exact List.mem_append_right _ h)) fun j hj => hy j (List.mem_cons_of_mem _ hj)
    have e : dataGates pg eg (i :: is) = (pg i ++ eg i) ++ dataGates pg eg is := by unfold dataGates; rw [List.flatMap_cons]
    have hin : ∀ g ∈ pg i ++ eg i, SmallGate n api prob z g := fun g h => hg g (by rw [e]; exact List.mem_append_left _ h)
    have hsub : 1 - z ≤ 1 := tsub_le_self
    have h1 : Plan n k₀ μ past rng api (pg i) (if pg i = [] then [] else [.pauli i (κ i)]) ((if κ i ≠ 0 then y else 1) * (1 - z) ^ noisyCount (pg i)) := by
      rcases hp i List.mem_cons_self with h | ⟨a, b, c, h⟩
      · rw [h, if_pos rfl]
        have : κ i = 0 := by
          by_contra hk
          obtain ⟨args, h', _⟩ := hy i List.mem_cons_self hk
          rw [h] at h'; cases h'
        simpa [this, noisyCount] using Plan.nil
      · have hS := hin ⟨.E_PAULI, [a, b, c, .int i]⟩ (by rw [h]; simp)
        have hc : noisyCount (pg i) = 1 := by rw [h]; rfl
        rw [hc, pow_one, h, if_neg (by simp)]
        obtain ⟨a, b, c, hv⟩ : ∃ a' b' c' : F, ([a, b, c, .int i] : List (Val F)) = [.flt a', .flt b', .flt c', .int i] := by
          have := hS.shape
          generalize hgg : (⟨.E_PAULI, [a, b, c, .int i]⟩ : Gate F) = gg at this
          cases this with
          | one h' i => rcases h' with rfl | rfl | rfl <;> cases hgg
          | two h' hij => rcases h' with rfl | rfl <;> cases hgg
          | flip p i => cases hgg
          | erase p i => cases hgg
          | pauli2 hp hij => cases hgg
          | pauli hp j =>
            obtain ⟨a', b', c', rfl⟩ := three_flt hp
            simp only [Gate.mk.injEq, true_and, List.map_cons, List.map_nil, List.cons_append, List.nil_append, List.cons.injEq, and_true] at hgg
            exact ⟨a', b', c', by rw [hgg.1, hgg.2.1, hgg.2.2.1]⟩
        rw [hv] at hS h ⊢
        have hr : prob a + prob b + prob c ≤ z := by
          rw [← pauli_rate api prob a b c i]; exact hS.rate rfl
        have hi : i < n := hS.below i (by simp)
        by_cases hk : κ i ≠ 0
        · rw [if_pos hk]
          obtain ⟨args, h', hy'⟩ := hy i List.mem_cons_self hk
          rw [h] at h'
          obtain rfl : args = [.flt a, .flt b, .flt c, .int i] := by cases h'; rfl
          have hw : ∃ w, [1 - (prob a + prob b + prob c), prob a, prob b, prob c][(κ i).val]? = some w ∧ y ≤ w := by
            revert hy' hk
            generalize κ i = k
            intro hk hy'
            match k, hk with
            | 1, _ => exact ⟨_, rfl, hy' _ rfl⟩
            | 2, _ => exact ⟨_, rfl, hy' _ rfl⟩
            | 3, _ => exact ⟨_, rfl, hy' _ rfl⟩
          obtain ⟨w, hw, hyw⟩ := hw
          refine .one ((likely_pauli hX hi (hr.trans hz) (κ i) hw).mono ?_)
          exact (mul_le_mul' hyw hsub).trans (by rw [mul_one])
        · rw [not_not] at hk
          rw [hk, if_neg (by simp), one_mul]
          exact .one ((likely_pauli hX hi (hr.trans hz) 0 rfl).mono (tsub_le_tsub_left hr _))
    have h2 : Plan n k₀ μ past rng api (eg i) (if eg i = [] then [] else [.erasure i false 0]) ((1 - z) ^ noisyCount (eg i)) := by
      rcases he i List.mem_cons_self with h | ⟨v, h⟩
      · rw [h, if_pos rfl]
        simpa [noisyCount] using Plan.nil
      · have hS := hin ⟨.E_ERASE, [v, .int i]⟩ (by rw [h]; simp)
        have hc : noisyCount (eg i) = 1 := by rw [h]; rfl
        rw [hc, pow_one, h, if_neg (by simp)]
        obtain ⟨p, rfl⟩ : ∃ p : F, v = .flt p := by
          have := hS.shape
          generalize hgg : (⟨.E_ERASE, [v, .int i]⟩ : Gate F) = gg at this
          cases this with
          | one h' i => rcases h' with rfl | rfl | rfl <;> cases hgg
          | two h' hij => rcases h' with rfl | rfl <;> cases hgg
          | flip p i => cases hgg
          | pauli hp i => cases hgg
          | pauli2 hp hij => cases hgg
          | erase p i => cases hgg; exact ⟨p, rfl⟩
        refine .one ((likely_kept hX).mono ?_)
        refine tsub_le_tsub_left (le_trans (le_of_eq ?_) (hS.rate rfl)) _
        simp [Gate.rate, argProb, numOf]
    have := (h1.append h2).append ih
    rw [e, List.flatMap_cons, noisyCount_append, noisyCount_append]
    refine this.mono (le_of_eq ?_)
    rw [List.countP_cons, pow_add, pow_add, pow_add]
    have hb : y ^ (if (decide (κ i ≠ 0)) = true then 1 else 0) = if κ i ≠ 0 then y else 1 := by
      by_cases hk : κ i ≠ 0
      · rw [if_pos (decide_eq_true hk), if_pos hk, pow_one]
      · rw [if_neg (by rwa [decide_eq_true_iff]), if_neg hk, pow_zero]
    rw [hb]
    ring

end Plaquette
