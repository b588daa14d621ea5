import Verif.Lemmas.RandomRun

/-!
# The probability that all instructions of a set do something
-/

open MeasureTheory
open scoped ENNReal

namespace Plaquette
variable {F : Type} {n : Nat} {Ω : Type} [m0 : MeasurableSpace Ω] {μ : Measure Ω} {prob : F → ℝ≥0∞} {past : Nat → MeasurableSpace Ω} {rng : Ω → Rng F} {k₀ : Nat}

theorem numsOf_probs {api : FloatApi F} : ∀ {l : List (Val F)} {ps : List F}, numsOf api l = .ok ps → l.map (argProb api prob) = ps.map prob
  | [], ps, h => by cases h; rfl
  | v :: l, ps, h => by
    unfold numsOf at h
    split at h
    · cases h
    · rename_i q hq
      split at h
      · cases h
      · rename_i qs hqs
        cases h
        rw [List.map_cons, List.map_cons, numsOf_probs hqs]
        unfold argProb
        rw [hq]

theorem numsOf_length {api : FloatApi F} {l : List (Val F)} {ps : List F} (h : numsOf api l = .ok ps) : ps.length = l.length := by
  have := congrArg List.length (numsOf_probs (prob := fun _ => 0) h)
  simpa using this.symm

theorem sum_cover {N : Nat} {a : Ω → Option (Fin (N + 1))} {ps : List F} (hl : ps.length = N) {E : Set Ω}
    (hp : ∀ (v : Fin (N + 1)) (i : Nat) (p : F), v.val = i + 1 → ps[i]? = some p → μ (E ∩ {ω | a ω = some v}) ≤ prob p * μ E) :
    μ (E ∩ ⋃ i : Fin N, {ω | a ω = some i.succ}) ≤ (ps.map prob).sum * μ E := by
  subst hl
  rw [Set.inter_iUnion]
  refine (measure_iUnion_fintype_le _ _).trans ((Finset.sum_le_sum (g := fun i : Fin ps.length => prob ps[i] * μ E)
    fun (i : Fin ps.length) _ => hp i.succ i ps[i] rfl (List.getElem?_eq_getElem i.2)).trans ?_)
  rw [← Finset.sum_mul]
  refine le_of_eq (congrArg (· * μ E) ?_)
  rw [← List.sum_ofFn]
  congr 1
  refine List.ext_getElem (by simp) fun i h1 h2 => by simp

/-- The instruction did something only in a set whose probability is at most its rate, and which is known after the instruction. -/
def Covered (μ : Measure Ω) (past : Nat → MeasurableSpace Ω) (rng : Ω → Rng F) (api : FloatApi F) (prob : F → ℝ≥0∞) (S : Sim n) (g : Gate F) : Prop :=
  ∃ A : Set Ω, (∀ ω, struck (g, S.kicks api (rng ω) g) → ω ∈ A) ∧ (∀ E, MeasurableSet[past S.pos] E → μ (E ∩ A) ≤ g.rate api prob * μ E) ∧
    ∀ S', MeasurableSet[past S'.pos] (A ∩ {ω | S.runGate api (rng ω) g = .ok S'})

theorem covered_draw (hF : FairFrom k₀ μ prob past rng) {api : FloatApi F} {S : Sim n} {g : Gate F} (A : Set Ω) (h1 : ∀ ω, struck (g, S.kicks api (rng ω) g) → ω ∈ A)
    (h2 : ∀ E, MeasurableSet[past S.pos] E → μ (E ∩ A) ≤ g.rate api prob * μ E) (hA : MeasurableSet[past (S.pos + 1)] A)
    (hk : Known past rng (S.pos + 1) fun r => S.runGate api r g) : Covered μ past rng api prob S g := by
  refine ⟨A, h1, h2, fun S' => ?_⟩
  by_cases hS : ∃ ω, S.runGate api (rng ω) g = .ok S'
  · obtain ⟨ω, hω⟩ := hS
    exact @MeasurableSet.inter _ (past S'.pos) _ _ (hF.mono ((hk S').2 ω hω) _ hA) (hk S').1
  · have : A ∩ {ω | S.runGate api (rng ω) g = .ok S'} = ∅ := Set.eq_empty_iff_forall_notMem.2 fun ω hω => hS ⟨ω, hω.2⟩
    rw [this]
    exact @MeasurableSet.empty _ (past S'.pos)

theorem covered_never {api : FloatApi F} {S : Sim n} {g : Gate F} (h : ∀ ω, ¬ struck (g, S.kicks api (rng ω) g)) : Covered μ past rng api prob S g :=
  ⟨∅, fun ω hω => absurd hω (h ω), fun E _ => by simp, fun S' => by rw [Set.empty_inter]; exact @MeasurableSet.empty _ (past S'.pos)⟩

theorem covered_one (hF : FairFrom k₀ μ prob past rng) {api : FloatApi F} {S : Sim n} {g : Gate F} (h : g.rate api prob = 1) : Covered μ past rng api prob S g :=
  ⟨Set.univ, fun _ _ => trivial, fun E _ => by rw [h, one_mul, Set.inter_univ], fun S' => by rw [Set.univ_inter]; exact (known_runGate hF api S g S').1⟩

theorem not_struck_nil {g : Gate F} : ¬ struck (g, []) := by
  rintro (h | h)
  · cases h
  · cases h

theorem covered (hF : FairFrom k₀ μ prob past rng) (api : FloatApi F) (S : Sim n) (g : Gate F) (hp : k₀ ≤ S.pos) : Covered μ past rng api prob S g := by
  obtain ⟨name, args⟩ := g
  have below1 : ∀ {args : List (Val F)} {v : Val F} {p : F}, numOf api v = .ok p → ((List.take 1 (v :: args)).map (argProb api prob)).sum = prob p := by
    intro args v p h
    simp [argProb, h]
  cases name with
  | X | Y | Z | H | CX | CZ | M | R | DEPOLARIZE | ERROR_CONTINUE => exact covered_one hF rfl
  | ERROR =>
    match args with
    | [] => exact covered_never fun ω => not_struck_nil
    | v :: rest =>
      cases hv : numOf api v with
      | error e =>
        refine covered_never fun ω h => not_struck_nil (F := F) (g := ⟨.ERROR, v :: rest⟩) ?_
        have : S.kicks api (rng ω) ⟨.ERROR, v :: rest⟩ = [] := by
          unfold Sim.kicks
          cases rest with
          | nil => rfl
          | cons w rest => cases w <;> simp only [hv]
        rwa [this] at h
      | ok p =>
        refine covered_draw hF {ω | (rng ω).below S.pos p = true} (fun ω h => ?_) (fun E hE => ?_) (hF.below _ _)
          (show Known past rng (S.pos + 1) fun r => S.handleError api r .ERROR (v :: rest) from known_ERROR hF api S _)
        · by_contra hb
          have hb : ¬ (rng ω).below S.pos p = true := hb
          refine not_struck_nil (F := F) (g := ⟨.ERROR, v :: rest⟩) ?_
          have : S.kicks api (rng ω) ⟨.ERROR, v :: rest⟩ = [] := by
            unfold Sim.kicks
            cases rest with
            | nil => rfl
            | cons w rest => cases w <;> simp only [hv, if_neg hb]
          rwa [this] at h
        · show _ ≤ ((List.take 1 (v :: rest)).map (argProb api prob)).sum * _
          rw [below1 hv]
          exact hF.below_prob _ _ _ hp hE
  | ERROR_ELSE =>
    by_cases ha : S.anyApplied = true
    · refine covered_never fun ω h => not_struck_nil (F := F) (g := ⟨.ERROR_ELSE, args⟩) ?_
      have : S.kicks api (rng ω) ⟨.ERROR_ELSE, args⟩ = [] := by
        match args with
        | [] => rfl
        | [_] => rfl
        | v :: .int _ :: _ => rfl
        | v :: .flt _ :: _ => rfl
        | v :: .name m :: rest =>
          unfold Sim.kicks
          dsimp only
          split
          · simp [ha]
          · rfl
      rwa [this] at h
    · match args with
      | [] => exact covered_never fun ω => not_struck_nil
      | v :: rest =>
        cases hv : numOf api v with
        | error e =>
          refine covered_never fun ω h => not_struck_nil (F := F) (g := ⟨.ERROR_ELSE, v :: rest⟩) ?_
          have : S.kicks api (rng ω) ⟨.ERROR_ELSE, v :: rest⟩ = [] := by
            unfold Sim.kicks
            cases rest with
            | nil => rfl
            | cons w rest => cases w <;> simp only [hv]
          rwa [this] at h
        | ok p =>
          refine covered_draw hF {ω | (rng ω).below S.pos p = true} (fun ω h => ?_) (fun E hE => ?_) (hF.below _ _)
            (show Known past rng (S.pos + 1) fun r => S.handleError api r .ERROR_ELSE (v :: rest) from known_ELSE hF api S _ (by simpa using ha))
          · by_contra hb
            have hb : ¬ (rng ω).below S.pos p = true := hb
            refine not_struck_nil (F := F) (g := ⟨.ERROR_ELSE, v :: rest⟩) ?_
            have : S.kicks api (rng ω) ⟨.ERROR_ELSE, v :: rest⟩ = [] := by
              unfold Sim.kicks
              cases rest with
              | nil => rfl
              | cons w rest => cases w <;> simp [hv, hb]
            rwa [this] at h
          · show _ ≤ ((List.take 1 (v :: rest)).map (argProb api prob)).sum * _
            rw [below1 hv]
            exact hF.below_prob _ _ _ hp hE
  | E_ERASE =>
    match args with
    | [] => exact covered_never fun ω => not_struck_nil
    | [_] => exact covered_never fun ω => not_struck_nil
    | v :: w :: u :: l =>
      refine covered_never fun ω h => not_struck_nil (F := F) (g := ⟨.E_ERASE, v :: w :: u :: l⟩) ?_
      have : S.kicks api (rng ω) ⟨.E_ERASE, v :: w :: u :: l⟩ = [] := by
        show kicksOf api (rng ω) S.pos .E_ERASE (v :: w :: u :: l) = []
        unfold kicksOf
        cases w <;> rfl
      rwa [this] at h
    | [v, w] =>
      cases hv : numOf api v with
      | error e =>
        refine covered_never fun ω h => not_struck_nil (F := F) (g := ⟨.E_ERASE, [v, w]⟩) ?_
        have : S.kicks api (rng ω) ⟨.E_ERASE, [v, w]⟩ = [] := by
          show kicksOf api (rng ω) S.pos .E_ERASE [v, w] = []
          unfold kicksOf
          cases w <;> simp only [hv]
        rwa [this] at h
      | ok p =>
        refine covered_draw hF {ω | (rng ω).below S.pos p = true} (fun ω h => ?_) (fun E hE => ?_) (hF.below _ _) ?_
        · by_contra hb
          have hb : ¬ (rng ω).below S.pos p = true := hb
          refine not_struck_nil (F := F) (g := ⟨.E_ERASE, [v, w]⟩) ?_
          have : S.kicks api (rng ω) ⟨.E_ERASE, [v, w]⟩ = [] := by
            show kicksOf api (rng ω) S.pos .E_ERASE [v, w] = []
            unfold kicksOf
            cases w <;> simp only [hv, if_neg hb]
          rwa [this] at h
        · show _ ≤ ((List.take 1 [v, w]).map (argProb api prob)).sum * _
          rw [below1 hv]
          exact hF.below_prob _ _ _ hp hE
        · exact known_erase hF api ({ S with inError := false } : Sim n) [v, w]
  | E_PAULI =>
    cases hv : numsOf api (args.take 3) with
    | error e =>
      refine covered_never fun ω h => not_struck_nil (F := F) (g := ⟨.E_PAULI, args⟩) ?_
      have : S.kicks api (rng ω) ⟨.E_PAULI, args⟩ = [] := by
        show kicksOf api (rng ω) S.pos .E_PAULI args = []
        unfold kicksOf
        simp only [hv]
      rwa [this] at h
    | ok ps =>
      by_cases hl : ps.length = 3
      · refine covered_draw hF (⋃ i : Fin 3, {ω | (rng ω).choice4 S.pos ps = some i.succ}) (fun ω h => ?_) (fun E hE => ?_) ?_ ?_
        · have hk : S.kicks api (rng ω) ⟨.E_PAULI, args⟩ = kicksOf api (rng ω) S.pos .E_PAULI args := rfl
          rw [hk] at h
          unfold kicksOf at h
          simp only [hv] at h
          split at h
          · rename_i ps' q hps _
            cases hps
            split at h
            · rename_i k hk
              have hk0 : k ≠ 0 := by
                rintro rfl
                rcases h with h | h
                · simp [hitBy] at h
                · simp [lossFault] at h
              obtain ⟨i, rfl⟩ := Fin.exists_succ_eq.2 hk0
              exact Set.mem_iUnion.2 ⟨i, hk⟩
            · exact absurd h not_struck_nil
          · exact absurd h not_struck_nil
        · show _ ≤ ((args.take 3).map (argProb api prob)).sum * _
          rw [numsOf_probs hv]
          exact sum_cover hl fun v i p h1 h2 => hF.choice4_prob _ _ v i p E hp h1 h2 hE
        · exact @MeasurableSet.iUnion _ _ (past (S.pos + 1)) _ _ fun i => hF.choice4 _ _ _
        · exact known_pauli hF api ({ S with inError := false } : Sim n) args
      · refine covered_never fun ω h => not_struck_nil (F := F) (g := ⟨.E_PAULI, args⟩) ?_
        have : S.kicks api (rng ω) ⟨.E_PAULI, args⟩ = [] := by
          show kicksOf api (rng ω) S.pos .E_PAULI args = []
          have h3 : args[3]? = none := by
            rw [List.getElem?_eq_none_iff]
            have := numsOf_length hv
            rw [List.length_take] at this
            omega
          unfold kicksOf
          simp only [hv, h3]
        rwa [this] at h
  | E_PAULI2 =>
    cases hv : numsOf api (args.take 15) with
    | error e =>
      refine covered_never fun ω h => not_struck_nil (F := F) (g := ⟨.E_PAULI2, args⟩) ?_
      have : S.kicks api (rng ω) ⟨.E_PAULI2, args⟩ = [] := by
        show kicksOf api (rng ω) S.pos .E_PAULI2 args = []
        unfold kicksOf
        simp only [hv]
      rwa [this] at h
    | ok ps =>
      by_cases hl : ps.length = 15
      · refine covered_draw hF (⋃ i : Fin 15, {ω | (rng ω).choice16 S.pos ps = some i.succ}) (fun ω h => ?_) (fun E hE => ?_) ?_ ?_
        · have hk : S.kicks api (rng ω) ⟨.E_PAULI2, args⟩ = kicksOf api (rng ω) S.pos .E_PAULI2 args := rfl
          rw [hk] at h
          unfold kicksOf at h
          simp only [hv] at h
          split at h
          · rename_i ps' q1 q2 hps _ _
            cases hps
            split at h
            · rename_i k hk
              have hk0 : k ≠ 0 := by
                rintro rfl
                rcases h with h | h
                · simp [hitBy] at h
                · simp [lossFault] at h
              obtain ⟨i, rfl⟩ := Fin.exists_succ_eq.2 hk0
              exact Set.mem_iUnion.2 ⟨i, hk⟩
            · exact absurd h not_struck_nil
          · exact absurd h not_struck_nil
        · show _ ≤ ((args.take 15).map (argProb api prob)).sum * _
          rw [numsOf_probs hv]
          exact sum_cover hl fun v i p h1 h2 => hF.choice16_prob _ _ v i p E hp h1 h2 hE
        · exact @MeasurableSet.iUnion _ _ (past (S.pos + 1)) _ _ fun i => hF.choice16 _ _ _
        · exact known_pauli2 hF api ({ S with inError := false } : Sim n) args
      · refine covered_never fun ω h => not_struck_nil (F := F) (g := ⟨.E_PAULI2, args⟩) ?_
        have : S.kicks api (rng ω) ⟨.E_PAULI2, args⟩ = [] := by
          show kicksOf api (rng ω) S.pos .E_PAULI2 args = []
          have h3 : args[15]? = none := by
            rw [List.getElem?_eq_none_iff]
            have := numsOf_length hv
            rw [List.length_take] at this
            omega
          unfold kicksOf
          simp only [hv, h3]
        rwa [this] at h

/-- In a run that ends, all marked instructions did something. -/
def AllStruck (api : FloatApi F) (rng : Rng F) (S : Sim n) (gs : List (Gate F)) (b : Nat → Bool) : Prop :=
  (∃ S', S.runGates api rng gs = .ok S') ∧ ∀ i < gs.length, b i = true → ∃ p, (S.trace api rng gs)[i]? = some p ∧ struck p

/-- The product of the rates of the marked instructions. -/
noncomputable def markedRate (api : FloatApi F) (prob : F → ℝ≥0∞) : List (Gate F) → (Nat → Bool) → ℝ≥0∞
  | [], _ => 1
  | g :: gs, b => (if b 0 then g.rate api prob else 1) * markedRate api prob gs fun i => b (i + 1)

theorem struck_bound (hF : FairFrom k₀ μ prob past rng) (api : FloatApi F) : ∀ (gs : List (Gate F)) (S : Sim n) (b : Nat → Bool) (E : Set Ω), k₀ ≤ S.pos → MeasurableSet[past S.pos] E →
    μ (E ∩ {ω | AllStruck api (rng ω) S gs b}) ≤ markedRate api prob gs b * μ E
  | [], S, b, E, hp, hE => by
    rw [markedRate, one_mul]
    exact measure_mono Set.inter_subset_left
  | g :: gs, S, b, E, hp, hE => by
    -- what is known about the first instruction
    obtain ⟨A, hA1, hA2, hA3⟩ : ∃ A : Set Ω, (∀ ω, (b 0 = true → struck (g, S.kicks api (rng ω) g)) → ω ∈ A) ∧
        (∀ E, MeasurableSet[past S.pos] E → μ (E ∩ A) ≤ (if b 0 then g.rate api prob else 1) * μ E) ∧
        ∀ S', MeasurableSet[past S'.pos] (A ∩ {ω | S.runGate api (rng ω) g = .ok S'}) := by
      by_cases hb : b 0 = true
      · obtain ⟨A, h1, h2, h3⟩ := covered hF api S g hp
        exact ⟨A, fun ω h => h1 ω (h hb), by simpa only [hb, if_true] using h2, h3⟩
      · refine ⟨Set.univ, fun _ _ => trivial, fun E _ => ?_, fun S' => by rw [Set.univ_inter]; exact (known_runGate hF api S g S').1⟩
        rw [if_neg hb, one_mul, Set.inter_univ]
    have hk := known_runGate hF api S g
    let E' : Sim n → Set Ω := fun S' => E ∩ (A ∩ {ω | S.runGate api (rng ω) g = .ok S'})
    have hE' : ∀ S', MeasurableSet[past S'.pos] (E' S') := by
      intro S'
      by_cases hS : ∃ ω, S.runGate api (rng ω) g = .ok S'
      · obtain ⟨ω, hω⟩ := hS
        exact @MeasurableSet.inter _ (past S'.pos) _ _ (hF.mono ((hk S').2 ω hω) _ hE) (hA3 S')
      · have : E' S' = ∅ := Set.eq_empty_iff_forall_notMem.2 fun ω hω => hS ⟨ω, hω.2.2⟩
        rw [this]
        exact @MeasurableSet.empty _ (past S'.pos)
    have hsub : E ∩ {ω | AllStruck api (rng ω) S (g :: gs) b} ⊆ ⋃ S' : Sim n, E' S' ∩ {ω | AllStruck api (rng ω) S' gs fun i => b (i + 1)} := by
      rintro ω ⟨hω, ⟨S2, hS2⟩, hall⟩
      rw [Sim.runGates] at hS2
      cases hg : S.runGate api (rng ω) g with
      | error e => rw [hg] at hS2; cases hS2
      | ok S1 =>
        rw [hg] at hS2
        refine Set.mem_iUnion.2 ⟨S1, ⟨hω, hA1 ω fun h0 => ?_, hg⟩, ⟨S2, hS2⟩, fun i hi hbi => ?_⟩
        · obtain ⟨p, hp, hs⟩ := hall 0 (by simp) h0
          rw [Sim.trace] at hp
          cases hp
          exact hs
        · obtain ⟨p, hp, hs⟩ := hall (i + 1) (by simpa using hi) hbi
          rw [Sim.trace, hg] at hp
          exact ⟨p, hp, hs⟩
    have hstep : ∀ S', μ (E' S' ∩ {ω | AllStruck api (rng ω) S' gs fun i => b (i + 1)}) ≤ markedRate api prob gs (fun i => b (i + 1)) * μ (E' S') := by
      intro S'
      by_cases hS : ∃ ω, S.runGate api (rng ω) g = .ok S'
      · obtain ⟨ω, hω⟩ := hS
        exact struck_bound hF api gs S' _ (E' S') (hp.trans ((hk S').2 ω hω)) (hE' S')
      · have : E' S' = ∅ := Set.eq_empty_iff_forall_notMem.2 fun ω hω => hS ⟨ω, hω.2.2⟩
        rw [this]
        simp
    refine (measure_mono hsub).trans ((measure_iUnion_le _).trans ((ENNReal.tsum_le_tsum fun S' => hstep S').trans ?_))
    rw [ENNReal.tsum_mul_left, ← measure_iUnion, markedRate, mul_comm (if b 0 = true then _ else _), mul_assoc]
    · refine mul_le_mul_right ((measure_mono ?_).trans (hA2 E hE)) _
      exact Set.iUnion_subset fun S' ω hω => ⟨hω.1, hω.2.1⟩
    · intro S1 S2 hne
      refine Set.disjoint_left.2 fun ω h1 h2 => hne ?_
      have e1 : S.runGate api (rng ω) g = .ok S1 := h1.2.2
      have e2 : S.runGate api (rng ω) g = .ok S2 := h2.2.2
      rw [e1] at e2
      exact Except.ok.inj e2
    · exact fun S' => hF.le _ _ (hE' S')

end Plaquette
