import Verif.Lemmas.RandomTrace
import Verif.Lemmas.Causes
import Verif.Lemmas.Blame

/-!
# Random faults of an experiment
-/

open MeasureTheory
open scoped ENNReal

namespace Plaquette
variable {F : Type} {n : Nat} {Ω : Type} [m0 : MeasurableSpace Ω] {μ : Measure Ω} {prob : F → ℝ≥0∞} {past : Nat → MeasurableSpace Ω} {rng : Ω → Rng F} {k₀ : Nat}

/-- The rate of an instruction of a circuit. -/
noncomputable def rateAt (api : FloatApi F) (prob : F → ℝ≥0∞) (c : List (Gate F)) (i : Nat) : ℝ≥0∞ :=
  match c[i]? with
  | some g => g.rate api prob
  | none => 0

theorem markedRate_prod (api : FloatApi F) : ∀ (gs : List (Gate F)) (b : Nat → Bool), markedRate api prob gs b = ∏ i ∈ Finset.range gs.length, if b i then rateAt api prob gs i else 1
  | [], b => by simp [markedRate]
  | g :: gs, b => by
    rw [markedRate, markedRate_prod api gs, List.length_cons, Finset.prod_range_succ', mul_comm]
    rfl

/-- The instruction did something. -/
def StruckAt (tr : List (Kicked1 F)) (i : Nat) : Prop := ∃ x, tr[i]? = some x ∧ struck x

theorem trace_length (api : FloatApi F) (rng : Rng F) : ∀ (gs : List (Gate F)) (S : Sim n), (S.trace api rng gs).length ≤ gs.length
  | [], S => by simp [Sim.trace]
  | g :: gs, S => by
    rw [Sim.trace]
    cases S.runGate api rng g with
    | error e => simp
    | ok S' => simpa using trace_length api rng gs S'

theorem struck_noisy {api : FloatApi F} {rng : Rng F} {S : Sim n} {g : Gate F} (h : struck (g, S.kicks api rng g)) : g.name.noisy = true := by
  by_contra hn
  refine not_struck_nil (g := g) ?_
  have : S.kicks api rng g = [] := by
    obtain ⟨name, args⟩ := g
    cases name <;> first | rfl | exact absurd rfl hn
  rwa [this] at h

theorem trace_struck {api : FloatApi F} {rng : Rng F} : ∀ {gs : List (Gate F)} {S : Sim n} {i : Nat} {x : Kicked1 F}, (S.trace api rng gs)[i]? = some x → struck x →
    ∃ g, gs[i]? = some g ∧ g.name.noisy = true
  | [], S, i, x, h, _ => by simp [Sim.trace] at h
  | g :: gs, S, 0, x, h, hx => by
    rw [Sim.trace] at h
    cases h
    exact ⟨g, rfl, struck_noisy hx⟩
  | g :: gs, S, i + 1, x, h, hx => by
    rw [Sim.trace] at h
    cases hg : S.runGate api rng g with
    | error e => rw [hg] at h; simp at h
    | ok S' =>
      rw [hg] at h
      exact trace_struck (gs := gs) (S := S') (i := i) h hx

/-- All instructions of a set do something with at most the product of their rates. -/
theorem struck_prod (hF : FairFrom k₀ μ prob past rng) (api : FloatApi F) (gs : List (Gate F)) (S : Sim n) (I : Finset Nat) (E : Set Ω) (hp : k₀ ≤ S.pos) (hE : MeasurableSet[past S.pos] E) :
    μ (E ∩ {ω | (∃ S', S.runGates api (rng ω) gs = .ok S') ∧ ∀ i ∈ I, StruckAt (S.trace api (rng ω) gs) i}) ≤ (∏ i ∈ I, rateAt api prob gs i) * μ E := by
  by_cases hI : I ⊆ Finset.range gs.length
  · refine (measure_mono fun ω hω => ?_).trans ((struck_bound hF api gs S (fun i => decide (i ∈ I)) E hp hE).trans (le_of_eq ?_))
    · exact ⟨hω.1, hω.2.1, fun i _ hi => hω.2.2 i (of_decide_eq_true hi)⟩
    · rw [markedRate_prod]
      simp only [decide_eq_true_eq]
      rw [Finset.prod_ite_mem, Finset.inter_eq_right.2 hI]
  · obtain ⟨i, hi, hn⟩ := Finset.not_subset.1 hI
    have : E ∩ {ω | (∃ S', S.runGates api (rng ω) gs = .ok S') ∧ ∀ i ∈ I, StruckAt (S.trace api (rng ω) gs) i} = ∅ := by
      refine Set.eq_empty_iff_forall_notMem.2 fun ω hω => ?_
      obtain ⟨x, hx, hs⟩ := hω.2.2 i hi
      obtain ⟨g, hg, _⟩ := trace_struck hx hs
      exact hn (Finset.mem_range.2 (List.getElem?_eq_some_iff.1 hg).1)
    rw [this, measure_empty]
    exact zero_le

/-- The same if all errors have at most the rate `p`. -/
theorem struck_pow [IsProbabilityMeasure μ] (hF : FairFrom k₀ μ prob past rng) (api : FloatApi F) (gs : List (Gate F)) {p : ℝ≥0∞} (hr : ∀ g ∈ gs, g.name.noisy = true → g.rate api prob ≤ p)
    (S : Sim n) (hp : k₀ ≤ S.pos) (I : Finset Nat) :
    μ {ω | (∃ S', S.runGates api (rng ω) gs = .ok S') ∧ ∀ i ∈ I, StruckAt (S.trace api (rng ω) gs) i} ≤ p ^ I.card := by
  by_cases hI : ∀ i ∈ I, ∃ g, gs[i]? = some g ∧ g.name.noisy = true
  · have h := struck_prod hF api gs S I Set.univ hp (@MeasurableSet.univ _ (past S.pos))
    rw [Set.univ_inter, measure_univ, mul_one] at h
    refine h.trans ?_
    rw [← Finset.prod_const]
    refine Finset.prod_le_prod' fun i hi => ?_
    obtain ⟨g, hg, hn⟩ := hI i hi
    unfold rateAt
    rw [hg]
    exact hr g (List.mem_of_getElem? hg) hn
  · have : {ω | (∃ S', S.runGates api (rng ω) gs = .ok S') ∧ ∀ i ∈ I, StruckAt (S.trace api (rng ω) gs) i} = ∅ := by
      refine Set.eq_empty_iff_forall_notMem.2 fun ω hω => hI fun i hi => ?_
      obtain ⟨x, hx, hs⟩ := hω.2 i hi
      exact trace_struck hx hs
    rw [this, measure_empty]
    exact zero_le

/-! ### Circuits without errors of gates -/

variable {L : Lattice} {fl : Flags} {pg eg err : Nat → List (Gate F)}

theorem gateRound_err (L : Lattice) (err : Nat → List (Gate F)) : L.gateRound (fun _ _ => []) (fun _ _ _ => []) err = L.noisyRound err := by
  unfold Lattice.gateRound Lattice.noisyRound
  refine List.flatMap_congr fun b _ => ?_
  have e1 : (b.2.flatMap (edgeErr (F := F) (fun _ _ _ => []) L.idx)) = (b.2.map (ctl L.idx)).map toGate := by
    rw [List.map_map, List.map_eq_flatMap]; rfl
  unfold gateBlock noisyBlock readGates
  rw [e1]
  simp only [List.map_flatMap, List.flatMap_map]
  rfl

theorem noisyGates_eq (L : Lattice) (pg eg err : Nat → List (Gate F)) (anc : Bool) (r : Nat) (as : List Pos) :
    L.noisyGates pg eg err anc r as = L.gateGates (fun _ _ => []) (fun _ _ _ => []) pg eg err anc r as := by
  unfold Lattice.noisyGates Lattice.gateGates
  rw [gateRound_err]

theorem noGateErrors (hE : ErrGates L fl pg eg err) (anc : Bool) (r : Nat) (as : List Pos) :
    NoGateErrors L.dataqubits.length (L.gateGates (fun _ _ => []) (fun _ _ _ => []) pg eg err anc r as) := by
  have clean : ∀ g : Gate F, g.name.noisy = false → g.name ≠ .E_PAULI2 ∧ (g.name = .E_PAULI → g.home < L.dataqubits.length) := by
    intro g hg
    constructor
    · intro h; rw [h] at hg; cases hg
    · intro h; rw [h] at hg; cases hg
  have data : ∀ g ∈ dataGates pg eg (List.range L.dataqubits.length), g.name ≠ .E_PAULI2 ∧ (g.name = .E_PAULI → g.home < L.dataqubits.length) := by
    intro g hg
    obtain ⟨i, hi, hg⟩ := List.mem_flatMap.1 hg
    rw [List.mem_range] at hi
    rcases List.mem_append.1 hg with hg | hg
    · rcases (hE.pauli i hi).1 with h | ⟨a, b, c, h⟩
      · rw [h] at hg; cases hg
      · rw [h, List.mem_singleton] at hg
        subst hg
        exact ⟨by simp, fun _ => hi⟩
    · rcases (hE.erase i hi).1 with h | ⟨v, h⟩
      · rw [h] at hg; cases hg
      · rw [h, List.mem_singleton] at hg
        subst hg
        exact ⟨by simp, by simp⟩
  have round : ∀ g ∈ L.gateRound (fun _ _ => []) (fun _ _ _ => []) err, g.name ≠ .E_PAULI2 ∧ (g.name = .E_PAULI → g.home < L.dataqubits.length) := by
    intro g hg
    obtain ⟨b, hb, hg⟩ := List.mem_flatMap.1 hg
    unfold gateBlock at hg
    rcases List.mem_append.1 hg with hg | hg
    · obtain ⟨a, _, hg⟩ := List.mem_flatMap.1 hg
      refine clean g ?_
      unfold prepErr at hg
      simp only [List.cons_append, List.nil_append, List.mem_cons, List.not_mem_nil, or_false] at hg
      rcases hg with rfl | rfl <;> rfl
    · rcases List.mem_append.1 hg with hg | hg
      · obtain ⟨e, _, hg⟩ := List.mem_flatMap.1 hg
        refine clean g ?_
        unfold edgeErr at hg
        rw [List.mem_singleton] at hg
        subst hg
        unfold ctl
        split <;> rfl
      · obtain ⟨a, ha, hg⟩ := List.mem_flatMap.1 hg
        unfold readErr at hg
        simp only [List.cons_append, List.nil_append, List.mem_cons, List.mem_append, List.not_mem_nil, or_false] at hg
        rcases hg with rfl | hg | rfl
        · exact clean _ rfl
        · rcases (hE.flip a (by rw [← stabBlocks_anc]; exact List.mem_flatMap.2 ⟨b, hb, ha⟩)).1 with h | ⟨p, h⟩
          · rw [h] at hg; cases hg
          · rw [h, List.mem_singleton] at hg
            subst hg
            exact ⟨by simp, by simp⟩
        · exact clean _ rfl
  intro g hg
  unfold Lattice.gateGates at hg
  rcases List.mem_append.1 hg with hg | hg
  · exact clean g (clean_sel L anc as g hg)
  · rcases List.mem_append.1 hg with hg | hg
    · exact clean g (clean_noisyRound L g hg)
    · rcases List.mem_append.1 hg with hg | hg
      · obtain ⟨l, hl, hg⟩ := List.mem_flatten.1 hg
        rw [(List.mem_replicate.1 hl).2] at hg
        rcases List.mem_append.1 hg with hg | hg
        · exact data g hg
        · exact round g hg
      · rcases List.mem_append.1 hg with hg | hg
        · exact data g hg
        · rcases List.mem_append.1 hg with hg | hg
          · exact clean g (clean_noisyRound L g hg)
          · exact clean g (clean_sel L anc as g hg)

end Plaquette
