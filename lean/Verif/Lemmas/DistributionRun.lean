import Verif.Lemmas.Distribution
import Mathlib.MeasureTheory.Measure.Typeclasses.Finite

/-!
# The simulator realises the instrument of a circuit
-/

open MeasureTheory Matrix
open scoped ENNReal

namespace Plaquette
variable {F : Type} {n : Nat}

section
variable {Ω : Type} [m0 : MeasurableSpace Ω] {μ : Measure Ω} {prob : F → ℝ≥0∞} {past : Nat → MeasurableSpace Ω} {rng : Ω → Rng F} {k₀ : Nat}

theorem one_isUnitary : (1 : Mat n)ᴴ * 1 = 1 := by rw [conjTranspose_one, one_mul]

theorem realises_gates (Gs : List (CGate n)) (hG : ∀ G ∈ Gs, G.Ok) :
    Realises μ past rng k₀ (fun (_ : Rng F) S => .ok (S.gates Gs)) (.inOrder (Gs.map .gate)) := by
  induction Gs with
  | nil => exact realises_nothing fun r S => rfl
  | cons G Gs ih =>
    have h1 : Realises μ past rng k₀ (fun (_ : Rng F) S => .ok (S.gates [G])) (Instrument.gate G) :=
      realises_step (g := fun S => S.gates [G]) (unitary_unitary G (hG G (by simp))) [] (fun _ _ => rfl) (fun _ => rfl) (fun _ => rfl) (fun S => (List.append_nil _).symm)
        (fun S hv => app_valid hv G (hG G (by simp))) (fun S ψ hr => app_represents G (hG G (by simp)) hr)
    exact realises_bind h1 (ih fun G' h' => hG G' (List.mem_cons_of_mem _ h')) fun r S => rfl

theorem realises_measureAll (hX : ExactFrom k₀ μ prob past rng) (qs : List (Fin n)) :
    Realises μ past rng k₀ (fun r S => S.measureAll r qs) (.inOrder (qs.map .measure)) := by
  induction qs with
  | nil => exact realises_nothing fun r S => rfl
  | cons q qs ih =>
    have h1 : Realises μ past rng k₀ (fun r S => S.measureZ r q) (Instrument.measure q) := by
      have := realises_measureLike hX (fun _ T => T) (fun b => [b]) q (fun _ => 1) (fun _ => one_isUnitary) (fun b T φ h1 h2 => ⟨h1, by rwa [Matrix.one_mulVec]⟩)
        (f := fun r S => S.measureZ r q) (fun r S => rfl)
      simp only [one_mul] at this
      exact this
    refine realises_bind h1 ih fun r S => ?_
    rw [Sim.measureAll]
    cases S.measureZ r q <;> rfl

/-- What a reset does after the measurement. -/
noncomputable def resetU (q : Fin n) : Bool → Mat n
  | false => 1
  | true => (CGate.x q).unitary

def resetT (q : Fin n) : Bool → Tab n → Tab n
  | false, T => T
  | true, T => (CGate.x q).app T

theorem realises_resetAll (hX : ExactFrom k₀ μ prob past rng) (qs : List (Fin n)) :
    Realises μ past rng k₀ (fun r S => S.resetAll r qs) (.inOrder (qs.map .reset)) := by
  induction qs with
  | nil => exact realises_nothing fun r S => rfl
  | cons q qs ih =>
    have hU : ∀ b : Bool, (resetU q b)ᴴ * resetU q b = 1 := by
      intro b
      cases b
      · exact one_isUnitary
      · exact unitary_unitary (CGate.x q) trivial
    have hT : ∀ (b : Bool) (T : Tab n) (φ : Vec n), T.Valid → T.Represents φ → (resetT q b T).Valid ∧ (resetT q b T).Represents (resetU q b *ᵥ φ) := by
      intro b T φ h1 h2
      cases b
      · exact ⟨h1, by rw [resetU, Matrix.one_mulVec]; exact h2⟩
      · exact ⟨app_valid h1 _ trivial, app_represents (CGate.x q) trivial h2⟩
    have h1 := realises_measureLike hX (resetT q) (fun _ => []) q (resetU q) hU hT (f := measureLike (resetT q) (fun _ => []) q) fun r S => rfl
    rw [show [⟨1, resetU q false * projZ q false, [], []⟩, ⟨1, resetU q true * projZ q true, [], []⟩] = Instrument.reset q from by
      simp only [resetU, one_mul]; rfl] at h1
    refine realises_bind h1 ih fun r S => ?_
    rw [Sim.resetAll, resetOne, measureLike]
    cases measure S.tab (singleOp false .Z q) none (r.bit S.pos) with
    | error e => rfl
    | ok p =>
      obtain ⟨T, out⟩ := p
      cases out <;> simp [Except.bind, resetT]

theorem realises_pauli (q : Fin n) (k : Fin 4) : Realises μ past rng k₀ (fun (_ : Rng F) S => S.applyPauli q k.val) [⟨1, pauliNo q k, [], []⟩] := by
  have hg : ∀ G : CGate n, G.Ok → Realises μ past rng k₀ (fun (_ : Rng F) S => .ok (S.gates [G])) (Instrument.gate G) := fun G hG =>
    realises_step (g := fun S => S.gates [G]) (unitary_unitary G hG) [] (fun _ _ => rfl) (fun _ => rfl) (fun _ => rfl) (fun S => (List.append_nil _).symm)
      (fun S hv => app_valid hv G hG) (fun S ψ hr => app_represents G hG hr)
  match k with
  | 0 => exact realises_nothing fun r S => rfl
  | 1 => exact hg (.x q) trivial
  | 2 => exact hg (.y q) trivial
  | 3 => exact hg (.z q) trivial

theorem realises_depolarize (hX : ExactFrom k₀ μ prob past rng) (qs : List (Fin n)) :
    Realises μ past rng k₀ (fun r S => S.depolarize r qs) (.inOrder (qs.map .depolarize)) := by
  induction qs with
  | nil => exact realises_nothing fun r S => rfl
  | cons q qs ih =>
    have h1 : Realises μ past rng k₀ (fun r S => ({ S with pos := S.pos + 1 } : Sim n).applyPauli q (1 + (r.int3 S.pos).val)) (Instrument.depolarize q) :=
      realises_draw hX (fun r k => some (r.int3 k)) (fun _ => 3⁻¹) (fun v _ S => S.applyPauli q (1 + v.val)) (fun v => [⟨1, pauliNo q ⟨1 + v.val, by omega⟩, [], []⟩])
        (fun k v => by simp only [Option.some.injEq]; exact hX.int3 k v) (fun k v E hk hE => by simp only [Option.some.injEq]; exact hX.int3_exact k v E hk hE)
        (fun r S v hv => by simp only [Option.some.injEq] at hv; subst hv; rfl) (fun r S S' hc => by simp at hc)
        (fun v => realises_pauli q ⟨1 + v.val, by omega⟩) _ (fun V ψ m e => by
          rw [Fin.sum_univ_three]
          simp [Instrument.value, Instrument.depolarize, add_assoc])
    refine realises_bind h1 ih fun r S => ?_
    rw [Sim.depolarize]
    cases ({ S with pos := S.pos + 1 } : Sim n).applyPauli q (1 + (r.int3 S.pos).val) <;> rfl

theorem value_finRange (N : Nat) (b : Fin N → Branch n) (V : Vec n → List Bool → List Bool → ℝ≥0∞) (ψ : Vec n) (m e : List Bool) :
    Instrument.value ((List.finRange N).map b) V ψ m e = ∑ v, (b v).weight * V ((b v).op *ᵥ ψ) (m ++ (b v).meas) (e ++ (b v).erasure) := by
  rw [Fin.sum_univ_def, Instrument.value, List.map_map]
  rfl

theorem min_add_sub (p : ℝ≥0∞) : min p 1 + (1 - p) = 1 := by
  rcases le_total p 1 with h | h
  · rw [min_eq_left h, add_tsub_cancel_of_le h]
  · rw [min_eq_right h, tsub_eq_zero_of_le h, add_zero]

theorem below_complement [IsFiniteMeasure μ] (hX : ExactFrom k₀ μ prob past rng) (k : Nat) (x : F) (E : Set Ω) (hk : k₀ ≤ k) (hE : MeasurableSet[past k] E) :
    μ (E ∩ {ω | (rng ω).below k x = false}) = (1 - prob x) * μ E := by
  have hm : MeasurableSet {ω | (rng ω).below k x = true} := hX.le _ _ (hX.below k x)
  have h := measure_inter_add_sdiff E hm (μ := μ)
  have he : E \ {ω | (rng ω).below k x = true} = E ∩ {ω | (rng ω).below k x = false} := by
    ext ω
    simp
  rw [he, hX.below_exact k x E hk hE] at h
  have hsplit : min (prob x) 1 * μ E + (1 - prob x) * μ E = μ E := by
    rw [← add_mul]
    rw [min_add_sub, one_mul]
  have hfin : min (prob x) 1 * μ E ≠ ⊤ := ENNReal.mul_ne_top (ne_top_of_le_ne_top ENNReal.one_ne_top (min_le_right _ _)) (measure_ne_top μ E)
  exact (ENNReal.add_right_inj hfin).1 (h.trans hsplit.symm)

/-- The answer of `rng.random() < p`, with its probability. -/
theorem realises_below [IsFiniteMeasure μ] (hX : ExactFrom k₀ μ prob past rng) (x : F) {f : Rng F → Sim n → Except Err (Sim n)} (h : Bool → Rng F → Sim n → Except Err (Sim n))
    (hf : ∀ r S, f r S = h (r.below S.pos x) r { S with pos := S.pos + 1 }) {I J : Instrument n} (hI : Realises μ past rng k₀ (h true) I) (hJ : Realises μ past rng k₀ (h false) J)
    (K : Instrument n) (hK : ∀ V ψ m e, K.value V ψ m e = min (prob x) 1 * I.value V ψ m e + (1 - prob x) * J.value V ψ m e) : Realises μ past rng k₀ f K :=
  realises_draw hX (fun r k => some (r.below k x)) (fun b => if b then min (prob x) 1 else 1 - prob x) h (fun b => if b then I else J)
    (fun k v => by
      simp only [Option.some.injEq]
      cases v with
      | true => exact hX.below k x
      | false =>
        have := @MeasurableSet.compl _ _ (past (k + 1)) (hX.below k x)
        rw [show {ω | (rng ω).below k x = false} = {ω | (rng ω).below k x = true}ᶜ from by ext ω; simp]
        exact this)
    (fun k v E hk hE => by
      simp only [Option.some.injEq]
      cases v with
      | true => exact hX.below_exact k x E hk hE
      | false => exact below_complement hX k x E hk hE)
    (fun r S v hv => by simp only [Option.some.injEq] at hv; rw [hf, hv]) (fun r S S' hc => by simp at hc)
    (fun v => by cases v; exact hJ; exact hI) K (fun V ψ m e => by rw [Fintype.sum_bool, hK]; rfl)

theorem realises_erase [IsFiniteMeasure μ] (hX : ExactFrom k₀ μ prob past rng) (api : FloatApi F) {v : Val F} {p : F} (hv : ValIs api v p) (q : Fin n) :
    Realises μ past rng k₀ (fun r S => S.handleGate api r .E_ERASE [v, .int (q.val : Int)]) (.erase (prob p) q) := by
  have hnum : numOf api v = .ok p := by
    rcases hv with rfl | ⟨i, rfl, rfl⟩ <;> rfl
  have hrec : ∀ b : Bool, Realises μ past rng k₀ (fun (_ : Rng F) S => .ok { S with erasure := S.erasure ++ [b] }) [⟨1, (1 : Mat n), [], [b]⟩] := fun b =>
    realises_step (g := fun S => { S with erasure := S.erasure ++ [b] }) one_isUnitary [b] (fun _ _ => rfl) (fun _ => rfl) (fun _ => rfl) (fun _ => rfl) (fun _ h => h)
      (fun S ψ h => by rw [Matrix.one_mulVec]; exact h)
  have hpa : Realises μ past rng k₀ (fun r S => ({ S with pos := S.pos + 1 } : Sim n).applyPauli q (r.int4 S.pos).val)
      ((List.finRange 4).map fun k => ⟨4⁻¹, pauliNo q k, [], []⟩) :=
    realises_draw hX (fun r k => some (r.int4 k)) (fun _ => 4⁻¹) (fun v _ S => S.applyPauli q v.val) (fun v => [⟨1, pauliNo q v, [], []⟩])
      (fun k v => by simp only [Option.some.injEq]; exact hX.int4 k v) (fun k v E hk hE => by simp only [Option.some.injEq]; exact hX.int4_exact k v E hk hE)
      (fun r S v hv => by simp only [Option.some.injEq] at hv; subst hv; rfl) (fun r S S' hc => by simp at hc)
      (fun v => realises_pauli q v) _ (fun V ψ m e => by
        rw [value_finRange]
        simp [Instrument.value])
  have hhit := realises_bind (hrec true) hpa (h := fun r S => ({ S with erasure := S.erasure ++ [true], pos := S.pos + 1 } : Sim n).applyPauli q (r.int4 S.pos).val) fun r S => rfl
  refine realises_below hX p (fun b r S => if b then ({ S with erasure := S.erasure ++ [true], pos := S.pos + 1 } : Sim n).applyPauli q (r.int4 S.pos).val
    else .ok { S with erasure := S.erasure ++ [false] }) (fun r S => ?_) (I := Instrument.andThen [⟨1, (1 : Mat n), [], [true]⟩] _) (J := [⟨1, (1 : Mat n), [], [false]⟩]) hhit (hrec false) _ ?_
  · simp only [Sim.handleGate, hnum, qubitOf_int]
    cases hb : r.below S.pos p <;> rfl
  · intro V ψ m e
    rw [Instrument.erase, ← List.singleton_append, Instrument.value_append, Instrument.value_andThen, add_comm, value_finRange]
    simp only [Instrument.value, List.map_cons, List.map_nil, List.sum_cons, List.sum_nil, one_mul, add_zero, List.append_nil, Matrix.one_mulVec]
    congr 1
    have := value_finRange 4 (fun k => ⟨4⁻¹, pauliNo q k, [], []⟩) V ψ m (e ++ [true])
    unfold Instrument.value at this
    rw [this, Finset.mul_sum]
    simp only [List.append_nil, mul_assoc]

theorem numsOf_forall {api : FloatApi F} {vs : List (Val F)} {ps : List F} (h : List.Forall₂ (ValIs api) vs ps) : numsOf api vs = .ok ps := by
  induction h with
  | nil => rfl
  | cons hv _ ih =>
    rw [numsOf, show numOf api _ = .ok _ from by rcases hv with rfl | ⟨i, rfl, rfl⟩ <;> rfl, ih]

theorem getD_some {w : ℝ≥0∞} {l : List ℝ≥0∞} {N i : Nat} (hl : l.length + 1 = N) (hi : i < N) : (w :: l)[i]? = some ((w :: l).getD i 0) := by
  rw [List.getElem?_eq_getElem (by rw [List.length_cons, hl]; exact hi)]
  congr 1
  rw [List.getD, List.getElem?_eq_getElem (by rw [List.length_cons, hl]; exact hi)]
  rfl

theorem realises_epauli (hX : ExactFrom k₀ μ prob past rng) (api : FloatApi F) {vs : List (Val F)} {ps : List F} (hvs : List.Forall₂ (ValIs api) vs ps) (hl : vs.length = 3)
    (hs : (ps.map prob).sum ≤ 1) (q : Fin n) (rest : List (Val F)) :
    Realises μ past rng k₀ (fun r S => S.handleGate api r .E_PAULI (vs ++ .int (q.val : Int) :: rest)) (.pauli (ps.map prob) q) := by
  have hlp : ps.length = 3 := by rw [← hvs.length_eq, hl]
  have h1 : (vs ++ Val.int (q.val : Int) :: rest).take 3 = vs := by rw [← hl, List.take_left]
  have h2 : argAt (vs ++ Val.int (q.val : Int) :: rest) 3 = .ok (.int (q.val : Int)) := by
    rw [argAt, List.getElem?_append_right (by omega), hl]
    rfl
  refine realises_draw hX (fun r k => r.choice4 k ps) (fun v => ((1 - (ps.map prob).sum) :: ps.map prob).getD v.val 0) (fun v _ S => S.applyPauli q v.val)
    (fun v => [⟨1, pauliNo q v, [], []⟩]) (fun k v => hX.choice4 k ps (some v))
    (fun k v E hk hE => hX.choice4_exact k ps v _ E hk hlp hs (getD_some (by rw [List.length_map, hlp]) v.2) hE) ?_ ?_ (fun v => realises_pauli q v) _ ?_
  · intro r S v hv
    simp only [Sim.handleGate, h1, numsOf_forall hvs, h2, hv, qubitOf_int]
  · intro r S S' hc
    simp only [Sim.handleGate, h1, numsOf_forall hvs, h2, hc]
    simp
  · intro V ψ m e
    rw [Instrument.pauli, value_finRange]
    simp [Instrument.value]

theorem realises_epauli2 (hX : ExactFrom k₀ μ prob past rng) (api : FloatApi F) {vs : List (Val F)} {ps : List F} (hvs : List.Forall₂ (ValIs api) vs ps) (hl : vs.length = 15)
    (hs : (ps.map prob).sum ≤ 1) (q1 q2 : Fin n) (rest : List (Val F)) :
    Realises μ past rng k₀ (fun r S => S.handleGate api r .E_PAULI2 (vs ++ .int (q1.val : Int) :: .int (q2.val : Int) :: rest)) (.pauli2 (ps.map prob) q1 q2) := by
  have hlp : ps.length = 15 := by rw [← hvs.length_eq, hl]
  have h1 : (vs ++ Val.int (q1.val : Int) :: Val.int (q2.val : Int) :: rest).take 15 = vs := by rw [← hl, List.take_left]
  have h2 : (vs ++ Val.int (q1.val : Int) :: Val.int (q2.val : Int) :: rest).drop 15 = Val.int (q1.val : Int) :: Val.int (q2.val : Int) :: rest := by rw [← hl, List.drop_left]
  have h3 : argAt (Val.int (q1.val : Int) :: Val.int (q2.val : Int) :: rest : List (Val F)) 0 = .ok (.int (q1.val : Int)) := rfl
  have h4 : argAt (Val.int (q1.val : Int) :: Val.int (q2.val : Int) :: rest : List (Val F)) 1 = .ok (.int (q2.val : Int)) := rfl
  refine realises_draw hX (fun r k => r.choice16 k ps) (fun v => ((1 - (ps.map prob).sum) :: ps.map prob).getD v.val 0)
    (fun v _ S => (S.applyPauli q1 (v.val / 4)).bind fun S' => S'.applyPauli q2 (v.val % 4))
    (fun v => Instrument.andThen [⟨1, pauliNo q1 ⟨v.val / 4, by omega⟩, [], []⟩] [⟨1, pauliNo q2 ⟨v.val % 4, by omega⟩, [], []⟩]) (fun k v => hX.choice16 k ps (some v))
    (fun k v E hk hE => hX.choice16_exact k ps v _ E hk hlp hs (getD_some (by rw [List.length_map, hlp]) v.2) hE) ?_ ?_
    (fun v => realises_bind (realises_pauli q1 ⟨v.val / 4, by omega⟩) (realises_pauli q2 ⟨v.val % 4, by omega⟩) fun r S => rfl) _ ?_
  · intro r S v hv
    simp only [Sim.handleGate, h1, numsOf_forall hvs, hlp, h2, h3, h4, hv, qubitOf_int]
    cases ({ S with pos := S.pos + 1 } : Sim n).applyPauli q1 (v.val / 4) <;> rfl
  · intro r S S' hc
    simp only [Sim.handleGate, h1, numsOf_forall hvs, hlp, hc]
    simp
  · intro V ψ m e
    rw [Instrument.pauli2, value_finRange]
    simp [Instrument.value, Instrument.andThen]

theorem pairArgs_evens (ps : List (Fin n × Fin n)) : evens (pairArgs ps : List (Val F)) = qArgs (ps.map Prod.fst) ∧ odds (pairArgs ps : List (Val F)) = qArgs (ps.map Prod.snd) := by
  induction ps with
  | nil => exact ⟨rfl, rfl⟩
  | cons p ps ih =>
    have e : (pairArgs (p :: ps) : List (Val F)) = .int (p.1.val : Int) :: .int (p.2.val : Int) :: pairArgs ps := rfl
    rw [e, evens, odds, ih.1, ih.2]
    exact ⟨rfl, rfl⟩

theorem realises_two (G : Fin n → Fin n → CGate n) (ps : List (Fin n × Fin n)) (hG : ∀ p ∈ ps, (G p.1 p.2).Ok) :
    Realises μ past rng k₀ (fun (_ : Rng F) S => S.twoQubit G (pairArgs ps : List (Val F))) (.inOrder (ps.map fun p => .gate (G p.1 p.2))) := by
  have h := realises_gates (μ := μ) (past := past) (rng := rng) (k₀ := k₀) (ps.map fun p => G p.1 p.2) (by
    intro G' hG'
    obtain ⟨p, hp, rfl⟩ := List.mem_map.1 hG'
    exact hG p hp)
  rw [List.map_map] at h
  have e : (fun (_ : Rng F) (S : Sim n) => S.twoQubit G (pairArgs ps : List (Val F))) = fun _ S => .ok (S.gates (ps.map fun p => G p.1 p.2)) := by
    funext r S
    rw [Sim.twoQubit, (pairArgs_evens ps).1, (pairArgs_evens ps).2, qubitsOf_qArgs, qubitsOf_qArgs]
    have hz : ((ps.map Prod.fst).zip (ps.map Prod.snd)) = ps := by
      clear h hG
      induction ps with
      | nil => rfl
      | cons p ps ih => rw [List.map_cons, List.map_cons, List.zip_cons_cons, ih]
    simp only [qArgs, List.length_map, ne_eq, not_true_eq_false, if_false, hz]
  rw [e]
  exact h

theorem realises_one (G : Fin n → CGate n) (qs : List (Fin n)) (hG : ∀ q, (G q).Ok) :
    Realises μ past rng k₀ (fun (_ : Rng F) S => S.oneQubit G (qArgs qs : List (Val F))) (.inOrder (qs.map fun q => .gate (G q))) := by
  have h := realises_gates (μ := μ) (past := past) (rng := rng) (k₀ := k₀) (qs.map G) (by
    intro G' hG'
    obtain ⟨p, hp, rfl⟩ := List.mem_map.1 hG'
    exact hG p)
  rw [List.map_map] at h
  have e : (fun (_ : Rng F) (S : Sim n) => S.oneQubit G (qArgs qs : List (Val F))) = fun _ S => .ok (S.gates (qs.map G)) := by
    funext r S
    rw [Sim.oneQubit, qubitsOf_qArgs]
  rw [e]
  exact h

/-- Every unconditional instruction. -/
theorem realises_handleGate [IsFiniteMeasure μ] (hX : ExactFrom k₀ μ prob past rng) (api : FloatApi F) {name : Name} {args : List (Val F)} {I : Instrument n}
    (h : Denotes api prob name args I) : Realises μ past rng k₀ (fun r S => S.handleGate api r name args) I := by
  cases h with
  | x qs => exact realises_one _ qs fun _ => trivial
  | y qs => exact realises_one _ qs fun _ => trivial
  | z qs => exact realises_one _ qs fun _ => trivial
  | h qs => exact realises_one _ qs fun _ => trivial
  | cx ps hp => exact realises_two _ ps hp
  | cz ps hp => exact realises_two _ ps hp
  | m qs =>
    simp only [Sim.handleGate, qubitsOf_qArgs]
    exact realises_measureAll hX qs
  | r qs =>
    simp only [Sim.handleGate, qubitsOf_qArgs]
    exact realises_resetAll hX qs
  | depolarize qs =>
    simp only [Sim.handleGate, qubitsOf_qArgs]
    exact realises_depolarize hX qs
  | erase hv q => exact realises_erase hX api hv q
  | pauli hvs hl hs q rest => exact realises_epauli hX api hvs hl hs q rest
  | pauli2 hvs hl hs q1 q2 rest => exact realises_epauli2 hX api hvs hl hs q1 q2 rest

theorem realises_seq [IsFiniteMeasure μ] (hX : ExactFrom k₀ μ prob past rng) (api : FloatApi F) {gs : List (Name × List (Val F))} {I : Instrument n}
    (h : DenotesSeq api prob gs I) : Realises μ past rng k₀ (fun r S => S.runSeq api r gs) I := by
  induction h with
  | nil => exact realises_nothing fun r S => rfl
  | @cons g gs I J h _ ih =>
    refine realises_bind (realises_handleGate hX api h) ih fun r S => ?_
    rw [Sim.runSeq]
    cases S.handleGate api r g.1 g.2 <;> rfl

theorem realises_alts [IsFiniteMeasure μ] (hX : ExactFrom k₀ μ prob past rng) (api : FloatApi F) {as : List (Alt F)} {I : Instrument n}
    (h : DenotesAlts api prob as I) : Realises μ past rng k₀ (fun r S => S.runAlts api r as) I := by
  induction h with
  | nil => exact realises_nothing fun r S => rfl
  | @cons a as I J h _ ih =>
    refine realises_below hX a.p (fun b r S => if b then S.runSeq api r a.gates else S.runAlts api r as) (fun r S => ?_) (realises_seq hX api h) ih _ ?_
    · rfl
    · intro V ψ m e
      rw [Instrument.value_append, Instrument.value_withProb, Instrument.value_withProb]

/-- The event that a run succeeds with a record as described. -/
def runEvent (api : FloatApi F) (rng : Ω → Rng F) (P : List Bool → List Bool → Prop) (c : List (Gate F)) (S : Sim n) : Set Ω :=
  {ω | ∃ S', S.runGates api (rng ω) c = .ok S' ∧ P S'.meas S'.erasure}

open Classical in
/-- The value at the end. -/
noncomputable def endValue (P : List Bool → List Bool → Prop) (ψ : Vec n) (m e : List Bool) : ℝ≥0∞ := if P m e then normW ψ else 0

theorem flatten_fresh {api : FloatApi F} {bs : List (Block F)} {I : Instrument n} (h : DenotesRun api prob bs I) : StartsFresh (flatten bs) := by
  intro g hg
  cases h with
  | nil => simp [flatten] at hg
  | @gate name args bs I J h hs =>
    simp only [flatten, List.flatMap_cons, Block.instrs, List.singleton_append, List.head?_cons, Option.some.injEq] at hg
    subst hg
    cases h <;> rfl
  | @chain a as bs I J h hs =>
    simp only [flatten, List.flatMap_cons, Block.instrs, chainInstrs, instrs_eq, List.cons_append, List.head?_cons, Option.some.injEq] at hg
    subst hg
    rfl

theorem sameCore_event {P : List Bool → List Bool → Prop} {r r' : Except Err (Sim n)} (h : sameCore r r') : (∃ S', r = .ok S' ∧ P S'.meas S'.erasure) ↔ ∃ S', r' = .ok S' ∧ P S'.meas S'.erasure := by
  cases r with
  | error e => cases r' with
    | error e' => simp
    | ok S' => exact absurd h (by simp [sameCore, Except.map])
  | ok S => cases r' with
    | error e' => exact absurd h (by simp [sameCore, Except.map])
    | ok S' =>
      simp only [sameCore, Except.map, Except.ok.injEq, Sim.core, Prod.mk.injEq] at h
      simp [h.2.1, h.2.2.1]

theorem expects_run [IsFiniteMeasure μ] (hX : ExactFrom k₀ μ prob past rng) (api : FloatApi F) (P : List Bool → List Bool → Prop) {bs : List (Block F)} {I : Instrument n}
    (h : DenotesRun api prob bs I) : Expects μ past k₀ (runEvent api rng P (flatten bs)) (I.value (endValue P)) := by
  have hV : ∀ m e, endValue P (0 : Vec n) m e = 0 := by
    intro m e
    unfold endValue
    split
    · exact normW_zero
    · rfl
  induction h with
  | nil =>
    intro S ψ h1 h2 h3 E hE
    rw [Instrument.value_nothing]
    unfold endValue
    by_cases hP : P S.meas S.erasure
    · have : runEvent api rng P (flatten []) S = Set.univ := by
        ext ω
        simp [runEvent, flatten, Sim.runGates, hP]
      rw [this, Set.inter_univ, if_pos hP, mul_comm]
    · have : runEvent api rng P (flatten []) S = ∅ := by
        ext ω
        simp [runEvent, flatten, Sim.runGates, hP]
      rw [this, Set.inter_empty, if_neg hP]
      simp
  | @gate name args bs I J h hs ih =>
    intro S ψ h1 h2 h3 E hE
    have := realises_handleGate hX api h k₀ _ _ (le_refl _) (J.value_zero hV) ih { S with inError := false } ψ h1 h2 h3 E hE
    rw [← Instrument.value_andThen] at this
    rw [← this]
    congr 3
    ext ω
    have hname : name.isError = false := by cases h <;> rfl
    simp only [runEvent, after, flatten, List.flatMap_cons, Block.instrs, List.singleton_append, Set.mem_ofPred_eq]
    rw [Sim.runGates, Sim.runGate]
    simp only [hname, Bool.false_eq_true, if_false]
    cases Sim.handleGate api (rng ω) { S with inError := false } name args with
    | error e => simp
    | ok S1 => simp
  | @chain a as bs I J h hs ih =>
    intro S ψ h1 h2 h3 E hE
    have := realises_alts hX api h k₀ _ _ (le_refl _) (J.value_zero hV) ih S ψ h1 h2 h3 E hE
    rw [← Instrument.value_andThen] at this
    rw [← this]
    congr 3
    ext ω
    simp only [runEvent, after, flatten, List.flatMap_cons, Block.instrs, Set.mem_ofPred_eq]
    have hc := runGates_chain api (rng ω) S a as
    rw [runGates_append]
    cases hr : S.runGates api (rng ω) (chainInstrs a as) with
    | error e =>
      cases hr' : S.runAlts api (rng ω) (a :: as) with
      | error e' => simp [Except.bind]
      | ok S1 => rw [hr, hr'] at hc; exact absurd hc (by simp [sameCore, Except.map])
    | ok S1 =>
      cases hr' : S.runAlts api (rng ω) (a :: as) with
      | error e' => rw [hr, hr'] at hc; exact absurd hc (by simp [sameCore, Except.map])
      | ok S2 =>
        rw [hr, hr'] at hc
        have hcore : S1.core = S2.core := by simpa [sameCore, Except.map] using hc
        have := sameCore_event (P := P) (runGates_start api (rng ω) hcore (flatten bs) (flatten_fresh hs))
        simp only [Except.bind, Except.ok.injEq, exists_eq_left']
        exact this

/-- Nothing is lost: the weights of the possibilities sum up to one. -/
def Instrument.Complete (I : Instrument n) : Prop := ∀ ψ : Vec n, I.value (fun φ _ _ => normW φ) ψ [] [] = normW ψ

theorem Instrument.value_records (I : Instrument n) (W : Vec n → ℝ≥0∞) (ψ : Vec n) (m e : List Bool) : I.value (fun φ _ _ => W φ) ψ m e = I.value (fun φ _ _ => W φ) ψ [] [] := rfl

theorem Instrument.complete_nothing : (nothing : Instrument n).Complete := fun ψ => value_nothing _ ψ _ _

theorem Instrument.complete_andThen {I J : Instrument n} (hI : I.Complete) (hJ : J.Complete) : (I.andThen J).Complete := by
  intro ψ
  rw [value_andThen]
  rw [show (J.value fun φ _ _ => normW φ) = fun φ _ _ => normW φ from funext fun φ => funext fun m => funext fun e => hJ φ]
  exact hI ψ

theorem Instrument.complete_inOrder {Is : List (Instrument n)} (h : ∀ I ∈ Is, I.Complete) : (inOrder Is).Complete := by
  induction Is with
  | nil => exact complete_nothing
  | cons I Is ih => exact complete_andThen (h I (by simp)) (ih fun J hJ => h J (List.mem_cons_of_mem _ hJ))

theorem Instrument.complete_gate {G : CGate n} (hG : G.Ok) : (gate G).Complete := by
  intro ψ
  simp [value, gate, normW_unitary (unitary_unitary G hG)]

theorem projZ_sum (q : Fin n) (ψ : Vec n) : normW (projZ q false *ᵥ ψ) + normW (projZ q true *ᵥ ψ) = normW ψ := by
  have h0 : ∀ φ : Vec n, 0 ≤ normSq φ := fun φ => Finset.sum_nonneg fun b _ => Complex.normSq_nonneg _
  unfold normW
  rw [← ENNReal.ofReal_add (h0 _) (h0 _), projZ_eq, projZ_eq, normSq_projector_add]

theorem Instrument.complete_measure (q : Fin n) : (Instrument.measure q).Complete := by
  intro ψ
  simp [value, Instrument.measure, projZ_sum]

theorem Instrument.complete_reset (q : Fin n) : (Instrument.reset q).Complete := by
  intro ψ
  simp only [value, Instrument.reset, List.map_cons, List.map_nil, List.sum_cons, List.sum_nil, one_mul, add_zero, ← Matrix.mulVec_mulVec]
  rw [normW_unitary (unitary_unitary (CGate.x q) trivial), projZ_sum]

theorem normW_pauliNo (q : Fin n) (k : Fin 4) (ψ : Vec n) : normW (pauliNo q k *ᵥ ψ) = normW ψ := by
  match k with
  | 0 => rw [(pauliNo_unitary q).1, Matrix.one_mulVec]
  | 1 => exact normW_unitary (unitary_unitary (CGate.x q) trivial) ψ
  | 2 => exact normW_unitary (unitary_unitary (CGate.y q) trivial) ψ
  | 3 => exact normW_unitary (unitary_unitary (CGate.z q) trivial) ψ

theorem Instrument.complete_depolarize (q : Fin n) : (Instrument.depolarize q).Complete := by
  intro ψ
  simp only [value, Instrument.depolarize, List.map_cons, List.map_nil, List.sum_cons, List.sum_nil, normW_pauliNo, add_zero]
  rw [← add_mul, ← add_mul]
  rw [show (3⁻¹ + (3⁻¹ + 3⁻¹) : ℝ≥0∞) = 1 from ?_, one_mul]
  rw [← add_assoc, ENNReal.inv_three_add_inv_three]

theorem sum_getD {N : Nat} (l : List ℝ≥0∞) (h : l.length = N) : ∑ k : Fin N, l.getD k.val 0 = l.sum := by
  subst h
  rw [← List.sum_ofFn]
  congr 1
  refine List.ext_getElem (by simp) fun i h1 h2 => ?_
  rw [List.getElem_ofFn, List.getD, List.getElem?_eq_getElem h2]
  rfl

theorem Instrument.complete_denotes {api : FloatApi F} {name : Name} {args : List (Val F)} {I : Instrument n} (h : Denotes api prob name args I) : I.Complete := by
  cases h with
  | x qs | y qs | z qs | h qs =>
    refine complete_inOrder fun I hI => ?_
    obtain ⟨q, _, rfl⟩ := List.mem_map.1 hI
    exact complete_gate trivial
  | cx ps hp | cz ps hp =>
    refine complete_inOrder fun I hI => ?_
    obtain ⟨p, hp', rfl⟩ := List.mem_map.1 hI
    exact complete_gate (hp p hp')
  | m qs =>
    refine complete_inOrder fun I hI => ?_
    obtain ⟨q, _, rfl⟩ := List.mem_map.1 hI
    exact complete_measure q
  | r qs =>
    refine complete_inOrder fun I hI => ?_
    obtain ⟨q, _, rfl⟩ := List.mem_map.1 hI
    exact complete_reset q
  | depolarize qs =>
    refine complete_inOrder fun I hI => ?_
    obtain ⟨q, _, rfl⟩ := List.mem_map.1 hI
    exact complete_depolarize q
  | @erase v p hv q =>
    intro ψ
    rw [Instrument.erase, ← List.singleton_append, value_append, value_finRange]
    simp only [value, List.map_cons, List.map_nil, List.sum_cons, List.sum_nil, add_zero, Matrix.one_mulVec, normW_pauliNo, Finset.sum_const, Finset.card_univ, Fintype.card_fin]
    have h4 : (4 : ℕ) • (min (prob p) 1 * 4⁻¹ * normW ψ) = min (prob p) 1 * normW ψ := by
      rw [nsmul_eq_mul, mul_right_comm, mul_comm, mul_assoc]
      push_cast
      rw [ENNReal.inv_mul_cancel (by norm_num) (by norm_num), mul_one]
    rw [h4, ← add_mul, add_comm, min_add_sub, one_mul]
  | @pauli vs ps hvs hl hs q rest =>
    intro ψ
    rw [Instrument.pauli, value_finRange]
    simp only [normW_pauliNo]
    rw [← Finset.sum_mul, sum_getD _ (by rw [List.length_cons, List.length_map, ← hvs.length_eq, hl]), List.sum_cons, tsub_add_cancel_of_le hs, one_mul]
  | @pauli2 vs ps hvs hl hs q1 q2 rest =>
    intro ψ
    rw [Instrument.pauli2, value_finRange]
    simp only [← Matrix.mulVec_mulVec, normW_pauliNo]
    rw [← Finset.sum_mul, sum_getD _ (by rw [List.length_cons, List.length_map, ← hvs.length_eq, hl]), List.sum_cons, tsub_add_cancel_of_le hs, one_mul]

theorem Instrument.complete_seq {api : FloatApi F} {gs : List (Name × List (Val F))} {I : Instrument n} (h : DenotesSeq api prob gs I) : I.Complete := by
  induction h with
  | nil => exact complete_nothing
  | cons h _ ih => exact complete_andThen (complete_denotes h) ih

theorem Instrument.complete_alts {api : FloatApi F} {as : List (Alt F)} {I : Instrument n} (h : DenotesAlts api prob as I) : I.Complete := by
  induction h with
  | nil => exact complete_nothing
  | cons h _ ih =>
    intro ψ
    rw [value_append, value_withProb, value_withProb, complete_seq h ψ, ih ψ, ← add_mul, min_add_sub, one_mul]

theorem Instrument.complete_run {api : FloatApi F} {bs : List (Block F)} {I : Instrument n} (h : DenotesRun api prob bs I) : I.Complete := by
  induction h with
  | nil => exact complete_nothing
  | gate h _ ih => exact complete_andThen (complete_denotes h) ih
  | chain h _ ih => exact complete_andThen (complete_alts h) ih

end

end Plaquette
