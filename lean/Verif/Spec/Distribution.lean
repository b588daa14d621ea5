import Verif.Spec.Sim
import Verif.Spec.Random
import Mathlib.LinearAlgebra.Matrix.Trace

/-!
# Specification of the distribution of the results of a circuit

What quantum mechanics says about the results of a circuit: every part of it is a list of weighted operators, each with the results it is recorded with (an instrument); the probability of
a record is given by Born's rule. No tableau, no random generator, no state of a simulator.
-/

open MeasureTheory Matrix
open scoped ENNReal

namespace Plaquette
variable {F : Type} {n : Nat}

/-- A random generator that is exact from the call `k₀` on: it is fair, and every answer has exactly the probability that was asked for, given any event of the past. A number above 1
is a certain event for `rng.random() < p`. -/
structure ExactFrom (k₀ : Nat) {Ω : Type} [m0 : MeasurableSpace Ω] (μ : Measure Ω) (prob : F → ℝ≥0∞) (past : Nat → MeasurableSpace Ω) (rng : Ω → Rng F) : Prop
    extends FairFrom k₀ μ prob past rng where
  below_exact : ∀ k x E, k₀ ≤ k → MeasurableSet[past k] E → μ (E ∩ {ω | (rng ω).below k x = true}) = min (prob x) 1 * μ E
  bit_exact : ∀ k v E, k₀ ≤ k → MeasurableSet[past k] E → μ (E ∩ {ω | (rng ω).bit k = v}) = 2⁻¹ * μ E
  int3_exact : ∀ k v E, k₀ ≤ k → MeasurableSet[past k] E → μ (E ∩ {ω | (rng ω).int3 k = v}) = 3⁻¹ * μ E
  int4_exact : ∀ k v E, k₀ ≤ k → MeasurableSet[past k] E → μ (E ∩ {ω | (rng ω).int4 k = v}) = 4⁻¹ * μ E
  choice4_exact : ∀ k ps (v : Fin 4) w E, k₀ ≤ k → ps.length = 3 → (ps.map prob).sum ≤ 1 → ((1 - (ps.map prob).sum) :: ps.map prob)[v.val]? = some w → MeasurableSet[past k] E →
    μ (E ∩ {ω | (rng ω).choice4 k ps = some v}) = w * μ E
  choice16_exact : ∀ k ps (v : Fin 16) w E, k₀ ≤ k → ps.length = 15 → (ps.map prob).sum ≤ 1 → ((1 - (ps.map prob).sum) :: ps.map prob)[v.val]? = some w →
    MeasurableSet[past k] E → μ (E ∩ {ω | (rng ω).choice16 k ps = some v}) = w * μ E

/-- One possibility: a weight, an operator on states, and what is recorded (measurement results, erasure flags). -/
structure Branch (n : Nat) where
  weight : ℝ≥0∞
  op : Mat n
  meas : List Bool
  erasure : List Bool

/-- An instrument: a list of possibilities. -/
abbrev Instrument (n : Nat) := List (Branch n)

/-- Nothing happens. -/
def Instrument.nothing : Instrument n := [⟨1, 1, [], []⟩]

/-- One instrument after the other. -/
noncomputable def Instrument.andThen (I J : Instrument n) : Instrument n :=
  I.flatMap fun a => J.map fun b => ⟨a.weight * b.weight, b.op * a.op, a.meas ++ b.meas, a.erasure ++ b.erasure⟩

/-- Instruments one after the other. -/
noncomputable def Instrument.inOrder : List (Instrument n) → Instrument n
  | [] => nothing
  | I :: Is => I.andThen (inOrder Is)

/-- An instrument used with the given probability. -/
noncomputable def Instrument.withProb (w : ℝ≥0∞) (I : Instrument n) : Instrument n := I.map fun b => { b with weight := w * b.weight }

/-- A unitary. -/
noncomputable def Instrument.gate (G : CGate n) : Instrument n := [⟨1, G.unitary, [], []⟩]

/-- A measurement in the computational basis; the result is recorded. -/
def Instrument.measure (q : Fin n) : Instrument n := [⟨1, projZ q false, [false], []⟩, ⟨1, projZ q true, [true], []⟩]

/-- A reset: the qubit is measured without a record and flipped if it is one. -/
noncomputable def Instrument.reset (q : Fin n) : Instrument n := [⟨1, projZ q false, [], []⟩, ⟨1, (CGate.x q).unitary * projZ q true, [], []⟩]

/-- X, Y or Z with probability one third each. -/
noncomputable def Instrument.depolarize (q : Fin n) : Instrument n := [⟨3⁻¹, pauliNo q 1, [], []⟩, ⟨3⁻¹, pauliNo q 2, [], []⟩, ⟨3⁻¹, pauliNo q 3, [], []⟩]

/-- An erasure: with probability `p` the qubit suffers one of the four Paulis and is flagged as erased. -/
noncomputable def Instrument.erase (p : ℝ≥0∞) (q : Fin n) : Instrument n :=
  ⟨1 - p, 1, [], [false]⟩ :: (List.finRange 4).map fun k => ⟨min p 1 * 4⁻¹, pauliNo q k, [], [true]⟩

/-- The Paulis X, Y, Z with the given probabilities, the identity otherwise. -/
noncomputable def Instrument.pauli (ps : List ℝ≥0∞) (q : Fin n) : Instrument n :=
  (List.finRange 4).map fun k => ⟨((1 - ps.sum) :: ps).getD k.val 0, pauliNo q k, [], []⟩

/-- The pairs of Paulis IX, IY, IZ, XI, ..., ZZ with the given probabilities, the identity otherwise. -/
noncomputable def Instrument.pauli2 (ps : List ℝ≥0∞) (q1 q2 : Fin n) : Instrument n :=
  (List.finRange 16).map fun k => ⟨((1 - ps.sum) :: ps).getD k.val 0, pauliNo q2 ⟨k.val % 4, by omega⟩ * pauliNo q1 ⟨k.val / 4, by omega⟩, [], []⟩

/-- The instrument of an unconditional instruction. -/
inductive Denotes (api : FloatApi F) (prob : F → ℝ≥0∞) : Name → List (Val F) → Instrument n → Prop
  | x (qs : List (Fin n)) : Denotes api prob .X (qArgs qs) (.inOrder (qs.map fun q => .gate (.x q)))
  | y (qs : List (Fin n)) : Denotes api prob .Y (qArgs qs) (.inOrder (qs.map fun q => .gate (.y q)))
  | z (qs : List (Fin n)) : Denotes api prob .Z (qArgs qs) (.inOrder (qs.map fun q => .gate (.z q)))
  | h (qs : List (Fin n)) : Denotes api prob .H (qArgs qs) (.inOrder (qs.map fun q => .gate (.h q)))
  | cx (ps : List (Fin n × Fin n)) (hp : ∀ p ∈ ps, p.1 ≠ p.2) : Denotes api prob .CX (pairArgs ps) (.inOrder (ps.map fun p => .gate (.cx p.1 p.2)))
  | cz (ps : List (Fin n × Fin n)) (hp : ∀ p ∈ ps, p.1 ≠ p.2) : Denotes api prob .CZ (pairArgs ps) (.inOrder (ps.map fun p => .gate (.cz p.1 p.2)))
  | m (qs : List (Fin n)) : Denotes api prob .M (qArgs qs) (.inOrder (qs.map .measure))
  | r (qs : List (Fin n)) : Denotes api prob .R (qArgs qs) (.inOrder (qs.map .reset))
  | depolarize (qs : List (Fin n)) : Denotes api prob .DEPOLARIZE (qArgs qs) (.inOrder (qs.map .depolarize))
  | erase {v : Val F} {p : F} (hv : ValIs api v p) (q : Fin n) : Denotes api prob .E_ERASE [v, .int (q.val : Int)] (.erase (prob p) q)
  | pauli {vs : List (Val F)} {ps : List F} (hvs : List.Forall₂ (ValIs api) vs ps) (hl : vs.length = 3) (hs : (ps.map prob).sum ≤ 1) (q : Fin n) (rest : List (Val F)) :
      Denotes api prob .E_PAULI (vs ++ .int (q.val : Int) :: rest) (.pauli (ps.map prob) q)
  | pauli2 {vs : List (Val F)} {ps : List F} (hvs : List.Forall₂ (ValIs api) vs ps) (hl : vs.length = 15) (hs : (ps.map prob).sum ≤ 1) (q1 q2 : Fin n) (rest : List (Val F)) :
      Denotes api prob .E_PAULI2 (vs ++ .int (q1.val : Int) :: .int (q2.val : Int) :: rest) (.pauli2 (ps.map prob) q1 q2)

/-- The instrument of unconditional instructions one after the other. -/
inductive DenotesSeq (api : FloatApi F) (prob : F → ℝ≥0∞) : List (Name × List (Val F)) → Instrument n → Prop
  | nil : DenotesSeq api prob [] .nothing
  | cons {g : Name × List (Val F)} {gs : List (Name × List (Val F))} {I J : Instrument n} (h : Denotes api prob g.1 g.2 I) (hs : DenotesSeq api prob gs J) :
      DenotesSeq api prob (g :: gs) (I.andThen J)

/-- The instrument of a chain of conditional errors: the first alternative happens with its probability, and the others only if it does not. -/
inductive DenotesAlts (api : FloatApi F) (prob : F → ℝ≥0∞) : List (Alt F) → Instrument n → Prop
  | nil : DenotesAlts api prob [] .nothing
  | cons {a : Alt F} {as : List (Alt F)} {I J : Instrument n} (h : DenotesSeq api prob a.gates I) (hs : DenotesAlts api prob as J) :
      DenotesAlts api prob (a :: as) (I.withProb (min (prob a.p) 1) ++ J.withProb (1 - prob a.p))

/-- The instrument of a circuit. -/
inductive DenotesRun (api : FloatApi F) (prob : F → ℝ≥0∞) : List (Block F) → Instrument n → Prop
  | nil : DenotesRun api prob [] .nothing
  | gate {name : Name} {args : List (Val F)} {bs : List (Block F)} {I J : Instrument n} (h : Denotes api prob name args I) (hs : DenotesRun api prob bs J) :
      DenotesRun api prob (.gate name args :: bs) (I.andThen J)
  | chain {a : Alt F} {as : List (Alt F)} {bs : List (Block F)} {I J : Instrument n} (h : DenotesAlts api prob (a :: as) I) (hs : DenotesRun api prob bs J) :
      DenotesRun api prob (.chain a as :: bs) (I.andThen J)

/-- Born's rule: the probability of a record when the instrument is applied to the state with density matrix `ρ`. -/
noncomputable def Instrument.born (I : Instrument n) (ρ : Mat n) (meas erasure : List Bool) : ℝ≥0∞ :=
  (I.map fun b => if b.meas = meas ∧ b.erasure = erasure then b.weight * ENNReal.ofReal (b.op * ρ * b.opᴴ).trace.re else 0).sum

/-- The density matrix of the state with all qubits zero. -/
def zeroDensity (n : Nat) : Mat n := fun a b => if a = (fun _ => false) ∧ b = (fun _ => false) then 1 else 0

end Plaquette
