import Verif.Model.Sim
import Verif.Spec.Quantum

/-!
# Specification of a circuit run on state vectors

What running a circuit means, in terms of vectors, unitaries and projections; no tableau.  The relations say which
vectors, results and erasure flags may follow, for given answers of the random generator.
-/

namespace Plaquette
open Matrix
variable {F : Type} {n : Nat}

/-- The projection on the computational basis states with value `out` on qubit `q`. -/
def projZ (q : Fin n) (out : Bool) : Mat n := fun a b => if a = b ∧ b q = out then 1 else 0

/-- A (not normalised) state vector, the number of used random draws, and the records so far. -/
structure VState (n : Nat) where
  ψ : Vec n
  pos : Nat
  meas : List Bool
  erasure : List Bool

/-- Unitaries applied one after the other. -/
noncomputable def evolve (Us : List (CGate n)) (ψ : Vec n) : Vec n := Us.foldl (fun φ G => G.unitary *ᵥ φ) ψ

/-- A Z measurement of qubit `q` with outcome `out`: either the outcome is certain and nothing changes, or both outcomes
have probability one half, the random bit is the outcome and the vector is projected. -/
inductive VMeas (rng : Rng F) (q : Fin n) : VState n → Bool → VState n → Prop
  | certain (σ : VState n) (out : Bool) (h : projZ q out *ᵥ σ.ψ = σ.ψ) : VMeas rng q σ out σ
  | random (σ : VState n) (h : ∀ o, normSq (projZ q o *ᵥ σ.ψ) = normSq σ.ψ / 2) :
      VMeas rng q σ (rng.bit σ.pos) { σ with ψ := projZ q (rng.bit σ.pos) *ᵥ σ.ψ, pos := σ.pos + 1 }

/-- Measuring a list of qubits; the results are recorded in order. -/
inductive VMeasAll (rng : Rng F) : List (Fin n) → VState n → VState n → Prop
  | nil (σ : VState n) : VMeasAll rng [] σ σ
  | cons {q : Fin n} {qs : List (Fin n)} {σ σ1 σ2 : VState n} {out : Bool} (h : VMeas rng q σ out σ1)
      (hs : VMeasAll rng qs { σ1 with meas := σ1.meas ++ [out] } σ2) : VMeasAll rng (q :: qs) σ σ2

/-- Resetting a list of qubits: an unrecorded measurement, then a bit flip if the outcome is one. -/
inductive VResetAll (rng : Rng F) : List (Fin n) → VState n → VState n → Prop
  | nil (σ : VState n) : VResetAll rng [] σ σ
  | cons {q : Fin n} {qs : List (Fin n)} {σ σ1 σ2 : VState n} {out : Bool} (h : VMeas rng q σ out σ1)
      (hs : VResetAll rng qs { σ1 with ψ := if out then (CGate.x q).unitary *ᵥ σ1.ψ else σ1.ψ } σ2) :
      VResetAll rng (q :: qs) σ σ2

/-- The Pauli matrix number `k` (identity, X, Y, Z) on qubit `q`. -/
noncomputable def pauliNo (q : Fin n) : Fin 4 → Mat n
  | 0 => 1
  | 1 => onQubit q (sigma true false)
  | 2 => onQubit q (sigma true true)
  | 3 => onQubit q (sigma false true)

/-- Applying Pauli number `k` to qubit `q`, after one more random draw. -/
noncomputable def VState.pauli (σ : VState n) (q : Fin n) (k : Fin 4) : VState n :=
  { σ with ψ := pauliNo q k *ᵥ σ.ψ }

/-- One more random draw was made. -/
def VState.tick (σ : VState n) : VState n := { σ with pos := σ.pos + 1 }

/-- Depolarising each of the qubits: X, Y or Z according to the draw. -/
noncomputable def VState.depolarize (rng : Rng F) : VState n → List (Fin n) → VState n
  | σ, [] => σ
  | σ, q :: qs => (σ.tick.pauli q ⟨1 + (rng.int3 σ.pos).val, by omega⟩).depolarize rng qs

/-- Qubit indices as stored arguments. -/
def qArgs (qs : List (Fin n)) : List (Val F) := qs.map fun q => .int (q.val : Int)

/-- Pairs of qubit indices as stored arguments. -/
def pairArgs (ps : List (Fin n × Fin n)) : List (Val F) := ps.flatMap fun p => [.int (p.1.val : Int), .int (p.2.val : Int)]

/-- The stored argument `v` is the number `p`. -/
def ValIs (api : FloatApi F) (v : Val F) (p : F) : Prop := v = .flt p ∨ ∃ i, v = .int i ∧ p = api.ofInt i

/-- One unconditional instruction. -/
inductive VGate (api : FloatApi F) (rng : Rng F) : Name → List (Val F) → VState n → VState n → Prop
  | x (qs : List (Fin n)) (σ) : VGate api rng .X (qArgs qs) σ { σ with ψ := evolve (qs.map .x) σ.ψ }
  | y (qs : List (Fin n)) (σ) : VGate api rng .Y (qArgs qs) σ { σ with ψ := evolve (qs.map .y) σ.ψ }
  | z (qs : List (Fin n)) (σ) : VGate api rng .Z (qArgs qs) σ { σ with ψ := evolve (qs.map .z) σ.ψ }
  | h (qs : List (Fin n)) (σ) : VGate api rng .H (qArgs qs) σ { σ with ψ := evolve (qs.map .h) σ.ψ }
  | cx (ps : List (Fin n × Fin n)) (σ) :
      VGate api rng .CX (pairArgs ps) σ { σ with ψ := evolve (ps.map fun p => .cx p.1 p.2) σ.ψ }
  | cz (ps : List (Fin n × Fin n)) (σ) :
      VGate api rng .CZ (pairArgs ps) σ { σ with ψ := evolve (ps.map fun p => .cz p.1 p.2) σ.ψ }
  | m (qs : List (Fin n)) {σ σ' : VState n} (h : VMeasAll rng qs σ σ') : VGate api rng .M (qArgs qs) σ σ'
  | r (qs : List (Fin n)) {σ σ' : VState n} (h : VResetAll rng qs σ σ') : VGate api rng .R (qArgs qs) σ σ'
  | depolarize (qs : List (Fin n)) (σ) : VGate api rng .DEPOLARIZE (qArgs qs) σ (σ.depolarize rng qs)
  | noErase {v : Val F} {p : F} (hv : ValIs api v p) (q : Val F) (σ) (h : rng.below σ.pos p = false) :
      VGate api rng .E_ERASE [v, q] σ { σ.tick with erasure := σ.erasure ++ [false] }
  | erase {v : Val F} {p : F} (hv : ValIs api v p) (q : Fin n) (σ) (h : rng.below σ.pos p = true) :
      VGate api rng .E_ERASE [v, .int (q.val : Int)] σ
        ({ σ.tick.tick with erasure := σ.erasure ++ [true] }.pauli q (rng.int4 (σ.pos + 1)))
  | pauli {vs : List (Val F)} {ps : List F} (hvs : List.Forall₂ (ValIs api) vs ps) (hl : vs.length = 3) (q : Fin n)
      (rest : List (Val F)) (σ) (k : Fin 4) (h : rng.choice4 σ.pos ps = some k) :
      VGate api rng .E_PAULI (vs ++ .int (q.val : Int) :: rest) σ (σ.tick.pauli q k)
  | pauli2 {vs : List (Val F)} {ps : List F} (hvs : List.Forall₂ (ValIs api) vs ps) (hl : vs.length = 15) (q1 q2 : Fin n)
      (rest : List (Val F)) (σ) (k1 k2 : Fin 4) (k : Fin 16) (hk : k.val = 4 * k1.val + k2.val)
      (h : rng.choice16 σ.pos ps = some k) :
      VGate api rng .E_PAULI2 (vs ++ .int (q1.val : Int) :: .int (q2.val : Int) :: rest) σ
        ((σ.tick.pauli q1 k1).pauli q2 k2)

/-- Unconditional instructions one after the other. -/
inductive VGates (api : FloatApi F) (rng : Rng F) : List (Name × List (Val F)) → VState n → VState n → Prop
  | nil (σ) : VGates api rng [] σ σ
  | cons {g : Name × List (Val F)} {gs : List (Name × List (Val F))} {σ σ1 σ2 : VState n}
      (h : VGate api rng g.1 g.2 σ σ1) (hs : VGates api rng gs σ1 σ2) : VGates api rng (g :: gs) σ σ2

/-- An alternative of a chain of conditional errors: its probability, its first gate and the gates that continue it. -/
structure Alt (F : Type) where
  p : F
  first : Name × List (Val F)
  more : List (Name × List (Val F))

/-- All gates of an alternative. -/
def Alt.gates (a : Alt F) : List (Name × List (Val F)) := a.first :: a.more

/-- The instructions of one alternative: `kind` (`ERROR` or `ERROR_ELSE`) and its continuations. -/
def Alt.instrs (kind : Name) (a : Alt F) : List (Gate F) :=
  { name := kind, args := .flt a.p :: .name a.first.1 :: a.first.2 } ::
    a.more.map fun g => { name := .ERROR_CONTINUE, args := .name g.1 :: g.2 }

/-- The instructions of a chain. -/
def chainInstrs (a : Alt F) (as : List (Alt F)) : List (Gate F) :=
  a.instrs .ERROR ++ as.flatMap (Alt.instrs .ERROR_ELSE)

/-- A chain: the alternatives are tried in order with one random draw each; the first one that is drawn is executed, and
no other. -/
inductive VAlts (api : FloatApi F) (rng : Rng F) : List (Alt F) → VState n → VState n → Prop
  | none (σ) : VAlts api rng [] σ σ
  | hit {a : Alt F} {as : List (Alt F)} {σ σ' : VState n} (h : rng.below σ.pos a.p = true)
      (hs : VGates api rng a.gates σ.tick σ') : VAlts api rng (a :: as) σ σ'
  | miss {a : Alt F} {as : List (Alt F)} {σ σ' : VState n} (h : rng.below σ.pos a.p = false)
      (hs : VAlts api rng as σ.tick σ') : VAlts api rng (a :: as) σ σ'

/-- A part of a circuit: an unconditional instruction or a chain of conditional errors. -/
inductive Block (F : Type)
  | gate (name : Name) (args : List (Val F))
  | chain (a : Alt F) (as : List (Alt F))

def Block.instrs : Block F → List (Gate F)
  | .gate name args => [{ name := name, args := args }]
  | .chain a as => chainInstrs a as

/-- A run of a circuit. -/
inductive VRun (api : FloatApi F) (rng : Rng F) : List (Block F) → VState n → VState n → Prop
  | nil (σ) : VRun api rng [] σ σ
  | gate {name : Name} {args : List (Val F)} {bs : List (Block F)} {σ σ1 σ2 : VState n}
      (h : VGate api rng name args σ σ1) (hs : VRun api rng bs σ1 σ2) : VRun api rng (.gate name args :: bs) σ σ2
  | chain {a : Alt F} {as : List (Alt F)} {bs : List (Block F)} {σ σ1 σ2 : VState n}
      (h : VAlts api rng (a :: as) σ σ1) (hs : VRun api rng bs σ1 σ2) : VRun api rng (.chain a as :: bs) σ σ2

/-- The circuit made of the given parts. -/
def flatten (bs : List (Block F)) : List (Gate F) := bs.flatMap Block.instrs

/-- No pair of equal qubits in a list of pairs. -/
def PairsDiffer : List (Val F) → Prop
  | a :: b :: l => a ≠ b ∧ PairsDiffer l
  | _ => True

/-- Two-qubit gates act on different qubits. -/
def TwoOk (name : Name) (args : List (Val F)) : Prop := name = .CX ∨ name = .CZ → PairsDiffer args

/-- Two-qubit gates, also inside conditional errors, act on different qubits. -/
def Gate.TwoOk (g : Gate F) : Prop :=
  match g.name, g.args with
  | .ERROR, _ :: .name n :: rest => Plaquette.TwoOk n rest
  | .ERROR_ELSE, _ :: .name n :: rest => Plaquette.TwoOk n rest
  | .ERROR_CONTINUE, .name n :: rest => Plaquette.TwoOk n rest
  | n, args => Plaquette.TwoOk n args

end Plaquette
