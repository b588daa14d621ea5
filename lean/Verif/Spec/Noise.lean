import Verif.Model.Sim
import Verif.Model.Errors
import Verif.Spec.Faults

/-!
# What happened in a noisy run

The decisions of the random generator at the error instructions of a run, and the faults they amount to.
-/

namespace Plaquette
variable {F : Type} {n : Nat}

/-- A decision of the random generator at an error instruction. -/
inductive Event
  /-- `E_PAULI` on qubit `q`: the Pauli matrix number `k` was applied. -/
  | pauli (q : Nat) (k : Fin 4)
  /-- `E_ERASE` on qubit `q`: whether it was erased, and the Pauli matrix that was then applied. -/
  | erasure (q : Nat) (hit : Bool) (k : Fin 4)
  /-- A conditional `X` on qubit `q`: whether it was applied. -/
  | flip (q : Nat) (hit : Bool)
  deriving DecidableEq

/-- The decision at an instruction that starts when `pos` draws have been made. -/
def eventOf (api : FloatApi F) (rng : Rng F) (pos : Nat) : Gate F → List Event
  | ⟨.E_PAULI, [a, b, c, .int q]⟩ =>
    match numsOf api [a, b, c] with
    | .ok ps =>
      match rng.choice4 pos ps with
      | some k => [.pauli q.toNat k]
      | none => []
    | .error _ => []
  | ⟨.E_ERASE, [v, .int q]⟩ =>
    match numOf api v with
    | .ok p => [.erasure q.toNat (rng.below pos p) (if rng.below pos p then rng.int4 (pos + 1) else 0)]
    | .error _ => []
  | ⟨.ERROR, [v, .name .X, .int q]⟩ =>
    match numOf api v with
    | .ok p => [.flip q.toNat (rng.below pos p)]
    | .error _ => []
  | _ => []

/-- All decisions of a run. -/
def Sim.events (api : FloatApi F) (rng : Rng F) : Sim n → List (Gate F) → List Event
  | _, [] => []
  | S, g :: gs => eventOf api rng S.pos g ++
    match S.runGate api rng g with
    | .ok S' => S'.events api rng gs
    | .error _ => []

/-- An error of the given kind is configured for qubit `q`. -/
def configured (qe : List (List Char × ErrDict F)) (kind : List Char) (q : Nat) : Bool :=
  match dictGet qe kind with
  | none => false
  | some d =>
    match dictGet d (.int q) with
    | some (_ :: _) => true
    | _ => false

/-- The qubits for which errors of each kind are configured. -/
structure Flags where
  pauli : Nat → Bool
  erasure : Nat → Bool
  measurement : Nat → Bool

/-- The flags of dictionaries of qubit errors. -/
def flagsOf (qe : List (List Char × ErrDict F)) : Flags :=
  { pauli := configured qe "pauli".toList, erasure := configured qe "erasure".toList, measurement := configured qe "measurement".toList }

/-- What happened in the rounds: by round and qubit, the Pauli matrix of the Pauli channel, whether the qubit was erased and the Pauli matrix of the
erasure; by round and stabiliser, whether the outcome was flipped. -/
structure Noise where
  pauli : Nat → Nat → Fin 4
  erased : Nat → Nat → Bool
  scramble : Nat → Nat → Fin 4
  wrong : Nat → Nat → Bool

/-- The decisions on the `n` data qubits before round `t`. -/
def Noise.dataEvents (N : Noise) (fl : Flags) (n t : Nat) : List Event :=
  (List.range n).flatMap fun q =>
    (if fl.pauli q then [.pauli q (N.pauli t q)] else []) ++ (if fl.erasure q then [.erasure q (N.erased t q) (N.scramble t q)] else [])

/-- The decisions on the ancillas of the `m` stabilisers in round `t`. -/
def Noise.measEvents (N : Noise) (fl : Flags) (n m t : Nat) : List Event :=
  (List.range m).flatMap fun s => if fl.measurement (n + s) then [.flip (n + s) (N.wrong t s)] else []

/-- The decisions in all rounds: the outcomes of the last round are never flipped. -/
def Noise.events (N : Noise) (fl : Flags) (n m r : Nat) : List Event :=
  (List.range r).flatMap fun t => N.dataEvents fl n t ++ if t + 1 < r then N.measEvents fl n m t else []

/-- Nothing else happened on `n` data qubits in `r` rounds. -/
structure Noise.Only (N : Noise) (fl : Flags) (n r : Nat) : Prop where
  pauli : ∀ t q, (fl.pauli q = false ∨ n ≤ q) → N.pauli t q = 0
  erased : ∀ t q, (fl.erasure q = false ∨ n ≤ q) → N.erased t q = false
  scramble : ∀ t q, N.erased t q = false → N.scramble t q = 0
  wrong : ∀ t s, fl.measurement (n + s) = false → N.wrong t s = false
  last : ∀ t s, r ≤ t + 1 → N.wrong t s = false

/-- Pauli matrix number `k` has a factor X. -/
def numX (k : Fin 4) : Bool := k = 1 || k = 2

/-- Pauli matrix number `k` has a factor Z. -/
def numZ (k : Fin 4) : Bool := k = 2 || k = 3

/-- The error on the data qubits before round `t`. -/
def Noise.op (N : Noise) (n t : Nat) : Op n :=
  { x := fun q => numX (N.pauli t q) ^^ numX (N.scramble t q), z := fun q => numZ (N.pauli t q) ^^ numZ (N.scramble t q), r := false }

/-- The same as faults of a code on `n` qubits. -/
def Noise.faults (N : Noise) (n : Nat) : Faults n := { data := N.op n, meas := fun t s => N.wrong t s = true }

end Plaquette
