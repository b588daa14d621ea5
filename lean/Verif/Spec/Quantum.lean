import Mathlib.Data.Matrix.Mul
import Mathlib.LinearAlgebra.Matrix.ConjTranspose
import Mathlib.Analysis.Real.Sqrt
import Mathlib.Data.Complex.Basic
import Mathlib.Data.Complex.BigOperators
import Verif.Model.Pauli

/-!
# Quantum mechanics, as a specification for the tableau code

Independent of the algorithms in `pauli.py`: `n`-qubit vectors, matrices over the computational basis
`Fin n → Bool`, tensor products of `2 × 2` matrices, the Pauli matrices and the unitaries of the gates.
Only the *encoding* of an operator (an `Op n`: X bits, Z bits, sign bit) is shared with the model.
-/

namespace Plaquette
open Matrix Complex

variable {n : Nat}

/-- Computational basis states of `n` qubits. -/
abbrev Basis (n : Nat) := Fin n → Bool

/-- `n`-qubit (unnormalised) state vectors. -/
abbrev Vec (n : Nat) := Basis n → ℂ

/-- `2^n × 2^n` complex matrices. -/
abbrev Mat (n : Nat) := Matrix (Basis n) (Basis n) ℂ

/-- Tensor product of one `2 × 2` matrix per qubit. -/
def tensor (A : Fin n → Matrix Bool Bool ℂ) : Mat n :=
  fun a b => ∏ q, A q (a q) (b q)

/-- The four Pauli matrices `I, X, Z, Y`, indexed by their X bit and Z bit. -/
def sigma : Bool → Bool → Matrix Bool Bool ℂ
  | false, false => Matrix.of fun a b => if a = b then 1 else 0
  | true, false => Matrix.of fun a b => if a = b then 0 else 1
  | false, true => Matrix.of fun a b => if a = b then (if a then -1 else 1) else 0
  | true, true => Matrix.of fun a b => if a = b then 0 else (if a then I else -I)

/-- The matrix of the Pauli string with the given bits (no sign). -/
def pauliMat (x z : Fin n → Bool) : Mat n := tensor (fun q => sigma (x q) (z q))

/-- `+1` or `-1` -/
def sgn (b : Bool) : ℂ := if b then -1 else 1

/-- The matrix denoted by an operator in tableau form: `(-1)^r` times the Pauli string. -/
def opMat (p : Op n) : Mat n := sgn p.r • pauliMat p.x p.z

/-- The `2 × 2` Hadamard matrix. -/
noncomputable def hadamardMat : Matrix Bool Bool ℂ :=
  Matrix.of fun a b => (if a && b then -1 else 1) / (Real.sqrt 2 : ℂ)

/-- The `2 × 2` phase gate `diag(1, i)`. -/
def phaseMat : Matrix Bool Bool ℂ :=
  Matrix.of fun a b => if a = b then (if a then I else 1) else 0

/-- A single-qubit matrix acting on qubit `q`. -/
def onQubit (q : Fin n) (A : Matrix Bool Bool ℂ) : Mat n :=
  tensor (fun i => if i = q then A else 1)

/-- The controlled-NOT unitary: `|a⟩ ↦ |a with a_t replaced by a_t + a_c⟩`. -/
def cnotMat (c t : Fin n) : Mat n :=
  fun a b => if a = Function.update b t (b t ^^ b c) then 1 else 0

/-- The controlled-Z unitary: `|b⟩ ↦ (-1)^(b_c b_t) |b⟩`. -/
def czMat (c t : Fin n) : Mat n :=
  fun a b => if a = b then (if b c && b t then -1 else 1) else 0

/-- The unitary of each gate. -/
noncomputable def CGate.unitary : CGate n → Mat n
  | .x q => onQubit q (sigma true false)
  | .y q => onQubit q (sigma true true)
  | .z q => onQubit q (sigma false true)
  | .h q => onQubit q hadamardMat
  | .s q => onQubit q phaseMat
  | .cx c t => cnotMat c t
  | .cz c t => czMat c t

/-- Two-qubit gates need two different qubits. -/
def CGate.Ok : CGate n → Prop
  | .cx c t => c ≠ t
  | .cz c t => c ≠ t
  | _ => True

instance (G : CGate n) : Decidable G.Ok := by
  cases G <;> unfold CGate.Ok <;> infer_instance

/-- `p` stabilises `ψ`: the vector is a `+1` eigenvector. -/
def Stabilises (p : Op n) (ψ : Vec n) : Prop := opMat p *ᵥ ψ = ψ

/-- A tableau represents the (nonzero) vector `ψ` if each of its stabilisers stabilises `ψ`. -/
def Tab.Represents (T : Tab n) (ψ : Vec n) : Prop := ψ ≠ 0 ∧ ∀ i, Stabilises (T.s i) ψ

/-- Squared norm. -/
noncomputable def normSq (ψ : Vec n) : ℝ := ∑ b, Complex.normSq (ψ b)

/-- The projector on the eigenspace of the operator `m` that belongs to outcome `out`
(`out = false`: eigenvalue `+1`; `out = true`: eigenvalue `-1`). -/
noncomputable def projector (m : Op n) (out : Bool) : Mat n :=
  (1 / 2 : ℂ) • (1 + sgn out • opMat m)

/-- Two matrices commute / anticommute. -/
def Commutes (A B : Mat n) : Prop := A * B = B * A
def Anticommutes (A B : Mat n) : Prop := A * B = -(B * A)

end Plaquette
