import Verif.Spec.Noise
import Verif.Spec.Sim

/-!
# Specification of Pauli frames

A Pauli error that happens at some point of a circuit can be moved through the gates after it.  A frame is the Pauli operator (without its phase) by
which the state of a run with errors differs from the state of a run without them.  Nothing here refers to tableaus.
-/

namespace Plaquette
variable {F : Type} {n : Nat}

/-- A product of Pauli matrices on numbered qubits, without its phase. -/
structure PFrame where
  x : Nat → Bool
  z : Nat → Bool

/-- No difference. -/
def PFrame.zero : PFrame := { x := fun _ => false, z := fun _ => false }

/-- What happens to a frame. -/
inductive FStep
  /-- a Hadamard gate -/
  | had (q : Nat)
  /-- a controlled X gate -/
  | cx (c t : Nat)
  /-- a controlled Z gate -/
  | cz (c t : Nat)
  /-- a Z measurement -/
  | meas (q : Nat)
  /-- a reset -/
  | clear (q : Nat)
  /-- an error, the Pauli matrix number `k` -/
  | kick (q : Nat) (k : Fin 4)
  deriving DecidableEq

/-- The frame after a step: X and Z are exchanged by a Hadamard gate; a controlled X copies X from the control and Z from the target; a controlled Z
copies X on one qubit to Z on the other; a reset forgets everything on the qubit; an error is multiplied to the frame. -/
def PFrame.step (f : PFrame) : FStep → PFrame
  | .had q => { x := fun i => if i = q then f.z q else f.x i, z := fun i => if i = q then f.x q else f.z i }
  | .cx c t => { x := fun i => if i = t then f.x t ^^ f.x c else f.x i, z := fun i => if i = c then f.z c ^^ f.z t else f.z i }
  | .cz c t => { x := f.x, z := fun i => if i = c then f.z c ^^ f.x t else if i = t then f.z t ^^ f.x c else f.z i }
  | .meas _ => f
  | .clear q => { x := fun i => if i = q then false else f.x i, z := fun i => if i = q then false else f.z i }
  | .kick q k => { x := fun i => f.x i ^^ (decide (i = q) && numX k), z := fun i => f.z i ^^ (decide (i = q) && numZ k) }

/-- The results that are flipped in a step: a measured qubit with X in the frame. -/
def PFrame.flip (f : PFrame) : FStep → List Bool
  | .meas q => [f.x q]
  | _ => []

/-- The frame after steps. -/
def PFrame.after (f : PFrame) (l : List FStep) : PFrame := l.foldl PFrame.step f

/-- The flips of all measurements. -/
def PFrame.flips (f : PFrame) : List FStep → List Bool
  | [] => []
  | s :: l => f.flip s ++ (f.step s).flips l

/-- The frame as an operator on `n` qubits. -/
def PFrame.op (n : Nat) (f : PFrame) : Op n := { x := fun q => f.x q, z := fun q => f.z q, r := false }

/-! ### The steps of a run -/

/-- The numbers among the arguments. -/
def intArgs (args : List (Val F)) : List Nat := args.filterMap fun | .int i => some i.toNat | _ => none

/-- Numbers in pairs. -/
def inPairs : List Nat → List (Nat × Nat)
  | a :: b :: l => (a, b) :: inPairs l
  | _ => []

/-- The steps of a gate that is not an error. -/
def plainSteps (name : Name) (args : List (Val F)) : List FStep :=
  match name with
  | .H => (intArgs args).map .had
  | .CX => (inPairs (intArgs args)).map fun p => .cx p.1 p.2
  | .CZ => (inPairs (intArgs args)).map fun p => .cz p.1 p.2
  | .M => (intArgs args).map .meas
  | .R => (intArgs args).map .clear
  | _ => []

/-- A Pauli matrix on each of the qubits, for `DEPOLARIZE` starting after `pos` draws. -/
def depolKicks (rng : Rng F) : Nat → List Nat → List (Nat × Fin 4)
  | _, [] => []
  | pos, q :: qs => (q, ⟨1 + (rng.int3 pos).val, by omega⟩) :: depolKicks rng (pos + 1) qs

/-- The Pauli matrices an error applies, when `pos` draws have been made: qubit and number of the matrix. -/
def kicksOf (api : FloatApi F) (rng : Rng F) (pos : Nat) (name : Name) (args : List (Val F)) : List (Nat × Fin 4) :=
  match name with
  | .X => (intArgs args).map (·, 1)
  | .Y => (intArgs args).map (·, 2)
  | .Z => (intArgs args).map (·, 3)
  | .DEPOLARIZE => depolKicks rng pos (intArgs args)
  | .E_ERASE =>
    match args with
    | [v, .int q] =>
      match numOf api v with
      | .ok p => if rng.below pos p then [(q.toNat, rng.int4 (pos + 1))] else []
      | .error _ => []
    | _ => []
  | .E_PAULI =>
    match numsOf api (args.take 3), (args[3]? : Option (Val F)) with
    | .ok ps, some (.int q) =>
      match rng.choice4 pos ps with
      | some k => [(q.toNat, k)]
      | none => []
    | _, _ => []
  | .E_PAULI2 =>
    match numsOf api (args.take 15), (args[15]? : Option (Val F)), (args[16]? : Option (Val F)) with
    | .ok ps, some (.int q1), some (.int q2) =>
      match rng.choice16 pos ps with
      | some k => [(q1.toNat, ⟨k.val / 4, by omega⟩), (q2.toNat, ⟨k.val % 4, by omega⟩)]
      | none => []
    | _, _, _ => []
  | _ => []

/-- The Pauli matrices applied by an error instruction of a run. -/
def Sim.kicks (api : FloatApi F) (rng : Rng F) (S : Sim n) (g : Gate F) : List (Nat × Fin 4) :=
  match g.name, g.args with
  | .ERROR, v :: .name m :: rest =>
    match numOf api v with
    | .ok p => if rng.below S.pos p then kicksOf api rng (S.pos + 1) m rest else []
    | .error _ => []
  | .ERROR_ELSE, v :: .name m :: rest =>
    match numOf api v with
    | .ok p => if !S.anyApplied && rng.below S.pos p then kicksOf api rng (S.pos + 1) m rest else []
    | .error _ => []
  | .ERROR_CONTINUE, .name m :: rest => if S.applyBranch then kicksOf api rng S.pos m rest else []
  | .DEPOLARIZE, args => kicksOf api rng S.pos .DEPOLARIZE args
  | .E_ERASE, args => kicksOf api rng S.pos .E_ERASE args
  | .E_PAULI, args => kicksOf api rng S.pos .E_PAULI args
  | .E_PAULI2, args => kicksOf api rng S.pos .E_PAULI2 args
  | _, _ => []

/-- The instruction is an error. -/
def Name.noisy : Name → Bool
  | .ERROR | .ERROR_ELSE | .ERROR_CONTINUE | .DEPOLARIZE | .E_ERASE | .E_PAULI | .E_PAULI2 => true
  | _ => false

/-- The circuit without its errors. -/
def noiseless (c : List (Gate F)) : List (Gate F) := c.filter fun g => !g.name.noisy

/-- The steps of an instruction of a run. -/
def Sim.frameStep (api : FloatApi F) (rng : Rng F) (S : Sim n) (g : Gate F) : List FStep :=
  if g.name.noisy then (S.kicks api rng g).map fun p => .kick p.1 p.2 else plainSteps g.name g.args

/-- The steps of a run. -/
def Sim.frameSteps (api : FloatApi F) (rng : Rng F) : Sim n → List (Gate F) → List FStep
  | _, [] => []
  | S, g :: gs => S.frameStep api rng g ++
    match S.runGate api rng g with
    | .ok S' => S'.frameSteps api rng gs
    | .error _ => []

/-- The gate applies Pauli matrices only. -/
def Name.pauliLike : Name → Bool
  | .X | .Y | .Z | .DEPOLARIZE | .E_ERASE | .E_PAULI | .E_PAULI2 => true
  | _ => false

/-- Conditional errors apply Pauli matrices only. -/
def Gate.PauliErrors (g : Gate F) : Prop :=
  match g.name, g.args with
  | .ERROR, _ :: .name m :: _ => m.pauliLike = true
  | .ERROR_ELSE, _ :: .name m :: _ => m.pauliLike = true
  | .ERROR_CONTINUE, .name m :: _ => m.pauliLike = true
  | _, _ => True

end Plaquette
