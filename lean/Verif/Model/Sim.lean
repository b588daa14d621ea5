import Verif.Model.Circuit

/-!
# Model of `src/plaquette/device/_circuitsim.py` (`CircuitSimulator`)

The random generator `plaquette.rng` is an arbitrary oracle `Rng`: the answer to its `k`-th call.  The number of qubits
`n` of the state is a type parameter; the simulator of a circuit `c` has `n = numberOfQubits c`.
-/

namespace Plaquette
variable {F : Type} {n : Nat}

/-- The answers of the random generator to call number `k`. -/
structure Rng (F : Type) where
  /-- `rng.random() < p` -/
  below : Nat → F → Bool
  /-- `rng.choice([0, 1])` (in `pauli.measure`) -/
  bit : Nat → Bool
  /-- `rng.integers(0, 3)` -/
  int3 : Nat → Fin 3
  /-- `rng.integers(0, 4)` -/
  int4 : Nat → Fin 4
  /-- `rng.choice(range(4), p=(1 - sum(ps), *ps))`; `none`: `ValueError` (probabilities that are not a distribution) -/
  choice4 : Nat → List F → Option (Fin 4)
  /-- `rng.choice(range(16), p=(1 - sum(ps), *ps))`; `none`: `ValueError` -/
  choice16 : Nat → List F → Option (Fin 16)

/-- The attributes of a `CircuitSimulator`, `_circuitsim.py:25-58` (the instruction pointer is not needed: `run` always
goes through the whole circuit). `pos` counts the calls of the random generator. -/
structure Sim (n : Nat) where
  tab : Tab n
  meas : List Bool
  erasure : List Bool
  inError : Bool
  anyApplied : Bool
  applyBranch : Bool
  pos : Nat

/-- A qubit index in a stored argument. Indices that are too large cannot occur in a simulator of the circuit (C19);
negative indices, which python counts from the end of some array, are not modelled. -/
def qubitOf (n : Nat) : Val F → Except Err (Fin n)
  | .int i => if 0 ≤ i then (if h : i.toNat < n then .ok ⟨i.toNat, h⟩ else .error .indexError) else .error .unmodelled
  | .flt _ => .error .indexError
  | .name _ => .error .indexError

/-- A list of qubit indices. -/
def qubitsOf (n : Nat) : List (Val F) → Except Err (List (Fin n))
  | [] => .ok []
  | v :: vs =>
    match qubitOf n v with
    | .error e => .error e
    | .ok q => match qubitsOf n vs with
      | .error e => .error e
      | .ok qs => .ok (q :: qs)

/-- A stored argument used as a number. -/
def numOf (api : FloatApi F) : Val F → Except Err F
  | .int i => .ok (api.ofInt i)
  | .flt f => .ok f
  | .name _ => .error .typeError

/-- A list of stored arguments used as numbers. -/
def numsOf (api : FloatApi F) : List (Val F) → Except Err (List F)
  | [] => .ok []
  | v :: vs =>
    match numOf api v with
    | .error e => .error e
    | .ok q => match numsOf api vs with
      | .error e => .error e
      | .ok qs => .ok (q :: qs)

/-- `args[::2]` -/
def evens {α : Type} : List α → List α
  | [] => []
  | [a] => [a]
  | a :: _ :: l => a :: evens l

/-- `args[1::2]` -/
def odds {α : Type} : List α → List α
  | [] => []
  | [_] => []
  | _ :: b :: l => b :: odds l

/-- Gates on a list of qubits. -/
def Sim.gates (S : Sim n) (Gs : List (CGate n)) : Sim n := { S with tab := appAll Gs S.tab }

/-- One measurement of the loop in case "M", `_circuitsim.py:143-150`. The random generator is called only if the operator
does not commute with some stabiliser. -/
def Sim.measureZ (rng : Rng F) (S : Sim n) (q : Fin n) : Except Err (Sim n) :=
  let op := singleOp false .Z q
  match measure S.tab op none (rng.bit S.pos) with
  | .error e => .error e
  | .ok (T, out) =>
    .ok { S with tab := T, meas := S.meas ++ [out], pos := if nonzero S.tab.s op = [] then S.pos else S.pos + 1 }

def Sim.measureAll (rng : Rng F) : Sim n → List (Fin n) → Except Err (Sim n)
  | S, [] => .ok S
  | S, q :: qs =>
    match S.measureZ rng q with
    | .error e => .error e
    | .ok S' => S'.measureAll rng qs

/-- `self.state.reset_qubits_to_eigenstate("Z", args)`. -/
def Sim.resetAll (rng : Rng F) : Sim n → List (Fin n) → Except Err (Sim n)
  | S, [] => .ok S
  | S, q :: qs =>
    match resetOne false .Z S.tab q (rng.bit S.pos) with
    | .error e => .error e
    | .ok T =>
      Sim.resetAll rng
        { S with tab := T, pos := if nonzero S.tab.s (singleOp false .Z q) = [] then S.pos else S.pos + 1 } qs

/-- `_apply_pauli_from_int`, `_circuitsim.py:180-192`. -/
def Sim.applyPauli (S : Sim n) (q : Fin n) (sample : Nat) : Except Err (Sim n) :=
  match sample with
  | 0 => .ok S
  | 1 => .ok (S.gates [.x q])
  | 2 => .ok (S.gates [.y q])
  | 3 => .ok (S.gates [.z q])
  | _ => .error .assertionError

/-- The loop of case "DEPOLARIZE", `_circuitsim.py:153-156`. -/
def Sim.depolarize (rng : Rng F) : Sim n → List (Fin n) → Except Err (Sim n)
  | S, [] => .ok S
  | S, q :: qs =>
    match ({ S with pos := S.pos + 1 } : Sim n).applyPauli q (1 + (rng.int3 S.pos).val) with
    | .error e => .error e
    | .ok S' => S'.depolarize rng qs

/-- `args[k]` -/
def argAt (args : List (Val F)) (k : Nat) : Except Err (Val F) :=
  match args[k]? with
  | some v => .ok v
  | none => .error .indexError

/-- `self.state.cx(args[::2], args[1::2])` and the same for `cz`. -/
def Sim.twoQubit (S : Sim n) (G : Fin n → Fin n → CGate n) (args : List (Val F)) : Except Err (Sim n) :=
  if (odds args).length ≠ (evens args).length then .error .valueError
  else match qubitsOf n (evens args), qubitsOf n (odds args) with
    | .ok cs, .ok ts => .ok (S.gates ((cs.zip ts).map fun p => G p.1 p.2))
    | .error e, _ => .error e
    | _, .error e => .error e

/-- The gates on a list of qubits. -/
def Sim.oneQubit (S : Sim n) (G : Fin n → CGate n) (args : List (Val F)) : Except Err (Sim n) :=
  match qubitsOf n args with
  | .error e => .error e
  | .ok qs => .ok (S.gates (qs.map G))

/-- `_handle_gate`, `_circuitsim.py:128-178`. -/
def Sim.handleGate (api : FloatApi F) (rng : Rng F) (S : Sim n) (name : Name) (args : List (Val F)) :
    Except Err (Sim n) :=
  match name with
  | .X => S.oneQubit .x args
  | .Y => S.oneQubit .y args
  | .Z => S.oneQubit .z args
  | .H => S.oneQubit .h args
  | .CX => S.twoQubit .cx args
  | .CZ => S.twoQubit .cz args
  | .M =>
    match qubitsOf n args with
    | .error e => .error e
    | .ok qs => S.measureAll rng qs
  | .R =>
    match qubitsOf n args with
    | .error e => .error e
    | .ok qs => S.resetAll rng qs
  | .DEPOLARIZE =>
    match qubitsOf n args with
    | .error e => .error e
    | .ok qs => S.depolarize rng qs
  | .E_ERASE =>
    match args with
    | [p, qubit] =>
      match numOf api p with
      | .error e => .error e
      | .ok p =>
        let erase := rng.below S.pos p
        let S1 := { S with erasure := S.erasure ++ [erase], pos := S.pos + 1 }
        if erase then
          match qubitOf n qubit with
          | .error e => .error e
          | .ok q => ({ S1 with pos := S1.pos + 1 } : Sim n).applyPauli q (rng.int4 S1.pos).val
        else .ok S1
    | _ => .error .valueError
  | .E_PAULI =>
    match numsOf api (args.take 3) with
    | .error e => .error e
    | .ok ps =>
      match argAt args 3 with
      | .error e => .error e
      | .ok qubit =>
        match rng.choice4 S.pos ps with
        | none => .error .valueError
        | some sample =>
          match qubitOf n qubit with
          | .error e => .error e
          | .ok q => ({ S with pos := S.pos + 1 } : Sim n).applyPauli q sample.val
  | .E_PAULI2 =>
    match numsOf api (args.take 15) with
    | .error e => .error e
    | .ok ps =>
      if ps.length ≠ 15 then .error .valueError
      else match rng.choice16 S.pos ps with
        | none => .error .valueError
        | some sample =>
          let p1 := sample.val / 4
          let p2 := sample.val % 4
          match argAt (args.drop 15) 0 with
          | .error e => .error e
          | .ok qubit1 =>
            match qubitOf n qubit1 with
            | .error e => .error e
            | .ok q1 =>
              match ({ S with pos := S.pos + 1 } : Sim n).applyPauli q1 p1 with
              | .error e => .error e
              | .ok S1 =>
                match argAt (args.drop 15) 1 with
                | .error e => .error e
                | .ok qubit2 =>
                  match qubitOf n qubit2 with
                  | .error e => .error e
                  | .ok q2 => S1.applyPauli q2 p2
  | .ERROR | .ERROR_ELSE | .ERROR_CONTINUE => .error .valueError

/-- The gate inside a conditional error, `self._handle_gate(args[k], args[k + 1:])`. -/
def Sim.nested (api : FloatApi F) (rng : Rng F) (S : Sim n) : List (Val F) → Except Err (Sim n)
  | .name m :: rest => S.handleGate api rng m rest
  | _ :: _ => .error .valueError
  | [] => .error .indexError

/-- `_handle_error`, `_circuitsim.py:100-126`. -/
def Sim.handleError (api : FloatApi F) (rng : Rng F) (S : Sim n) (name : Name) (args : List (Val F)) :
    Except Err (Sim n) :=
  match name with
  | .ERROR =>
    let S := { S with inError := true }
    match args with
    | [] => .error .indexError
    | p :: rest =>
      match numOf api p with
      | .error e => .error e
      | .ok p =>
        if rng.below S.pos p then
          ({ S with anyApplied := true, applyBranch := true, pos := S.pos + 1 } : Sim n).nested api rng rest
        else .ok { S with anyApplied := false, applyBranch := false, pos := S.pos + 1 }
  | .ERROR_CONTINUE =>
    if !S.inError then .error .valueError
    else if S.applyBranch then S.nested api rng args
    else .ok S
  | .ERROR_ELSE =>
    if !S.inError then .error .valueError
    else if S.anyApplied then .ok { S with applyBranch := false }
    else
      match args with
      | [] => .error .indexError
      | p :: rest =>
        match numOf api p with
        | .error e => .error e
        | .ok p =>
          if rng.below S.pos p then
            ({ S with anyApplied := true, applyBranch := true, pos := S.pos + 1 } : Sim n).nested api rng rest
          else .ok { S with pos := S.pos + 1 }
  | _ => .error .valueError

/-- `name.startswith("ERROR")` -/
def Name.isError : Name → Bool
  | .ERROR | .ERROR_ELSE | .ERROR_CONTINUE => true
  | _ => false

/-- `_run_gate`, `_circuitsim.py:194-200`. -/
def Sim.runGate (api : FloatApi F) (rng : Rng F) (S : Sim n) (g : Gate F) : Except Err (Sim n) :=
  if g.name.isError then S.handleError api rng g.name g.args
  else ({ S with inError := false } : Sim n).handleGate api rng g.name g.args

/-- The loop over all instructions (`for _ in self`), `_circuitsim.py:72-90, 206-208`. -/
def Sim.runGates (api : FloatApi F) (rng : Rng F) : Sim n → List (Gate F) → Except Err (Sim n)
  | S, [] => .ok S
  | S, g :: gs =>
    match S.runGate api rng g with
    | .error e => .error e
    | .ok S' => S'.runGates api rng gs

/-- `__init__`, `_circuitsim.py:25-58`, when the random generator has been called `pos` times. -/
def Sim.fresh (n pos : Nat) : Sim n :=
  { tab := zeroState n, meas := [], erasure := [], inError := false, anyApplied := false, applyBranch := false, pos := pos }

/-- `reset`, `_circuitsim.py:219-235`: a new state and empty results; the flags of the last error block are kept. -/
def Sim.reset (S : Sim n) : Sim n := { S with tab := zeroState n, meas := [], erasure := [] }

/-- `run(after_reset=...)`, `_circuitsim.py:202-208`. -/
def Sim.run (api : FloatApi F) (rng : Rng F) (c : List (Gate F)) (S : Sim n) (afterReset : Bool) : Except Err (Sim n) :=
  (if afterReset then S.reset else S).runGates api rng c

/-- `process_results`, `_circuitsim.py:210-217`. -/
def Sim.results (S : Sim n) : List Bool × Option (List Bool) :=
  (S.meas, if S.erasure.length > 0 then some S.erasure else none)

end Plaquette
