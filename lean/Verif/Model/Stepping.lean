import Verif.Model.Sim

/-!
# Model of stepping through circuits, `src/plaquette/device/_circuitsim.py:62-90`

A `CircuitSimulator` is its own iterator. Calls that raise an exception other than `StopIteration` end a sequence of calls here.
-/

namespace Plaquette
variable {n : Nat} {F : Type}

/-- A `CircuitSimulator` with its instruction pointer; `next` is `_instruction_pointer + 1`, which is 0 at the start (`_circuitsim.py:53`). -/
structure Stepper (n : Nat) where
  sim : Sim n
  next : Nat

/-- Calls of the methods of a simulator: `__iter__`, `__next__`, `reset`, `run`. -/
inductive StepOp
  | iter
  | next
  | reset
  | run (afterReset : Bool)
  deriving DecidableEq

/-- `__next__`, `_circuitsim.py:76-90`; the second component says that `StopIteration` is raised. -/
def Stepper.step (api : FloatApi F) (rng : Rng F) (c : List (Gate F)) (s : Stepper n) : Except Err (Stepper n × Bool) :=
  match c[s.next]? with
  | none => .ok (⟨s.sim, s.next + 1⟩, true)
  | some g =>
    match s.sim.runGate api rng g with
    | .error e => .error e
    | .ok S => .ok (⟨S, s.next + 1⟩, false)

/-- The loop `for _ in self` after `__iter__`, `_circuitsim.py:206-208`: calls of `__next__` until `StopIteration`. The first argument bounds the number of calls. -/
def Stepper.loop (api : FloatApi F) (rng : Rng F) (c : List (Gate F)) : Nat → Stepper n → Except Err (Stepper n)
  | 0, _ => .error .unmodelled
  | k + 1, s =>
    match s.step api rng c with
    | .error e => .error e
    | .ok (s', true) => .ok s'
    | .ok (s', false) => s'.loop api rng c k

/-- One call: `__iter__`, `_circuitsim.py:62-74`; `__next__`, 76-90; `reset`, 219-235, which does not change the pointer; `run`, 202-208. -/
def Stepper.op (api : FloatApi F) (rng : Rng F) (c : List (Gate F)) (s : Stepper n) : StepOp → Except Err (Stepper n × Bool)
  | .iter => .ok (⟨s.sim, 0⟩, false)
  | .next => s.step api rng c
  | .reset => .ok (⟨s.sim.reset, s.next⟩, false)
  | .run afterReset =>
    match (⟨if afterReset then s.sim.reset else s.sim, 0⟩ : Stepper n).loop api rng c (c.length + 1) with
    | .error e => .error e
    | .ok s' => .ok (s', false)

/-- Calls one after the other; `StopIteration` is caught, and noted for each call. -/
def Stepper.ops (api : FloatApi F) (rng : Rng F) (c : List (Gate F)) : Stepper n → List StepOp → Except Err (Stepper n × List Bool)
  | s, [] => .ok (s, [])
  | s, o :: os =>
    match s.op api rng c o with
    | .error e => .error e
    | .ok (s', b) =>
      match s'.ops api rng c os with
      | .error e => .error e
      | .ok (s'', bs) => .ok (s'', b :: bs)

/-- `Device.__iter__` and `Device.__next__`, `device/__init__.py:354-366`: without a backend, before the first run, there is nothing to step through. -/
def deviceStep (api : FloatApi F) (rng : Rng F) (c : List (Gate F)) (backend : Option (Stepper n)) (o : StepOp) : Except Err (Stepper n × Bool) :=
  match backend with
  | none => .error .attributeError
  | some s => s.op api rng c o

end Plaquette
