import Verif.Model.Circuit
import Mathlib.Algebra.Field.Defs

/-!
# Model of `src/plaquette/device/_stimsim.py` and of the backend selection of `Device`

Stim itself is outside of the model: a translated circuit is a list of Stim instructions, and the sampler is an arbitrary
function from the number of the call to a batch of rows.  Floating point arithmetic on probabilities is replaced by exact
arithmetic of a field `F`.
-/

namespace Plaquette

/-! ### Translation -/

/-- A target of a Stim instruction: a qubit, or a Pauli factor on a qubit (`stim.target_x` ...). -/
inductive STarget
  | qubit (q : Int)
  | x (q : Int)
  | y (q : Int)
  | z (q : Int)
deriving DecidableEq

/-- An instruction of a Stim circuit: name, targets, parameters. -/
structure SInstr (F : Type) where
  name : List Char
  targets : List STarget
  params : List F

section translate
variable {F : Type} [Field F]

/-- `p_i = p / (1 - i * p)` for step `i`, `_stimsim.py:18-24`. -/
def equiProb (p : F) (i : Nat) : F := p / (1 - i * p)

/-- `_append_equiprobable`, `_stimsim.py:18-24`, from step `i` on. -/
def appendEquiprobable (p : F) : Nat → List (List STarget) → List (SInstr F)
  | _, [] => []
  | i, step :: steps =>
    { name := (if i > 0 then "ELSE_".toList else []) ++ "CORRELATED_ERROR".toList, targets := step,
      params := [equiProb p i] } :: appendEquiprobable p (i + 1) steps

/-- A qubit argument handed to Stim (Stim refuses what is not a non-negative integer; refusal is a `ValueError` here). -/
def stimQubit : Val F → Except Err Int
  | .int i => if 0 ≤ i then .ok i else .error .valueError
  | _ => .error .valueError

/-- A probability handed to Stim. -/
def stimProb (api : FloatApi F) : Val F → Except Err F
  | .int i => .ok (api.ofInt i)
  | .flt f => .ok f
  | .name _ => .error .typeError

def mapE {α β : Type} (f : α → Except Err β) : List α → Except Err (List β)
  | [] => .ok []
  | a :: as =>
    match f a with
    | .error e => .error e
    | .ok b => match mapE f as with
      | .error e => .error e
      | .ok bs => .ok (b :: bs)

/-- `res.append(name, args, ps)` on qubit targets. -/
def stimAppend (name : List Char) (args : List (Val F)) (ps : List F) : Except Err (List (SInstr F)) :=
  match mapE stimQubit args with
  | .error e => .error e
  | .ok qs => .ok [{ name := name, targets := qs.map .qubit, params := ps }]

/-- One iteration of the loop of `circuit_to_stim`, `_stimsim.py:50-89`: the new instructions and the new entries of
`meas_is_erasure`; `anc` is the erasure ancilla. -/
def stimGate (api : FloatApi F) (anc : Nat) (g : Gate F) : Except Err (List (SInstr F) × List Bool) :=
  let simple (r : Except Err (List (SInstr F))) (fl : List Bool) : Except Err (List (SInstr F) × List Bool) :=
    match r with
    | .error e => .error e
    | .ok is => .ok (is, fl)
  match g.name with
  | .X | .Y | .Z | .H | .R | .CX | .CZ => simple (stimAppend g.name.text g.args []) []
  | .M => simple (stimAppend g.name.text g.args []) (List.replicate g.args.length false)
  | .DEPOLARIZE => simple (stimAppend g.name.text g.args [1]) []
  | .E_PAULI =>
    if g.args.length = 4 then
      match mapE (stimProb api) (g.args.take 3) with
      | .error e => .error e
      | .ok ps => simple (stimAppend "PAULI_CHANNEL_1".toList (g.args.drop 3) ps) []
    else .error .assertionError
  | .E_PAULI2 =>
    if g.args.length = 17 then
      match mapE (stimProb api) (g.args.take 15) with
      | .error e => .error e
      | .ok ps => simple (stimAppend "PAULI_CHANNEL_2".toList (g.args.drop 15) ps) []
    else .error .assertionError
  | .E_ERASE =>
    match g.args with
    | [pv, qv] =>
      match stimProb api pv, stimQubit qv with
      | .error e, _ => .error e
      | _, .error e => .error e
      | .ok p, .ok q =>
        let a : Int := anc
        .ok ({ name := "R".toList, targets := [.qubit a], params := [] } ::
            (appendEquiprobable (p / 4) 0 [[.x a, .x q], [.x a, .y q], [.x a, .z q], [.x a]] ++
              [{ name := "M".toList, targets := [.qubit a], params := [] }]), [true])
    | _ => .error .assertionError
  | .ERROR =>
    match g.args with
    | pv :: .name m :: rest =>
      if m = .X ∨ m = .Y ∨ m = .Z then
        if rest.length ≠ 1 then .error .valueError
        else match stimProb api pv with
          | .error e => .error e
          | .ok p => simple (stimAppend (m.text ++ "_ERROR".toList) rest [p]) []
      else .error .valueError
    | _ => .error .valueError
  | .ERROR_ELSE | .ERROR_CONTINUE => .error .valueError

/-- The loop of `circuit_to_stim`. -/
def stimLoop (api : FloatApi F) (anc : Nat) : List (Gate F) → Except Err (List (SInstr F) × List Bool)
  | [] => .ok ([], [])
  | g :: gs =>
    match stimGate api anc g with
    | .error e => .error e
    | .ok (is, fl) => match stimLoop api anc gs with
      | .error e => .error e
      | .ok (is', fl') => .ok (is ++ is', fl ++ fl')

/-- `circuit_to_stim`, `_stimsim.py:27-90`. -/
def circuitToStim (api : FloatApi F) (c : List (Gate F)) : Except Err (List (SInstr F) × List Bool) :=
  stimLoop api (numberOfQubits c) c

end translate

/-! ### Results -/

/-- `a[mask]` for a Boolean mask of the same length. -/
def maskSel {α : Type} : List α → List Bool → List α
  | a :: as, b :: bs => if b then a :: maskSel as bs else maskSel as bs
  | _, _ => []

/-- `process_results`, `_stimsim.py:183-191`. An empty list of flags becomes an array of floats, which `~` refuses; masks of
the wrong length are refused by the indexing. -/
def stimResults (isErasure : List Bool) (allMeas : List Bool) : Except Err (List Bool × Option (List Bool)) :=
  if isErasure = [] then .error .typeError
  else if allMeas.length ≠ isErasure.length then .error .indexError
  else
    let meas := maskSel allMeas (isErasure.map (!·))
    let erased := maskSel allMeas isErasure
    .ok (meas, if erased.length = 0 then none else some erased)

/-! ### Batches -/

/-- The sampler compiled from a circuit with a seed: row `j` of the `k`-th batch that is drawn. -/
abbrev Sampler (α : Type) := Nat → Nat → α

/-- The attributes of a `StimSimulator` that change: number of batches drawn from the current sampler, the current batch and
the unused rows in it. -/
structure StimState (α : Type) where
  drawn : Nat
  batch : Option (List α)
  remaining : Nat

/-- `reset` (also called by `__init__`), `_stimsim.py:158-171`. -/
def StimState.reset {α : Type} : StimState α := { drawn := 0, batch := none, remaining := 0 }

/-- `run`, `_stimsim.py:172-181`, for `after_reset=True`; also returns `self.all_meas`. -/
def StimState.run {α : Type} (smp : Sampler α) (batchSize : Nat) (s : StimState α) : Except Err (StimState α × α) :=
  let s := if s.remaining = 0 then
      { drawn := s.drawn + 1, batch := some ((List.range batchSize).map (smp s.drawn)), remaining := batchSize }
    else s
  match s.batch with
  | none => .error .assertionError
  | some b =>
    -- `batch[-remaining]`: a negative index counts from the end; `-0` is `0`
    match (if s.remaining = 0 then b[0]? else if s.remaining ≤ b.length then b[b.length - s.remaining]? else none) with
    | none => .error .indexError
    | some row => .ok ({ s with remaining := s.remaining - 1 }, row)

/-- Any number of runs in a row. -/
def StimState.runs {α : Type} (smp : Sampler α) (batchSize : Nat) : Nat → StimState α → Except Err (StimState α × List α)
  | 0, s => .ok (s, [])
  | k + 1, s =>
    match s.run smp batchSize with
    | .error e => .error e
    | .ok (s', row) => match s'.runs smp batchSize k with
      | .error e => .error e
      | .ok (s'', rows) => .ok (s'', row :: rows)

/-! ### `Device.run` -/

/-- What is handed to `Device.run`: a circuit object, or a builder object holding a circuit object (objects are numbered). -/
inductive CircArg
  | circuit (id : Nat)
  | builder (id : Nat) (circ : Nat)
deriving DecidableEq

/-- The circuit object the backend keeps (`backend.circ`). -/
def CircArg.circ : CircArg → Nat
  | .circuit id => id
  | .builder _ c => c

/-- `self.circuit is circuit`. -/
def CircArg.is (kept : Nat) : CircArg → Bool
  | .circuit id => kept == id
  | .builder _ _ => false

/-- A local Stim device: the backend (if any) with the circuit it was made for. -/
structure StimDevice (α : Type) where
  backend : Option (Nat × StimState α)

/-- `Device.run` for the Stim backend with a fixed seed, `device/__init__.py:388-416`; `smp c` is the sampler of circuit `c`. -/
def StimDevice.run {α : Type} (smp : Nat → Sampler α) (batchSize : Nat) (d : StimDevice α) (arg : CircArg) :
    Except Err (StimDevice α × α) :=
  let kept : Nat × StimState α :=
    match d.backend with
    | none => (arg.circ, StimState.reset)
    | some (c, s) => if arg.is c then (c, s) else (arg.circ, StimState.reset)
  match kept.2.run (smp kept.1) batchSize with
  | .error e => .error e
  | .ok (s', row) => .ok ({ backend := some (kept.1, s') }, row)

/-- Repeated `Device.run` of the same argument. -/
def StimDevice.runs {α : Type} (smp : Nat → Sampler α) (batchSize : Nat) (arg : CircArg) :
    Nat → StimDevice α → Except Err (StimDevice α × List α)
  | 0, d => .ok (d, [])
  | k + 1, d =>
    match d.run smp batchSize arg with
    | .error e => .error e
    | .ok (d', row) => match d'.runs smp batchSize arg k with
      | .error e => .error e
      | .ok (d'', rows) => .ok (d'', row :: rows)

end Plaquette
