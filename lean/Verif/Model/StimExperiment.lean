import Verif.Model.Experiment
import Verif.Model.Stim

/-!
# Model of `ExperimentConfig.run` with the Stim simulator, `src/plaquette/frontend/__init__.py`

Stim's sampler for the translated circuit is an argument, see `Model/Stim.lean`.
-/

namespace Plaquette
variable {F : Type} [Field F]

/-- The part of the loop of `run` after `get_sample`, `frontend/__init__.py:2264-2275`: is the shot decoded to the right result? -/
def Experiment.judge (E : Experiment F) (raw : List Bool × Option (List Bool)) : Except Err Bool :=
  match Sample.fromRaw E.code raw.1 raw.2 false with
  | .error e => .error e
  | .ok s =>
    match E.decode s.erased (some s.syndrome) with
    | .error e => .error e
    | .ok correction => checkSuccess E.code.code correction s.toggle (some E.sel)

/-- A Stim simulator: the flags of the translation (`meas_is_erasure`), and the current batch. -/
abbrev StimSim := List Bool × StimState (List Bool)

/-- The simulator that `Device.run` uses, `device/__init__.py:407-414`: the one of the last shot, as the circuit is the same object, or a new one, `_stimsim.py:120-156`. -/
def stimSim (api : FloatApi F) (circ : List (Gate F)) : Option StimSim → Except Err StimSim
  | some d => .ok d
  | none =>
    match circuitToStim api circ with
    | .error e => .error e
    | .ok (_, fl) => .ok (fl, .reset)

/-- The body of the loop of `run`, `frontend/__init__.py:2262-2275`, with the Stim simulator. -/
def Experiment.stimShot (api : FloatApi F) (smp : Sampler (List Bool)) (batchSize : Nat) (E : Experiment F) (d : Option StimSim) : Except Err (StimSim × Bool) :=
  match stimSim api E.circ d with
  | .error e => .error e
  | .ok (fl, s) =>
    match s.run smp batchSize with
    | .error e => .error e
    | .ok (s', row) =>
      match stimResults fl row with
      | .error e => .error e
      | .ok raw =>
        match E.judge raw with
        | .error e => .error e
        | .ok b => .ok ((fl, s'), b)

/-- The loop of `run`, `frontend/__init__.py:2261-2275`. -/
def Experiment.stimLoop (api : FloatApi F) (smp : Sampler (List Bool)) (batchSize : Nat) (E : Experiment F) : Nat → Option StimSim → Except Err (List Bool)
  | 0, _ => .ok []
  | k + 1, d =>
    match E.stimShot api smp batchSize d with
    | .error e => .error e
    | .ok (d', b) =>
      match E.stimLoop api smp batchSize k (some d') with
      | .error e => .error e
      | .ok bs => .ok (b :: bs)

/-- The part of `run` that runs the shots, `frontend/__init__.py:2260-2276`. -/
def Experiment.stimRate (api : FloatApi F) (smp : Sampler (List Bool)) (batchSize : Nat) (E : Experiment F) : Except Err ℚ :=
  match E.stimLoop api smp batchSize E.shots none with
  | .error e => .error e
  | .ok l => .ok (rateOf l)

end Plaquette
