import Verif.Model.ConfigBuild

/-!
# `build` and `run` one after the other, `src/plaquette/frontend/__init__.py`
-/

namespace Plaquette

/-- What is measured after `exp.build()`: the loop of `run`, `frontend/__init__.py:2257-2276`. `build` begins with `update_rng`, `frontend/__init__.py:1834-1835, 2150`;
`gen seed` is `np.random.default_rng(seed=seed)`, and none of its numbers has been drawn when `run` begins: the errors are drawn from other generators
(`errors/__init__.py:1198, 1264, 1315`), and the Clifford simulator is made without drawing numbers. -/
def ExperimentConf.buildAndRate (gen : Int → Rng ℚ) (env : BuildEnv) (devices : List (List Char)) (x : ExperimentConf ℚ) (b : BuiltParts ℚ ErrPair BuiltDecoder) : Except Err ℚ :=
  match x.general with
  | none => .error .typeError
  | some g => match x.build env.makers devices b with
    | .error e => .error e
    | .ok b' => match b'.experiment env x with
      | .error e => .error e
      | .ok E => E.rate env.api (gen g.seed) 0

/-- `exp.build()` followed by `exp.run()`, with the test of the backend, `frontend/__init__.py:2257-2259`. -/
def ExperimentConf.buildAndRun (gen : Int → Rng ℚ) (env : BuildEnv) (devices : List (List Char)) (x : ExperimentConf ℚ) (b : BuiltParts ℚ ErrPair BuiltDecoder) :
    Except Err (Option ℚ) :=
  match x.general with
  | none => .error .typeError
  | some g => match x.build env.makers devices b with
    | .error e => .error e
    | .ok b' => match b'.experiment env x, b'.device with
      | .error e, _ => .error e
      | .ok _, none => .error .attributeError
      | .ok E, some device => E.run env.api (gen g.seed) 0 g.qecProperty (backendClass device)

/-! ### An `ExperimentConfig` object and the calls of its methods -/

/-- An `ExperimentConfig` object: the configuration, the objects that were built, and the seed of the last `np.random.default_rng(seed=seed)`. -/
structure Session (F E D : Type) where
  conf : ExperimentConf F
  parts : BuiltParts F E D := {}
  seed : Option Int := none

/-- The calls. The changes of sections are those of the methods `update`, or assignments to attributes. -/
inductive Call (F : Type) where
  | setCode (d : CodeDict)
  | setErrors (e : ErrorsConfig F)
  | setGeneral (g : General)
  | setDevice (d : DeviceConfig)
  | setCircuit (c : CircuitConfig)
  | setDecoder (d : DecoderDict)
  | getCode
  | buildCode
  | buildErrors
  | buildCircuit
  | buildDevice
  | buildDecoder
  | build

variable {F E D : Type}

/-- The object after a method that changes the parts: when an exception is raised, nothing has been assigned. -/
def Session.assign (s : Session F E D) (r : Except Err (BuiltParts F E D)) : Session F E D × Except Err Unit :=
  match r with
  | .error e => (s, .error e)
  | .ok p => ({ s with parts := p }, .ok ())

/-- One method after the other, until an exception is raised. -/
def Session.seq (fs : List (Session F E D → Session F E D × Except Err Unit)) (s : Session F E D) : Session F E D × Except Err Unit :=
  match fs with
  | [] => (s, .ok ())
  | f :: fs => match f s with
    | (s, .error e) => (s, .error e)
    | (s, .ok ()) => s.seq fs

/-- `update_rng`, `frontend/__init__.py:1834-1835`. -/
def Session.updateRng (s : Session F E D) : Session F E D × Except Err Unit :=
  match s.conf.updateRng with
  | .error e => (s, .error e)
  | .ok seed => ({ s with seed := some seed }, .ok ())

/-- `CodeConfig.update`, `frontend/__init__.py:170-192`: the attributes are changed before they are checked. -/
def CodeConfig.updateInPlace (c : CodeConfig) (d : CodeDict) : CodeConfig × Except Err Unit :=
  let c : CodeConfig := ⟨d.name.getD c.name, d.rounds.getD c.rounds, d.size.getD c.size⟩
  match c.postInit with
  | .error e => (c, .error e)
  | .ok c => (c, .ok ())

/-- A call, with the object afterwards (also after an exception): `frontend/__init__.py:1837-1842, 2144-2227` and the methods `update` of the sections,
`frontend/__init__.py:1424-1435, 1504-1515, 1607-1618`. `build` stops at the first exception and keeps what was assigned before. -/
def Session.call (mk : Makers F E D) (devices : List (List Char)) (s : Session F E D) : Call F → Session F E D × Except Err Unit
  | .setCode d => let r := s.conf.code.updateInPlace d; ({ s with conf := { s.conf with code := r.1 } }, r.2)
  | .setErrors e => ({ s with conf := { s.conf with errors := e } }, .ok ())
  | .setGeneral g => ({ s with conf := { s.conf with general := some g } }, .ok ())
  | .setDevice d => ({ s with conf := { s.conf with device := d } }, .ok ())
  | .setCircuit c => ({ s with conf := { s.conf with circuit := c } }, .ok ())
  | .setDecoder d => let r := s.conf.decoder.update d.name d.weighted; ({ s with conf := { s.conf with decoder := r.1 } }, r.2)
  | .getCode => s.assign (match s.conf.getCode s.parts with | .error e => .error e | .ok r => .ok r.1)
  | .buildCode => s.assign (s.conf.buildCode s.parts)
  | .buildErrors => s.assign (s.conf.buildErrors mk s.parts)
  | .buildCircuit => s.assign (s.conf.buildCircuit mk s.parts)
  | .buildDevice => s.assign (s.conf.buildDevice devices s.parts)
  | .buildDecoder => s.assign (s.conf.buildDecoder mk s.parts)
  | .build => s.seq [Session.updateRng, fun s => s.assign (s.conf.buildCode s.parts), fun s => s.assign (s.conf.buildErrors mk s.parts),
      fun s => s.assign (s.conf.buildCircuit mk s.parts), fun s => s.assign (s.conf.buildDevice devices s.parts), fun s => s.assign (s.conf.buildDecoder mk s.parts)]

/-- Calls one after the other; exceptions are caught by the caller. -/
def Session.calls (mk : Makers F E D) (devices : List (List Char)) (s : Session F E D) : List (Call F) → Session F E D
  | [] => s
  | c :: cs => (s.call mk devices c).1.calls mk devices cs

/-- The loop of `run`, `frontend/__init__.py:2260-2276`, when `pos` numbers of the generator have been used. -/
def Session.rate (gen : Int → Rng ℚ) (env : BuildEnv) (s : Session ℚ ErrPair BuiltDecoder) (pos : Nat) : Except Err ℚ :=
  match s.seed with
  | none => .error .unmodelled
  | some seed => match s.parts.experiment env s.conf with
    | .error e => .error e
    | .ok E => E.rate env.api (gen seed) pos

end Plaquette
