import Verif.Model.Session
import Verif.Lemmas.Session
import Verif.Props.Repeat

/-!
# C117: which calls make the experiment follow the configuration
-/

namespace Plaquette

variable {F E D : Type}

/-- The objects that `run` uses. -/
inductive Part where
  | code | errors | circuit | device | decoder | seed
  deriving DecidableEq

/-- The object is what the present configuration gives for the present other objects. -/
def Current (mk : Makers F E D) (devices : List (List Char)) (s : Session F E D) : Part → Prop
  | .code => ∃ c, s.parts.code = some c ∧ s.conf.code.instantiate = .ok c
  | .errors => ∃ c v, s.parts.code = some c ∧ s.parts.errors = some v ∧ mk.errors s.conf.errors c = .ok v
  | .circuit => ∃ g v, s.conf.general = some g ∧ s.parts.circuit = some v ∧ s.conf.circuit.instantiate mk s.parts.code s.parts.errors g.logicalOp = .ok v
  | .device => ∃ v, s.parts.device = some v ∧ s.conf.device.instantiate devices = .ok v
  | .decoder => ∃ c e v, s.parts.code = some c ∧ s.parts.errors = some e ∧ s.parts.decoder = some v ∧ s.conf.decoder.check = .ok () ∧ mk.decoder s.conf.decoder c e = .ok v
  | .seed => ∃ g, s.conf.general = some g ∧ s.seed = some g.seed

/-- The objects that are no longer current after a call: those made from what the call changes. -/
def outdated : Call F → Part → Bool
  | .setCode _ => fun p => p = .code
  | .setErrors _ => fun p => p = .errors
  | .setGeneral _ => fun p => p = .circuit || p = .seed
  | .setDevice _ => fun p => p = .device
  | .setCircuit _ => fun p => p = .circuit
  | .setDecoder _ => fun p => p = .decoder
  | .getCode => fun _ => false
  | .buildCode => fun p => p = .errors || p = .circuit || p = .decoder
  | .buildErrors => fun p => p = .circuit || p = .decoder
  | .buildCircuit => fun _ => false
  | .buildDevice => fun _ => false
  | .buildDecoder => fun _ => false
  | .build => fun _ => true

/-- The objects that a call makes, if there is no exception. -/
def renewed : Call F → Part → Bool
  | .buildCode => fun p => p = .code
  | .buildErrors => fun p => p = .errors
  | .buildCircuit => fun p => p = .circuit
  | .buildDevice => fun p => p = .device
  | .buildDecoder => fun p => p = .decoder
  | .build => fun _ => true
  | _ => fun _ => false

/-- What is known to be current after a call. -/
def keepTrack (known : Part → Bool) (c : Call F) (ok : Bool) : Part → Bool := fun p => (known p && !outdated c p) || (ok && renewed c p)

def Except.isOkB {α : Type} : Except Err α → Bool
  | .ok _ => true
  | .error _ => false

/-- What is known to be current after some calls. -/
def trackCalls (mk : Makers F E D) (devices : List (List Char)) (known : Part → Bool) (s : Session F E D) : List (Call F) → Part → Bool
  | [] => known
  | c :: cs => trackCalls mk devices (keepTrack known c (Except.isOkB (s.call mk devices c).2)) (s.call mk devices c).1 cs

/-- The full claim: if objects were built and all calls since then succeeded, the rate is that of the configuration. -/
def C117_statement : Prop := ∀ (gen : Int → Rng ℚ) (env : BuildEnv) (devices : List (List Char)) (x : ExperimentConf ℚ) (cs : List (Call ℚ)) (s : Session ℚ ErrPair BuiltDecoder) (q : ℚ),
  s = Session.calls env.makers devices ⟨x, {}, none⟩ cs → (∀ k, (h : k < cs.length) → (Session.call env.makers devices (Session.calls env.makers devices ⟨x, {}, none⟩ (cs.take k)) cs[k]).2 = .ok ()) →
  s.rate gen env 0 = .ok q → s.conf.buildAndRate gen env devices {} = .ok q

/-- A second claim: a call that raises an exception does not change the rate. -/
def C117_safe_statement : Prop := ∀ (gen : Int → Rng ℚ) (env : BuildEnv) (devices : List (List Char)) (s s' : Session ℚ ErrPair BuiltDecoder) (c : Call ℚ) (e : Err),
  s.call env.makers devices c = (s', .error e) → s'.rate gen env 0 = s.rate gen env 0

/-! ## The objects that are current -/

theorem assign_ok {s : Session F E D} {r : Except Err (BuiltParts F E D)} {s' : Session F E D} (h : s.assign r = (s', .ok ())) :
    ∃ p, r = .ok p ∧ s' = { s with parts := p } := by
  unfold Session.assign at h
  cases r with
  | error e => cases h
  | ok p => cases h; exact ⟨p, rfl, rfl⟩

theorem assign_error {s : Session F E D} {r : Except Err (BuiltParts F E D)} {s' : Session F E D} {e : Err} (h : s.assign r = (s', .error e)) : s' = s := by
  unfold Session.assign at h
  cases r with
  | error e => cases h; rfl
  | ok p => cases h

/-- The call `build` does what the function `build` does, and sets the seed. -/
theorem call_build_ok {mk : Makers F E D} {devices : List (List Char)} {s s' : Session F E D} :
    s.call mk devices .build = (s', .ok ()) ↔ ∃ g p, s.conf.general = some g ∧ s.conf.build mk devices s.parts = .ok p ∧ s' = ⟨s.conf, p, some g.seed⟩ := by
  obtain ⟨x, b, sd⟩ := s
  simp only [Session.call, Session.seq, Session.updateRng, ExperimentConf.build, ExperimentConf.updateRng, Session.assign]
  cases hg : x.general with
  | none => simp
  | some g =>
    dsimp only
    cases h1 : x.buildCode b with
    | error e => simp
    | ok b1 =>
      dsimp only
      cases h2 : x.buildErrors mk b1 with
      | error e => simp
      | ok b2 =>
        dsimp only
        cases h3 : x.buildCircuit mk b2 with
        | error e => simp
        | ok b3 =>
          dsimp only
          cases h4 : x.buildDevice devices b3 with
          | error e => simp
          | ok b4 =>
            dsimp only
            cases h5 : x.buildDecoder mk b4 with
            | error e => simp
            | ok b5 => simp [eq_comm]

/-- What is current when the objects match the configuration. -/
theorem current_all {mk : Makers F E D} {devices : List (List Char)} {s : Session F E D} : (∀ p, Current mk devices s p) ↔
    ∃ g c ed circ dev dec, Matches mk devices s.conf g c ed circ dev dec ∧ s = ⟨s.conf, ⟨some c, some ed, some dev, some circ, some dec⟩, some g.seed⟩ := by
  constructor
  · intro h
    obtain ⟨c, c1, c2⟩ := h .code
    obtain ⟨c', ed, e1, e2, e3⟩ := h .errors
    obtain ⟨g, circ, r1, r2, r3⟩ := h .circuit
    obtain ⟨dev, d1, d2⟩ := h .device
    obtain ⟨c'', ed', dec, k1, k2, k3, k4, k5⟩ := h .decoder
    obtain ⟨g', s1, s2⟩ := h .seed
    cases c1.symm.trans e1
    cases c1.symm.trans k1
    cases e2.symm.trans k2
    cases r1.symm.trans s1
    refine ⟨g, c, ed, circ, dev, dec, ⟨r1, c2, e3, ?_, d2, k4, k5⟩, ?_⟩
    · rw [c1, e2] at r3; exact r3
    · obtain ⟨x, ⟨b1, b2, b3, b4, b5⟩, sd⟩ := s
      dsimp only at c1 e2 r2 d1 k3 s2
      rw [c1, e2, r2, d1, k3, s2]
  · rintro ⟨g, c, ed, circ, dev, dec, hm, hs⟩ p
    obtain ⟨x, b, sd⟩ := s
    cases hs
    cases p with
    | code => exact ⟨c, rfl, hm.code⟩
    | errors => exact ⟨c, ed, rfl, rfl, hm.errors⟩
    | circuit => exact ⟨g, circ, hm.general, rfl, hm.circuit⟩
    | device => exact ⟨dev, rfl, hm.device⟩
    | decoder => exact ⟨c, ed, dec, rfl, rfl, rfl, hm.check, hm.decoder⟩
    | seed => exact ⟨g, hm.general, rfl⟩

/-- One call. -/
theorem current_call {mk : Makers F E D} {devices : List (List Char)} {s : Session F E D} {c : Call F} {known : Part → Bool} (h : ∀ p, known p = true → Current mk devices s p) :
    ∀ p, keepTrack known c (Except.isOkB (s.call mk devices c).2) p = true → Current mk devices (s.call mk devices c).1 p := by
  intro p hp
  unfold keepTrack at hp
  rw [Bool.or_eq_true, Bool.and_eq_true, Bool.and_eq_true] at hp
  cases c with
  | setCode d =>
    rcases hp with ⟨h1, h2⟩ | ⟨_, h2⟩
    · have := h p h1
      cases p <;> first | exact this | cases h2
    · cases h2
  | setErrors d =>
    rcases hp with ⟨h1, h2⟩ | ⟨_, h2⟩
    · have := h p h1
      cases p <;> first | exact this | cases h2
    · cases h2
  | setGeneral d =>
    rcases hp with ⟨h1, h2⟩ | ⟨_, h2⟩
    · have := h p h1
      cases p <;> first | exact this | cases h2
    · cases h2
  | setDevice d =>
    rcases hp with ⟨h1, h2⟩ | ⟨_, h2⟩
    · have := h p h1
      cases p <;> first | exact this | cases h2
    · cases h2
  | setCircuit d =>
    rcases hp with ⟨h1, h2⟩ | ⟨_, h2⟩
    · have := h p h1
      cases p <;> first | exact this | cases h2
    · cases h2
  | setDecoder d =>
    rcases hp with ⟨h1, h2⟩ | ⟨_, h2⟩
    · have := h p h1
      cases p <;> first | exact this | cases h2
    · cases h2
  | getCode =>
    rcases hp with ⟨h1, h2⟩ | ⟨_, h2⟩
    · have hc := h p h1
      obtain ⟨x, ⟨b1, b2, b3, b4, b5⟩, sd⟩ := s
      cases b1 with
      | some c => exact hc
      | none =>
        simp only [Session.call, Session.assign, ExperimentConf.getCode]
        cases hi : x.code.instantiate with
        | error e => exact hc
        | ok c =>
          cases p with
          | code => obtain ⟨_, k, _⟩ := hc; cases k
          | errors => obtain ⟨_, _, k, _⟩ := hc; cases k
          | circuit =>
            obtain ⟨g, v, k1, k2, k3⟩ := hc
            refine ⟨g, v, k1, k2, ?_⟩
            unfold CircuitConfig.instantiate at k3 ⊢
            split_ifs at k3 ⊢ with a b
            exact k3
          | device => exact hc
          | decoder => obtain ⟨_, _, _, k, _⟩ := hc; cases k
          | seed => exact hc
    · cases h2
  | buildCode =>
    cases hr : s.call mk devices .buildCode with
    | mk s' r =>
    rw [hr] at hp
    cases r with
    | error e =>
      rw [assign_error hr]
      rcases hp with ⟨h1, h2⟩ | ⟨h1, _⟩
      · exact h p h1
      · cases h1
    | ok u =>
      obtain ⟨b, hb, rfl⟩ := assign_ok hr
      unfold ExperimentConf.buildCode at hb
      split at hb
      · cases hb
      next c hc =>
      cases hb
      rcases hp with ⟨h1, h2⟩ | ⟨_, h2⟩
      · have := h p h1
        cases p <;> first | exact ⟨c, rfl, hc⟩ | exact this | cases h2
      · cases p <;> first | exact ⟨c, rfl, hc⟩ | cases h2
  | buildErrors =>
    cases hr : s.call mk devices .buildErrors with
    | mk s' r =>
    rw [hr] at hp
    cases r with
    | error e =>
      rw [assign_error hr]
      rcases hp with ⟨h1, h2⟩ | ⟨h1, _⟩
      · exact h p h1
      · cases h1
    | ok u =>
      obtain ⟨b, hb, rfl⟩ := assign_ok hr
      unfold ExperimentConf.buildErrors at hb
      split at hb
      · cases hb
      next c hc =>
      split at hb
      · cases hb
      next v hv =>
      cases hb
      rcases hp with ⟨h1, h2⟩ | ⟨_, h2⟩
      · have := h p h1
        cases p <;> first | exact ⟨c, v, hc, rfl, hv⟩ | exact this | cases h2
      · cases p <;> first | exact ⟨c, v, hc, rfl, hv⟩ | cases h2
  | buildCircuit =>
    cases hr : s.call mk devices .buildCircuit with
    | mk s' r =>
    rw [hr] at hp
    cases r with
    | error e =>
      rw [assign_error hr]
      rcases hp with ⟨h1, h2⟩ | ⟨h1, _⟩
      · exact h p h1
      · cases h1
    | ok u =>
      obtain ⟨b, hb, rfl⟩ := assign_ok hr
      unfold ExperimentConf.buildCircuit at hb
      split at hb
      · cases hb
      next g hg =>
      split at hb
      · cases hb
      next v hv =>
      cases hb
      rcases hp with ⟨h1, h2⟩ | ⟨_, h2⟩
      · have := h p h1
        cases p <;> first | exact ⟨g, v, hg, rfl, hv⟩ | exact this | cases h2
      · cases p <;> first | exact ⟨g, v, hg, rfl, hv⟩ | cases h2
  | buildDevice =>
    cases hr : s.call mk devices .buildDevice with
    | mk s' r =>
    rw [hr] at hp
    cases r with
    | error e =>
      rw [assign_error hr]
      rcases hp with ⟨h1, h2⟩ | ⟨h1, _⟩
      · exact h p h1
      · cases h1
    | ok u =>
      obtain ⟨b, hb, rfl⟩ := assign_ok hr
      unfold ExperimentConf.buildDevice at hb
      split at hb
      · cases hb
      next v hv =>
      cases hb
      rcases hp with ⟨h1, h2⟩ | ⟨_, h2⟩
      · have := h p h1
        cases p <;> first | exact ⟨v, rfl, hv⟩ | exact this | cases h2
      · cases p <;> first | exact ⟨v, rfl, hv⟩ | cases h2
  | buildDecoder =>
    cases hr : s.call mk devices .buildDecoder with
    | mk s' r =>
    rw [hr] at hp
    cases r with
    | error e =>
      rw [assign_error hr]
      rcases hp with ⟨h1, h2⟩ | ⟨h1, _⟩
      · exact h p h1
      · cases h1
    | ok u =>
      obtain ⟨b, hb, rfl⟩ := assign_ok hr
      unfold ExperimentConf.buildDecoder at hb
      split at hb
      · cases hb
      next hck =>
      split at hb
      next c e hc he =>
        split at hb
        · cases hb
        next v hv =>
        cases hb
        rcases hp with ⟨h1, h2⟩ | ⟨_, h2⟩
        · have := h p h1
          cases p <;> first | exact ⟨c, e, v, hc, he, rfl, hck, hv⟩ | exact this | cases h2
        · cases p <;> first | exact ⟨c, e, v, hc, he, rfl, hck, hv⟩ | cases h2
      · cases hb
  | build =>
    cases hr : s.call mk devices .build with
    | mk s' r =>
    rw [hr] at hp
    cases r with
    | error e =>
      rcases hp with ⟨h1, h2⟩ | ⟨h1, _⟩
      · cases h2
      · cases h1
    | ok u =>
      obtain ⟨g, b, hg, hb, rfl⟩ := call_build_ok.1 hr
      obtain ⟨g', c, ed, circ, dev, dec, hm, rfl⟩ := (build_iff _ _ _ _ _).1 hb
      cases hg.symm.trans hm.general
      exact (current_all (s := ⟨s.conf, _, some g.seed⟩)).2 ⟨g, c, ed, circ, dev, dec, hm, rfl⟩ p

/-- **C117**: after any calls, with or without exceptions, the objects that the table of dependencies says to be current are what the present configuration gives. -/
theorem C117_track (mk : Makers F E D) (devices : List (List Char)) (s : Session F E D) (known : Part → Bool) (h : ∀ p, known p = true → Current mk devices s p) (cs : List (Call F)) :
    ∀ p, trackCalls mk devices known s cs p = true → Current mk devices (s.calls mk devices cs) p := by
  induction cs generalizing s known with
  | nil => exact h
  | cons c cs ih => exact ih _ _ (current_call h)

/-- After a `build` without exception all objects are current, whatever happened before. -/
theorem C117_after_build {mk : Makers F E D} {devices : List (List Char)} {s s' : Session F E D} (h : s.call mk devices .build = (s', .ok ())) : ∀ p, Current mk devices s' p := by
  intro p
  have := current_call (mk := mk) (devices := devices) (s := s) (c := .build) (known := fun _ => false) (fun _ h => nomatch h) p
  rw [h] at this
  exact this rfl

/-- After changes of some sections it is enough to repeat the methods that depend on them. -/
theorem C117_recipes {mk : Makers F E D} {devices : List (List Char)} {s s' : Session F E D} (h : ∀ p, Current mk devices s p) (cs : List (Call F))
    (hcs : (∃ d, cs = [.setDecoder d, .buildDecoder]) ∨ (∃ d, cs = [.setDevice d, .buildDevice]) ∨ (∃ c, cs = [.setCircuit c, .buildCircuit]) ∨
      (∃ e, cs = [.setErrors e, .buildErrors, .buildCircuit, .buildDecoder]) ∨ (∃ d, cs = [.setCode d, .buildCode, .buildErrors, .buildCircuit, .buildDecoder]))
    (hs : s' = s.calls mk devices cs) (hok : ∀ k, (h : k < cs.length) → (Session.call mk devices (s.calls mk devices (cs.take k)) cs[k]).2 = .ok ()) : ∀ p, Current mk devices s' p := by
  subst hs
  intro p
  refine C117_track mk devices s (fun _ => true) (fun p _ => h p) cs p ?_
  rcases hcs with ⟨d, rfl⟩ | ⟨d, rfl⟩ | ⟨d, rfl⟩ | ⟨d, rfl⟩ | ⟨d, rfl⟩
  · have h0 := hok 0 (by simp)
    have h1 := hok 1 (by simp)
    simp only [List.take, Session.calls, List.getElem_cons_zero, List.getElem_cons_succ] at h0 h1
    simp only [trackCalls, h0, h1]
    cases p <;> rfl
  · have h0 := hok 0 (by simp)
    have h1 := hok 1 (by simp)
    simp only [List.take, Session.calls, List.getElem_cons_zero, List.getElem_cons_succ] at h0 h1
    simp only [trackCalls, h0, h1]
    cases p <;> rfl
  · have h0 := hok 0 (by simp)
    have h1 := hok 1 (by simp)
    simp only [List.take, Session.calls, List.getElem_cons_zero, List.getElem_cons_succ] at h0 h1
    simp only [trackCalls, h0, h1]
    cases p <;> rfl
  · have h0 := hok 0 (by simp)
    have h1 := hok 1 (by simp)
    have h2 := hok 2 (by simp)
    have h3 := hok 3 (by simp)
    simp only [List.take, Session.calls, List.getElem_cons_zero, List.getElem_cons_succ] at h0 h1 h2 h3
    simp only [trackCalls, h0, h1, h2, h3]
    cases p <;> rfl
  · have h0 := hok 0 (by simp)
    have h1 := hok 1 (by simp)
    have h2 := hok 2 (by simp)
    have h3 := hok 3 (by simp)
    have h4 := hok 4 (by simp)
    simp only [List.take, Session.calls, List.getElem_cons_zero, List.getElem_cons_succ] at h0 h1 h2 h3 h4
    simp only [trackCalls, h0, h1, h2, h3, h4]
    cases p <;> rfl

/-- When all objects are current, the rate is that of a new object with the same configuration. -/
theorem C117_rate_partial (gen : Int → Rng ℚ) (env : BuildEnv) (devices : List (List Char)) (s : Session ℚ ErrPair BuiltDecoder) (h : ∀ p, Current env.makers devices s p)
    (b : BuiltParts ℚ ErrPair BuiltDecoder) : s.rate gen env 0 = s.conf.buildAndRate gen env devices b := by
  obtain ⟨g, c, ed, circ, dev, dec, hm, hs⟩ := current_all.1 h
  obtain ⟨x, b', sd⟩ := s
  cases hs
  unfold Session.rate ExperimentConf.buildAndRate
  rw [hm.general, (build_iff env.makers devices x b _).2 ⟨g, c, ed, circ, dev, dec, hm, rfl⟩]

/-! ## Objects that are not current -/

theorem fromCode_unweighted {σ : Type} (negLog : ℚ → Option FW) (tiny : ℚ) (b : Backend FW σ) (C : LatCode) (errs errs' : ErrData) :
    fromCode FW.isInf negLog tiny b C (some errs) (some false) none = fromCode FW.isInf negLog tiny b C (some errs') (some false) none := rfl

theorem built_of_rate {gen : Int → Rng ℚ} {env : BuildEnv} {devices : List (List Char)} {x : ExperimentConf ℚ} {b : BuiltParts ℚ ErrPair BuiltDecoder} {q : ℚ}
    (h : x.buildAndRate gen env devices b = .ok q) : ∃ p, x.build env.makers devices b = .ok p := by
  unfold ExperimentConf.buildAndRate at h
  split at h
  · cases h
  split at h
  · cases h
  next p hp => exact ⟨p, hp⟩

set_option maxRecDepth 100000 in
theorem constRate_zero : fiveRate "constant".toList [0] 0 = some 0 := by decide +kernel

/-- Two configurations that differ in the probabilities of errors only, with the rates 1 and 0. -/
theorem twoConfigs : ∃ x x' : ExperimentConf ℚ, x' = { x with errors := x'.errors } ∧ (∃ g, x.general = some g) ∧ x.decoder = ⟨"UnionFindNoWeights".toList, false⟩ ∧
    x.buildAndRate (fun _ => middleRng) (gaussEnv 0) plainEnv.devices {} = .ok 1 ∧ ∀ b, x'.buildAndRate (fun _ => middleRng) (gaussEnv 0) plainEnv.devices b = .ok 0 := by
  obtain ⟨x, x', hx, hx', h1, h2, h3, h4, h5, h⟩ : ∃ x x', (ExperimentConf.fromDict plainEnv (fiveDict "constant".toList [1])).2 = .ok x ∧
      (ExperimentConf.fromDict plainEnv (fiveDict "constant".toList [0])).2 = .ok x' ∧
      x.general = some ⟨"Z".toList, ["logical_error_rate".toList], 7⟩ ∧ x.code = ⟨some "FiveQubitCode".toList, .int 1, .int (-1)⟩ ∧
      x.circuit.provided = false ∧ x.device.name = "clifford".toList ∧ x.decoder = ⟨"UnionFindNoWeights".toList, false⟩ ∧
      x' = { x with errors := x'.errors } := ⟨_, _, rfl, rfl, rfl, rfl, rfl, rfl, rfl, rfl⟩
  refine ⟨x, x', h, ⟨_, h1⟩, h5, fiveRate_build hx h1 h2 h3 h4 h5 constRate_one {}, fun b => fiveRate_build hx' ?_ ?_ ?_ ?_ ?_ constRate_zero b⟩
  · rw [h]; exact h1
  · rw [h]; exact h2
  · rw [h]; exact h3
  · rw [h]; exact h4
  · rw [h]; exact h5

/-- **C117 fails**: a change of the configuration after `build` has no effect on the rate. The objects were built with errors X of probability 1, and the configuration then has
probability 0: `run` gives 1, and 0 after another `build`. -/
theorem C117_stale_counterexample : ¬ C117_statement := by
  intro h
  obtain ⟨x, x', hx, ⟨g, hg⟩, _, h1, h0⟩ := twoConfigs
  obtain ⟨p, hp⟩ := built_of_rate h1
  have hc : Session.call (gaussEnv 0).makers plainEnv.devices ⟨x, {}, none⟩ .build = (⟨x, p, some g.seed⟩, .ok ()) := call_build_ok.2 ⟨g, p, hg, hp, rfl⟩
  have hall := C117_after_build hc
  have hr := C117_rate_partial (fun _ => middleRng) (gaussEnv 0) plainEnv.devices ⟨x, p, some g.seed⟩ hall {}
  rw [h1] at hr
  have := h (fun _ => middleRng) (gaussEnv 0) plainEnv.devices x [.build, .setErrors x'.errors] ⟨{ x with errors := x'.errors }, p, some g.seed⟩ 1 ?_ ?_ hr
  · dsimp only at this
    rw [← hx, h0] at this
    have := Except.ok.inj this
    norm_num at this
  · show _ = (Session.call _ _ (Session.call _ _ _ _).1 _).1
    rw [hc]
    rfl
  · intro k hk
    match k, hk with
    | 0, _ => exact congrArg Prod.snd hc
    | 1, _ => rfl

/-- A `build` whose decoder is refused. -/
theorem call_build_refused {mk : Makers F E D} {devices : List (List Char)} {y : ExperimentConf F} {g : General} {c : LatCode} {ed : E} {circ : List (Gate F)} {dev : List Char} {e : Err}
    (h1 : y.general = some g) (h2 : y.code.instantiate = .ok c) (h3 : mk.errors y.errors c = .ok ed) (h4 : y.circuit.instantiate mk (some c) (some ed) g.logicalOp = .ok circ)
    (h5 : y.device.instantiate devices = .ok dev) (h6 : y.decoder.check = .error e) (b : BuiltParts F E D) (sd : Option Int) :
    Session.call mk devices ⟨y, b, sd⟩ .build = (⟨y, ⟨some c, some ed, some dev, some circ, b.decoder⟩, some g.seed⟩, .error e) := by
  simp only [Session.call, Session.seq, Session.updateRng, ExperimentConf.updateRng, Session.assign, ExperimentConf.buildCode, ExperimentConf.buildErrors, ExperimentConf.buildCircuit,
    ExperimentConf.buildDevice, ExperimentConf.buildDecoder, h1, h2, h3, h4, h5, h6]

/-- **A `build` that raises an exception changes the experiment**: the new circuit is used with the old decoder. The objects were built with errors X of probability 1; the
configuration then has probability 0 and a decoder that is refused. Before the second `build` the rate is 1, after its exception the rate is 0. -/
theorem C117_failed_build_counterexample : ¬ C117_safe_statement := by
  intro h
  obtain ⟨x, x', hx, ⟨g, hg⟩, hd, h1, h0⟩ := twoConfigs
  obtain ⟨p, hp⟩ := built_of_rate h1
  obtain ⟨p', hp'⟩ := built_of_rate (h0 p)
  obtain ⟨g1, c, ed, circ, dev, dec, hm, rfl⟩ := (build_iff _ _ _ _ _).1 hp
  obtain ⟨g2, c', ed', circ', dev', dec', hm', rfl⟩ := (build_iff _ _ _ _ _).1 hp'
  cases hg.symm.trans hm.general
  have e1 : x'.code = x.code := by rw [hx]
  have e2 : x'.general = x.general := by rw [hx]
  have e3 : x'.device = x.device := by rw [hx]
  have e4 : x'.decoder = x.decoder := by rw [hx]
  have e5 : x'.circuit = x.circuit := by rw [hx]
  cases hm'.general.symm.trans (e2.trans hg)
  have hc : c' = c := Except.ok.inj (hm'.code.symm.trans ((congrArg _ e1).trans hm.code))
  subst hc
  have hdev : dev' = dev := Except.ok.inj (hm'.device.symm.trans ((congrArg _ e3).trans hm.device))
  subst hdev
  have hdec : dec' = dec := by
    refine Except.ok.inj (hm'.decoder.symm.trans (Eq.trans ?_ hm.decoder))
    rw [e4]
    show x.decoder.make (gaussEnv 0) c' ed' = x.decoder.make (gaussEnv 0) c' ed
    rw [hd]
    rfl
  subst hdec
  -- the object before and after the second `build`
  let y : ExperimentConf ℚ := { x' with decoder := ⟨"UnionFindNoWeights".toList, true⟩ }
  have hr1 : Session.rate (fun _ => middleRng) (gaussEnv 0) ⟨y, ⟨some c', some ed, some dev', some circ, some dec'⟩, some g.seed⟩ 0 = .ok 1 := by
    rw [← h1]
    have hb := (build_iff (gaussEnv 0).makers plainEnv.devices x {} _).2 ⟨g, c', ed, circ, dev', dec', hm, rfl⟩
    unfold Session.rate ExperimentConf.buildAndRate
    rw [hg, hb]
    unfold BuiltParts.experiment
    dsimp only [y]
    rw [e3, e2]
  have hr0 : Session.rate (fun _ => middleRng) (gaussEnv 0) ⟨y, ⟨some c', some ed', some dev', some circ', some dec'⟩, some g.seed⟩ 0 = .ok 0 := by
    rw [← h0 {}]
    have hb := (build_iff (gaussEnv 0).makers plainEnv.devices x' {} _).2 ⟨g, c', ed', circ', dev', dec', hm', rfl⟩
    unfold Session.rate ExperimentConf.buildAndRate
    rw [e2, hg, hb]
    rfl
  have hcall : Session.call (gaussEnv 0).makers plainEnv.devices ⟨y, ⟨some c', some ed, some dev', some circ, some dec'⟩, some g.seed⟩ .build =
      (⟨y, ⟨some c', some ed', some dev', some circ', some dec'⟩, some g.seed⟩, .error .valueError) := by
    exact call_build_refused (y := y) hm'.general hm'.code hm'.errors hm'.circuit hm'.device rfl _ _
  have := h (fun _ => middleRng) _ _ _ _ _ _ hcall
  rw [hr0, hr1] at this
  have := Except.ok.inj this
  norm_num at this

/-- The methods that depend on the errors, after `build` with other errors: the calls succeed, and the rate is that of the new configuration. -/
example : ∃ (x x' : ExperimentConf ℚ) (s : Session ℚ ErrPair BuiltDecoder), Session.call (gaussEnv 0).makers plainEnv.devices ⟨x, {}, none⟩ .build = (s, .ok ()) ∧
    s.rate (fun _ => middleRng) (gaussEnv 0) 0 = .ok 1 ∧
    (s.calls (gaussEnv 0).makers plainEnv.devices [.setErrors x'.errors, .buildErrors, .buildCircuit, .buildDecoder]).rate (fun _ => middleRng) (gaussEnv 0) 0 = .ok 0 := by
  obtain ⟨x, x', hx, ⟨g, hg⟩, hd, h1, h0⟩ := twoConfigs
  obtain ⟨p, hp⟩ := built_of_rate h1
  have hc : Session.call (gaussEnv 0).makers plainEnv.devices ⟨x, {}, none⟩ .build = (⟨x, p, some g.seed⟩, .ok ()) := call_build_ok.2 ⟨g, p, hg, hp, rfl⟩
  refine ⟨x, x', _, hc, ?_, ?_⟩
  · rw [C117_rate_partial _ _ plainEnv.devices _ (C117_after_build hc) {}]
    exact h1
  obtain ⟨p', hp'⟩ := built_of_rate (h0 p)
  obtain ⟨g1, c, ed, circ, dev, dec, hm, rfl⟩ := (build_iff _ _ _ _ _).1 hp
  obtain ⟨g2, c', ed', circ', dev', dec', hm', rfl⟩ := (build_iff _ _ _ _ _).1 hp'
  have e1 : x'.code = x.code := by rw [hx]
  have e2 : x'.general = x.general := by rw [hx]
  have e3 : x'.circuit = x.circuit := by rw [hx]
  have e4 : x'.decoder = x.decoder := by rw [hx]
  have hcc : c' = c := Except.ok.inj (hm'.code.symm.trans ((congrArg _ e1).trans hm.code))
  subst hcc
  cases hm'.general.symm.trans (e2.trans hg)
  have k3 := hm'.circuit
  have k4 := hm'.decoder
  have k5 := hm'.check
  rw [e3] at k3
  rw [e4] at k4 k5
  have a0 : Session.call (gaussEnv 0).makers plainEnv.devices ⟨x, ⟨some c', some ed, some dev, some circ, some dec⟩, some g.seed⟩ (.setErrors x'.errors) =
      (⟨x', ⟨some c', some ed, some dev, some circ, some dec⟩, some g.seed⟩, .ok ()) := by
    show (Session.mk { x with errors := x'.errors } _ _, _) = _
    rw [← hx]
  have a1 : Session.call (gaussEnv 0).makers plainEnv.devices ⟨x', ⟨some c', some ed, some dev, some circ, some dec⟩, some g.seed⟩ .buildErrors =
      (⟨x', ⟨some c', some ed', some dev, some circ, some dec⟩, some g.seed⟩, .ok ()) := by
    simp only [Session.call, Session.assign, ExperimentConf.buildErrors, hm'.errors]
  have a2 : Session.call (gaussEnv 0).makers plainEnv.devices ⟨x', ⟨some c', some ed', some dev, some circ, some dec⟩, some g.seed⟩ .buildCircuit =
      (⟨x', ⟨some c', some ed', some dev, some circ', some dec⟩, some g.seed⟩, .ok ()) := by
    simp only [Session.call, Session.assign, ExperimentConf.buildCircuit, hm'.general, hm'.circuit]
  have a3 : Session.call (gaussEnv 0).makers plainEnv.devices ⟨x', ⟨some c', some ed', some dev, some circ', some dec⟩, some g.seed⟩ .buildDecoder =
      (⟨x', ⟨some c', some ed', some dev, some circ', some dec'⟩, some g.seed⟩, .ok ()) := by
    simp only [Session.call, Session.assign, ExperimentConf.buildDecoder, hm'.check, hm'.decoder]
  have hcur := C117_recipes (C117_after_build hc) [.setErrors x'.errors, .buildErrors, .buildCircuit, .buildDecoder] (.inr (.inr (.inr (.inl ⟨_, rfl⟩)))) rfl ?_
  · rw [C117_rate_partial _ _ plainEnv.devices _ hcur {}]
    simp only [Session.calls, a0, a1, a2, a3]
    exact h0 {}
  · intro k hk
    match k, hk with
    | 0, _ => exact congrArg Prod.snd a0
    | 1, _ => simp only [List.take, Session.calls, List.getElem_cons_zero, List.getElem_cons_succ, a0, a1]
    | 2, _ => simp only [List.take, Session.calls, List.getElem_cons_zero, List.getElem_cons_succ, a0, a1, a2]
    | 3, _ => simp only [List.take, Session.calls, List.getElem_cons_zero, List.getElem_cons_succ, a0, a1, a2, a3]

end Plaquette
