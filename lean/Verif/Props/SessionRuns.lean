import Verif.Props.Session
import Verif.Props.StringState

/-!
# C117: changes of the configuration and later runs; C99: bytes
-/

namespace Plaquette

/-- A change of one section leaves the other sections, the objects and the seed as they were. -/
theorem C117_changes {F E D : Type} (mk : Makers F E D) (devices : List (List Char)) (x : ExperimentConf F) (p : BuiltParts F E D) (seed : Option Int) :
    (∀ d, (Session.mk x p seed).call mk devices (.setDevice d) = (⟨{ x with device := d }, p, seed⟩, .ok ())) ∧
    (∀ e, (Session.mk x p seed).call mk devices (.setErrors e) = (⟨{ x with errors := e }, p, seed⟩, .ok ())) ∧
    (∀ g, (Session.mk x p seed).call mk devices (.setGeneral g) = (⟨{ x with general := some g }, p, seed⟩, .ok ())) ∧
    (∀ c, (Session.mk x p seed).call mk devices (.setCircuit c) = (⟨{ x with circuit := c }, p, seed⟩, .ok ())) :=
  ⟨fun _ => rfl, fun _ => rfl, fun _ => rfl, fun _ => rfl⟩

/-- A change of the code sets the given attributes, also if it raises an exception. -/
theorem C117_code_change {F E D : Type} (mk : Makers F E D) (devices : List (List Char)) (s : Session F E D) (d : CodeDict) :
    ((s.call mk devices (.setCode d)).2 = .ok () ∨ (s.call mk devices (.setCode d)).1 =
      { s with conf := { s.conf with code := ⟨d.name.getD s.conf.code.name, d.rounds.getD s.conf.code.rounds, d.size.getD s.conf.code.size⟩ } }) := by
  cases h : (CodeConfig.mk (d.name.getD s.conf.code.name) (d.rounds.getD s.conf.code.rounds) (d.size.getD s.conf.code.size)).postInit with
  | ok c => left; simp only [Session.call, CodeConfig.updateInPlace, h]
  | error e => right; simp only [Session.call, CodeConfig.updateInPlace, h]

/-- A run after `k` numbers of the generator have been used: the rate of the experiment with the numbers from there on. -/
theorem C117_later_run_partial (gen : Int → Rng ℚ) (env : BuildEnv) (devices : List (List Char)) (s : Session ℚ ErrPair BuiltDecoder) (h : ∀ p, Current env.makers devices s p) (k : Nat)
    {X : Experiment ℚ} (hX : s.parts.experiment env s.conf = .ok X) :
    ∃ g, s.conf.general = some g ∧ s.rate gen env k = X.rate env.api (gen g.seed) k := by
  obtain ⟨g, c, ed, circ, dev, dec, hm, hs⟩ := current_all.1 h
  obtain ⟨x, b', sd⟩ := s
  cases hs
  refine ⟨g, hm.general, ?_⟩
  unfold Session.rate
  simp only [hX]

example : ∃ (s : Session ℚ ErrPair BuiltDecoder) (X : Experiment ℚ), (∀ p, Current (gaussEnv 0).makers plainEnv.devices s p) ∧ s.parts.experiment (gaussEnv 0) s.conf = .ok X := by
  obtain ⟨x, _, _, ⟨g, hg⟩, _, h1, _⟩ := twoConfigs
  obtain ⟨p, hp⟩ := built_of_rate h1
  have hc : Session.call (gaussEnv 0).makers plainEnv.devices ⟨x, {}, none⟩ .build = (⟨x, p, some g.seed⟩, .ok ()) := call_build_ok.2 ⟨g, p, hg, hp, rfl⟩
  have hr := C117_rate_partial (fun _ => middleRng) (gaussEnv 0) plainEnv.devices _ (C117_after_build hc) {}
  rw [h1] at hr
  unfold Session.rate at hr
  cases hX : p.experiment (gaussEnv 0) x with
  | error e => simp only [hX] at hr; cases hr
  | ok X => exact ⟨_, X, C117_after_build hc, hX⟩

/-- `build` followed by `run` never gives a rate: `run` returns `None` (C68). -/
theorem C68_build_run (gen : Int → Rng ℚ) (env : BuildEnv) (devices : List (List Char)) (x : ExperimentConf ℚ) (b : BuiltParts ℚ ErrPair BuiltDecoder) (q : ℚ) :
    x.buildAndRun gen env devices b ≠ .ok (some q) := by
  intro h
  unfold ExperimentConf.buildAndRun at h
  split at h
  · cases h
  split at h
  · cases h
  split at h
  · cases h
  · cases h
  rw [C68_always_none] at h
  cases h

/-- What `commutator_sign` computes of a row of bytes is the commutator of the operator with the parities. -/
theorem C99_bytes {n : Nat} (b : ByteOp n) (p : Op n) :
    anti b.parity p = decide ((∑ q, (b.x q * bit (p.z q) + b.z q * bit (p.x q))) % 2 = 1) := by
  have key : (∑ q, (b.x q * bit (p.z q) + b.z q * bit (p.x q))) % 2 = (∑ q, (bit (b.parity.x q) * bit (p.z q) + bit (b.parity.z q) * bit (p.x q))) % 2 := by
    rw [Finset.sum_nat_mod, Finset.sum_nat_mod (f := fun q => bit (b.parity.x q) * bit (p.z q) + bit (b.parity.z q) * bit (p.x q))]
    congr 1
    refine Finset.sum_congr rfl fun q _ => ?_
    have hx : bit (b.parity.x q) = b.x q % 2 := by
      unfold bit ByteOp.parity; simp only [decide_eq_true_eq]; split <;> omega
    have hz : bit (b.parity.z q) = b.z q % 2 := by
      unfold bit ByteOp.parity; simp only [decide_eq_true_eq]; split <;> omega
    rw [hx, hz, Nat.add_mod (b.x q * _), Nat.add_mod (b.x q % 2 * _), Nat.mod_mul_mod, Nat.mod_mul_mod]
  rw [key]
  rfl

example : anti (ByteOp.parity ⟨fun _ => 255, fun _ => 2⟩ : Op 1) ⟨fun _ => true, fun _ => true, false⟩ = true := by
  rw [C99_bytes]; decide

end Plaquette
