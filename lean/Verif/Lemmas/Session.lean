import Verif.Model.Config

/-!
# What `build` builds (C116, C117)
-/

namespace Plaquette
variable {F E D : Type}

/-- The five objects belong to the configuration. -/
structure Matches (mk : Makers F E D) (devices : List (List Char)) (x : ExperimentConf F) (g : General) (c : LatCode) (ed : E) (circ : List (Gate F)) (dev : List Char) (dec : D) : Prop where
  general : x.general = some g
  code : x.code.instantiate = .ok c
  errors : mk.errors x.errors c = .ok ed
  circuit : x.circuit.instantiate mk (some c) (some ed) g.logicalOp = .ok circ
  device : x.device.instantiate devices = .ok dev
  check : x.decoder.check = .ok ()
  decoder : mk.decoder x.decoder c ed = .ok dec

/-- `build` gives the objects of the configuration, and replaces all that was there before. -/
theorem build_iff (mk : Makers F E D) (devices : List (List Char)) (x : ExperimentConf F) (b p : BuiltParts F E D) :
    x.build mk devices b = .ok p ↔ ∃ g c ed circ dev dec, Matches mk devices x g c ed circ dev dec ∧ p = ⟨some c, some ed, some dev, some circ, some dec⟩ := by
  constructor
  · intro h
    unfold ExperimentConf.build at h
    split at h
    · cases h
    next s hs =>
    cases hg : x.general with
    | none => unfold ExperimentConf.updateRng at hs; rw [hg] at hs; cases hs
    | some g =>
      split at h
      · cases h
      next b1 h1 =>
      unfold ExperimentConf.buildCode at h1
      split at h1
      · cases h1
      next c hc =>
      cases h1
      split at h
      · cases h
      next b2 h2 =>
      unfold ExperimentConf.buildErrors at h2
      dsimp only at h2
      split at h2
      · cases h2
      next ed hed =>
      cases h2
      split at h
      · cases h
      next b3 h3 =>
      unfold ExperimentConf.buildCircuit at h3
      rw [hg] at h3
      dsimp only at h3
      split at h3
      · cases h3
      next circ hcirc =>
      cases h3
      split at h
      · cases h
      next b4 h4 =>
      unfold ExperimentConf.buildDevice at h4
      split at h4
      · cases h4
      next dev hdev =>
      cases h4
      unfold ExperimentConf.buildDecoder at h
      split at h
      · cases h
      next hcheck =>
      dsimp only at h
      split at h
      · cases h
      next dec hdec =>
      cases h
      exact ⟨g, c, ed, circ, dev, dec, ⟨hg, hc, hed, hcirc, hdev, hcheck, hdec⟩, rfl⟩
  · rintro ⟨g, c, ed, circ, dev, dec, h, rfl⟩
    unfold ExperimentConf.build ExperimentConf.updateRng ExperimentConf.buildCode
    rw [h.general, h.code]
    dsimp only
    unfold ExperimentConf.buildErrors
    dsimp only
    rw [h.errors]
    dsimp only
    unfold ExperimentConf.buildCircuit
    rw [h.general]
    dsimp only
    rw [h.circuit]
    dsimp only
    unfold ExperimentConf.buildDevice
    rw [h.device]
    dsimp only
    unfold ExperimentConf.buildDecoder
    rw [h.check]
    dsimp only
    rw [h.decoder]

end Plaquette
