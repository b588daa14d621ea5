import Verif.Lemmas.FabricationDecode
import Verif.Props.FabricationCircuit
import Verif.Props.Correction

/-!
# Decoding codes with fabrication errors (C124)
-/

namespace Plaquette

/-- **C124** Merging stabilisers does not make the code harder to decode: whatever data qubits of a planar, toric, rotated, XZZX, repetition or Shor code
are removed, and however gauge operators and the boundary are treated, an error `X` or `Z` on one qubit flips at most two stabilisers. -/
theorem C124_flips {L : Lattice} (h : L.CssFabricated) {r : Nat} {c : LatCode} (hc : mkLatCode L r = .ok c) (isX : Bool) (q : Fin c.n) :
    numFlipped c.code.stabilisers (errorOn isX q) ≤ 2 := by
  have hw := cssFabricated_wf h
  obtain ⟨φ, hcss⟩ := (cssKept h).css
  obtain ⟨-, rfl⟩ := mkLatCode_inv hw hc
  rw [numFlipped_eq]
  cases isX
  · exact hw.flipped_le (css_twoAt hcss (b := .X) (by rintro ⟨⟩ <;> simp)) q
  · exact hw.flipped_le (css_twoAt hcss (b := .Z) (by rintro ⟨⟩ <;> simp)) q

/-- **C124** So the code has a syndrome graph for every number of rounds. -/
theorem C124_graph {L : Lattice} (h : L.CssFabricated) {r : Nat} {c : LatCode} (hc : mkLatCode L r = .ok c) {W : Type} [LinearOrder W] (isInf : W → Bool)
    (rounds : Nat) : ∃ g, mkSynGraph isInf rounds c.code.stabilisers none = .ok g := by
  refine C32_defined.mpr ⟨?_, Or.inr fun isX q => C124_flips h hc isX q⟩
  obtain ⟨hf, rfl⟩ := mkLatCode_inv (cssFabricated_wf h) hc
  simpa [Lattice.code] using hf.stab_ne

/-- **C124** And the decoders answer the syndrome of every set of faults, with erasures on any qubits if they accept erasures, with a correction that
anticommutes with exactly the stabilisers that anticommute with the errors of all rounds together. -/
theorem C124_decode {L : Lattice} (h : L.CssFabricated) {r : Nat} {c : LatCode} (hc : mkLatCode L r = .ok c) {σ : Type} {b : Backend FW σ} {K : Nat} {lossy : Bool}
    (hb : Few K lossy b) (rounds : Nat) (f : Faults c.n) {erased syn : Option (List (List Bool))} (her : ShapeOk rounds c.n erased)
    (hsyn : ShapeOk rounds c.code.stabilisers.length syn) (hE : lossy = false → ∀ t q, ¬ SynBit erased t q) (hf : f.Shows rounds c.code.stabilisers syn) :
    ∃ g states p, mkSynGraph FW.isInf rounds c.code.stabilisers none = .ok g ∧ setupAll b g = .ok states ∧
      decode b g c.n states erased syn = .ok p ∧ f.Corrected rounds c.code.stabilisers p := by
  obtain ⟨g, hg⟩ := C124_graph h hc FW.isInf rounds
  obtain ⟨states, hst, hsound, _, hdec⟩ := hb.2 _ _ _ g hg
  obtain ⟨p, hp⟩ := hdec erased syn her hsyn hE (shows_explainable hf hg hsyn)
  refine ⟨g, states, p, hg, hst, hp, fun gen hgen => ?_⟩
  obtain ⟨s, hs⟩ := List.getElem?_of_mem hgen
  rw [← shows_total hf hs, ← C38_correction hg hsound hp s gen hs, anticommutes_iff, anticommutes_iff, anti_symm]

/-- **C124** Union find in both variants. -/
theorem C124_unionFind {L : Lattice} (h : L.CssFabricated) {r : Nat} {c : LatCode} (hc : mkLatCode L r = .ok c) (support : Bool) (rounds : Nat) (f : Faults c.n)
    {erased syn : Option (List (List Bool))} (her : ShapeOk rounds c.n erased) (hsyn : ShapeOk rounds c.code.stabilisers.length syn)
    (hf : f.Shows rounds c.code.stabilisers syn) :
    ∃ g states p, mkSynGraph FW.isInf rounds c.code.stabilisers none = .ok g ∧ setupAll (ufBackend support) g = .ok states ∧
      decode (ufBackend support) g c.n states erased syn = .ok p ∧ f.Corrected rounds c.code.stabilisers p :=
  C124_decode h hc (uf_few support) rounds f her hsyn (fun h => by cases h) hf

/-- **C124** PyMatching, which does not accept erasures. -/
theorem C124_pymatching {L : Lattice} (h : L.CssFabricated) {r : Nat} {c : LatCode} (hc : mkLatCode L r = .ok c)
    {solve : PmGraph → List Bool → Except Err (List Bool)} (hS : IsPyMatching solve) (rounds : Nat) (f : Faults c.n) {syn : Option (List (List Bool))}
    (hsyn : ShapeOk rounds c.code.stabilisers.length syn) (hf : f.Shows rounds c.code.stabilisers syn) :
    ∃ g states p, mkSynGraph FW.isInf rounds c.code.stabilisers none = .ok g ∧ setupAll (pmBackend solve) g = .ok states ∧
      decode (pmBackend solve) g c.n states none syn = .ok p ∧ f.Corrected rounds c.code.stabilisers p :=
  C124_decode h hc (pm_few hS) rounds f (by intro a h; cases h) hsyn (fun _ t q => by simp [SynBit]) hf

/-- **C124** Fusion blossom. -/
theorem C124_fusionBlossom {L : Lattice} (h : L.CssFabricated) {r : Nat} {c : LatCode} (hc : mkLatCode L r = .ok c)
    {solve : FbGraph → List Nat → List Nat → Except Err (List Nat)} (hS : IsFusionBlossom solve) (rounds : Nat) (f : Faults c.n)
    {erased syn : Option (List (List Bool))} (her : ShapeOk rounds c.n erased) (hsyn : ShapeOk rounds c.code.stabilisers.length syn)
    (hf : f.Shows rounds c.code.stabilisers syn) :
    ∃ g states p, mkSynGraph FW.isInf rounds c.code.stabilisers none = .ok g ∧ setupAll (fbBackend solve) g = .ok states ∧
      decode (fbBackend solve) g c.n states erased syn = .ok p ∧ f.Corrected rounds c.code.stabilisers p :=
  C124_decode h hc (fb_few hS) rounds f her hsyn (fun h => by cases h) hf

/-! ## The hypotheses are met

The rotated code of size 3 without its middle qubit, and the error `X` on the first qubit. -/

theorem hole_syndrome : (match rotatedHole with
    | .ok L => L.isGood && decide (L.dataqubits.length = 8) && (L.code.stabilisers.map fun s => anti s (flips [0])).any id
    | .error _ => false) = true := by decide +kernel

example : ∃ L c, ∃ f : Faults c.n, ∃ syn, L.CssFabricated ∧ mkLatCode L 1 = .ok c ∧ c.n = 8 ∧ ShapeOk 1 c.code.stabilisers.length (some syn) ∧
    f.Shows 1 c.code.stabilisers (some syn) ∧ ∃ row ∈ syn, true ∈ row := by
  have h := hole_syndrome
  cases hm : rotatedHole with
  | error e => rw [hm] at h; simp at h
  | ok L =>
    rw [hm] at h
    simp only [Bool.and_eq_true, decide_eq_true_eq] at h
    obtain ⟨hw, _, hf⟩ := isGood_spec h.1.1
    have hF : L.CssFabricated := by
      unfold rotatedHole at hm
      cases h0 : rotatedLattice 3 false diagOrder with
      | error e => rw [h0] at hm; simp at hm
      | ok L0 =>
        rw [h0] at hm
        exact .errors (.rotated (size := 3) (by omega) h0) (Or.inl rfl) hm
    refine ⟨L, L.latCode 1, ⟨fun _ => flips [0], fun _ _ => False⟩, [L.code.stabilisers.map fun s => anti s (flips [0])], hF, mkLatCode_ok hw hf 1, h.1.2, ?_, ?_, ?_⟩
    · intro a ha
      cases ha
      refine ⟨rfl, fun row hr => ?_⟩
      rw [List.mem_singleton.1 hr, List.length_map]
    · refine ⟨fun _ _ _ h => h, fun t ht s gen hs => ?_⟩
      obtain rfl : t = 0 := by omega
      rw [anticommutes_iff]
      constructor
      · rintro ⟨a, row, ha, hr, hb⟩
        cases ha
        cases hr
        rw [List.getElem?_map, show L.code.stabilisers[s]? = some gen from hs] at hb
        exact .inl ⟨(by simpa using hb : anti gen (flips [0]) = true), by simp [Xor]⟩
      · rintro (⟨h, _⟩ | ⟨h, _⟩)
        · refine ⟨_, _, rfl, rfl, ?_⟩
          rw [List.getElem?_map, show L.code.stabilisers[s]? = some gen from hs]
          exact congrArg some h
        · simp [Xor] at h
    · refine ⟨_, List.mem_singleton.2 rfl, ?_⟩
      obtain ⟨x, hx, hx'⟩ := List.any_eq_true.1 h.2
      rw [show x = true from hx'] at hx
      exact hx

end Plaquette
