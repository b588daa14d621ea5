import Verif.Lemmas.FabricationDistance
import Verif.Spec.FabricationChain
import Verif.Props.FabricationDecode

/-!
# The distance of codes with fabrication errors (C125)
-/

namespace Plaquette

theorem afterErrors_back {L L' : Lattice} (h : L.CssFabricated) (ha : L.AfterErrors L') : L'.CssFabricated ∧ L'.dataqubits.length ≤ L.dataqubits.length ∧
    ∀ e' : Op L'.dataqubits.length, L'.code.IsLogical e' →
      ∃ e : Op L.dataqubits.length, L.code.IsLogical e ∧ e.weight ≤ e'.weight + (L.dataqubits.length - L'.dataqubits.length) := by
  induction ha with
  | none => exact ⟨h, le_rfl, fun e he => ⟨e, he, by omega⟩⟩
  | @errors M M' qubits gates stabs kg bj _ hk hM ih =>
    obtain ⟨h1, h2, h3⟩ := ih
    have hle : M'.dataqubits.length ≤ M.dataqubits.length := by
      obtain ⟨qs, _, hd, _⟩ := apply_back (cssKept h1) hk hM
      rw [hd]
      exact List.length_filter_le ..
    refine ⟨.errors h1 hk hM, hle.trans h2, fun e' he' => ?_⟩
    obtain ⟨e1, k1, k2⟩ := logical_back h1 hk hM e' he'
    obtain ⟨e, k3, k4⟩ := h3 e1 k1
    exact ⟨e, k3, by omega⟩

/-- **C125** Every undetected logical error of a code with fabrication errors comes from an undetected logical error of the code before; in
addition this acts at most on the removed qubits. -/
theorem C125_lift {L L' : Lattice} (h : L.CssFabricated) (ha : L.AfterErrors L') {r : Nat} {c c' : LatCode} (hc : mkLatCode L r = .ok c)
    (hc' : mkLatCode L' r = .ok c') (e' : Op c'.n) (he' : c'.code.IsLogical e') :
    ∃ e : Op c.n, c.code.IsLogical e ∧ e.weight ≤ e'.weight + (c.n - c'.n) := by
  obtain ⟨h1, _, h3⟩ := afterErrors_back h ha
  obtain ⟨-, rfl⟩ := mkLatCode_inv (cssFabricated_wf h) hc
  obtain ⟨-, rfl⟩ := mkLatCode_inv (cssFabricated_wf h1) hc'
  exact h3 e' he'

/-- **C125** So a removed data qubit lowers the distance by at most one. -/
theorem C125_distance {L L' : Lattice} (h : L.CssFabricated) (ha : L.AfterErrors L') {r : Nat} {c c' : LatCode} (hc : mkLatCode L r = .ok c)
    (hc' : mkLatCode L' r = .ok c') {d d' : Nat} (hd : c.code.HasDistance d) (hd' : c'.code.HasDistance d') : c'.n ≤ c.n ∧ d ≤ d' + (c.n - c'.n) := by
  refine ⟨?_, ?_⟩
  · obtain ⟨h1, h2, _⟩ := afterErrors_back h ha
    obtain ⟨-, rfl⟩ := mkLatCode_inv (cssFabricated_wf h) hc
    obtain ⟨-, rfl⟩ := mkLatCode_inv (cssFabricated_wf h1) hc'
    exact h2
  · obtain ⟨e', h1, rfl⟩ := hd'.attained
    obtain ⟨e, h2, h3⟩ := C125_lift h ha hc hc' e' h1
    exact (hd.least e h2).trans h3

/-- **C125** The planar code of any size. -/
theorem C125_planar {size : Nat} (h2 : 2 ≤ size) {L L' : Lattice} (hL : planarLattice size crossOrder = .ok L) (ha : L.AfterErrors L') {r : Nat} {c' : LatCode}
    (hc' : mkLatCode L' r = .ok c') (e' : Op c'.n) (he' : c'.code.IsLogical e') : size ≤ e'.weight + (L.dataqubits.length - c'.n) := by
  obtain ⟨c, hc, hd⟩ := C60_planar r size h2
  rw [makePlanar, hL] at hc
  obtain ⟨e, h3, h4⟩ := C125_lift (.planar h2 hL) ha hc hc' e' he'
  obtain ⟨-, rfl⟩ := mkLatCode_inv (cssFabricated_wf (.planar h2 hL)) hc
  exact (hd.least e h3).trans h4

/-- **C125** The toric code of any size. -/
theorem C125_toric {size : Nat} (h2 : 2 ≤ size) {L L' : Lattice} (hL : toricLattice size crossOrder = .ok L) (ha : L.AfterErrors L') {r : Nat} {c' : LatCode}
    (hc' : mkLatCode L' r = .ok c') (e' : Op c'.n) (he' : c'.code.IsLogical e') : size ≤ e'.weight + (L.dataqubits.length - c'.n) := by
  obtain ⟨c, hc, hd⟩ := C60_toric r size h2
  rw [makeToric, hL] at hc
  obtain ⟨e, h3, h4⟩ := C125_lift (.toric h2 hL) ha hc hc' e' he'
  obtain ⟨-, rfl⟩ := mkLatCode_inv (cssFabricated_wf (.toric h2 hL)) hc
  exact (hd.least e h3).trans h4

/-- **C125** The rotated code and the XZZX code of any size. -/
theorem C125_rotated {size : Nat} {xzzx : Bool} (h2 : 2 ≤ size) {L L' : Lattice} (hL : rotatedLattice size xzzx diagOrder = .ok L) (ha : L.AfterErrors L') {r : Nat}
    {c' : LatCode} (hc' : mkLatCode L' r = .ok c') (e' : Op c'.n) (he' : c'.code.IsLogical e') : size ≤ e'.weight + (L.dataqubits.length - c'.n) := by
  obtain ⟨c, hc, hd⟩ := C60_rotated r size xzzx h2
  rw [makeRotated, hL] at hc
  obtain ⟨e, h3, h4⟩ := C125_lift (.rotated h2 hL) ha hc hc' e' he'
  obtain ⟨-, rfl⟩ := mkLatCode_inv (cssFabricated_wf (.rotated h2 hL)) hc
  exact (hd.least e h3).trans h4

/-! ## The bound is attained -/

theorem hole_logical : (match rotatedHole with
    | .ok L => L.isGood && decide (L.dataqubits.length = 8) && (L.code.stabilisers.all fun s => !anti s (flips [1, 6])) &&
        (L.code.logicalOps.any fun s => anti s (flips [1, 6])) && decide ((flips [1, 6] : Op L.dataqubits.length).weight = 2)
    | .error _ => false) = true := by decide +kernel

/-- **C125** The middle qubit of the rotated code of size 3 lowers the distance from 3 to 2. -/
theorem C125_tight : ∃ L L' c c', rotatedLattice 3 false diagOrder = .ok L ∧ L.AfterErrors L' ∧ mkLatCode L 1 = .ok c ∧ mkLatCode L' 1 = .ok c' ∧
    c.n = c'.n + 1 ∧ c.code.HasDistance 3 ∧ c'.code.HasDistance 2 := by
  have h := hole_logical
  cases hm : rotatedHole with
  | error e => rw [hm] at h; simp at h
  | ok L' =>
    rw [hm] at h
    simp only [Bool.and_eq_true, decide_eq_true_eq] at h
    obtain ⟨⟨⟨⟨h1, h2⟩, h3⟩, h4⟩, h5⟩ := h
    obtain ⟨hw, _, hf⟩ := isGood_spec h1
    unfold rotatedHole at hm
    cases h0 : rotatedLattice 3 false diagOrder with
    | error e => rw [h0] at hm; simp at hm
    | ok L =>
      rw [h0] at hm
      have ha : L.AfterErrors L' := .errors .none (Or.inl rfl) hm
      have hc' := mkLatCode_ok hw hf 1
      obtain ⟨c, hc, hd⟩ := C60_rotated 1 3 false (by omega)
      rw [makeRotated, h0] at hc
      have hn : L.dataqubits.length = 9 := by
        rw [Rotated.make (by omega) diagOrder (by decide), Except.ok.injEq] at h0
        subst h0
        decide +kernel
      have hlog : (L'.latCode 1).code.IsLogical (flips [1, 6]) := by
        refine ⟨fun a hm => ?_, ?_⟩
        · rw [commutes_iff]
          simpa using List.all_eq_true.1 h3 a hm
        · obtain ⟨a, hm, ha⟩ := List.any_eq_true.1 h4
          exact ⟨a, hm, (anticommutes_iff _ _).2 ha⟩
      have hcn : c.n = 9 := by
        obtain ⟨-, rfl⟩ := mkLatCode_inv (cssFabricated_wf (.rotated (by omega) h0)) hc
        exact hn
      refine ⟨L, L', c, L'.latCode 1, rfl, ha, hc, hc', ?_, hd, ⟨_, hlog, h5⟩, fun e he => ?_⟩
      · rw [hcn]
        exact congrArg (· + 1) h2.symm
      · have := C125_rotated (by omega) h0 ha hc' e he
        rw [hn] at this
        have h8 : (L'.latCode 1).n = 8 := h2
        have h9 : 3 ≤ e.weight + (9 - 8) := by rw [← h8]; exact this
        omega

end Plaquette
