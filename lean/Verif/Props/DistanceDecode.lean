import Verif.Lemmas.DistanceDecode
import Verif.Props.Threshold
import Verif.Props.FabricationDistance

/-!
# Matching corrects fewer faults than half the distance, on every code (C126)
-/

namespace Plaquette

/-- **C126** Whatever the code is (its distance is at least `d`, and it has a syndrome graph), both matching decoders undo every set of faults whose letters
and errors together are fewer than `d`. -/
theorem C126_distance {n : Nat} {code : StabCode n} {d : Nat} (hd : ∀ e, code.IsLogical e → d ≤ e.weight) {r : Nat} {g : SynGraph FW}
    (hg : mkSynGraph FW.isInf r code.stabilisers none = .ok g) {σ : Type} {b : Backend FW σ} {lossy : Bool} (hb : Fewest lossy b) (f : Faults n)
    {syn : Option (List (List Bool))} (hsyn : ShapeOk r code.stabilisers.length syn) (hf : f.Shows r code.stabilisers syn)
    (hfew : f.letters r code.stabilisers.length + f.errors r < d) :
    ∃ states p, setupAll b g = .ok states ∧ decode b g n states none syn = .ok p ∧ f.Corrected r code.stabilisers p ∧ f.Corrected r code.logicalOps p := by
  obtain ⟨states, hst, hsound, hdec⟩ := hb n r code.stabilisers g hg
  have her : ShapeOk r n none := by intro a h; cases h
  obtain ⟨p, hp, sel, h1, h2, h3⟩ := hdec none syn her hsyn (fun _ t q => by simp [SynBit]) (shows_explainable hf hg hsyn)
  obtain ⟨er, he, hbe⟩ := arrayOr_ok her
  have hle := h3 er he _ (rep_explain hf hg hsyn)
  have hno : ∀ i, ¬ edgeErased g er i = true := by
    intro i hi
    rw [edgeErased_iff hbe] at hi
    obtain ⟨_, _, _, _, _, _, _, hs⟩ := hi
    simp [SynBit] at hs
  simp only [if_neg (hno _), Finset.sum_const, nsmul_eq_mul, mul_one, Nat.cast_le] at hle
  have hs : f.Corrected r code.stabilisers p := by
    intro gen hgen
    obtain ⟨s, hs⟩ := List.getElem?_of_mem hgen
    rw [← shows_total hf hs, ← C38_correction hg hsound hp s gen hs, anticommutes_iff, anticommutes_iff, anti_symm]
  refine ⟨states, p, hst, hp, hs, light_corrected hd hs ?_⟩
  have hw := residual_weight (f := f) h2 r
  have hc := rep_card f hg
  omega

/-- **C126** In particular fewer letters than half the distance. -/
theorem C126_half {n : Nat} {code : StabCode n} {d : Nat} (hd : ∀ e, code.IsLogical e → d ≤ e.weight) {r : Nat} {g : SynGraph FW}
    (hg : mkSynGraph FW.isInf r code.stabilisers none = .ok g) {σ : Type} {b : Backend FW σ} {lossy : Bool} (hb : Fewest lossy b) (f : Faults n)
    {syn : Option (List (List Bool))} (hsyn : ShapeOk r code.stabilisers.length syn) (hf : f.Shows r code.stabilisers syn)
    (hfew : 2 * f.letters r code.stabilisers.length < d) :
    ∃ states p, setupAll b g = .ok states ∧ decode b g n states none syn = .ok p ∧ f.Corrected r code.stabilisers p ∧ f.Corrected r code.logicalOps p := by
  refine C126_distance hd hg hb f hsyn hf (lt_of_le_of_lt ?_ hfew)
  have : f.errors r ≤ f.letters r code.stabilisers.length := errors_le_letters f r _
  omega

/-- **C126** Codes with fabrication errors: if `size` is the distance of the code and `k` data qubits have been removed, matching corrects fewer
than `(size - k) / 2` letters of faults. -/
theorem C126_fabricated {L L' : Lattice} (h : L.CssFabricated) (ha : L.AfterErrors L') {r : Nat} {c c' : LatCode} (hc : mkLatCode L r = .ok c)
    (hc' : mkLatCode L' r = .ok c') {d : Nat} (hd : c.code.HasDistance d) {σ : Type} {b : Backend FW σ} {lossy : Bool} (hb : Fewest lossy b)
    (rounds : Nat) (f : Faults c'.n) {syn : Option (List (List Bool))} (hsyn : ShapeOk rounds c'.code.stabilisers.length syn)
    (hf : f.Shows rounds c'.code.stabilisers syn) (hfew : 2 * f.letters rounds c'.code.stabilisers.length + (c.n - c'.n) < d) :
    ∃ g states p, mkSynGraph FW.isInf rounds c'.code.stabilisers none = .ok g ∧ setupAll b g = .ok states ∧
      decode b g c'.n states none syn = .ok p ∧ f.Corrected rounds c'.code.stabilisers p ∧ f.Corrected rounds c'.code.logicalOps p := by
  obtain ⟨g, hg⟩ := C124_graph (afterErrors_back h ha).1 hc' FW.isInf rounds
  obtain ⟨states, p, h1⟩ := C126_half (code := c'.code) (d := d - (c.n - c'.n)) (fun e he => by
    obtain ⟨e0, k1, k2⟩ := C125_lift h ha hc hc' e he
    have := hd.least e0 k1
    omega) hg hb f hsyn hf (by omega)
  exact ⟨g, states, p, hg, h1⟩

/-- **C126** PyMatching. -/
theorem C126_pymatching {L L' : Lattice} (h : L.CssFabricated) (ha : L.AfterErrors L') {r : Nat} {c c' : LatCode} (hc : mkLatCode L r = .ok c)
    (hc' : mkLatCode L' r = .ok c') {d : Nat} (hd : c.code.HasDistance d) {solve : PmGraph → List Bool → Except Err (List Bool)} (hS : IsPyMatching solve)
    (rounds : Nat) (f : Faults c'.n) {syn : Option (List (List Bool))} (hsyn : ShapeOk rounds c'.code.stabilisers.length syn)
    (hf : f.Shows rounds c'.code.stabilisers syn) (hfew : 2 * f.letters rounds c'.code.stabilisers.length + (c.n - c'.n) < d) :
    ∃ g states p, mkSynGraph FW.isInf rounds c'.code.stabilisers none = .ok g ∧ setupAll (pmBackend solve) g = .ok states ∧
      decode (pmBackend solve) g c'.n states none syn = .ok p ∧ f.Corrected rounds c'.code.stabilisers p ∧ f.Corrected rounds c'.code.logicalOps p :=
  C126_fabricated h ha hc hc' hd (pm_fewest hS) rounds f hsyn hf hfew

/-- **C126** Fusion blossom. -/
theorem C126_fusionBlossom {L L' : Lattice} (h : L.CssFabricated) (ha : L.AfterErrors L') {r : Nat} {c c' : LatCode} (hc : mkLatCode L r = .ok c)
    (hc' : mkLatCode L' r = .ok c') {d : Nat} (hd : c.code.HasDistance d) {solve : FbGraph → List Nat → List Nat → Except Err (List Nat)}
    (hS : IsFusionBlossom solve) (rounds : Nat) (f : Faults c'.n) {syn : Option (List (List Bool))} (hsyn : ShapeOk rounds c'.code.stabilisers.length syn)
    (hf : f.Shows rounds c'.code.stabilisers syn) (hfew : 2 * f.letters rounds c'.code.stabilisers.length + (c.n - c'.n) < d) :
    ∃ g states p, mkSynGraph FW.isInf rounds c'.code.stabilisers none = .ok g ∧ setupAll (fbBackend solve) g = .ok states ∧
      decode (fbBackend solve) g c'.n states none syn = .ok p ∧ f.Corrected rounds c'.code.stabilisers p ∧ f.Corrected rounds c'.code.logicalOps p :=
  C126_fabricated h ha hc hc' hd (fb_fewest hS) rounds f hsyn hf hfew

/-! ## The hypotheses are met

The rotated code of size 4 without one qubit, and the error `X` on the first qubit. -/

/-- One qubit of the rotated code of size 4 is missing. -/
def rotatedHole4 : Except Err Lattice :=
  match rotatedLattice 4 false diagOrder with
  | .ok L => L.applyFabrication [.pos (3, 3)] [] [] none none
  | .error e => .error e

set_option maxRecDepth 100000 in
theorem hole4_syndrome : (match rotatedHole4 with
    | .ok L => L.isGood && decide (L.dataqubits.length = 15) && (L.code.stabilisers.map fun s => anti s (flips [0])).any id
    | .error _ => false) = true := by decide +kernel

example : ∃ L L' c c', ∃ f : Faults c'.n, ∃ syn, L.CssFabricated ∧ L.AfterErrors L' ∧ mkLatCode L 1 = .ok c ∧ mkLatCode L' 1 = .ok c' ∧ c.code.HasDistance 4 ∧
    c'.n < c.n ∧ ShapeOk 1 c'.code.stabilisers.length (some syn) ∧ f.Shows 1 c'.code.stabilisers (some syn) ∧ (∃ row ∈ syn, true ∈ row) ∧
    2 * f.letters 1 c'.code.stabilisers.length + (c.n - c'.n) < 4 := by
  have h := hole4_syndrome
  cases hm : rotatedHole4 with
  | error e => rw [hm] at h; simp at h
  | ok L' =>
    rw [hm] at h
    simp only [Bool.and_eq_true, decide_eq_true_eq] at h
    obtain ⟨hw, _, hf⟩ := isGood_spec h.1.1
    unfold rotatedHole4 at hm
    cases h0 : rotatedLattice 4 false diagOrder with
    | error e => rw [h0] at hm; simp at hm
    | ok L =>
      rw [h0] at hm
      obtain ⟨c, hc, hd⟩ := C60_rotated 1 4 false (by omega)
      rw [makeRotated, h0] at hc
      have hcn : c.n = 16 := by
        obtain ⟨-, rfl⟩ := mkLatCode_inv (cssFabricated_wf (.rotated (by omega) h0)) hc
        rw [Rotated.make (by omega) diagOrder (by decide), Except.ok.injEq] at h0
        subst h0
        decide +kernel
      refine ⟨L, L', c, L'.latCode 1, ⟨fun _ => flips [0], fun _ _ => False⟩, [L'.code.stabilisers.map fun s => anti s (flips [0])],
        .rotated (by omega) h0, .errors .none (Or.inl rfl) hm, hc, mkLatCode_ok hw hf 1, hd, ?_, ?_, ?_, ?_, ?_⟩
      · rw [hcn]
        exact lt_of_eq_of_lt h.1.2 (by omega)
      · intro a ha
        cases ha
        refine ⟨rfl, fun row hr => ?_⟩
        rw [List.mem_singleton.1 hr, List.length_map]
      · refine ⟨fun _ _ _ h => h, fun t ht s gen hs => ?_⟩
        obtain rfl : t = 0 := by omega
        rw [anticommutes_iff]
        constructor
        · rintro ⟨a, row, ha, hr, hb⟩
          cases ha
          cases hr
          rw [List.getElem?_map, show L'.code.stabilisers[s]? = some gen from hs] at hb
          exact .inl ⟨(by simpa using hb : anti gen (flips [0]) = true), by simp [Xor]⟩
        · rintro (⟨h, _⟩ | ⟨h, _⟩)
          · refine ⟨_, _, rfl, rfl, ?_⟩
            rw [List.getElem?_map, show L'.code.stabilisers[s]? = some gen from hs]
            exact congrArg some h
          · simp [Xor] at h
      · refine ⟨_, List.mem_singleton.2 rfl, ?_⟩
        obtain ⟨x, hx, hx'⟩ := List.any_eq_true.1 h.2
        rw [show x = true from hx'] at hx
        exact hx
      · have h1 : {p : Nat × Fin (L'.latCode 1).n | p.1 < 1 ∧ (flips [0] : Op (L'.latCode 1).n).x p.2 = true} ⊆ {(0, ⟨0, by
            have : (L'.latCode 1).n = 15 := h.1.2
            omega⟩)} := by
          rintro ⟨t, q⟩ ⟨ht, hq⟩
          simp only [flips, List.mem_singleton, decide_eq_true_eq] at hq
          have ht' : t < 1 := ht
          obtain rfl : t = 0 := by omega
          exact Prod.ext rfl (Fin.ext hq)
        have h2 := (Set.ncard_le_ncard h1 (Set.finite_singleton _)).trans_eq (Set.ncard_singleton _)
        have h3 : {p : Nat × Fin (L'.latCode 1).n | p.1 < 1 ∧ (flips [0] : Op (L'.latCode 1).n).z p.2 = true} = ∅ := by
          ext p; simp [flips]
        have h4 : {p : Nat × Nat | p.1 < 1 ∧ p.2 < (L'.latCode 1).code.stabilisers.length ∧ False} = ∅ := by
          ext p; simp
        have h5 : (L'.latCode 1).n = 15 := h.1.2
        have h6 : Faults.letters (⟨fun _ => flips [0], fun _ _ => False⟩ : Faults (L'.latCode 1).n) 1 (L'.latCode 1).code.stabilisers.length ≤ 1 + 0 + 0 :=
          Nat.add_le_add (Nat.add_le_add h2 ((congrArg Set.ncard h3).trans (Set.ncard_empty _)).le) ((congrArg Set.ncard h4).trans (Set.ncard_empty _)).le
        have h7 : c.n - (L'.latCode 1).n = 1 := by rw [hcn, h5]
        rw [h7]
        exact lt_of_le_of_lt (Nat.add_le_add_right (Nat.mul_le_mul_left 2 h6) 1) (by decide)

end Plaquette
