import Verif.Lemmas.PlanarDist
import Verif.Lemmas.ToricDist
import Verif.Lemmas.RotatedDist
import Verif.Lemmas.SmallDist
import Verif.Props.Generator
import Verif.Props.Syngraph

/-!
# Properties of all sizes of the code families (C59, C60)
-/

namespace Plaquette

/-! ### C59: every built-in code has a syndrome graph -/

theorem Made.twoAt {r : Nat} {c : LatCode} (h : Made r c) :
    ∃ L : Lattice, c = L.latCode r ∧ L.Wf ∧ L.Full ∧ L.TwoAt .X ∧ L.TwoAt .Z := by
  have fin : ∀ {x : Except Err Lattice} {L : Lattice}, x = .ok L → L.Wf → L.Full → L.TwoAt .X → L.TwoAt .Z →
      x.bind (fun L => mkLatCode L r) = .ok c → ∃ L : Lattice, c = L.latCode r ∧ L.Wf ∧ L.Full ∧ L.TwoAt .X ∧ L.TwoAt .Z := by
    rintro x L rfl hw hf h1 h2 h
    have h : mkLatCode L r = .ok c := h
    rw [mkLatCode_ok hw hf, Except.ok.injEq] at h
    exact ⟨L, h.symm, hw, hf, h1, h2⟩
  cases h with
  | planar h2 h =>
    exact fin (Planar.make _ h2 crossOrder (by decide)) (Planar.wf _ _ (by omega)) (Planar.full _ _ h2) (Planar.twoAt _ (by decide))
      (Planar.twoAt _ (by decide)) h
  | toric h2 h =>
    exact fin (Toric.make h2 crossOrder (by decide)) (Toric.wf _ h2) (Toric.full _ h2) (Toric.twoAt h2 _ (by decide))
      (Toric.twoAt h2 _ (by decide)) h
  | rotated h2 h =>
    exact fin (Rotated.make h2 diagOrder (by decide)) (Rotated.wf _ h2) (Rotated.full _ h2) (Rotated.twoAt h2 _ (by decide))
      (Rotated.twoAt h2 _ (by decide)) h
  | @repetition size _ h2 h =>
    by_cases hodd : size % 2 = 1
    · have h3 : 3 ≤ size := by omega
      exact fin (Rep.make size hodd h3) (Rep.wf size h3) (Rep.full size h3) (Rep.twoAt _) (Rep.twoAt _) h
    · rw [makeRepetition, repetitionLattice, if_pos hodd] at h
      cases h
  | fiveQubit h =>
    obtain ⟨L, hL, hw, hc, hf⟩ := goodResult_spec five_good
    have := five_two
    rw [hL, Bool.and_eq_true] at this
    exact fin hL hw hf (twoAtResult_spec this.1) (twoAtResult_spec this.2) h
  | shor h =>
    obtain ⟨L, hL, hw, hc, hf⟩ := goodResult_spec shor_good
    have := shor_two
    rw [hL, Bool.and_eq_true] at this
    exact fin hL hw hf (twoAtResult_spec this.1) (twoAtResult_spec this.2) h

/-- **C59** On every code made by the class methods of `LatticeCode`, an error `X` or `Z` on one data qubit anticommutes with at most two
stabilisers. -/
theorem C59_flips {r : Nat} {c : LatCode} (h : Made r c) (isX : Bool) (q : Fin c.n) :
    numFlipped c.code.stabilisers (errorOn isX q) ≤ 2 := by
  obtain ⟨L, rfl, hw, _, h1, h2⟩ := h.twoAt
  rw [numFlipped_eq]
  cases isX
  · exact hw.flipped_le h2 q
  · exact hw.flipped_le h1 q

/-- **C59** Therefore every such code has a syndrome graph, for every number of rounds. -/
theorem C59_graph {r : Nat} {c : LatCode} (h : Made r c) {W : Type} [LinearOrder W] (isInf : W → Bool) (rounds : Nat) :
    ∃ g, mkSynGraph isInf rounds c.code.stabilisers none = .ok g := by
  refine C32_defined.mpr ⟨?_, Or.inr fun isX q => C59_flips h isX q⟩
  obtain ⟨L, rfl, _, hf, _⟩ := h.twoAt
  simpa [Lattice.latCode, Lattice.code] using hf.stab_ne

/-- The hypothesis is met, e.g. by the XZZX code of size 5. -/
example : ∃ c, makeRotated 5 5 true = .ok c ∧ Made 5 c := by
  obtain ⟨c, h, _⟩ := C30_rotated 5 5 true (by omega)
  exact ⟨c, h, .rotated (by omega) h⟩

/-! ### C60: distances -/

theorem C60_planar (r size : Nat) (h2 : 2 ≤ size) : ∃ c, makePlanar r size = .ok c ∧ c.code.HasDistance size :=
  ⟨(Planar.lat size crossOrder).latCode r, by rw [makePlanar, Planar.make size h2 crossOrder (by decide)]; exact mkLatCode_ok (Planar.wf _ _ (by omega)) (Planar.full _ _ h2) r,
    Planar.distance (by omega)⟩

theorem C60_toric (r size : Nat) (h2 : 2 ≤ size) : ∃ c, makeToric r size = .ok c ∧ c.code.HasDistance size :=
  ⟨(Toric.lat size crossOrder).latCode r, by rw [makeToric, Toric.make h2 crossOrder (by decide)]; exact mkLatCode_ok (Toric.wf _ h2) (Toric.full _ h2) r,
    Toric.distance h2⟩

theorem C60_rotated (r size : Nat) (xzzx : Bool) (h2 : 2 ≤ size) : ∃ c, makeRotated r size xzzx = .ok c ∧ c.code.HasDistance size :=
  ⟨(Rotated.lat size xzzx diagOrder).latCode r, by rw [makeRotated, Rotated.make h2 diagOrder (by decide)]; exact mkLatCode_ok (Rotated.wf _ h2) (Rotated.full _ h2) r,
    Rotated.distance h2⟩

/-- The repetition code has the distance 1, because an error `Z` on one qubit is not seen; but errors that consist of factors `X` are
seen up to the weight `size - 1`, and the logical operator `X` has the weight `size`. -/
theorem C60_repetition (r size : Nat) (hodd : size % 2 = 1) (h3 : 3 ≤ size) : ∃ c, makeRepetition r size = .ok c ∧ c.code.HasDistance 1 ∧
    (∀ e, c.code.IsLogical e → (∀ q, e.z q = false) → size ≤ e.weight) ∧
    ∃ e, c.code.IsLogical e ∧ (∀ q, e.z q = false) ∧ e.weight = size := by
  have hw := Rep.wf size h3
  have hv := code_valid hw (Rep.comm size h3)
  refine ⟨(Rep.lat size).latCode r, by rw [makeRepetition, Rep.make size hodd h3]; exact mkLatCode_ok hw (Rep.full size h3) r, Rep.distance h3, ?_, ?_⟩
  · rintro e ⟨k1, a, ha, k2⟩ hz
    obtain ⟨l, hl, rfl⟩ := List.mem_map.mp ha
    refine Rep.bitflip h3 hz ?_ hl ((anticommutes_iff _ _).mp k2)
    intro st hst
    exact (commutes_iff _ _).mp (k1 _ (List.mem_map_of_mem (f := fun s => (Rep.lat size).vop s.1) hst))
  · have h0 : (Rep.lat size).code.logicalOps[0]? = some ((Rep.lat size).vop ((size : Int) - 1, 1)) := rfl
    have h1 : (Rep.lat size).code.logicalOps[1]? = some ((Rep.lat size).vop (2 * (size : Int) - 1, 0)) := rfl
    have hba := hv.log_log 1 0 _ _ h1 h0
    rw [if_pos (by decide)] at hba
    refine ⟨_, ⟨fun s hs => hv.stab_log s hs _ (List.mem_of_getElem? h0), _, List.mem_of_getElem? h1, hba⟩, ?_, ?_⟩
    · intro q
      show xorSum ((Rep.lat size).opEdges _) _ = false
      rw [Rep.op_x]
      refine xorSum_false fun e he => ?_
      simp only [Rep.xEdges, List.mem_map] at he
      obtain ⟨i, _, rfl⟩ := he
      simp [mkEdge, Letter.hasZ]
    · rw [hw.weight, Rep.op_x]
      simp [Rep.xEdges, Rep.cells, length_pyRange]
      omega

/-- The five-qubit code and the Shor code have the distance 3. -/
theorem C60_small (r : Nat) : (∃ c, makeFiveQubit r = .ok c ∧ c.code.HasDistance 3) ∧ ∃ c, makeShor r = .ok c ∧ c.code.HasDistance 3 := by
  obtain ⟨L, hL, hw, hc, hf⟩ := goodResult_spec five_good
  obtain ⟨L', hL', hw', hc', hf'⟩ := goodResult_spec shor_good
  have h5 := five_dist
  have h9 := shor_dist
  rw [hL] at h5
  rw [hL'] at h9
  refine ⟨⟨L.latCode r, ?_, distResult_spec hw h5⟩, ⟨L'.latCode r, ?_, distResult_spec hw' h9⟩⟩
  · rw [makeFiveQubit, hL]; exact mkLatCode_ok hw hf r
  · rw [makeShor, hL']; exact mkLatCode_ok hw' hf' r

/-- The hypotheses are met, e.g. by the toric code of size 4; its distance is not 3 or 5, so that the definition says something. -/
example : ∃ c, makeToric 2 4 = .ok c ∧ c.code.HasDistance 4 ∧ ¬ c.code.HasDistance 3 ∧ ¬ c.code.HasDistance 5 := by
  obtain ⟨c, h, hd⟩ := C60_toric 2 4 (by omega)
  refine ⟨c, h, hd, fun h3 => ?_, fun h5 => ?_⟩
  · obtain ⟨e, he, hw⟩ := h3.attained
    have := hd.least e he
    omega
  · obtain ⟨e, he, hw⟩ := hd.attained
    have := h5.least e he
    omega

end Plaquette
