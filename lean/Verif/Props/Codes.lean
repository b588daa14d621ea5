import Verif.Lemmas.CodeProps
import Verif.Lemmas.Schedule
import Verif.Lemmas.Repetition
import Verif.Lemmas.SmallCodes

/-!
# Properties of the codes (C29, C30, C43, C44, C47, C48)
-/

namespace Plaquette

/-! ### C29: every size of every lattice family is a valid stabiliser code -/

/-- What a constructor makes is a valid code. -/
theorem valid_of_lattice {L : Lattice} (hw : L.Wf) (hc : L.Comm) (hf : L.Full) (r : Nat) :
    ∃ c, mkLatCode L r = .ok c ∧ c.code.Valid ∧ c.lattice = L ∧ c.nRounds = r :=
  ⟨_, mkLatCode_ok hw hf r, code_valid hw hc, rfl, rfl⟩

/-- Planar code, all sizes and all orders of the edges. -/
theorem C29_planar (r size : Nat) (h2 : 2 ≤ size) (order : List (Int × Int)) (hord : ∀ d ∈ crossDirs, d ∈ order) :
    ∃ L c, planarLattice size order = .ok L ∧ mkLatCode L r = .ok c ∧ c.code.Valid := by
  obtain ⟨c, h, hv, _⟩ := valid_of_lattice (Planar.wf size order (by omega)) (Planar.comm size order (by omega))
    (Planar.full size order h2) r
  exact ⟨_, c, Planar.make size h2 order hord, h, hv⟩

/-- Toric code. -/
theorem C29_toric (r size : Nat) (h2 : 2 ≤ size) (order : List (Int × Int)) (hord : ∀ d ∈ crossDirs, d ∈ order) :
    ∃ L c, toricLattice size order = .ok L ∧ mkLatCode L r = .ok c ∧ c.code.Valid := by
  obtain ⟨c, h, hv, _⟩ := valid_of_lattice (Toric.wf order h2) (Toric.comm order h2) (Toric.full order h2) r
  exact ⟨_, c, Toric.make h2 order hord, h, hv⟩

/-- Rotated planar code, in both variants. -/
theorem C29_rotated (r size : Nat) (xzzx : Bool) (h2 : 2 ≤ size) (order : List (Int × Int))
    (hord : ∀ d ∈ diagDirs, d.2 ∈ order) :
    ∃ L c, rotatedLattice size xzzx order = .ok L ∧ mkLatCode L r = .ok c ∧ c.code.Valid := by
  obtain ⟨c, h, hv, _⟩ := valid_of_lattice (Rotated.wf order h2) (Rotated.comm order h2) (Rotated.full order h2) r
  exact ⟨_, c, Rotated.make h2 order hord, h, hv⟩

/-- Repetition code. -/
theorem C29_repetition (r size : Nat) (hodd : size % 2 = 1) (h3 : 3 ≤ size) :
    ∃ c, makeRepetition r size = .ok c ∧ c.code.Valid := by
  obtain ⟨c, h, hv, _⟩ := valid_of_lattice (Rep.wf size h3) (Rep.comm size h3) (Rep.full size h3) r
  exact ⟨c, by rw [makeRepetition, Rep.make size hodd h3]; exact h, hv⟩

/-- A lattice without stabilisers makes no code. -/
theorem no_stabs {L : Lattice} (h : L.stabgens = []) {r : Nat} {c : LatCode} : mkLatCode L r ≠ .ok c := by
  unfold mkLatCode Lattice.stabilisers
  rw [h]
  simp only [mapLoop]
  cases L.logicalOperators with
  | error e => simp
  | ok ls => simp [mkStabCode]

/-- A constructor that raises or makes a lattice without stabilisers. -/
def emptyResult (x : Except Err Lattice) : Bool :=
  match x with
  | .ok L => L.stabgens.isEmpty
  | .error _ => true

/-- The codes made by the class methods of `LatticeCode` (with the default order): whatever size is given, the code is
valid if there is one.  (Size 0 has no code either, but there the coordinates are negative, which the model does not
cover.) -/
theorem C29_all (r size : Nat) (h1 : 1 ≤ size) (c : LatCode)
    (h : makePlanar r size = .ok c ∨ makeToric r size = .ok c ∨ makeRotated r size false = .ok c ∨
      makeRotated r size true = .ok c ∨ makeRepetition r size = .ok c ∨ makeFiveQubit r = .ok c ∨ makeShor r = .ok c) :
    c.code.Valid := by
  have fin : ∀ {x : Except Err Lattice}, (∃ L, x = .ok L ∧ L.Wf ∧ L.Comm ∧ L.Full) → x.bind (fun L => mkLatCode L r) = .ok c →
      c.code.Valid := by
    rintro x ⟨L, rfl, hw, hc, hf⟩ h
    have h : mkLatCode L r = .ok c := h
    rw [mkLatCode_ok hw hf, Except.ok.injEq] at h
    subst h
    exact code_valid hw hc
  have bad : ∀ {x : Except Err Lattice}, emptyResult x = true → x.bind (fun L => mkLatCode L r) = .ok c → c.code.Valid := by
    intro x hx h
    cases x with
    | error e => cases h
    | ok L => exact absurd h (no_stabs (by simpa [emptyResult] using hx))
  by_cases h2 : 2 ≤ size
  · rcases h with h | h | h | h | h | h | h
    · exact fin ⟨_, Planar.make size h2 crossOrder (by decide), Planar.wf size _ (by omega), Planar.comm size _ (by omega), Planar.full size _ h2⟩ h
    · exact fin ⟨_, Toric.make h2 crossOrder (by decide), Toric.wf _ h2, Toric.comm _ h2, Toric.full _ h2⟩ h
    · exact fin ⟨_, Rotated.make h2 diagOrder (by decide), Rotated.wf _ h2, Rotated.comm _ h2, Rotated.full _ h2⟩ h
    · exact fin ⟨_, Rotated.make h2 diagOrder (by decide), Rotated.wf _ h2, Rotated.comm _ h2, Rotated.full _ h2⟩ h
    · by_cases hodd : size % 2 = 1
      · have h3 : 3 ≤ size := by omega
        exact fin ⟨_, Rep.make size hodd h3, Rep.wf size h3, Rep.comm size h3, Rep.full size h3⟩ h
      · exact bad (x := repetitionLattice size) (by rw [repetitionLattice, if_pos hodd]; rfl) h
    · exact fin (goodResult_spec five_good) h
    · exact fin (goodResult_spec shor_good) h
  · obtain rfl : size = 1 := by omega
    rcases h with h | h | h | h | h | h | h
    · exact bad (x := planarLattice 1 crossOrder) (by decide +kernel) h
    · exact bad (x := toricLattice 1 crossOrder) (by decide +kernel) h
    · exact bad (x := rotatedLattice 1 false diagOrder) (by decide +kernel) h
    · exact bad (x := rotatedLattice 1 true diagOrder) (by decide +kernel) h
    · exact bad (x := repetitionLattice 1) (by decide +kernel) h
    · exact fin (goodResult_spec five_good) h
    · exact fin (goodResult_spec shor_good) h

/-- The two small codes exist. -/
theorem C29_small (r : Nat) : (∃ c, makeFiveQubit r = .ok c ∧ c.code.Valid) ∧ (∃ c, makeShor r = .ok c ∧ c.code.Valid) := by
  obtain ⟨L, hL, hw, hc, hf⟩ := goodResult_spec five_good
  obtain ⟨L', hL', hw', hc', hf'⟩ := goodResult_spec shor_good
  obtain ⟨c, h, hv, _⟩ := valid_of_lattice hw hc hf r
  obtain ⟨c', h', hv', _⟩ := valid_of_lattice hw' hc' hf' r
  refine ⟨⟨c, ?_, hv⟩, ⟨c', ?_, hv'⟩⟩
  · rw [makeFiveQubit, hL]; exact h
  · rw [makeShor, hL']; exact h'

/-- The hypotheses are met, e.g. by size 3 and the default orders. -/
example : ∃ L c, planarLattice 3 crossOrder = .ok L ∧ mkLatCode L 2 = .ok c ∧ c.code.Valid :=
  C29_planar 2 3 (by omega) crossOrder (by decide)
example : ∃ L c, rotatedLattice 4 true diagOrder = .ok L ∧ mkLatCode L 2 = .ok c ∧ c.code.Valid :=
  C29_rotated 2 4 true (by omega) diagOrder (by decide)

/-! ### C30: parameters -/

/-- Number of data qubits, of stabilisers and of logical operators, and the weights of the logical operators. -/
structure LatCode.Params (c : LatCode) (n stabs : Nat) (weights : List Nat) : Prop where
  data : c.n = n
  stabs : c.code.stabilisers.length = stabs
  weights : c.code.logicalOps.map Op.weight = weights
  distinct : c.lattice.dataqubits.Nodup ∧ c.lattice.dataqubits.length = n

theorem params_of_lattice {L : Lattice} (hw : L.Wf) (hf : L.Full) (r n k : Nat) (ws : List Nat) (hn : L.dataqubits.length = n)
    (hk : L.stabgens.length = k) (hws : L.logicals.map (fun l => (L.opEdges l.1).length) = ws) :
    ∃ c, mkLatCode L r = .ok c ∧ c.Params n k ws := by
  refine ⟨_, mkLatCode_ok hw hf r, ⟨hn, ?_, ?_, ?_, hn⟩⟩
  · simpa [Lattice.code] using hk
  · simp only [Lattice.code, List.map_map]
    rw [← hws]
    apply List.map_congr_left
    intro l _
    exact hw.weight l.1
  · have := hw.occ
    rw [Lattice.occupied, List.append_assoc] at this
    exact (List.nodup_append.mp this).1

theorem C30_planar (r size : Nat) (h2 : 2 ≤ size) :
    ∃ c, makePlanar r size = .ok c ∧ c.Params (size ^ 2 + (size - 1) ^ 2) (2 * size * (size - 1)) [size, size] := by
  obtain ⟨c, h, hp⟩ := params_of_lattice (Planar.wf size crossOrder (by omega)) (Planar.full size crossOrder h2) r _ _
    [size, size] (Planar.length_data size (by omega)) (Planar.length_stabs size (by omega)) (by
      show [((Planar.lat size crossOrder).opEdges (Planar.xPos size)).length, ((Planar.lat size crossOrder).opEdges (Planar.zPos size)).length] = _
      rw [Planar.op_x _ _ (by omega), Planar.op_z _ _ (by omega)]
      simp [Planar.xEdges, Planar.zEdges, length_pyRange])
  exact ⟨c, by rw [makePlanar, Planar.make size h2 crossOrder (by decide)]; exact h, hp⟩

theorem C30_toric (r size : Nat) (h2 : 2 ≤ size) :
    ∃ c, makeToric r size = .ok c ∧ c.Params (2 * size ^ 2) (2 * size ^ 2) [size, size, size, size] := by
  have hok := Toric.ok h2
  obtain ⟨f1, f2, f3, f4⟩ := Toric.filter_logs h2
  obtain ⟨c, h, hp⟩ := params_of_lattice (Toric.wf crossOrder h2) (Toric.full crossOrder h2) r _ _
    [size, size, size, size] Toric.length_data Toric.length_stabs (by
      show [((Toric.lat size crossOrder).opEdges _).length, ((Toric.lat size crossOrder).opEdges _).length,
        ((Toric.lat size crossOrder).opEdges _).length, ((Toric.lat size crossOrder).opEdges _).length] = _
      unfold Toric.lat
      rw [hok.op_log _ (Fam.keeps_step _ _) (by simp [Toric.fam]), hok.op_log _ (Fam.keeps_step _ _) (by simp [Toric.fam]), hok.op_log _ (Fam.keeps_step _ _) (by simp [Toric.fam]),
        hok.op_log _ (Fam.keeps_step _ _) (by simp [Toric.fam]), f1, f2, f3, f4]
      simp [Toric.x0, Toric.z0, Toric.x1, Toric.z1, length_lineE])
  exact ⟨c, by rw [makeToric, Toric.make h2 crossOrder (by decide)]; exact h, hp⟩

theorem C30_rotated (r size : Nat) (xzzx : Bool) (h2 : 2 ≤ size) :
    ∃ c, makeRotated r size xzzx = .ok c ∧ c.Params (size ^ 2) (size ^ 2 - 1) [size, size] := by
  have hok := Rotated.ok (xzzx := xzzx) h2
  obtain ⟨f1, f2⟩ := Rotated.filter_logs (xzzx := xzzx) h2
  obtain ⟨c, h, hp⟩ := params_of_lattice (Rotated.wf (xzzx := xzzx) diagOrder h2) (Rotated.full (xzzx := xzzx) diagOrder h2) r _ _
    [size, size] (Rotated.length_data (xzzx := xzzx)) (Rotated.length_stabs (xzzx := xzzx) (by omega)) (by
      show [((Rotated.lat size xzzx diagOrder).opEdges _).length, ((Rotated.lat size xzzx diagOrder).opEdges _).length] = _
      unfold Rotated.lat
      rw [hok.op_log _ (Rotated.keeps _ _ _) (by simp [Rotated.fam]), hok.op_log _ (Rotated.keeps _ _ _) (by simp [Rotated.fam]), f1, f2]
      simp [Rotated.xE, Rotated.zE, length_lineE])
  exact ⟨c, by rw [makeRotated, Rotated.make h2 diagOrder (by decide)]; exact h, hp⟩

theorem C30_repetition (r size : Nat) (hodd : size % 2 = 1) (h3 : 3 ≤ size) :
    ∃ c, makeRepetition r size = .ok c ∧ c.Params size (size - 1) [size, 1] := by
  obtain ⟨c, h, hp⟩ := params_of_lattice (Rep.wf size h3) (Rep.full size h3) r size (size - 1) [size, 1] (by
      show (Rep.data size).length = _
      simp [Rep.data, Rep.cells, length_pyRange]; omega) (by
      show (Rep.stabs size).length = _
      simp [Rep.stabs, Rep.stabCells, length_pyRange]; omega) (by
      show [((Rep.lat size).opEdges _).length, ((Rep.lat size).opEdges _).length] = _
      rw [Rep.op_x, Rep.op_z]
      simp [Rep.xEdges, Rep.zEdges, Rep.cells, length_pyRange]; omega)
  exact ⟨c, by rw [makeRepetition, Rep.make size hodd h3]; exact h, hp⟩

example : ∃ c, makeRotated 3 5 false = .ok c ∧ c.Params 25 24 [5, 5] := C30_rotated 3 5 false (by omega)

/-! ### C43: selection of logical operators -/

/-- A string is accepted exactly if it has one letter `X` or `Z` for each logical qubit; letter `k` selects the operator
`2 k` or `2 k + 1`. Any other string raises `ValueError`. -/
theorem C43_string (m : Nat) (s : List Char) :
    (s.length = m ∧ (∀ c ∈ s, c = 'X' ∨ c = 'Z') → ∃ l, logicalOpsToIndices (2 * m) (.str s) = .ok l ∧ l.length = m ∧
      ∀ (k : Nat) (c : Char), s[k]? = some c → l[k]? = some (if c = 'X' then 2 * (k : Int) else 2 * k + 1)) ∧
    (¬ (s.length = m ∧ ∀ c ∈ s, c = 'X' ∨ c = 'Z') → logicalOpsToIndices (2 * m) (.str s) = .error .valueError) := by
  constructor
  · rintro ⟨hl, hs⟩
    refine ⟨s.zipIdx.map fun e => if e.1 = 'X' then 2 * (e.2 : Int) else 2 * e.2 + 1, ?_, by simp [hl], ?_⟩
    · unfold logicalOpsToIndices
      simp only [mapLoop_zipIdx s 0 hs]
      rw [if_neg (by simp [hl]), if_neg]
      simp only [List.any_eq_true, decide_eq_true_eq, not_exists, not_and]
      intro i hi
      obtain ⟨⟨c, k⟩, he, rfl⟩ := List.mem_map.mp hi
      have hk := List.mem_zipIdx' he
      have := hk.1
      dsimp only
      split <;> push_cast <;> omega
    · intro k c hk
      rw [List.getElem?_map, List.getElem?_zipIdx, hk]
      simp
  · intro h
    unfold logicalOpsToIndices
    by_cases hs : ∀ c ∈ s, c = 'X' ∨ c = 'Z'
    · simp only [mapLoop_zipIdx s 0 hs]
      rw [if_pos]
      simp only [List.length_map, List.length_zipIdx]
      intro hl
      exact h ⟨by omega, hs⟩
    · simp only [mapLoop_zipIdx_err s 0 hs]

/-- A list of indices is accepted exactly if it has one index for each logical qubit and all are in range; it is returned
unchanged. -/
theorem C43_indices (m : Nat) (l : List Int) :
    (l.length = m ∧ (∀ i ∈ l, 0 ≤ i ∧ i < 2 * m) → logicalOpsToIndices (2 * m) (.ints l) = .ok l) ∧
    (¬ (l.length = m ∧ ∀ i ∈ l, 0 ≤ i ∧ i < 2 * m) → logicalOpsToIndices (2 * m) (.ints l) = .error .valueError) := by
  constructor
  · rintro ⟨hl, hi⟩
    unfold logicalOpsToIndices
    simp only
    rw [if_neg (by omega), if_neg]
    simp only [List.any_eq_true, decide_eq_true_eq, not_exists, not_and]
    intro i h
    have := hi i h
    push_cast
    omega
  · intro h
    unfold logicalOpsToIndices
    simp only
    by_cases hl : l.length = m
    · rw [if_neg (by omega), if_pos]
      by_contra hc
      apply h
      refine ⟨hl, fun i hi => ?_⟩
      simp only [List.any_eq_true, decide_eq_true_eq, not_exists, not_and] at hc
      have := hc i hi
      push_cast at this
      omega
    · rw [if_pos (by omega)]

example : logicalOpsToIndices 4 (.str ['X', 'Z']) = .ok [0, 3] := rfl
example : logicalOpsToIndices 4 (.ints [0, 3]) = .ok [0, 3] := rfl

/-! ### C44: `check` -/

/-- `check` passes exactly for the valid codes. -/
theorem C44_check {n : Nat} {ss ls : List AnyOp} {c : StabCode n} (h : mkStabCode ss ls = .ok ⟨n, c⟩) :
    c.check = .ok () ↔ c.Valid := by
  obtain ⟨h1, h2, h3⟩ := mkStabCode_shape h
  exact check_iff c h1 h2 h3

/-- A code that is not valid raises `AssertionError`. -/
theorem C44_reject {n : Nat} {ss ls : List AnyOp} {c : StabCode n} (h : mkStabCode ss ls = .ok ⟨n, c⟩) (hv : ¬ c.Valid) :
    c.check = .error .assertionError := by
  obtain ⟨h1, h2, h3⟩ := mkStabCode_shape h
  have hc : c.check ≠ .ok () := fun h => hv ((check_iff c h1 h2 h3).mp h)
  have lx : c.logicalX.length = c.logicalOps.length / 2 := evensOf_length _ h3
  have lz : c.logicalZ.length = c.logicalOps.length / 2 := oddsOf_length _ h3
  have := List.length_pos_iff.mpr h2
  have nx : c.logicalX ≠ [] := by rw [← List.length_pos_iff]; omega
  have nz : c.logicalZ ≠ [] := by rw [← List.length_pos_iff]; omega
  cases h : c.check with
  | ok u => exact absurd h hc
  | error e =>
    unfold StabCode.check at h
    rw [if_neg (by simp [h1, nx, nz])] at h
    repeat' split at h
    all_goals first | (cases h; rfl) | cases h

/-- The hypothesis is met by every code made from one of the lattices, e.g. the planar code. -/
example : ∃ c, makePlanar 1 2 = .ok c ∧ c.code.check = .ok () := by
  have hf := Planar.full 2 crossOrder (by omega)
  have hw := Planar.wf 2 crossOrder (by omega)
  refine ⟨_, by rw [makePlanar, Planar.make 2 (by omega) crossOrder (by decide)]; exact mkLatCode_ok hw hf 1, ?_⟩
  refine (check_iff _ ?_ ?_ ?_).mpr (code_valid hw (Planar.comm 2 crossOrder (by omega)))
  · simpa [Lattice.code] using hf.stab_ne
  · simpa [Lattice.code] using hf.log_ne
  · simpa [Lattice.code] using hf.log_even

/-! ### C47: schedules -/

theorem C47_planar (size : Nat) (h2 : 2 ≤ size) (order : List (Int × Int)) (hord : ∀ d ∈ crossDirs, d ∈ order) :
    ∃ L, planarLattice size order = .ok L ∧ L.ConflictFree :=
  ⟨_, Planar.make size h2 order hord, Planar.conflictFree size order (by omega) hord⟩

theorem C47_toric (size : Nat) (h2 : 2 ≤ size) (order : List (Int × Int)) (hord : ∀ d ∈ crossDirs, d ∈ order) :
    ∃ L, toricLattice size order = .ok L ∧ L.ConflictFree :=
  ⟨_, Toric.make h2 order hord, Toric.conflictFree order h2 hord⟩

/-- With the default order. -/
theorem C47_rotated (size : Nat) (xzzx : Bool) (h2 : 2 ≤ size) :
    ∃ L, rotatedLattice size xzzx diagOrder = .ok L ∧ L.ConflictFree :=
  ⟨_, Rotated.make h2 diagOrder (by decide), Rotated.conflictFree h2⟩

/-! ### C52: the order of the gates of two stabilisers -/

theorem C52_planar (size : Nat) (h2 : 2 ≤ size) : ∃ L, planarLattice size crossOrder = .ok L ∧ L.SameOrder :=
  ⟨_, Planar.make size h2 crossOrder (by decide), Planar.sameOrder size (by omega)⟩

theorem C52_toric (size : Nat) (h2 : 2 ≤ size) : ∃ L, toricLattice size crossOrder = .ok L ∧ L.SameOrder :=
  ⟨_, Toric.make h2 crossOrder (by decide), Toric.sameOrder h2⟩

theorem C52_rotated (size : Nat) (xzzx : Bool) (h2 : 2 ≤ size) :
    ∃ L, rotatedLattice size xzzx diagOrder = .ok L ∧ L.SameOrder :=
  ⟨_, Rotated.make h2 diagOrder (by decide), Rotated.sameOrder h2⟩

/-- Non-vacuity: in the planar code of size 2 there are two stabilisers with two common data qubits and different letters. -/
example : ∃ L, planarLattice 2 crossOrder = .ok L ∧ ∃ a ∈ L.edges, ∃ b ∈ L.edges, ∃ a' ∈ L.edges, ∃ b' ∈ L.edges,
    L.isStab a.op = true ∧ L.isStab b.op = true ∧ a'.op = a.op ∧ b'.op = b.op ∧ a.data = b.data ∧ a'.data = b'.data ∧
    a.factor ≠ b.factor ∧ a'.factor ≠ b'.factor ∧ a ≠ a' := by
  refine ⟨_, Planar.make 2 (by omega) crossOrder (by decide), ?_⟩
  decide +kernel

end Plaquette
