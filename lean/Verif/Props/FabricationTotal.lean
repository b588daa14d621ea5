import Verif.Lemmas.FabricationCss

/-!
# C98: which fabrication errors can be applied
-/

namespace Plaquette

/-- A data qubit of a lattice of a CSS code (or the XZZX code) that a stabiliser acts on is removed if and only if every logical operator at it can be
moved away (by a stabiliser at the qubit with the same letter); otherwise there is a `NoLogicalOperatorError`, and no other
exception. All other data qubits and all logical operators are kept. -/
theorem C98_remove {L : Lattice} (h : L.CssFabricated) {q : Pos} (hq : q ∈ L.dataqubits) (hc : L.Checked q) :
    (L.Movable q → ∃ L', L.removeDataqubit q = .ok L' ∧ L'.dataqubits = L.dataqubits.filter (· ≠ q) ∧
      L'.logicals = L.logicals) ∧
    (¬ L.Movable q → L.removeDataqubit q = .error .valueError) := by
  have hk := cssKept h
  obtain ⟨φ, hcss⟩ := hk.css
  obtain ⟨h1, h2⟩ := removeDataqubit_total hcss hq
  refine ⟨fun hm => ?_, h2⟩
  rcases gauge_cases hk.gauge q with hg | ⟨_, hn⟩
  · obtain ⟨L', h3, _, h5, h6, _⟩ := h1 hm hg
    exact ⟨L', h3, h5, h6⟩
  · exact absurd hc hn

/-- The same without stabilisers at the qubit, unless gauge operators are treated with `half`. -/
theorem C98_remove_any {L : Lattice} (h : L.CssFabricated) {q : Pos} (hq : q ∈ L.dataqubits) (hg : L.keepGauge ≠ "half".toList) :
    (L.Movable q → ∃ L', L.removeDataqubit q = .ok L' ∧ L'.dataqubits = L.dataqubits.filter (· ≠ q) ∧
      L'.logicals = L.logicals) ∧
    (¬ L.Movable q → L.removeDataqubit q = .error .valueError) := by
  have hk := cssKept h
  obtain ⟨φ, hcss⟩ := hk.css
  obtain ⟨h1, h2⟩ := removeDataqubit_total hcss hq
  refine ⟨fun hm => ?_, h2⟩
  rcases gauge_cases hk.gauge q with hg' | ⟨hg', _⟩
  · obtain ⟨L', h3, _, h5, h6, _⟩ := h1 hm hg'
    exact ⟨L', h3, h5, h6⟩
  · exact absurd hg' hg

/-- `apply_fabrication_errors` on a lattice of a CSS code (or the XZZX code), with references `qubits`, `gates`, `stabs` that name the data qubits `qs`:
exactly these data qubits are gone, or there is a `NoLogicalOperatorError`; with `half` there can be an `IndexError`. -/
theorem C98_apply {L : Lattice} (h : L.CssFabricated) {qubits : List VertexRef} {gates : List (VertexRef × VertexRef)}
    {stabs : List VertexRef} {kg : Option (List Char)} {bj : Option Bool} (hk : kg = none ∨ ∃ g ∈ gaugeSettings, kg = some g)
    {qs : List Pos} (hqs : L.toRemove qubits gates stabs = .ok qs) :
    (∃ L', L.applyFabrication qubits gates stabs kg bj = .ok L' ∧ L'.CssFabricated ∧
      L'.dataqubits = L.dataqubits.filter (· ∉ qs) ∧ L'.logicals = L.logicals) ∨
    L.applyFabrication qubits gates stabs kg bj = .error .valueError ∨
      (kg.getD L.keepGauge = "half".toList ∧ L.applyFabrication qubits gates stabs kg bj = .error .indexError) := by
  rcases apply_cases (cssKept h) (bj := bj) hk hqs with ⟨L', h1, _, h3, h4⟩ | h1 | h1
  · exact .inl ⟨L', h1, .errors h hk h1, h3, h4⟩
  · exact .inr (.inl h1)
  · exact .inr (.inr h1)

/-- In particular, the assertions in the code never fail. -/
theorem C98_no_assertion {L : Lattice} (h : L.CssFabricated) {qubits : List VertexRef} {gates : List (VertexRef × VertexRef)}
    {stabs : List VertexRef} {kg : Option (List Char)} {bj : Option Bool} (hk : kg = none ∨ ∃ g ∈ gaugeSettings, kg = some g)
    {qs : List Pos} (hqs : L.toRemove qubits gates stabs = .ok qs) :
    L.applyFabrication qubits gates stabs kg bj ≠ .error .assertionError := by
  rcases C98_apply h (bj := bj) hk hqs with ⟨L', h1, _⟩ | h1 | ⟨_, h1⟩ <;> rw [h1] <;> simp

/-- No data qubit of the repetition code can be removed: the logical X acts on all of them and no stabiliser has an X. -/
theorem C98_repetition {size : Nat} (h3 : 3 ≤ size) {L : Lattice} (h : repetitionLattice size = .ok L) {q : Pos}
    (hq : q ∈ L.dataqubits) : L.removeDataqubit q = .error .valueError := by
  have hf : L.CssFabricated := .repetition h3 h
  have hodd : size % 2 = 1 := by
    by_contra hodd
    rw [repetitionLattice, if_pos hodd] at h
    cases h
  rw [Rep.make size hodd h3, Except.ok.injEq] at h
  subst h
  refine (C98_remove_any hf hq (by simp [Rep.lat, Rep.raw, Lattice.assignIndices])).2 fun hm => ?_
  have hw := Rep.wf size h3
  have hp := (cssKept hf).css.elim fun _ hc => hc.pre
  have hq' : q ∈ Rep.data size := hq
  obtain ⟨i, hi, rfl⟩ := List.mem_map.1 hq'
  have hx : mkEdge (i, 0) ((size : Int) - 1, 1) .X ∈ (Rep.lat size).edges := by
    show _ ∈ (Rep.stabCells size).flatMap Rep.stabEdges ++ Rep.xEdges size ++ Rep.zEdges size
    exact List.mem_append_left _ (List.mem_append_right _ (List.mem_map.2 ⟨i, hi, rfl⟩))
  have hl : ∀ k, k ∈ (Rep.logs size).map Prod.fst → (Rep.lat size).isStab k = false := by
    intro k hk
    rw [Bool.eq_false_iff]
    intro hs
    exact hp.stab_not_log hs hk
  obtain ⟨s, hs, hs1, hs2, hs3⟩ := hm _ hx rfl (hl _ (by simp [Rep.logs, mkEdge]))
  have hs' : s ∈ (Rep.stabCells size).flatMap Rep.stabEdges ++ Rep.xEdges size ++ Rep.zEdges size := hs
  rcases List.mem_append.mp hs' with he | he
  · rcases List.mem_append.mp he with he | he
    · obtain ⟨i, _, he⟩ := List.mem_flatMap.mp he
      simp only [Rep.stabEdges, List.mem_cons, List.not_mem_nil, or_false] at he
      rcases he with rfl | rfl <;> simp [mkEdge] at hs3
    · obtain ⟨i, _, rfl⟩ := List.mem_map.mp he
      rw [hl _ (by simp [Rep.logs, mkEdge])] at hs2
      cases hs2
  · simp only [Rep.zEdges, List.mem_cons, List.not_mem_nil, or_false] at he
    subst he
    simp [mkEdge] at hs3

set_option maxRecDepth 100000 in
theorem five_all : (match fiveQubitLattice with
    | .ok L => decide (L.dataqubits.length = 5) && L.dataqubits.all fun q => gaugeSettings.all fun g => [true, false].all fun b =>
      match L.applyFabrication [.pos q] [] [] (some g) (some b) with
      | .error .assertionError => true
      | _ => false
    | .error _ => false) = true := by decide +kernel

/-- The five-qubit code is not a CSS code, and the assumption of the code that it is fails: removing any of its five data
qubits breaks off with an `AssertionError`, for all settings. -/
theorem C98_five : ∃ L : Lattice, fiveQubitLattice = .ok L ∧ L.dataqubits.length = 5 ∧ ∀ q ∈ L.dataqubits, ∀ g ∈ gaugeSettings, ∀ b : Bool,
    L.applyFabrication [.pos q] [] [] (some g) (some b) = .error .assertionError := by
  have h := five_all
  cases hc : fiveQubitLattice with
  | error e => rw [hc] at h; simp at h
  | ok L =>
    rw [hc] at h
    simp only [Bool.and_eq_true, decide_eq_true_eq, List.all_eq_true] at h
    refine ⟨L, rfl, h.1, fun q hq g hg b => ?_⟩
    have h2 := h.2 q hq g hg b (by cases b <;> simp)
    revert h2
    cases L.applyFabrication [.pos q] [] [] (some g) (some b) with
    | ok _ => simp
    | error e => cases e <;> simp

/-- Four fabrication errors after each other, with the treatment `half` of gauge operators. -/
def chain (x : Except Err Lattice) : List Pos → Except Err Lattice
  | [] => x
  | p :: ps =>
    match x with
    | .error e => .error e
    | .ok L => chain (L.applyFabrication [.pos p] [] [] (some "half".toList) none) ps

set_option maxRecDepth 100000 in
theorem isolated : (match chain (planarLattice 3 crossOrder) [(0, 0), (0, 2), (2, 0)] with
    | .ok L => decide ((1, 1) ∈ L.dataqubits) && (match L.removeDataqubit (1, 1) with
      | .error .indexError => true
      | _ => false)
    | .error _ => false) = true := by decide +kernel

theorem chain_css : ∀ (ps : List Pos) {x : Except Err Lattice} {L' : Lattice}, (∀ L, x = .ok L → L.CssFabricated) → chain x ps = .ok L' →
    L'.CssFabricated
  | [], _, _, hx, h => hx _ h
  | p :: ps, x, L', hx, h => by
    cases x with
    | error e => simp [chain] at h
    | ok L =>
      rw [chain] at h
      exact chain_css ps (fun M hM => .errors (hx L rfl) (.inr ⟨_, by decide, rfl⟩) hM) h

/-- With `half`, removing a data qubit that no operator acts on any more breaks off with an `IndexError`. -/
theorem C98_half_isolated : ∃ L : Lattice, L.CssFabricated ∧ ∃ q ∈ L.dataqubits, L.removeDataqubit q = .error .indexError := by
  have h := isolated
  cases hc : chain (planarLattice 3 crossOrder) [(0, 0), (0, 2), (2, 0)] with
  | error e => rw [hc] at h; simp at h
  | ok L =>
    rw [hc] at h
    simp only [Bool.and_eq_true, decide_eq_true_eq] at h
    refine ⟨L, chain_css _ (fun M hM => .planar (by omega) hM) hc, (1, 1), h.1, ?_⟩
    have h2 := h.2
    revert h2
    cases L.removeDataqubit (1, 1) with
    | ok _ => simp
    | error e => cases e <;> simp

/-- Non-vacuity: the data qubit in the middle of the planar code of size 3 can be removed. -/
example : ∃ L : Lattice, L.CssFabricated ∧ (2, 2) ∈ L.dataqubits ∧ L.Checked (2, 2) ∧ L.Movable (2, 2) := by
  have hmk : planarLattice 3 crossOrder = .ok (Planar.lat 3 crossOrder) := Planar.make 3 (by omega) crossOrder (by decide)
  have hf := Lattice.CssFabricated.planar (by omega) hmk
  have hd : ((2, 2) : Pos) ∈ (Planar.lat 3 crossOrder).dataqubits := by decide +kernel
  have hc : (Planar.lat 3 crossOrder).Checked (2, 2) := by unfold Lattice.Checked; decide +kernel
  refine ⟨_, hf, hd, hc, ?_⟩
  unfold Lattice.Movable
  decide +kernel

/-- Non-vacuity: the data qubit in the middle of the XZZX code of size 3 can be removed. -/
example : ∃ L : Lattice, L.CssFabricated ∧ (3, 3) ∈ L.dataqubits ∧ L.Checked (3, 3) ∧ L.Movable (3, 3) := by
  have hf := Lattice.CssFabricated.rotated (by omega) (Rotated.make (size := 3) (xzzx := true) (by omega) diagOrder (by decide))
  refine ⟨_, hf, by decide +kernel, by unfold Lattice.Checked; decide +kernel, ?_⟩
  unfold Lattice.Movable
  decide +kernel

/-- Non-vacuity: the repetition code of size 3. -/
example : ∃ L : Lattice, repetitionLattice 3 = .ok L ∧ L.removeDataqubit (2, 0) = .error .valueError := by
  have h := Rep.make 3 (by decide) (by decide)
  exact ⟨_, h, C98_repetition (by decide) h (by decide +kernel)⟩

end Plaquette
