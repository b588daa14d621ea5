import Verif.Lemmas.FromOperators
import Verif.Props.NoisyExperiment

/-!
# C53: codes made from operators
-/

namespace Plaquette

variable {n : Nat}

/-- **C53 (full statement)**: every valid code can be made from its operators, and has these operators. -/
def C53_statement : Prop := ∀ (n r : Nat) (S T : List (Op n)), S ≠ [] → T ≠ [] → T.length % 2 = 0 → (⟨S, T⟩ : StabCode n).Valid →
  ∃ c, fromOperators (arrays S) (arrays T) r = .ok c ∧ c.nRounds = r ∧ arrays c.code.stabilisers = arrays S ∧ arrays c.code.logicalOps = arrays T

/-- **C53 (partial)**: every valid code whose stabilisers are not the identity, with at most as many stabilisers and at most as
many logical operators as qubits, up to the signs of the operators. Missing: signs, more operators than qubits, and identities
(all of which make the full statement false). -/
theorem C53_code_partial {S T : List (Op n)} (hS : S ≠ []) (hT : T ≠ []) (he : T.length % 2 = 0) (hv : (⟨S, T⟩ : StabCode n).Valid)
    (h1 : S.length ≤ n) (h2 : T.length ≤ n) (hA : ∀ s ∈ S, s.Acts) (r : Nat) :
    ∃ c, fromOperators (arrays S) (arrays T) r = .ok c ∧ c.nRounds = r ∧ arrays c.code.stabilisers = arrays (S.map Op.plus) ∧
      arrays c.code.logicalOps = arrays (T.map Op.plus) ∧ c.code.Valid := by
  refine ⟨_, (FromOps.accepts S T hS r).1 ⟨hT, he, h1, h2, hA, FromOps.logs_act hv he⟩, rfl, ?_, ?_,
    code_valid (FromOps.wf S T) (FromOps.comm hv)⟩
  · rw [arrays, arrays, List.map_map]
    exact FromOps.code_stabs S T
  · rw [arrays, arrays, List.map_map]
    exact FromOps.code_logs S T

/-- With signs `+` the code has exactly the operators. -/
theorem C53_plus_partial {S T : List (Op n)} (hS : S ≠ []) (hT : T ≠ []) (he : T.length % 2 = 0) (hv : (⟨S, T⟩ : StabCode n).Valid)
    (h1 : S.length ≤ n) (h2 : T.length ≤ n) (hA : ∀ s ∈ S, s.Acts) (hs : ∀ s ∈ S, s.r = false) (ht : ∀ s ∈ T, s.r = false) (r : Nat) :
    ∃ c, fromOperators (arrays S) (arrays T) r = .ok c ∧ c.nRounds = r ∧ arrays c.code.stabilisers = arrays S ∧
      arrays c.code.logicalOps = arrays T ∧ c.code.Valid := by
  have hp : ∀ {l : List (Op n)}, (∀ s ∈ l, s.r = false) → l.map Op.plus = l := by
    intro l hl
    conv_rhs => rw [← List.map_id l]
    refine List.map_congr_left fun s hs => ?_
    ext q
    · rfl
    · rfl
    · exact (hl s hs).symm ▸ rfl
  obtain ⟨c, k1, k2, k3, k4, k5⟩ := C53_code_partial hS hT he hv h1 h2 hA r
  exact ⟨c, k1, k2, by rw [k3, hp hs], by rw [k4, hp ht], k5⟩

/-- Exactly which operators (on the same number of qubits) are accepted, valid or not. -/
theorem C53_accepts {S T : List (Op n)} (hS : S ≠ []) (r : Nat) : (∃ c, fromOperators (arrays S) (arrays T) r = .ok c) ↔
    T ≠ [] ∧ T.length % 2 = 0 ∧ S.length ≤ n ∧ T.length ≤ n ∧ (∀ s ∈ S, s.Acts) ∧ (∀ s ∈ T, s.Acts) :=
  ⟨fun ⟨c, h⟩ => (FromOps.accepts S T hS r).2 c h, fun h => ⟨_, (FromOps.accepts S T hS r).1 h⟩⟩

/-! ### The code violates the full statement -/

/-- An operator with X's and Z's at given qubits, for the examples. -/
def opAt (n : Nat) (xs zs : List Nat) (r : Bool) : Op n := ⟨fun q => decide (q.val ∈ xs), fun q => decide (q.val ∈ zs), r⟩

/-- The code with the stabiliser `-ZZ`. -/
def minusCode : StabCode 2 := ⟨[opAt 2 [] [0, 1] true], [opAt 2 [0, 1] [] false, opAt 2 [] [0] false]⟩

/-- The [[6,4,2]] code. -/
def manyCode : StabCode 6 := ⟨[opAt 6 [0, 1, 2, 3, 4, 5] [] false, opAt 6 [] [0, 1, 2, 3, 4, 5] false],
  (List.range 4).flatMap fun i => [opAt 6 [0, i + 1] [] false, opAt 6 [] [i + 1, 5] false]⟩

theorem minus_valid : minusCode.Valid := (check_iff minusCode (by decide) (by decide) (by decide)).1 (by decide +kernel)

theorem many_valid : manyCode.Valid := (check_iff manyCode (by decide) (by decide) (by decide)).1 (by decide +kernel)

/-- The sign of a stabiliser is lost: the code with the stabiliser `-ZZ` becomes the code with `+ZZ`, which has other code
words. -/
theorem C53_sign_counterexample : ¬ C53_statement := by
  intro h
  obtain ⟨c, h1, _, h3, _⟩ := h 2 1 _ _ (by simp [minusCode]) (by simp [minusCode]) (by decide) minus_valid
  obtain ⟨c', k1, _, k3, _⟩ := C53_code_partial (by simp [minusCode]) (by simp [minusCode]) (by decide) minus_valid (by decide) (by decide)
    (by
      intro s hs
      simp only [minusCode, List.mem_singleton] at hs
      subst hs
      exact ⟨0, by decide⟩) 1
  rw [h1, Except.ok.injEq] at k1
  subst k1
  rw [h3] at k3
  revert k3
  simp [arrays, minusCode, Op.plus, opAt]

/-- A code with more logical operators than qubits, such as the [[6,4,2]] code, raises `IndexError`: logical operator `i` is put in
row `i` of an array with as many rows as data qubits. -/
theorem C53_many (r : Nat) : manyCode.Valid ∧ fromOperators (arrays manyCode.stabilisers) (arrays manyCode.logicalOps) r = .error .indexError := by
  refine ⟨many_valid, ?_⟩
  rw [FromOps.start _ _ (by decide), FromOps.make_out _ _ (.inr (by decide))]

theorem C53_many_counterexample : ¬ C53_statement := by
  intro h
  obtain ⟨c, h1, _⟩ := h 6 1 manyCode.stabilisers manyCode.logicalOps (by decide) (by decide) (by decide) many_valid
  rw [(C53_many 1).2] at h1
  cases h1

/-- A code whose stabilisers contain the identity raises an exception, although such a code is valid. -/
theorem C53_identity {S T : List (Op n)} {s : Op n} (hs : s ∈ S) (h0 : ¬ s.Acts) (r : Nat) :
    ∀ c, fromOperators (arrays S) (arrays T) r ≠ .ok c := by
  intro c hc
  exact h0 (((FromOps.accepts S T (List.ne_nil_of_mem hs) r).2 c hc).2.2.2.2.1 s hs)

/-! ### Experiments with codes made from operators -/

/-- Without errors there are no events, for every valid code made from operators without the letter Y, with logical ancillas. -/
theorem C53_no_events {F : Type} (api : FloatApi F) (rng : Rng F) (pos r : Nat) {S T : List (Op n)} (hS : S ≠ [])
    (hv : (⟨S, T⟩ : StabCode n).Valid) (hy : ∀ s ∈ S, s.NoY) (hy' : ∀ s ∈ T, s.NoY) (c : LatCode)
    (hc : fromOperators (arrays S) (arrays T) r = .ok c) (sel : LogicalSel) (circ : List (Gate F)) (hr : 1 ≤ r)
    (h : generateCircuit api c [] [] sel true = .ok circ) : NoEvents api rng pos r c circ true := by
  have ha := (FromOps.accepts S T hS r).2 c hc
  rw [(FromOps.accepts S T hS r).1 ha, Except.ok.injEq] at hc
  subst hc
  obtain ⟨hT, he, _, _, h1, h2⟩ := ha
  obtain ⟨S', s, h1, h2, h3, h4⟩ := quiet_anc (FromOps.wf S T) (FromOps.comm hv) (FromOps.full hS hT he h1 h2) (FromOps.sched hy hy')
    api rng pos hr (by simp) (by simp) h
  refine ⟨S', s, h1, h2, ?_, ?_⟩
  · rw [h3]; simp [Lattice.code]
  · rw [h4]; simp [StabCode.nLogicalQubits, Lattice.code]

/-- The circuit exists for every selection of commuting logical operators. -/
theorem C53_circuit {F : Type} (api : FloatApi F) (r : Nat) {S T : List (Op n)} (hS : S ≠ [])
    (hv : (⟨S, T⟩ : StabCode n).Valid) (hy : ∀ s ∈ S, s.NoY) (hy' : ∀ s ∈ T, s.NoY) (c : LatCode)
    (hc : fromOperators (arrays S) (arrays T) r = .ok c) (sel : LogicalSel) (anc : Bool) (is : List Int)
    (his : logicalOpsToIndices T.length sel = .ok is) (hcom : ∀ i ∈ is, ∀ j ∈ is, i / 2 = j / 2 → i = j) :
    ∃ circ : List (Gate F), generateCircuit api c [] [] sel anc = .ok circ := by
  have ha := (FromOps.accepts S T hS r).2 c hc
  rw [(FromOps.accepts S T hS r).1 ha, Except.ok.injEq] at hc
  subst hc
  have hlen : (FromOps.lat S T).logicals.length = T.length := by
    show (FromOps.logs T).length = _
    simp [FromOps.logs]
  rw [← hlen] at his
  exact circuit_of (FromOps.wf S T) (FromOps.comm hv) (FromOps.sched hy hy') api r his hcom

/-- The sample of a run with errors of the qubits and of the measurements is the sample of the faults that happened (as C66). -/
theorem C53_sample {F : Type} (api : FloatApi F) (rng : Rng F) (r : Nat) {S T : List (Op n)} (hS : S ≠ [])
    (hv : (⟨S, T⟩ : StabCode n).Valid) (hy : ∀ s ∈ S, s.NoY) (hy' : ∀ s ∈ T, s.NoY) (c : LatCode)
    (hc : fromOperators (arrays S) (arrays T) r = .ok c) (qe ge : List (List Char × ErrDict F)) (hg : ∀ e ∈ ge, e.2 = [])
    (sel : LogicalSel) (anc : Bool) (circ : List (Gate F)) (S0 S' : Sim (numberOfQubits circ)) (s : Sample) (hr : 1 ≤ r)
    (hZ : anc = true ∨ OnlyZ c sel ∧ SameWeight c sel)
    (h : generateCircuit api c qe ge sel anc = .ok circ) (hrun : S0.run api rng circ true = .ok S')
    (hsam : Sample.fromRaw c S'.results.1 S'.results.2 anc = .ok s) :
    ∃ N : Noise, N.Gives c r (flagsOf qe) sel (S0.reset.events api rng circ) s := by
  have ha := (FromOps.accepts S T hS r).2 c hc
  rw [(FromOps.accepts S T hS r).1 ha, Except.ok.injEq] at hc
  subst hc
  obtain ⟨hT, he, _, _, h1, h2⟩ := ha
  have hw := FromOps.wf S T
  have hs := FromOps.sched hy hy'
  obtain ⟨_, _, _, is, _, his, _⟩ := noisy_circuit hw hs hg h
  obtain ⟨N, h1, h2, _, h4⟩ := noisy_sample hw (FromOps.comm hv) (FromOps.full hS hT he h1 h2) hs api rng hr hg his
    (hZ.imp id fun hz => ⟨letters_z hw hs his hz.1, weights_eq hw his hz.2⟩) h hrun
  obtain ⟨k1, k2, k3, k4, k5⟩ := h4 s hsam
  exact ⟨N, gives_of his h1 h2 k1 k2 k3 k4 k5⟩

/-! ### Non-vacuity -/

/-- The [[4,2,2]] code. -/
def fourCode : StabCode 4 := ⟨[opAt 4 [0, 1, 2, 3] [] false, opAt 4 [] [0, 1, 2, 3] false],
  (List.range 2).flatMap fun i => [opAt 4 [0, i + 1] [] false, opAt 4 [] [i + 1, 3] false]⟩

/-- The [[4,2,2]] code can be made, and its letters are not Y. -/
example : ∃ c, fromOperators (arrays fourCode.stabilisers) (arrays fourCode.logicalOps) 3 = .ok c ∧ arrays c.code.stabilisers = arrays fourCode.stabilisers ∧
    c.code.Valid ∧ (∀ s ∈ fourCode.stabilisers, s.NoY) ∧ ∀ s ∈ fourCode.logicalOps, s.NoY := by
  have hv : fourCode.Valid := (check_iff fourCode (by decide) (by decide) (by decide)).1 (by decide +kernel)
  obtain ⟨c, h1, _, h3, _, h5⟩ := C53_plus_partial (S := fourCode.stabilisers) (T := fourCode.logicalOps) (by decide) (by decide) (by decide) hv (by decide) (by decide)
    (by
      intro s hs
      refine ⟨0, ?_⟩
      revert s
      decide) (by decide) (by decide) 3
  refine ⟨c, h1, h3, h5, ?_, ?_⟩ <;> unfold Op.NoY <;> decide

end Plaquette
