import Verif.Lemmas.Stim

/-!
# Properties C24, C25, C26, C51: the Stim backend
-/

namespace Plaquette

/-! ### C24 -/

/-- **C24** `k` alternatives of the chain emitted for probability `p` with `k p ≤ 1`: each happens with probability exactly
`p` and none with probability `1 - k p`. -/
theorem C24_equiprobable (p : ℝ) (steps : List (List STarget)) (hk : steps.length * p ≤ 1) :
    (∀ j < steps.length, chainProb (chainParams p 0 steps) j = p) ∧
      chainNone (chainParams p 0 steps) = 1 - steps.length * p := by
  obtain ⟨h1, h2⟩ := chain_key p steps 0 (by simpa using hk) (Or.inl (by simp))
  simp only [Nat.cast_zero, zero_mul, sub_zero, one_mul, Nat.zero_add] at h1 h2
  exact ⟨h1, h2⟩

/-- **C24** the emitted conditional probabilities are probabilities. -/
theorem C24_probabilities (p : ℝ) (hp : 0 ≤ p) (steps : List (List STarget)) (hk : steps.length * p ≤ 1) :
    ∀ q ∈ chainParams p 0 steps, 0 ≤ q ∧ q ≤ 1 := by
  have key : ∀ (steps : List (List STarget)) (i : Nat), ((i + steps.length : ℕ) : ℝ) * p ≤ 1 →
      ∀ q ∈ chainParams p i steps, 0 ≤ q ∧ q ≤ 1 := by
    intro steps
    induction steps with
    | nil => intro i _ q hq; simp [chainParams, appendEquiprobable] at hq
    | cons s steps ih =>
      intro i hk q hq
      have hlen : i + (s :: steps).length = (i + 1) + steps.length := by simp; omega
      rw [hlen] at hk
      have h1 : ((i + 1 : ℕ) : ℝ) * p ≤ ((i + 1 + steps.length : ℕ) : ℝ) * p := by
        apply mul_le_mul_of_nonneg_right _ hp
        exact_mod_cast by omega
      have h2 : (i : ℝ) * p + p ≤ 1 := by push_cast at h1 hk; linarith
      rw [chainParams_cons] at hq
      rcases List.mem_cons.mp hq with rfl | hq
      · constructor
        · exact div_nonneg hp (by linarith)
        · exact div_le_one_of_le₀ (by linarith) (by linarith)
      · exact ih (i + 1) hk q hq
  exact key steps 0 (by simpa using hk)

/-- **C24** the chain: the first instruction starts it, the others continue it, and the alternatives are the given ones. -/
theorem C24_chain_shape (p : ℝ) (steps : List (List STarget)) :
    (appendEquiprobable p 0 steps).map SInstr.targets = steps ∧
      (appendEquiprobable p 0 steps).map SInstr.name =
        (List.range steps.length).map fun i => if i = 0 then "CORRELATED_ERROR".toList else "ELSE_CORRELATED_ERROR".toList := by
  have key : ∀ (steps : List (List STarget)) (i : Nat), (appendEquiprobable p i steps).map SInstr.targets = steps ∧
      (appendEquiprobable p i steps).map SInstr.name =
        (List.range' i steps.length).map fun i => if i = 0 then "CORRELATED_ERROR".toList else "ELSE_CORRELATED_ERROR".toList := by
    intro steps
    induction steps with
    | nil => intro i; exact ⟨rfl, rfl⟩
    | cons s steps ih =>
      intro i
      obtain ⟨h1, h2⟩ := ih (i + 1)
      constructor
      · rw [appendEquiprobable, List.map_cons, h1]
      · rw [appendEquiprobable, List.map_cons, h2, List.length_cons, List.range'_succ, List.map_cons]
        congr 1
        by_cases hi : i = 0
        · simp [hi]
        · rw [if_pos (by omega), if_neg hi]; rfl
  rw [List.range_eq_range']
  exact key steps 0

/-- **C24** an erasure of qubit `q` with probability `p` anywhere in a circuit: it is translated into a reset of an ancilla
`a` that the circuit does not use, a chain of four alternatives (X, Y, Z or nothing on the qubit, always with the ancilla
flipped) of probability `p / 4` each, where with probability `1 - p` none happens, and a measurement of the ancilla, whose
result is marked as an erasure. -/
theorem C24_erasure (api : FloatApi ℝ) (c pre post : List (Gate ℝ)) (v w : Val ℝ) (p : ℝ) (q : Nat)
    (hc : c = pre ++ ⟨.E_ERASE, [v, w]⟩ :: post) (hv : v = .flt p ∨ ∃ i, v = .int i ∧ p = api.ofInt i)
    (hw : w = .int q) (hp : p ≤ 1) (is : List (SInstr ℝ)) (fl : List Bool) (h : circuitToStim api c = .ok (is, fl)) :
    ∃ (a : Nat) (before chain after : List (SInstr ℝ)) (fl1 fl2 : List Bool),
      is = before ++ (⟨"R".toList, [.qubit a], []⟩ :: (chain ++ [⟨"M".toList, [.qubit a], []⟩])) ++ after ∧
      fl = fl1 ++ true :: fl2 ∧ (before.map SInstr.records).sum = fl1.length ∧
      (∀ g ∈ c, Val.int a ∉ g.args) ∧
      chain.map SInstr.targets = [[.x a, .x q], [.x a, .y q], [.x a, .z q], [.x a]] ∧
      chain.map SInstr.name = ["CORRELATED_ERROR".toList, "ELSE_CORRELATED_ERROR".toList, "ELSE_CORRELATED_ERROR".toList,
        "ELSE_CORRELATED_ERROR".toList] ∧
      (∀ j < 4, chainProb (chain.flatMap SInstr.params) j = p / 4) ∧ chainNone (chain.flatMap SInstr.params) = 1 - p := by
  have split : ∀ (pre : List (Gate ℝ)) (anc : Nat) (is : List (SInstr ℝ)) (fl : List Bool),
      stimLoop api anc (pre ++ ⟨.E_ERASE, [v, w]⟩ :: post) = .ok (is, fl) →
      ∃ is1 fl1 is2 fl2 i f, stimGate api anc ⟨.E_ERASE, [v, w]⟩ = .ok (i, f) ∧ is = is1 ++ i ++ is2 ∧ fl = fl1 ++ f ++ fl2 ∧
        (is1.map SInstr.records).sum = fl1.length := by
    intro pre anc
    induction pre with
    | nil =>
      intro is fl h
      rw [List.nil_append, stimLoop] at h
      cases hg : stimGate api anc ⟨.E_ERASE, [v, w]⟩ with
      | error e => rw [hg] at h; simp at h
      | ok r =>
        obtain ⟨i, f⟩ := r
        rw [hg] at h
        simp only at h
        cases hl : stimLoop api anc post with
        | error e => rw [hl] at h; simp at h
        | ok r' =>
          obtain ⟨is2, fl2⟩ := r'
          rw [hl] at h
          simp only [Except.ok.injEq, Prod.mk.injEq] at h
          exact ⟨[], [], is2, fl2, i, f, rfl, by rw [← h.1]; rfl, by rw [← h.2]; rfl, rfl⟩
    | cons g pre ih =>
      intro is fl h
      rw [List.cons_append, stimLoop] at h
      cases hg : stimGate api anc g with
      | error e => rw [hg] at h; simp at h
      | ok r =>
        obtain ⟨i0, f0⟩ := r
        rw [hg] at h
        simp only at h
        cases hl : stimLoop api anc (pre ++ ⟨.E_ERASE, [v, w]⟩ :: post) with
        | error e => rw [hl] at h; simp at h
        | ok r' =>
          obtain ⟨is', fl'⟩ := r'
          rw [hl] at h
          simp only [Except.ok.injEq, Prod.mk.injEq] at h
          obtain ⟨is1, fl1, is2, fl2, i, f, h1, h2, h3, h4⟩ := ih _ _ hl
          refine ⟨i0 ++ is1, f0 ++ fl1, is2, fl2, i, f, h1, ?_, ?_, ?_⟩
          · rw [← h.1, h2]; simp
          · rw [← h.2, h3]; simp
          · rw [List.map_append, List.sum_append, h4, (stimGate_flags api anc g i0 f0 hg).2, List.length_append]
  obtain ⟨is1, fl1, is2, fl2, i, f, hg, h2, h3, h4⟩ := split pre (numberOfQubits c) is fl (by rw [← hc]; exact h)
  have hpv : stimProb api v = .ok p := by
    rcases hv with rfl | ⟨i, rfl, rfl⟩ <;> rfl
  have hqv : stimQubit w = .ok (q : Int) := by subst hw; simp [stimQubit]
  have hg' : stimGate api (numberOfQubits c) ⟨.E_ERASE, [v, w]⟩ = .ok (⟨"R".toList, [.qubit (numberOfQubits c : Int)], []⟩ ::
      (appendEquiprobable (p / 4) 0 [[.x (numberOfQubits c : Int), .x q], [.x (numberOfQubits c : Int), .y q],
        [.x (numberOfQubits c : Int), .z q], [.x (numberOfQubits c : Int)]] ++
          [⟨"M".toList, [.qubit (numberOfQubits c : Int)], []⟩]), [true]) := by
    simp only [stimGate, hpv, hqv]
  rw [hg] at hg'
  simp only [Except.ok.injEq, Prod.mk.injEq] at hg'
  obtain ⟨k1, k2⟩ := C24_equiprobable (p / 4) [[.x (numberOfQubits c : Int), .x q], [.x (numberOfQubits c : Int), .y q],
        [.x (numberOfQubits c : Int), .z q], [.x (numberOfQubits c : Int)]] (by simp; linarith)
  refine ⟨numberOfQubits c, is1, _, is2, fl1, fl2, ?_, ?_, h4, ancilla_fresh c, rfl, rfl, k1, ?_⟩
  · rw [h2, hg'.1]
  · rw [h3, hg'.2]; simp
  · refine Eq.trans k2 ?_
    simp only [List.length_cons, List.length_nil]
    push_cast
    ring

/-- Real numbers as the field of floats, for the example. -/
noncomputable def realApi : FloatApi ℝ :=
  { repr := fun _ => [], parse := fun _ => none, ofInt := fun i => i, trunc := fun _ => .ok 0, inUnit := fun _ => true }

-- an erasure between two measurements
example : ∃ is fl, circuitToStim realApi ([⟨.M, [.int 0]⟩] ++ ⟨.E_ERASE, [.flt (1 / 2), .int (1 : Nat)]⟩ :: [⟨.M, [.int 1]⟩]) =
    .ok (is, fl) := ⟨_, _, rfl⟩

-- four alternatives with probability one quarter each: the last conditional probability is one
example : chainParams (1 / 4) 0 [[.x 0], [.y 0], [.z 0], []] = [1 / 4, 1 / 3, 1 / 2, 1] := by
  simp [chainParams, appendEquiprobable, equiProb]; norm_num

/-! ### C25 -/

variable {α : Type}

/-- **C25** the runs of a Stim simulator, from its creation or last reset on: run number `j` (from zero) returns row
`j mod B` of batch number `j div B`. -/
theorem C25_batches (smp : Sampler α) (B : Nat) (hB : 0 < B) (k : Nat) :
    ∃ s, StimState.reset.runs smp B k = .ok (s, (List.range k).map fun j => smp (j / B) (j % B)) := by
  have key : ∀ k j (s : StimState α), s.After smp B j →
      ∃ s', s.runs smp B k = .ok (s', (List.range' j k).map fun j => smp (j / B) (j % B)) := by
    intro k
    induction k with
    | zero => intro j s _; exact ⟨s, rfl⟩
    | succ k ih =>
      intro j s hs
      obtain ⟨s1, h1, h2⟩ := run_after smp hB j s hs
      obtain ⟨s2, h3⟩ := ih (j + 1) s1 h2
      refine ⟨s2, ?_⟩
      rw [StimState.runs, h1]
      simp only [h3]
      rw [List.range'_succ, List.map_cons]
  rw [List.range_eq_range']
  exact key k 0 StimState.reset (Or.inl ⟨rfl, rfl⟩)

/-- **C25** hence no row is handed out twice and none is left out: batch `b`, row `r` is the result of run `b B + r`. -/
theorem C25_each_row_once (smp : Sampler α) (B : Nat) (hB : 0 < B) (b r k : Nat) (hr : r < B) (hk : b * B + r < k)
    (s : StimState α) (rows : List α) (h : StimState.reset.runs smp B k = .ok (s, rows)) :
    rows[b * B + r]? = some (smp b r) := by
  obtain ⟨s', h'⟩ := C25_batches smp B hB k
  rw [h] at h'
  simp only [Except.ok.injEq, Prod.mk.injEq] at h'
  rw [h'.2]
  have e1 : (b * B + r) / B = b := by
    rw [Nat.mul_comm, Nat.mul_add_div hB, Nat.div_eq_of_lt hr, Nat.add_zero]
  have e2 : (b * B + r) % B = r := by rw [Nat.mul_comm, Nat.mul_add_mod, Nat.mod_eq_of_lt hr]
  rw [List.getElem?_map, List.getElem?_range hk]
  simp [e1, e2]

example : (StimState.reset.runs (fun b r => 10 * b + r) 3 7).map Prod.snd = .ok [0, 1, 2, 10, 11, 12, 20] := by rfl

/-! ### C51 -/

/-- **C51 (full statement)** repeated `Device.run` of the same argument gives the samples of its circuit one after the
other. -/
def C51_statement : Prop := ∀ (α : Type) (smp : Nat → Sampler α) (B : Nat), 0 < B → ∀ (arg : CircArg) (k : Nat),
  ∃ d, StimDevice.runs smp B arg k { backend := none } = .ok (d, (List.range k).map fun j => smp arg.circ (j / B) (j % B))

/-- **C51 fails** for circuit builders: the backend keeps the circuit inside the builder, so the test whether the circuit is
still the same always fails and a new backend with the same seed is made for each run; every run returns the same row. -/
theorem C51_builder_counterexample : ¬ C51_statement := by
  intro h
  obtain ⟨d, hd⟩ := h Nat (fun _ b r => 10 * b + r) 3 (by omega) (.builder 0 1) 2
  have : (StimDevice.runs (fun _ b r => 10 * b + r) 3 (.builder 0 1) 2 { backend := none }).map Prod.snd = .ok [0, 0] := rfl
  rw [hd] at this
  simp [Except.map] at this
  exact absurd this (by decide)

/-- **C51** every run of a builder returns row 0 of batch 0 of a new backend. -/
theorem C51_builder_repeats (smp : Nat → Sampler α) (B : Nat) (hB : 0 < B) (i c k : Nat) (d : StimDevice α) :
    ∃ d', d.runs smp B (.builder i c) k = .ok (d', List.replicate k (smp c 0 0)) := by
  induction k generalizing d with
  | zero => exact ⟨d, rfl⟩
  | succ k ih =>
    have : ∃ d', d.run smp B (.builder i c) = .ok (d', smp c 0 0) := by
      obtain ⟨s', h1, _⟩ := run_after (smp c) hB 0 StimState.reset (Or.inl ⟨rfl, rfl⟩)
      simp only [Nat.zero_div, Nat.zero_mod] at h1
      refine ⟨{ backend := some (c, s') }, ?_⟩
      cases hb : d.backend with
      | none => simp [StimDevice.run, hb, CircArg.circ, h1]
      | some p => simp [StimDevice.run, hb, CircArg.circ, CircArg.is, h1]
    obtain ⟨d1, h1⟩ := this
    obtain ⟨d2, h2⟩ := ih d1
    refine ⟨d2, ?_⟩
    rw [StimDevice.runs, h1]
    simp only [h2, List.replicate_succ]

/-- **C51, part that holds**: circuits. Missing: builders. -/
theorem C51_circuit_partial (smp : Nat → Sampler α) (B : Nat) (hB : 0 < B) (c k : Nat) :
    ∃ d, StimDevice.runs smp B (.circuit c) k { backend := none } =
      .ok (d, (List.range k).map fun j => smp c (j / B) (j % B)) := by
  have key : ∀ k j (s : StimState α), s.After (smp c) B j →
      ∃ d, StimDevice.runs smp B (.circuit c) k { backend := some (c, s) } =
        .ok (d, (List.range' j k).map fun j => smp c (j / B) (j % B)) := by
    intro k
    induction k with
    | zero => intro j s _; exact ⟨_, rfl⟩
    | succ k ih =>
      intro j s hs
      obtain ⟨s1, h1, h2⟩ := run_after (smp c) hB j s hs
      obtain ⟨d, h3⟩ := ih (j + 1) s1 h2
      refine ⟨d, ?_⟩
      have : StimDevice.run smp B { backend := some (c, s) } (.circuit c) =
          .ok ({ backend := some (c, s1) }, smp c (j / B) (j % B)) := by
        simp [StimDevice.run, CircArg.is, h1]
      rw [StimDevice.runs, this]
      simp only [h3]
      rw [List.range'_succ, List.map_cons]
  rw [List.range_eq_range']
  cases k with
  | zero => exact ⟨_, rfl⟩
  | succ k =>
    obtain ⟨s1, h1, h2⟩ := run_after (smp c) hB 0 StimState.reset (Or.inl ⟨rfl, rfl⟩)
    obtain ⟨d, h3⟩ := key k 1 s1 h2
    refine ⟨d, ?_⟩
    have : StimDevice.run smp B { backend := none } (.circuit c) =
        .ok ({ backend := some (c, s1) }, smp c (0 / B) (0 % B)) := by
      simp [StimDevice.run, CircArg.circ, h1]
    rw [StimDevice.runs, this]
    simp only [h3]
    rw [List.range'_succ, List.map_cons]

/-! ### C26 -/

section c26
variable {F : Type} [Field F]

/-- **C26 (full statement)** -/
def C26_statement : Prop := ∀ (F : Type) (_ : Field F) (api : FloatApi F) (c : List (Gate F)) (is : List (SInstr F)) (fl : List Bool),
  circuitToStim api c = .ok (is, fl) → ∀ ps, RecordOf c ps →
    stimResults fl ps.flatten =
      .ok (partsOf .M c ps, if (partsOf .E_ERASE c ps).length = 0 then none else some (partsOf .E_ERASE c ps))

/-- **C26 fails** for a circuit without any measurement or erasure: the empty list of flags becomes an array of floats, which
`~` does not accept. -/
theorem C26_empty_record_counterexample : ¬ C26_statement := by
  intro h
  have := h ℚ inferInstance { repr := fun _ => [], parse := fun _ => none, ofInt := fun i => i, trunc := fun _ => .ok 0, inUnit := fun _ => true }
    [⟨.H, [.int 0]⟩] [⟨"H".toList, [.qubit 0], []⟩] [] rfl [[]] (.cons rfl .nil)
  simp [stimResults] at this

/-- **C26, part that holds**: for every circuit that is translated and has at least one measurement or erasure, and every
measurement record: Stim's record has the length of the list of flags, the returned results are exactly the record entries of
the M instructions in circuit order, the erasures exactly those of the E_ERASE instructions in circuit order.
Missing: circuits without any record entry. -/
theorem C26_split_partial (api : FloatApi F) (c : List (Gate F)) (is : List (SInstr F)) (fl : List Bool)
    (h : circuitToStim api c = .ok (is, fl)) (ps : List (List Bool)) (hr : RecordOf c ps) (hne : ps.flatten ≠ []) :
    (is.map SInstr.records).sum = ps.flatten.length ∧
    stimResults fl ps.flatten =
      .ok (partsOf .M c ps, if (partsOf .E_ERASE c ps).length = 0 then none else some (partsOf .E_ERASE c ps)) := by
  obtain ⟨h1, h2, h3, h4⟩ := stimLoop_split api _ c is fl h ps hr
  refine ⟨h1.trans h2.symm, ?_⟩
  have hfl : fl ≠ [] := by
    rintro rfl
    exact hne (List.eq_nil_of_length_eq_zero h2)
  unfold stimResults
  rw [if_neg hfl, if_neg (by simpa using h2), h3, h4]

omit [Field F] in
/-- **C26** the ancilla that announces erasures is none of the qubits of the circuit. -/
theorem C26_ancilla_fresh (c : List (Gate F)) : ∀ g ∈ c, Val.int (numberOfQubits c : Int) ∉ g.args := ancilla_fresh c

/-- **C26** every instruction of a translated circuit acts on the qubits of the circuit and the ancilla only: no target is negative
and none lies beyond the ancilla. -/
theorem C26_targets (api : FloatApi F) (c : List (Gate F)) (is : List (SInstr F)) (fl : List Bool)
    (h : circuitToStim api c = .ok (is, fl)) : ∀ i ∈ is, ∀ t ∈ i.targets, 0 ≤ t.index ∧ t.index ≤ numberOfQubits c := by
  refine stimLoop_targets api _ c is fl h fun g hg k hk => ?_
  have h1 := (maxGates_foldl c 0).2.1 g hg _ hk
  have h2 := (maxGates_foldl c 0).1
  unfold numberOfQubits
  omega

/-- **C26** a negative qubit is refused. -/
theorem C26_negative (api : FloatApi F) (k : Int) (hk : k < 0) : circuitToStim api [⟨.M, [.int k]⟩] = .error .valueError := by
  simp [circuitToStim, stimLoop, stimGate, stimAppend, mapE, stimQubit, not_le.2 hk]

/-- A field of floats for the example. -/
def ratApi : FloatApi ℚ :=
  { repr := fun _ => [], parse := fun _ => none, ofInt := fun i => i, trunc := fun _ => .ok 0, inUnit := fun _ => true }

-- a measurement, an erasure and two more measurements
example : (circuitToStim ratApi [⟨.M, [.int 0]⟩, ⟨.E_ERASE, [.flt 1, .int 0]⟩, ⟨.M, [.int 0, .int 1]⟩]).map Prod.snd =
    .ok [false, true, false, false] ∧
    stimResults [false, true, false, false] [true, true, false, true] = .ok ([true, false, true], some [true]) := ⟨rfl, rfl⟩

end c26

end Plaquette
