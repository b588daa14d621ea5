import Verif.Lemmas.NoisyGen
import Verif.Lemmas.FaultEdges
import Verif.Spec.Noise

/-!
# The sample of a noisy run
-/

namespace Plaquette
variable {F : Type} {n : Nat} {api : FloatApi F} {rng : Rng F} {L : Lattice}

theorem round_fit (hw : L.Wf) (hf : L.Full) (hs : L.Sched) {c : List (Gate F)} (hc : ∀ g ∈ L.noisyRound fun _ => [], g ∈ c) :
    L.dataqubits.length ≤ numberOfQubits c := by
  obtain ⟨s, hs'⟩ := List.exists_mem_of_ne_nil _ hf.stab_ne
  have hin : ∀ (as : List Pos) (es : List LEdge), s.1 ∈ as → toGate (g1 .R (L.idx s.1) : Name × List (Val F)) ∈ noisyBlock (fun _ => []) L.idx as es := by
    intro as es h
    unfold noisyBlock
    exact List.mem_append_left _ (List.mem_map_of_mem (List.mem_flatMap.mpr ⟨L.idx s.1, List.mem_map_of_mem h, by simp⟩))
  have h1 : toGate (g1 .R (L.idx s.1) : Name × List (Val F)) ∈ L.noisyRound fun _ => [] := by
    unfold Lattice.noisyRound Lattice.stabBlocks
    rw [List.mem_flatMap]
    rcases hs.steps with h | ⟨h, _⟩
    · rw [h]
      exact ⟨_, List.mem_map_of_mem hs', hin _ _ (by simp)⟩
    · obtain ⟨T, hT, _⟩ := h.steps
      rw [hT]
      exact ⟨_, List.mem_singleton_self _, hin _ _ (List.mem_map_of_mem hs')⟩
  have h2 := C19_fits c _ (hc _ h1) (L.idx s.1) (by simp [toGate, g1, Gate.qubits, targetsOf])
  have := hw.anc_idx (List.mem_append_left _ (List.mem_map_of_mem hs') : s.1 ∈ L.ancillas)
  omega

theorem noisy_fit (hw : L.Wf) (hf : L.Full) (hs : L.Sched) (pg eg err : Nat → List (Gate F)) (anc : Bool) (r : Nat) (as : List Pos) :
    L.dataqubits.length ≤ numberOfQubits (L.noisyGates pg eg err anc r as) :=
  round_fit hw hf hs fun _ hg => List.mem_append_right _ (List.mem_append_left _ hg)

/-- Errors on the data qubits of the circuit are errors of the code. -/
theorem anti_lop_op (hw : L.Wf) (hs : L.Sched) (hn : L.dataqubits.length ≤ n) (N : Noise) (a : Pos) (t : Nat) :
    anti (L.lop n a) (N.op n t) = anti (L.vop a) (N.op L.dataqubits.length t) := by
  have hd : ∀ e ∈ L.opEdges a, L.idx e.data < L.dataqubits.length := fun e he => hw.idx_lt (hw.op_data he)
  have hY : ∀ e ∈ L.opEdges a, e.factor ≠ .Y := fun e he => hs.noY e (List.mem_filter.1 he).1
  unfold Lattice.lop Lattice.vop
  rw [anti_symm, anti_symm (edgesOp L.idx L.dataqubits.length _), anti_edges_seen _ _ _ (fun e he => lt_of_lt_of_le (hd e he) hn) hY, anti_edges_seen _ _ _ hd hY]
  refine xorSum_congr fun e he => ?_
  unfold Op.seen
  rw [dif_pos (lt_of_lt_of_le (hd e he) hn), dif_pos (hd e he)]
  rfl

theorem cum_xsum (hw : L.Wf) (hs : L.Sched) (hn : L.dataqubits.length ≤ n) (N : Noise) (a : Pos) (t : Nat) :
    N.cum (L.lop n a) t = xsum (List.range t) fun u => anti (N.op L.dataqubits.length u) (L.vop a) := by
  induction t with
  | zero => rfl
  | succ t ih => rw [Noise.cum, ih, List.range_succ, xsum_append, anti_lop_op hw hs hn, anti_symm (L.vop a)]; simp

/-- The flags are in rows. -/
theorem erased_rows {d r : Nat} (hr : 1 ≤ r) {fl : Nat → Bool} {e : Nat → Nat → Bool} (he : ∀ t q, fl q = false → e t q = false)
    (hlen : ((List.range r).flatMap fun t => (List.range d).flatMap fun i => if fl i then [e t i] else []).length = 0 ∨
      ((List.range r).flatMap fun t => (List.range d).flatMap fun i => if fl i then [e t i] else []).length = r * d) :
    ∃ er : Option (List (List Bool)), ShapeOk r d er ∧ (∀ t < r, ∀ q < d, SynBit er t q ↔ e t q = true) ∧
      (if ((List.range r).flatMap fun t => (List.range d).flatMap fun i => if fl i then [e t i] else []).length > 0 then
        some ((List.range r).flatMap fun t => (List.range d).flatMap fun i => if fl i then [e t i] else []) else none) = er.map List.flatten := by
  rcases hlen with h | h
  · refine ⟨none, (fun _ h => by cases h), fun t ht q hq => ?_, by rw [if_neg (by omega)]; rfl⟩
    have h := List.length_eq_zero_iff.1 h
    rw [List.flatMap_eq_nil_iff] at h
    have h := h t (List.mem_range.2 ht)
    rw [List.flatMap_eq_nil_iff] at h
    have h := h q (List.mem_range.2 hq)
    have hf : fl q = false := by
      by_contra hc
      rw [Bool.not_eq_false] at hc
      rw [if_pos hc] at h
      cases h
    rw [he t q hf]
    simp [SynBit]
  · by_cases hz : r * d = 0
    · have hd : d = 0 := (Nat.mul_eq_zero.1 hz).resolve_left (by omega)
      subst hd
      exact ⟨none, (fun _ h => by cases h), fun t ht q hq => absurd hq (by omega), by simp⟩
    · have hcnt : ∀ t, ((List.range d).flatMap fun i => if fl i then [e t i] else []).length = (List.range d).countP fl := by
        intro t
        generalize List.range d = l
        induction l with
        | nil => rfl
        | cons a l ih =>
          rw [List.flatMap_cons, List.length_append, ih, List.countP_cons]
          cases fl a <;> simp [Nat.add_comm]
      have hsum : ((List.range r).flatMap fun t => (List.range d).flatMap fun i => if fl i then [e t i] else []).length = r * (List.range d).countP fl := by
        rw [List.length_flatMap]
        simp [hcnt]
      have hall : ∀ q < d, fl q = true := by
        have : (List.range d).countP fl = d := by
          rw [hsum] at h
          exact Nat.eq_of_mul_eq_mul_left (by omega) h
        have h2 : (List.range d).countP fl = (List.range d).length := by rw [this, List.length_range]
        intro q hq
        exact List.countP_eq_length.1 h2 q (List.mem_range.2 hq)
      have hrow : ∀ t, ((List.range d).flatMap fun i => if fl i then [e t i] else []) = (List.range d).map (e t) := by
        intro t
        rw [List.map_eq_flatMap]
        exact List.flatMap_congr fun q hq => by rw [if_pos (hall q (List.mem_range.1 hq))]
      refine ⟨some ((List.range r).map fun t => (List.range d).map (e t)), ?_, ?_, ?_⟩
      · rintro _ ⟨⟩
        refine ⟨by simp, fun row hrow => ?_⟩
        obtain ⟨t, _, rfl⟩ := List.mem_map.1 hrow
        simp
      · intro t ht q hq
        constructor
        · rintro ⟨a, row, ⟨⟩, h2, h3⟩
          rw [List.getElem?_map, List.getElem?_range ht] at h2
          cases h2
          rw [List.getElem?_map, List.getElem?_range hq] at h3
          simpa using h3
        · intro h1
          refine ⟨_, (List.range d).map (e t), rfl, by rw [List.getElem?_map, List.getElem?_range ht]; rfl, ?_⟩
          rw [List.getElem?_map, List.getElem?_range hq, Option.map_some, h1]
      · rw [if_pos (by rw [h]; omega), Option.map_some, ← List.flatMap_def]
        congr 1
        exact List.flatMap_congr fun t _ => hrow t

theorem fromRaw_erasure {c : LatCode} {raw : List Bool} {er : List Bool} {anc : Bool} {s : Sample} (h : Sample.fromRaw c raw (if er.length > 0 then some er else none) anc = .ok s) :
    er.length = 0 ∨ er.length = c.nRounds * c.n := by
  by_cases h0 : er.length = 0
  · exact .inl h0
  · rw [if_pos (by omega)] at h
    unfold Sample.fromRaw at h
    split at h
    · cases h
    · split at h
      · cases h
      · dsimp only at h
        split at h
        · cases h
        · next hx => exact .inr (by omega)

theorem tail_range_map {α : Type} (f : Nat → α) (r : Nat) : ((List.range (r + 1)).map f).tail = (List.range r).map fun t => f (t + 1) := by
  rw [List.range_succ_eq_map, List.map_cons, List.tail_cons, List.map_map]; rfl

theorem dropLast_range_map {α : Type} (f : Nat → α) (r : Nat) : ((List.range (r + 1)).map f).dropLast = (List.range r).map f := by
  rw [List.range_succ, List.map_append, List.map_cons, List.map_nil, List.dropLast_concat]

/-- The sample of results that are those of given faults. -/
theorem sample_of_results (hw : L.Wf) (hf : L.Full) (hs : L.Sched) (hn : L.dataqubits.length ≤ n) {r : Nat} (hr : 1 ≤ r) {sel : LogicalSel} {anc : Bool} {is : List Int}
    (his : logicalOpsToIndices L.logicals.length sel = .ok is)
    (hZ : anc = true ∨ ((∀ i ∈ is, ∀ e ∈ L.opEdges (L.selPos i), e.factor = .Z) ∧
      ∀ l, L.logicals[0]? = some l → ∀ i ∈ is, (L.opEdges (L.selPos i)).length = (L.opEdges l.1).length))
    {N : Noise} {fle : Nat → Bool} (hE' : ∀ t q, fle q = false → N.erased t q = false) (hlast : ∀ t s, r ≤ t + 1 → N.wrong t s = false)
    {v : Pos → Bool} {inits finals : List (List Bool)} (l1 : inits.map List.length = (is.map L.selPos).map (L.selLen anc))
    (l2 : finals.map List.length = (is.map L.selPos).map (L.selLen anc)) (p1 : inits.map parity = (is.map L.selPos).map v)
    (p2 : finals.map parity = (is.map L.selPos).map fun a => v a ^^ N.cum (L.lop n a) r) {S : Sim n}
    (hm : S.meas = inits.flatten ++ ((List.range (r + 1)).map fun t => (L.stabgens.map Prod.fst).map fun a =>
      v a ^^ N.cum (L.lop n a) t ^^ (decide (0 < t) && N.wrong (t - 1) (L.idx a - L.dataqubits.length))).flatten ++ finals.flatten)
    (he : S.erasure = (List.range r).flatMap fun t => (List.range L.dataqubits.length).flatMap fun i => if fle i then [N.erased t i] else []) :
    ((∀ q < L.dataqubits.length, fle q = false) ∨ (∀ q < L.dataqubits.length, fle q = true) →
        ∃ s, Sample.fromRaw (L.latCode r) S.results.1 S.results.2 anc = .ok s) ∧
      ∀ s, Sample.fromRaw (L.latCode r) S.results.1 S.results.2 anc = .ok s →
        (N.faults L.dataqubits.length).Shows r L.code.stabilisers (some s.syndrome) ∧ ShapeOk r L.stabgens.length (some s.syndrome) ∧
        s.toggle = is.map (fun i => xsum (List.range r) fun t => anti (N.op L.dataqubits.length t) (L.vop (L.selPos i))) ∧
        ShapeOk r L.dataqubits.length s.erased ∧ ∀ t < r, ∀ q < L.dataqubits.length, SynBit s.erased t q ↔ N.erased t q = true := by
  have hlen : ∀ bs : List (List Bool), bs.map List.length = (is.map L.selPos).map (L.selLen anc) → bs.map List.length = (is.map (L.logicalBlock anc)).map List.length := by
    intro bs hbs
    rw [hbs, List.map_map, List.map_map]
    refine List.map_congr_left fun i _ => ?_
    unfold Lattice.selLen Lattice.logicalBlock Function.comp
    split <;> simp
  have hrl : ((List.range (r + 1)).map fun t => (L.stabgens.map Prod.fst).map fun a =>
      v a ^^ N.cum (L.lop (n) a) t ^^ (decide (0 < t) && N.wrong (t - 1) (L.idx a - L.dataqubits.length))).map List.length =
      (List.replicate (r + 1) L.stabRow).map List.length := by
    rw [List.map_map, List.map_replicate, List.eq_replicate_iff]
    refine ⟨by simp, fun b hb => ?_⟩
    obtain ⟨t, _, rfl⟩ := List.mem_map.1 hb
    simp [Lattice.stabRow]
  have hres : S.results = (S.meas, if S.erasure.length > 0 then some S.erasure else none) := rfl
  have key : S.erasure.length = 0 ∨ S.erasure.length = r * L.dataqubits.length →
      ∃ er : Option (List (List Bool)), ShapeOk r L.dataqubits.length er ∧ (∀ t < r, ∀ q < L.dataqubits.length, SynBit er t q ↔ N.erased t q = true) ∧
        Sample.fromRaw (L.latCode r) S.results.1 S.results.2 anc = .ok (sampleOf (inits.map parity) (finals.map parity) ((List.range (r + 1)).map fun t => (L.stabgens.map Prod.fst).map fun a =>
      v a ^^ N.cum (L.lop (n) a) t ^^ (decide (0 < t) && N.wrong (t - 1) (L.idx a - L.dataqubits.length))) er) := by
    intro hl
    rw [he] at hl
    obtain ⟨er, e1, e2, e3⟩ := erased_rows hr hE' hl
    refine ⟨er, e1, e2, ?_⟩
    rw [hres]
    dsimp only
    rw [hm, he, e3]
    exact fromRaw_blocks hw hf his (hZ.imp id (·.2)) (hlen _ l1) hrl (hlen _ l2) er fun e hee => e1 e hee
  refine ⟨fun hall => ?_, fun s hsam => ?_⟩
  · have : S.erasure.length = 0 ∨ S.erasure.length = r * L.dataqubits.length := by
      rw [he]
      rcases hall with h0 | h1
      · left
        rw [List.length_eq_zero_iff, List.flatMap_eq_nil_iff]
        intro t _
        rw [List.flatMap_eq_nil_iff]
        intro q hq
        rw [h0 q (List.mem_range.1 hq)]; rfl
      · right
        have : ∀ t, ((List.range L.dataqubits.length).flatMap fun i => if fle i then [N.erased t i] else []) = (List.range L.dataqubits.length).map (N.erased t) := by
          intro t
          rw [List.map_eq_flatMap]
          exact List.flatMap_congr fun q hq => by rw [if_pos (h1 q (List.mem_range.1 hq))]
        rw [List.length_flatMap]
        simp [this]
    obtain ⟨er, _, _, e3⟩ := key this
    exact ⟨_, e3⟩
  · have hl := hsam
    rw [hres] at hl
    obtain ⟨er, e1, e2, e3⟩ := key (fromRaw_erasure hl)
    rw [e3] at hsam
    cases hsam
    refine ⟨⟨fun t s ht => by show ¬ N.wrong t s = true; rw [hlast t s ht]; simp, ?_⟩, ?_, ?_, e1, e2⟩
    · intro t ht s gen hgen
      have hgen : (L.stabgens.map fun s => L.vop s.1)[s]? = some gen := hgen
      rw [List.getElem?_map] at hgen
      cases hst : L.stabgens[s]? with
      | none => rw [hst] at hgen; cases hgen
      | some st =>
        rw [hst] at hgen
        cases hgen
        have hsl : s < L.stabgens.length := (List.getElem?_eq_some_iff.1 hst).1
        have hidx : L.idx st.1 = L.dataqubits.length + s := by
          have := congrArg (fun l => l[s]?) hw.stab_range
          simp only [List.getElem?_map, hst, Option.map_some, List.getElem?_range hsl, Option.some.injEq] at this
          exact this
        rw [anticommutes_iff]
        have hbit : SynBit (some (sampleOf (inits.map parity) (finals.map parity) ((List.range (r + 1)).map fun t => (L.stabgens.map Prod.fst).map fun a =>
            v a ^^ N.cum (L.lop (n) a) t ^^ (decide (0 < t) && N.wrong (t - 1) (L.idx a - L.dataqubits.length))) er).syndrome) t s ↔
            (anti (L.vop st.1) (N.op L.dataqubits.length t) ^^ (N.wrong t s ^^ (decide (0 < t) && N.wrong (t - 1) s))) = true := by
          unfold sampleOf SynBit
          dsimp only
          rw [tail_range_map, dropLast_range_map]
          have hrow : (List.zipWith xorL ((List.range r).map fun t => (L.stabgens.map Prod.fst).map fun a =>
            v a ^^ N.cum (L.lop (n) a) (t + 1) ^^ (decide (0 < t + 1) && N.wrong (t + 1 - 1) (L.idx a - L.dataqubits.length)))
            ((List.range r).map fun t => (L.stabgens.map Prod.fst).map fun a =>
            v a ^^ N.cum (L.lop (n) a) t ^^ (decide (0 < t) && N.wrong (t - 1) (L.idx a - L.dataqubits.length))))[t]? =
            some (xorL ((L.stabgens.map Prod.fst).map fun a =>
            v a ^^ N.cum (L.lop (n) a) (t + 1) ^^ (decide (0 < t + 1) && N.wrong (t + 1 - 1) (L.idx a - L.dataqubits.length)))
            ((L.stabgens.map Prod.fst).map fun a =>
            v a ^^ N.cum (L.lop (n) a) t ^^ (decide (0 < t) && N.wrong (t - 1) (L.idx a - L.dataqubits.length)))) := by
            rw [List.getElem?_zipWith, List.getElem?_map, List.getElem?_map, List.getElem?_range ht]
            rfl
          simp only [Option.some.injEq, exists_eq_left', exists_and_left, hrow]
          unfold xorL
          rw [List.getElem?_zipWith]
          simp only [List.getElem?_map, hst, Option.map_some, Option.some.injEq, Noise.cum, anti_lop_op hw hs hn, hidx, Nat.add_sub_cancel_left, Nat.add_sub_cancel, Nat.succ_pos, decide_true, Bool.true_and]
          generalize v st.1 = a1
          generalize Noise.cum N _ t = a2
          generalize anti (L.vop st.1) _ = a3
          generalize N.wrong t s = a4
          generalize (decide (0 < t) && N.wrong (t - 1) s) = a5
          revert a1 a2 a3 a4 a5
          decide
        rw [hbit]
        show _ ↔ Xor (anti (L.vop st.1) (N.op L.dataqubits.length t) = true) (Xor (N.wrong t s = true) (0 < t ∧ N.wrong (t - 1) s = true))
        have h5 : (0 < t ∧ N.wrong (t - 1) s = true) ↔ (decide (0 < t) && N.wrong (t - 1) s) = true := by simp
        rw [h5]
        generalize anti (L.vop st.1) _ = a3
        generalize N.wrong t s = a4
        generalize (decide (0 < t) && N.wrong (t - 1) s) = a5
        revert a3 a4 a5
        unfold Xor
        decide
    · rintro _ ⟨⟩
      unfold sampleOf
      dsimp only
      rw [tail_range_map, dropLast_range_map]
      refine ⟨by simp, fun row hrow => ?_⟩
      obtain ⟨t, ht⟩ := List.getElem?_of_mem hrow
      rw [List.getElem?_zipWith] at ht
      simp only [List.getElem?_map] at ht
      cases hx : (List.range r)[t]? with
      | none => rw [hx] at ht; cases ht
      | some u =>
        rw [hx] at ht
        cases ht
        simp [xorL]
    · show xorL (inits.map parity) (finals.map parity) = _
      rw [p1, p2]
      unfold xorL
      rw [List.zipWith_map, List.zipWith_self, List.map_map]
      refine List.map_congr_left fun i _ => ?_
      rw [Function.comp, cum_xsum hw hs hn]
      cases v (L.selPos i) <;> simp

/-- The sample of a noisy run. -/
theorem noisy_sample (hw : L.Wf) (hc : L.Comm) (hf : L.Full) (hs : L.Sched) (api : FloatApi F) (rng : Rng F) {r : Nat} (hr : 1 ≤ r)
    {qe ge : List (List Char × ErrDict F)} (hg : ∀ e ∈ ge, e.2 = []) {sel : LogicalSel} {anc : Bool} {is : List Int}
    (his : logicalOpsToIndices L.logicals.length sel = .ok is)
    (hZ : anc = true ∨ ((∀ i ∈ is, ∀ e ∈ L.opEdges (L.selPos i), e.factor = .Z) ∧
      ∀ l, L.logicals[0]? = some l → ∀ i ∈ is, (L.opEdges (L.selPos i)).length = (L.opEdges l.1).length))
    {c : List (Gate F)} (h : generateCircuit api (L.latCode r) qe ge sel anc = .ok c) {S0 S : Sim (numberOfQubits c)}
    (hrun : S0.run api rng c true = .ok S) :
    ∃ N : Noise, N.Only (flagsOf qe) L.dataqubits.length r ∧
      S0.reset.events api rng c = N.events (flagsOf qe) L.dataqubits.length L.stabgens.length r ∧
      ((∀ q < L.dataqubits.length, (flagsOf qe).erasure q = false) ∨ (∀ q < L.dataqubits.length, (flagsOf qe).erasure q = true) →
        ∃ s, Sample.fromRaw (L.latCode r) S.results.1 S.results.2 anc = .ok s) ∧
      ∀ s, Sample.fromRaw (L.latCode r) S.results.1 S.results.2 anc = .ok s →
        (N.faults L.dataqubits.length).Shows r L.code.stabilisers (some s.syndrome) ∧ ShapeOk r L.stabgens.length (some s.syndrome) ∧
        s.toggle = is.map (fun i => xsum (List.range r) fun t => anti (N.op L.dataqubits.length t) (L.vop (L.selPos i))) ∧
        ShapeOk r L.dataqubits.length s.erased ∧ ∀ t < r, ∀ q < L.dataqubits.length, SynBit s.erased t q ↔ N.erased t q = true := by
  obtain ⟨pg, eg, err, is', hE, i1, i2, i3, i4, rfl⟩ := noisy_circuit hw hs hg h
  obtain rfl : is' = is := by rw [his] at i1; cases i1; rfl
  have hn := noisy_fit hw hf hs pg eg err anc r (is'.map L.selPos)
  have hI : S0.reset.Is ⟨zeroVec _, S0.pos, [], []⟩ :=
    ⟨zeroState_valid _, (C05_zero_state _).2, rfl, rfl, rfl⟩
  unfold Sim.run at hrun
  rw [if_pos rfl] at hrun
  have has : ∀ a ∈ is'.map L.selPos, a ∈ L.logicals.map Prod.fst := by
    intro a ha
    obtain ⟨i, hi, rfl⟩ := List.mem_map.mp ha
    have := i3 i hi
    have hlt : i.toNat < L.logicals.length := by omega
    unfold Lattice.selPos
    rw [List.getElem?_eq_getElem hlt]
    exact List.mem_map_of_mem (List.getElem_mem hlt)
  obtain ⟨N, v, inits, finals, hO, l1, l2, p1, p2, hm, he, hev⟩ := noisy_results hw hc hs hn has (by
      intro a ha b hb
      obtain ⟨i, hi, rfl⟩ := List.mem_map.mp ha
      obtain ⟨j, hj, rfl⟩ := List.mem_map.mp hb
      exact i4 i hi j hj) (anc := anc) (hZ.imp id fun h a ha => by
      obtain ⟨i, hi, rfl⟩ := List.mem_map.mp ha
      exact h.1 i hi) hE hI (C05_zero_state _).2.1 hr hrun
  have hm0 : S0.reset.meas = [] := rfl
  have he0 : S0.reset.erasure = [] := rfl
  rw [hm0, List.nil_append, ← List.append_assoc] at hm
  rw [he0, List.nil_append] at he
  exact ⟨N, hO, hev, sample_of_results hw hf hs hn hr his hZ (fun t q hq => hO.erased t q (.inl hq)) hO.last l1 l2 p1 p2 hm he⟩

end Plaquette
