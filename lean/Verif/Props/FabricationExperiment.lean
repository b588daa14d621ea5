import Verif.Props.DistanceDecode
import Verif.Props.FabricationCircuit
import Verif.Props.MatchingExperiment

/-!
# Experiments with codes that have fabrication errors (C130)
-/

namespace Plaquette
variable {F : Type}

/-- As `C126_distance`, where the sample may say of every qubit that it was not erased. -/
theorem distance_erased {n : Nat} {code : StabCode n} {d : Nat} (hd : ∀ e, code.IsLogical e → d ≤ e.weight) {r : Nat} {g : SynGraph FW}
    (hg : mkSynGraph FW.isInf r code.stabilisers none = .ok g) {σ : Type} {b : Backend FW σ} {lossy : Bool} (hb : Fewest lossy b) (f : Faults n)
    {erased syn : Option (List (List Bool))} (her : ShapeOk r n erased) (hE : ∀ t q, ¬ SynBit erased t q)
    (hsyn : ShapeOk r code.stabilisers.length syn) (hf : f.Shows r code.stabilisers syn)
    (hfew : f.letters r code.stabilisers.length + f.errors r < d) :
    ∃ states p, setupAll b g = .ok states ∧ decode b g n states erased syn = .ok p ∧ f.Corrected r code.logicalOps p := by
  obtain ⟨states, hst, hsound, hdec⟩ := hb n r code.stabilisers g hg
  obtain ⟨p, hp, sel, h1, h2, h3⟩ := hdec erased syn her hsyn (fun _ => hE) (shows_explainable hf hg hsyn)
  obtain ⟨er, he, hbe⟩ := arrayOr_ok her
  have hle := h3 er he _ (rep_explain hf hg hsyn)
  have hno : ∀ i, ¬ edgeErased g er i = true := by
    intro i hi
    rw [edgeErased_iff hbe] at hi
    obtain ⟨_, _, _, _, _, _, _, hs⟩ := hi
    exact hE _ _ hs
  simp only [if_neg (hno _), Finset.sum_const, nsmul_eq_mul, mul_one, Nat.cast_le] at hle
  have hs : f.Corrected r code.stabilisers p := by
    intro gen hgen
    obtain ⟨s, hs⟩ := List.getElem?_of_mem hgen
    rw [← shows_total hf hs, ← C38_correction hg hsound hp s gen hs, anticommutes_iff, anticommutes_iff, anti_symm]
  refine ⟨states, p, hst, hp, light_corrected hd hs ?_⟩
  have hw := residual_weight (f := f) h2 r
  have hc := rep_card f hg
  omega

/-- **C130** For every lattice with fabrication errors, the sample of a shot is that of the faults that its events show. -/
def C130_statement : Prop := ∀ (F : Type) (api : FloatApi F) (rng : Rng F) (r : Nat) (L : Lattice) (c : LatCode) (qe ge : List (List Char × ErrDict F)) (sel : LogicalSel)
  (circ : List (Gate F)) (S0 S : Sim (numberOfQubits circ)) (s : Sample), 1 ≤ r → L.Fabricated → mkLatCode L r = .ok c → (∀ e ∈ ge, e.2 = []) →
  generateCircuit api c qe ge sel true = .ok circ → S0.run api rng circ true = .ok S → Sample.fromRaw c S.results.1 S.results.2 true = .ok s →
  ∃ N : Noise, N.Gives c r (flagsOf qe) sel (S0.reset.events api rng circ) s

/-- **C130 (partial)**: the sample is that of the faults if all edges of the stabilisers have a time step, or there are no time steps. Missing: lattices with time steps where
stabilisers were joined, where the statement is false. -/
theorem C130_sample_partial (api : FloatApi F) (rng : Rng F) (r : Nat) (hr : 1 ≤ r) (L : Lattice) (c : LatCode) (hL : L.Fabricated) (hc : mkLatCode L r = .ok c)
    (hsched : L.AllScheduled) (qe ge : List (List Char × ErrDict F)) (hg : ∀ e ∈ ge, e.2 = []) (sel : LogicalSel) (anc : Bool)
    (hZ : anc = true ∨ OnlyZ c sel ∧ SameWeight c sel) (circ : List (Gate F)) (S0 S : Sim (numberOfQubits circ)) (s : Sample)
    (h : generateCircuit api c qe ge sel anc = .ok circ) (hrun : S0.run api rng circ true = .ok S) (hsam : Sample.fromRaw c S.results.1 S.results.2 anc = .ok s) :
    ∃ N : Noise, N.Gives c r (flagsOf qe) sel (S0.reset.events api rng circ) s := by
  obtain ⟨hw, hC, hy, _⟩ := fabricated_good hL
  obtain ⟨hf, rfl⟩ := mkLatCode_inv hw hc
  obtain ⟨L0, h0, he⟩ := fabricated_edited hL
  have hs := he.sched h0 hw.keys hy hsched
  obtain ⟨_, _, _, is, _, his, _⟩ := noisy_circuit hw hs hg h
  obtain ⟨N, h1, h2, _, h4⟩ := noisy_sample hw hC hf hs api rng hr hg his
    (hZ.imp id fun hz => ⟨letters_z hw hs his hz.1, weights_eq hw his hz.2⟩) h hrun
  obtain ⟨k1, k2, k3, k4, k5⟩ := h4 s hsam
  exact ⟨N, gives_of his h1 h2 k1 k2 k3 k4 k5⟩

/-- **C130** If `d` is the distance of the code, `k` data qubits have been removed and nothing can be erased, shots with few faults are decoded successfully by the
matching decoders: the letters of the errors and the wrong outcomes and the errors together are fewer than `d - k`. -/
theorem C130_success (api : FloatApi F) (rng : Rng F) (r : Nat) (hr : 1 ≤ r) {L L' : Lattice} (h0 : L.CssFabricated) (ha : L.AfterErrors L') (hL : L'.Fabricated)
    {c c' : LatCode} (hc : mkLatCode L r = .ok c) (hc' : mkLatCode L' r = .ok c') {d : Nat} (hd : c.code.HasDistance d) (hsched : L'.AllScheduled)
    (qe ge : List (List Char × ErrDict F)) (hg : ∀ e ∈ ge, e.2 = []) (hq : ∀ q < c'.n, (flagsOf qe).erasure q = false) (sel : LogicalSel) (anc : Bool)
    (hZ : anc = true ∨ OnlyZ c' sel ∧ SameWeight c' sel) (circ : List (Gate F)) (S0 S : Sim (numberOfQubits circ)) (s : Sample)
    (h : generateCircuit api c' qe ge sel anc = .ok circ) (hrun : S0.run api rng circ true = .ok S) (hsam : Sample.fromRaw c' S.results.1 S.results.2 anc = .ok s) :
    ∃ N : Noise, N.Gives c' r (flagsOf qe) sel (S0.reset.events api rng circ) s ∧
      ((N.faults c'.n).letters r c'.code.stabilisers.length + (N.faults c'.n).errors r + (c.n - c'.n) < d →
        (∀ solve, IsPyMatching solve → Succeeds (pmBackend solve) c' r sel s) ∧ ∀ solve, IsFusionBlossom solve → Succeeds (fbBackend solve) c' r sel s) := by
  obtain ⟨N, hN⟩ := C130_sample_partial api rng r hr L' c' hL hc' hsched qe ge hg sel anc hZ circ S0 S s h hrun hsam
  refine ⟨N, hN, fun hfew => ?_⟩
  have hno : ∀ t q, ¬ SynBit s.erased t q := by
    intro t q hb
    obtain ⟨a, row, hA, hrow, hbq⟩ := hb
    obtain ⟨s1, s2⟩ := hN.erasedShape a hA
    have ht : t < r := by rw [← s1]; exact (List.getElem?_eq_some_iff.1 hrow).1
    have hqn : q < c'.n := by
      have h' := s2 row (List.mem_of_getElem? hrow)
      have h'' := (List.getElem?_eq_some_iff.1 hbq).1
      rw [h'] at h''
      exact h''
    have := (hN.erased t ht q hqn).1 ⟨a, row, hA, hrow, hbq⟩
    rw [hN.only.erased t q (.inl (hq q hqn))] at this
    cases this
  have key : ∀ {σ : Type} {b : Backend FW σ} {lossy : Bool}, Fewest lossy b → Succeeds b c' r sel s := by
    intro σ b lossy hb
    obtain ⟨g, hgr⟩ := C124_graph (afterErrors_back h0 ha).1 hc' FW.isInf r
    obtain ⟨states, p, h1, h2, h3⟩ := distance_erased (code := c'.code) (d := d - (c.n - c'.n)) (fun e he => by
      obtain ⟨e0, k1, k2⟩ := C125_lift h0 ha hc hc' e he
      have := hd.least e0 k1
      omega) hgr hb (N.faults c'.n) hN.erasedShape hno hN.shape hN.shows (by omega)
    obtain ⟨hw, hC, hy, _⟩ := fabricated_good hL
    obtain ⟨hf, rfl⟩ := mkLatCode_inv hw hc'
    obtain ⟨L0, hs0, he⟩ := fabricated_edited hL
    obtain ⟨_, _, _, is, _, his, _⟩ := noisy_circuit hw (he.sched hs0 hw.keys hy hsched) hg h
    refine succeeds_corrected hf his hN.faults hgr h1 h2 fun op hop => h3 op ?_
    obtain ⟨v, hv, rfl⟩ := List.mem_map.1 hop
    obtain ⟨i, hi, rfl⟩ := List.mem_map.1 hv
    obtain ⟨_, hb⟩ := indices_inv his
    have hn : i.toNat < L'.logicals.length := by have := hb i hi; omega
    have hsel : L'.selPos i = (L'.logicals[i.toNat]).1 := by simp [Lattice.selPos, List.getElem?_eq_getElem hn]
    rw [hsel]
    exact List.mem_map_of_mem (f := fun s => L'.vop s.1) (List.getElem_mem hn)
  exact ⟨fun solve hS => key (pm_fewest hS), fun solve hS => key (fb_fewest hS)⟩

/-- If nothing is erased, the letters and the errors are at most three times the faults. -/
theorem letters_count {N : Noise} {c : LatCode} {r : Nat} {fl : Flags} (h : N.Only fl c.n r) (hq : ∀ q < c.n, fl.erasure q = false) (m : Nat) :
    (N.faults c.n).letters r m + (N.faults c.n).errors r ≤ 3 * N.count c.n m r := by
  have inj : Function.Injective fun p : Nat × Fin c.n => (p.1, p.2.val) := by
    rintro ⟨a, b⟩ ⟨a', b'⟩ e
    simp only [Prod.mk.injEq] at e
    exact Prod.ext e.1 (Fin.ext e.2)
  have key : ∀ P : Op c.n → Fin c.n → Bool, (∀ o q, P o q = true → (o.x q || o.z q) = true) →
      Set.ncard {p : Nat × Fin c.n | p.1 < r ∧ P (N.op c.n p.1) p.2 = true} ≤
        Set.ncard {p : Nat × Nat | p.1 < r ∧ p.2 < c.n ∧ N.pauli p.1 p.2 ≠ 0 ∧ N.erased p.1 p.2 = false} := by
    intro P hP
    rw [← Set.ncard_image_of_injective _ inj]
    refine Set.ncard_le_ncard ?_ (finite_pairs _ r c.n)
    rintro _ ⟨⟨t, q⟩, ⟨ht, hp⟩, rfl⟩
    have he : N.erased t q = false := h.erased t q (.inl (hq q q.2))
    refine ⟨ht, q.2, fun h0 => ?_, he⟩
    have hp := hP _ _ hp
    have h0 : N.pauli t q = 0 := h0
    simp [Noise.op, h0, h.scramble t q he, numX, numZ] at hp
  have k1 := key (fun o q => o.x q) (fun o q hx => by simp [hx])
  have k2 := key (fun o q => o.z q) (fun o q hx => by simp [hx])
  have k3 := key (fun o q => o.x q || o.z q) (fun o q hx => hx)
  have e1 : (N.faults c.n).letters r m = Set.ncard {p : Nat × Fin c.n | p.1 < r ∧ (N.op c.n p.1).x p.2 = true} +
    Set.ncard {p : Nat × Fin c.n | p.1 < r ∧ (N.op c.n p.1).z p.2 = true} + Set.ncard {p : Nat × Nat | p.1 < r ∧ p.2 < m ∧ N.wrong p.1 p.2 = true} := rfl
  have e2 : (N.faults c.n).errors r = Set.ncard {p : Nat × Fin c.n | p.1 < r ∧ ((N.op c.n p.1).x p.2 || (N.op c.n p.1).z p.2) = true} := rfl
  have e3 : N.count c.n m r = Set.ncard {p : Nat × Nat | p.1 < r ∧ p.2 < c.n ∧ N.pauli p.1 p.2 ≠ 0 ∧ N.erased p.1 p.2 = false} +
    Set.ncard {p : Nat × Nat | p.1 < r ∧ p.2 < m ∧ N.wrong p.1 p.2 = true} := rfl
  rw [e1, e2, e3]
  omega

/-- **C130** In particular fewer than a third of `d - k` faults. -/
theorem C130_third (api : FloatApi F) (rng : Rng F) (r : Nat) (hr : 1 ≤ r) {L L' : Lattice} (h0 : L.CssFabricated) (ha : L.AfterErrors L') (hL : L'.Fabricated)
    {c c' : LatCode} (hc : mkLatCode L r = .ok c) (hc' : mkLatCode L' r = .ok c') {d : Nat} (hd : c.code.HasDistance d) (hsched : L'.AllScheduled)
    (qe ge : List (List Char × ErrDict F)) (hg : ∀ e ∈ ge, e.2 = []) (hq : ∀ q < c'.n, (flagsOf qe).erasure q = false) (sel : LogicalSel) (anc : Bool)
    (hZ : anc = true ∨ OnlyZ c' sel ∧ SameWeight c' sel) (circ : List (Gate F)) (S0 S : Sim (numberOfQubits circ)) (s : Sample)
    (h : generateCircuit api c' qe ge sel anc = .ok circ) (hrun : S0.run api rng circ true = .ok S) (hsam : Sample.fromRaw c' S.results.1 S.results.2 anc = .ok s) :
    ∃ N : Noise, N.Gives c' r (flagsOf qe) sel (S0.reset.events api rng circ) s ∧
      (3 * N.count c'.n c'.code.stabilisers.length r + (c.n - c'.n) < d →
        (∀ solve, IsPyMatching solve → Succeeds (pmBackend solve) c' r sel s) ∧ ∀ solve, IsFusionBlossom solve → Succeeds (fbBackend solve) c' r sel s) := by
  obtain ⟨N, hN, hs⟩ := C130_success api rng r hr h0 ha hL hc hc' hd hsched qe ge hg hq sel anc hZ circ S0 S s h hrun hsam
  refine ⟨N, hN, fun hfew => hs ?_⟩
  have := letters_count hN.only hq c'.code.stabilisers.length
  omega

/-- **C130 fails** for the rotated planar code of size 3 without the data qubit in the middle: there are events without any fault. -/
theorem C130_hole_counterexample : ¬ C130_statement := by
  intro hst
  have h := hole_run
  cases hm : rotatedHole with
  | error e => rw [hm] at h; simp at h
  | ok L =>
    rw [hm] at h
    simp only [Bool.and_eq_true] at h
    obtain ⟨hg, ht⟩ := h
    obtain ⟨hw, _, hf⟩ := isGood_spec hg
    cases hr : toggles natApi (rngBits holeBits) (L.latCode 1) (.str "Z".toList) true with
    | error e => rw [hr] at ht; simp at ht
    | ok res =>
      rw [hr] at ht
      obtain ⟨circ, S, s, h1, h2, h3, rfl⟩ := toggles_inv hr
      obtain ⟨N, hN⟩ := hst Nat natApi (rngBits holeBits) 1 L (L.latCode 1) [] [] _ circ _ S s (le_refl 1) (hole_fabricated hm) (mkLatCode_ok hw hf 1) (by simp) h1 h2 h3
      have hz : ∀ t (o : Op L.dataqubits.length), anti o (N.op L.dataqubits.length t) = false := by
        intro t o
        have he : ∀ q, N.erased t q = false := fun q => hN.only.erased t q (.inl rfl)
        have hp : ∀ q, N.pauli t q = 0 := fun q => hN.only.pauli t q (.inl rfl)
        have hs : ∀ q, N.scramble t q = 0 := fun q => hN.only.scramble t q (he q)
        rw [anti_symm]
        exact anti_zero (fun q => by simp [Noise.op, hp, hs, numX]) (fun q => by simp [Noise.op, hp, hs, numZ])
      have hw0 : ∀ t q, N.wrong t q = false := fun t q => hN.only.wrong t q rfl
      simp only [List.any_eq_true, id_eq] at ht
      obtain ⟨row, hrow, b, hb, ht⟩ := ht
      subst ht
      obtain ⟨t, htr⟩ := List.getElem?_of_mem hrow
      obtain ⟨k, hk⟩ := List.getElem?_of_mem hb
      obtain ⟨s1, s2⟩ := hN.shape _ rfl
      have ht1 : t < 1 := by rw [← s1]; exact (List.getElem?_eq_some_iff.1 htr).1
      have hk1 : k < (L.latCode 1).code.stabilisers.length := by rw [← s2 row hrow]; exact (List.getElem?_eq_some_iff.1 hk).1
      have := (hN.shows.2 t ht1 k _ (List.getElem?_eq_getElem hk1)).1 ⟨_, _, rfl, htr, hk⟩
      simp only [Noise.faults, anticommutes_iff, hw0] at this
      rcases this with ⟨h4, _⟩ | ⟨h4, _⟩
      · rw [hz] at h4; cases h4
      · simp [Xor] at h4

/-! ## The hypotheses are met

The rotated code of size 4 without the qubit in the corner, and an error `X` on one of the other qubits. -/

/-- The qubit in the corner of the rotated code of size 4 is missing. -/
def rotatedCorner4 : Except Err Lattice :=
  match rotatedLattice 4 false diagOrder with
  | .ok L => L.applyFabrication [.pos (1, 1)] [] [] none none
  | .error e => .error e

set_option maxRecDepth 100000 in
theorem corner4_run : (match rotatedCorner4 with
    | .ok L => L.isGood && decide (L.dataqubits.length = 15) && decide (scheduleOf L = (some 4, 0)) &&
        (match noisySample natApi (rngBits []) (L.latCode 1) onePauli (.str "Z".toList) true with
        | .ok res => res.2.1.any fun l => l.any id
        | .error _ => false)
    | .error _ => false) = true := by decide +kernel

/-- With the random numbers of the example all Pauli channels apply `X`. -/
theorem events_x {n : Nat} (bs : List Bool) (gs : List (Gate Nat)) (S : Sim n) (q : Nat) (k : Fin 4) (h : Event.pauli q k ∈ S.events natApi (rngBits bs) gs) : k = 1 := by
  induction gs generalizing S with
  | nil => cases h
  | cons g gs ih =>
    rw [Sim.events, List.mem_append] at h
    rcases h with h | h
    · unfold eventOf at h
      split at h
      · split at h
        · simp only [rngBits, List.mem_singleton, Event.pauli.injEq] at h
          exact h.2
        · cases h
      · split at h <;> simp at h
      · split at h <;> simp at h
      · cases h
    · split at h
      · exact ih _ h
      · cases h

example : ∃ L L' c c' circ S s, L.CssFabricated ∧ L.AfterErrors L' ∧ L'.Fabricated ∧ mkLatCode L 1 = .ok c ∧ mkLatCode L' 1 = .ok c' ∧ c.n = c'.n + 1 ∧
    c.code.HasDistance 4 ∧ L'.AllScheduled ∧ generateCircuit natApi c' onePauli [] (.str "Z".toList) true = .ok circ ∧
    (Sim.fresh (numberOfQubits circ) 0).run natApi (rngBits []) circ true = .ok S ∧ Sample.fromRaw c' S.results.1 S.results.2 true = .ok s ∧
    (∃ row ∈ s.syndrome, true ∈ row) ∧
    (∀ solve, IsPyMatching solve → Succeeds (pmBackend solve) c' 1 (.str "Z".toList) s) ∧
    ∀ solve, IsFusionBlossom solve → Succeeds (fbBackend solve) c' 1 (.str "Z".toList) s := by
  have h := corner4_run
  cases hm : rotatedCorner4 with
  | error e => rw [hm] at h; simp at h
  | ok L' =>
    rw [hm] at h
    simp only [Bool.and_eq_true, decide_eq_true_eq, scheduleOf, Prod.mk.injEq] at h
    obtain ⟨⟨⟨hgood, hn⟩, -, hcount⟩, hrun⟩ := h
    obtain ⟨hw, _, hf⟩ := isGood_spec hgood
    unfold rotatedCorner4 at hm
    cases h0 : rotatedLattice 4 false diagOrder with
    | error e => rw [h0] at hm; simp at hm
    | ok L =>
      rw [h0] at hm
      obtain ⟨c, hc, hd⟩ := C60_rotated 1 4 false (by omega)
      rw [makeRotated, h0] at hc
      have hcn : c.n = 16 := by
        obtain ⟨-, rfl⟩ := mkLatCode_inv (cssFabricated_wf (.rotated (by omega) h0)) hc
        have h1 := h0
        rw [Rotated.make (by omega) diagOrder (by decide), Except.ok.injEq] at h1
        subst h1
        decide +kernel
      have hn' : (L'.latCode 1).n = 15 := hn
      cases hr : noisySample natApi (rngBits []) (L'.latCode 1) onePauli (.str "Z".toList) true with
      | error e => rw [hr] at hrun; simp at hrun
      | ok res =>
        rw [hr] at hrun
        obtain ⟨circ, S, s, h1, h2, h3, rfl⟩ := noisySample_inv hr
        have hcss : L.CssFabricated := .rotated (by omega) h0
        have haft : L.AfterErrors L' := .errors .none (Or.inl rfl) hm
        have hfab : L'.Fabricated := .errors (.rotated (by omega) h0) (Or.inl rfl) (Or.inl rfl) hm
        have hc' := mkLatCode_ok hw hf 1
        have hsch : L'.AllScheduled := Or.inr fun e he hs hn => by
          have := (List.countP_eq_zero.mp hcount) e he
          simp [hs, hn] at this
        have hq : ∀ q < (L'.latCode 1).n, (flagsOf onePauli).erasure q = false := by rw [hn']; decide +kernel
        obtain ⟨N, hN, hok⟩ := C130_success natApi (rngBits []) 1 (le_refl 1) hcss haft hfab hc hc' hd hsch onePauli [] (by simp) hq _ true (.inl rfl) circ _ S s h1 h2 h3
        have hp : ∀ t, ∀ q < 15, q ≠ 1 → N.pauli t q = 0 := fun t q hq h1 => hN.only.pauli t q (.inl (by
          have : ∀ q < 15, q ≠ 1 → (flagsOf onePauli).pauli q = false := by decide +kernel
          exact this q hq h1))
        have hx : ∀ t < 1, N.pauli t 1 = 1 := by
          intro t ht
          refine events_x [] circ (Sim.fresh (numberOfQubits circ) 0).reset 1 _ ?_
          rw [hN.events, Noise.events, List.mem_flatMap]
          refine ⟨t, List.mem_range.2 ht, List.mem_append_left _ ?_⟩
          rw [Noise.dataEvents, List.mem_flatMap]
          have hfl : (flagsOf onePauli).pauli 1 = true := by decide +kernel
          exact ⟨1, List.mem_range.2 (by rw [hn']; omega), List.mem_append_left _ (by rw [if_pos hfl]; exact List.mem_singleton.2 rfl)⟩
        have he : ∀ t, ∀ q < 15, N.erased t q = false := fun t q hq' => hN.only.erased t q (.inl (hq q (by rw [hn']; exact hq')))
        have one : ∀ P : Op (L'.latCode 1).n → Fin (L'.latCode 1).n → Bool, (∀ o q, P o q = true → (o.x q || o.z q) = true) →
            Set.ncard {p : Nat × Fin (L'.latCode 1).n | p.1 < 1 ∧ P (N.op _ p.1) p.2 = true} ≤ 1 := by
          intro P hP
          refine (Set.ncard_le_ncard (t := {(0, ⟨1, by rw [hn']; omega⟩)}) ?_ (Set.finite_singleton _)).trans_eq (Set.ncard_singleton _)
          rintro ⟨t, q⟩ ⟨ht, hPq⟩
          have ht' : t < 1 := ht
          obtain rfl : t = 0 := by omega
          refine Prod.ext rfl (Fin.ext ?_)
          by_contra hne
          have hq15 : q.val < 15 := by rw [← hn']; exact q.2
          have := hP _ _ hPq
          simp [Noise.op, hp 0 q hq15 hne, hN.only.scramble 0 q (he 0 q hq15), numX, numZ] at this
        have k1 := one (fun o q => o.x q) fun o q h => by simp [h]
        have k2 : {p : Nat × Fin (L'.latCode 1).n | p.1 < 1 ∧ (N.op (L'.latCode 1).n p.1).z p.2 = true} = ∅ := by
          refine Set.eq_empty_of_forall_notMem ?_
          rintro ⟨t, q⟩ ⟨ht, hz⟩
          have ht' : t < 1 := ht
          have hq15 : q.val < 15 := by rw [← hn']; exact q.2
          by_cases hq1 : q.val = 1
          · simp [Noise.op, hq1, hx t ht', hN.only.scramble t 1 (he t 1 (by omega)), numZ] at hz
          · simp [Noise.op, hp t q hq15 hq1, hN.only.scramble t q (he t q hq15), numZ] at hz
        have k3 : {p : Nat × Nat | p.1 < 1 ∧ p.2 < (L'.latCode 1).code.stabilisers.length ∧ N.wrong p.1 p.2 = true} = ∅ := by
          refine Set.eq_empty_of_forall_notMem ?_
          rintro ⟨t, q⟩ ⟨h1, _, h2⟩
          rw [hN.only.last t q (by dsimp only at h1; omega)] at h2
          cases h2
        have k4 := one (fun o q => o.x q || o.z q) fun o q h => h
        have l1 : (N.faults (L'.latCode 1).n).letters 1 (L'.latCode 1).code.stabilisers.length ≤ 1 + 0 + 0 :=
          Nat.add_le_add (Nat.add_le_add k1 ((congrArg Set.ncard k2).trans (Set.ncard_empty _)).le) ((congrArg Set.ncard k3).trans (Set.ncard_empty _)).le
        have l2 : (N.faults (L'.latCode 1).n).errors 1 ≤ 1 := k4
        obtain ⟨m1, m2⟩ := hok (lt_of_le_of_lt (Nat.add_le_add_right (Nat.add_le_add l1 l2) _) (by rw [hcn, hn']; decide))
        refine ⟨L, L', c, _, circ, S, s, hcss, haft, hfab, hc, hc', by rw [hcn, hn'], hd, hsch, h1, h2, h3, ?_, m1, m2⟩
        obtain ⟨row, hrow, hb⟩ := List.any_eq_true.1 hrun
        obtain ⟨b, hb, hb'⟩ := List.any_eq_true.1 hb
        rw [show b = true from hb'] at hb
        exact ⟨row, hrow, hb⟩

end Plaquette
