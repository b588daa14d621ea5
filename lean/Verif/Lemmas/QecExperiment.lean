import Verif.Lemmas.QecFamilies
import Verif.Lemmas.Sample
import Verif.Props.Circuit
import Verif.Props.Sim

/-!
# The whole experiment without errors
-/

namespace Plaquette
variable {F : Type} {L : Lattice}

theorem mem_round (hf : L.Full) (hs : L.Sched) : ∃ a ∈ L.stabgens.map Prod.fst, (g1 .R (L.idx a) : Name × List (Val F)) ∈ L.roundGates := by
  obtain ⟨s, hs'⟩ := List.exists_mem_of_ne_nil _ hf.stab_ne
  refine ⟨s.1, List.mem_map_of_mem hs', ?_⟩
  unfold Lattice.roundGates Lattice.stabBlocks
  rw [List.mem_flatMap]
  have hin : ∀ (as : List Pos) (es : List LEdge), s.1 ∈ as → (g1 .R (L.idx s.1) : Name × List (Val F)) ∈ blockGates L.idx as es := by
    intro as es h
    unfold blockGates
    refine List.mem_append_left _ (List.mem_flatMap.mpr ⟨L.idx s.1, List.mem_map_of_mem h, by simp⟩)
  rcases hs.steps with h | ⟨h, _⟩
  · rw [h]
    exact ⟨_, List.mem_map_of_mem hs', hin _ _ (by simp)⟩
  · obtain ⟨T, hT, _⟩ := h.steps
    rw [hT]
    exact ⟨_, List.mem_singleton_self _, hin _ _ (List.mem_map_of_mem hs')⟩

theorem data_fit (hw : L.Wf) (hf : L.Full) (hs : L.Sched) (anc : Bool) (r : Nat) (as : List Pos) {c : List (Gate F)}
    (hc : c = (L.quietGates anc r as).map toGate) : L.dataqubits.length ≤ numberOfQubits c := by
  obtain ⟨a, ha, hm⟩ := mem_round (F := F) hf hs
  have h1 : toGate (g1 .R (L.idx a) : Name × List (Val F)) ∈ c := by
    rw [hc]
    refine List.mem_map_of_mem ?_
    unfold Lattice.quietGates
    refine List.mem_append_left _ (List.mem_append_right _ (List.mem_flatten.mpr ⟨_, ?_, hm⟩))
    exact List.mem_replicate.mpr ⟨by omega, rfl⟩
  have h2 := C19_fits c _ h1 (L.idx a) (by simp [toGate, g1, Gate.qubits, targetsOf])
  have := hw.anc_idx (List.mem_append_left _ ha : a ∈ L.ancillas)
  omega

/-- The rows of the syndrome of equal rounds. -/
theorem syndrome_replicate (k : Nat) (row : List Bool) :
    List.zipWith xorL (List.replicate (k + 1) row).tail (List.replicate (k + 1) row).dropLast =
      List.replicate k (List.replicate row.length false) := by
  rw [List.tail_replicate, List.dropLast_replicate, Nat.add_sub_cancel, List.zipWith_replicate, Nat.min_self]
  congr 1
  unfold xorL
  induction row with
  | nil => rfl
  | cons b row ih => simp [ih, List.replicate_succ]

theorem xorL_self (l : List Bool) : xorL l l = List.replicate l.length false := by
  unfold xorL
  induction l with
  | nil => rfl
  | cons b l ih => simp [ih, List.replicate_succ]

/-- The circuit without errors runs; its results. -/
theorem quiet_run (hw : L.Wf) (hc : L.Comm) (hf : L.Full) (hs : L.Sched) (api : FloatApi F) (rng : Rng F) (pos r : Nat)
    {qe ge : List (List Char × ErrDict F)} (hq : ∀ e ∈ qe, e.2 = []) (hg : ∀ e ∈ ge, e.2 = []) {sel : LogicalSel} {anc : Bool}
    {c : List (Gate F)} (h : generateCircuit api (L.latCode r) qe ge sel anc = .ok c) :
    ∃ (S : Sim (numberOfQubits c)) (as : List Pos), (Sim.fresh (numberOfQubits c) pos).run api rng c true = .ok S ∧
      (∃ is, logicalOpsToIndices L.logicals.length sel = .ok is ∧ as = is.map L.selPos) ∧ as.length = L.logicals.length / 2 ∧
      (∀ a ∈ as, a ∈ L.logicals.map Prod.fst) ∧ S.results.2 = none ∧
      (anc = true → ∃ f : Pos → Bool, S.results.1 = as.map f ++
        (List.replicate (r - 1 + 2) ((L.stabgens.map Prod.fst).map f)).flatten ++ as.map f) ∧
      (anc = false → ∃ (inits finals : List (List Bool)) (row : List Bool),
        S.results.1 = inits.flatten ++ (List.replicate (r - 1 + 2) row).flatten ++ finals.flatten ∧
        row.length = L.stabgens.length ∧
        List.Forall₂ (fun a (ms : List Bool) => ms.length = (L.opEdges a).length) as inits ∧
        List.Forall₂ (fun a (ms : List Bool) => ms.length = (L.opEdges a).length) as finals ∧
        ((∀ a ∈ as, ∀ e ∈ L.opEdges a, e.factor = .Z) → inits.map parity = finals.map parity)) := by
  unfold generateCircuit at h
  cases hG : Gen.make (L.latCode r) qe ge anc with
  | error e => rw [hG] at h; simp at h
  | ok G =>
    rw [hG] at h
    dsimp only at h
    obtain ⟨hQ, hcode, hanc⟩ := quiet_of_empty hq hg hG
    obtain ⟨is, h1, h2, h3, h4, h5⟩ := quiet_circuit hQ hcode hw hs.noY h
    rw [hanc] at h5
    have has : ∀ a ∈ is.map L.selPos, a ∈ L.logicals.map Prod.fst := by
      intro a ha
      obtain ⟨i, hi, rfl⟩ := List.mem_map.mp ha
      have := h3 i hi
      have hlt : i.toNat < L.logicals.length := by omega
      unfold Lattice.selPos
      rw [List.getElem?_eq_getElem hlt]
      exact List.mem_map_of_mem (List.getElem_mem hlt)
    have hplain := quiet_plain (F := F) hw hc hs anc r (is.map L.selPos) (fun a ha => List.mem_append_right _ (has a ha))
    have hn := data_fit hw hf hs anc r _ h5
    have hfit := C19_fits c
    have hI : (Sim.fresh (numberOfQubits c) pos).reset.Is ⟨zeroVec _, pos, [], []⟩ :=
      ⟨zeroState_valid _, (C05_zero_state _).2, rfl, rfl, rfl⟩
    have hfit' : FitsIn ((L.quietGates anc r (is.map L.selPos) : List (Name × List (Val F))).map toGate) (numberOfQubits c) := by rw [← h5]; exact hfit
    obtain ⟨S, σ, hr, hv, hS⟩ := plain_run (api := api) (rng := rng) hplain hfit' hI
    refine ⟨S, is.map L.selPos, ?_, ⟨is, h1, rfl⟩, by simpa using h2, has, ?_, ?_, ?_⟩
    · unfold Sim.run
      rw [if_pos rfl]
      rw [← h5] at hr
      exact hr
    · have her : σ.erasure = [] := by
        cases anc with
        | true =>
          exact (quiet_results_anc hw hc hs hn r _ has (by
            intro a ha b hb
            obtain ⟨i, hi, rfl⟩ := List.mem_map.mp ha
            obtain ⟨j, hj, rfl⟩ := List.mem_map.mp hb
            exact h4 i hi j hj) hv (C05_zero_state _).2.1).1
        | false => exact (quiet_results_direct hw hc hs hn r _ has hv (C05_zero_state _).2.1).1
      unfold Sim.results
      rw [hS.2.2.2.2, her]
      rfl
    · rintro rfl
      obtain ⟨_, f, hm⟩ := quiet_results_anc hw hc hs hn r _ has (by
            intro a ha b hb
            obtain ⟨i, hi, rfl⟩ := List.mem_map.mp ha
            obtain ⟨j, hj, rfl⟩ := List.mem_map.mp hb
            exact h4 i hi j hj) hv (C05_zero_state _).2.1
      refine ⟨f, ?_⟩
      unfold Sim.results
      rw [hS.2.2.2.1, hm]
      rfl
    · rintro rfl
      obtain ⟨_, inits, finals, row, hm, h'⟩ := quiet_results_direct hw hc hs hn r _ has hv (C05_zero_state _).2.1
      refine ⟨inits, finals, row, ?_, h'⟩
      unfold Sim.results
      rw [hS.2.2.2.1, hm]
      rfl

/-- No event. -/
def Sample.Quiet (s : Sample) (r stabs k : Nat) : Prop :=
  s.syndrome = List.replicate r (List.replicate stabs false) ∧ s.toggle = List.replicate k false

theorem quiet_anc (hw : L.Wf) (hc : L.Comm) (hf : L.Full) (hs : L.Sched) (api : FloatApi F) (rng : Rng F) (pos : Nat) {r : Nat} (hr : 1 ≤ r)
    {qe ge : List (List Char × ErrDict F)} (hq : ∀ e ∈ qe, e.2 = []) (hg : ∀ e ∈ ge, e.2 = []) {sel : LogicalSel}
    {c : List (Gate F)} (h : generateCircuit api (L.latCode r) qe ge sel true = .ok c) :
    ∃ (S : Sim (numberOfQubits c)) (s : Sample), (Sim.fresh (numberOfQubits c) pos).run api rng c true = .ok S ∧
      Sample.fromRaw (L.latCode r) S.results.1 S.results.2 true = .ok s ∧
      s.Quiet r L.stabgens.length (L.logicals.length / 2) := by
  obtain ⟨S, as, h1, _, hl, _, h2, h3, _⟩ := quiet_run hw hc hf hs api rng pos r hq hg h
  obtain ⟨f, hf'⟩ := h3 rfl
  have hk : (L.latCode r).code.nLogicalQubits = L.logicals.length / 2 := by
    simp [StabCode.nLogicalQubits, Lattice.code]
  have hpos : 1 ≤ L.logicals.length / 2 := by
    have h1 := hf.log_even
    have h2 := List.length_pos_iff.mpr hf.log_ne
    omega
  have hr' : r - 1 + 2 = r + 1 := by omega
  rw [hr'] at hf'
  have hsp := split_anc (L.latCode r) (as.map f) (as.map f) (List.replicate (r + 1) ((L.stabgens.map Prod.fst).map f)).flatten
    (by rw [hk, ← hl]; simp) (by rw [hk, ← hl]; simp) (by rw [hk]; exact hpos)
  have := fromRaw_of_split (L.latCode r) _ true _ _ _ none hsp (by simp) (by
    intro x hx
    rw [(List.mem_replicate.mp hx).2]
    simp [Lattice.code]) (by simp)
  refine ⟨S, _, h1, by rw [h2, hf']; exact this, ?_, ?_⟩
  · unfold sampleOf
    rw [syndrome_replicate]
    simp
  · unfold sampleOf
    rw [xorL_self]
    simp [hl]

theorem quiet_direct (hw : L.Wf) (hc : L.Comm) (hf : L.Full) (hs : L.Sched) (api : FloatApi F) (rng : Rng F) (pos : Nat) {r : Nat} (hr : 1 ≤ r)
    {qe ge : List (List Char × ErrDict F)} (hq : ∀ e ∈ qe, e.2 = []) (hg : ∀ e ∈ ge, e.2 = []) {sel : LogicalSel}
    {is : List Int} (his : logicalOpsToIndices L.logicals.length sel = .ok is)
    (heq : ∀ l ∈ L.logicals, ∀ i ∈ is, (L.opEdges (L.selPos i)).length = (L.opEdges l.1).length)
    {c : List (Gate F)} (h : generateCircuit api (L.latCode r) qe ge sel false = .ok c) :
    ∃ (S : Sim (numberOfQubits c)) (s : Sample), (Sim.fresh (numberOfQubits c) pos).run api rng c true = .ok S ∧
      Sample.fromRaw (L.latCode r) S.results.1 S.results.2 false = .ok s ∧
      s.syndrome = List.replicate r (List.replicate L.stabgens.length false) ∧
      ((∀ i ∈ is, ∀ e ∈ L.opEdges (L.selPos i), e.factor = .Z) → s.toggle = List.replicate (L.logicals.length / 2) false) := by
  obtain ⟨S, as, h1, ⟨is', hi1, has⟩, hl, _, h2, _, h3⟩ := quiet_run hw hc hf hs api rng pos r hq hg h
  rw [his, Except.ok.injEq] at hi1
  subst hi1
  obtain ⟨inits, finals, row, h4, h5, h6, h7, h8⟩ := h3 rfl
  have hk : (L.latCode r).code.nLogicalQubits = L.logicals.length / 2 := by
    simp [StabCode.nLogicalQubits, Lattice.code]
  have hpos : 1 ≤ L.logicals.length / 2 := by
    have h1 := hf.log_even
    have h2 := List.length_pos_iff.mpr hf.log_ne
    omega
  have hr' : r - 1 + 2 = r + 1 := by omega
  rw [hr'] at h4
  obtain ⟨l, ls, hls⟩ := List.exists_cons_of_ne_nil hf.log_ne
  have hfw : firstWeight (L.latCode r).code = .ok (L.opEdges l.1).length := by
    have := hw.weight l.1
    unfold Op.weight at this
    have e : (L.latCode r).code.logicalOps = L.vop l.1 :: ls.map fun s => L.vop s.1 := by simp [Lattice.code, hls]
    unfold firstWeight
    rw [e]
    dsimp only
    rw [this]
  have hl1 : 1 ≤ (L.opEdges l.1).length := List.length_pos_iff.mpr (hf.log l (by rw [hls]; simp))
  have len : ∀ mss : List (List Bool), List.Forall₂ (fun a (ms : List Bool) => ms.length = (L.opEdges a).length) as mss →
      mss.length = L.logicals.length / 2 ∧ ∀ ms ∈ mss, ms.length = (L.opEdges l.1).length := by
    intro mss hm
    refine ⟨by rw [← hm.length_eq, hl], ?_⟩
    have key : ∀ {as : List Pos} {mss : List (List Bool)},
        List.Forall₂ (fun a (ms : List Bool) => ms.length = (L.opEdges a).length) as mss →
        (∀ a ∈ as, (L.opEdges a).length = (L.opEdges l.1).length) → ∀ ms ∈ mss, ms.length = (L.opEdges l.1).length := by
      intro as mss hm ha
      induction hm with
      | nil => simp
      | cons h1 _ ih =>
        intro ms hms
        rcases List.mem_cons.mp hms with rfl | hms
        · rw [h1, ha _ (by simp)]
        · exact ih (fun a h => ha a (by simp [h])) ms hms
    refine key hm ?_
    rw [has]
    intro a ha
    obtain ⟨i, hi, rfl⟩ := List.mem_map.mp ha
    exact heq l (by rw [hls]; simp) i hi
  obtain ⟨a1, a2⟩ := len inits h6
  obtain ⟨b1, b2⟩ := len finals h7
  have hsp := split_direct (L.latCode r) _ hfw hl1 inits finals (List.replicate (r + 1) row).flatten
    (by rw [hk]; exact a1) (by rw [hk]; exact b1) a2 b2 (by rw [hk]; exact hpos)
  have := fromRaw_of_split (L.latCode r) _ false _ _ _ none hsp (by simp) (by
    intro x hx
    rw [(List.mem_replicate.mp hx).2, h5]
    simp [Lattice.code]) (by simp)
  refine ⟨S, _, h1, by rw [h2, h4]; exact this, ?_, ?_⟩
  · unfold sampleOf
    rw [syndrome_replicate, h5]
  · intro hZ
    unfold sampleOf
    rw [h8 (by
      rw [has]
      intro a ha
      obtain ⟨i, hi, rfl⟩ := List.mem_map.mp ha
      exact hZ i hi), xorL_self]
    simp [b1]

end Plaquette
