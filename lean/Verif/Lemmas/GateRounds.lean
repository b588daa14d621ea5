import Verif.Lemmas.GateGen
import Verif.Lemmas.NoisySample
import Verif.Lemmas.CodeProps

/-!
# The frame in the rounds of a circuit with faulty gates
-/

namespace Plaquette
variable {F : Type} {L : Lattice} {fl : Flags} {ge1 : Name → Nat → List (Gate F)} {ge2 : Name → Nat → Nat → List (Gate F)} {pg eg err : Nat → List (Gate F)}

/-! ### Gates without errors -/

theorem clean_kick {g : Gate F} {k : List (Nat × Fin 4)} (h : KickOk g k) (hn : g.name.noisy = false) : k = [] := by
  cases h with
  | plain => rfl
  | pauli => cases hn
  | two g l q1 q2 j1 j2 hl hg => subst hg; cases hn
  | erase => cases hn
  | keep => rfl
  | flip => cases hn
  | noFlip => rfl

theorem clean_trace {gs : List (Gate F)} (hn : ∀ g ∈ gs, g.name.noisy = false) {tr : List (Kicked1 F)} (ht : Trace gs tr) (d : Nat) :
    Blames d (fun _ => False) (fun _ => False) tr ∧ trLoss tr = [] := by
  have key : ∀ p ∈ tr, p.2 = [] ∧ p.1.name.noisy = false := by
    intro p hp
    have h1 := hn p.1 (by rw [← ht.fst]; exact List.mem_map_of_mem hp)
    exact ⟨clean_kick (ht.ok p hp) h1, h1⟩
  constructor
  · intro p hp
    have h1 := (key p hp).1
    constructor
    · intro h; simp [gateFault, hitBy, h1] at h
    · intro h; simp [measFault, hitBy, h1] at h
  · unfold trLoss
    rw [List.flatMap_eq_nil_iff]
    intro p hp
    rw [if_neg fun hc => by have := (key p hp).2; rw [hc] at this; cases this]

theorem clean_block (idx : Pos → Nat) (as : List Pos) (es : List LEdge) : ∀ g ∈ noisyBlock (F := F) (fun _ => []) idx as es, g.name.noisy = false := by
  intro g hg
  rw [← (gateBlock_clean idx as es).1, (gateBlock_clean idx as es).2] at hg
  obtain ⟨x, hx, rfl⟩ := List.mem_map.1 hg
  unfold blockGates at hx
  simp only [List.mem_append, List.mem_flatMap, List.mem_map] at hx
  rcases hx with ⟨a, _, h⟩ | ⟨e, _, rfl⟩ | ⟨a, _, h⟩
  · rcases List.mem_cons.1 h with rfl | h
    · rfl
    · rw [List.mem_singleton.1 h]; rfl
  · unfold ctl
    split <;> rfl
  · rcases List.mem_cons.1 h with rfl | h
    · rfl
    · rw [List.mem_singleton.1 h]; rfl

theorem clean_noisyRound (L : Lattice) : ∀ g ∈ L.noisyRound (F := F) (fun _ => []), g.name.noisy = false := by
  intro g hg
  unfold Lattice.noisyRound at hg
  obtain ⟨b, _, hg⟩ := List.mem_flatMap.1 hg
  exact clean_block _ _ _ g hg

theorem clean_sel (L : Lattice) (anc : Bool) (as : List Pos) : ∀ g ∈ L.selGates (F := F) anc as, g.name.noisy = false := by
  intro g hg
  unfold Lattice.selGates at hg
  cases anc with
  | true =>
    rw [if_pos rfl] at hg
    unfold Lattice.logGates at hg
    rw [List.map_flatMap] at hg
    obtain ⟨a, _, hg⟩ := List.mem_flatMap.1 hg
    rw [← (gateBlock_clean _ _ _).2, (gateBlock_clean _ _ _).1] at hg
    exact clean_block _ _ _ g hg
  | false =>
    rw [if_neg (by simp)] at hg
    unfold Lattice.directGates at hg
    obtain ⟨x, hx, rfl⟩ := List.mem_map.1 hg
    simp only [List.mem_flatMap] at hx
    obtain ⟨a, _, e, _, hx⟩ := hx
    split at hx
    · rcases List.mem_cons.1 hx with rfl | h
      · rfl
      · rw [List.mem_singleton.1 h]; rfl
    · rw [List.mem_singleton.1 hx]; rfl

/-! ### The measurement of all stabilisers -/

theorem seen_op (D : PFrame) (idx : Pos → Nat) (e : LEdge) {d : Nat} (h : idx e.data < d) : (D.op d).seen idx e = D.seen idx e := by
  unfold Op.seen PFrame.seen
  rw [dif_pos h]
  rfl

theorem seen_sum (D : PFrame) (idx : Pos → Nat) {d : Nat} {es : List LEdge} (h : ∀ e ∈ es, idx e.data < d) (hY : ∀ e ∈ es, e.factor ≠ .Y) :
    xorSum es (D.seen idx) = anti (D.op d) (edgesOp idx d es) := by
  rw [anti_edges_seen _ _ _ h hY]
  exact xorSum_congr fun e he => (seen_op D idx e (h e he)).symm

theorem stabBlocks_edges (h : L.Wf) (hs : L.Sched) : ∀ b ∈ L.stabBlocks, ∀ e ∈ b.2, e ∈ L.edges := by
  intro b hb e he
  unfold Lattice.stabBlocks at hb
  split at hb
  · rw [List.mem_singleton.1 hb] at he
    exact (Lattice.mem_stepEdges.1 he).1
  · obtain ⟨s, _, rfl⟩ := List.mem_map.1 hb
    exact (List.mem_filter.1 he).1

theorem blocks_frame (h : L.Wf) (hc : L.Comm) (hs : L.Sched) (hg1 : ∀ nm a, PauliGate a (ge1 nm a)) (hg2 : ∀ nm a b, PairGate a b (ge2 nm a b))
    (hfl : ∀ a ∈ L.stabgens.map Prod.fst, FlipGate (L.idx a) (err (L.idx a))) {G M Q : Nat → Prop}
    (hQ : ∀ a ∈ L.stabgens.map Prod.fst, G (L.idx a) → ∀ e ∈ L.opEdges a, Q (L.idx e.data)) (bs : List (List Pos × List LEdge)) (hbs : ∀ b ∈ bs, b ∈ L.stabBlocks)
    {tr : List (Kicked1 F)} (ht : Trace (bs.flatMap fun b => gateBlock ge1 ge2 err L.idx b.1 b.2) tr) (hb : Blames L.dataqubits.length G M tr) {f D : PFrame}
    (hf : ∀ q < L.dataqubits.length, ¬ Q q → f.At D q) :
    (∀ q < L.dataqubits.length, ¬ Q q → (f.after (trSteps tr)).At D q) ∧
      List.Forall₂ (fun a b => ¬ G (L.idx a) → ¬ M (L.idx a) → (∀ e ∈ L.opEdges a, ¬ Q (L.idx e.data)) → b = anti (D.op L.dataqubits.length) (L.vop a))
        (bs.flatMap Prod.fst) (f.flips (trSteps tr)) := by
  induction bs generalizing f tr with
  | nil =>
    rw [ht.nil]
    exact ⟨hf, .nil⟩
  | cons b bs ih =>
    rw [List.flatMap_cons] at ht
    obtain ⟨t1, t2, rfl, h1, h2⟩ := ht.append
    have hbm := hbs b (by simp)
    have hB := stabBlocks_ok h hc hs b hbm
    have hed := stabBlocks_edges h hs b hbm
    have hst : ∀ a ∈ b.1, a ∈ L.stabgens.map Prod.fst := fun a ha => by rw [← stabBlocks_anc]; exact List.mem_flatMap.2 ⟨b, hbm, ha⟩
    have hop : ∀ e ∈ b.2, e ∈ L.opEdges e.op := fun e he => List.mem_filter.2 ⟨hed e he, by simp⟩
    have hlt : ∀ e ∈ b.2, L.idx e.data < L.dataqubits.length := fun e he => h.idx_lt (h.data e (hed e he))
    obtain ⟨c1, c2⟩ := block_frame (Q := Q) hB (fun a _ nm => hg1 nm _) (fun e _ nm => hg2 nm _ _) (fun a ha => hfl a (hst a ha))
      (fun a ha => h.anc_idx (stab_anc (hst a ha))) hlt (fun e he hG => hQ e.op (hst _ (hB.op e he)) hG e (hop e he)) h1 hb.left hf
    obtain ⟨d1, d2⟩ := ih (fun b hb => hbs b (by simp [hb])) h2 hb.right c1
    rw [trSteps_append, after_append, flips_append, List.flatMap_cons]
    refine ⟨d1, List.rel_append ?_ d2⟩
    rw [List.forall₂_iff_get] at c2 ⊢
    refine ⟨c2.1, fun i i1 i2 hG hM hnQ => ?_⟩
    have ha : b.1.get ⟨i, i1⟩ ∈ b.1 := List.get_mem _ _
    rw [c2.2 i i1 i2 hG hM fun e he heo => hnQ e (heo ▸ hop e he)]
    rw [seen_sum D L.idx (fun e he => hlt e (List.mem_filter.1 he).1) (fun e he => hs.noY e (hed e (List.mem_filter.1 he).1))]
    have := stabBlocks_op (n := L.dataqubits.length) h hs b hbm _ ha
    rw [show edgesOp L.idx L.dataqubits.length (b.2.filter fun e => decide (e.op = b.1.get ⟨i, i1⟩)) = L.lop L.dataqubits.length (b.1.get ⟨i, i1⟩) from this]
    rfl

theorem round_frame (h : L.Wf) (hc : L.Comm) (hs : L.Sched) (hg1 : ∀ nm a, PauliGate a (ge1 nm a)) (hg2 : ∀ nm a b, PairGate a b (ge2 nm a b))
    (hfl : ∀ a ∈ L.stabgens.map Prod.fst, FlipGate (L.idx a) (err (L.idx a))) {G M Q : Nat → Prop}
    (hQ : ∀ a ∈ L.stabgens.map Prod.fst, G (L.idx a) → ∀ e ∈ L.opEdges a, Q (L.idx e.data))
    {tr : List (Kicked1 F)} (ht : Trace (L.gateRound ge1 ge2 err) tr) (hb : Blames L.dataqubits.length G M tr) {f D : PFrame}
    (hf : ∀ q < L.dataqubits.length, ¬ Q q → f.At D q) :
    (∀ q < L.dataqubits.length, ¬ Q q → (f.after (trSteps tr)).At D q) ∧
      List.Forall₂ (fun a b => ¬ G (L.idx a) → ¬ M (L.idx a) → (∀ e ∈ L.opEdges a, ¬ Q (L.idx e.data)) → b = anti (D.op L.dataqubits.length) (L.vop a))
        (L.stabgens.map Prod.fst) (f.flips (trSteps tr)) := by
  have := blocks_frame h hc hs hg1 hg2 hfl hQ L.stabBlocks (fun b hb => hb) ht hb hf
  rw [stabBlocks_anc] at this
  exact this

/-- A round without errors: all results are flipped as the frame says. -/
theorem round_clean (h : L.Wf) (hc : L.Comm) (hs : L.Sched) {tr : List (Kicked1 F)} (ht : Trace (L.noisyRound fun _ => []) tr) {f D : PFrame}
    (hf : ∀ q < L.dataqubits.length, f.At D q) :
    (∀ q < L.dataqubits.length, (f.after (trSteps tr)).At D q) ∧ trLoss tr = [] ∧
      f.flips (trSteps tr) = (L.stabgens.map Prod.fst).map fun a => anti (D.op L.dataqubits.length) (L.vop a) := by
  obtain ⟨hb, hl⟩ := clean_trace (clean_noisyRound L) ht L.dataqubits.length
  rw [← gateRound_clean] at ht
  obtain ⟨c1, c2⟩ := round_frame (Q := fun _ => False) h hc hs (fun _ _ => .inl rfl) (fun _ _ _ => .inl rfl) (fun _ _ => .inl rfl) (fun _ _ hG => hG.elim) ht hb fun q hq _ => hf q hq
  refine ⟨fun q hq => c1 q hq fun h => h, hl, ?_⟩
  rw [List.forall₂_iff_get] at c2
  refine (List.ext_getElem (by rw [List.length_map]; exact c2.1) fun i i1 i2 => ?_).symm
  rw [List.getElem_map]
  rw [List.length_map] at i1
  exact (c2.2 i i1 i2 (fun h => h) (fun h => h) fun _ _ h => h).symm

/-! ### The measurement of logical operators -/

theorem parity_xorSum {α : Type} (l : List α) (f : α → Bool) : parity (l.map f) = xorSum l f := by
  induction l with
  | nil => rfl
  | cons a l ih => rw [List.map_cons, parity_cons, ih]; rfl

theorem sel_frame (h : L.Wf) (hs : L.Sched) {anc : Bool} (as : List Pos) (has : ∀ a ∈ as, a ∈ L.ancillas)
    (hZ : anc = true ∨ ∀ a ∈ as, ∀ e ∈ L.opEdges a, e.factor = .Z) {tr : List (Kicked1 F)} (ht : Trace (L.selGates anc as) tr) {f D : PFrame}
    (hf : ∀ q < L.dataqubits.length, f.At D q) :
    (∀ q < L.dataqubits.length, (f.after (trSteps tr)).At D q) ∧ trLoss tr = [] ∧
      ∃ fss : List (List Bool), f.flips (trSteps tr) = fss.flatten ∧ fss.map List.length = as.map (L.selLen anc) ∧
        fss.map parity = as.map fun a => anti (D.op L.dataqubits.length) (L.vop a) := by
  have hl := (clean_trace (clean_sel L anc as) ht L.dataqubits.length).2
  cases anc with
  | true =>
    unfold Lattice.selGates at ht
    rw [if_pos rfl] at ht
    unfold Lattice.logGates at ht
    rw [List.map_flatMap] at ht
    refine ⟨?_, hl, ?_⟩ <;> clear hl hZ
    all_goals
      induction as generalizing f tr with
      | nil =>
        rw [ht.nil]
        first
        | exact hf
        | exact ⟨[], rfl, rfl, rfl⟩
      | cons a as ih =>
        rw [List.flatMap_cons] at ht
        obtain ⟨t1, t2, rfl, h1, h2⟩ := ht.append
        rw [← (gateBlock_clean _ _ _).2] at h1
        have hb := (clean_trace (by rw [(gateBlock_clean _ _ _).1]; exact clean_block _ _ _) h1 L.dataqubits.length).1
        have ha := has a (by simp)
        have hlt : ∀ e ∈ L.opEdges a, L.idx e.data < L.dataqubits.length := fun e he => h.idx_lt (h.op_data he)
        obtain ⟨c1, c2⟩ := block_frame (Q := fun _ => False) (single_ok h hs.noY ha) (fun _ _ _ => .inl rfl) (fun _ _ _ => .inl rfl) (fun _ _ => .inl rfl)
          (fun b hb => by rw [List.mem_singleton.1 hb]; exact h.anc_idx ha) hlt (fun _ _ hG => hG.elim) h1 hb fun q hq _ => hf q hq
        have := ih (fun b hb => has b (by simp [hb])) (fun q hq => c1 q hq fun h => h) h2
        rw [trSteps_append]
        first
        | rw [after_append]; exact this
        | rw [flips_append]
          obtain ⟨fss, e1, e2, e3⟩ := this
          have hx : ∃ b, f.flips (trSteps t1) = [b] ∧ b = anti (D.op L.dataqubits.length) (L.vop a) := by
            revert c2
            generalize f.flips (trSteps t1) = bs
            intro c2
            cases c2 with
            | cons hab hn =>
              cases hn
              refine ⟨_, rfl, (hab (fun h => h) (fun h => h) fun _ _ _ h => h).trans ?_⟩
              have ef : (L.opEdges a).filter (fun e => decide (e.op = a)) = L.opEdges a :=
                List.filter_eq_self.2 fun e he => (List.mem_filter.1 he).2
              rw [ef]
              exact seen_sum D L.idx hlt fun e he => hs.noY e (List.mem_filter.1 he).1
          obtain ⟨b, hb1, hb2⟩ := hx
          refine ⟨[b] :: fss, ?_, ?_, ?_⟩
          · rw [hb1, e1]; rfl
          · rw [List.map_cons, List.map_cons, e2]; rfl
          · rw [List.map_cons, List.map_cons, e3, parity_single, hb2]
  | false =>
    have hZ := hZ.resolve_left (by simp)
    unfold Lattice.selGates at ht
    rw [if_neg (by simp)] at ht
    have hst : f.after (trSteps tr) = f ∧ ∃ fss : List (List Bool), f.flips (trSteps tr) = fss.flatten ∧ fss = as.map fun a => (L.opEdges a).map fun e => f.x (L.idx e.data) := by
      clear hl has
      have hsteps : trSteps tr = (as.flatMap fun a => (L.opEdges a).map fun e => L.idx e.data).map .meas := by
        have e1 : (L.directGates as).map (toGate (F := F)) = (as.flatMap fun a => (L.opEdges a).map fun e => L.idx e.data).map fun i => toGate (g1 .M i) := by
          unfold Lattice.directGates
          rw [List.map_flatMap, List.map_flatMap]
          refine List.flatMap_congr fun a ha => ?_
          rw [List.map_flatMap, List.map_map, List.map_eq_flatMap]
          refine List.flatMap_congr fun e he => ?_
          rw [if_neg (by rw [hZ a ha e he]; simp)]
          rfl
        rw [e1] at ht
        revert ht
        generalize (as.flatMap fun a => (L.opEdges a).map fun e => L.idx e.data) = is
        intro ht
        induction is generalizing tr with
        | nil => rw [ht.nil]; rfl
        | cons i is ih =>
          obtain ⟨k, t, rfl, _, h2⟩ := ht.cons
          rw [plain_g1 .M _ _ _ rfl, ih h2]
          rfl
      rw [hsteps]
      refine ⟨after_meas _ _, _, ?_, rfl⟩
      rw [flips_meas, List.map_flatMap, List.flatMap_def]
      simp only [List.map_map]
      rfl
    obtain ⟨k1, fss, k2, k3⟩ := hst
    refine ⟨by rw [k1]; exact hf, hl, fss, k2, ?_, ?_⟩
    · rw [k3, List.map_map]
      refine List.map_congr_left fun a _ => ?_
      show List.length (List.map _ _) = _
      rw [List.length_map]
      rfl
    · rw [k3, List.map_map]
      refine List.map_congr_left fun a ha => ?_
      show parity (List.map _ _) = _
      have hlt : ∀ e ∈ L.opEdges a, L.idx e.data < L.dataqubits.length := fun e he => h.idx_lt (h.op_data he)
      rw [parity_xorSum]
      refine Eq.trans ?_ (seen_sum D L.idx hlt fun e he => hs.noY e (List.mem_filter.1 he).1)
      refine xorSum_congr fun e he => ?_
      unfold PFrame.seen
      rw [if_neg (by rw [hZ a ha e he]; simp)]
      exact (hf _ (hlt e he)).1

/-! ### The errors on the data -/

theorem data_one {d i : Nat} {gp gq : List (Gate F)} (hp : PauliGate i gp) (he : EraseGate i gq) (hi : i < d) {tr : List (Kicked1 F)} (ht : Trace (gp ++ gq) tr) (f : PFrame) :
    f.flips (trSteps tr) = [] ∧ (∀ q, q ≠ i → (f.after (trSteps tr)).At f q) ∧
      ∃ p e : Bool, (p = false → e = false → f.after (trSteps tr) = f) ∧ trLoss tr = (if gq = [] then [] else [e]) ∧ (gq = [] → e = false) ∧
        (if p then 1 else 0) ≤ tr.countP (dataFault d) ∧ (p = true ∨ e = true → ∃ x ∈ tr, struck x ∧ firstQubit x.2 = i) := by
  obtain ⟨t1, t2, rfl, h1, h2⟩ := ht.append
  have hA : f.flips (trSteps t1) = [] ∧ (∀ q, q ≠ i → (f.after (trSteps t1)).At f q) ∧ ∃ p : Bool, (p = false → f.after (trSteps t1) = f) ∧ trLoss t1 = [] ∧
      (if p then 1 else 0) ≤ t1.countP (dataFault d) ∧ (p = true → ∃ x ∈ t1, struck x ∧ firstQubit x.2 = i) := by
    rcases hp with rfl | ⟨x, y, z, rfl⟩
    · rw [h1.nil]
      exact ⟨rfl, fun q _ => .refl f q, false, fun _ => rfl, rfl, by simp, (fun h => by cases h)⟩
    · obtain ⟨k, t, rfl, hk, h1⟩ := h1.cons
      rw [h1.nil]
      obtain ⟨j, rfl⟩ := pauli_inv hk
      have e : trSteps [((⟨.E_PAULI, [x, y, z, .int i]⟩ : Gate F), [(i, j)])] = [.kick i j] := rfl
      rw [e]
      refine ⟨rfl, fun q hq => kick_off f j hq, decide (j ≠ 0), fun hj => ?_, rfl, ?_, fun hj => ⟨_, List.mem_singleton_self _, .inl ?_, rfl⟩⟩
      · have : j = 0 := by simpa using hj
        subst this
        exact kick_zero f i
      · rw [List.countP_cons, List.countP_nil, Nat.zero_add]
        by_cases hj : j = 0
        · simp [hj]
        · simp [dataFault, hitBy, firstQubit, hi, hj]
      · simpa [hitBy] using hj
  have hB : ∀ g : PFrame, g.flips (trSteps t2) = [] ∧ (∀ q, q ≠ i → (g.after (trSteps t2)).At g q) ∧ ∃ e : Bool, (e = false → g.after (trSteps t2) = g) ∧
      trLoss t2 = (if gq = [] then [] else [e]) ∧ (gq = [] → e = false) ∧ (e = true → ∃ x ∈ t2, struck x ∧ firstQubit x.2 = i) := by
    intro g
    rcases he with rfl | ⟨v, rfl⟩
    · rw [h2.nil]
      exact ⟨rfl, fun q _ => .refl g q, false, fun _ => rfl, rfl, fun _ => rfl, (fun h => by cases h)⟩
    · obtain ⟨k, t, rfl, hk, h2⟩ := h2.cons
      rw [h2.nil]
      rcases erase_inv hk with rfl | ⟨j, rfl⟩
      · refine ⟨rfl, fun q _ => .refl g q, false, fun _ => rfl, rfl, fun _ => rfl, (fun h => by cases h)⟩
      · have e : trSteps [((⟨.E_ERASE, [v, .int i]⟩ : Gate F), [(i, j)])] = [.kick i j] := rfl
        rw [e]
        exact ⟨rfl, fun q hq => kick_off g j hq, true, (fun h => by cases h), rfl, (fun h => by cases h), fun _ => ⟨_, List.mem_singleton_self _, .inr (by simp [lossFault]), rfl⟩⟩
  obtain ⟨a1, a2, p, a3, a4, a5, a6⟩ := hA
  obtain ⟨b1, b2, e, b3, b4, b5, b6⟩ := hB (f.after (trSteps t1))
  rw [trSteps_append, after_append, flips_append, trLoss_append, a1, b1, a4, List.countP_append]
  refine ⟨rfl, fun q hq => (b2 q hq).trans (a2 q hq), p, e, fun hp he => ?_, b4, b5, by omega, fun h => ?_⟩
  · rw [b3 he, a3 hp]
  · rcases h with h | h
    · obtain ⟨x, hx, k⟩ := a6 h
      exact ⟨x, List.mem_append_left _ hx, k⟩
    · obtain ⟨x, hx, k⟩ := b6 h
      exact ⟨x, List.mem_append_right _ hx, k⟩

theorem data_all {d : Nat} (is : List Nat) (hn : is.Nodup) (hi : ∀ i ∈ is, i < d) (hp : ∀ i ∈ is, PauliGate i (pg i)) (he : ∀ i ∈ is, EraseGate i (eg i))
    {tr : List (Kicked1 F)} (ht : Trace (dataGates pg eg is) tr) (f : PFrame) :
    f.flips (trSteps tr) = [] ∧ (∀ q, q ∉ is → (f.after (trSteps tr)).At f q) ∧
      ∃ p e : Nat → Bool, (∀ q ∈ is, p q = false → e q = false → (f.after (trSteps tr)).At f q) ∧ trLoss tr = is.flatMap (fun i => if eg i = [] then [] else [e i]) ∧
        (∀ i, (i ∈ is → eg i = []) → e i = false) ∧ is.countP p ≤ tr.countP (dataFault d) ∧
        ∀ q, p q = true ∨ e q = true → ∃ x ∈ tr, struck x ∧ firstQubit x.2 = q := by
  induction is generalizing f tr with
  | nil =>
    have ht : tr = [] := ht.nil
    rw [ht]
    exact ⟨rfl, fun q _ => .refl f q, fun _ => false, fun _ => false, by simp, rfl, fun _ _ => rfl, by simp, fun _ h => by rcases h with h | h <;> cases h⟩
  | cons i is ih =>
    unfold dataGates at ht
    rw [List.flatMap_cons] at ht
    obtain ⟨t1, t2, rfl, h1, h2⟩ := ht.append
    rw [List.nodup_cons] at hn
    obtain ⟨a1, a2, p, e, a3, a4, a5, a6, a7⟩ := data_one (d := d) (hp i (by simp)) (he i (by simp)) (hi i (by simp)) h1 f
    obtain ⟨b1, b2, p', e', b3, b4, b5, b6, b7⟩ := ih hn.2 (fun j hj => hi j (by simp [hj])) (fun j hj => hp j (by simp [hj])) (fun j hj => he j (by simp [hj])) h2 (f.after (trSteps t1))
    rw [trSteps_append, after_append, flips_append, trLoss_append, a1, b1, List.countP_append]
    have hne : ∀ j ∈ is, j ≠ i := fun j hj h => hn.1 (h ▸ hj)
    refine ⟨rfl, fun q hq => ?_, fun q => if q = i then p else p' q, fun q => if q = i then e else e' q, ?_, ?_, ?_, ?_, ?_⟩
    · rw [List.mem_cons, not_or] at hq
      exact (b2 q hq.2).trans (a2 q hq.1)
    · intro q hq k1 k2
      dsimp only at k1 k2
      by_cases hqi : q = i
      · rw [if_pos hqi] at k1 k2
        subst hqi
        rw [a3 k1 k2] at b2 ⊢
        exact b2 q hn.1
      · rw [if_neg hqi] at k1 k2
        exact (b3 q ((List.mem_cons.1 hq).resolve_left hqi) k1 k2).trans (a2 q hqi)
    · rw [List.flatMap_cons, a4, b4]
      dsimp only
      rw [if_pos (rfl : i = i)]
      congr 1
      exact List.flatMap_congr fun j hj => by rw [if_neg (hne j hj)]
    · intro j hj
      dsimp only
      by_cases hji : j = i
      · rw [if_pos hji]
        exact a5 (hji ▸ hj (by rw [hji]; simp))
      · rw [if_neg hji]
        exact b5 j fun h => hj (by simp [h])
    · rw [List.countP_cons, if_pos rfl]
      have : is.countP (fun q => if q = i then p else p' q) = is.countP p' := List.countP_congr fun j hj => by rw [if_neg (hne j hj)]
      rw [this]
      omega
    · intro q h
      dsimp only at h
      by_cases hqi : q = i
      · rw [if_pos hqi, if_pos hqi] at h
        obtain ⟨x, hx, k⟩ := a7 h
        exact ⟨x, List.mem_append_left _ hx, by rw [hqi]; exact k⟩
      · rw [if_neg hqi, if_neg hqi] at h
        obtain ⟨x, hx, k⟩ := b7 q h
        exact ⟨x, List.mem_append_right _ hx, k⟩

end Plaquette
