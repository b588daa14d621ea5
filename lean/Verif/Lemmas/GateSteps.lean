import Verif.Lemmas.GateRounds
import Mathlib.Algebra.BigOperators.Intervals
import Mathlib.Algebra.Order.BigOperators.Group.Finset

/-!
# Rounds with faulty gates: where the frame is known
-/

namespace Plaquette
variable {F : Type} {L : Lattice} {ge1 : Name → Nat → List (Gate F)} {ge2 : Name → Nat → Nat → List (Gate F)} {pg eg err : Nat → List (Gate F)}

/-- A sequence with one element in front. -/
def shift {α : Type} (x : α) (g : Nat → α) : Nat → α
  | 0 => x
  | t + 1 => g t

/-- The data qubits of an operator. -/
def Lattice.suppF (L : Lattice) (a : Pos) : Finset Nat := ((L.opEdges a).map fun e => L.idx e.data).toFinset

/-- At most `w` edges at every stabiliser, at most `deg` at every qubit. -/
structure Lattice.Sparse (L : Lattice) (w deg : Nat) : Prop where
  weight : ∀ a ∈ L.stabgens.map Prod.fst, (L.opEdges a).length ≤ w
  degree : ∀ q < L.dataqubits.length, ((L.stabgens.map Prod.fst).toFinset.filter fun a => q ∈ L.suppF a).card ≤ deg

theorem card_first (tr : List (Kicked1 F)) (P : Kicked1 F → Bool) : (((tr.filter P).map fun p => firstQubit p.2).toFinset).card ≤ tr.countP P := by
  refine (List.toFinset_card_le _).trans ?_
  rw [List.length_map, List.countP_eq_length_filter]

/-- What is blamed for the faults of a round: `p` and `e` on something that struck the qubit, `Q` on a faulty gate of a stabiliser on the qubit, and `W` on a wrong outcome or
on a faulty gate of a stabiliser that acts on one of its qubits. -/
structure Blamed (L : Lattice) (tr : List (Kicked1 F)) (p e : Nat → Bool) (Q W : Finset Nat) : Prop where
  data : ∀ q, p q = true ∨ e q = true → ∃ x ∈ tr, struck x ∧ firstQubit x.2 = q
  spread : ∀ q ∈ Q, ∃ a ∈ L.stabgens.map Prod.fst, q ∈ L.suppF a ∧ ∃ x ∈ tr, gateFault L.dataqubits.length x = true ∧ firstQubit x.2 = L.idx a
  wrong : ∀ i ∈ W, (∃ x ∈ tr, measFault x = true ∧ firstQubit x.2 = i) ∨ ∃ b ∈ L.stabgens.map Prod.fst, i = L.idx b ∧ ∃ a ∈ L.stabgens.map Prod.fst,
    (∃ q, q ∈ L.suppF a ∧ q ∈ L.suppF b) ∧ ∃ x ∈ tr, gateFault L.dataqubits.length x = true ∧ firstQubit x.2 = L.idx a

theorem blame_sets (h : L.Wf) (hf : L.Full) {w deg : Nat} (hS : L.Sparse w deg) (tr : List (Kicked1 F)) :
    ∃ (G M : Nat → Prop) (Q W : Finset Nat), Blames L.dataqubits.length G M tr ∧
      (∀ a ∈ L.stabgens.map Prod.fst, G (L.idx a) → ∀ e ∈ L.opEdges a, L.idx e.data ∈ Q) ∧
      (∀ a ∈ L.stabgens.map Prod.fst, L.idx a ∉ W → ¬ G (L.idx a) ∧ ¬ M (L.idx a) ∧ ∀ e ∈ L.opEdges a, L.idx e.data ∉ Q) ∧
      Q.card + W.card ≤ tr.countP measFault + w * (deg + 1) * tr.countP (gateFault L.dataqubits.length) ∧ Blamed L tr (fun _ => false) (fun _ => false) Q W := by
  classical
  set st := (L.stabgens.map Prod.fst).toFinset with hst
  have hinj : Set.InjOn L.idx st := by
    intro a ha b hb hab
    have ha' : a ∈ L.stabgens.map Prod.fst := by simpa [hst] using ha
    exact h.idx_occ (Lattice.anc_occ (stab_anc ha')) hab
  set Gs := ((tr.filter (gateFault L.dataqubits.length)).map fun p => firstQubit p.2).toFinset with hGs
  set Ms := ((tr.filter measFault).map fun p => firstQubit p.2).toFinset with hMs
  set A := st.filter fun a => L.idx a ∈ Gs with hA
  set Q := A.biUnion L.suppF with hQ
  set T := Q.biUnion fun q => st.filter fun a => q ∈ L.suppF a with hT
  have hlt : ∀ q ∈ Q, q < L.dataqubits.length := by
    intro q hq
    obtain ⟨a, _, hq⟩ := Finset.mem_biUnion.1 hq
    unfold Lattice.suppF at hq
    rw [List.mem_toFinset, List.mem_map] at hq
    obtain ⟨e, he, rfl⟩ := hq
    exact h.idx_lt (h.op_data he)
  have hQin : ∀ a ∈ L.stabgens.map Prod.fst, L.idx a ∈ Gs → ∀ e ∈ L.opEdges a, L.idx e.data ∈ Q := fun a ha hG e he =>
    Finset.mem_biUnion.2 ⟨a, Finset.mem_filter.2 ⟨List.mem_toFinset.2 ha, hG⟩, by unfold Lattice.suppF; rw [List.mem_toFinset]; exact List.mem_map_of_mem he⟩
  have hTin : ∀ a ∈ L.stabgens.map Prod.fst, ∀ e ∈ L.opEdges a, L.idx e.data ∈ Q → L.idx a ∈ T.image L.idx := fun a ha e he hq =>
    Finset.mem_image.2 ⟨a, Finset.mem_biUnion.2 ⟨_, hq, Finset.mem_filter.2 ⟨List.mem_toFinset.2 ha, by unfold Lattice.suppF; rw [List.mem_toFinset]; exact List.mem_map_of_mem he⟩⟩, rfl⟩
  refine ⟨(· ∈ Gs), (· ∈ Ms), Q, Ms ∪ T.image L.idx, ?_, hQin, ?_, ?_, ?_⟩
  · intro p hp
    constructor
    · intro hg
      rw [hGs, List.mem_toFinset]
      exact List.mem_map.2 ⟨p, List.mem_filter.2 ⟨hp, hg⟩, rfl⟩
    · intro hg
      rw [hMs, List.mem_toFinset]
      exact List.mem_map.2 ⟨p, List.mem_filter.2 ⟨hp, hg⟩, rfl⟩
  · intro a ha hW
    rw [Finset.mem_union, not_or] at hW
    refine ⟨fun hG => ?_, hW.1, fun e he hq => hW.2 (hTin a ha e he hq)⟩
    obtain ⟨s, hs, rfl⟩ := List.mem_map.1 ha
    obtain ⟨e, he⟩ := List.exists_mem_of_ne_nil _ (hf.stab s hs)
    exact hW.2 (hTin s.1 ha e he (hQin s.1 ha hG e he))
  · have c1 : Gs.card ≤ tr.countP (gateFault L.dataqubits.length) := card_first tr _
    have c2 : Ms.card ≤ tr.countP measFault := card_first tr _
    have c3 : A.card ≤ Gs.card := Finset.card_le_card_of_injOn L.idx (fun a ha => (Finset.mem_filter.1 ha).2) fun a ha b hb => hinj (Finset.mem_filter.1 ha).1 (Finset.mem_filter.1 hb).1
    have c4 : Q.card ≤ A.card * w := by
      refine Finset.card_biUnion_le_card_mul _ _ _ fun a ha => ?_
      unfold Lattice.suppF
      refine (List.toFinset_card_le _).trans ?_
      rw [List.length_map]
      exact hS.weight a (List.mem_toFinset.1 (Finset.mem_filter.1 ha).1)
    have c5 : T.card ≤ Q.card * deg := Finset.card_biUnion_le_card_mul _ _ _ fun q hq => hS.degree q (hlt q hq)
    have c6 : (Ms ∪ T.image L.idx).card ≤ Ms.card + T.card := (Finset.card_union_le _ _).trans (Nat.add_le_add_left Finset.card_image_le _)
    have c7 : Q.card ≤ tr.countP (gateFault L.dataqubits.length) * w := c4.trans (Nat.mul_le_mul_right _ (c3.trans c1))
    have c8 : Q.card + T.card ≤ w * (deg + 1) * tr.countP (gateFault L.dataqubits.length) := by
      calc Q.card + T.card ≤ Q.card + Q.card * deg := Nat.add_le_add_left c5 _
        _ = Q.card * (deg + 1) := by ring
        _ ≤ tr.countP (gateFault L.dataqubits.length) * w * (deg + 1) := Nat.mul_le_mul_right _ c7
        _ = _ := by ring
    omega
  · have hga : ∀ a ∈ A, a ∈ L.stabgens.map Prod.fst ∧ ∃ x ∈ tr, gateFault L.dataqubits.length x = true ∧ firstQubit x.2 = L.idx a := by
      intro a ha
      obtain ⟨h1, h2⟩ := Finset.mem_filter.1 ha
      rw [hGs, List.mem_toFinset] at h2
      obtain ⟨x, hx, hxa⟩ := List.mem_map.1 h2
      exact ⟨List.mem_toFinset.1 h1, x, (List.mem_filter.1 hx).1, (List.mem_filter.1 hx).2, hxa⟩
    refine ⟨(fun _ h => by rcases h with h | h <;> cases h), fun q hq => ?_, fun i hi => ?_⟩
    · obtain ⟨a, ha, hqa⟩ := Finset.mem_biUnion.1 hq
      exact ⟨a, (hga a ha).1, hqa, (hga a ha).2⟩
    · rcases Finset.mem_union.1 hi with hi | hi
      · rw [hMs, List.mem_toFinset] at hi
        obtain ⟨x, hx, hxa⟩ := List.mem_map.1 hi
        exact .inl ⟨x, (List.mem_filter.1 hx).1, (List.mem_filter.1 hx).2, hxa⟩
      · obtain ⟨b, hb, rfl⟩ := Finset.mem_image.1 hi
        obtain ⟨q, hq, hb⟩ := Finset.mem_biUnion.1 hb
        obtain ⟨a, ha, hqa⟩ := Finset.mem_biUnion.1 hq
        obtain ⟨hb1, hb2⟩ := Finset.mem_filter.1 hb
        exact .inr ⟨b, List.mem_toFinset.1 hb1, rfl, a, (hga a ha).1, ⟨q, hqa, hb2⟩, (hga a ha).2⟩

theorem gateRound_all (h : L.Wf) (hs : L.Sched) {P : Gate F → Prop} (hp1 : ∀ nm a, nm = Name.R ∨ nm = .H ∨ nm = .M → P (toGate (g1 nm a))) (hp2 : ∀ e ∈ L.edges, P (toGate (ctl L.idx e)))
    (h1 : ∀ nm a, ∀ g ∈ ge1 nm a, P g) (h2 : ∀ nm a b, ∀ g ∈ ge2 nm a b, P g) (h3 : ∀ a ∈ L.stabgens.map Prod.fst, ∀ g ∈ err (L.idx a), P g) :
    ∀ g ∈ L.gateRound ge1 ge2 err, P g := by
  intro g hg
  unfold Lattice.gateRound at hg
  obtain ⟨b, hb, hg⟩ := List.mem_flatMap.1 hg
  have hed := stabBlocks_edges h hs b hb
  have hst : ∀ a ∈ b.1, a ∈ L.stabgens.map Prod.fst := fun a ha => by rw [← stabBlocks_anc]; exact List.mem_flatMap.2 ⟨b, hb, ha⟩
  unfold gateBlock prepErr readErr edgeErr at hg
  simp only [List.mem_append, List.mem_flatMap, List.mem_cons] at hg
  rcases hg with ⟨a, ha, (rfl | hg) | (rfl | hg)⟩ | ⟨e, he, rfl | hg⟩ | ⟨a, ha, (rfl | hg) | hg | (rfl | hg)⟩
  · exact hp1 _ _ (by simp)
  · exact h1 _ _ g hg
  · exact hp1 _ _ (by simp)
  · exact h1 _ _ g hg
  · exact hp2 e (hed e he)
  · exact h2 _ _ _ g hg
  · exact hp1 _ _ (by simp)
  · exact h1 _ _ g hg
  · exact h3 a (hst a ha) g hg
  · exact hp1 _ _ (by simp)
  · exact h1 _ _ g hg

/-- The errors on the data and a round with faulty gates: `B` is the frame before the round. -/
theorem noisy_step (h : L.Wf) (hc : L.Comm) (hs : L.Sched) (hf : L.Full) {fl : Flags} (hE : AllErrs L fl ge1 ge2 pg eg err) {w deg : Nat} (hS : L.Sparse w deg)
    {tr : List (Kicked1 F)} (ht : Trace (dataGates pg eg (List.range L.dataqubits.length) ++ L.gateRound ge1 ge2 err) tr) (f : PFrame) :
    ∃ (B : PFrame) (p e : Nat → Bool) (Q W : Finset Nat),
      (∀ q < L.dataqubits.length, p q = false → e q = false → B.At f q) ∧
      List.Forall₂ (fun a b => L.idx a ∉ W → b = anti (B.op L.dataqubits.length) (L.vop a)) (L.stabgens.map Prod.fst) (f.flips (trSteps tr)) ∧
      (∀ q < L.dataqubits.length, q ∉ Q → (f.after (trSteps tr)).At B q) ∧
      trLoss tr = (List.range L.dataqubits.length).flatMap (fun i => if eg i = [] then [] else [e i]) ∧
      (∀ i, (i < L.dataqubits.length → eg i = []) → e i = false) ∧
      (List.range L.dataqubits.length).countP p + Q.card + W.card ≤ faultWeight L.dataqubits.length (w * (deg + 1)) tr ∧ Blamed L tr p e Q W := by
  obtain ⟨t1, t2, rfl, h1, h2⟩ := ht.append
  obtain ⟨a1, _, p, e, a3, a4, a5, a6, a7⟩ := data_all (d := L.dataqubits.length) _ List.nodup_range (fun i hi => List.mem_range.1 hi) (fun i hi => (hE.qubit.pauli i (List.mem_range.1 hi)).1)
    (fun i hi => (hE.qubit.erase i (List.mem_range.1 hi)).1) h1 f
  obtain ⟨G, M, Q, W, b1, b2, b3, b4, b5⟩ := blame_sets h hf hS t2
  obtain ⟨c1, c2⟩ := round_frame (Q := (· ∈ Q)) h hc hs hE.one hE.two (fun a ha => (hE.qubit.flip a ha).1) b2 h2 b1 (f := f.after (trSteps t1)) (D := f.after (trSteps t1)) fun q _ _ => .refl _ q
  have hl : trLoss t2 = [] := by
    unfold trLoss
    rw [List.flatMap_eq_nil_iff]
    intro q hq
    have hm : q.1 ∈ L.gateRound ge1 ge2 err := by rw [← h2.fst]; exact List.mem_map_of_mem hq
    refine if_neg (gateRound_all h hs (P := fun g => ¬ g.name = .E_ERASE) (fun nm a hn => ?_) (fun e _ => ?_) ?_ ?_ ?_ q.1 hm)
    · rcases hn with rfl | rfl | rfl <;> simp [toGate, g1]
    · unfold ctl
      split <;> simp [toGate, g2]
    · intro nm a g hg
      rcases hE.one nm a with e | ⟨x, y, z, e⟩ <;> rw [e] at hg
      · cases hg
      · rw [List.mem_singleton.1 hg]; simp
    · intro nm a b g hg
      rcases hE.two nm a b with e | ⟨l, _, e⟩ <;> rw [e] at hg
      · cases hg
      · rw [List.mem_singleton.1 hg]; simp
    · intro a ha g hg
      rcases (hE.qubit.flip a ha).1 with e | ⟨l, e⟩ <;> rw [e] at hg
      · cases hg
      · rw [List.mem_singleton.1 hg]; simp
  refine ⟨f.after (trSteps t1), p, e, Q, W, fun q hq => a3 q (List.mem_range.2 hq), ?_, ?_, ?_, fun i hi => a5 i fun h => hi (List.mem_range.1 h), ?_, fun q hq => ?_, fun q hq => ?_, fun i hi => ?_⟩
  · rw [trSteps_append, flips_append, a1, List.nil_append]
    rw [List.forall₂_iff_get] at c2 ⊢
    refine ⟨c2.1, fun i i1 i2 hW => ?_⟩
    obtain ⟨k1, k2, k3⟩ := b3 _ (List.get_mem _ ⟨i, i1⟩) hW
    exact c2.2 i i1 i2 k1 k2 k3
  · rw [trSteps_append, after_append]
    exact c1
  · rw [trLoss_append, a4, hl, List.append_nil]
  · rw [faultWeight_append]
    unfold faultWeight
    omega
  · obtain ⟨x, hx, k⟩ := a7 q hq
    exact ⟨x, List.mem_append_left _ hx, k⟩
  · obtain ⟨a, ha, hq, x, hx, k⟩ := b5.spread q hq
    exact ⟨a, ha, hq, x, List.mem_append_right _ hx, k⟩
  · rcases b5.wrong i hi with ⟨x, hx, k⟩ | ⟨b, hb, e, a, ha, hq, x, hx, k⟩
    · exact .inl ⟨x, List.mem_append_right _ hx, k⟩
    · exact .inr ⟨b, hb, e, a, ha, hq, x, List.mem_append_right _ hx, k⟩

/-- The errors on the data and a round without errors. -/
theorem last_step (h : L.Wf) (hc : L.Comm) (hs : L.Sched) {fl : Flags} (hE : AllErrs L fl ge1 ge2 pg eg err) (K : Nat)
    {tr : List (Kicked1 F)} (ht : Trace (dataGates pg eg (List.range L.dataqubits.length) ++ L.noisyRound fun _ => []) tr) (f : PFrame) :
    ∃ (B : PFrame) (p e : Nat → Bool),
      (∀ q < L.dataqubits.length, p q = false → e q = false → B.At f q) ∧
      f.flips (trSteps tr) = (L.stabgens.map Prod.fst).map (fun a => anti (B.op L.dataqubits.length) (L.vop a)) ∧
      (∀ q < L.dataqubits.length, (f.after (trSteps tr)).At B q) ∧
      trLoss tr = (List.range L.dataqubits.length).flatMap (fun i => if eg i = [] then [] else [e i]) ∧
      (∀ i, (i < L.dataqubits.length → eg i = []) → e i = false) ∧
      (List.range L.dataqubits.length).countP p ≤ faultWeight L.dataqubits.length K tr ∧ Blamed L tr p e ∅ ∅ := by
  obtain ⟨t1, t2, rfl, h1, h2⟩ := ht.append
  obtain ⟨a1, _, p, e, a3, a4, a5, a6, a7⟩ := data_all (d := L.dataqubits.length) _ List.nodup_range (fun i hi => List.mem_range.1 hi) (fun i hi => (hE.qubit.pauli i (List.mem_range.1 hi)).1)
    (fun i hi => (hE.qubit.erase i (List.mem_range.1 hi)).1) h1 f
  obtain ⟨c1, c2, c3⟩ := round_clean h hc hs h2 (f := f.after (trSteps t1)) (D := f.after (trSteps t1)) fun q _ => .refl _ q
  refine ⟨f.after (trSteps t1), p, e, fun q hq => a3 q (List.mem_range.2 hq), ?_, ?_, ?_, fun i hi => a5 i fun h => hi (List.mem_range.1 h), ?_, fun q hq => ?_, by simp, by simp⟩
  · rw [trSteps_append, flips_append, a1, List.nil_append, c3]
  · rw [trSteps_append, after_append]
    exact c1
  · rw [trLoss_append, a4, c2, List.append_nil]
  · rw [faultWeight_append]
    unfold faultWeight
    omega
  · obtain ⟨x, hx, k⟩ := a7 q hq
    exact ⟨x, List.mem_append_left _ hx, k⟩

/-- All rounds: `B t` is the frame on the data in round `t`; it is the one of the round before except for errors `p t`, losses `e t`, and qubits in
`Q`; results of stabilisers not in `W` are flipped as the frame says. -/
theorem rounds_frame (h : L.Wf) (hc : L.Comm) (hs : L.Sched) (hf : L.Full) {fl : Flags} (hE : AllErrs L fl ge1 ge2 pg eg err) {w deg : Nat} (hS : L.Sparse w deg) (k : Nat)
    {tr : List (Kicked1 F)} (ht : Trace ((List.replicate k (dataGates pg eg (List.range L.dataqubits.length) ++ L.gateRound ge1 ge2 err)).flatten ++
      (dataGates pg eg (List.range L.dataqubits.length) ++ L.noisyRound fun _ => [])) tr) {f D0 : PFrame} {Q0 : Finset Nat}
    (h0 : ∀ q < L.dataqubits.length, q ∉ Q0 → f.At D0 q) :
    ∃ (B : Nat → PFrame) (p e : Nat → Nat → Bool) (Q W : Nat → Finset Nat) (rows : Nat → List Bool),
      (∀ t < k + 1, ∀ q < L.dataqubits.length, p t q = false → e t q = false → q ∉ shift Q0 Q t → (B t).At (shift D0 B t) q) ∧
      (∀ t < k + 1, List.Forall₂ (fun a b => L.idx a ∉ W t → b = anti ((B t).op L.dataqubits.length) (L.vop a)) (L.stabgens.map Prod.fst) (rows t)) ∧
      f.flips (trSteps tr) = (List.range (k + 1)).flatMap rows ∧
      W k = ∅ ∧ (∀ q < L.dataqubits.length, (f.after (trSteps tr)).At (B k) q) ∧
      trLoss tr = (List.range (k + 1)).flatMap (fun t => (List.range L.dataqubits.length).flatMap fun i => if eg i = [] then [] else [e t i]) ∧
      (∀ t i, (i < L.dataqubits.length → eg i = []) → e t i = false) ∧
      (∑ t ∈ Finset.range (k + 1), ((List.range L.dataqubits.length).countP (p t) + (Q t).card + (W t).card)) ≤ faultWeight L.dataqubits.length (w * (deg + 1)) tr ∧
      ∃ trs : Nat → List (Kicked1 F), tr = (List.range (k + 1)).flatMap trs ∧ (∀ t < k, (trs t).map Prod.fst = dataGates pg eg (List.range L.dataqubits.length) ++ L.gateRound ge1 ge2 err) ∧
        (trs k).map Prod.fst = dataGates pg eg (List.range L.dataqubits.length) ++ (L.noisyRound fun _ => []) ∧ ∀ t < k + 1, Blamed L (trs t) (p t) (e t) (Q t) (W t) := by
  induction k generalizing tr f D0 Q0 with
  | zero =>
    rw [List.replicate_zero, List.flatten_nil, List.nil_append] at ht
    obtain ⟨B, p, e, a1, a2, a3, a4, a5, a6, a7⟩ := last_step h hc hs hE (w * (deg + 1)) ht f
    refine ⟨fun _ => B, fun _ => p, fun _ => e, fun _ => ∅, fun _ => ∅, fun _ => f.flips (trSteps tr), ?_, ?_, ?_, rfl, a3, ?_, fun _ => a5, ?_,
      fun _ => tr, by simp, (fun t h => by omega), ht.fst, fun _ _ => a7⟩
    · intro t ht q hq hp he hQ
      obtain rfl : t = 0 := by omega
      exact (a1 q hq hp he).trans (h0 q hq hQ)
    · intro t _
      rw [a2, List.forall₂_map_right_iff]
      exact List.forall₂_same.2 fun a _ _ => rfl
    · simp
    · rw [a4]; simp
    · simpa using a6
  | succ k ih =>
    rw [List.replicate_succ, List.flatten_cons, List.append_assoc] at ht
    obtain ⟨t1, t2, rfl, h1, h2⟩ := ht.append
    obtain ⟨B0, p0, e0, Q1, W0, a1, a2, a3, a4, a5, a6, a7⟩ := noisy_step h hc hs hf hE hS h1 f
    obtain ⟨B, p, e, Q, W, rows, b1, b2, b3, b4, b5, b6, b7, b8, trs, b9, b10, b11, b12⟩ := ih h2 a3
    refine ⟨shift B0 B, shift p0 p, shift e0 e, shift Q1 Q, shift W0 W, shift (f.flips (trSteps t1)) rows, ?_, ?_, ?_, b4, ?_, ?_, ?_, ?_, shift t1 trs, ?_, ?_, b11, ?_⟩
    · intro t ht q hq
      cases t with
      | zero => exact fun hp he hQ => (a1 q hq hp he).trans (h0 q hq hQ)
      | succ t => exact b1 t (by omega) q hq
    · intro t ht
      cases t with
      | zero => exact a2
      | succ t => exact b2 t (by omega)
    · rw [trSteps_append, flips_append, b3, List.range_succ_eq_map (n := k + 1), List.flatMap_cons, List.flatMap_map]
      rfl
    · rw [trSteps_append, after_append]
      exact b5
    · rw [trLoss_append, a4, b6, List.range_succ_eq_map (n := k + 1), List.flatMap_cons, List.flatMap_map]
      rfl
    · intro t
      cases t with
      | zero => exact a5
      | succ t => exact b7 t
    · rw [Finset.sum_range_succ', faultWeight_append]
      have e : (∑ t ∈ Finset.range (k + 1), ((List.range L.dataqubits.length).countP (shift p0 p (t + 1)) + (shift Q1 Q (t + 1)).card + (shift W0 W (t + 1)).card)) =
        ∑ t ∈ Finset.range (k + 1), ((List.range L.dataqubits.length).countP (p t) + (Q t).card + (W t).card) := rfl
      rw [e]
      have e2 : (List.range L.dataqubits.length).countP (shift p0 p 0) + (shift Q1 Q 0).card + (shift W0 W 0).card = (List.range L.dataqubits.length).countP p0 + Q1.card + W0.card := rfl
      rw [e2]
      omega
    · rw [b9, List.range_succ_eq_map (n := k + 1), List.flatMap_cons, List.flatMap_map]
      rfl
    · intro t ht
      cases t with
      | zero => exact h1.fst
      | succ t => exact b10 t (by omega)
    · intro t ht
      cases t with
      | zero => exact a7
      | succ t => exact b12 t (by omega)

end Plaquette
