import Verif.Lemmas.GenGates
import Verif.Spec.Codes

/-!
# The measurements of a lattice code
-/

namespace Plaquette
variable {F : Type} {n : Nat} {api : FloatApi F} {rng : Rng F} {L : Lattice}

/-- The lattice can be measured: no letter Y, and the schedule (if there is one) is for the stabilisers, has no conflicts
and keeps the order. -/
structure Lattice.Sched (L : Lattice) : Prop where
  noY : ∀ e ∈ L.edges, e.factor ≠ .Y
  steps : L.timeSteps = none ∨ (L.ConflictFree ∧ L.SameOrder ∧ ∀ e ∈ L.edges, e.step ≠ none → L.isStab e.op = true)

/-- The operator of a vertex, on all qubits of the circuit. -/
def Lattice.lop (L : Lattice) (n : Nat) (a : Pos) : Op n := edgesOp L.idx n (L.opEdges a)

/-- The positions of the operators. -/
def Lattice.ancillas (L : Lattice) : List Pos := L.stabgens.map Prod.fst ++ L.logicals.map Prod.fst

theorem Lattice.Wf.idx_occ (h : L.Wf) {p q : Pos} (hp : p ∈ L.occupied) (he : L.idx p = L.idx q) : p = q := by
  unfold Lattice.idx at he
  rw [h.indexed] at he
  exact (List.idxOf_inj hp).mp he

theorem Lattice.anc_occ {a : Pos} (ha : a ∈ L.ancillas) : a ∈ L.occupied := by
  unfold Lattice.occupied
  unfold Lattice.ancillas at ha
  rw [List.append_assoc]
  exact List.mem_append_right _ ha

theorem Lattice.Wf.anc_data (h : L.Wf) {a : Pos} (ha : a ∈ L.ancillas) {q : Pos} (hq : q ∈ L.dataqubits) : L.idx a ≠ L.idx q := by
  intro he
  have := h.idx_occ (Lattice.anc_occ ha) he
  subst this
  have := h.occ
  unfold Lattice.occupied at this
  rw [List.append_assoc] at this
  exact (List.nodup_append.mp this).2.2 a hq a ha rfl

theorem Lattice.Wf.anc_idx (h : L.Wf) {a : Pos} (ha : a ∈ L.ancillas) : L.dataqubits.length ≤ L.idx a := by
  have hn := h.occ
  unfold Lattice.occupied at hn
  rw [List.append_assoc] at hn
  have h1 : a ∉ L.dataqubits := fun hc => (List.nodup_append.mp hn).2.2 a hc a ha rfl
  unfold Lattice.idx
  rw [h.indexed]
  unfold Lattice.occupied
  rw [List.append_assoc, List.idxOf_append_of_notMem h1]
  omega

theorem Lattice.Wf.stab_nodup (h : L.Wf) : (L.stabgens.map Prod.fst).Nodup := by
  have hn := h.occ
  unfold Lattice.occupied at hn
  rw [List.append_assoc] at hn
  exact (List.nodup_append.mp (List.nodup_append.mp hn).2.1).1

/-- One operator measured on its own. -/
theorem single_ok (h : L.Wf) (hY : ∀ e ∈ L.edges, e.factor ≠ .Y) {a : Pos} (ha : a ∈ L.ancillas) :
    BlockOk L.idx [a] (L.opEdges a) where
  nodup := by simp
  inj := by simp
  op e he := by
    have := (List.mem_filter.mp he).2
    simpa using this
  apart b hb e he := by
    rw [List.mem_singleton.mp hb]
    exact h.anc_data ha (h.op_data he)
  data e he f hf := h.idx_inj (h.op_data he) (h.op_data hf)
  noY e he := hY e (List.mem_filter.mp he).1
  once b hb := by
    rw [List.mem_singleton.mp hb]
    refine List.Nodup.sublist (List.Sublist.map _ List.filter_sublist) (h.op_nodup a)
  cross b hb c hc hne := by
    rw [List.mem_singleton.mp hb, List.mem_singleton.mp hc] at hne
    exact absurd rfl hne

theorem edges_nodup (h : L.Wf) : L.edges.Nodup := List.Nodup.of_map _ h.keys

theorem stepEdges_nodup (h : L.Wf) (T : Nat) : (L.stepEdges T).Nodup := by
  unfold Lattice.stepEdges
  rw [List.nodup_flatMap]
  refine ⟨fun i _ => (edges_nodup h).filter _, ?_⟩
  refine List.nodup_range.imp ?_
  intro i j hij e he he'
  have h1 := of_decide_eq_true (List.mem_filter.mp he).2
  have h2 := of_decide_eq_true (List.mem_filter.mp he').2
  rw [h1] at h2
  exact hij (by simpa using h2)

theorem stepEdges_sorted (T : Nat) : (L.stepEdges T).Pairwise fun x y => x.step.getD 0 ≤ y.step.getD 0 := by
  unfold Lattice.stepEdges
  rw [List.pairwise_flatMap]
  constructor
  · intro i _
    refine List.Pairwise.imp_of_mem ?_ (List.pairwise_of_forall (R := fun _ _ => True) (fun _ _ => trivial))
    intro x y hx hy _
    rw [of_decide_eq_true (List.mem_filter.mp hx).2, of_decide_eq_true (List.mem_filter.mp hy).2]
  · refine List.pairwise_lt_range.imp ?_
    intro i j hij x hx y hy
    rw [of_decide_eq_true (List.mem_filter.mp hx).2, of_decide_eq_true (List.mem_filter.mp hy).2]
    exact Nat.le_of_lt hij

theorem stepEdges_filter (h : L.Wf) (hC : L.ConflictFree) {T : Nat} (hT : L.timeSteps = some T) {a : Pos} (ha : L.isStab a = true) :
    ((L.stepEdges T).filter fun e => e.op = a).Perm (L.opEdges a) := by
  unfold Lattice.opEdges
  rw [List.perm_ext_iff_of_nodup ((stepEdges_nodup h T).filter _) ((edges_nodup h).filter _)]
  intro e
  simp only [List.mem_filter, Lattice.opEdges, Lattice.mem_stepEdges, decide_eq_true_eq]
  constructor
  · rintro ⟨⟨h1, _⟩, h2⟩; exact ⟨h1, h2⟩
  · rintro ⟨h1, h2⟩
    obtain ⟨T', hT', hs⟩ := hC.steps
    rw [hT] at hT'
    obtain rfl : T = T' := by simpa using hT'
    exact ⟨⟨h1, hs e h1 (by rw [h2]; exact ha)⟩, h2⟩

theorem isStab_iff {a : Pos} : L.isStab a = true ↔ a ∈ L.stabgens.map Prod.fst := by
  unfold Lattice.isStab
  rw [List.any_eq_true, List.mem_map]
  constructor
  · rintro ⟨s, hs, he⟩; exact ⟨s, hs, of_decide_eq_true he⟩
  · rintro ⟨s, hs, he⟩; exact ⟨s, hs, decide_eq_true he⟩

theorem stab_anc {a : Pos} (h : a ∈ L.stabgens.map Prod.fst) : a ∈ L.ancillas := List.mem_append_left _ h

theorem comm_stab (hc : L.Comm) {a b : Pos} (ha : a ∈ L.stabgens.map Prod.fst) (hb : b ∈ L.stabgens.map Prod.fst) :
    antiE (L.opEdges a) (L.opEdges b) = false := by
  obtain ⟨s, hs, rfl⟩ := List.mem_map.mp ha
  obtain ⟨t, ht, rfl⟩ := List.mem_map.mp hb
  exact hc.stab_stab s hs t ht

/-- All stabilisers measured at once. -/
theorem par_ok (h : L.Wf) (hc : L.Comm) (hY : ∀ e ∈ L.edges, e.factor ≠ .Y) (hC : L.ConflictFree) (hO : L.SameOrder)
    (hS : ∀ e ∈ L.edges, e.step ≠ none → L.isStab e.op = true) {T : Nat} (hT : L.timeSteps = some T) :
    BlockOk L.idx (L.stabgens.map Prod.fst) (L.stepEdges T) where
  nodup := h.stab_nodup
  inj a ha b _ he := h.idx_occ (Lattice.anc_occ (stab_anc ha)) he
  op e he := by
    obtain ⟨h1, k, h2, _⟩ := Lattice.mem_stepEdges.mp he
    exact isStab_iff.mp (hS e h1 (by simp [h2]))
  apart a ha e he := h.anc_data (stab_anc ha) (h.data e (Lattice.mem_stepEdges.mp he).1)
  data e he f hf := h.idx_inj (h.data e (Lattice.mem_stepEdges.mp he).1) (h.data f (Lattice.mem_stepEdges.mp hf).1)
  noY e he := hY e (Lattice.mem_stepEdges.mp he).1
  once a ha := by
    rw [((stepEdges_filter h hC hT (isStab_iff.mpr ha)).map LEdge.data).nodup_iff]
    exact h.op_nodup a
  cross a ha b hb hab := by
    have mem : ∀ e, e ∈ (L.stepEdges T).reverse → e ∈ L.edges ∧ L.isStab e.op = true ∧ e.step = some (e.step.getD 0) := by
      intro e he
      obtain ⟨h1, k, h2, _⟩ := Lattice.mem_stepEdges.mp (List.mem_reverse.mp he)
      exact ⟨h1, hS e h1 (by simp [h2]), by rw [h2]; rfl⟩
    refine crossR_of_order L.idx (fun e => e.step.getD 0) a b hab _ ?_ ?_ ?_ ?_
    · intro e he hi
      have := mem e he
      exact h.idx_occ (Lattice.anc_occ (stab_anc (isStab_iff.mp this.2.1))) hi
    · rw [List.pairwise_reverse]; exact stepEdges_sorted T
    · have conf : ∀ e ∈ (L.stepEdges T).reverse, ∀ f ∈ (L.stepEdges T).reverse, e.op = a → f.op = b → pairAnti e f = true →
          e.data = f.data ∧ e.factor ≠ f.factor ∧ e.step.getD 0 ≠ f.step.getD 0 := by
        intro e he f hf hea hfb hp
        unfold pairAnti at hp
        simp only [Bool.and_eq_true, decide_eq_true_eq] at hp
        refine ⟨hp.1, hp.2, fun hst => ?_⟩
        obtain ⟨e1, e2, e3⟩ := mem e he
        obtain ⟨f1, f2, f3⟩ := mem f hf
        have := hC.apart e e1 f f1 e2 f2 (by rw [e3, f3, hst]) (.inr hp.1)
        exact hp.2 (by rw [this])
      by_cases hex : ∃ e ∈ (L.stepEdges T).reverse, ∃ f ∈ (L.stepEdges T).reverse, e.op = a ∧ f.op = b ∧ pairAnti e f = true ∧
          e.step.getD 0 < f.step.getD 0
      · left
        obtain ⟨e0, he0, f0, hf0, ha0, hb0, hp0, hlt⟩ := hex
        intro e he f hf hea hfb hp
        obtain ⟨c1, c2, c3⟩ := conf e he f hf hea hfb hp
        obtain ⟨d1, d2, d3⟩ := conf e0 he0 f0 hf0 ha0 hb0 hp0
        exact (hO e0 (mem e0 he0).1 f0 (mem f0 hf0).1 e (mem e he).1 f (mem f hf).1 (mem e0 he0).2.1 (mem f0 hf0).2.1
          (by rw [hea, ha0]) (by rw [hfb, hb0]) d1 c1 d2 c2 _ _ _ _ (mem e0 he0).2.2 (mem f0 hf0).2.2 (mem e he).2.2
          (mem f hf).2.2).mp hlt
      · right
        intro e he f hf hea hfb hp
        have c3 := (conf e he f hf hea hfb hp).2.2
        by_contra hn
        exact hex ⟨e, he, f, hf, hea, hfb, hp, by omega⟩
    · rw [List.filter_reverse, List.filter_reverse, antiE_perm_left (List.reverse_perm _), antiE_symm, antiE_perm_left (List.reverse_perm _),
        antiE_symm, antiE_perm_left (stepEdges_filter h hC hT (isStab_iff.mpr hb)), antiE_symm,
        antiE_perm_left (stepEdges_filter h hC hT (isStab_iff.mpr ha))]
      exact comm_stab hc ha hb

theorem stabBlocks_anc : L.stabBlocks.flatMap Prod.fst = L.stabgens.map Prod.fst := by
  unfold Lattice.stabBlocks
  cases L.timeSteps with
  | some T => simp
  | none => simp only [List.flatMap_map]; exact (List.map_eq_flatMap ..).symm

theorem stabBlocks_ok (h : L.Wf) (hc : L.Comm) (hs : L.Sched) : ∀ b ∈ L.stabBlocks, BlockOk L.idx b.1 b.2 := by
  intro b hb
  unfold Lattice.stabBlocks at hb
  rcases hs.steps with ht | ⟨hC, hO, hS⟩
  · rw [ht] at hb
    obtain ⟨s, hs', rfl⟩ := List.mem_map.mp hb
    exact single_ok h hs.noY (stab_anc (List.mem_map_of_mem hs'))
  · obtain ⟨T, hT, _⟩ := hC.steps
    rw [hT] at hb
    rw [List.mem_singleton.mp hb]
    exact par_ok h hc hs.noY hC hO hS hT

theorem edgesOp_perm {idx : Pos → Nat} {es es' : List LEdge} (h : es.Perm es') : edgesOp idx n es = edgesOp idx n es' := by
  unfold edgesOp
  simp only [xorSum_perm h]

theorem stabBlocks_op (h : L.Wf) (hs : L.Sched) : ∀ b ∈ L.stabBlocks, ∀ a ∈ b.1, blockOp L.idx n b.2 a = L.lop n a := by
  intro b hb a ha
  unfold Lattice.stabBlocks at hb
  rcases hs.steps with ht | ⟨hC, hO, hS⟩
  · rw [ht] at hb
    obtain ⟨s, hs', rfl⟩ := List.mem_map.mp hb
    rw [List.mem_singleton.mp ha]
    unfold blockOp Lattice.lop Lattice.opEdges
    rw [List.filter_filter]
    simp
  · obtain ⟨T, hT, _⟩ := hC.steps
    rw [hT] at hb
    rw [List.mem_singleton.mp hb] at ha ⊢
    exact edgesOp_perm (stepEdges_filter h hC hT (isStab_iff.mpr ha))

theorem lop_idAt (h : L.Wf) {a b : Pos} (hb : b ∈ L.ancillas) : (L.lop n a).IdAt (L.idx b) := by
  intro q hq
  have : ∀ f ∈ L.opEdges a, ¬ L.idx f.data = q.val := by
    intro f hf hc
    exact h.anc_data hb (h.op_data hf) (by rw [hc, hq])
  exact ⟨xorSum_false fun f hf => by simp [this f hf], xorSum_false fun f hf => by simp [this f hf]⟩

theorem anti_lop (h : L.Wf) (hn : L.dataqubits.length ≤ n) (a b : Pos) :
    anti (L.lop n a) (L.lop n b) = antiE (L.opEdges a) (L.opEdges b) :=
  anti_edgesOp L.idx _ _ (fun e he => lt_of_lt_of_le (h.idx_lt (h.op_data he)) hn)
    fun e he f hf => h.idx_inj (h.op_data he) (h.op_data hf)

/-- The gates of one round of stabiliser measurements. -/
def Lattice.roundGates (L : Lattice) : List (Name × List (Val F)) := L.stabBlocks.flatMap fun b => blockGates L.idx b.1 b.2

/-- One round of stabiliser measurements. -/
theorem round_measures (h : L.Wf) (hc : L.Comm) (hs : L.Sched) (hn : L.dataqubits.length ≤ n) :
    Measures api rng L.roundGates ((L.stabgens.map Prod.fst).map (L.lop n)) ((L.stabgens.map Prod.fst).map L.idx) := by
  have hmem : ∀ b ∈ L.stabBlocks, ∀ a ∈ b.1, a ∈ L.stabgens.map Prod.fst := by
    intro b hb a ha
    rw [← stabBlocks_anc]
    exact List.mem_flatMap.mpr ⟨b, hb, ha⟩
  have e1 : (L.stabgens.map Prod.fst).map (L.lop n) = L.stabBlocks.flatMap fun b => b.1.map (L.lop n) := by
    rw [← stabBlocks_anc, List.map_flatMap]
  have e2 : (L.stabgens.map Prod.fst).map L.idx = L.stabBlocks.flatMap fun b => b.1.map L.idx := by
    rw [← stabBlocks_anc, List.map_flatMap]
  rw [e1, e2]
  refine Measures.flatMap _ _ _ _ ?_ ?_ ?_
  · intro b hb
    rw [← List.map_congr_left (stabBlocks_op h hs b hb)]
    exact block_measures L.idx b.1 b.2 (stabBlocks_ok h hc hs b hb)
  · intro b hb b' hb' p hp q hq
    obtain ⟨a, ha, rfl⟩ := List.mem_map.mp hp
    obtain ⟨a', ha', rfl⟩ := List.mem_map.mp hq
    rw [anti_lop h hn]
    exact comm_stab hc (hmem b hb a ha) (hmem b' hb' a' ha')
  · intro b _ b' hb' p hp i hi
    obtain ⟨a, _, rfl⟩ := List.mem_map.mp hp
    obtain ⟨a', ha', rfl⟩ := List.mem_map.mp hi
    exact lop_idAt h (stab_anc (hmem b' hb' a' ha'))

/-- Several rounds. -/
theorem rounds_measures (h : L.Wf) (hc : L.Comm) (hs : L.Sched) (hn : L.dataqubits.length ≤ n) (k : Nat) :
    Measures api rng (List.replicate k L.roundGates).flatten ((List.replicate k (L.stabgens.map Prod.fst)).flatten.map (L.lop n))
      ((List.replicate k (L.stabgens.map Prod.fst)).flatten.map L.idx) := by
  have := Measures.flatMap (api := api) (rng := rng) (List.replicate k ()) (fun _ => L.roundGates)
    (fun _ => (L.stabgens.map Prod.fst).map (L.lop n)) (fun _ => (L.stabgens.map Prod.fst).map L.idx)
    (fun _ _ => round_measures h hc hs hn) (by
      intro _ _ _ _ p hp q hq
      obtain ⟨a, ha, rfl⟩ := List.mem_map.mp hp
      obtain ⟨b, hb, rfl⟩ := List.mem_map.mp hq
      rw [anti_lop h hn]
      exact comm_stab hc ha hb) (by
      intro _ _ _ _ p hp i hi
      obtain ⟨a, _, rfl⟩ := List.mem_map.mp hp
      obtain ⟨b, hb, rfl⟩ := List.mem_map.mp hi
      exact lop_idAt h (stab_anc hb))
  have e : ∀ {α β : Type} (f : α → β) (l : List α), ((List.replicate k l).flatten).map f = (List.replicate k (l.map f)).flatten := by
    intro α β f l
    rw [List.map_flatten, List.map_replicate]
  have e' : ∀ {β : Type} (l : List β), (List.replicate k ()).flatMap (fun _ => l) = (List.replicate k l).flatten := by
    intro β l
    rw [List.flatMap_def, List.map_replicate]
  rw [e' , e', e'] at this
  rw [e, e]
  exact this

/-- The gates that measure the logical operators at the positions `as` with ancillas. -/
def Lattice.logGates (L : Lattice) (as : List Pos) : List (Name × List (Val F)) :=
  as.flatMap fun a => blockGates L.idx [a] (L.opEdges a)

theorem logs_measures (h : L.Wf) (hs : L.Sched) (hn : L.dataqubits.length ≤ n) (as : List Pos) (has : ∀ a ∈ as, a ∈ L.ancillas)
    (hcom : ∀ a ∈ as, ∀ b ∈ as, antiE (L.opEdges a) (L.opEdges b) = false) :
    Measures api rng (L.logGates as) (as.map (L.lop n)) (as.map L.idx) := by
  have e : ∀ {β : Type} (f : Pos → β), as.map f = as.flatMap fun a => [f a] := fun f => List.map_eq_flatMap ..
  rw [e, e]
  refine Measures.flatMap _ _ _ _ ?_ ?_ ?_
  · intro a ha
    have := block_measures (api := api) (rng := rng) (n := n) L.idx [a] (L.opEdges a) (single_ok h hs.noY (has a ha))
    rw [show [a].map (blockOp L.idx n (L.opEdges a)) = [L.lop n a] from ?_] at this
    · exact this
    · unfold blockOp Lattice.lop Lattice.opEdges
      simp
  · intro a ha b hb p hp q hq
    rw [List.mem_singleton.mp hp, List.mem_singleton.mp hq, anti_lop h hn]
    exact hcom a ha b hb
  · intro a _ b hb p hp i hi
    rw [List.mem_singleton.mp hp, List.mem_singleton.mp hi]
    exact lop_idAt h (has b hb)

end Plaquette
