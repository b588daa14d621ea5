import Verif.Lemmas.BlamePlaces

/-!
# Every place has few causes, and every cause few places
-/

namespace Plaquette
variable {F : Type} {L : Lattice} {fl : Flags} {ge1 : Name → Nat → List (Gate F)} {ge2 : Name → Nat → Nat → List (Gate F)} {pg eg err : Nat → List (Gate F)}

/-- The causes at a place if gates are not faulty. -/
def qubitCauses (n o : Nat) (block : List (Gate F)) : Place n → Finset Nat
  | .inl (t, q) => spots o block (atHome q.val) t
  | .inr (t, s) => spots o block (flipAt (n + s)) t

/-- The stabilisers that act on a qubit. -/
def Lattice.onQubit (L : Lattice) (q : Nat) : Finset Pos := (L.stabgens.map Prod.fst).toFinset.filter fun a => q ∈ L.suppF a

/-- The stabilisers that act on a qubit of a stabiliser. -/
def Lattice.near (L : Lattice) (b : Pos) : Finset Pos := (L.suppF b).biUnion L.onQubit

/-- The causes at a place if gates are faulty: at a data qubit also the gates of the round before with stabilisers on the qubit, and for an outcome the
instructions with stabilisers on one of its qubits. -/
def gateCauses (L : Lattice) (o : Nat) (block : List (Gate F)) : Place L.dataqubits.length → Finset Nat
  | .inl (t, q) => spots o block (atHome q.val) t ∪ (if t = 0 then ∅ else (L.onQubit q).biUnion fun a => spots o block (atHome (L.idx a)) (t - 1))
  | .inr (t, s) => (((L.stabgens.map Prod.fst).toFinset.filter fun b => L.idx b = L.dataqubits.length + s).biUnion L.near).biUnion fun a => spots o block (atHome (L.idx a)) t

theorem mem_onQubit {q : Nat} {a : Pos} : a ∈ L.onQubit q ↔ a ∈ L.stabgens.map Prod.fst ∧ q ∈ L.suppF a := by
  unfold Lattice.onQubit
  rw [Finset.mem_filter, List.mem_toFinset]

theorem mem_near {a b : Pos} : a ∈ L.near b ↔ a ∈ L.stabgens.map Prod.fst ∧ ∃ q, q ∈ L.suppF a ∧ q ∈ L.suppF b := by
  unfold Lattice.near
  simp only [Finset.mem_biUnion, mem_onQubit]
  constructor
  · rintro ⟨q, h1, h2, h3⟩; exact ⟨h2, q, h3, h1⟩
  · rintro ⟨h2, q, h3, h1⟩; exact ⟨q, h1, h2, h3⟩

theorem supp_lt (hw : L.Wf) {a : Pos} {q : Nat} (h : q ∈ L.suppF a) : q < L.dataqubits.length := by
  unfold Lattice.suppF at h
  rw [List.mem_toFinset, List.mem_map] at h
  obtain ⟨e, he, rfl⟩ := h
  exact hw.idx_lt (hw.op_data he)

theorem supp_card {w deg : Nat} (hS : L.Sparse w deg) {a : Pos} (ha : a ∈ L.stabgens.map Prod.fst) : (L.suppF a).card ≤ w := by
  unfold Lattice.suppF
  refine (List.toFinset_card_le _).trans ?_
  rw [List.length_map]
  exact hS.weight a ha

theorem near_card (hw : L.Wf) {w deg : Nat} (hS : L.Sparse w deg) {b : Pos} (hb : b ∈ L.stabgens.map Prod.fst) : (L.near b).card ≤ w * deg :=
  (Finset.card_biUnion_le_card_mul _ _ deg fun q hq => hS.degree q (supp_lt hw hq)).trans (Nat.mul_le_mul_right _ (supp_card hS hb))

theorem block_data (hw : L.Wf) (hc : L.Comm) (hs : L.Sched) (hE : AllErrs L fl ge1 ge2 pg eg err) {w deg : Nat} (hS : L.Sparse w deg) {q : Nat} (hq : q < L.dataqubits.length) :
    (L.roundBlock ge1 ge2 pg eg err).countP (atHome q) ≤ 2 := by
  unfold Lattice.roundBlock
  rw [List.countP_append, (round_count hw hc hs hE hS).1 q hq]
  have := (data_count hE q).1
  rw [if_pos hq] at this
  omega

theorem block_anc (hw : L.Wf) (hc : L.Comm) (hs : L.Sched) (hE : AllErrs L fl ge1 ge2 pg eg err) {w deg : Nat} (hS : L.Sparse w deg) {a : Pos} (ha : a ∈ L.stabgens.map Prod.fst) :
    (L.roundBlock ge1 ge2 pg eg err).countP (atHome (L.idx a)) ≤ w + 5 ∧ (L.roundBlock ge1 ge2 pg eg err).countP (flipAt (L.idx a)) ≤ 1 := by
  unfold Lattice.roundBlock
  rw [List.countP_append, List.countP_append]
  obtain ⟨h1, h2⟩ := (round_count hw hc hs hE hS).2 a ha
  obtain ⟨h3, h4⟩ := data_count hE (L.idx a)
  rw [if_neg (by have := hw.anc_idx (stab_anc ha); omega)] at h3
  omega

theorem stab_at (hw : L.Wf) {s : Nat} (hs : s < L.stabgens.length) : ∃ b ∈ L.stabgens.map Prod.fst, L.idx b = L.dataqubits.length + s := by
  have hm : L.dataqubits.length + s ∈ (L.stabgens.map Prod.fst).map L.idx := by
    rw [hw.stab_range]
    exact List.mem_map_of_mem (List.mem_range.2 hs)
  obtain ⟨b, hb, e⟩ := List.mem_map.1 hm
  exact ⟨b, hb, e⟩

theorem stab_inj (hw : L.Wf) {a b : Pos} (ha : a ∈ L.stabgens.map Prod.fst) (h : L.idx a = L.idx b) : a = b := hw.idx_occ (Lattice.anc_occ (stab_anc ha)) h

theorem same_stab (hw : L.Wf) {b : Pos} (hb : b ∈ L.stabgens.map Prod.fst) {s : Nat} (h : L.idx b = L.dataqubits.length + s) :
    ((L.stabgens.map Prod.fst).toFinset.filter fun b => L.idx b = L.dataqubits.length + s) = {b} := by
  ext c
  rw [Finset.mem_filter, Finset.mem_singleton, List.mem_toFinset]
  constructor
  · rintro ⟨h1, h2⟩; exact stab_inj hw h1 (h2.trans h.symm)
  · rintro rfl; exact ⟨hb, h⟩

/-! ### Few causes -/

theorem qubitCauses_card (hw : L.Wf) (hc : L.Comm) (hs : L.Sched) (hE : AllErrs L fl ge1 ge2 pg eg err) {w deg : Nat} (hS : L.Sparse w deg) (o r : Nat)
    {a : Place L.dataqubits.length} (ha : Place.Within r L.stabgens.length a) : (qubitCauses L.dataqubits.length o (L.roundBlock ge1 ge2 pg eg err) a).card ≤ 2 := by
  rcases a with ⟨t, q⟩ | ⟨t, s⟩
  · exact (spots_card _ _ _ _).trans (block_data hw hc hs hE hS q.2)
  · obtain ⟨b, hb, e⟩ := stab_at hw ha.2
    unfold qubitCauses
    dsimp only
    rw [← e]
    exact (spots_card _ _ _ _).trans ((block_anc hw hc hs hE hS hb).2.trans (by omega))

theorem gateCauses_card (hw : L.Wf) (hc : L.Comm) (hs : L.Sched) (hE : AllErrs L fl ge1 ge2 pg eg err) {w deg : Nat} (hS : L.Sparse w deg) (hw2 : 2 ≤ w) (hd1 : 1 ≤ deg) (o r : Nat)
    {a : Place L.dataqubits.length} (ha : Place.Within r L.stabgens.length a) : (gateCauses L o (L.roundBlock ge1 ge2 pg eg err) a).card ≤ w * deg * (w + 5) := by
  rcases a with ⟨t, q⟩ | ⟨t, s⟩
  · unfold gateCauses
    dsimp only
    have h1 := (spots_card o (L.roundBlock ge1 ge2 pg eg err) (atHome q.val) t).trans (block_data hw hc hs hE hS q.2)
    have h2 : (if t = 0 then ∅ else (L.onQubit q).biUnion fun a => spots o (L.roundBlock ge1 ge2 pg eg err) (atHome (L.idx a)) (t - 1)).card ≤ deg * (w + 5) := by
      split
      · simp
      · refine (Finset.card_biUnion_le_card_mul _ _ (w + 5) fun a ha => ?_).trans (Nat.mul_le_mul_right _ (hS.degree q q.2))
        exact (spots_card _ _ _ _).trans (block_anc hw hc hs hE hS (mem_onQubit.1 ha).1).1
    refine (Finset.card_union_le _ _).trans ?_
    have h3 : 2 * (deg * (w + 5)) ≤ w * (deg * (w + 5)) := Nat.mul_le_mul_right _ hw2
    have h4 : 1 * (w + 5) ≤ deg * (w + 5) := Nat.mul_le_mul_right _ hd1
    rw [Nat.mul_assoc]
    omega
  · obtain ⟨b, hb, e⟩ := stab_at hw ha.2
    unfold gateCauses
    dsimp only
    rw [same_stab hw hb e, Finset.singleton_biUnion]
    refine (Finset.card_biUnion_le_card_mul _ _ (w + 5) fun a ha => ?_).trans (Nat.mul_le_mul_right _ (near_card hw hS hb))
    exact (spots_card _ _ _ _).trans (block_anc hw hc hs hE hS (mem_near.1 ha).1).1

/-! ### Few places -/

theorem atHome_eq {g : Gate F} {h : Nat} (hg : atHome h g = true) : g.home = h := by
  unfold atHome at hg
  rw [Bool.and_eq_true] at hg
  exact of_decide_eq_true hg.2

theorem flipAt_eq {g : Gate F} {h : Nat} (hg : flipAt h g = true) : g.home = h := by
  unfold flipAt at hg
  rw [Bool.and_eq_true] at hg
  exact of_decide_eq_true hg.2

/-- Places as pairs of a round and a qubit or ancilla. -/
def Place.key {n : Nat} : Place n → Nat × Nat
  | .inl (t, q) => (t, q)
  | .inr (t, s) => (t, n + s)

theorem Place.key_inj {n : Nat} : Function.Injective (Place.key (n := n)) := by
  rintro (⟨t, q⟩ | ⟨t, s⟩) (⟨t', q'⟩ | ⟨t', s'⟩) h
  · have h : (t, q.val) = (t', q'.val) := h
    simp only [Prod.mk.injEq] at h
    rw [h.1, Fin.ext h.2]
  · have h : (t, q.val) = (t', n + s') := h
    simp only [Prod.mk.injEq] at h
    have := q.2
    omega
  · have h : (t, n + s) = (t', q'.val) := h
    simp only [Prod.mk.injEq] at h
    have := q'.2
    omega
  · have h : (t, n + s) = (t', n + s') := h
    simp only [Prod.mk.injEq] at h
    rw [h.1, Nat.add_left_cancel h.2]

theorem qubitCauses_places {n o : Nat} {block : List (Gate F)} (A : Finset (Place n)) (i : Nat) : (A.filter fun a => i ∈ qubitCauses n o block a).card ≤ 1 := by
  have key : ∀ a : Place n, i ∈ qubitCauses n o block a → ∃ P, i ∈ spots o block P a.key.1 ∧ ∀ g, P g = true → g.home = a.key.2 := by
    rintro (⟨t, q⟩ | ⟨t, s⟩) h
    · exact ⟨_, h, fun g hg => atHome_eq hg⟩
    · exact ⟨_, h, fun g hg => flipAt_eq hg⟩
  refine Finset.card_le_one.2 fun a ha b hb => Place.key_inj ?_
  obtain ⟨P, h1, h2⟩ := key a (Finset.mem_filter.1 ha).2
  obtain ⟨P', h1', h2'⟩ := key b (Finset.mem_filter.1 hb).2
  obtain ⟨h3, g, h4, h5⟩ := spots_unique h1 h1'
  exact Prod.ext h3 ((h2 g h4).symm.trans (h2' g h5))

theorem gateCauses_places (hw : L.Wf) {w deg : Nat} (hS : L.Sparse w deg) (hw1 : 1 ≤ w) {o : Nat} {block : List (Gate F)} (A : Finset (Place L.dataqubits.length)) (i : Nat) :
    (A.filter fun a => i ∈ gateCauses L o block a).card ≤ w * (deg + 1) := by
  have key : ∀ a, i ∈ gateCauses L o block a → (∃ t q, a = .inl (t, q) ∧ i ∈ spots o block (atHome q.val) t) ∨
      ∃ c ∈ L.stabgens.map Prod.fst, ∃ t, i ∈ spots o block (atHome (L.idx c)) t ∧ a.key ∈ ({t + 1} ×ˢ L.suppF c) ∪ ({t} ×ˢ (L.near c).image L.idx) := by
    rintro (⟨t, q⟩ | ⟨t, s⟩) h
    · rcases Finset.mem_union.1 h with h | h
      · exact .inl ⟨t, q, rfl, h⟩
      · split at h
        · cases h
        · next h0 =>
          obtain ⟨c, hc, h⟩ := Finset.mem_biUnion.1 h
          obtain ⟨hc1, hc2⟩ := mem_onQubit.1 hc
          refine .inr ⟨c, hc1, t - 1, h, Finset.mem_union_left _ (Finset.mem_product.2 ⟨?_, hc2⟩)⟩
          rw [Finset.mem_singleton]
          show t = t - 1 + 1
          omega
    · obtain ⟨c, hc, h⟩ := Finset.mem_biUnion.1 h
      obtain ⟨b, hb, hc⟩ := Finset.mem_biUnion.1 hc
      obtain ⟨hb1, hb2⟩ := Finset.mem_filter.1 hb
      obtain ⟨hc1, q, hq1, hq2⟩ := mem_near.1 hc
      refine .inr ⟨c, hc1, t, h, Finset.mem_union_right _ (Finset.mem_product.2 ⟨Finset.mem_singleton_self _, ?_⟩)⟩
      exact Finset.mem_image.2 ⟨b, mem_near.2 ⟨List.mem_toFinset.1 hb1, q, hq2, hq1⟩, hb2⟩
  by_cases hex : ∃ c ∈ L.stabgens.map Prod.fst, ∃ t, i ∈ spots o block (atHome (L.idx c)) t
  · obtain ⟨c, hc, t, ht⟩ := hex
    have hsub : (A.filter fun a => i ∈ gateCauses L o block a).image Place.key ⊆ ({t + 1} ×ˢ L.suppF c) ∪ ({t} ×ˢ (L.near c).image L.idx) := by
      intro k hk
      obtain ⟨a, ha, rfl⟩ := Finset.mem_image.1 hk
      rcases key a (Finset.mem_filter.1 ha).2 with ⟨t', q, rfl, h⟩ | ⟨c', hc', t', h1, h2⟩
      · obtain ⟨_, g, h1, h2⟩ := spots_unique ht h
        have e := (atHome_eq h1).symm.trans (atHome_eq h2)
        have := hw.anc_idx (stab_anc hc)
        have := q.2
        omega
      · obtain ⟨rfl, g, h3, h4⟩ := spots_unique ht h1
        obtain rfl := stab_inj hw hc ((atHome_eq h3).symm.trans (atHome_eq h4))
        exact h2
    rw [← Finset.card_image_of_injective _ Place.key_inj]
    refine (Finset.card_le_card hsub).trans ((Finset.card_union_le _ _).trans ?_)
    rw [Finset.card_product, Finset.card_product, Finset.card_singleton, Finset.card_singleton, Nat.one_mul, Nat.one_mul]
    have h1 := supp_card hS hc
    have h2 := (Finset.card_image_le (s := L.near c) (f := L.idx)).trans (near_card hw hS hc)
    rw [Nat.mul_add]
    omega
  · have : (A.filter fun a => i ∈ gateCauses L o block a).card ≤ 1 := by
      refine Finset.card_le_one.2 fun a ha b hb => ?_
      rcases key a (Finset.mem_filter.1 ha).2 with ⟨t, q, rfl, h⟩ | ⟨c, hc, t, h, _⟩
      · rcases key b (Finset.mem_filter.1 hb).2 with ⟨t', q', rfl, h'⟩ | ⟨c, hc, t, h, _⟩
        · obtain ⟨rfl, g, h3, h4⟩ := spots_unique h h'
          rw [Fin.ext ((atHome_eq h3).symm.trans (atHome_eq h4))]
        · exact absurd ⟨c, hc, t, h⟩ hex
      · exact absurd ⟨c, hc, t, h⟩ hex
    refine this.trans ?_
    rw [Nat.mul_add]
    omega

/-! ### Faults have causes -/

/-- No gate can be faulty: there are no errors of two qubits, and Pauli errors only on data qubits. -/
def NoGateErrors (n : Nat) (c : List (Gate F)) : Prop := ∀ g ∈ c, g.name ≠ .E_PAULI2 ∧ (g.name = .E_PAULI → g.home < n)

theorem no_gateFault {n : Nat} {c : List (Gate F)} (h : NoGateErrors n c) {tr : List (Kicked1 F)} (ht : Trace c tr) {x : Kicked1 F} (hx : x ∈ tr) : gateFault n x ≠ true := by
  intro hg
  have hs := gateFault_struck hg
  have hm : x.1 ∈ c := by rw [← ht.fst]; exact List.mem_map_of_mem hx
  have e := (home_of_kick (ht.ok x hx) (struck_ne hs)).1
  obtain ⟨h1, h2⟩ := h x.1 hm
  unfold gateFault at hg
  simp only [Bool.and_eq_true, Bool.or_eq_true, decide_eq_true_eq] at hg
  rcases hg.2 with h3 | ⟨h3, h4⟩
  · exact h1 h3
  · have := h2 h3
    omega

variable {anc : Bool} {r : Nat} {as : List Pos} {tr : List (Kicked1 F)} {p e : Nat → Nat → Bool} {Q W : Nat → Finset Nat}

/-- Something goes wrong at a place. -/
def Wrong (n : Nat) (p e : Nat → Nat → Bool) (Q W : Nat → Finset Nat) : Place n → Prop
  | .inl (t, q) => p t q = true ∨ e t q = true ∨ q.val ∈ shift ∅ Q t
  | .inr (t, s) => n + s ∈ W t

theorem caused_mono {C D : Finset Nat} (h : C ⊆ D) (hc : Caused tr C) : Caused tr D := by
  obtain ⟨i, hi, x⟩ := hc
  exact ⟨i, h hi, x⟩

theorem qubit_caused {c : List (Gate F)} (ht : Trace c tr) (hN : NoGateErrors L.dataqubits.length c) (h : RoundBlame L ge1 ge2 pg eg err anc r as tr p e Q W)
    {a : Place L.dataqubits.length} (ha : Place.Within r L.stabgens.length a) (hwr : Wrong L.dataqubits.length p e Q W a) :
    Caused tr (qubitCauses L.dataqubits.length (L.noisyStart F anc as) (L.roundBlock ge1 ge2 pg eg err) a) := by
  rcases a with ⟨t, q⟩ | ⟨t, s⟩
  · obtain ⟨h1, h2, h3⟩ := blame_index ht.ok h (t := t) ha
    rcases hwr with hp | he | hq
    · exact h1 q (.inl hp)
    · exact h1 q (.inr he)
    · cases t with
      | zero => cases hq
      | succ t =>
        obtain ⟨_, _, _, _, x, hx, hg⟩ := (blame_index ht.ok h (t := t) (Nat.lt_of_succ_lt ha)).2.1 q hq
        exact absurd hg (no_gateFault hN ht hx)
  · obtain ⟨h1, h2, h3⟩ := blame_index ht.ok h (t := t) ha.1
    rcases h3 _ hwr with h3 | ⟨_, _, _, _, _, _, _, x, hx, hg⟩
    · exact h3
    · exact absurd hg (no_gateFault hN ht hx)

theorem gate_caused (hw : L.Wf) (hf : L.Full) {c : List (Gate F)} (ht : Trace c tr) (h : RoundBlame L ge1 ge2 pg eg err anc r as tr p e Q W)
    {a : Place L.dataqubits.length} (ha : Place.Within r L.stabgens.length a) (hwr : Wrong L.dataqubits.length p e Q W a) :
    Caused tr (gateCauses L (L.noisyStart F anc as) (L.roundBlock ge1 ge2 pg eg err) a) := by
  rcases a with ⟨t, q⟩ | ⟨t, s⟩
  · obtain ⟨h1, h2, h3⟩ := blame_index ht.ok h (t := t) ha
    rcases hwr with hp | he | hq
    · exact caused_mono Finset.subset_union_left (h1 q (.inl hp))
    · exact caused_mono Finset.subset_union_left (h1 q (.inr he))
    · cases t with
      | zero => cases hq
      | succ t =>
        obtain ⟨b, hb, hqb, hC, _⟩ := (blame_index ht.ok h (t := t) (Nat.lt_of_succ_lt ha)).2.1 q hq
        refine caused_mono (Finset.Subset.trans ?_ Finset.subset_union_right) hC
        rw [if_neg (Nat.succ_ne_zero t)]
        exact Finset.subset_biUnion_of_mem (fun a => spots (L.noisyStart F anc as) (L.roundBlock ge1 ge2 pg eg err) (atHome (L.idx a)) t) (mem_onQubit.2 ⟨hb, hqb⟩)
  · obtain ⟨h1, h2, h3⟩ := blame_index ht.ok h (t := t) ha.1
    obtain ⟨b, hb, hbs⟩ := stab_at hw ha.2
    have hin : ∀ c ∈ L.near b, spots (L.noisyStart F anc as) (L.roundBlock ge1 ge2 pg eg err) (atHome (L.idx c)) t ⊆
        gateCauses L (L.noisyStart F anc as) (L.roundBlock ge1 ge2 pg eg err) (.inr (t, s)) := by
      intro c hc
      unfold gateCauses
      dsimp only
      rw [same_stab hw hb hbs, Finset.singleton_biUnion]
      exact Finset.subset_biUnion_of_mem (fun a => spots (L.noisyStart F anc as) (L.roundBlock ge1 ge2 pg eg err) (atHome (L.idx a)) t) hc
    rcases h3 _ hwr with h3 | ⟨b', hb', hs', c, hc, ⟨q, hq1, hq2⟩, hC, _⟩
    · refine caused_mono (Finset.Subset.trans (fun i hi => ?_) (hin b ?_)) h3
      · obtain ⟨j, g, k1, k2, k3⟩ := mem_spots.1 hi
        refine mem_spots.2 ⟨j, g, k1, ?_, k3⟩
        unfold flipAt at k2
        rw [Bool.and_eq_true, decide_eq_true_eq, decide_eq_true_eq] at k2
        unfold atHome
        rw [k2.1, k2.2, hbs]
        simp [Name.noisy]
      · obtain ⟨st, hst, rfl⟩ := List.mem_map.1 hb
        obtain ⟨e, he⟩ := List.exists_mem_of_ne_nil _ (hf.stab st hst)
        have hq : L.idx e.data ∈ L.suppF st.1 := by
          unfold Lattice.suppF
          rw [List.mem_toFinset]
          exact List.mem_map_of_mem he
        exact mem_near.2 ⟨hb, _, hq, hq⟩
    · obtain rfl := stab_inj hw hb (hbs.trans hs')
      exact caused_mono (hin c (mem_near.2 ⟨hc, q, hq1, hq2⟩)) hC

end Plaquette
