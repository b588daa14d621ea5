import Verif.Lemmas.NoisyRun

/-!
# Rounds of measurements with flipped outcomes
-/

namespace Plaquette
open Matrix
variable {F : Type} {n : Nat} {api : FloatApi F} {rng : Rng F} {L : Lattice}

/-- The gates of a block of measured operators, with flips. -/
def noisyBlock (err : Nat → List (Gate F)) (idx : Pos → Nat) (as : List Pos) (es : List LEdge) : List (Gate F) :=
  ((as.map idx).flatMap fun a => [g1 .R a, g1 .H a]).map toGate ++ ((es.map (ctl idx)).map toGate ++ readGates err (as.map idx))

/-- The gates measure the operators of the ancillas `as`, one result each, some of them flipped, and change nothing else. -/
def Reads (api : FloatApi F) (rng : Rng F) (gs : List (Gate F)) (as : List Pos) (O : Pos → Op n) (idx : Pos → Nat) (err : Nat → List (Gate F)) : Prop :=
  ∀ (S S' : Sim n) (σ : VState n), S.Is σ → S.runGates api rng gs = .ok S' → σ.ψ ≠ 0 →
    ∃ σ', S'.Is σ' ∧ σ'.ψ ≠ 0 ∧ σ'.erasure = σ.erasure ∧
      (∃ out fl : Pos → Bool, σ'.meas = σ.meas ++ as.map out ∧
        S.events api rng gs = as.flatMap (fun a => flipEvents (idx a) (err (idx a)) (fl a)) ∧
        (∀ a ∈ as, err (idx a) = [] → fl a = false) ∧ ∀ a ∈ as, HasValue (O a) (out a ^^ fl a) σ'.ψ) ∧
      ∀ p : Op n, (∀ a ∈ as, p.IdAt (idx a)) → (∀ a ∈ as, anti p (O a) = false) → Stabilises p σ.ψ → Stabilises p σ'.ψ

theorem Reads.nil (O : Pos → Op n) (idx : Pos → Nat) (err : Nat → List (Gate F)) : Reads api rng [] [] O idx err := by
  intro S S' σ hS h h0
  cases h
  exact ⟨σ, hS, h0, rfl, ⟨fun _ => false, fun _ => false, by simp, rfl, by simp, by simp⟩, fun _ _ _ hp => hp⟩

theorem Reads.append {gs gs' : List (Gate F)} {as as' : List Pos} {O : Pos → Op n} {idx : Pos → Nat} {err : Nat → List (Gate F)}
    (h : Reads api rng gs as O idx err) (h' : Reads api rng gs' as' O idx err) (hd : ∀ a ∈ as, ∀ b ∈ as', a ≠ b)
    (hc : ∀ a ∈ as, ∀ b ∈ as', anti (O a) (O b) = false) (hI : ∀ a ∈ as, ∀ b ∈ as', (O a).IdAt (idx b)) :
    Reads api rng (gs ++ gs') (as ++ as') O idx err := by
  classical
  intro S S' σ hS hr h0
  obtain ⟨S1, hr1, hr2, hev⟩ := run_parts hr
  obtain ⟨σ1, a0, a1, a2, ⟨out, fl, a3, a4, a5, a6⟩, a7⟩ := h S S1 σ hS hr1 h0
  obtain ⟨σ', b0, b1, b2, ⟨out', fl', b3, b4, b5, b6⟩, b7⟩ := h' S1 S' σ1 a0 hr2 a1
  have hne : ∀ b ∈ as', b ∉ as := fun b hb ha => hd b ha b hb rfl
  refine ⟨σ', b0, b1, b2.trans a2, ⟨fun a => if a ∈ as then out a else out' a, fun a => if a ∈ as then fl a else fl' a, ?_, ?_, ?_, ?_⟩, ?_⟩
  · rw [b3, a3, List.map_append, List.append_assoc]
    congr 2
    · exact List.map_congr_left fun a ha => by rw [if_pos ha]
    · exact List.map_congr_left fun a ha => by rw [if_neg (hne a ha)]
  · rw [hev, a4, b4, List.flatMap_append]
    congr 1
    · exact List.flatMap_congr fun a ha => by dsimp only; rw [if_pos ha]
    · exact List.flatMap_congr fun a ha => by dsimp only; rw [if_neg (hne a ha)]
  · intro a ha he
    dsimp only
    rcases List.mem_append.1 ha with ha | ha
    · rw [if_pos ha]; exact a5 a ha he
    · rw [if_neg (hne a ha)]; exact b5 a ha he
  · intro a ha
    dsimp only
    rcases List.mem_append.1 ha with ha | ha
    · rw [if_pos ha, if_pos ha]
      exact b7 _ (fun b hb => hI a ha b hb) (fun b hb => by rw [anti_sign]; exact hc a ha b hb) (a6 a ha)
    · rw [if_neg (hne a ha), if_neg (hne a ha)]; exact b6 a ha
  · intro p hp hq hs
    exact b7 p (fun a ha => hp a (by simp [ha])) (fun a ha => hq a (by simp [ha]))
      (a7 p (fun a ha => hp a (by simp [ha])) (fun a ha => hq a (by simp [ha])) hs)

/-- A sequence of parts. -/
theorem Reads.flatMap {α : Type} (l : List α) (gs : α → List (Gate F)) (as : α → List Pos) {O : Pos → Op n} {idx : Pos → Nat}
    {err : Nat → List (Gate F)} (h : ∀ i ∈ l, Reads api rng (gs i) (as i) O idx err) (hd : (l.flatMap as).Nodup)
    (hc : ∀ a ∈ l.flatMap as, ∀ b ∈ l.flatMap as, anti (O a) (O b) = false) (hI : ∀ a ∈ l.flatMap as, ∀ b ∈ l.flatMap as, (O a).IdAt (idx b)) :
    Reads api rng (l.flatMap gs) (l.flatMap as) O idx err := by
  induction l with
  | nil => exact Reads.nil O idx err
  | cons i l ih =>
    simp only [List.flatMap_cons] at hd hc hI ⊢
    rw [List.nodup_append] at hd
    exact Reads.append (h i (by simp)) (ih (fun j hj => h j (by simp [hj])) hd.2.1 (fun a ha b hb => hc a (List.mem_append_right _ ha) b (List.mem_append_right _ hb))
      (fun a ha b hb => hI a (List.mem_append_right _ ha) b (List.mem_append_right _ hb))) hd.2.2
      (fun a ha b hb => hc a (List.mem_append_left _ ha) b (List.mem_append_right _ hb))
      (fun a ha b hb => hI a (List.mem_append_left _ ha) b (List.mem_append_right _ hb))

/-- A block of operators. -/
theorem block_reads (idx : Pos → Nat) (as : List Pos) (es : List LEdge) (hB : BlockOk idx as es) (err : Nat → List (Gate F))
    (herr : ∀ a ∈ as, FlipGate (idx a) (err (idx a))) : Reads api rng (noisyBlock err idx as es) as (blockOp idx n es) idx err := by
  intro S S' σ hS hr h0
  unfold noisyBlock at hr ⊢
  have hpl := block_plain (F := F) hB
  unfold blockGates at hpl
  obtain ⟨S1, hr1, hr, ev1⟩ := run_parts hr
  obtain ⟨S2, hr2, hr3, ev2⟩ := run_parts hr
  obtain ⟨σ1, hS1, v1, e1⟩ := plain_part (fun g hg => hpl g (List.mem_append_left _ hg)) hS hr1
  obtain ⟨σ2, hS2, v2, e2⟩ := plain_part (fun g hg => hpl g (List.mem_append_right _ (List.mem_append_left _ hg))) hS1 hr2
  obtain ⟨hnd, c1, c2, c3, ⟨T, hT, hid, hX⟩, c5⟩ := block_front idx as es hB v1 v2 h0
  obtain ⟨σ', r0, r1, r2, ⟨out, fl, r3, r4, r5, r6⟩, r7⟩ := read_noisy err (as.map idx) (fun i hi => by
    obtain ⟨a, ha, rfl⟩ := List.mem_map.1 hi
    exact herr a ha) hnd T hid hS2 hr3 c1 hX
  refine ⟨σ', r0, r1, r2.trans c3, ⟨fun a => out (idx a), fun a => fl (idx a), ?_, ?_, ?_, ?_⟩, ?_⟩
  · rw [r3, c2, List.map_map]; rfl
  · rw [ev1, ev2, e1, e2, r4, List.nil_append, List.nil_append, List.flatMap_map]
  · exact fun a ha he => r5 _ (List.mem_map_of_mem ha) he
  · intro a ha
    have := r6 _ (List.mem_map_of_mem ha)
    rw [hT a ha] at this
    have hr : (blockOp idx n es a).r = false := rfl
    rw [hr, Bool.false_xor] at this
    exact this
  · intro p hp hc hs
    refine r7 p (fun i hi => ?_) (c5 p hp hc hs)
    obtain ⟨a, ha, rfl⟩ := List.mem_map.mp hi
    exact hp a ha

/-- One round of stabiliser measurements, with flips. -/
def Lattice.noisyRound (L : Lattice) (err : Nat → List (Gate F)) : List (Gate F) := L.stabBlocks.flatMap fun b => noisyBlock err L.idx b.1 b.2

theorem Reads.congr {gs : List (Gate F)} {as : List Pos} {O O' : Pos → Op n} {idx : Pos → Nat} {err : Nat → List (Gate F)}
    (h : Reads api rng gs as O idx err) (he : ∀ a ∈ as, O a = O' a) : Reads api rng gs as O' idx err := by
  intro S S' σ hS hr h0
  obtain ⟨σ', a0, a1, a2, ⟨out, fl, a3, a4, a5, a6⟩, a7⟩ := h S S' σ hS hr h0
  exact ⟨σ', a0, a1, a2, ⟨out, fl, a3, a4, a5, fun a ha => by rw [← he a ha]; exact a6 a ha⟩, fun p hp hq hs =>
    a7 p hp (fun a ha => by rw [he a ha]; exact hq a ha) hs⟩

theorem round_reads (h : L.Wf) (hc : L.Comm) (hs : L.Sched) (hn : L.dataqubits.length ≤ n) (err : Nat → List (Gate F))
    (herr : ∀ a ∈ L.stabgens.map Prod.fst, FlipGate (L.idx a) (err (L.idx a))) :
    Reads api rng (L.noisyRound err) (L.stabgens.map Prod.fst) (L.lop n) L.idx err := by
  unfold Lattice.noisyRound
  rw [← stabBlocks_anc]
  rw [← stabBlocks_anc] at herr
  refine Reads.flatMap _ _ _ ?_ (by rw [stabBlocks_anc]; exact h.stab_nodup) ?_ ?_
  · intro b hb
    exact (block_reads L.idx b.1 b.2 (stabBlocks_ok h hc hs b hb) err fun a ha => herr a (List.mem_flatMap.2 ⟨b, hb, ha⟩)).congr
      (stabBlocks_op h hs b hb)
  · rw [stabBlocks_anc]
    intro a ha b hb
    rw [anti_lop h hn]
    exact comm_stab hc ha hb
  · rw [stabBlocks_anc]
    intro a _ b hb
    exact lop_idAt h (stab_anc hb)

/-- The measurement of logical operators, without flips. -/
theorem logs_reads (h : L.Wf) (hs : L.Sched) (hn : L.dataqubits.length ≤ n) (as : List Pos) (has : ∀ a ∈ as, a ∈ L.ancillas)
    (hcom : ∀ a ∈ as, ∀ b ∈ as, antiE (L.opEdges a) (L.opEdges b) = false) {S S' : Sim n} {σ : VState n} (hS : S.Is σ)
    (hr : S.runGates api rng ((L.logGates as).map toGate) = .ok S') (h0 : σ.ψ ≠ 0) :
    ∃ σ', S'.Is σ' ∧ σ'.ψ ≠ 0 ∧ σ'.erasure = σ.erasure ∧ S.events api rng ((L.logGates as).map toGate) = [] ∧
      (∃ out : Pos → Bool, σ'.meas = σ.meas ++ as.map out ∧ ∀ a ∈ as, HasValue (L.lop n a) (out a) σ'.ψ) ∧
      ∀ p : Op n, (∀ a ∈ as, p.IdAt (L.idx a)) → (∀ a ∈ as, anti p (L.lop n a) = false) → Stabilises p σ.ψ → Stabilises p σ'.ψ := by
  obtain ⟨σ', hS', v, ev⟩ := plain_part (fun g hg => by
    obtain ⟨a, ha, hg⟩ := List.mem_flatMap.mp hg
    exact block_plain (single_ok h hs.noY (has a ha)) g hg) hS hr
  obtain ⟨a1, a2, ⟨ms, a3, a4⟩, a5⟩ := logs_measures (api := api) (rng := rng) h hs hn as has hcom σ σ' v h0
  obtain ⟨f, rfl, hf⟩ := values_of_labels _ a1 a4
  refine ⟨σ', hS', a1, a2, ev, ⟨f, a3, hf⟩, fun p hp hq hs => a5 p ?_ ?_ hs⟩
  · intro i hi
    obtain ⟨a, ha, rfl⟩ := List.mem_map.1 hi
    exact hp a ha
  · intro i hi
    obtain ⟨a, ha, rfl⟩ := List.mem_map.1 hi
    exact hq a ha

end Plaquette
