import Verif.Lemmas.NoisyData
import Verif.Lemmas.QecMain
import Verif.Lemmas.QecDirect

/-!
# All rounds of a noisy circuit
-/

namespace Plaquette
open Matrix
variable {F : Type} {n : Nat} {api : FloatApi F} {rng : Rng F} {L : Lattice}

theorem Lattice.Wf.data_range (h : L.Wf) : L.dataqubits.map L.idx = List.range L.dataqubits.length := by
  have hn := h.occ
  unfold Lattice.occupied at hn
  rw [List.append_assoc] at hn
  refine List.ext_getElem (by simp) fun i h1 h2 => ?_
  rw [List.getElem_map, List.getElem_range, h.idx_data (List.getElem_mem _)]
  exact (List.nodup_append.1 hn).1.idxOf_getElem i _

theorem Lattice.Wf.stab_range (h : L.Wf) : (L.stabgens.map Prod.fst).map L.idx = (List.range L.stabgens.length).map fun s => L.dataqubits.length + s := by
  have hn := h.occ
  unfold Lattice.occupied at hn
  rw [List.append_assoc] at hn
  have hnd := h.stab_nodup
  have hlen : (L.stabgens.map Prod.fst).length = L.stabgens.length := by simp
  have hocc : L.indexed = L.dataqubits ++ (L.stabgens.map Prod.fst ++ L.logicals.map Prod.fst) := by
    rw [h.indexed, Lattice.occupied, List.append_assoc]
  revert hn hnd hlen hocc
  generalize L.stabgens.map Prod.fst = A
  intro hn hnd hlen hocc
  refine List.ext_getElem (by simpa using hlen) fun i h1 h2 => ?_
  rw [List.length_map] at h1
  have hm : A[i] ∈ A := List.getElem_mem _
  have h3 : A[i] ∉ L.dataqubits := fun hc => (List.nodup_append.mp hn).2.2 _ hc _ (List.mem_append_left _ hm) rfl
  rw [List.getElem_map, List.getElem_map, List.getElem_range]
  show L.indexed.idxOf (A[i]'h1) = _
  rw [hocc, List.idxOf_append_of_notMem h3, List.idxOf_append_of_mem hm, hnd.idxOf_getElem]

/-- The error gates of the circuit. -/
structure ErrGates (L : Lattice) (fl : Flags) (pg eg err : Nat → List (Gate F)) : Prop where
  pauli : ∀ i < L.dataqubits.length, PauliGate i (pg i) ∧ (pg i = [] ↔ fl.pauli i = false)
  erase : ∀ i < L.dataqubits.length, EraseGate i (eg i) ∧ (eg i = [] ↔ fl.erasure i = false)
  flip : ∀ a ∈ L.stabgens.map Prod.fst, FlipGate (L.idx a) (err (L.idx a)) ∧ (err (L.idx a) = [] ↔ fl.measurement (L.idx a) = false)

/-- Whether the errors before the first `t` rounds together change an operator. -/
def Noise.cum (N : Noise) (O : Op n) : Nat → Bool
  | 0 => false
  | t + 1 => N.cum O t ^^ anti O (N.op n t)

/-- The same decisions before round `k`. -/
def Noise.Agree (N N' : Noise) (k : Nat) : Prop :=
  ∀ t < k, N.pauli t = N'.pauli t ∧ N.erased t = N'.erased t ∧ N.scramble t = N'.scramble t ∧ N.wrong t = N'.wrong t

theorem Noise.Agree.op {N N' : Noise} {k : Nat} (h : N.Agree N' k) {t : Nat} (ht : t < k) : N.op n t = N'.op n t := by
  unfold Noise.op; rw [(h t ht).1, (h t ht).2.2.1]

theorem Noise.Agree.cum {N N' : Noise} {k : Nat} (h : N.Agree N' k) (O : Op n) {t : Nat} (ht : t ≤ k) : N.cum O t = N'.cum O t := by
  induction t with
  | zero => rfl
  | succ t ih => rw [Noise.cum, Noise.cum, ih (by omega), h.op (by omega)]

theorem Noise.Agree.data {N N' : Noise} {k : Nat} (h : N.Agree N' k) (fl : Flags) {t : Nat} (ht : t < k) : N.dataEvents fl n t = N'.dataEvents fl n t := by
  unfold Noise.dataEvents; rw [(h t ht).1, (h t ht).2.1, (h t ht).2.2.1]

theorem Noise.Agree.meas {N N' : Noise} {k : Nat} (h : N.Agree N' k) (fl : Flags) {m t : Nat} (ht : t < k) : N.measEvents fl n m t = N'.measEvents fl n m t := by
  unfold Noise.measEvents; rw [(h t ht).2.2.2]

/-- One more round. -/
def Noise.snoc (N : Noise) (k : Nat) (p : Nat → Fin 4) (e : Nat → Bool) (s : Nat → Fin 4) (w : Nat → Bool) : Noise :=
  { pauli := fun t => if t = k then p else N.pauli t, erased := fun t => if t = k then e else N.erased t,
    scramble := fun t => if t = k then s else N.scramble t, wrong := fun t => if t = k then w else N.wrong t }

theorem Noise.snoc_agree (N : Noise) (k : Nat) (p : Nat → Fin 4) (e : Nat → Bool) (s : Nat → Fin 4) (w : Nat → Bool) : (N.snoc k p e s w).Agree N k := by
  intro t ht
  unfold Noise.snoc
  dsimp only
  have : ¬ t = k := by omega
  simp only [if_neg this, and_self]

/-- The operators have these values. -/
def Holds (L : Lattice) (as : List Pos) (v : Pos → Bool) (ψ : Vec n) : Prop := ∀ a ∈ L.stabgens.map Prod.fst ++ as, HasValue (L.lop n a) (v a) ψ

/-- The numbers of the ancillas. -/
theorem flip_events (h : L.Wf) {fl : Flags} {err : Nat → List (Gate F)} (herr : ∀ a ∈ L.stabgens.map Prod.fst, err (L.idx a) = [] ↔ fl.measurement (L.idx a) = false) (w : Nat → Bool) :
    ((L.stabgens.map Prod.fst).flatMap fun a => flipEvents (L.idx a) (err (L.idx a)) (w (L.idx a - L.dataqubits.length))) =
      (List.range L.stabgens.length).flatMap fun s => if fl.measurement (L.dataqubits.length + s) then [.flip (L.dataqubits.length + s) (w s)] else [] := by
  have e : ((L.stabgens.map Prod.fst).flatMap fun a => flipEvents (L.idx a) (err (L.idx a)) (w (L.idx a - L.dataqubits.length))) =
      ((L.stabgens.map Prod.fst).map L.idx).flatMap fun i => if fl.measurement i then [.flip i (w (i - L.dataqubits.length))] else [] := by
    generalize L.stabgens.map Prod.fst = A at herr
    rw [List.flatMap_map]
    refine List.flatMap_congr fun a ha => ?_
    unfold flipEvents
    have := herr a ha
    by_cases hm : fl.measurement (L.idx a) = true
    · rw [if_pos hm, if_neg (fun hc => by rw [this.1 hc] at hm; cases hm)]
    · rw [if_neg hm, if_pos (this.2 (by simpa using hm))]
  rw [e, h.stab_range, List.flatMap_map]
  exact List.flatMap_congr fun s _ => by rw [Nat.add_sub_cancel_left]

theorem lop_anti_false (h : L.Wf) (hc : L.Comm) (hn : L.dataqubits.length ≤ n) {as : List Pos} (has : ∀ a ∈ as, a ∈ L.logicals.map Prod.fst)
    {a b : Pos} (ha : a ∈ L.stabgens.map Prod.fst ++ as) (hb : b ∈ L.stabgens.map Prod.fst) : anti (L.lop n a) (L.lop n b) = false := by
  rw [anti_lop h hn]
  rcases List.mem_append.1 ha with ha | ha
  · exact comm_stab hc ha hb
  · obtain ⟨s, hs, rfl⟩ := List.mem_map.1 hb
    obtain ⟨l, hl, rfl⟩ := List.mem_map.1 (has a ha)
    rw [← anti_lop h hn, anti_symm, anti_lop h hn]
    exact hc.stab_log s hs l hl

/-- A round without flips keeps the values and reports them. -/
theorem clean_round (h : L.Wf) (hc : L.Comm) (hs : L.Sched) (hn : L.dataqubits.length ≤ n) {as : List Pos} (has : ∀ a ∈ as, a ∈ L.logicals.map Prod.fst)
    {v : Pos → Bool} {S S' : Sim n} {σ : VState n} (hS : S.Is σ) (h0 : σ.ψ ≠ 0) (hv : Holds L as v σ.ψ)
    (hr : S.runGates api rng (L.noisyRound fun _ => []) = .ok S') :
    ∃ σ', S'.Is σ' ∧ σ'.ψ ≠ 0 ∧ σ'.erasure = σ.erasure ∧ σ'.meas = σ.meas ++ (L.stabgens.map Prod.fst).map v ∧
      S.events api rng (L.noisyRound fun _ => []) = [] ∧ Holds L as v σ'.ψ := by
  obtain ⟨σ', a0, a1, a2, ⟨out, fl, a3, a4, a5, a6⟩, a7⟩ := round_reads (api := api) (rng := rng) h hc hs hn (fun _ => []) (fun a _ => .inl rfl) S S' σ hS hr h0
  have hv' : Holds L as v σ'.ψ := fun a ha =>
    a7 { L.lop n a with r := v a } (fun b hb => lop_idAt h (stab_anc hb)) (fun b hb => by rw [anti_sign]; exact lop_anti_false h hc hn has ha hb) (hv a ha)
  refine ⟨σ', a0, a1, a2, ?_, ?_, hv'⟩
  · rw [a3]
    congr 1
    refine List.map_congr_left fun a ha => ?_
    have := hasValue_unique a1 (a6 a ha) (hv' a (List.mem_append_left _ ha))
    rwa [a5 a ha rfl, Bool.xor_false] at this
  · rw [a4]
    simp [flipEvents]

/-- Errors on the data and a round with flips. -/
theorem noisy_round (h : L.Wf) (hc : L.Comm) (hs : L.Sched) (hn : L.dataqubits.length ≤ n) {as : List Pos} (has : ∀ a ∈ as, a ∈ L.logicals.map Prod.fst)
    {fl : Flags} {pg eg err : Nat → List (Gate F)} (hE : ErrGates L fl pg eg err)
    {v : Pos → Bool} {S S' : Sim n} {σ : VState n} (hS : S.Is σ) (h0 : σ.ψ ≠ 0) (hv : Holds L as v σ.ψ)
    (hr : S.runGates api rng (L.noisyRound err) = .ok S') :
    ∃ (σ' : VState n) (w : Nat → Bool), S'.Is σ' ∧ σ'.ψ ≠ 0 ∧ σ'.erasure = σ.erasure ∧
      σ'.meas = σ.meas ++ (L.stabgens.map Prod.fst).map (fun a => v a ^^ w (L.idx a - L.dataqubits.length)) ∧
      S.events api rng (L.noisyRound err) = ((List.range L.stabgens.length).flatMap fun s =>
        if fl.measurement (L.dataqubits.length + s) then [.flip (L.dataqubits.length + s) (w s)] else []) ∧
      (∀ s, fl.measurement (L.dataqubits.length + s) = false → w s = false) ∧ Holds L as v σ'.ψ := by
  classical
  obtain ⟨σ', a0, a1, a2, ⟨out, f, a3, a4, a5, a6⟩, a7⟩ := round_reads (api := api) (rng := rng) h hc hs hn err (fun a ha => (hE.flip a ha).1) S S' σ hS hr h0
  have hv' : Holds L as v σ'.ψ := fun a ha =>
    a7 { L.lop n a with r := v a } (fun b hb => lop_idAt h (stab_anc hb)) (fun b hb => by rw [anti_sign]; exact lop_anti_false h hc hn has ha hb) (hv a ha)
  let w : Nat → Bool := fun s => if hx : ∃ a ∈ L.stabgens.map Prod.fst, L.idx a = L.dataqubits.length + s then f hx.choose else false
  have hw : ∀ a ∈ L.stabgens.map Prod.fst, w (L.idx a - L.dataqubits.length) = f a := by
    intro a ha
    have hle := h.anc_idx (stab_anc ha)
    have hx : ∃ b ∈ L.stabgens.map Prod.fst, L.idx b = L.dataqubits.length + (L.idx a - L.dataqubits.length) := ⟨a, ha, by omega⟩
    dsimp only [w]
    rw [dif_pos hx]
    have h1 := hx.choose_spec
    rw [h.idx_occ (Lattice.anc_occ (stab_anc h1.1)) (h1.2.trans (by omega : _ = L.idx a))]
  refine ⟨σ', w, a0, a1, a2, ?_, ?_, ?_, hv'⟩
  · rw [a3]
    congr 1
    refine List.map_congr_left fun a ha => ?_
    have := hasValue_unique a1 (a6 a ha) (hv' a (List.mem_append_left _ ha))
    rw [hw a ha, ← this, Bool.xor_assoc, Bool.xor_self, Bool.xor_false]
  · rw [a4, ← flip_events h (fun a ha => (hE.flip a ha).2) w]
    generalize L.stabgens.map Prod.fst = A at hw
    exact List.flatMap_congr fun a ha => by rw [hw a ha]
  · intro s hs
    dsimp only [w]
    split
    · next hx =>
      have h1 := hx.choose_spec
      refine a5 _ h1.1 ((hE.flip _ h1.1).2.2 ?_)
      rw [h1.2]; exact hs
    · rfl

/-- What is known after the first `k` rounds. -/
structure After (L : Lattice) (as : List Pos) (fl : Flags) (v : Pos → Bool) (σ σ' : VState n) (ev : List Event) (N : Noise) (k : Nat) : Prop where
  ne : σ'.ψ ≠ 0
  only : N.Only fl L.dataqubits.length (k + 1)
  meas : σ'.meas = σ.meas ++ (List.range k).flatMap fun t => (L.stabgens.map Prod.fst).map fun a =>
    v a ^^ N.cum (L.lop n a) (t + 1) ^^ N.wrong t (L.idx a - L.dataqubits.length)
  erasure : σ'.erasure = σ.erasure ++ (List.range k).flatMap fun t => (List.range L.dataqubits.length).flatMap fun i => if fl.erasure i then [N.erased t i] else []
  events : ev = (List.range k).flatMap fun t => N.dataEvents fl L.dataqubits.length t ++ N.measEvents fl L.dataqubits.length L.stabgens.length t
  holds : Holds L as (fun a => v a ^^ N.cum (L.lop n a) k) σ'.ψ

/-- Errors on all data qubits. -/
theorem noisy_data {as : List Pos} {fl : Flags} {pg eg err : Nat → List (Gate F)} (hE : ErrGates L fl pg eg err)
    {S S' : Sim n} {σ : VState n} (hS : S.Is σ) (h0 : σ.ψ ≠ 0)
    (hr : S.runGates api rng (dataGates pg eg (List.range L.dataqubits.length)) = .ok S') {v : Pos → Bool} (hv : Holds L as v σ.ψ) :
    ∃ (σ' : VState n) (p : Nat → Fin 4) (e : Nat → Bool) (s : Nat → Fin 4), S'.Is σ' ∧ σ'.ψ ≠ 0 ∧ σ'.meas = σ.meas ∧
      σ'.erasure = σ.erasure ++ (List.range L.dataqubits.length).flatMap (fun i => if fl.erasure i then [e i] else []) ∧
      S.events api rng (dataGates pg eg (List.range L.dataqubits.length)) = (List.range L.dataqubits.length).flatMap (fun q =>
        (if fl.pauli q then [.pauli q (p q)] else []) ++ (if fl.erasure q then [.erasure q (e q) (s q)] else [])) ∧
      (∀ q, fl.pauli q = false ∨ L.dataqubits.length ≤ q → p q = 0) ∧ (∀ q, fl.erasure q = false ∨ L.dataqubits.length ≤ q → e q = false) ∧
      (∀ q, e q = false → s q = 0) ∧
      Holds L as (fun a => v a ^^ anti (L.lop n a) (bitsOp n (fun i => numX (p i) ^^ numX (s i)) (fun i => numZ (p i) ^^ numZ (s i)))) σ'.ψ := by
  obtain ⟨σ', p, e, s, b1, b2, b3, b4, b5, b6, b7, b8, b9⟩ := data_part pg eg (List.range L.dataqubits.length) List.nodup_range
    (fun i hi => (hE.pauli i (List.mem_range.1 hi)).1) (fun i hi => (hE.erase i (List.mem_range.1 hi)).1) hS hr h0
  have key : ∀ (l : List (Gate F)) (b : Bool) (x : List Bool), (l = [] ↔ b = false) → (if l = [] then [] else x) = if b then x else [] := by
    intro l b x hlb
    by_cases hl : l = []
    · rw [if_pos hl, hlb.1 hl]; rfl
    · rw [if_neg hl]
      cases b with
      | true => rfl
      | false => exact absurd (hlb.2 rfl) hl
  have key' : ∀ (l : List (Gate F)) (b : Bool) (x : List Event), (l = [] ↔ b = false) → (if l = [] then [] else x) = if b then x else [] := by
    intro l b x hlb
    by_cases hl : l = []
    · rw [if_pos hl, hlb.1 hl]; rfl
    · rw [if_neg hl]
      cases b with
      | true => rfl
      | false => exact absurd (hlb.2 rfl) hl
  refine ⟨σ', p, e, s, b1, b2, b3, ?_, ?_, ?_, ?_, b8, fun a ha => b9 _ _ (hv a ha)⟩
  · rw [b4]
    congr 1
    exact List.flatMap_congr fun i hi => key _ _ _ (hE.erase i (List.mem_range.1 hi)).2
  · rw [b5]
    refine List.flatMap_congr fun i hi => ?_
    rw [key' _ _ _ (hE.erase i (List.mem_range.1 hi)).2, key' _ _ _ (hE.pauli i (List.mem_range.1 hi)).2]
  · intro q hq
    refine b6 q ?_
    by_cases hlt : q < L.dataqubits.length
    · exact .inr ((hE.pauli q hlt).2.2 (hq.resolve_right (by omega)))
    · exact .inl (by simpa using hlt)
  · intro q hq
    refine b7 q ?_
    by_cases hlt : q < L.dataqubits.length
    · exact .inr ((hE.erase q hlt).2.2 (hq.resolve_right (by omega)))
    · exact .inl (by simpa using hlt)

theorem Noise.snoc_at (N : Noise) (k : Nat) (p : Nat → Fin 4) (e : Nat → Bool) (s : Nat → Fin 4) (w : Nat → Bool) :
    (N.snoc k p e s w).pauli k = p ∧ (N.snoc k p e s w).erased k = e ∧ (N.snoc k p e s w).scramble k = s ∧ (N.snoc k p e s w).wrong k = w := by
  unfold Noise.snoc
  simp only [if_pos, and_self]

theorem Noise.snoc_only {N : Noise} {fl : Flags} {d k : Nat} (h : N.Only fl d (k + 1)) {p : Nat → Fin 4} {e : Nat → Bool} {s : Nat → Fin 4} {w : Nat → Bool}
    (h1 : ∀ q, fl.pauli q = false ∨ d ≤ q → p q = 0) (h2 : ∀ q, fl.erasure q = false ∨ d ≤ q → e q = false) (h3 : ∀ q, e q = false → s q = 0)
    (h4 : ∀ i, fl.measurement (d + i) = false → w i = false) : (N.snoc k p e s w).Only fl d (k + 2) where
  pauli t q hq := by
    unfold Noise.snoc; dsimp only; split
    · exact h1 q hq
    · exact h.pauli t q hq
  erased t q hq := by
    unfold Noise.snoc; dsimp only; split
    · exact h2 q hq
    · exact h.erased t q hq
  scramble t q hq := by
    unfold Noise.snoc at hq ⊢; dsimp only at hq ⊢
    by_cases ht : t = k
    · rw [if_pos ht] at hq ⊢; exact h3 q hq
    · rw [if_neg ht] at hq ⊢; exact h.scramble t q hq
  wrong t i hi := by
    unfold Noise.snoc; dsimp only; split
    · exact h4 i hi
    · exact h.wrong t i hi
  last t i hi := by
    unfold Noise.snoc; dsimp only
    rw [if_neg (by omega)]
    exact h.last t i (by omega)

/-- Any number of noisy rounds. -/
theorem noisy_rounds (h : L.Wf) (hc : L.Comm) (hs : L.Sched) (hn : L.dataqubits.length ≤ n) {as : List Pos} (has : ∀ a ∈ as, a ∈ L.logicals.map Prod.fst)
    {fl : Flags} {pg eg err : Nat → List (Gate F)} (hE : ErrGates L fl pg eg err)
    {v : Pos → Bool} {S : Sim n} {σ : VState n} (hS : S.Is σ) (h0 : σ.ψ ≠ 0) (hv : Holds L as v σ.ψ) (k : Nat) {S' : Sim n}
    (hr : S.runGates api rng (List.replicate k (dataGates pg eg (List.range L.dataqubits.length) ++ L.noisyRound err)).flatten = .ok S') :
    ∃ σ' N, S'.Is σ' ∧ After L as fl v σ σ'
      (S.events api rng (List.replicate k (dataGates pg eg (List.range L.dataqubits.length) ++ L.noisyRound err)).flatten) N k := by
  induction k generalizing S' with
  | zero =>
    cases hr
    refine ⟨σ, ⟨fun _ _ => 0, fun _ _ => false, fun _ _ => 0, fun _ _ => false⟩, hS, ⟨h0, ⟨?_, ?_, ?_, ?_, ?_⟩, by simp, by simp, rfl, ?_⟩⟩
    · exact fun _ _ _ => rfl
    · exact fun _ _ _ => rfl
    · exact fun _ _ _ => rfl
    · exact fun _ _ _ => rfl
    · exact fun _ _ _ => rfl
    · intro a ha
      dsimp only
      rw [Noise.cum, Bool.xor_false]
      exact hv a ha
  | succ k ih =>
    rw [List.replicate_succ', List.flatten_append, List.flatten_cons, List.flatten_nil, List.append_nil] at hr ⊢
    obtain ⟨S1, r1, hr, ev1⟩ := run_parts hr
    obtain ⟨S2, r2, r3, ev2⟩ := run_parts hr
    obtain ⟨σ1, N, i1, A⟩ := ih r1
    obtain ⟨σ2, p, e, s, b1, b2, b3, b4, b5, b6, b7, b8, b9⟩ := noisy_data hE i1 A.ne r2 A.holds
    obtain ⟨σ3, w, c1, c2, c3, c4, c5, c6, c7⟩ := noisy_round h hc hs hn has hE b1 b2 b9 r3
    have hag := N.snoc_agree k p e s w
    obtain ⟨g1, g2, g3, g4⟩ := N.snoc_at k p e s w
    have hop : (N.snoc k p e s w).op n k = bitsOp n (fun i => numX (p i) ^^ numX (s i)) (fun i => numZ (p i) ^^ numZ (s i)) := by
      unfold Noise.op bitsOp
      rw [g1, g3]
    have hcum : ∀ O : Op n, (N.snoc k p e s w).cum O (k + 1) = (N.cum O k ^^ anti O (bitsOp n (fun i => numX (p i) ^^ numX (s i)) (fun i => numZ (p i) ^^ numZ (s i)))) := by
      intro O
      rw [Noise.cum, hag.cum O (Nat.le_refl k), hop]
    have hr1 : ∀ {β : Type} (f : Nat → List β), (List.range (k + 1)).flatMap f = (List.range k).flatMap f ++ f k := by
      intro β f
      rw [List.range_succ, List.flatMap_append, List.flatMap_cons, List.flatMap_nil, List.append_nil]
    refine ⟨σ3, N.snoc k p e s w, c1, ⟨c2, Noise.snoc_only A.only b6 b7 b8 c6, ?_, ?_, ?_, ?_⟩⟩
    · rw [c4, b3, A.meas, hr1, List.append_assoc]
      congr 2
      · refine List.flatMap_congr fun t ht => List.map_congr_left fun a _ => ?_
        rw [hag.cum _ (by have := List.mem_range.1 ht; omega), (hag t (List.mem_range.1 ht)).2.2.2]
      · refine List.map_congr_left fun a _ => ?_
        rw [hcum, g4, Bool.xor_assoc (v a)]
    · rw [c3, b4, A.erasure, hr1, List.append_assoc, g2]
      congr 2
      refine List.flatMap_congr fun t ht => ?_
      rw [(hag t (List.mem_range.1 ht)).2.1]
    · rw [ev1, ev2, A.events, b5, c5, hr1]
      congr 1
      · refine List.flatMap_congr fun t ht => ?_
        rw [hag.data fl (List.mem_range.1 ht), hag.meas fl (List.mem_range.1 ht)]
      · unfold Noise.dataEvents Noise.measEvents
        rw [g1, g2, g3, g4]
    · intro a ha
      dsimp only
      rw [hcum, ← Bool.xor_assoc]
      exact c7 a ha

/-! ### Logical operators -/

/-- The gates that measure the selected logical operators. -/
def Lattice.selGates (L : Lattice) (anc : Bool) (as : List Pos) : List (Gate F) := (if anc then L.logGates as else L.directGates as).map toGate

/-- The number of results for a logical operator. -/
def Lattice.selLen (L : Lattice) (anc : Bool) (a : Pos) : Nat := if anc then 1 else (L.opEdges a).length

/-- Either measurement of logical operators, without flips. -/
theorem sel_reads (h : L.Wf) (hs : L.Sched) (hn : L.dataqubits.length ≤ n) (anc : Bool) (as : List Pos) (has : ∀ a ∈ as, a ∈ L.ancillas)
    (hcom : ∀ a ∈ as, ∀ b ∈ as, antiE (L.opEdges a) (L.opEdges b) = false) (hZ : anc = true ∨ ∀ a ∈ as, ∀ e ∈ L.opEdges a, e.factor = .Z)
    {S S' : Sim n} {σ : VState n} (hS : S.Is σ) (hr : S.runGates api rng (L.selGates anc as) = .ok S') (h0 : σ.ψ ≠ 0) :
    ∃ (σ' : VState n) (mss : List (List Bool)) (f : Pos → Bool), S'.Is σ' ∧ σ'.ψ ≠ 0 ∧ σ'.erasure = σ.erasure ∧ S.events api rng (L.selGates anc as) = [] ∧
      σ'.meas = σ.meas ++ mss.flatten ∧ mss.map List.length = as.map (L.selLen anc) ∧ mss.map parity = as.map f ∧
      (∀ a ∈ as, HasValue (L.lop n a) (f a) σ'.ψ) ∧ ∀ a ∈ as, ∀ m, HasValue (L.lop n a) m σ.ψ → HasValue (L.lop n a) m σ'.ψ := by
  classical
  cases anc with
  | true =>
    obtain ⟨σ', a1, a2, a3, a4, ⟨out, a5, a6⟩, a7⟩ := logs_reads h hs hn as has hcom hS hr h0
    refine ⟨σ', as.map fun a => [out a], out, a1, a2, a3, a4, ?_, ?_, ?_, a6, fun a ha m hm => ?_⟩
    · rw [a5, ← List.flatMap_def, ← List.map_eq_flatMap]
    · rw [List.map_map]; rfl
    · rw [List.map_map]; exact List.map_congr_left fun a _ => by cases h : out a <;> simp [parity, h]
    · exact a7 { L.lop n a with r := m } (fun b hb => lop_idAt h (has b hb)) (fun b hb => by rw [anti_sign, anti_lop h hn]; exact hcom a ha b hb) hm
  | false =>
    have hZ := hZ.resolve_left (by simp)
    have hp : ∀ g ∈ (L.directGates as : List (Name × List (Val F))), PlainGate g := by
      intro g hg
      obtain ⟨a, ha, hg⟩ := List.mem_flatMap.mp hg
      obtain ⟨e, he, hg⟩ := List.mem_flatMap.mp hg
      split at hg
      · simp only [List.mem_cons, List.not_mem_nil, or_false] at hg
        rcases hg with rfl | rfl
        · exact .inl ⟨.H, _, by simp, rfl⟩
        · exact .inl ⟨.M, _, by simp, rfl⟩
      · rw [List.mem_singleton.mp hg]
        exact .inl ⟨.M, _, by simp, rfl⟩
    obtain ⟨σ', a1, vg, ev⟩ := plain_part (api := api) (rng := rng) hp hS hr
    obtain ⟨b1, b2, ⟨mss, b3, b4⟩, b5⟩ := direct_z h as hZ vg h0
    have hf : mss.map List.length = as.map (L.selLen false) ∧ mss.map parity = as.map (fun a => decide (HasValue (L.lop n a) true σ'.ψ)) ∧
        ∀ a ∈ as, HasValue (L.lop n a) (decide (HasValue (L.lop n a) true σ'.ψ)) σ'.ψ := by
      clear * - b4 b1
      induction b4 with
      | nil => exact ⟨rfl, rfl, by simp⟩
      | cons h1 _ ih =>
        obtain ⟨i1, i2, i3⟩ := ih
        have hd : ∀ {a : Pos} {b : Bool}, HasValue (L.lop n a) b σ'.ψ → b = decide (HasValue (L.lop n a) true σ'.ψ) := by
          intro a b hb
          cases b with
          | true => exact (decide_eq_true hb).symm
          | false => exact (decide_eq_false fun hc => by cases hasValue_unique b1 hb hc).symm
        refine ⟨?_, ?_, ?_⟩
        · rw [List.map_cons, List.map_cons, i1, h1.1]; rfl
        · rw [List.map_cons, List.map_cons, i2, ← hd h1.2]
        · intro c hc
          rcases List.mem_cons.1 hc with rfl | hc
          · rw [← hd h1.2]; exact h1.2
          · exact i3 c hc
    refine ⟨σ', mss, _, a1, b1, b2, ev, b3, hf.1, hf.2.1, hf.2.2, fun a ha m hm => ?_⟩
    exact b5 { L.lop n a with r := m } (fun q => xorSum_false fun f hf => by simp [hZ a ha f hf, Letter.hasX]) hm

/-- The circuit of the selected logical operators with errors. -/
def Lattice.noisyGates (L : Lattice) (pg eg err : Nat → List (Gate F)) (anc : Bool) (r : Nat) (as : List Pos) : List (Gate F) :=
  L.selGates anc as ++ (L.noisyRound (fun _ => []) ++
    ((List.replicate (r - 1) (dataGates pg eg (List.range L.dataqubits.length) ++ L.noisyRound err)).flatten ++
      (dataGates pg eg (List.range L.dataqubits.length) ++ (L.noisyRound (fun _ => []) ++ L.selGates anc as))))

/-- The results of the circuit. -/
theorem noisy_results (h : L.Wf) (hc : L.Comm) (hs : L.Sched) (hn : L.dataqubits.length ≤ n) {as : List Pos} (has : ∀ a ∈ as, a ∈ L.logicals.map Prod.fst)
    (hcom : ∀ a ∈ as, ∀ b ∈ as, antiE (L.opEdges a) (L.opEdges b) = false) {anc : Bool} (hZ : anc = true ∨ ∀ a ∈ as, ∀ e ∈ L.opEdges a, e.factor = .Z)
    {fl : Flags} {pg eg err : Nat → List (Gate F)} (hE : ErrGates L fl pg eg err)
    {S S' : Sim n} {σ : VState n} (hS : S.Is σ) (h0 : σ.ψ ≠ 0) {r : Nat} (hr1 : 1 ≤ r)
    (hr : S.runGates api rng (L.noisyGates pg eg err anc r as) = .ok S') :
    ∃ (N : Noise) (v : Pos → Bool) (inits finals : List (List Bool)), N.Only fl L.dataqubits.length r ∧
      inits.map List.length = as.map (L.selLen anc) ∧ finals.map List.length = as.map (L.selLen anc) ∧ inits.map parity = as.map v ∧
      finals.map parity = as.map (fun a => v a ^^ N.cum (L.lop n a) r) ∧
      S'.meas = S.meas ++ (inits.flatten ++ (((List.range (r + 1)).map fun t => (L.stabgens.map Prod.fst).map fun a =>
        v a ^^ N.cum (L.lop n a) t ^^ (decide (0 < t) && N.wrong (t - 1) (L.idx a - L.dataqubits.length))).flatten ++ finals.flatten)) ∧
      S'.erasure = S.erasure ++ (List.range r).flatMap (fun t => (List.range L.dataqubits.length).flatMap fun i => if fl.erasure i then [N.erased t i] else []) ∧
      S.events api rng (L.noisyGates pg eg err anc r as) = N.events fl L.dataqubits.length L.stabgens.length r := by
  classical
  obtain ⟨k, rfl⟩ : ∃ k, r = k + 1 := ⟨r - 1, by omega⟩
  unfold Lattice.noisyGates at hr ⊢
  rw [Nat.add_sub_cancel] at hr ⊢
  have hanc : ∀ a ∈ as, a ∈ L.ancillas := fun a ha => List.mem_append_right _ (has a ha)
  obtain ⟨S1, r1, hr, ev1⟩ := run_parts hr
  obtain ⟨S2, r2, hr, ev2⟩ := run_parts hr
  obtain ⟨S3, r3, hr, ev3⟩ := run_parts hr
  obtain ⟨S4, r4, hr, ev4⟩ := run_parts hr
  obtain ⟨S5, r5, r6, ev5⟩ := run_parts hr
  obtain ⟨σ1, inits, l, a1, a2, a3, a4, a5, a6l, a6p, a6, _⟩ := sel_reads h hs hn anc as hanc hcom hZ hS r1 h0
  obtain ⟨σ2, b1, b2, b3, ⟨out, f, b4, b5, b6, b7⟩, b8⟩ := round_reads (api := api) (rng := rng) h hc hs hn (fun _ => []) (fun a _ => .inl rfl) S1 S2 σ1 a1 r2 a2
  have hdis : ∀ a ∈ as, a ∉ L.stabgens.map Prod.fst := by
    intro a ha hb
    have hocc := h.occ
    unfold Lattice.occupied at hocc
    rw [List.append_assoc] at hocc
    exact (List.nodup_append.1 (List.nodup_append.1 hocc).2.1).2.2 a hb a (has a ha) rfl
  let v : Pos → Bool := fun a => if a ∈ L.stabgens.map Prod.fst then out a else l a
  have hv1 : ∀ a ∈ L.stabgens.map Prod.fst, v a = out a := fun a ha => if_pos ha
  have hv2 : ∀ a ∈ as, v a = l a := fun a ha => if_neg (hdis a ha)
  have hv : Holds L as v σ2.ψ := by
    intro a ha
    rcases List.mem_append.1 ha with ha | ha
    · rw [hv1 a ha]
      have := b7 a ha
      rwa [b6 a ha rfl, Bool.xor_false] at this
    · rw [hv2 a ha]
      exact b8 { L.lop n a with r := l a } (fun b hb => lop_idAt h (stab_anc hb)) (fun b hb => by
        rw [anti_sign]; exact lop_anti_false h hc hn has (List.mem_append_right _ ha) hb) (a6 a ha)
  obtain ⟨σ3, N, c1, A⟩ := noisy_rounds h hc hs hn has hE b1 b2 hv k r3
  obtain ⟨σ4, p, e, s, d1, d2, d3, d4, d5, d6, d7, d8, d9⟩ := noisy_data hE c1 A.ne r4 A.holds
  obtain ⟨σ5, e1, e2, e3, e4, e5, e6⟩ := clean_round h hc hs hn has d1 d2 d9 r5
  obtain ⟨σ6, finals, l', f1, f2, f3, f4, f5, f6l, f6p, f6, f7⟩ := sel_reads h hs hn anc as hanc hcom hZ e1 r6 e2
  have hag := N.snoc_agree k p e s fun _ => false
  obtain ⟨g1, g2, g3, g4⟩ := N.snoc_at k p e s fun _ => false
  have hcum : ∀ O : Op n, (N.snoc k p e s fun _ => false).cum O (k + 1) =
      (N.cum O k ^^ anti O (bitsOp n (fun i => numX (p i) ^^ numX (s i)) (fun i => numZ (p i) ^^ numZ (s i)))) := by
    intro O
    rw [Noise.cum, hag.cum O (Nat.le_refl k)]
    unfold Noise.op bitsOp
    rw [g1, g3]
  have hl' : ∀ a ∈ as, l' a = (v a ^^ (N.snoc k p e s fun _ => false).cum (L.lop n a) (k + 1)) := by
    intro a ha
    rw [hcum, ← Bool.xor_assoc]
    refine hasValue_unique f2 (f6 a ha) ?_
    exact f7 a ha _ (e6 a (List.mem_append_right _ ha))
  have hrs : ∀ {β : Type} (f : Nat → List β), (List.range (k + 1)).flatMap f = (List.range k).flatMap f ++ f k := by
    intro β f
    rw [List.range_succ, List.flatMap_append, List.flatMap_cons, List.flatMap_nil, List.append_nil]
  have only := Noise.snoc_only A.only d6 d7 d8 (w := fun _ => false) fun _ _ => rfl
  refine ⟨N.snoc k p e s fun _ => false, v, inits, finals, ⟨only.pauli, only.erased, only.scramble, only.wrong, ?_⟩, a6l, f6l, ?_, ?_, ?_, ?_, ?_⟩
  · intro t i hi
    by_cases ht : t = k
    · rw [ht, g4]
    · exact only.last t i (by omega)
  · rw [a6p]; exact List.map_congr_left fun a ha => (hv2 a ha).symm
  · rw [f6p]; exact List.map_congr_left hl'
  · rw [f1.2.2.2.1, hS.2.2.2.1, f5, e4, d3, A.meas, b4, a5, ← List.flatMap_def, List.range_succ_eq_map, List.flatMap_cons, List.flatMap_map]
    simp only [List.append_assoc]
    congr 2
    congr 1
    · refine List.map_congr_left fun a ha => ?_
      rw [hv1 a ha]
      simp [Noise.cum]
    rw [hrs, List.append_assoc]
    congr 1
    · refine List.flatMap_congr fun t ht => List.map_congr_left fun a _ => ?_
      have ht := List.mem_range.1 ht
      rw [hag.cum _ (by omega), Nat.succ_sub_one, (hag t ht).2.2.2, decide_eq_true (Nat.succ_pos t), Bool.true_and]
    congr 1
    · refine List.map_congr_left fun a _ => ?_
      rw [Nat.succ_sub_one, g4, hcum, Bool.and_false, Bool.xor_false, Bool.xor_assoc (v a)]
  · rw [f1.2.2.2.2, hS.2.2.2.2, f3, e3, d4, A.erasure, b3, a3, hrs, g2, List.append_assoc]
    congr 2
    refine List.flatMap_congr fun t ht => ?_
    rw [(hag t (List.mem_range.1 ht)).2.1]
  · have hb : (L.stabgens.map Prod.fst).flatMap (fun a => flipEvents (L.idx a) ([] : List (Gate F)) (f a)) = [] := by simp [flipEvents]
    rw [ev1, ev2, ev3, ev4, ev5, a4, b5, A.events, d5, e5, f4, hb, List.nil_append, List.nil_append, List.append_nil, List.append_nil]
    unfold Noise.events
    rw [hrs, if_neg (by omega), List.append_nil]
    congr 1
    · refine List.flatMap_congr fun t ht => ?_
      have ht := List.mem_range.1 ht
      rw [hag.data fl ht, hag.meas fl ht, if_pos (by omega)]
    · unfold Noise.dataEvents
      rw [g1, g2, g3]

end Plaquette
