import Verif.Lemmas.ScriptedShot
import Verif.Props.RateOrder

/-!
# Errors before the first round and their samples
-/

open MeasureTheory
open scoped ENNReal

namespace Plaquette
variable {F : Type} {n : Nat} {L : Lattice} {fl : Flags} {pg eg err : Nat → List (Gate F)}

/-! ## The circuit -/

theorem noisyGates_first (L : Lattice) (pg eg err : Nat → List (Gate F)) (anc : Bool) {r : Nat} (hr : 1 ≤ r) (as : List Pos) :
    ∃ B, L.noisyGates pg eg err anc r as = (L.selGates anc as ++ L.noisyRound (fun _ => [])) ++ (dataGates pg eg (List.range L.dataqubits.length) ++ B) := by
  obtain ⟨k, rfl⟩ : ∃ k, r = k + 1 := ⟨r - 1, by omega⟩
  unfold Lattice.noisyGates
  rw [Nat.add_sub_cancel]
  cases k with
  | zero => exact ⟨_, by rw [List.replicate_zero, List.flatten_nil, List.nil_append, List.append_assoc]⟩
  | succ k => exact ⟨_, by rw [List.replicate_succ, List.flatten_cons, List.append_assoc, List.append_assoc, List.append_assoc]⟩

/-! ## The decisions determine the errors -/

/-- Only the Pauli matrices `κ` before the first round happen. -/
structure Noise.Starts (N : Noise) (κ : Nat → Fin 4) (n m r : Nat) : Prop where
  first : ∀ q < n, N.pauli 0 q = κ q
  pauli : ∀ t, 0 < t → t < r → ∀ q < n, N.pauli t q = 0
  erased : ∀ t < r, ∀ q < n, N.erased t q = false
  scramble : ∀ t < r, ∀ q < n, N.scramble t q = 0
  wrong : ∀ t s, s < m → N.wrong t s = false

theorem length_events {α β : Type} (f g : α → List β) (h : ∀ a, (f a).length = (g a).length) : ∀ l : List α, (l.flatMap f).length = (l.flatMap g).length
  | [] => rfl
  | a :: l => by rw [List.flatMap_cons, List.flatMap_cons, List.length_append, List.length_append, h a, length_events f g h l]

theorem starts_of {N : Noise} {m r : Nat} (hO : N.Only fl n r) (hr : 1 ≤ r) {κ : Nat → Fin 4} (hκ : ∀ q, κ q ≠ 0 → fl.pauli q = true) {evs : List Event} (hq : ∀ e ∈ evs, e.quiet)
    (h : N.events fl n m r = ((List.range n).flatMap fun i => (if fl.pauli i = false then [] else [.pauli i (κ i)]) ++ (if fl.erasure i = false then [] else [.erasure i false 0])) ++ evs) :
    N.Starts κ n m r := by
  obtain ⟨k, rfl⟩ : ∃ k, r = k + 1 := ⟨r - 1, by omega⟩
  unfold Noise.events at h
  rw [List.range_succ_eq_map, List.flatMap_cons, List.append_assoc] at h
  obtain ⟨h1, h2⟩ := List.append_inj h (length_events _ _ (fun i => by cases fl.pauli i <;> cases fl.erasure i <;> rfl) _)
  have hP : ∀ q < n, fl.pauli q = true → N.pauli 0 q = κ q := by
    intro q hq hf
    have : Event.pauli q (N.pauli 0 q) ∈ N.dataEvents fl n 0 := List.mem_flatMap.2 ⟨q, List.mem_range.2 hq, by simp [hf]⟩
    rw [h1] at this
    obtain ⟨i, _, hi⟩ := List.mem_flatMap.1 this
    rcases List.mem_append.1 hi with hi | hi
    · split at hi
      · cases hi
      · simp only [List.mem_singleton, Event.pauli.injEq] at hi
        rw [hi.2, hi.1]
    · split at hi
      · cases hi
      · simp at hi
  have hE : ∀ q < n, fl.erasure q = true → N.erased 0 q = false := by
    intro q hq hf
    have : Event.erasure q (N.erased 0 q) (N.scramble 0 q) ∈ N.dataEvents fl n 0 := List.mem_flatMap.2 ⟨q, List.mem_range.2 hq, by simp [hf]⟩
    rw [h1] at this
    obtain ⟨i, _, hi⟩ := List.mem_flatMap.1 this
    rcases List.mem_append.1 hi with hi | hi
    · split at hi
      · cases hi
      · simp at hi
    · split at hi
      · cases hi
      · simp only [List.mem_singleton, Event.erasure.injEq] at hi
        exact hi.2.1
  have hrest : ∀ t, 0 < t → t < k + 1 → ∀ e ∈ N.dataEvents fl n t, e.quiet := by
    intro t h0 ht e he
    refine hq e ?_
    rw [← h2]
    refine List.mem_append_right _ (List.mem_flatMap.2 ⟨t, List.mem_map.2 ⟨t - 1, List.mem_range.2 (by omega), by simp; omega⟩, List.mem_append_left _ he⟩)
  have hmeas : ∀ t, t + 1 < k + 1 → ∀ e ∈ N.measEvents fl n m t, e.quiet := by
    intro t ht e he
    refine hq e ?_
    rw [← h2]
    by_cases h0 : t = 0
    · subst h0
      exact List.mem_append_left _ (by rw [if_pos ht]; exact he)
    · refine List.mem_append_right _ (List.mem_flatMap.2 ⟨t, List.mem_map.2 ⟨t - 1, List.mem_range.2 (by omega), by simp; omega⟩, List.mem_append_right _ ?_⟩)
      rw [if_pos ht]; exact he
  have her : ∀ t < k + 1, ∀ q < n, N.erased t q = false := by
    intro t ht q hq
    by_cases hf : fl.erasure q = true
    · by_cases h0 : t = 0
      · subst h0; exact hE q hq hf
      · exact (hrest t (by omega) ht (.erasure q (N.erased t q) (N.scramble t q)) (List.mem_flatMap.2 ⟨q, List.mem_range.2 hq, by simp [hf]⟩)).1
    · exact hO.erased t q (.inl (by simpa using hf))
  refine ⟨fun q hq => ?_, fun t h0 ht q hq => ?_, her, fun t ht q hq => hO.scramble t q (her t ht q hq), fun t s hs => ?_⟩
  · by_cases hf : fl.pauli q = true
    · exact hP q hq hf
    · rw [hO.pauli 0 q (.inl (by simpa using hf))]
      by_contra hk
      exact hf (hκ q fun h => hk h.symm)
  · by_cases hf : fl.pauli q = true
    · exact hrest t h0 ht (.pauli q (N.pauli t q)) (List.mem_flatMap.2 ⟨q, List.mem_range.2 hq, by simp [hf]⟩)
    · exact hO.pauli t q (.inl (by simpa using hf))
  · by_cases ht : t + 1 < k + 1
    · by_cases hf : fl.measurement (n + s) = true
      · exact hmeas t ht (.flip (n + s) (N.wrong t s)) (List.mem_flatMap.2 ⟨s, List.mem_range.2 hs, by simp [hf]⟩)
      · exact hO.wrong t s (by simpa using hf)
    · exact hO.last t s (by omega)

/-- The operator with the matrices of the given numbers. -/
def pattern (n : Nat) (κ : Nat → Fin 4) : Op n := { x := fun q => numX (κ q), z := fun q => numZ (κ q), r := false }

theorem Noise.Starts.op_zero {N : Noise} {κ : Nat → Fin 4} {m r : Nat} (h : N.Starts κ n m r) (hr : 1 ≤ r) : N.op n 0 = pattern n κ := by
  unfold Noise.op pattern
  have h1 : ∀ q : Fin n, N.pauli 0 q = κ q := fun q => h.first q q.2
  have h2 : ∀ q : Fin n, N.scramble 0 q = 0 := fun q => h.scramble 0 hr q q.2
  simp [h1, h2, numX, numZ]

theorem Noise.Starts.op_pos {N : Noise} {κ : Nat → Fin 4} {m r : Nat} (h : N.Starts κ n m r) {t : Nat} (h0 : 0 < t) (ht : t < r) (o : Op n) : anti o (N.op n t) = false := by
  rw [anti_symm]
  have h1 : ∀ q : Fin n, N.pauli t q = 0 := fun q => h.pauli t h0 ht q q.2
  have h2 : ∀ q : Fin n, N.scramble t q = 0 := fun q => h.scramble t ht q q.2
  refine anti_zero (fun q => ?_) fun q => ?_
  · simp [Noise.op, h1, h2]
  · simp [Noise.op, h1, h2]

/-! ## Their samples -/

/-- The sample of errors before the first round. -/
theorem Noise.Starts.sample {c : LatCode} {N : Noise} {κ : Nat → Fin 4} {r : Nat} {sel : LogicalSel} {evs : List Event} {s : Sample} (hG : N.Gives c r fl sel evs s)
    (h : N.Starts κ c.n c.code.stabilisers.length r) (hr : 1 ≤ r) :
    (∀ t < r, ∀ (j : Nat) gen, c.code.stabilisers[j]? = some gen → (SynBit (some s.syndrome) t j ↔ t = 0 ∧ anti gen (pattern c.n κ) = true)) ∧
    ∀ is, logicalOpsToIndices c.code.logicalOps.length sel = .ok is → ∀ (j : Nat) (i : Int) (l : Op c.n) (b : Bool), is[j]? = some i →
      c.code.logicalOps[i.toNat]? = some l → s.toggle[j]? = some b → b = anti l (pattern c.n κ) := by
  have hw : ∀ t (j : Nat), j < c.code.stabilisers.length → ¬ (N.faults c.n).meas t j := by
    intro t j hj hm
    have : N.wrong t j = true := hm
    rw [h.wrong t j hj] at this
    cases this
  constructor
  · intro t ht j gen hgen
    have hj : j < c.code.stabilisers.length := (List.getElem?_eq_some_iff.1 hgen).1
    rw [hG.shows.bit t ht j gen hgen, anticommutes_iff]
    have e1 : ¬ (N.faults c.n).meas t j := hw t j hj
    have e2 : ¬ (N.faults c.n).meas (t - 1) j := hw _ j hj
    have e3 : ∀ a : Prop, Xor a (Xor False False) ↔ a := fun a => by simp [Xor]
    simp only [e1, e2, and_false, e3]
    by_cases h0 : t = 0
    · subst h0
      rw [show (N.faults c.n).data 0 = pattern c.n κ from h.op_zero hr]
      simp
    · have := h.op_pos (by omega) ht gen
      rw [show (N.faults c.n).data t = N.op c.n t from rfl, this]
      simp [h0]
  · intro is his j i l b hj hl hb
    have := (hG.toggle is his).2 j i l b hj hl hb
    have hset : {t | t < r ∧ Anticommutes (opMat l) (opMat ((N.faults c.n).data t))} = if anti l (pattern c.n κ) = true then {0} else ∅ := by
      ext t
      simp only [Set.mem_ofPred_eq, anticommutes_iff]
      by_cases h0 : t = 0
      · subst h0
        rw [show (N.faults c.n).data 0 = pattern c.n κ from h.op_zero hr]
        cases anti l (pattern c.n κ) <;> simp <;> omega
      · constructor
        · rintro ⟨ht, ha⟩
          rw [show (N.faults c.n).data t = N.op c.n t from rfl, h.op_pos (by omega) ht l] at ha
          cases ha
        · split <;> simp [h0]
    rw [hset] at this
    cases ha : anti l (pattern c.n κ) with
    | true =>
      rw [ha, if_pos rfl, Set.ncard_singleton] at this
      exact this.2 (by decide)
    | false =>
      rw [ha, if_neg (by simp), Set.ncard_empty] at this
      cases b with
      | false => rfl
      | true => exact absurd (this.1 rfl) (by decide)

theorem syndrome_ext {r m : Nat} {a b : List (List Bool)} (ha : ShapeOk r m (some a)) (hb : ShapeOk r m (some b)) (h : ∀ t < r, ∀ j < m, SynBit (some a) t j ↔ SynBit (some b) t j) : a = b := by
  obtain ⟨la, ra⟩ := ha a rfl
  obtain ⟨lb, rb⟩ := hb b rfl
  refine List.ext_getElem (by rw [la, lb]) fun t h1 h2 => ?_
  have r1 := ra _ (List.getElem_mem h1)
  have r2 := rb _ (List.getElem_mem h2)
  refine List.ext_getElem (by rw [r1, r2]) fun j k1 k2 => ?_
  have := h t (by omega) j (by omega)
  have e : ∀ {l : List (List Bool)} (h1 : t < l.length) (k1 : j < l[t].length), SynBit (some l) t j ↔ l[t][j] = true := by
    intro l h1 k1
    constructor
    · rintro ⟨a', row, e1, e2, e3⟩
      cases e1
      rw [List.getElem?_eq_getElem h1] at e2
      cases e2
      rw [List.getElem?_eq_getElem k1] at e3
      exact Option.some.inj e3
    · intro hl
      exact ⟨l, l[t], rfl, List.getElem?_eq_getElem h1, by rw [List.getElem?_eq_getElem k1, hl]⟩
  rw [e h1 k1, e h2 k2] at this
  exact Bool.eq_iff_iff.2 this

theorem fromRaw_erased {c : LatCode} {raw raw' : List Bool} {er : Option (List Bool)} {anc : Bool} {s s' : Sample} (h : Sample.fromRaw c raw er anc = .ok s)
    (h' : Sample.fromRaw c raw' er anc = .ok s') : s.erased = s'.erased := by
  have key : ∀ {raw : List Bool} {s : Sample}, Sample.fromRaw c raw er anc = .ok s →
      s.erased = er.bind fun e => (reshape e c.nRounds c.n).toOption := by
    intro raw s h
    unfold Sample.fromRaw at h
    split at h
    · cases h
    · split at h
      · cases h
      · cases er with
        | none => cases h; rfl
        | some e =>
          dsimp only at h
          split at h
          · cases h
          · cases hre : reshape e c.nRounds c.n with
            | error x => rw [hre] at h; cases h
            | ok x => rw [hre] at h; cases h; simp [hre, Except.toOption]
  rw [key h, key h']

/-- The flags of the erasures. -/
theorem noisy_erasure (hw : L.Wf) (hc : L.Comm) (hf : L.Full) (hs : L.Sched) (api : FloatApi F) (rng : Rng F) {r : Nat} (hr : 1 ≤ r)
    {qe ge : List (List Char × ErrDict F)} (hg : ∀ e ∈ ge, e.2 = []) {sel : LogicalSel} {anc : Bool} {is : List Int}
    (his : logicalOpsToIndices L.logicals.length sel = .ok is) (hZ : anc = true ∨ (∀ i ∈ is, ∀ e ∈ L.opEdges (L.selPos i), e.factor = .Z))
    {c : List (Gate F)} (h : generateCircuit api (L.latCode r) qe ge sel anc = .ok c) {S0 S : Sim (numberOfQubits c)} (hrun : S0.run api rng c true = .ok S) :
    ∃ N : Noise, N.Only (flagsOf qe) L.dataqubits.length r ∧
      S0.reset.events api rng c = N.events (flagsOf qe) L.dataqubits.length L.stabgens.length r ∧
      S.erasure = (List.range r).flatMap (fun t => (List.range L.dataqubits.length).flatMap fun i => if (flagsOf qe).erasure i then [N.erased t i] else []) := by
  obtain ⟨pg, eg, err, is', hE, i1, i2, i3, i4, rfl⟩ := noisy_circuit hw hs hg h
  obtain rfl : is' = is := by rw [his] at i1; cases i1; rfl
  have hn := noisy_fit hw hf hs pg eg err anc r (is'.map L.selPos)
  have hI : S0.reset.Is ⟨zeroVec _, S0.pos, [], []⟩ :=
    ⟨zeroState_valid _, (C05_zero_state _).2, rfl, rfl, rfl⟩
  unfold Sim.run at hrun
  rw [if_pos rfl] at hrun
  have has : ∀ a ∈ is'.map L.selPos, a ∈ L.logicals.map Prod.fst := by
    intro a ha
    obtain ⟨i, hi, rfl⟩ := List.mem_map.mp ha
    have := i3 i hi
    have hlt : i.toNat < L.logicals.length := by omega
    unfold Lattice.selPos
    rw [List.getElem?_eq_getElem hlt]
    exact List.mem_map_of_mem (List.getElem_mem hlt)
  obtain ⟨N, v, inits, finals, hO, l1, l2, p1, p2, hm, he, hev⟩ := noisy_results hw hc hs hn has (by
      intro a ha b hb
      obtain ⟨i, hi, rfl⟩ := List.mem_map.mp ha
      obtain ⟨j, hj, rfl⟩ := List.mem_map.mp hb
      exact i4 i hi j hj) (anc := anc) (hZ.imp id fun h a ha => by
      obtain ⟨i, hi, rfl⟩ := List.mem_map.mp ha
      exact h i hi) hE hI (C05_zero_state _).2.1 hr hrun
  exact ⟨N, hO, hev, he⟩

theorem Noise.Starts.erasure {N : Noise} {κ : Nat → Fin 4} {m r : Nat} (h : N.Starts κ n m r) :
    ((List.range r).flatMap fun t => (List.range n).flatMap fun i => if fl.erasure i then [N.erased t i] else []) =
      (List.range r).flatMap fun _ => (List.range n).flatMap fun i => if fl.erasure i then [false] else [] := by
  refine List.flatMap_congr fun t ht => List.flatMap_congr fun i hi => ?_
  rw [h.erased t (List.mem_range.1 ht) i (List.mem_range.1 hi)]

/-- Two halves of an operator that is not seen and changes a measured operator: the samples look the same to decoders, but not every one is decoded. -/
theorem halves_differ {c : LatCode} {N N' : Noise} {κ κ' : Nat → Fin 4} {r : Nat} {sel : LogicalSel} {evs evs' : List Event} {s s' : Sample} (hr : 1 ≤ r)
    (hG : N.Gives c r fl sel evs s) (hG' : N'.Gives c r fl sel evs' s') (hN : N.Starts κ c.n c.code.stabilisers.length r) (hN' : N'.Starts κ' c.n c.code.stabilisers.length r)
    {P : Op c.n} (hx : ∀ q : Fin c.n, P.x q = (numX (κ q) ^^ numX (κ' q))) (hz : ∀ q : Fin c.n, P.z q = (numZ (κ q) ^^ numZ (κ' q)))
    (hs : ∀ gen ∈ c.code.stabilisers, anti gen P = false) {is : List Int} (his : logicalOpsToIndices c.code.logicalOps.length sel = .ok is) {i : Int} (hi : i ∈ is) {l : Op c.n}
    (hl : c.code.logicalOps[i.toNat]? = some l) (ha : anti l P = true) :
    s.syndrome = s'.syndrome ∧ ∀ p : Op c.n, ¬ (checkSuccess c.code p s.toggle (some sel) = .ok true ∧ checkSuccess c.code p s'.toggle (some sel) = .ok true) := by
  obtain ⟨a1, a2⟩ := hN.sample hG hr
  obtain ⟨b1, b2⟩ := hN'.sample hG' hr
  have hadd : ∀ o : Op c.n, anti o P = (anti o (pattern c.n κ) ^^ anti o (pattern c.n κ')) := by
    intro o
    rw [anti_symm o P, anti_symm o, anti_symm o (pattern c.n κ')]
    exact anti_add hx hz
  constructor
  · refine syndrome_ext hG.shape hG'.shape fun t ht j hj => ?_
    rw [a1 t ht j _ (List.getElem?_eq_getElem hj), b1 t ht j _ (List.getElem?_eq_getElem hj)]
    have h1 := hs _ (List.getElem_mem hj)
    rw [hadd] at h1
    rw [show anti c.code.stabilisers[j] (pattern c.n κ) = anti c.code.stabilisers[j] (pattern c.n κ') by simpa using h1]
  · rintro p ⟨h1, h2⟩
    obtain ⟨j, hj⟩ := List.getElem?_of_mem hi
    have key : ∀ {tg : List Bool}, tg.length = is.length → checkSuccess c.code p tg (some sel) = .ok true → ∃ b, tg[j]? = some b ∧ commSign l p = if b then 1 else 0 := by
      intro tg htl h
      unfold checkSuccess at h
      split at h
      · cases h
      next ops hops =>
      split at h
      · cases h
      rw [dif_pos rfl] at h
      split at h
      · cases h
      rw [Except.ok.injEq, List.all_eq_true] at h
      have hjl : j < is.length := (List.getElem?_eq_some_iff.1 hj).1
      have hjt : j < tg.length := by omega
      have hop : ops[j]? = some l := by
        unfold measuredOps at hops
        dsimp only at hops
        rw [his] at hops
        obtain ⟨o, h3, h4⟩ := (mapLoop_get hops).2 j i hj
        rw [hl] at h3
        cases h3
        exact h4
      refine ⟨tg[j], List.getElem?_eq_getElem hjt, ?_⟩
      have := h (l, tg[j]) (List.mem_of_getElem? (i := j) (by rw [List.getElem?_zip_eq_some]; exact ⟨hop, List.getElem?_eq_getElem hjt⟩))
      simpa using this
    obtain ⟨b, hb, e1⟩ := key (hG.toggle is his).1 h1
    obtain ⟨b', hb', e2⟩ := key (hG'.toggle is his).1 h2
    have k1 := a2 is his j i l b hj hl hb
    have k2 := b2 is his j i l b' hj hl hb'
    rw [hadd, ← k1, ← k2] at ha
    rw [e1] at e2
    cases b <;> cases b' <;> simp_all

end Plaquette
