import Verif.Lemmas.GateSample

/-!
# The number of error instructions of a qubit in a round
-/

namespace Plaquette
variable {F : Type} {L : Lattice} {fl : Flags} {ge1 : Name → Nat → List (Gate F)} {ge2 : Name → Nat → Nat → List (Gate F)} {pg eg err : Nat → List (Gate F)}

/-- The first qubit of an error instruction. -/
def Gate.home : Gate F → Nat
  | ⟨.E_PAULI, [_, _, _, .int q]⟩ => q.toNat
  | ⟨.E_ERASE, [_, .int q]⟩ => q.toNat
  | ⟨.ERROR, [_, _, .int q]⟩ => q.toNat
  | ⟨.E_PAULI2, args⟩ =>
    match (args[15]? : Option (Val F)) with
    | some (.int q) => q.toNat
    | _ => 0
  | _ => 0

/-- An error instruction with a given first qubit. -/
def atHome (h : Nat) (g : Gate F) : Bool := g.name.noisy && decide (g.home = h)

/-- A flip of a given qubit. -/
def flipAt (h : Nat) (g : Gate F) : Bool := decide (g.name = .ERROR) && decide (g.home = h)

theorem home_pair {l : List (Val F)} (hl : l.length = 15) (a b : Nat) : Gate.home (⟨.E_PAULI2, l ++ [.int a, .int b]⟩ : Gate F) = a := by
  have e2 : (l ++ [(.int a : Val F), .int b])[15]? = some (.int a) := by rw [List.getElem?_append_right (by omega), hl]; rfl
  unfold Gate.home
  dsimp only
  rw [e2]
  rfl

theorem home_of_kick {g : Gate F} {k : List (Nat × Fin 4)} (h : KickOk g k) (hk : k ≠ []) : g.home = firstQubit k ∧ g.name.noisy = true := by
  cases h with
  | plain => exact absurd rfl hk
  | pauli => exact ⟨rfl, rfl⟩
  | two g l q1 q2 j1 j2 hl hg =>
    subst hg
    exact ⟨home_pair hl q1 q2, rfl⟩
  | erase => exact ⟨rfl, rfl⟩
  | keep => exact absurd rfl hk
  | flip => exact ⟨rfl, rfl⟩
  | noFlip => exact absurd rfl hk

theorem struck_ne {x : Kicked1 F} (h : struck x) : x.2 ≠ [] := by
  rintro h0
  rcases h with h | h
  · rw [h0] at h; cases h
  · unfold lossFault at h
    rw [h0] at h
    cases h

theorem countP_flatMap_le {α β : Type*} {f : α → List β} {P : β → Bool} {Q : α → Bool} {c : Nat} : ∀ (l : List α),
    (∀ a ∈ l, (f a).countP P ≤ if Q a = true then c else 0) → (l.flatMap f).countP P ≤ c * l.countP Q
  | [], _ => by simp
  | a :: l, h => by
    rw [List.flatMap_cons, List.countP_append, List.countP_cons]
    have h1 := h a (by simp)
    have h2 := countP_flatMap_le l fun b hb => h b (by simp [hb])
    split
    · next hq => rw [if_pos hq] at h1; rw [Nat.mul_add]; omega
    · next hq => rw [if_neg hq] at h1; rw [Nat.add_zero]; omega

theorem pauli_count {i : Nat} {gs : List (Gate F)} (hg : PauliGate i gs) (h : Nat) : gs.countP (atHome h) ≤ if i = h then 1 else 0 := by
  rcases hg with rfl | ⟨a, b, c, rfl⟩
  · simp
  · rw [List.countP_singleton]
    have : atHome h (⟨.E_PAULI, [a, b, c, .int i]⟩ : Gate F) = decide (i = h) := rfl
    rw [this]
    by_cases e : i = h <;> simp [e]

theorem erase_count {i : Nat} {gs : List (Gate F)} (hg : EraseGate i gs) (h : Nat) : gs.countP (atHome h) ≤ if i = h then 1 else 0 := by
  rcases hg with rfl | ⟨v, rfl⟩
  · simp
  · rw [List.countP_singleton]
    have : atHome h (⟨.E_ERASE, [v, .int i]⟩ : Gate F) = decide (i = h) := rfl
    rw [this]
    by_cases e : i = h <;> simp [e]

theorem flip_count {i : Nat} {gs : List (Gate F)} (hg : FlipGate i gs) (h : Nat) :
    gs.countP (atHome h) ≤ (if i = h then 1 else 0) ∧ gs.countP (flipAt h) ≤ if i = h then 1 else 0 := by
  rcases hg with rfl | ⟨p, rfl⟩
  · simp
  · rw [List.countP_singleton, List.countP_singleton]
    have e1 : atHome h (⟨.ERROR, [.flt p, .name .X, .int i]⟩ : Gate F) = decide (i = h) := rfl
    have e2 : flipAt h (⟨.ERROR, [.flt p, .name .X, .int i]⟩ : Gate F) = decide (i = h) := rfl
    rw [e1, e2]
    by_cases e : i = h <;> simp [e]

theorem pair_count {a b : Nat} {gs : List (Gate F)} (hg : PairGate a b gs) (h : Nat) : gs.countP (atHome h) ≤ if a = h then 1 else 0 := by
  rcases hg with rfl | ⟨l, hl, rfl⟩
  · simp
  · rw [List.countP_singleton]
    have : atHome h (⟨.E_PAULI2, l ++ [.int a, .int b]⟩ : Gate F) = decide (a = h) := by
      unfold atHome
      rw [home_pair hl]
      rfl
    rw [this]
    by_cases e : a = h <;> simp [e]

theorem pauli_noflip {i : Nat} {gs : List (Gate F)} (hg : PauliGate i gs) (h : Nat) : gs.countP (flipAt h) = 0 := by
  rcases hg with rfl | ⟨a, b, c, rfl⟩ <;> rfl

theorem erase_noflip {i : Nat} {gs : List (Gate F)} (hg : EraseGate i gs) (h : Nat) : gs.countP (flipAt h) = 0 := by
  rcases hg with rfl | ⟨v, rfl⟩ <;> rfl

theorem pair_noflip {a b : Nat} {gs : List (Gate F)} (hg : PairGate a b gs) (h : Nat) : gs.countP (flipAt h) = 0 := by
  rcases hg with rfl | ⟨l, hl, rfl⟩ <;> rfl

/-! ### Data -/

theorem data_count (hE : AllErrs L fl ge1 ge2 pg eg err) (h : Nat) : (dataGates pg eg (List.range L.dataqubits.length)).countP (atHome h) ≤ (if h < L.dataqubits.length then 2 else 0) ∧
    (dataGates pg eg (List.range L.dataqubits.length)).countP (flipAt h) = 0 := by
  constructor
  · have h1 : (dataGates pg eg (List.range L.dataqubits.length)).countP (atHome h) ≤ 2 * (List.range L.dataqubits.length).countP fun i => decide (i = h) := by
      refine countP_flatMap_le _ fun i hi => ?_
      rw [List.mem_range] at hi
      rw [List.countP_append]
      have a1 := pauli_count (hE.qubit.pauli i hi).1 h
      have a2 := erase_count (hE.qubit.erase i hi).1 h
      by_cases e : i = h
      · rw [if_pos e] at a1 a2; rw [if_pos (decide_eq_true e)]; omega
      · rw [if_neg e] at a1 a2; rw [if_neg (by simpa using e)]; omega
    have h2 : ((List.range L.dataqubits.length).countP fun i => decide (i = h)) ≤ if h < L.dataqubits.length then 1 else 0 := by
      have : ((List.range L.dataqubits.length).countP fun i => decide (i = h)) = (List.range L.dataqubits.length).count h := by
        rw [List.count]
        rfl
      rw [this]
      split
      · exact List.nodup_iff_count_le_one.1 List.nodup_range _
      · next hlt => exact le_of_eq (List.count_eq_zero.2 fun hm => hlt (List.mem_range.1 hm))
    split at h2
    · next hlt => rw [if_pos hlt]; omega
    · next hlt => rw [if_neg hlt]; omega
  · have := countP_flatMap_le (f := fun i => pg i ++ eg i) (P := flipAt h) (Q := fun _ => true) (c := 0) (List.range L.dataqubits.length) fun i hi => by
      rw [List.mem_range] at hi
      rw [List.countP_append, pauli_noflip (hE.qubit.pauli i hi).1, erase_noflip (hE.qubit.erase i hi).1]
      simp
    unfold dataGates
    omega

/-! ### Stabilisers -/

theorem stab_countP (hw : L.Wf) (h : Nat) : ((L.stabgens.map Prod.fst).countP fun a => decide (L.idx a = h)) ≤ 1 := by
  have : ((L.stabgens.map Prod.fst).countP fun a => decide (L.idx a = h)) = ((L.stabgens.map Prod.fst).map L.idx).count h := by
    rw [List.count, List.countP_map, List.countP_map, List.countP_map]
    rfl
  rw [this, hw.stab_range]
  exact List.nodup_iff_count_le_one.1 (List.nodup_range.map fun a b e => Nat.add_left_cancel e) _

theorem step_countP (es : List LEdge) (P : LEdge → Bool) (T : Nat) :
    ((List.range T).flatMap fun (i : Nat) => es.filter fun e => e.step = some i).countP P = es.countP fun e => P e && decide (∃ k < T, e.step = some k) := by
  induction T with
  | zero => simp
  | succ T ih =>
    rw [List.range_succ, List.flatMap_append, List.countP_append, ih, List.flatMap_cons, List.flatMap_nil, List.append_nil, List.countP_filter]
    clear ih
    induction es with
    | nil => rfl
    | cons e es ihe =>
      simp only [List.countP_cons]
      have key : ((if (P e && decide (∃ k < T, e.step = some k)) = true then 1 else 0) + if (P e && decide (e.step = some T)) = true then 1 else 0) =
          if (P e && decide (∃ k < T + 1, e.step = some k)) = true then 1 else 0 := by
        by_cases hp : P e = true
        · simp only [hp, Bool.true_and, decide_eq_true_eq]
          by_cases h1 : e.step = some T
          · rw [if_neg (by rintro ⟨k, hk, h2⟩; rw [h1] at h2; cases h2; omega), if_pos h1, if_pos ⟨T, by omega, h1⟩]
          · rw [if_neg h1]
            refine if_congr ⟨fun ⟨k, hk, h2⟩ => ⟨k, by omega, h2⟩, fun ⟨k, hk, h2⟩ => ⟨k, ?_, h2⟩⟩ rfl rfl
            rcases Nat.lt_succ_iff_lt_or_eq.1 hk with hk | rfl
            · exact hk
            · exact absurd h2 h1
        · simp [hp]
      omega

theorem edge_countP (hw : L.Wf) (hs : L.Sched) {w deg : Nat} (hS : L.Sparse w deg) {a : Pos} (ha : a ∈ L.stabgens.map Prod.fst) :
    ((L.stabBlocks.flatMap Prod.snd).countP fun e => decide (L.idx e.op = L.idx a)) ≤ w := by
  have hop : ∀ e : LEdge, decide (L.idx e.op = L.idx a) = true → e.op = a := fun e he =>
    (hw.idx_occ (Lattice.anc_occ (stab_anc ha)) (of_decide_eq_true he).symm).symm
  refine le_trans ?_ (hS.weight a ha)
  unfold Lattice.stabBlocks
  split
  · next T _ =>
    rw [List.flatMap_cons, List.flatMap_nil, List.append_nil]
    unfold Lattice.stepEdges Lattice.opEdges
    rw [step_countP, ← List.countP_eq_length_filter]
    refine List.countP_mono_left fun e _ he => ?_
    rw [Bool.and_eq_true] at he
    exact decide_eq_true (hop e he.1)
  · rw [List.flatMap_map]
    have h1 := countP_flatMap_le (f := fun s : Pos × StabGroup => L.opEdges s.1) (P := fun e => decide (L.idx e.op = L.idx a)) (Q := fun s => decide (L.idx s.1 = L.idx a))
      (c := (L.opEdges a).length) L.stabgens fun s hs' => by
        split
        · next hq =>
          have : a = s.1 := hw.idx_occ (Lattice.anc_occ (stab_anc ha)) (of_decide_eq_true hq).symm
          rw [this]
          exact List.countP_le_length
        · next hq =>
          refine le_of_eq (List.countP_eq_zero.2 fun e he hd => hq ?_)
          have h2 : e.op = s.1 := of_decide_eq_true (List.mem_filter.1 he).2
          rw [← h2]
          exact hd
    have h2 : (L.stabgens.countP fun s => decide (L.idx s.1 = L.idx a)) ≤ 1 := by
      have := stab_countP hw (L.idx a)
      rw [List.countP_map] at this
      exact this
    exact h1.trans ((Nat.mul_le_mul_left _ h2).trans (by omega))

theorem round_countP (hw : L.Wf) (hs : L.Sched) {P : Gate F → Bool} {h c1 c2 c3 : Nat}
    (h1 : ∀ a ∈ L.stabgens.map Prod.fst, (prepErr ge1 (L.idx a)).countP P ≤ if L.idx a = h then c1 else 0)
    (h2 : ∀ e ∈ L.edges, (edgeErr ge2 L.idx e).countP P ≤ if L.idx e.op = h then c2 else 0)
    (h3 : ∀ a ∈ L.stabgens.map Prod.fst, (readErr ge1 err (L.idx a)).countP P ≤ if L.idx a = h then c3 else 0) :
    (L.gateRound ge1 ge2 err).countP P ≤ (c1 + c3) * ((L.stabgens.map Prod.fst).countP fun a => decide (L.idx a = h)) +
      c2 * (L.stabBlocks.flatMap Prod.snd).countP fun e => decide (L.idx e.op = h) := by
  have key : ∀ bs : List (List Pos × List LEdge), (∀ b ∈ bs, b ∈ L.stabBlocks) → (bs.flatMap fun b => gateBlock ge1 ge2 err L.idx b.1 b.2).countP P ≤
      (c1 + c3) * ((bs.flatMap Prod.fst).countP fun a => decide (L.idx a = h)) + c2 * (bs.flatMap Prod.snd).countP fun e => decide (L.idx e.op = h) := by
    intro bs hbs
    induction bs with
    | nil => simp
    | cons b bs ih =>
      have ih := ih fun b hb => hbs b (by simp [hb])
      have hst : ∀ a ∈ b.1, a ∈ L.stabgens.map Prod.fst := fun a ha => by rw [← stabBlocks_anc]; exact List.mem_flatMap.2 ⟨b, hbs b (by simp), ha⟩
      have hed := stabBlocks_edges hw hs b (hbs b (by simp))
      rw [List.flatMap_cons, List.flatMap_cons, List.flatMap_cons, List.countP_append, List.countP_append, List.countP_append]
      unfold gateBlock at ih ⊢
      rw [List.countP_append, List.countP_append]
      have k1 := countP_flatMap_le (f := fun a => prepErr ge1 (L.idx a)) (P := P) (Q := fun a => decide (L.idx a = h)) (c := c1) b.1 fun a ha => by
        simpa only [decide_eq_true_eq] using h1 a (hst a ha)
      have k2 := countP_flatMap_le (f := edgeErr ge2 L.idx) (P := P) (Q := fun e => decide (L.idx e.op = h)) (c := c2) b.2 fun e he => by
        simpa only [decide_eq_true_eq] using h2 e (hed e he)
      have k3 := countP_flatMap_le (f := fun a => readErr ge1 err (L.idx a)) (P := P) (Q := fun a => decide (L.idx a = h)) (c := c3) b.1 fun a ha => by
        simpa only [decide_eq_true_eq] using h3 a (hst a ha)
      rw [Nat.mul_add, Nat.mul_add, Nat.add_mul] 
      omega
  have := key L.stabBlocks fun b hb => hb
  rwa [stabBlocks_anc] at this

theorem plain_count {g : Gate F} (hg : g.name.noisy = false) (h : Nat) (gs : List (Gate F)) : (g :: gs).countP (atHome h) = gs.countP (atHome h) ∧ (g :: gs).countP (flipAt h) = gs.countP (flipAt h) := by
  have e1 : atHome h g = false := by unfold atHome; rw [hg]; rfl
  have e2 : flipAt h g = false := by
    unfold flipAt
    have : g.name ≠ .ERROR := fun hn => by rw [hn] at hg; cases hg
    simp [this]
  rw [List.countP_cons, List.countP_cons, e1, e2]
  exact ⟨rfl, rfl⟩

/-- Error instructions of a qubit in the measurement of the stabilisers: none for data qubits, and few for ancillas. -/
theorem round_count (hw : L.Wf) (hc : L.Comm) (hs : L.Sched) (hE : AllErrs L fl ge1 ge2 pg eg err) {w deg : Nat} (hS : L.Sparse w deg) :
    (∀ h < L.dataqubits.length, (L.gateRound ge1 ge2 err).countP (atHome h) = 0) ∧
    ∀ a ∈ L.stabgens.map Prod.fst, (L.gateRound ge1 ge2 err).countP (atHome (L.idx a)) ≤ w + 5 ∧ (L.gateRound ge1 ge2 err).countP (flipAt (L.idx a)) ≤ 1 := by
  have r1 : ∀ h, ∀ a ∈ L.stabgens.map Prod.fst, (prepErr ge1 (L.idx a)).countP (atHome h) ≤ if L.idx a = h then 2 else 0 := by
    intro h a ha
    unfold prepErr
    rw [List.countP_append, (plain_count rfl h _).1, (plain_count rfl h _).1]
    have a1 := pauli_count (hE.one .R (L.idx a)) h
    have a2 := pauli_count (hE.one .H (L.idx a)) h
    split <;> split at a1 <;> split at a2 <;> omega
  have r2 : ∀ h, ∀ e ∈ L.edges, (edgeErr ge2 L.idx e).countP (atHome h) ≤ if L.idx e.op = h then 1 else 0 := by
    intro h e _
    unfold edgeErr
    rw [(plain_count (by unfold ctl; split <;> rfl) h _).1]
    exact pair_count (hE.two _ _ _) h
  have r3 : ∀ h, ∀ a ∈ L.stabgens.map Prod.fst, (readErr ge1 err (L.idx a)).countP (atHome h) ≤ if L.idx a = h then 3 else 0 := by
    intro h a ha
    unfold readErr
    rw [List.countP_append, List.countP_append, (plain_count rfl h _).1, (plain_count rfl h _).1]
    have a1 := pauli_count (hE.one .H (L.idx a)) h
    have a2 := pauli_count (hE.one .M (L.idx a)) h
    have a3 := (flip_count (hE.qubit.flip a ha).1 h).1
    split <;> split at a1 <;> split at a2 <;> split at a3 <;> omega
  constructor
  · intro h hh
    refine Nat.le_zero.1 ((round_countP hw hs (h := h) (r1 h) (r2 h) (r3 h)).trans ?_)
    have e1 : ((L.stabgens.map Prod.fst).countP fun a => decide (L.idx a = h)) = 0 :=
      List.countP_eq_zero.2 fun a ha hd => by have := hw.anc_idx (stab_anc ha); have := of_decide_eq_true hd; omega
    have e2 : ((L.stabBlocks.flatMap Prod.snd).countP fun e => decide (L.idx e.op = h)) = 0 := by
      refine List.countP_eq_zero.2 fun e he hd => ?_
      obtain ⟨b, hb, he⟩ := List.mem_flatMap.1 he
      have hop := (stabBlocks_ok hw hc hs b hb).op e he
      have hst : e.op ∈ L.stabgens.map Prod.fst := by rw [← stabBlocks_anc]; exact List.mem_flatMap.2 ⟨b, hb, hop⟩
      have := hw.anc_idx (stab_anc hst)
      have := of_decide_eq_true hd
      omega
    rw [e1, e2]
  · intro a ha
    have e1 := stab_countP hw (L.idx a)
    have e2 := edge_countP hw hs hS ha
    refine ⟨(round_countP hw hs (h := L.idx a) (r1 _) (r2 _) (r3 _)).trans (by omega), ?_⟩
    refine (round_countP hw hs (h := L.idx a) (c1 := 0) (c2 := 0) (c3 := 1) (fun b hb => ?_) (fun e _ => ?_) fun b hb => ?_).trans (by omega)
    · unfold prepErr
      rw [List.countP_append, (plain_count rfl _ _).2, (plain_count rfl _ _).2, pauli_noflip (hE.one _ _), pauli_noflip (hE.one _ _)]
      simp
    · unfold edgeErr
      rw [(plain_count (by unfold ctl; split <;> rfl) _ _).2, pair_noflip (hE.two _ _ _)]
      simp
    · unfold readErr
      rw [List.countP_append, List.countP_append, (plain_count rfl _ _).2, (plain_count rfl _ _).2, pauli_noflip (hE.one _ _), pauli_noflip (hE.one _ _)]
      have := (flip_count (hE.qubit.flip b hb).1 (L.idx a)).2
      omega

end Plaquette
