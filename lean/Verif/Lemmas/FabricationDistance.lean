import Verif.Lemmas.FabricationDecode

/-!
# Undetected errors of a code with fabrication errors come from undetected errors of the code before (lemmas for C125)
-/

namespace Plaquette

/-- Does the edge anticommute with the error `E`, given by its `X` bit and `Z` bit at every position? -/
def hitE (E : Pos → Bool × Bool) (e : LEdge) : Bool := (e.factor.hasX && (E e.data).2) ^^ (e.factor.hasZ && (E e.data).1)

/-- Does the operator at `v` anticommute with the error `E`? -/
def Lattice.hits (L : Lattice) (E : Pos → Bool × Bool) (v : Pos) : Bool := xorSum (L.opEdges v) (hitE E)

theorem resp_hitE (E : Pos → Bool × Bool) : Resp (hitE E) := by
  intro a b h1 h2
  simp [hitE, h1, h2]

theorem hitE_congr {E E' : Pos → Bool × Bool} {e : LEdge} (h : E e.data = E' e.data) : hitE E e = hitE E' e := by
  simp [hitE, h]

theorem hits_congr {L : Lattice} {E E' : Pos → Bool × Bool} {v : Pos} (h : ∀ e ∈ L.opEdges v, E e.data = E' e.data) : L.hits E v = L.hits E' v :=
  xorSum_congr fun e he => hitE_congr (h e he)

theorem hits_of_edges {L M : Lattice} {v : Pos} (h : M.opEdges v = L.opEdges v) (E : Pos → Bool × Bool) : M.hits E v = L.hits E v := by
  unfold Lattice.hits
  rw [h]

theorem isStab_of {L M : Lattice} (h : M.stabgens = L.stabgens) (v : Pos) : M.isStab v = L.isStab v := by
  unfold Lattice.isStab
  rw [h]

theorem isStab_filter {L : Lattice} {v p : Pos} (h : L.isStab v = true) (hne : v ≠ p) : Lattice.isStab { L with stabgens := L.stabgens.filter (·.1 ≠ p) } v = true := by
  obtain ⟨s, hs, rfl⟩ := isStab_mem h
  exact mem_isStab (L := { L with stabgens := L.stabgens.filter (·.1 ≠ p) }) (List.mem_filter.2 ⟨hs, by simpa using hne⟩)

theorem filter_isStab {L : Lattice} {v p : Pos} (h : Lattice.isStab { L with stabgens := L.stabgens.filter (·.1 ≠ p) } v = true) : L.isStab v = true := by
  obtain ⟨s, hs, rfl⟩ := isStab_mem h
  exact mem_isStab (List.mem_filter.1 hs).1

/-! ### Clearing the logical operators -/

/-- Only logical operators change, and only by products of stabilisers. -/
structure Moved (L M : Lattice) : Prop where
  same : SameVertices L M
  keys : M.Keyed
  stab : ∀ v, L.isStab v = true → M.opEdges v = L.opEdges v
  log : ∀ E, (∀ v, L.isStab v = true → L.hits E v = false) → ∀ v, M.hits E v = L.hits E v

theorem Moved.refl {L : Lattice} (hk : L.Keyed) : Moved L L := ⟨SameVertices.refl L, hk, fun _ _ => rfl, fun _ _ _ => rfl⟩

theorem Moved.trans {L M N : Lattice} (h : Moved L M) (h' : Moved M N) : Moved L N where
  same := h.same.trans h'.same
  keys := h'.keys
  stab := fun v hv => (h'.stab v (by rw [isStab_of h.same.stabs]; exact hv)).trans (h.stab v hv)
  log := fun E hE v => by
    rw [h'.log E (fun u hu => ?_) v, h.log E hE v]
    rw [isStab_of h.same.stabs] at hu
    rw [h.log E hE u, hE u hu]

theorem multiply_moved {L M : Lattice} (hk : L.Keyed) {log stab : Pos} (hl : L.isStab log = false) (hs : L.isStab stab = true)
    (h : L.multiplyLogical log stab = .ok M) : Moved L M := by
  have st := multiplyLogical_step hk h
  refine ⟨st.same, st.keys, fun v hv => st.others v (by rintro rfl; rw [hv] at hl; cases hl) id, fun E hE v => ?_⟩
  by_cases hv : v = log
  · subst hv
    have := st.sum _ (resp_hitE E)
    unfold Lattice.hits
    rw [this]
    have h0 := hE stab hs
    unfold Lattice.hits at h0
    rw [h0, Bool.xor_false]
  · exact hits_of_edges (st.others v hv id) E

theorem moved_loop {groups : List (Letter × List LEdge)} (logs : List LEdge) : ∀ {L M : Lattice}, L.Keyed →
    (∀ g ∈ groups, ∀ e ∈ g.2, L.isStab e.op = true) → (∀ e ∈ logs, L.isStab e.op = false) → loopE (Lattice.clearLogical groups) L logs = .ok M → Moved L M := by
  induction logs with
  | nil =>
    intro L M hk _ _ h
    rw [loopE, Except.ok.injEq] at h
    exact h ▸ Moved.refl hk
  | cons e logs ih =>
    intro L M hk hg hl h
    rw [loopE] at h
    cases h1 : Lattice.clearLogical groups L e with
    | error x => rw [h1] at h; cases h
    | ok L1 =>
      rw [h1] at h
      have hc : Moved L L1 := by
        unfold Lattice.clearLogical at h1
        split at h1
        · cases h1
        · cases h1
        · rename_i c s es hf
          exact multiply_moved hk (hl e (List.mem_cons_self ..)) (hg _ (List.mem_of_find?_eq_some hf) s (List.mem_cons_self ..)) h1
      refine hc.trans (ih hc.keys (fun g hg' x hx => ?_) (fun x hx => ?_) h)
      · rw [isStab_of hc.same.stabs]; exact hg g hg' x hx
      · rw [isStab_of hc.same.stabs]; exact hl x (List.mem_cons_of_mem _ hx)

/-! ### The groups -/

/-- What is known of the operators of the groups `gs` before, if the stabilisers after do not detect `E`; other operators do not change. -/
structure Back (E : Pos → Bool × Bool) (M M' : Lattice) (gs : List (List LEdge)) : Prop where
  keys : M'.Keyed
  others : ∀ v, (∀ g ∈ gs, ∀ e ∈ g, v ≠ e.op) → M'.opEdges v = M.opEdges v ∧ (M.isStab v = true → M'.isStab v = true)
  fewer : ∀ v, M'.isStab v = true → M.isStab v = true
  equal : (∀ g ∈ gs, ∀ e ∈ g, M'.isStab e.op = true → M'.hits E e.op = false) → ∀ g ∈ gs, ∃ b, ∀ e ∈ g, M.hits E e.op = b

theorem Back.nil {E : Pos → Bool × Bool} {M : Lattice} (hk : M.Keyed) : Back E M M [] := ⟨hk, fun _ _ => ⟨rfl, id⟩, fun _ => id, fun _ _ h => by cases h⟩

theorem Back.cons {E : Pos → Bool × Bool} {M M1 M' : Lattice} {g : List LEdge} {gs : List (List LEdge)} (h1 : Back E M M1 [g]) (h2 : Back E M1 M' gs)
    (hd : ∀ g' ∈ gs, ∀ e' ∈ g', ∀ e ∈ g, e'.op ≠ e.op) : Back E M M' (g :: gs) where
  keys := h2.keys
  others := fun v hv => by
    obtain ⟨a1, a2⟩ := h1.others v fun g' hg' e he => hv g' (by rw [List.mem_singleton.1 hg']; exact List.mem_cons_self ..) e he
    obtain ⟨b1, b2⟩ := h2.others v fun g' hg' e he => hv g' (List.mem_cons_of_mem _ hg') e he
    exact ⟨b1.trans a1, fun h => b2 (a2 h)⟩
  fewer := fun v h => h1.fewer v (h2.fewer v h)
  equal := fun hE g' hg' => by
    rcases List.mem_cons.1 hg' with rfl | hg'
    · refine h1.equal (fun g0 hg0 e he hs => ?_) _ (List.mem_singleton.2 rfl)
      rw [List.mem_singleton.1 hg0] at he
      obtain ⟨b1, b2⟩ := h2.others e.op fun g' hg' e' he' => (hd g' hg' e' he' e he).symm
      rw [← hits_of_edges b1 E]
      exact hE _ (List.mem_cons_self ..) e he (b2 hs)
    · obtain ⟨b, hb⟩ := h2.equal (fun g0 hg0 => hE g0 (List.mem_cons_of_mem _ hg0)) g' hg'
      refine ⟨b, fun e he => ?_⟩
      rw [← hb e he]
      exact (hits_of_edges (h1.others e.op fun g0 hg0 e0 he0 => by
        rw [List.mem_singleton.1 hg0] at he0
        exact hd g' hg' e he e0 he0).1 E).symm

theorem removeEdge_hits {M M' : Lattice} (hk : M.Keyed) {e : LEdge} (he : e ∈ M.edges) {E : Pos → Bool × Bool} (hE : E e.data = (false, false))
    (h : M.removeEdge e = .ok M') : M'.Keyed ∧ M'.stabgens = M.stabgens ∧ (∀ v, v ≠ e.op → M'.opEdges v = M.opEdges v) ∧ M'.hits E e.op = M.hits E e.op := by
  obtain ⟨rfl, _⟩ := removeEdge_spec hk h
  refine ⟨List.Nodup.sublist (List.filter_sublist.map _) hk, rfl, fun v hv => opEdges_remove hv, ?_⟩
  unfold Lattice.hits
  rw [xorSum_remove hk he, show hitE E e = false by simp [hitE, hE], Bool.xor_false]

theorem removePair_back {M M' : Lattice} (hk : M.Keyed) {a b : LEdge} (ha : a ∈ M.edges) (hb : b ∈ M.edges) (hne : a.op ≠ b.op) {E : Pos → Bool × Bool}
    (hEa : E a.data = (false, false)) (hEb : E b.data = (false, false)) (hsa : M.isStab a.op = true) (hsb : M.isStab b.op = true)
    (h : M.removePair [a, b] = .ok M') : Back E M M' [[a, b]] := by
  unfold Lattice.removePair at h
  dsimp only at h
  cases h1 : M.removeEdge a with
  | error x => rw [h1] at h; cases h
  | ok M1 =>
    rw [h1] at h
    dsimp only at h
    obtain ⟨k1, s1, o1, t1⟩ := removeEdge_hits hk ha hEa h1
    have hb1 : b ∈ M1.edges := by
      have : b ∈ M1.opEdges b.op := by rw [o1 _ hne.symm]; exact mem_opEdges.2 ⟨hb, rfl⟩
      exact (mem_opEdges.1 this).1
    obtain ⟨k2, s2, o2, t2⟩ := removeEdge_hits k1 hb1 hEb h
    have hst : ∀ v, M'.isStab v = M.isStab v := isStab_of (s2.trans s1)
    refine ⟨k2, fun v hv => ⟨?_, fun h => by rw [hst]; exact h⟩, fun v h => by rw [hst] at h; exact h, fun hz g hg => ⟨false, fun e he => ?_⟩⟩
    · rw [o2 v (hv _ (List.mem_singleton.2 rfl) b (by simp)), o1 v (hv _ (List.mem_singleton.2 rfl) a (by simp))]
    · rw [List.mem_singleton.1 hg] at he
      have hz' := hz _ (List.mem_singleton.2 rfl)
      rcases List.mem_cons.1 he with rfl | he
      · rw [← t1, ← hits_of_edges (o2 _ hne)]
        exact hz' _ (by simp) (by rw [hst]; exact hsa)
      · obtain rfl := List.mem_singleton.1 he
        rw [← hits_of_edges (o1 _ hne.symm), ← t2]
        exact hz' _ (by simp) (by rw [hst]; exact hsb)

theorem removeOne_back {M M' : Lattice} (hk : M.Keyed) {a : LEdge} (ha : a ∈ M.edges) {E : Pos → Bool × Bool} (hEa : E a.data = (false, false))
    (h : M.removeEdge a = .ok M') : Back E M M' [[a]] := by
  obtain ⟨k1, s1, o1, t1⟩ := removeEdge_hits hk ha hEa h
  have hst : ∀ v, M'.isStab v = M.isStab v := isStab_of s1
  refine ⟨k1, fun v hv => ⟨o1 v (hv _ (List.mem_singleton.2 rfl) a (by simp)), fun h => by rw [hst]; exact h⟩, fun v h => by rw [hst] at h; exact h,
    fun _ g hg => ⟨M.hits E a.op, fun e he => ?_⟩⟩
  rw [List.mem_singleton.1 hg] at he
  rw [List.mem_singleton.1 he]

theorem removeEdges_others (es : List LEdge) : ∀ {M M' : Lattice}, M.Keyed → loopE Lattice.removeEdge M es = .ok M' →
    M'.Keyed ∧ M'.stabgens = M.stabgens ∧ ∀ v, (∀ e ∈ es, v ≠ e.op) → M'.opEdges v = M.opEdges v := by
  induction es with
  | nil =>
    intro M M' hk h
    rw [loopE, Except.ok.injEq] at h
    subst h
    exact ⟨hk, rfl, fun _ _ => rfl⟩
  | cons e es ih =>
    intro M M' hk h
    rw [loopE] at h
    cases h1 : M.removeEdge e with
    | error x => rw [h1] at h; cases h
    | ok M1 =>
      rw [h1] at h
      obtain ⟨rfl, _⟩ := removeEdge_spec hk h1
      obtain ⟨a1, a2, a3⟩ := ih (List.Nodup.sublist (List.filter_sublist.map _) hk) h
      refine ⟨a1, a2, fun v hv => ?_⟩
      rw [a3 v fun e he => hv e (List.mem_cons_of_mem _ he)]
      exact opEdges_remove (hv e (List.mem_cons_self ..))

theorem removeStabilizer_back {M M' : Lattice} (hk : M.Keyed) {a : LEdge} {E : Pos → Bool × Bool}
    (h : M.removeStabilizer a.op = .ok M') : Back E M M' [[a]] := by
  unfold Lattice.removeStabilizer at h
  cases h1 : loopE Lattice.removeEdge M (M.opEdges a.op) with
  | error x => rw [h1] at h; cases h
  | ok M1 =>
    rw [h1] at h
    dsimp only at h
    obtain ⟨k1, s1, o1⟩ := removeEdges_others _ hk h1
    obtain ⟨_, _, rfl⟩ := removeVertex_spec h
    refine ⟨k1, fun v hv => ⟨?_, fun h => ?_⟩, fun v h => ?_, fun _ g hg => ⟨M.hits E a.op, fun e he => ?_⟩⟩
    · refine o1 v fun e he => ?_
      rw [(mem_opEdges.1 he).2]
      exact hv _ (List.mem_singleton.2 rfl) a (by simp)
    · exact isStab_filter (L := M1) (by rw [isStab_of s1]; exact h) (hv _ (List.mem_singleton.2 rfl) a (by simp))
    · have := filter_isStab (L := M1) h
      rw [isStab_of s1] at this
      exact this
    · rw [List.mem_singleton.1 hg] at he
      rw [List.mem_singleton.1 he]

theorem superstab_back {M M' : Lattice} (hk : M.Keyed) {a b : LEdge} (hne : a.op ≠ b.op) {E : Pos → Bool × Bool}
    (h : M.superstabFromEdges [a, b] = .ok M') : Back E M M' [[a, b]] := by
  unfold Lattice.superstabFromEdges Lattice.createSuperstab at h
  dsimp only at h
  split at h
  · rename_i hst
    cases hl : loopE (Lattice.mergeEdge a.op) M (M.opEdges b.op) with
    | error x => rw [hl] at h; cases h
    | ok M1 =>
      rw [hl] at h
      dsimp only at h
      have st : Step M M1 a.op (M.opEdges b.op) (fun v => v = b.op) := by
        refine loop_step _ _ ?_ M M1 hk hl
        intro N N' e he hkN hN
        have hop := (mem_opEdges.mp he).2
        have := mergeEdge_step hkN (by rw [hop]; exact Ne.symm hne) hN
        rw [hop] at this
        exact this
      obtain ⟨_, _, rfl⟩ := removeVertex_spec h
      have hs1 := st.same.stabs
      refine ⟨st.keys, fun v hv => ⟨?_, fun h => ?_⟩, fun v h => ?_, fun hz g hg => ⟨M.hits E b.op, fun e he => ?_⟩⟩
      · exact st.others v (hv _ (List.mem_singleton.2 rfl) a (by simp)) (hv _ (List.mem_singleton.2 rfl) b (by simp))
      · exact isStab_filter (L := M1) (by rw [isStab_of hs1]; exact h) (hv _ (List.mem_singleton.2 rfl) b (by simp))
      · have := filter_isStab (L := M1) h
        rw [isStab_of hs1] at this
        exact this
      · rw [List.mem_singleton.1 hg] at he
        have h0 := hz _ (List.mem_singleton.2 rfl) a (by simp) (isStab_filter (L := M1) (by rw [isStab_of hs1]; exact hst.1) hne)
        have h1 : M1.hits E a.op = false := h0
        unfold Lattice.hits at h1 ⊢
        rw [st.sum _ (resp_hitE E)] at h1
        rcases List.mem_cons.1 he with rfl | he
        · revert h1
          cases xorSum (M.opEdges e.op) (hitE E) <;> cases xorSum (M.opEdges b.op) (hitE E) <;> simp
        · rw [List.mem_singleton.1 he]
  · cases h

/-- The groups at a data qubit: their edges, all of stabilisers and at the qubit, no operator twice. -/
structure Grouped (M : Lattice) (q : Pos) (gs : List (List LEdge)) : Prop where
  mem : ∀ g ∈ gs, ∀ e ∈ g, e ∈ M.edges ∧ e.data = q ∧ M.isStab e.op = true
  nodup : (gs.flatMap fun g => g.map LEdge.op).Nodup

theorem Grouped.tail {M M1 : Lattice} {q : Pos} {g : List LEdge} {gs : List (List LEdge)} {E : Pos → Bool × Bool} (h : Grouped M q (g :: gs))
    (h1 : Back E M M1 [g]) : Grouped M1 q gs ∧ ∀ g' ∈ gs, ∀ e' ∈ g', ∀ e ∈ g, e'.op ≠ e.op := by
  have hn := h.nodup
  rw [List.flatMap_cons, List.nodup_append] at hn
  have hd : ∀ g' ∈ gs, ∀ e' ∈ g', ∀ e ∈ g, e'.op ≠ e.op := fun g' hg' e' he' e he hc =>
    hn.2.2 e.op (List.mem_map_of_mem he) e'.op (List.mem_flatMap.2 ⟨g', hg', List.mem_map_of_mem he'⟩) hc.symm
  refine ⟨⟨fun g' hg' e he => ?_, hn.2.1⟩, hd⟩
  obtain ⟨a1, a2, a3⟩ := h.mem g' (List.mem_cons_of_mem _ hg') e he
  obtain ⟨b1, b2⟩ := h1.others e.op fun g0 hg0 e0 he0 => by
    rw [List.mem_singleton.1 hg0] at he0
    exact hd g' hg' e he e0 he0
  refine ⟨?_, a2, b2 a3⟩
  have : e ∈ M1.opEdges e.op := by rw [b1]; exact mem_opEdges.2 ⟨a1, rfl⟩
  exact (mem_opEdges.1 this).1

theorem group_loop {F : Lattice → List LEdge → Except Err Lattice} {E : Pos → Bool × Bool} {q : Pos} (gs : List (List LEdge))
    (hF : ∀ g ∈ gs, ∀ M M' : Lattice, M.Keyed → Grouped M q [g] → F M g = .ok M' → Back E M M' [g]) :
    ∀ {M M' : Lattice}, M.Keyed → Grouped M q gs → loopE F M gs = .ok M' → Back E M M' gs := by
  induction gs with
  | nil =>
    intro M M' hk _ h
    rw [loopE, Except.ok.injEq] at h
    exact h ▸ Back.nil hk
  | cons g gs ih =>
    intro M M' hk hg h
    rw [loopE] at h
    cases h1 : F M g with
    | error x => rw [h1] at h; cases h
    | ok M1 =>
      rw [h1] at h
      have b1 := hF g (List.mem_cons_self ..) M M1 hk ⟨fun g' hg' => hg.mem g' (by rw [List.mem_singleton.1 hg']; exact List.mem_cons_self ..), by
        have := hg.nodup
        rw [List.flatMap_cons, List.nodup_append] at this
        simpa using this.1⟩ h1
      obtain ⟨hg1, hd⟩ := hg.tail b1
      exact b1.cons (ih (fun g' hg' => hF g' (List.mem_cons_of_mem _ hg')) b1.keys hg1 h) hd

theorem Grouped.pair {M : Lattice} {q : Pos} {a b : LEdge} (h : Grouped M q [[a, b]]) : a.op ≠ b.op := by
  have := h.nodup
  simp at this
  exact this

theorem pair_step {E : Pos → Bool × Bool} {q : Pos} (hE : E q = (false, false)) {g : List LEdge} (h2 : g.length = 2) (M M' : Lattice) (hk : M.Keyed)
    (hg : Grouped M q [g]) (h : M.removePair g = .ok M') : Back E M M' [g] := by
  obtain ⟨a, b, rfl⟩ := List.length_eq_two.1 h2
  obtain ⟨a1, a2, a3⟩ := hg.mem _ (List.mem_singleton.2 rfl) a (by simp)
  obtain ⟨b1, b2, b3⟩ := hg.mem _ (List.mem_singleton.2 rfl) b (by simp)
  exact removePair_back hk a1 b1 hg.pair (by rw [a2, hE]) (by rw [b2, hE]) a3 b3 h

theorem superstab_step {E : Pos → Bool × Bool} {q : Pos} {g : List LEdge} (M M' : Lattice) (hk : M.Keyed)
    (hg : Grouped M q [g]) (h : M.superstabFromEdges g = .ok M') : Back E M M' [g] := by
  have : ∃ a b, g = [a, b] := by
    unfold Lattice.superstabFromEdges at h
    split at h
    · exact ⟨_, _, rfl⟩
    · cases h
  obtain ⟨a, b, rfl⟩ := this
  exact superstab_back hk hg.pair h

theorem handle_back {E : Pos → Bool × Bool} {q : Pos} (hE : E q = (false, false)) {gs : List (List LEdge)} {M M' : Lattice} (hk : M.Keyed)
    (hg : Grouped M q gs) (h : M.handleGroups gs = .ok M') : Back E M M' gs := by
  unfold Lattice.handleGroups at h
  split at h
  · rename_i hall
    rw [List.all_eq_true] at hall
    have h2 : ∀ g ∈ gs, g.length = 2 := fun g hg => of_decide_eq_true (hall g hg)
    split at h
    · exact group_loop gs (fun g _ M M' => superstab_step M M') hk hg h
    split at h
    · cases gs with
      | nil => cases h
      | cons g gs =>
        dsimp only at h
        cases h1 : M.superstabFromEdges g with
        | error x => rw [h1] at h; cases h
        | ok M1 =>
          rw [h1] at h
          have b1 : Back E M M1 [g] := superstab_step M M1 hk ⟨fun g' hg' => hg.mem g' (by rw [List.mem_singleton.1 hg']; exact List.mem_cons_self ..), by
            have := hg.nodup
            rw [List.flatMap_cons, List.nodup_append] at this
            simpa using this.1⟩ h1
          obtain ⟨hg1, hd⟩ := hg.tail b1
          exact b1.cons (group_loop gs (fun g' hg' => pair_step hE (h2 g' (List.mem_cons_of_mem _ hg'))) b1.keys hg1 h) hd
    split at h
    · exact group_loop gs (fun g hg' => pair_step hE (h2 g hg')) hk hg h
    · cases h
  split at h
  · refine group_loop gs (fun g _ M M' hk hg h => ?_) hk hg h
    unfold Lattice.boundaryJoinStep at h
    split at h
    · rename_i a _
      obtain ⟨a1, a2, _⟩ := hg.mem _ (List.mem_singleton.2 rfl) a (by simp)
      exact removeOne_back hk a1 (by rw [a2, hE]) h
    · exact superstab_step M M' hk hg h
    · cases h
  · refine group_loop gs (fun g _ M M' hk hg h => ?_) hk hg h
    unfold Lattice.boundaryRemove at h
    split at h
    · exact removeStabilizer_back hk h
    · exact pair_step hE rfl M M' hk hg h
    · cases h

/-! ### Removing one data qubit -/

theorem stabGroups_grouped {L : Lattice} (hk : L.Keyed) (q : Pos) : Grouped L q ((L.stabGroups q).map Prod.snd) := by
  refine ⟨fun g hg e he => ?_, ?_⟩
  · obtain ⟨g', hg', rfl⟩ := List.mem_map.1 hg
    obtain ⟨h1, h2, h3, _⟩ := mem_group hg' he
    exact ⟨h1, h2, h3⟩
  · have h1 : ((L.stabGroups q).map Prod.snd).flatMap (fun g => g.map LEdge.op) = ((L.stabGroups q).flatMap Prod.snd).map LEdge.op := by
      rw [List.flatMap_map, List.map_flatMap]
    rw [h1, ((stabGroups_spec L q).perm.map _).nodup_iff, List.Nodup, List.pairwise_map]
    have h2 : (((L.dataEdges q).filter fun e => L.isStab e.op).map LEdge.key).Nodup :=
      List.Nodup.sublist ((List.filter_sublist.trans List.filter_sublist).map _) hk
    rw [List.Nodup, List.pairwise_map] at h2
    refine h2.imp_of_mem fun {a b} ha hb hab hc => hab ?_
    simp only [Lattice.dataEdges, List.mem_filter, decide_eq_true_eq] at ha hb
    simp [LEdge.key, hc, ha.1.2, hb.1.2]

/-- The error `E` with the letters `P` at `q`. -/
def errAt (E : Pos → Bool × Bool) (q : Pos) (P : Bool × Bool) : Pos → Bool × Bool := fun p => if p = q then P else E p

theorem hits_errAt {L : Lattice} (hk : L.Keyed) {E : Pos → Bool × Bool} {q : Pos} {P : Bool × Bool} {e : LEdge} (he : e ∈ L.edges) (hq : e.data = q) :
    L.hits (errAt E q P) e.op = (L.hits (errAt E q (false, false)) e.op ^^ ((e.factor.hasX && P.2) ^^ (e.factor.hasZ && P.1))) := by
  have h1 : ∀ a ∈ L.opEdges e.op, hitE (errAt E q P) a = (hitE (errAt E q (false, false)) a ^^ (decide (a.data = q) && hitE (errAt E q P) a)) := by
    intro a _
    by_cases ha : a.data = q
    · simp [hitE, errAt, ha]
    · simp [hitE, errAt, ha]
  unfold Lattice.hits
  rw [xorSum_congr h1, xorSum_xor]
  congr 1
  have hn : (L.opEdges e.op).Nodup := List.Nodup.of_map _ (hk.op_nodup e.op)
  rw [xorSum_unique (a := e) (mem_opEdges.mpr ⟨he, rfl⟩) hn]
  · simp [hitE, errAt, hq]
  · intro b hb hbe
    have : b.data ≠ q := fun hc => hbe (List.inj_on_of_nodup_map hk (mem_opEdges.mp hb).1 he (by simp [LEdge.key, (mem_opEdges.1 hb).2, hc, hq]))
    simp [this]

theorem hits_errAt_off {L : Lattice} {E : Pos → Bool × Bool} {q : Pos} {P P' : Bool × Bool} {v : Pos} (h : ∀ e ∈ L.edges, e.op = v → e.data ≠ q) :
    L.hits (errAt E q P) v = L.hits (errAt E q P') v :=
  hits_congr fun e he => by
    obtain ⟨h1, h2⟩ := mem_opEdges.1 he
    simp [errAt, h e h1 h2]

/-- An error that the stabilisers after the removal of `q` do not detect can be continued at `q` so that the stabilisers before do not detect it;
then it acts on the logical operators as before. -/
theorem remove_back {L L' : Lattice} (hp : L.Pre) {q : Pos} (hq : q ∈ L.dataqubits) (h : L.removeDataqubit q = .ok L') (E : Pos → Bool × Bool)
    (hE : ∀ v, L'.isStab v = true → L'.hits E v = false) :
    ∃ P, (∀ v, L.isStab v = true → L.hits (errAt E q P) v = false) ∧
      ∀ v, L.isStab v = false → L.hits (errAt E q P) v = L'.hits E v := by
  unfold Lattice.removeDataqubit at h
  dsimp only at h
  cases h1 : loopE (Lattice.clearLogical (L.stabGroups q)) L ((L.dataEdges q).filter fun e => !L.isStab e.op) with
  | error x => rw [h1] at h; cases h
  | ok M =>
  rw [h1] at h
  dsimp only at h
  cases h2 : M.handleGroups ((L.stabGroups q).map Prod.snd) with
  | error x => rw [h2] at h; cases h
  | ok N =>
  rw [h2] at h
  dsimp only at h
  have hm : Moved L M := moved_loop _ hp.keys (fun g hg e he => (mem_group hg he).2.2.1) (fun e he => by simpa using (List.mem_filter.1 he).2) h1
  have hgL := stabGroups_grouped hp.keys q
  have hsM : ∀ v, M.isStab v = L.isStab v := isStab_of hm.same.stabs
  have hgM : Grouped M q ((L.stabGroups q).map Prod.snd) := by
    refine ⟨fun g hg e he => ?_, hgL.nodup⟩
    obtain ⟨a1, a2, a3⟩ := hgL.mem g hg e he
    refine ⟨?_, a2, by rw [hsM]; exact a3⟩
    have : e ∈ M.opEdges e.op := by rw [hm.stab _ a3]; exact mem_opEdges.2 ⟨a1, rfl⟩
    exact (mem_opEdges.1 this).1
  obtain ⟨hed, _, rfl⟩ := removeVertex_spec h
  have hb := handle_back (E := errAt E q (false, false)) (by simp [errAt]) hm.keys hgM h2
  have hqs : ∀ v, L.isStab v = true → v ≠ q := by
    rintro v hv rfl
    obtain ⟨s, hs, rfl⟩ := isStab_mem hv
    have h1 := (List.nodup_append.mp hp.occ).1
    exact (List.nodup_append.mp h1).2.2 _ hq _ (List.mem_map_of_mem hs) rfl
  have hN0 : ∀ P v, N.hits (errAt E q P) v = N.hits E v := fun P v => hits_congr fun e he => by
    simp [errAt, (hed e (mem_opEdges.1 he).1).2]
  have hN : ∀ v, N.isStab v = true → N.hits (errAt E q (false, false)) v = false := by
    intro v hv
    rw [hN0]
    exact hE v (isStab_filter (L := N) hv (hqs v (by rw [← hsM]; exact hb.fewer v hv)))
  have heq := hb.equal fun g _ e _ hs => hN _ hs
  have hbit : ∀ c : Letter, ∃ b, ∀ g ∈ L.stabGroups q, g.1 = c → ∀ e ∈ g.2, L.hits (errAt E q (false, false)) e.op = b := by
    intro c
    by_cases hc : ∃ g ∈ L.stabGroups q, g.1 = c
    · obtain ⟨g, hg, rfl⟩ := hc
      obtain ⟨b, hb⟩ := heq g.2 (List.mem_map_of_mem hg)
      refine ⟨b, fun g' hg' hgg e he => ?_⟩
      obtain rfl := List.inj_on_of_nodup_map (stabGroups_spec L q).nodup hg' hg hgg
      rw [← hb e he, hits_of_edges (hm.stab _ (mem_group hg he).2.2.1)]
    · exact ⟨false, fun g hg h => absurd ⟨g, hg, h⟩ hc⟩
  obtain ⟨bx, hbx⟩ := hbit .X
  obtain ⟨bz, hbz⟩ := hbit .Z
  have hstab : ∀ v, L.isStab v = true → L.hits (errAt E q (bz, bx)) v = false := by
    intro v hv
    by_cases he : ∃ e ∈ L.edges, e.op = v ∧ e.data = q
    · obtain ⟨e, he, rfl, heq⟩ := he
      obtain ⟨g, hg, heg⟩ := group_of he heq hv
      have hf := (mem_group hg heg).2.2.2
      rw [hits_errAt hp.keys he heq]
      cases hfac : e.factor with
      | X => rw [hbx g hg (by rw [← hf, hfac]) e heg]; simp [Letter.hasX, Letter.hasZ]
      | Y => exact absurd hfac (hp.xz e he)
      | Z => rw [hbz g hg (by rw [← hf, hfac]) e heg]; simp [Letter.hasX, Letter.hasZ]
    · have hoff : ∀ e ∈ L.edges, e.op = v → e.data ≠ q := fun e h1 h2 h3 => he ⟨e, h1, h2, h3⟩
      rw [hits_errAt_off (P' := (false, false)) hoff]
      obtain ⟨b1, b2⟩ := hb.others v fun g hg e heg => by
        obtain ⟨a1, a2, a3⟩ := hgL.mem g hg e heg
        rintro rfl
        exact hoff e a1 rfl a2
      rw [← hits_of_edges (hm.stab v hv), ← hits_of_edges b1]
      exact hN v (b2 (by rw [hsM]; exact hv))
  refine ⟨(bz, bx), hstab, fun v hv => ?_⟩
  obtain ⟨b1, _⟩ := hb.others v fun g hg e heg => by
    obtain ⟨_, _, a3⟩ := hgL.mem g hg e heg
    rintro rfl
    rw [hv] at a3; cases a3
  rw [← hm.log _ hstab v, ← hits_of_edges b1, hN0]
  rfl

/-! ### Removing many -/

theorem remove_loop_back (qs : List Pos) : ∀ {L L' : Lattice}, L.CssKept → (∀ q ∈ qs, q ∈ L.dataqubits) → qs.Nodup →
    loopE Lattice.removeDataqubit L qs = .ok L' → ∀ E : Pos → Bool × Bool, (∀ v, L'.isStab v = true → L'.hits E v = false) →
    ∃ E' : Pos → Bool × Bool, (∀ p, p ∉ qs → E' p = E p) ∧ (∀ v, L.isStab v = true → L.hits E' v = false) ∧
      ∀ v ∈ L.logicals.map Prod.fst, L.hits E' v = L'.hits E v := by
  induction qs with
  | nil =>
    intro L L' _ _ _ h E hE
    rw [loopE, Except.ok.injEq] at h
    subst h
    exact ⟨E, fun _ _ => rfl, hE, fun _ _ => rfl⟩
  | cons q qs ih =>
    intro L L' hk hm hn h E hE
    rw [List.nodup_cons] at hn
    rw [loopE] at h
    rcases remove_cases hk (hm q (List.mem_cons_self ..)) with ⟨M, h1, h2, h3, h4, _, _⟩ | h1 | ⟨_, h1⟩
    · rw [h1] at h
      obtain ⟨E1, k1, k2, k3⟩ := ih h2 (fun p hp => by
          rw [h3, List.mem_filter]
          exact ⟨hm p (List.mem_cons_of_mem _ hp), by
            simp only [ne_eq, decide_eq_true_eq]; rintro rfl; exact hn.1 hp⟩) hn.2 h E hE
      obtain ⟨φ, hc⟩ := hk.css
      obtain ⟨P, p1, p2⟩ := remove_back hc.pre (hm q (List.mem_cons_self ..)) h1 E1 k2
      refine ⟨errAt E1 q P, fun p hp => ?_, p1, fun v hv => ?_⟩
      · rw [List.mem_cons, not_or] at hp
        rw [errAt, if_neg hp.1, k1 p hp.2]
      · rw [p2 v, k3 v (by rw [h4]; exact hv)]
        cases hs : L.isStab v with
        | false => rfl
        | true => exact absurd hv (hc.pre.stab_not_log hs)
    · rw [h1] at h; cases h
    · rw [h1] at h; cases h

theorem apply_back {L L' : Lattice} (h : L.CssKept) {qubits : List VertexRef} {gates : List (VertexRef × VertexRef)}
    {stabs : List VertexRef} {kg : Option (List Char)} {bj : Option Bool} (hk : kg = none ∨ ∃ g ∈ gaugeSettings, kg = some g)
    (ha : L.applyFabrication qubits gates stabs kg bj = .ok L') :
    ∃ qs : List Pos, (∀ q ∈ qs, q ∈ L.dataqubits) ∧ L'.dataqubits = L.dataqubits.filter (· ∉ qs) ∧ qs.Nodup ∧ ∀ E : Pos → Bool × Bool,
      (∀ v, L'.isStab v = true → L'.hits E v = false) → ∃ E' : Pos → Bool × Bool, (∀ p, p ∉ qs → E' p = E p) ∧
        (∀ v, L.isStab v = true → L.hits E' v = false) ∧ ∀ v ∈ L.logicals.map Prod.fst, L.hits E' v = L'.hits E v := by
  cases hqs : L.toRemove qubits gates stabs with
  | error e => rw [apply_wrong hqs] at ha; cases ha
  | ok qs =>
    have hmem : ∀ q ∈ qs, q ∈ L.dataqubits := toRemove_mem (h.css.elim fun _ hc => hc.pre.data) hqs
    have hd : L'.dataqubits = L.dataqubits.filter (· ∉ qs) := by
      rcases apply_cases h (bj := bj) hk hqs with ⟨M, h1, _, h3, _⟩ | h1 | ⟨_, h1⟩
      · rw [h1, Except.ok.injEq] at ha
        exact ha ▸ h3
      · rw [h1] at ha; cases ha
      · rw [h1] at ha; cases ha
    refine ⟨qs, hmem, hd, toRemove_nodup hqs, fun E hE => ?_⟩
    unfold Lattice.applyFabrication at ha
    dsimp only at ha
    rw [toRemove_settings, hqs] at ha
    dsimp only at ha
    split at ha
    · cases ha
    · rename_i M hM
      rw [Except.ok.injEq] at ha
      subst ha
      exact remove_loop_back qs (CssKept.settings h hk bj) hmem (toRemove_nodup hqs) hM E hE

/-! ### Operators of the code -/

/-- The letters of an operator of the code at the positions of the data qubits. -/
def Lattice.ofOp (L : Lattice) (c : Op L.dataqubits.length) (p : Pos) : Bool × Bool :=
  if h : p ∈ L.dataqubits ∧ L.idx p < L.dataqubits.length then (c.x ⟨L.idx p, h.2⟩, c.z ⟨L.idx p, h.2⟩) else (false, false)

/-- The operator with the given letters. -/
def Lattice.toOp (L : Lattice) (E : Pos → Bool × Bool) : Op L.dataqubits.length := ⟨fun q => (E L.dataqubits[q.val]).1, fun q => (E L.dataqubits[q.val]).2, false⟩

theorem hits_ofOp {L : Lattice} (hw : L.Wf) (c : Op L.dataqubits.length) (v : Pos) : L.hits (L.ofOp c) v = anti (L.vop v) c := by
  rw [hw.anti_vop_hit]
  refine xorSum_congr fun e he => ?_
  unfold hitE Lattice.ofOp Lattice.hit
  split <;> simp

theorem idx_get {L : Lattice} (hw : L.Wf) (q : Fin L.dataqubits.length) : L.idx L.dataqubits[q.val] = q.val := by
  have hn := hw.occ
  rw [Lattice.occupied, List.append_assoc] at hn
  rw [hw.idx_data (List.getElem_mem _)]
  exact List.Nodup.idxOf_getElem (List.nodup_append.mp hn).1 _ _

theorem ofOp_get {L : Lattice} (hw : L.Wf) (c : Op L.dataqubits.length) (q : Fin L.dataqubits.length) : L.ofOp c L.dataqubits[q.val] = (c.x q, c.z q) := by
  have h := idx_get hw q
  unfold Lattice.ofOp
  rw [dif_pos ⟨List.getElem_mem _, by rw [h]; exact q.isLt⟩]
  have h2 : (⟨L.idx L.dataqubits[q.val], by rw [h]; exact q.isLt⟩ : Fin L.dataqubits.length) = q := Fin.ext h
  rw [h2]

theorem hits_toOp {L : Lattice} (hw : L.Wf) (E : Pos → Bool × Bool) (v : Pos) : anti (L.vop v) (L.toOp E) = L.hits E v := by
  rw [← hits_ofOp hw]
  refine hits_congr fun e he => ?_
  obtain ⟨q, hq, hqe⟩ := List.getElem_of_mem (hw.op_data he)
  rw [← hqe]
  exact ofOp_get hw (L.toOp E) ⟨q, hq⟩

/-- Is the letter not the identity? -/
def acts (P : Bool × Bool) : Bool := P.1 || P.2

theorem countP_get {α : Type} (l : List α) (f : α → Bool) : (List.finRange l.length).countP (fun q => f l[q.val]) = l.countP f := by
  have h := congrArg (List.countP f) (List.map_getElem_finRange l)
  rw [List.countP_map] at h
  exact h

theorem weight_toOp (L : Lattice) (E : Pos → Bool × Bool) : (L.toOp E).weight = L.dataqubits.countP fun p => acts (E p) :=
  countP_get L.dataqubits fun p => acts (E p)

theorem weight_ofOp {L : Lattice} (hw : L.Wf) (c : Op L.dataqubits.length) : c.weight = L.dataqubits.countP fun p => acts (L.ofOp c p) := by
  rw [← countP_get]
  refine List.countP_congr fun q _ => ?_
  rw [ofOp_get hw]
  exact Iff.rfl

theorem weight_back {l qs : List Pos} {E E' : Pos → Bool × Bool} (h : ∀ p, p ∉ qs → E' p = E p) :
    (l.countP fun p => acts (E' p)) ≤ ((l.filter (· ∉ qs)).countP fun p => acts (E p)) + (l.length - (l.filter (· ∉ qs)).length) := by
  induction l with
  | nil => simp
  | cons a l ih =>
    have hle : (l.filter (· ∉ qs)).length ≤ l.length := List.length_filter_le ..
    by_cases ha : a ∈ qs
    · rw [List.filter_cons_of_neg (by simpa using ha), List.countP_cons, List.length_cons]
      split <;> omega
    · rw [List.filter_cons_of_pos (by simpa using ha), List.countP_cons, List.countP_cons, List.length_cons, List.length_cons, h a ha]
      omega

/-- Every undetected logical error of the code after the fabrication errors comes from one of the code before, with at most the removed qubits in addition. -/
theorem logical_back {L L' : Lattice} (h : L.CssFabricated) {qubits : List VertexRef} {gates : List (VertexRef × VertexRef)}
    {stabs : List VertexRef} {kg : Option (List Char)} {bj : Option Bool} (hk : kg = none ∨ ∃ g ∈ gaugeSettings, kg = some g)
    (ha : L.applyFabrication qubits gates stabs kg bj = .ok L') (e' : Op L'.dataqubits.length) (he' : L'.code.IsLogical e') :
    ∃ e : Op L.dataqubits.length, L.code.IsLogical e ∧ e.weight ≤ e'.weight + (L.dataqubits.length - L'.dataqubits.length) := by
  have hw := cssFabricated_wf h
  have hw' := cssFabricated_wf (.errors h hk ha)
  have hlog : L'.logicals = L.logicals := by
    cases hqs : L.toRemove qubits gates stabs with
    | error e => rw [apply_wrong hqs] at ha; cases ha
    | ok qs =>
      rcases apply_cases (cssKept h) (bj := bj) hk hqs with ⟨M, h1, _, _, h4⟩ | h1 | ⟨_, h1⟩
      · rw [h1, Except.ok.injEq] at ha
        exact ha ▸ h4
      · rw [h1] at ha; cases ha
      · rw [h1] at ha; cases ha
  obtain ⟨qs, _, hd, _, hback⟩ := apply_back (cssKept h) hk ha
  obtain ⟨E', h1, h2, h3⟩ := hback (L'.ofOp e') fun v hv => by
    rw [hits_ofOp hw']
    obtain ⟨s, hs, rfl⟩ := isStab_mem hv
    exact (commutes_iff _ _).mp (he'.unseen _ (List.mem_map_of_mem (f := fun s => L'.vop s.1) hs))
  refine ⟨L.toOp E', ⟨fun a hm => ?_, ?_⟩, ?_⟩
  · obtain ⟨s, hs, rfl⟩ := List.mem_map.1 hm
    rw [commutes_iff, hits_toOp hw]
    exact h2 _ (mem_isStab hs)
  · obtain ⟨a, hm, ha'⟩ := he'.acts
    obtain ⟨l, hl, rfl⟩ := List.mem_map.1 hm
    rw [hlog] at hl
    refine ⟨_, List.mem_map_of_mem (f := fun s => L.vop s.1) hl, ?_⟩
    rw [anticommutes_iff, hits_toOp hw, h3 _ (List.mem_map_of_mem hl), hits_ofOp hw']
    exact (anticommutes_iff _ _).1 ha'
  · rw [weight_toOp, weight_ofOp hw', hd]
    exact weight_back h1

end Plaquette
