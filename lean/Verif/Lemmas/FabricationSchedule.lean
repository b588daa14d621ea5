import Verif.Lemmas.FabricationQubit
import Verif.Lemmas.QecMain

/-!
# The time steps of the edges after fabrication errors
-/

namespace Plaquette
variable {F : Type} {api : FloatApi F}

/-- What changes in a lattice: edges with a time step are at most removed, and they keep their stabiliser. -/
structure Edited (L M : Lattice) : Prop where
  steps : M.timeSteps = L.timeSteps
  edges : ∀ e ∈ M.edges, e.step ≠ none → e ∈ L.edges
  stab : ∀ p, M.isStab p = true → L.isStab p = true
  kept : ∀ e ∈ M.edges, e.step ≠ none → L.isStab e.op = true → M.isStab e.op = true

theorem Edited.refl (L : Lattice) : Edited L L := ⟨rfl, fun _ h _ => h, fun _ h => h, fun _ _ _ h => h⟩

theorem Edited.trans {L M N : Lattice} (h : Edited L M) (h' : Edited M N) : Edited L N where
  steps := h'.steps.trans h.steps
  edges := fun e he hs => h.edges e (h'.edges e he hs) hs
  stab := fun p hp => h.stab p (h'.stab p hp)
  kept := fun e he hs hl => h'.kept e he hs (h.kept e (h'.edges e he hs) hs hl)

theorem edited_loop {α : Type} {f : Lattice → α → Except Err Lattice} (hf : ∀ L a M, f L a = .ok M → Edited L M) :
    ∀ (as : List α) (L M : Lattice), loopE f L as = .ok M → Edited L M
  | [], L, M, h => by
    simp only [loopE, Except.ok.injEq] at h
    subst h
    exact .refl L
  | a :: as, L, M, h => by
    rw [loopE] at h
    cases h1 : f L a with
    | error x => rw [h1] at h; simp at h
    | ok L1 =>
      rw [h1] at h
      exact (hf _ _ _ h1).trans (edited_loop hf as _ _ h)

theorem removeEdge_edited {L M : Lattice} {e : LEdge} (h : L.removeEdge e = .ok M) : Edited L M := by
  unfold Lattice.removeEdge at h
  split at h
  · simp only [Except.ok.injEq] at h
    subst h
    exact ⟨rfl, fun e he _ => List.mem_of_mem_eraseP he, fun _ h => h, fun _ _ _ h => h⟩
  · simp at h

theorem addEdge_edited {L M : Lattice} {d p : Pos} {c : Letter} (h : L.addEdge d p c = .ok M) : Edited L M := by
  unfold Lattice.addEdge at h
  split at h
  · simp at h
  · simp only [Except.ok.injEq] at h
    subst h
    refine ⟨rfl, fun e he hs => ?_, fun _ h => h, fun _ _ _ h => h⟩
    rcases List.mem_append.mp he with he | he
    · exact he
    · rw [List.mem_singleton] at he
      subst he
      exact absurd rfl hs

theorem removeVertex_edited {L M : Lattice} {p : Pos} (h : L.removeVertex p = .ok M) : Edited L M := by
  unfold Lattice.removeVertex at h
  split at h
  · simp at h
  · split at h
    · simp at h
    · rename_i hne
      simp only [Except.ok.injEq] at h
      subst h
      refine ⟨rfl, fun e he _ => he, fun q hq => ?_, fun e he _ hl => ?_⟩
      · simp only [Lattice.isStab, List.any_eq_true, List.mem_filter] at hq ⊢
        obtain ⟨s, ⟨hs, _⟩, hq⟩ := hq
        exact ⟨s, hs, hq⟩
      · simp only [Lattice.isStab, List.any_eq_true, decide_eq_true_eq] at hl ⊢
        obtain ⟨s, hs, hq⟩ := hl
        refine ⟨s, List.mem_filter.mpr ⟨hs, ?_⟩, hq⟩
        simp only [ne_eq, decide_not, Bool.not_eq_true', decide_eq_false_iff_not]
        intro hc
        apply hne
        rw [List.any_eq_true]
        exact ⟨e, he, by simp [← hq, hc]⟩

theorem mulEdge_edited {L M : Lattice} {k : Pos} {e : LEdge} (h : L.mulEdge k e = .ok M) : Edited L M := by
  unfold Lattice.mulEdge at h
  split at h
  · split at h
    · exact removeEdge_edited h
    · simp at h
  · exact addEdge_edited h

theorem mergeEdge_edited {L M : Lattice} {k : Pos} {e : LEdge} (h : L.mergeEdge k e = .ok M) : Edited L M := by
  unfold Lattice.mergeEdge at h
  cases h1 : L.removeEdge e with
  | error x => rw [h1] at h; simp at h
  | ok L1 =>
    rw [h1] at h
    dsimp only at h
    refine (removeEdge_edited h1).trans ?_
    split at h
    · split at h
      · exact removeEdge_edited h
      · simp at h
    · exact addEdge_edited h

theorem createSuperstab_edited {L M : Lattice} {a b : Pos} (h : L.createSuperstab a b = .ok M) : Edited L M := by
  unfold Lattice.createSuperstab at h
  split at h
  · cases h1 : loopE (Lattice.mergeEdge a) L (L.opEdges b) with
    | error x => rw [h1] at h; simp at h
    | ok L1 =>
      rw [h1] at h
      exact (edited_loop (fun _ _ _ => mergeEdge_edited) _ _ _ h1).trans (removeVertex_edited h)
  · simp at h

theorem superstabFromEdges_edited {L M : Lattice} {es : List LEdge} (h : L.superstabFromEdges es = .ok M) : Edited L M := by
  unfold Lattice.superstabFromEdges at h
  split at h
  · exact createSuperstab_edited h
  · simp at h

theorem removePair_edited {L M : Lattice} {es : List LEdge} (h : L.removePair es = .ok M) : Edited L M := by
  unfold Lattice.removePair at h
  split at h
  · rename_i a b _
    cases h1 : L.removeEdge a with
    | error x => rw [h1] at h; simp at h
    | ok L1 =>
      rw [h1] at h
      exact (removeEdge_edited h1).trans (removeEdge_edited h)
  · simp at h

theorem removeStabilizer_edited {L M : Lattice} {p : Pos} (h : L.removeStabilizer p = .ok M) : Edited L M := by
  unfold Lattice.removeStabilizer at h
  cases h1 : loopE Lattice.removeEdge L (L.opEdges p) with
  | error x => rw [h1] at h; simp at h
  | ok L1 =>
    rw [h1] at h
    exact (edited_loop (fun _ _ _ => removeEdge_edited) _ _ _ h1).trans (removeVertex_edited h)

theorem handleGroups_edited {L M : Lattice} {gs : List (List LEdge)} (h : L.handleGroups gs = .ok M) : Edited L M := by
  unfold Lattice.handleGroups at h
  split at h
  · split at h
    · exact edited_loop (fun _ _ _ => superstabFromEdges_edited) _ _ _ h
    · split at h
      · split at h
        · simp at h
        · rename_i g gs' _
          cases h1 : L.superstabFromEdges g with
          | error x => rw [h1] at h; simp at h
          | ok L1 =>
            rw [h1] at h
            exact (superstabFromEdges_edited h1).trans (edited_loop (fun _ _ _ => removePair_edited) _ _ _ h)
      · split at h
        · exact edited_loop (fun _ _ _ => removePair_edited) _ _ _ h
        · simp at h
  · split at h
    · refine edited_loop (fun _ es _ h => ?_) _ _ _ h
      unfold Lattice.boundaryJoinStep at h
      split at h
      · exact removeEdge_edited h
      · exact superstabFromEdges_edited h
      · simp at h
    · refine edited_loop (fun _ es _ h => ?_) _ _ _ h
      unfold Lattice.boundaryRemove at h
      split at h
      · exact removeStabilizer_edited h
      · exact removePair_edited h
      · simp at h

theorem clearLogical_edited {gs : List (Letter × List LEdge)} {L M : Lattice} {e : LEdge}
    (h : Lattice.clearLogical gs L e = .ok M) : Edited L M := by
  unfold Lattice.clearLogical at h
  split at h
  · simp at h
  · simp at h
  · unfold Lattice.multiplyLogical at h
    exact edited_loop (fun _ _ _ => mulEdge_edited) _ _ _ h

theorem removeDataqubit_edited {L M : Lattice} {q : Pos} (h : L.removeDataqubit q = .ok M) : Edited L M := by
  unfold Lattice.removeDataqubit at h
  dsimp only at h
  cases h1 : loopE (Lattice.clearLogical (L.stabGroups q)) L ((L.dataEdges q).filter fun e => !L.isStab e.op) with
  | error x => rw [h1] at h; simp at h
  | ok L1 =>
    rw [h1] at h
    dsimp only at h
    cases h2 : L1.handleGroups ((L.stabGroups q).map Prod.snd) with
    | error x => rw [h2] at h; simp at h
    | ok L2 =>
      rw [h2] at h
      exact ((edited_loop (fun _ _ _ => clearLogical_edited) _ _ _ h1).trans (handleGroups_edited h2)).trans
        (removeVertex_edited h)

theorem applyFabrication_edited {L M : Lattice} {qubits : List VertexRef} {gates : List (VertexRef × VertexRef)}
    {stabs : List VertexRef} {kg : Option (List Char)} {bj : Option Bool}
    (h : L.applyFabrication qubits gates stabs kg bj = .ok M) : Edited L M := by
  unfold Lattice.applyFabrication at h
  dsimp only at h
  split at h
  · simp at h
  · split at h
    · simp at h
    · rename_i qs _ M' h1
      simp only [Except.ok.injEq] at h
      subst h
      have h2 := edited_loop (fun _ _ _ => removeDataqubit_edited) _ _ _ h1
      exact ⟨h2.steps, h2.edges, h2.stab, h2.kept⟩

/-- If all edges of the stabilisers have a time step, the schedule is the one of the lattice before. -/
theorem Edited.sched {L M : Lattice} (h : Edited L M) (hs : L.Sched) (hk : (M.edges.map LEdge.key).Nodup)
    (hy : ∀ e ∈ M.edges, e.factor ≠ .Y)
    (ht : M.timeSteps = none ∨ ∀ e ∈ M.edges, M.isStab e.op = true → e.step ≠ none) : M.Sched where
  noY := hy
  steps := by
    rcases ht with ht | ht
    · exact Or.inl ht
    · rcases hs.steps with h0 | ⟨hc, ho, hst⟩
      · exact Or.inl (h.steps.trans h0)
      · refine Or.inr ⟨⟨?_, hk, ?_⟩, ?_, ?_⟩
        · obtain ⟨T, hT, h1⟩ := hc.steps
          exact ⟨T, h.steps.trans hT, fun e he hm => h1 e (h.edges e he (ht e he hm)) (h.stab _ hm)⟩
        · intro a ha b hb hsa hsb
          exact hc.apart a (h.edges a ha (ht a ha hsa)) b (h.edges b hb (ht b hb hsb)) (h.stab _ hsa) (h.stab _ hsb)
        · intro a ha b hb a' ha' b' hb' hsa hsb h1 h2 h3 h4 h5 h6 i j k l hi hj hk hl
          exact ho a (h.edges a ha (by simp [hi])) b (h.edges b hb (by simp [hj])) a' (h.edges a' ha' (by simp [hk]))
            b' (h.edges b' hb' (by simp [hl])) (h.stab _ hsa) (h.stab _ hsb) h1 h2 h3 h4 h5 h6 i j k l hi hj hk hl
        · intro e he hne
          exact h.kept e he hne (hst e (h.edges e he hne) hne)

/-! ### Changes without new edges of stabilisers -/

/-- The edges of the stabilisers are edges from before. -/
structure Shrunk (L M : Lattice) : Prop where
  stab : ∀ p, M.isStab p = true → L.isStab p = true
  edges : ∀ e ∈ M.edges, M.isStab e.op = true → e ∈ L.edges

theorem Shrunk.refl (L : Lattice) : Shrunk L L := ⟨fun _ h => h, fun _ h _ => h⟩

theorem Shrunk.trans {L M N : Lattice} (h : Shrunk L M) (h' : Shrunk M N) : Shrunk L N where
  stab := fun p hp => h.stab p (h'.stab p hp)
  edges := fun e he hs => h.edges e (h'.edges e he hs) (h'.stab _ hs)

theorem shrunk_loop {α : Type} {f : Lattice → α → Except Err Lattice} (hf : ∀ L a M, f L a = .ok M → Shrunk L M) :
    ∀ (as : List α) (L M : Lattice), loopE f L as = .ok M → Shrunk L M
  | [], L, M, h => by
    simp only [loopE, Except.ok.injEq] at h
    subst h
    exact .refl L
  | a :: as, L, M, h => by
    rw [loopE] at h
    cases h1 : f L a with
    | error x => rw [h1] at h; simp at h
    | ok L1 =>
      rw [h1] at h
      exact (hf _ _ _ h1).trans (shrunk_loop hf as _ _ h)

theorem removeEdge_shrunk {L M : Lattice} {e : LEdge} (h : L.removeEdge e = .ok M) : Shrunk L M := by
  unfold Lattice.removeEdge at h
  split at h
  · simp only [Except.ok.injEq] at h
    subst h
    exact ⟨fun _ h => h, fun e he _ => List.mem_of_mem_eraseP he⟩
  · simp at h

theorem removeVertex_shrunk {L M : Lattice} {p : Pos} (h : L.removeVertex p = .ok M) : Shrunk L M := by
  refine ⟨(removeVertex_edited h).stab, ?_⟩
  unfold Lattice.removeVertex at h
  split at h
  · simp at h
  · split at h
    · simp at h
    · simp only [Except.ok.injEq] at h
      subst h
      exact fun e he _ => he

theorem removePair_shrunk {L M : Lattice} {es : List LEdge} (h : L.removePair es = .ok M) : Shrunk L M := by
  unfold Lattice.removePair at h
  split at h
  · rename_i a b _
    cases h1 : L.removeEdge a with
    | error x => rw [h1] at h; simp at h
    | ok L1 =>
      rw [h1] at h
      exact (removeEdge_shrunk h1).trans (removeEdge_shrunk h)
  · simp at h

theorem removeStabilizer_shrunk {L M : Lattice} {p : Pos} (h : L.removeStabilizer p = .ok M) : Shrunk L M := by
  unfold Lattice.removeStabilizer at h
  cases h1 : loopE Lattice.removeEdge L (L.opEdges p) with
  | error x => rw [h1] at h; simp at h
  | ok L1 =>
    rw [h1] at h
    exact (shrunk_loop (fun _ _ _ => removeEdge_shrunk) _ _ _ h1).trans (removeVertex_shrunk h)

/-- Multiplying an operator that is not a stabiliser. -/
theorem mul_shrunk {k : Pos} : ∀ (es : List LEdge) (L M : Lattice), L.isStab k = false →
    loopE (Lattice.mulEdge k) L es = .ok M → Shrunk L M ∧ M.stabgens = L.stabgens
  | [], L, M, _, h => by
    simp only [loopE, Except.ok.injEq] at h
    subst h
    exact ⟨.refl L, rfl⟩
  | e :: es, L, M, hk, h => by
    rw [loopE] at h
    cases h1 : L.mulEdge k e with
    | error x => rw [h1] at h; simp at h
    | ok L1 =>
      rw [h1] at h
      have hst : Shrunk L L1 ∧ L1.stabgens = L.stabgens := by
        unfold Lattice.mulEdge at h1
        split at h1
        · split at h1
          · refine ⟨removeEdge_shrunk h1, ?_⟩
            unfold Lattice.removeEdge at h1
            split at h1
            · simp only [Except.ok.injEq] at h1; subst h1; rfl
            · simp at h1
          · simp at h1
        · unfold Lattice.addEdge at h1
          split at h1
          · simp at h1
          · simp only [Except.ok.injEq] at h1
            subst h1
            refine ⟨⟨fun _ h => h, fun e' he' hs => ?_⟩, rfl⟩
            rcases List.mem_append.mp he' with he' | he'
            · exact he'
            · rw [List.mem_singleton] at he'
              subst he'
              have hs : L.isStab k = true := hs
              rw [hk] at hs
              simp at hs
      have hk1 : L1.isStab k = false := by
        rw [← hk]; unfold Lattice.isStab; rw [hst.2]
      obtain ⟨h3, h4⟩ := mul_shrunk es L1 M hk1 h
      exact ⟨hst.1.trans h3, h4.trans hst.2⟩

theorem clear_shrunk {gs : List (Letter × List LEdge)} : ∀ (es : List LEdge) (L M : Lattice), (∀ e ∈ es, L.isStab e.op = false) →
    loopE (Lattice.clearLogical gs) L es = .ok M → Shrunk L M ∧ M.stabgens = L.stabgens
  | [], L, M, _, h => by
    simp only [loopE, Except.ok.injEq] at h
    subst h
    exact ⟨.refl L, rfl⟩
  | e :: es, L, M, hes, h => by
    rw [loopE] at h
    cases h1 : Lattice.clearLogical gs L e with
    | error x => rw [h1] at h; simp at h
    | ok L1 =>
      rw [h1] at h
      have hst : Shrunk L L1 ∧ L1.stabgens = L.stabgens := by
        unfold Lattice.clearLogical at h1
        split at h1
        · simp at h1
        · simp at h1
        · exact mul_shrunk _ _ _ (hes e (by simp)) h1
      have hk1 : ∀ e' ∈ es, L1.isStab e'.op = false := by
        intro e' he'
        rw [← hes e' (by simp [he'])]; unfold Lattice.isStab; rw [hst.2]
      obtain ⟨h3, h4⟩ := clear_shrunk es L1 M hk1 h
      exact ⟨hst.1.trans h3, h4.trans hst.2⟩

theorem group_length {gs : List (Letter × List LEdge)} (hn : (gs.map Prod.fst).Nodup)
    (hl : ∀ g ∈ gs, ∀ e ∈ g.2, e.factor = g.1) {g : Letter × List LEdge} (hg : g ∈ gs) :
    (gs.flatMap Prod.snd).countP (fun e => decide (e.factor = g.1)) = g.2.length := by
  induction gs with
  | nil => simp at hg
  | cons g0 gs ih =>
    rw [List.flatMap_cons, List.countP_append]
    rw [List.map_cons, List.nodup_cons] at hn
    rcases List.mem_cons.mp hg with rfl | hg'
    · have h1 : g.2.countP (fun e => decide (e.factor = g.1)) = g.2.length :=
        List.countP_eq_length.mpr fun e he => decide_eq_true (hl g hg e he)
      have h2 : (gs.flatMap Prod.snd).countP (fun e => decide (e.factor = g.1)) = 0 := by
        rw [List.countP_eq_zero]
        intro e he
        obtain ⟨g', hg', he⟩ := List.mem_flatMap.mp he
        rw [hl g' (by simp [hg']) e he, decide_eq_true_eq]
        intro hc
        exact hn.1 (hc ▸ List.mem_map_of_mem (f := Prod.fst) hg')
      omega
    · have h1 : g0.2.countP (fun e => decide (e.factor = g.1)) = 0 := by
        rw [List.countP_eq_zero]
        intro e he
        rw [hl g0 (by simp) e he, decide_eq_true_eq]
        intro hc
        exact hn.1 (hc ▸ List.mem_map_of_mem (f := Prod.fst) hg')
      rw [h1, ih hn.2 (fun g hg => hl g (by simp [hg])) hg']
      omega

/-- Removing a data qubit at the boundary, where some letter does not belong to two stabilisers. -/
theorem removeDataqubit_shrunk {L M : Lattice} {q : Pos} (hj : L.boundaryJoin = false) {c : Letter}
    (hc : L.edges.countP (fun e => decide (e.data = q) && L.isStab e.op && decide (e.factor = c)) ≠ 2)
    (hc0 : L.edges.countP (fun e => decide (e.data = q) && L.isStab e.op && decide (e.factor = c)) ≠ 0)
    (h : L.removeDataqubit q = .ok M) : Shrunk L M := by
  have hgr : ∃ g ∈ L.stabGroups q, g.2.length ≠ 2 := by
    have hs := stabGroups_spec L q
    obtain ⟨e, he, hp⟩ := List.countP_pos_iff.mp (Nat.pos_of_ne_zero hc0)
    simp only [Bool.and_eq_true, decide_eq_true_eq] at hp
    obtain ⟨g, hg, heg⟩ := group_of he hp.1.1 hp.1.2
    have hgc : g.1 = c := by rw [← hs.letter g hg e heg, hp.2]
    refine ⟨g, hg, ?_⟩
    rw [← group_length hs.nodup hs.letter hg, hs.perm.countP_eq, hgc]
    unfold Lattice.dataEdges
    rw [List.filter_filter, List.countP_filter]
    intro hh
    apply hc
    rw [← hh]
    refine List.countP_congr fun e _ => ?_
    simp only [Bool.and_eq_true, decide_eq_true_eq]
    tauto
  unfold Lattice.removeDataqubit at h
  dsimp only at h
  cases h1 : loopE (Lattice.clearLogical (L.stabGroups q)) L ((L.dataEdges q).filter fun e => !L.isStab e.op) with
  | error x => rw [h1] at h; simp at h
  | ok L1 =>
    rw [h1] at h
    dsimp only at h
    obtain ⟨s1, _⟩ := clear_shrunk _ _ _ (by
      intro e he
      simpa using (List.mem_filter.mp he).2) h1
    have hj1 : L1.boundaryJoin = false := by
      rw [← hj]
      have key : ∀ (es : List LEdge) (A B : Lattice), loopE (Lattice.clearLogical (L.stabGroups q)) A es = .ok B →
          B.boundaryJoin = A.boundaryJoin := by
        have k2 : ∀ (k : Pos) (es : List LEdge) (A B : Lattice), loopE (Lattice.mulEdge k) A es = .ok B →
            B.boundaryJoin = A.boundaryJoin := by
          intro k es
          induction es with
          | nil => intro A B hh; simp only [loopE, Except.ok.injEq] at hh; rw [hh]
          | cons e es ih =>
            intro A B hh
            rw [loopE] at hh
            cases h2 : A.mulEdge k e with
            | error x => rw [h2] at hh; simp at hh
            | ok A1 =>
              rw [h2] at hh
              rw [ih _ _ hh]
              unfold Lattice.mulEdge at h2
              split at h2
              · split at h2
                · unfold Lattice.removeEdge at h2
                  split at h2
                  · simp only [Except.ok.injEq] at h2; rw [← h2]
                  · simp at h2
                · simp at h2
              · unfold Lattice.addEdge at h2
                split at h2
                · simp at h2
                · simp only [Except.ok.injEq] at h2; rw [← h2]
        intro es
        induction es with
        | nil => intro A B hh; simp only [loopE, Except.ok.injEq] at hh; rw [hh]
        | cons e es ih =>
          intro A B hh
          rw [loopE] at hh
          cases h2 : Lattice.clearLogical (L.stabGroups q) A e with
          | error x => rw [h2] at hh; simp at hh
          | ok A1 =>
            rw [h2] at hh
            rw [ih _ _ hh]
            unfold Lattice.clearLogical at h2
            split at h2
            · simp at h2
            · simp at h2
            · exact k2 _ _ _ _ h2
      exact key _ _ _ h1
    cases h2 : L1.handleGroups ((L.stabGroups q).map Prod.snd) with
    | error x => rw [h2] at h; simp at h
    | ok L2 =>
      rw [h2] at h
      refine (s1.trans ?_).trans (removeVertex_shrunk h)
      unfold Lattice.handleGroups at h2
      rw [if_neg, hj1, if_neg (by simp)] at h2
      · refine shrunk_loop (fun _ es _ h => ?_) _ _ _ h2
        unfold Lattice.boundaryRemove at h
        split at h
        · exact removeStabilizer_shrunk h
        · exact removePair_shrunk h
        · simp at h
      · obtain ⟨g, hg, hne⟩ := hgr
        intro hall
        rw [List.all_eq_true] at hall
        have := hall g.2 (List.mem_map_of_mem (f := Prod.snd) hg)
        exact hne (of_decide_eq_true this)

/-! ### The gates of a circuit without errors -/

/-- The controlled gates belong to edges with a time step, if the lattice has time steps, or to logical operators. -/
theorem quiet_controlled {L : Lattice} {T : Nat} (hT : L.timeSteps = some T) {anc : Bool} {r : Nat} {as : List Pos}
    {g : Name × List (Val F)} (hg : g ∈ (L.quietGates anc r as : List (Name × List (Val F)))) :
    (∃ nm i, (nm = .H ∨ nm = .R ∨ nm = .M) ∧ g = g1 nm i) ∨ ∃ e ∈ L.edges, g = ctl L.idx e ∧ (e.step ≠ none ∨ e.op ∈ as) := by
  have hb : ∀ (ps : List Pos) (es : List LEdge), g ∈ (blockGates L.idx ps es : List (Name × List (Val F))) →
      (∃ nm i, (nm = .H ∨ nm = .R ∨ nm = .M) ∧ g = g1 nm i) ∨ ∃ e ∈ es, g = ctl L.idx e := by
    intro ps es h
    unfold blockGates at h
    simp only [List.mem_append, List.mem_flatMap, List.mem_map, List.mem_cons, List.not_mem_nil, or_false] at h
    rcases h with ⟨a, _, h | h⟩ | ⟨e, he, h⟩ | ⟨a, _, h | h⟩
    · exact Or.inl ⟨.R, a, by simp, h⟩
    · exact Or.inl ⟨.H, a, by simp, h⟩
    · exact Or.inr ⟨e, he, h.symm⟩
    · exact Or.inl ⟨.H, a, by simp, h⟩
    · exact Or.inl ⟨.M, a, by simp, h⟩
  have hl : g ∈ (if anc then L.logGates as else L.directGates as : List (Name × List (Val F))) →
      (∃ nm i, (nm = .H ∨ nm = .R ∨ nm = .M) ∧ g = g1 nm i) ∨ ∃ e ∈ L.edges, g = ctl L.idx e ∧ (e.step ≠ none ∨ e.op ∈ as) := by
    intro h
    cases anc with
    | true =>
      simp only [if_true, Lattice.logGates, List.mem_flatMap] at h
      obtain ⟨a, ha, h⟩ := h
      rcases hb _ _ h with h | ⟨e, he, h⟩
      · exact Or.inl h
      · obtain ⟨he, hop⟩ := mem_opEdges.mp he
        exact Or.inr ⟨e, he, h, Or.inr (hop ▸ ha)⟩
    | false =>
      simp only [Bool.false_eq_true, if_false, Lattice.directGates, List.mem_flatMap] at h
      obtain ⟨a, ha, e, he, h⟩ := h
      split at h
      · simp only [List.mem_cons, List.not_mem_nil, or_false] at h
        rcases h with h | h
        · exact Or.inl ⟨.H, _, by simp, h⟩
        · exact Or.inl ⟨.M, _, by simp, h⟩
      · simp only [List.mem_cons, List.not_mem_nil, or_false] at h
        exact Or.inl ⟨.M, _, by simp, h⟩
  unfold Lattice.quietGates at hg
  rcases List.mem_append.mp hg with hg | hg
  · rcases List.mem_append.mp hg with hg | hg
    · exact hl hg
    · obtain ⟨l, h1, h2⟩ := List.mem_flatten.mp hg
      rw [List.eq_of_mem_replicate h1] at h2
      unfold Lattice.roundGates Lattice.stabBlocks at h2
      rw [hT] at h2
      simp only [List.flatMap_cons, List.flatMap_nil, List.append_nil] at h2
      rcases hb _ _ h2 with h | ⟨e, he, h⟩
      · exact Or.inl h
      · obtain ⟨he, k, hk, _⟩ := Lattice.mem_stepEdges.mp he
        exact Or.inr ⟨e, he, h, Or.inl (by simp [hk])⟩
  · exact hl hg

end Plaquette
