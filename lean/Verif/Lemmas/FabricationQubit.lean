import Verif.Lemmas.Fabrication

/-!
# Removing data qubits
-/

namespace Plaquette

/-! ### Moving the logical operators away -/

/-- Logical operators have been multiplied by stabilisers. -/
structure Cleared (L M : Lattice) : Prop where
  same : SameVertices L M
  pre : M.Pre
  comm : M.Comm
  stab : ∀ v, L.isStab v = true → M.opEdges v = L.opEdges v

theorem isStab_same {L M : Lattice} (h : SameVertices L M) (v : Pos) : M.isStab v = L.isStab v := by
  unfold Lattice.isStab; rw [h.stabs]

theorem clearLogical_spec {L M M' : Lattice} {q : Pos} (h : Cleared L M) {e : LEdge} (he : L.isStab e.op = false)
    (hm : M.clearLogical (L.stabGroups q) e = .ok M') : Cleared L M' := by
  unfold Lattice.clearLogical at hm
  split at hm
  · simp at hm
  · simp at hm
  · rename_i l s es hf
    have hg := List.mem_of_find?_eq_some hf
    have hs := mem_group hg (e := s) (by simp)
    have st := multiplyLogical_step h.pre.keys hm
    have hs' : M.isStab s.op = true := by rw [isStab_same h.same]; exact hs.2.2.1
    have he' : M.isStab e.op = false := by rw [isStab_same h.same]; exact he
    refine ⟨h.same.trans st.same, st.pre h.pre (fun x hx => (mem_opEdges.mp hx).1), comm_mul h.pre h.comm he' hs' st, ?_⟩
    intro v hv
    have hne : v ≠ e.op := by rintro rfl; rw [he] at hv; simp at hv
    rw [st.others v hne id, h.stab v hv]

theorem clear_loop {L : Lattice} {q : Pos} (es : List LEdge) (hes : ∀ e ∈ es, L.isStab e.op = false) :
    ∀ M M', Cleared L M → loopE (Lattice.clearLogical (L.stabGroups q)) M es = .ok M' → Cleared L M' := by
  induction es with
  | nil =>
    intro M M' h hm
    simp only [loopE, Except.ok.injEq] at hm
    exact hm ▸ h
  | cons e es ih =>
    intro M M' h hm
    rw [loopE] at hm
    cases h1 : M.clearLogical (L.stabGroups q) e with
    | error x => rw [h1] at hm; simp at hm
    | ok M1 =>
      rw [h1] at hm
      exact ih (fun e he => hes e (by simp [he])) M1 M' (clearLogical_spec h (hes e (by simp)) h1) hm

/-! ### Data qubits inside of the lattice -/

/-- What is kept by every step. -/
structure Kept (L M : Lattice) : Prop where
  pre : M.Pre
  comm : M.Comm
  logs : M.logicals = L.logicals
  gauge : M.keepGauge = L.keepGauge
  join : M.boundaryJoin = L.boundaryJoin

theorem superstab_loop {L : Lattice} (gs : List (List LEdge)) (hgs : ∀ a b, [a, b] ∈ gs → a.op ≠ b.op) :
    ∀ M M', Kept L M → loopE Lattice.superstabFromEdges M gs = .ok M' → Kept L M' := by
  induction gs with
  | nil =>
    intro M M' h hm
    simp only [loopE, Except.ok.injEq] at hm
    exact hm ▸ h
  | cons g gs ih =>
    intro M M' h hm
    rw [loopE] at hm
    cases h1 : M.superstabFromEdges g with
    | error x => rw [h1] at hm; simp at hm
    | ok M1 =>
      rw [h1] at hm
      refine ih (fun a b hab => hgs a b (by simp [hab])) M1 M' ?_ hm
      unfold Lattice.superstabFromEdges at h1
      split at h1
      · rename_i a b
        obtain ⟨p, c, l, g, j, _⟩ := createSuperstab_spec h.pre h.comm (hgs a b (by simp)) h1
        exact ⟨p, c, l.trans h.logs, g.trans h.gauge, j.trans h.join⟩
      · simp at h1

theorem pair_ops {L : Lattice} (hp : L.Pre) {q : Pos} {a b : LEdge} {g : Letter × List LEdge} (hg : g ∈ L.stabGroups q)
    (hab : g.2 = [a, b]) : a.op ≠ b.op := by
  have ha := mem_group hg (e := a) (by simp [hab])
  have hb := mem_group hg (e := b) (by simp [hab])
  intro hop
  have heq : a = b := List.inj_on_of_nodup_map hp.keys ha.1 hb.1 (by simp [LEdge.key, hop, ha.2.1, hb.2.1])
  have h := stabGroups_spec L q
  have hn : ((L.stabGroups q).flatMap Prod.snd).Nodup :=
    h.perm.nodup_iff.mpr (List.Nodup.sublist ((List.filter_sublist).trans List.filter_sublist) (List.Nodup.of_map _ hp.keys))
  rw [List.nodup_flatMap] at hn
  have := hn.1 g hg
  rw [hab, heq] at this
  simp at this

/-! ### Data qubits at the boundary -/

/-- Edges at `q` and stabilisers have been removed. -/
structure Thin (q : Pos) (M M' : Lattice) : Prop where
  edges : M'.edges.Sublist M.edges
  stabs : M'.stabgens.Sublist M.stabgens
  logs : M'.logicals = M.logicals
  gauge : M'.keepGauge = M.keepGauge
  join : M'.boundaryJoin = M.boundaryJoin
  pre : M'.Pre
  lost : ∀ e ∈ M.edges, e ∉ M'.edges → e.op ∉ M.logicals.map Prod.fst ∧ (e.data = q ∨ M'.isStab e.op = false)

theorem isStab_sub {M M' : Lattice} (h : M'.stabgens.Sublist M.stabgens) {v : Pos} (hv : M.isStab v = false) :
    M'.isStab v = false := by
  rw [Lattice.isStab, List.any_eq_false] at hv ⊢
  exact fun s hs => hv s (h.subset hs)

theorem Thin.refl {M : Lattice} (h : M.Pre) (q : Pos) : Thin q M M :=
  ⟨.refl _, .refl _, rfl, rfl, rfl, h, fun _ he hn => absurd he hn⟩

theorem Thin.trans {q : Pos} {M M' M'' : Lattice} (h : Thin q M M') (h' : Thin q M' M'') : Thin q M M'' where
  edges := h'.edges.trans h.edges
  stabs := h'.stabs.trans h.stabs
  logs := h'.logs.trans h.logs
  gauge := h'.gauge.trans h.gauge
  join := h'.join.trans h.join
  pre := h'.pre
  lost := by
    intro e he hn
    by_cases hm : e ∈ M'.edges
    · have := h'.lost e hm hn
      rw [h.logs] at this
      exact this
    · obtain ⟨h1, h2⟩ := h.lost e he hm
      exact ⟨h1, h2.imp id (isStab_sub h'.stabs)⟩

theorem removeEdge_pre {M M' : Lattice} (hp : M.Pre) {e : LEdge} (h : M.removeEdge e = .ok M') : M'.Pre := by
  obtain ⟨rfl, _⟩ := removeEdge_spec hp.keys h
  exact ⟨hp.occ, List.Nodup.sublist (List.filter_sublist.map _) hp.keys, fun x hx => hp.data x (List.mem_filter.mp hx).1,
    fun x hx => hp.xz x (List.mem_filter.mp hx).1⟩

theorem removeEdge_thin {M M' : Lattice} (hp : M.Pre) {e : LEdge} {q : Pos} (hd : e.data = q)
    (hl : e.op ∉ M.logicals.map Prod.fst) (h : M.removeEdge e = .ok M') : Thin q M M' := by
  have hp' := removeEdge_pre hp h
  obtain ⟨rfl, _⟩ := removeEdge_spec hp.keys h
  refine ⟨List.filter_sublist, .refl _, rfl, rfl, rfl, hp', ?_⟩
  intro x hx hn
  have hk : x.key = e.key := by
    by_contra hc
    exact hn (List.mem_filter.mpr ⟨hx, by simpa using hc⟩)
  simp only [LEdge.key, Prod.mk.injEq] at hk
  exact ⟨hk.1 ▸ hl, Or.inl (hk.2.trans hd)⟩

/-- Removing the edges of an operator. -/
theorem removeEdges_spec (es : List LEdge) : ∀ M M' : Lattice, M.Pre → loopE Lattice.removeEdge M es = .ok M' →
    M'.Pre ∧ M' = { M with edges := M.edges.filter fun x => x.key ∉ es.map LEdge.key } := by
  induction es with
  | nil =>
    intro M M' hp hm
    simp only [loopE, Except.ok.injEq] at hm
    subst hm
    exact ⟨hp, by simp⟩
  | cons e es ih =>
    intro M M' hp hm
    rw [loopE] at hm
    cases h1 : M.removeEdge e with
    | error x => rw [h1] at hm; simp at hm
    | ok M1 =>
      rw [h1] at hm
      obtain ⟨hp', hM'⟩ := ih M1 M' (removeEdge_pre hp h1) hm
      refine ⟨hp', ?_⟩
      obtain ⟨rfl, _⟩ := removeEdge_spec hp.keys h1
      rw [hM']
      simp only [List.filter_filter]
      congr 1
      apply List.filter_congr
      intro x _
      simp only [List.map_cons, List.mem_cons, not_or]
      by_cases hc : x.key = e.key <;> by_cases hd : x.key ∈ es.map LEdge.key <;> simp [hc, hd]

theorem removeStabilizer_thin {M M' : Lattice} (hp : M.Pre) {s q : Pos} (hl : s ∉ M.logicals.map Prod.fst)
    (h : M.removeStabilizer s = .ok M') : Thin q M M' ∧ M'.isStab s = false := by
  unfold Lattice.removeStabilizer at h
  cases h1 : loopE Lattice.removeEdge M (M.opEdges s) with
  | error x => rw [h1] at h; simp at h
  | ok M1 =>
    rw [h1] at h
    simp only at h
    obtain ⟨hp1, hM1⟩ := removeEdges_spec _ M M1 hp h1
    have hp2 := removeVertex_pre hp1 h
    obtain ⟨_, _, rfl⟩ := removeVertex_spec h
    have hst : Lattice.isStab { M1 with
      dataqubits := M1.dataqubits.filter (· ≠ s)
      stabgens := M1.stabgens.filter (·.1 ≠ s)
      logicals := M1.logicals.filter (·.1 ≠ s)
      equbits := M1.equbits.filter (· ≠ s) } s = false := by
      rw [Lattice.isStab, List.any_eq_false]
      intro x hx
      simpa using (List.mem_filter.mp hx).2
    refine ⟨⟨?_, ?_, ?_, ?_, ?_, hp2, ?_⟩, hst⟩
    · rw [hM1]; exact List.filter_sublist
    · rw [hM1]; exact List.filter_sublist
    · rw [hM1]; exact filter_of_not_mem hl
    · rw [hM1]
    · rw [hM1]
    · intro e he hn
      have hk : e.key ∈ (M.opEdges s).map LEdge.key := by
        by_contra hc
        apply hn
        rw [hM1]
        exact List.mem_filter.mpr ⟨he, by simpa using hc⟩
      obtain ⟨x, hx, hxk⟩ := List.mem_map.mp hk
      have hop : e.op = s := by
        have h2 := (mem_opEdges.mp hx).2
        simp only [LEdge.key, Prod.mk.injEq] at hxk
        exact hxk.1 ▸ h2
      rw [hop]
      exact ⟨hl, Or.inr hst⟩

theorem boundaryRemove_thin {M M' : Lattice} (hp : M.Pre) {q : Pos} {es : List LEdge}
    (hes : ∀ e ∈ es, e.data = q ∧ e.op ∉ M.logicals.map Prod.fst) (h : M.boundaryRemove es = .ok M') :
    Thin q M M' ∧ ((∃ a, es = [a] ∧ M'.isStab a.op = false) ∨ es.length = 2) := by
  unfold Lattice.boundaryRemove at h
  split at h
  · rename_i a
    obtain ⟨h1, h2⟩ := removeStabilizer_thin (q := q) hp (hes a (by simp)).2 h
    exact ⟨h1, Or.inl ⟨a, rfl, h2⟩⟩
  · rename_i a b
    refine ⟨?_, Or.inr rfl⟩
    unfold Lattice.removePair at h
    simp only at h
    cases h1 : M.removeEdge a with
    | error x => rw [h1] at h; simp at h
    | ok M1 =>
      rw [h1] at h
      simp only at h
      have t1 := removeEdge_thin hp (hes a (by simp)).1 (hes a (by simp)).2 h1
      have t2 := removeEdge_thin t1.pre (hes b (by simp)).1 (by rw [t1.logs]; exact (hes b (by simp)).2) h
      exact t1.trans t2
  · simp at h

theorem boundary_loop {q : Pos} (gs : List (List LEdge)) : ∀ M M' : Lattice, M.Pre →
    (∀ es ∈ gs, ∀ e ∈ es, e.data = q ∧ e.op ∉ M.logicals.map Prod.fst) → loopE Lattice.boundaryRemove M gs = .ok M' →
    Thin q M M' ∧ ∀ es ∈ gs, (∃ a, es = [a] ∧ M'.isStab a.op = false) ∨ es.length = 2 := by
  induction gs with
  | nil =>
    intro M M' hp _ hm
    simp only [loopE, Except.ok.injEq] at hm
    subst hm
    exact ⟨Thin.refl hp q, by simp⟩
  | cons g gs ih =>
    intro M M' hp hes hm
    rw [loopE] at hm
    cases h1 : M.boundaryRemove g with
    | error x => rw [h1] at hm; simp at hm
    | ok M1 =>
      rw [h1] at hm
      obtain ⟨t1, c1⟩ := boundaryRemove_thin hp (hes g (by simp)) h1
      obtain ⟨t2, c2⟩ := ih M1 M' t1.pre (by rw [t1.logs]; exact fun es he => hes es (by simp [he])) hm
      refine ⟨t1.trans t2, ?_⟩
      intro es he
      rcases List.mem_cons.mp he with rfl | he
      · exact c1.imp (fun ⟨a, h1, h2⟩ => ⟨a, h1, isStab_sub t2.stabs h2⟩) id
      · exact c2 es he

/-- Leaving out the edges at a data qubit where both operators have the same letter. -/
theorem antiE_filter {A B : List LEdge} {q : Pos}
    (h : ∀ a ∈ A, ∀ b ∈ B, a.data = q → b.data = q → a.factor = b.factor) :
    antiE (A.filter fun e => e.data ≠ q) (B.filter fun e => e.data ≠ q) = antiE A B := by
  unfold antiE
  rw [xorSum_filter]
  refine xorSum_congr fun a ha => ?_
  rw [xorSum_filter]
  by_cases hq : a.data = q
  · simp only [hq, ne_eq, not_true_eq_false, decide_false, Bool.false_and]
    symm
    refine xorSum_false fun b hb => ?_
    by_cases hbq : b.data = q
    · simp [pairAnti, h a ha b hb hq hbq]
    · simp [pairAnti, hq, Ne.symm hbq]
  · simp only [ne_eq, hq, not_false_eq_true, decide_true, Bool.true_and]
    refine xorSum_congr fun b hb => ?_
    by_cases hbq : b.data = q
    · have : a.data ≠ b.data := by rw [hbq]; exact hq
      simp [pairAnti, this]
    · simp [hbq]

theorem antiE_perm {A A' B B' : List LEdge} (h : A.Perm A') (h' : B.Perm B') : antiE A B = antiE A' B' := by
  rw [antiE_perm_left h, antiE_symm, antiE_perm_left h', antiE_symm]

/-! ### `remove_dataqubit` -/

theorem removeDataqubit_kept {L L' : Lattice} (hp : L.Pre) (hc : L.Comm) (hg : L.keepGauge = "none".toList)
    (hj : L.boundaryJoin = false) {q : Pos} (hq : q ∉ L.logicals.map Prod.fst) (h : L.removeDataqubit q = .ok L') :
    Kept L L' := by
  unfold Lattice.removeDataqubit at h
  dsimp only at h
  cases h1 : loopE (Lattice.clearLogical (L.stabGroups q)) L ((L.dataEdges q).filter fun e => !L.isStab e.op) with
  | error x => rw [h1] at h; simp at h
  | ok L1 =>
    rw [h1] at h
    simp only at h
    have cl : Cleared L L1 := by
      refine clear_loop _ ?_ L L1 ⟨SameVertices.refl L, hp, hc, fun _ _ => rfl⟩ h1
      intro e he
      simpa using (List.mem_filter.mp he).2
    cases h2 : L1.handleGroups ((L.stabGroups q).map Prod.snd) with
    | error x => rw [h2] at h; simp at h
    | ok L2 =>
      rw [h2] at h
      simp only at h
      unfold Lattice.handleGroups at h2
      rw [cl.same.gauge, cl.same.join, hg, hj] at h2
      split at h2
      · -- super-stabilisers
        rw [if_pos rfl] at h2
        have k : Kept L L2 := by
          refine superstab_loop _ ?_ L1 L2 ⟨cl.pre, cl.comm, cl.same.logs, cl.same.gauge, cl.same.join⟩ h2
          intro a b hab
          obtain ⟨g, hgm, hg2⟩ := List.mem_map.mp hab
          exact pair_ops hp hgm hg2
        have hp3 := removeVertex_pre k.pre h
        obtain ⟨_, _, rfl⟩ := removeVertex_spec h
        have hlog : L2.logicals.filter (·.1 ≠ q) = L2.logicals := filter_of_not_mem (by rw [k.logs]; exact hq)
        refine ⟨hp3, ⟨?_, ?_, ?_⟩, hlog.trans k.logs, k.gauge, k.join⟩
        · intro s hs t ht
          exact k.comm.stab_stab s (List.mem_filter.mp hs).1 t (List.mem_filter.mp ht).1
        · intro s hs t ht
          exact k.comm.stab_log s (List.mem_filter.mp hs).1 t (List.mem_filter.mp ht).1
        · intro i j a b hi hj
          have hi : (L2.logicals.filter (·.1 ≠ q))[i]? = some a := hi
          have hj : (L2.logicals.filter (·.1 ≠ q))[j]? = some b := hj
          rw [hlog] at hi hj
          exact k.comm.log_log i j a b hi hj
      · -- boundary
        rename_i hall
        rw [if_neg (by simp)] at h2
        have hgrp : ∀ es ∈ (L.stabGroups q).map Prod.snd, ∀ e ∈ es, e.data = q ∧ e.op ∉ L1.logicals.map Prod.fst := by
          intro es hes e he
          obtain ⟨g, hgm, rfl⟩ := List.mem_map.mp hes
          have := mem_group hgm he
          exact ⟨this.2.1, by rw [cl.same.logs]; exact hp.stab_not_log this.2.2.1⟩
        obtain ⟨th, cases2⟩ := boundary_loop _ L1 L2 cl.pre hgrp h2
        have hp3 := removeVertex_pre th.pre h
        obtain ⟨hnoq, _, rfl⟩ := removeVertex_spec h
        have hlog : L2.logicals.filter (·.1 ≠ q) = L1.logicals := by
          rw [th.logs]; exact filter_of_not_mem (by rw [cl.same.logs]; exact hq)
        -- the operators that are left
        have hperm : ∀ u, (L2.isStab u = true ∨ u ∈ L1.logicals.map Prod.fst) →
            (L2.opEdges u).Perm ((L1.opEdges u).filter fun e => e.data ≠ q) := by
          intro u hu
          rw [List.perm_ext_iff_of_nodup (List.Nodup.of_map _ (th.pre.keys.op_nodup u))
            (List.Nodup.filter _ (List.Nodup.of_map _ (cl.pre.keys.op_nodup u)))]
          intro e
          rw [List.mem_filter, mem_opEdges, mem_opEdges]
          constructor
          · rintro ⟨he, ho⟩
            exact ⟨⟨th.edges.subset he, ho⟩, by simpa using (hnoq e he).2⟩
          · rintro ⟨⟨he, ho⟩, hd⟩
            refine ⟨?_, ho⟩
            by_contra hn
            obtain ⟨a1, a2⟩ := th.lost e he hn
            rw [ho] at a1 a2
            rcases a2 with a2 | a2
            · simp [a2] at hd
            · rcases hu with hu | hu
              · rw [hu] at a2; simp at a2
              · exact a1 hu
        have hgroup : ∀ u, (L2.isStab u = true ∨ u ∈ L1.logicals.map Prod.fst) → ∀ a ∈ L1.opEdges u, a.data = q →
            ∃ g ∈ L.stabGroups q, g.2.length = 2 ∧ a.factor = g.1 := by
          intro u hu a ha had
          obtain ⟨hae, hao⟩ := mem_opEdges.mp ha
          have hn : a ∉ L2.edges := fun hh => (hnoq a hh).2 had
          have hnl := (th.lost a hae hn).1
          rw [hao] at hnl
          have hu2 := hu.resolve_right hnl
          obtain ⟨s, hs, hsu⟩ := isStab_mem hu2
          have hsL : L.isStab u = true := by
            rw [← isStab_same cl.same, ← hsu]
            exact mem_isStab (th.stabs.subset hs)
          rw [cl.stab u hsL] at ha
          obtain ⟨hae', _⟩ := mem_opEdges.mp ha
          obtain ⟨g, hg1, hg2⟩ := group_of hae' had (by rw [hao]; exact hsL)
          refine ⟨g, hg1, ?_, (mem_group hg1 hg2).2.2.2⟩
          rcases cases2 g.2 (List.mem_map_of_mem hg1) with ⟨x, hx, hx2⟩ | hx
          · rw [hx, List.mem_singleton] at hg2
            rw [← hg2, hao, hu2] at hx2
            simp at hx2
          · exact hx
        have hlet : ∀ u v, (L2.isStab u = true ∨ u ∈ L1.logicals.map Prod.fst) →
            (L2.isStab v = true ∨ v ∈ L1.logicals.map Prod.fst) →
            antiE (L2.opEdges u) (L2.opEdges v) = antiE (L1.opEdges u) (L1.opEdges v) := by
          intro u v hu hv
          rw [antiE_perm (hperm u hu) (hperm v hv)]
          refine antiE_filter ?_
          intro a ha b hb had hbd
          obtain ⟨g, hg1, hg2, hg3⟩ := hgroup u hu a ha had
          obtain ⟨g', hg1', hg2', hg3'⟩ := hgroup v hv b hb hbd
          rw [hg3, hg3']
          by_contra hne
          apply hall
          rw [List.all_eq_true]
          intro es hes
          obtain ⟨g'', hg'', rfl⟩ := List.mem_map.mp hes
          rcases groups_two hp q hg1 hg1' hg'' hne with rfl | rfl
          · simpa using hg2
          · simpa using hg2'
        refine ⟨hp3, ⟨?_, ?_, ?_⟩, hlog.trans cl.same.logs, th.gauge.trans cl.same.gauge, th.join.trans cl.same.join⟩
        · intro s hs t ht
          have hs := (List.mem_filter.mp hs).1
          have ht := (List.mem_filter.mp ht).1
          exact (hlet _ _ (Or.inl (mem_isStab hs)) (Or.inl (mem_isStab ht))).trans
            (cl.comm.stab_stab s (th.stabs.subset hs) t (th.stabs.subset ht))
        · intro s hs t ht
          have hs := (List.mem_filter.mp hs).1
          have ht : t ∈ L2.logicals.filter (·.1 ≠ q) := ht
          rw [hlog] at ht
          exact (hlet _ _ (Or.inl (mem_isStab hs)) (Or.inr (List.mem_map_of_mem ht))).trans
            (cl.comm.stab_log s (th.stabs.subset hs) t ht)
        · intro i j a b hi hj
          have hi : (L2.logicals.filter (·.1 ≠ q))[i]? = some a := hi
          have hj : (L2.logicals.filter (·.1 ≠ q))[j]? = some b := hj
          rw [hlog] at hi hj
          exact (hlet _ _ (Or.inr (List.mem_map_of_mem (List.mem_of_getElem? hi)))
            (Or.inr (List.mem_map_of_mem (List.mem_of_getElem? hj)))).trans (cl.comm.log_log i j a b hi hj)

/-! ### `apply_fabrication_errors` -/

theorem remove_loop {L : Lattice} (hg : L.keepGauge = "none".toList) (hj : L.boundaryJoin = false) (qs : List Pos)
    (hqs : ∀ q ∈ qs, q ∉ L.logicals.map Prod.fst) :
    ∀ M M', Kept L M → loopE Lattice.removeDataqubit M qs = .ok M' → Kept L M' := by
  induction qs with
  | nil =>
    intro M M' h hm
    simp only [loopE, Except.ok.injEq] at hm
    exact hm ▸ h
  | cons q qs ih =>
    intro M M' h hm
    rw [loopE] at hm
    cases h1 : M.removeDataqubit q with
    | error x => rw [h1] at hm; simp at hm
    | ok M1 =>
      rw [h1] at hm
      have k := removeDataqubit_kept h.pre h.comm (h.gauge.trans hg) (h.join.trans hj)
        (by rw [h.logs]; exact hqs q (by simp)) h1
      exact ih (fun q hq => hqs q (by simp [hq])) M1 M'
        ⟨k.pre, k.comm, k.logs.trans h.logs, k.gauge.trans h.gauge, k.join.trans h.join⟩ hm

theorem mapLoop_mem {α β : Type} {f : α → Except Err β} : ∀ {l : List α} {r : List β}, mapLoop f l = .ok r →
    ∀ b ∈ r, ∃ a ∈ l, f a = .ok b := by
  intro l
  induction l with
  | nil =>
    intro r h b hb
    simp only [mapLoop, Except.ok.injEq] at h
    subst h; simp at hb
  | cons a l ih =>
    intro r h b hb
    rw [mapLoop] at h
    cases h1 : f a with
    | error x => rw [h1] at h; simp at h
    | ok c =>
      rw [h1] at h
      simp only at h
      cases h2 : mapLoop f l with
      | error x => rw [h2] at h; simp at h
      | ok r' =>
        rw [h2] at h
        simp only [Except.ok.injEq] at h
        subst h
        rcases List.mem_cons.mp hb with rfl | hb
        · exact ⟨a, by simp, h1⟩
        · obtain ⟨x, hx, hf⟩ := ih h2 b hb
          exact ⟨x, by simp [hx], hf⟩

theorem resolveData_mem {L : Lattice} {r : VertexRef} {q : Pos} (h : L.resolveData r = .ok q) : q ∈ L.dataqubits := by
  unfold Lattice.resolveData at h
  split at h
  · simp at h
  · split at h
    · rename_i hm
      simp only [Except.ok.injEq] at h
      exact h ▸ hm
    · simp at h
  · simp at h

theorem toRemove_mem {L : Lattice} (hd : ∀ e ∈ L.edges, e.data ∈ L.dataqubits) {qubits : List VertexRef}
    {gates : List (VertexRef × VertexRef)} {stabs : List VertexRef} {qs : List Pos}
    (h : L.toRemove qubits gates stabs = .ok qs) : ∀ q ∈ qs, q ∈ L.dataqubits := by
  unfold Lattice.toRemove at h
  split at h
  · simp at h
  rename_i a ha
  split at h
  · simp at h
  rename_i b hb
  split at h
  · simp at h
  rename_i c hc
  simp only [Except.ok.injEq] at h
  subst h
  intro q hq
  rw [List.mem_mergeSort, List.mem_dedup, List.mem_append, List.mem_append] at hq
  rcases hq with (hq | hq) | hq
  · obtain ⟨x, _, hx⟩ := mapLoop_mem ha q hq
    exact resolveData_mem hx
  · obtain ⟨x, _, hx⟩ := mapLoop_mem hb q hq
    unfold Lattice.gateQubit at hx
    split at hx
    · simp at hx
    split at hx
    · simp at hx
    rename_i y hy
    split at hx
    · simp only [Except.ok.injEq] at hx
      exact hx ▸ resolveData_mem hy
    · simp at hx
  · obtain ⟨l, hl, hq⟩ := List.mem_flatten.mp hq
    obtain ⟨x, _, hx⟩ := mapLoop_mem hc l hl
    unfold Lattice.stabQubits at hx
    split at hx
    · simp at hx
    simp only [Except.ok.injEq] at hx
    subst hx
    obtain ⟨e, he, rfl⟩ := List.mem_map.mp hq
    exact hd e (mem_opEdges.mp he).1

theorem applyFabrication_spec {L L' : Lattice} (hw : L.Wf) (hc : L.Comm) (hy : ∀ e ∈ L.edges, e.factor ≠ .Y)
    {qubits : List VertexRef} {gates : List (VertexRef × VertexRef)} {stabs : List VertexRef}
    {kg : Option (List Char)} {bj : Option Bool} (hg : kg.getD L.keepGauge = "none".toList)
    (hj : bj.getD L.boundaryJoin = false) (h : L.applyFabrication qubits gates stabs kg bj = .ok L') :
    L'.Wf ∧ L'.Comm ∧ (∀ e ∈ L'.edges, e.factor ≠ .Y) ∧ L'.keepGauge = "none".toList ∧ L'.boundaryJoin = false ∧
      L'.logicals = L.logicals := by
  unfold Lattice.applyFabrication at h
  dsimp only at h
  rw [hg, hj] at h
  split at h
  · simp at h
  rename_i qs hqs
  split at h
  · simp at h
  rename_i M hM
  simp only [Except.ok.injEq] at h
  subst h
  have hp : Lattice.Pre { L with keepGauge := "none".toList, boundaryJoin := false } := ⟨hw.occ, hw.keys, hw.data, hy⟩
  have hc' : Lattice.Comm { L with keepGauge := "none".toList, boundaryJoin := false } :=
    ⟨hc.stab_stab, hc.stab_log, hc.log_log⟩
  have k := remove_loop (L := { L with keepGauge := "none".toList, boundaryJoin := false }) rfl rfl qs
    (fun q hq => hp.data_not_log (toRemove_mem hw.data hqs q hq)) _ M ⟨hp, hc', rfl, rfl, rfl⟩ hM
  refine ⟨⟨k.pre.occ, rfl, k.pre.keys, k.pre.data⟩, ⟨k.comm.stab_stab, k.comm.stab_log, k.comm.log_log⟩, k.pre.xz, k.gauge,
    k.join, k.logs⟩

end Plaquette
