import Verif.Lemmas.FabricationQubit

/-!
# When data qubits can be removed

In lattices in which every operator has a single letter, the steps of `remove_dataqubit` do not break off.
-/

namespace Plaquette

/-- The operator `k` acts on the data qubit `d` with the letter `c`. -/
def Lattice.At (L : Lattice) (k d : Pos) (c : Letter) : Bool := xorSum (L.opEdges k) fun e => decide (e.data = d ∧ e.factor = c)

theorem xorSum_at {es : List LEdge} (hn : (es.map LEdge.data).Nodup) (d : Pos) (c : Letter) :
    (xorSum es fun e => decide (e.data = d ∧ e.factor = c)) = true ↔ ∃ e ∈ es, e.data = d ∧ e.factor = c := by
  induction es with
  | nil => simp
  | cons a es ih =>
    rw [List.map_cons, List.nodup_cons] at hn
    rw [xorSum_cons]
    by_cases ha : a.data = d ∧ a.factor = c
    · have h0 : (xorSum es fun e => decide (e.data = d ∧ e.factor = c)) = false := by
        refine xorSum_false fun e he => ?_
        rw [decide_eq_false_iff_not]
        rintro ⟨h1, _⟩
        exact hn.1 (List.mem_map.2 ⟨e, he, h1.trans ha.1.symm⟩)
      rw [h0, decide_eq_true ha]
      simp only [Bool.xor_false, true_iff]
      exact ⟨a, List.mem_cons_self .., ha⟩
    · rw [decide_eq_false ha, Bool.false_xor, ih hn.2]
      constructor
      · rintro ⟨e, he, h⟩
        exact ⟨e, List.mem_cons_of_mem _ he, h⟩
      · rintro ⟨e, he, h⟩
        rcases List.mem_cons.1 he with rfl | he
        · exact absurd h ha
        · exact ⟨e, he, h⟩

theorem at_iff {L : Lattice} (hk : L.Keyed) {k d : Pos} {c : Letter} :
    L.At k d c = true ↔ ∃ e ∈ L.edges, e.op = k ∧ e.data = d ∧ e.factor = c := by
  unfold Lattice.At
  rw [xorSum_at (hk.op_nodup k)]
  constructor
  · rintro ⟨e, he, h⟩
    obtain ⟨h1, h2⟩ := mem_opEdges.1 he
    exact ⟨e, h1, h2, h⟩
  · rintro ⟨e, he, h1, h⟩
    exact ⟨e, mem_opEdges.2 ⟨he, h1⟩, h⟩

theorem at_mem {L : Lattice} (hk : L.Keyed) {e : LEdge} (he : e ∈ L.edges) : L.At e.op e.data e.factor = true :=
  (at_iff hk).2 ⟨e, he, rfl, rfl, rfl⟩

theorem resp_at (d : Pos) (c : Letter) : Resp fun e => decide (e.data = d ∧ e.factor = c) := by
  intro a b h1 h2
  simp only [h1, h2]

variable {φ : Pos → Letter → Letter}

/-- Up to a permutation `φ d` of the letters at every data qubit `d`, every operator has one letter; at most two stabilisers with the same letter meet at a data qubit, and edges belong to
stabilisers or logical operators. -/
structure Lattice.Css (φ : Pos → Letter → Letter) (L : Lattice) : Prop where
  pre : L.Pre
  inj : ∀ d, Function.Injective (φ d)
  one : ∀ k d d' c c', L.At k d c = true → L.At k d' c' = true → φ d c = φ d' c'
  two : ∀ d c k1 k2 k3, L.isStab k1 = true → L.isStab k2 = true → L.isStab k3 = true → L.At k1 d c = true → L.At k2 d c = true →
    L.At k3 d c = true → k1 = k2 ∨ k1 = k3 ∨ k2 = k3
  ops : ∀ k d c, L.At k d c = true → L.isStab k = true ∨ k ∈ L.logicals.map Prod.fst

/-- What stays when stabilisers and edges change. -/
structure Frame (L M : Lattice) : Prop where
  data : M.dataqubits = L.dataqubits
  logs : M.logicals = L.logicals
  gauge : M.keepGauge = L.keepGauge
  join : M.boundaryJoin = L.boundaryJoin

theorem Frame.refl (L : Lattice) : Frame L L := ⟨rfl, rfl, rfl, rfl⟩

theorem Frame.trans {L M N : Lattice} (h : Frame L M) (h' : Frame M N) : Frame L N :=
  ⟨h'.data.trans h.data, h'.logs.trans h.logs, h'.gauge.trans h.gauge, h'.join.trans h.join⟩

theorem SameVertices.frame {L M : Lattice} (h : SameVertices L M) : Frame L M := ⟨h.data, h.logs, h.gauge, h.join⟩

theorem Lattice.Css.shrink {L M : Lattice} (h : L.Css φ) (hp : M.Pre) (hat : ∀ k d c, M.At k d c = true → L.At k d c = true)
    (hst : ∀ k, M.isStab k = true → L.isStab k = true)
    (hops : ∀ k d c, M.At k d c = true → M.isStab k = true ∨ k ∈ M.logicals.map Prod.fst) : M.Css φ where
  pre := hp
  inj := h.inj
  one := fun k d d' c c' h1 h2 => h.one k d d' c c' (hat _ _ _ h1) (hat _ _ _ h2)
  two := fun d c k1 k2 k3 s1 s2 s3 h1 h2 h3 => h.two d c k1 k2 k3 (hst _ s1) (hst _ s2) (hst _ s3) (hat _ _ _ h1) (hat _ _ _ h2) (hat _ _ _ h3)
  ops := hops

/-! ### Single steps -/

theorem removeEdge_total {L : Lattice} {e : LEdge} (he : e ∈ L.edges) : ∃ L', L.removeEdge e = .ok L' := by
  unfold Lattice.removeEdge
  rw [if_pos ((hasEdge_iff ..).2 (List.mem_map.2 ⟨e, he, rfl⟩))]
  exact ⟨_, rfl⟩

theorem mulEdge_total {L : Lattice} {k : Pos} {e : LEdge} (hc : ∀ c, L.At k e.data c = true → c = e.factor) (hk : L.Keyed) :
    ∃ L', Lattice.mulEdge k L e = .ok L' := by
  unfold Lattice.mulEdge
  split
  · rename_i e2 hf
    obtain ⟨h1, h2⟩ := mem_opEdges.1 (List.mem_of_find?_eq_some hf)
    have := at_mem hk h1
    rw [h2, show e2.data = e.data by simpa using List.find?_some hf] at this
    rw [if_pos (hc _ this)]
    exact removeEdge_total h1
  · rename_i hf
    unfold Lattice.addEdge
    rw [if_neg]
    · exact ⟨_, rfl⟩
    · rw [hasEdge_iff]
      intro hm
      obtain ⟨x, hx, hxk⟩ := List.mem_map.1 hm
      simp only [LEdge.key, Prod.mk.injEq] at hxk
      rw [List.find?_eq_none] at hf
      exact hf x (mem_opEdges.2 ⟨hx, hxk.1⟩) (by simpa using hxk.2)

theorem Step.at {L L' : Lattice} {k : Pos} {es : List LEdge} {ex : Pos → Prop} (h : Step L L' k es ex) (d : Pos) (c : Letter) :
    L'.At k d c = (L.At k d c ^^ xorSum es fun e => decide (e.data = d ∧ e.factor = c)) := h.sum _ (resp_at d c)

theorem Step.at_other {L L' : Lattice} {k : Pos} {es : List LEdge} {ex : Pos → Prop} (h : Step L L' k es ex) {v : Pos} (hv : v ≠ k)
    (hx : ¬ ex v) (d : Pos) (c : Letter) : L'.At v d c = L.At v d c := by
  unfold Lattice.At
  rw [h.others v hv hx]

theorem Step.letter {L L' : Lattice} {k : Pos} {e : LEdge} {ex : Pos → Prop} (h : Step L L' k [e] ex) {c0 : Letter}
    (hc : ∀ d c, L.At k d c = true → φ d c = c0) (he : φ e.data e.factor = c0) : ∀ d c, L'.At k d c = true → φ d c = c0 := by
  intro d c hh
  rw [h.at] at hh
  cases h1 : L.At k d c with
  | true => exact hc d c h1
  | false =>
    rw [h1] at hh
    simp only [xorSum_cons, xorSum_nil, Bool.xor_false, Bool.false_xor, decide_eq_true_eq] at hh
    rw [← hh.1, ← hh.2]
    exact he

theorem mul_loop (inj : ∀ d, Function.Injective (φ d)) {k : Pos} {c0 : Letter} (es : List LEdge)
    (hes : ∀ e ∈ es, φ e.data e.factor = c0) : ∀ M : Lattice, M.Keyed → (∀ d c, M.At k d c = true → φ d c = c0) → ∃ M', loopE (Lattice.mulEdge k) M es = .ok M' := by
  induction es with
  | nil => exact fun M _ _ => ⟨M, rfl⟩
  | cons e es ih =>
    intro M hk hc
    have he := hes e (List.mem_cons_self ..)
    obtain ⟨M1, h1⟩ := mulEdge_total (e := e) (fun c h => inj _ ((hc _ c h).trans he.symm)) hk
    have st := mulEdge_step hk (fun _ => False) h1
    obtain ⟨M', h'⟩ := ih (fun e he => hes e (List.mem_cons_of_mem _ he)) M1 st.keys (st.letter hc he)
    exact ⟨M', by rw [loopE, h1]; exact h'⟩

theorem merge_loop (inj : ∀ d, Function.Injective (φ d)) {k r : Pos} (hrk : r ≠ k) {c0 : Letter} (es : List LEdge) : ∀ M : Lattice, M.Keyed →
    (∀ e ∈ es, e ∈ M.edges ∧ e.op = r ∧ φ e.data e.factor = c0) → (es.map LEdge.key).Nodup → (∀ d c, M.At k d c = true → φ d c = c0) →
    ∃ M', loopE (Lattice.mergeEdge k) M es = .ok M' ∧ M'.opEdges r = (M.opEdges r).filter fun e => e.key ∉ es.map LEdge.key := by
  induction es with
  | nil => exact fun M _ _ _ _ => ⟨M, rfl, by simp⟩
  | cons e es ih =>
    intro M hk hes hn hc
    obtain ⟨hem, heo, hef⟩ := hes e (List.mem_cons_self ..)
    obtain ⟨M0, h0⟩ := removeEdge_total hem
    obtain ⟨hM0, _⟩ := removeEdge_spec hk h0
    have hk0 : M0.Keyed := by
      subst hM0
      exact List.Nodup.sublist (List.filter_sublist.map _) hk
    have hop0 : M0.opEdges k = M.opEdges k := by
      subst hM0
      exact opEdges_remove (by rw [heo]; exact hrk.symm)
    have hc0 : ∀ d c, M0.At k d c = true → φ d c = c0 := by
      intro d c h
      unfold Lattice.At at h
      rw [hop0] at h
      exact hc d c h
    obtain ⟨M1, h1⟩ := mulEdge_total (e := e) (fun c h => inj _ ((hc0 _ c h).trans hef.symm)) hk0
    have st := mulEdge_step hk0 (fun _ => False) h1
    have hme : Lattice.mergeEdge k M e = .ok M1 := by
      unfold Lattice.mergeEdge
      rw [h0]
      exact h1
    have hr1 : M1.opEdges r = (M.opEdges r).filter fun x => x.key ≠ e.key := by
      rw [st.others r hrk id, hM0]
      simp only [Lattice.opEdges, List.filter_filter]
      refine List.filter_congr fun x _ => ?_
      rw [Bool.and_comm]
    rw [List.map_cons, List.nodup_cons] at hn
    obtain ⟨M', h2, h3⟩ := ih M1 st.keys (by
      intro x hx
      obtain ⟨x1, x2, x3⟩ := hes x (List.mem_cons_of_mem _ hx)
      refine ⟨?_, x2, x3⟩
      have : x ∈ M1.opEdges r := by
        rw [hr1, List.mem_filter]
        refine ⟨mem_opEdges.2 ⟨x1, x2⟩, ?_⟩
        rw [decide_eq_true_eq]
        intro hke
        exact hn.1 (hke ▸ List.mem_map_of_mem hx)
      exact (mem_opEdges.1 this).1) hn.2 (st.letter hc0 hef)
    refine ⟨M', by rw [loopE, hme]; exact h2, ?_⟩
    rw [h3, hr1, List.filter_filter]
    refine List.filter_congr fun x _ => ?_
    simp only [List.map_cons, List.mem_cons, not_or, Bool.decide_and, ne_eq]
    rw [Bool.and_comm]

theorem removeVertex_total {L : Lattice} {p : Pos} (h : p ∈ L.occupied) (he : ∀ e ∈ L.edges, e.op ≠ p ∧ e.data ≠ p) :
    ∃ L', L.removeVertex p = .ok L' := by
  unfold Lattice.removeVertex
  rw [if_neg (not_not.2 h), if_neg]
  · exact ⟨_, rfl⟩
  · rw [List.any_eq_true]
    rintro ⟨e, hm, hh⟩
    rcases of_decide_eq_true hh with hh | hh
    · exact (he e hm).1 hh
    · exact (he e hm).2 hh

theorem isStab_iff {L : Lattice} {p : Pos} : L.isStab p = true ↔ p ∈ L.stabgens.map Prod.fst := by
  constructor
  · intro h
    obtain ⟨s, hs, rfl⟩ := isStab_mem h
    exact List.mem_map_of_mem hs
  · intro h
    obtain ⟨s, hs, rfl⟩ := List.mem_map.1 h
    exact mem_isStab hs

theorem Lattice.Pre.stab_not_data {L : Lattice} (h : L.Pre) {p : Pos} (hs : L.isStab p = true) : p ∉ L.dataqubits := by
  intro hd
  have := (List.nodup_append.1 (List.nodup_append.1 h.occ).1).2.2
  exact this p hd p (isStab_iff.1 hs) rfl

/-- Removing a stabiliser without edges. -/
theorem removeStabVertex {L : Lattice} (hp : L.Pre) {p : Pos} (hs : L.isStab p = true) (he : L.opEdges p = []) :
    ∃ L', L.removeVertex p = .ok L' ∧ L'.Pre ∧ Frame L L' ∧ L'.edges = L.edges ∧ ∀ v, L'.isStab v = true ↔ L.isStab v = true ∧ v ≠ p := by
  obtain ⟨L', h⟩ := removeVertex_total (L := L) (p := p)
    (List.mem_append_left _ (List.mem_append_right _ (isStab_iff.1 hs)))
    (fun e hm => ⟨fun ho => List.eq_nil_iff_forall_not_mem.1 he e (mem_opEdges.2 ⟨hm, ho⟩),
      fun hd => hp.stab_not_data hs (hd ▸ hp.data e hm)⟩)
  refine ⟨L', h, removeVertex_pre hp h, ?_, ?_, ?_⟩
  · obtain ⟨_, _, rfl⟩ := removeVertex_spec h
    refine ⟨?_, ?_, rfl, rfl⟩
    · show L.dataqubits.filter (· ≠ p) = L.dataqubits
      rw [List.filter_eq_self]
      intro a ha
      rw [decide_eq_true_eq]
      rintro rfl
      exact hp.stab_not_data hs ha
    · exact filter_of_not_mem (hp.stab_not_log hs)
  · obtain ⟨_, _, rfl⟩ := removeVertex_spec h
    rfl
  · obtain ⟨_, _, rfl⟩ := removeVertex_spec h
    intro v
    rw [isStab_iff, isStab_iff]
    simp only [List.mem_map, List.mem_filter, decide_eq_true_eq]
    constructor
    · rintro ⟨s, ⟨h1, h2⟩, rfl⟩
      exact ⟨⟨s, h1, rfl⟩, h2⟩
    · rintro ⟨⟨s, h1, rfl⟩, h2⟩
      exact ⟨s, ⟨h1, h2⟩, rfl⟩

theorem at_edges {L M : Lattice} (h : M.edges = L.edges) (k d : Pos) (c : Letter) : M.At k d c = L.At k d c := by
  unfold Lattice.At Lattice.opEdges
  rw [h]

/-- `create_superstab` for two stabilisers with the same letter. -/
theorem createSuperstab_total {L : Lattice} (h : L.Css φ) {a b : Pos} (hab : a ≠ b) (ha : L.isStab a = true) (hb : L.isStab b = true)
    {c0 : Letter} (hca : ∀ d c, L.At a d c = true → φ d c = c0) (hcb : ∀ d c, L.At b d c = true → φ d c = c0) :
    ∃ L', L.createSuperstab a b = .ok L' ∧ L'.Css φ ∧ Frame L L' ∧ (∀ v, v ≠ a → v ≠ b → ∀ d c, L'.At v d c = L.At v d c) ∧
      (∀ d c, L'.At a d c = (L.At a d c ^^ L.At b d c)) ∧ (∀ d c, L'.At b d c = false) ∧
      ∀ v, L'.isStab v = true ↔ L.isStab v = true ∧ v ≠ b := by
  have hk := h.pre.keys
  obtain ⟨M, h1, h2⟩ := merge_loop h.inj (k := a) (r := b) hab.symm (c0 := c0) (L.opEdges b) L hk
    (fun e he => ⟨(mem_opEdges.1 he).1, (mem_opEdges.1 he).2, hcb _ _ (by
      have := at_mem hk (mem_opEdges.1 he).1
      rwa [(mem_opEdges.1 he).2] at this)⟩)
    (List.Nodup.sublist (List.filter_sublist.map _) hk) hca
  have st : Step L M a (L.opEdges b) (fun v => v = b) := by
    refine loop_step _ _ (fun X X' e he hX hh => ?_) L M hk h1
    have := mergeEdge_step hX (k := a) (e := e) (by rw [(mem_opEdges.1 he).2]; exact hab.symm) hh
    rwa [(mem_opEdges.1 he).2] at this
  have hMb : M.opEdges b = [] := by
    rw [h2, List.filter_eq_nil_iff]
    intro e he
    simp only [decide_eq_true_eq, not_not]
    exact List.mem_map_of_mem he
  have hpM : M.Pre := st.pre h.pre fun e he => (mem_opEdges.1 he).1
  obtain ⟨L', h3, hp', fr, hed, hst⟩ := removeStabVertex hpM (by rw [isStab_same st.same]; exact hb) hMb
  have atv : ∀ v, v ≠ a → v ≠ b → ∀ d c, L'.At v d c = L.At v d c := fun v h1 h2 d c => by
    rw [at_edges hed, st.at_other h1 h2]
  have ata : ∀ d c, L'.At a d c = (L.At a d c ^^ L.At b d c) := fun d c => by
    rw [at_edges hed, st.at]
    rfl
  have atb : ∀ d c, L'.At b d c = false := fun d c => by
    rw [at_edges hed]
    unfold Lattice.At
    rw [hMb]
    rfl
  have hst' : ∀ v, L'.isStab v = true ↔ L.isStab v = true ∧ v ≠ b := fun v => by rw [hst, isStab_same st.same]
  -- an operator of the new lattice comes from one of the old lattice
  have from' : ∀ v d c, L'.At v d c = true → v ≠ b ∧ (L.At v d c = true ∨ v = a ∧ L.At b d c = true) := by
    intro v d c hv
    have hvb : v ≠ b := by
      rintro rfl
      rw [atb] at hv
      cases hv
    refine ⟨hvb, ?_⟩
    by_cases hva : v = a
    · subst hva
      rw [ata] at hv
      cases hx : L.At v d c with
      | true => exact .inl rfl
      | false =>
        rw [hx] at hv
        exact .inr ⟨rfl, by simpa using hv⟩
    · rw [atv v hva hvb] at hv
      exact .inl hv
  refine ⟨L', ?_, ⟨hp', h.inj, ?_, ?_, ?_⟩, st.same.frame.trans fr, atv, ata, atb, hst'⟩
  · unfold Lattice.createSuperstab
    rw [if_pos ⟨ha, hb⟩, h1]
    exact h3
  · intro k d d' c c' hc hc'
    obtain ⟨_, h4⟩ := from' k d c hc
    obtain ⟨_, h5⟩ := from' k d' c' hc'
    rcases h4 with h4 | ⟨rfl, h4⟩ <;> rcases h5 with h5 | ⟨e5, h5⟩
    · exact h.one k d d' c c' h4 h5
    · subst e5
      exact (hca _ _ h4).trans (hcb _ _ h5).symm
    · exact (hcb _ _ h4).trans (hca _ _ h5).symm
    · exact (hcb _ _ h4).trans (hcb _ _ h5).symm
  · intro d c k1 k2 k3 s1 s2 s3 t1 t2 t3
    have pick : ∀ k, L'.isStab k = true → L'.At k d c = true →
        ∃ k0, L.isStab k0 = true ∧ L.At k0 d c = true ∧ k ≠ b ∧ (k0 = k ∨ k0 = b ∧ k = a) := by
      intro k s t
      obtain ⟨h4, h5 | ⟨h5, h6⟩⟩ := from' k d c t
      · exact ⟨k, ((hst' k).1 s).1, h5, h4, .inl rfl⟩
      · exact ⟨b, hb, h6, h4, .inr ⟨rfl, h5⟩⟩
    obtain ⟨m1, u1, v1, w1, x1⟩ := pick k1 s1 t1
    obtain ⟨m2, u2, v2, w2, x2⟩ := pick k2 s2 t2
    obtain ⟨m3, u3, v3, w3, x3⟩ := pick k3 s3 t3
    have inj : ∀ {m n k l : Pos}, k ≠ b → l ≠ b → (m = k ∨ m = b ∧ k = a) → (n = l ∨ n = b ∧ l = a) → m = n → k = l := by
      rintro m n k l hk hl (rfl | ⟨rfl, rfl⟩) (rfl | ⟨rfl, rfl⟩) hmn
      · exact hmn
      · exact absurd hmn hk
      · exact absurd hmn.symm hl
      · rfl
    rcases h.two d c m1 m2 m3 u1 u2 u3 v1 v2 v3 with hh | hh | hh
    · exact .inl (inj w1 w2 x1 x2 hh)
    · exact .inr (.inl (inj w1 w3 x1 x3 hh))
    · exact .inr (.inr (inj w2 w3 x2 x3 hh))
  · intro k d c hc
    obtain ⟨hkb, h4⟩ := from' k d c hc
    have hl : L'.logicals = L.logicals := (st.same.frame.trans fr).logs
    rw [hl, hst']
    rcases h4 with h4 | ⟨rfl, h4⟩
    · rcases h.ops k d c h4 with h5 | h5
      · exact .inl ⟨h5, hkb⟩
      · exact .inr h5
    · exact .inl ⟨ha, hkb⟩

/-- `remove_edge` of an edge of a stabiliser. -/
theorem removeEdge_css {L : Lattice} (h : L.Css φ) {v q : Pos} {c0 : Letter} (hv : L.At v q c0 = true) (e : LEdge) (heo : e.op = v)
    (hed : e.data = q) : ∃ L', L.removeEdge e = .ok L' ∧ L'.Css φ ∧ SameVertices L L' ∧ (∀ w d c, (w ≠ v ∨ d ≠ q) → L'.At w d c = L.At w d c) ∧
      ∀ c, L'.At v q c = false := by
  obtain ⟨e0, he0, ho, hd, _⟩ := (at_iff h.pre.keys).1 hv
  have hkey : e0.key = e.key := by simp [LEdge.key, ho, hd, heo, hed]
  have hok : ∃ L', L.removeEdge e = .ok L' := by
    unfold Lattice.removeEdge
    rw [if_pos ((hasEdge_iff ..).2 (List.mem_map.2 ⟨e0, he0, hkey⟩))]
    exact ⟨_, rfl⟩
  obtain ⟨L', hL'⟩ := hok
  have hp := removeEdge_pre h.pre hL'
  obtain ⟨hL, _⟩ := removeEdge_spec h.pre.keys hL'
  have mem : ∀ x, x ∈ L'.edges ↔ x ∈ L.edges ∧ ¬ (x.op = v ∧ x.data = q) := by
    intro x
    rw [hL]
    simp only [List.mem_filter, LEdge.key, heo, hed, ne_eq, Prod.mk.injEq, decide_eq_true_eq]
  have same : SameVertices L L' := by rw [hL]; exact ⟨rfl, rfl, rfl, rfl, rfl⟩
  have hw : ∀ w d c, (w ≠ v ∨ d ≠ q) → L'.At w d c = L.At w d c := by
    intro w d c hne
    rw [Bool.eq_iff_iff, at_iff hp.keys, at_iff h.pre.keys]
    constructor
    · rintro ⟨x, hx, hh⟩
      exact ⟨x, ((mem x).1 hx).1, hh⟩
    · rintro ⟨x, hx, h1, h2, h3⟩
      refine ⟨x, (mem x).2 ⟨hx, ?_⟩, h1, h2, h3⟩
      rintro ⟨h4, h5⟩
      rcases hne with hne | hne
      · exact hne (h1.symm.trans h4)
      · exact hne (h2.symm.trans h5)
  have hf : ∀ c, L'.At v q c = false := by
    intro c
    rw [Bool.eq_false_iff]
    intro hh
    obtain ⟨x, hx, h1, h2, _⟩ := (at_iff hp.keys).1 hh
    exact ((mem x).1 hx).2 ⟨h1, h2⟩
  have hat : ∀ k d c, L'.At k d c = true → L.At k d c = true := by
    intro k d c hh
    by_cases hkd : k = v ∧ d = q
    · rw [hkd.1, hkd.2, hf] at hh
      cases hh
    · rw [hw k d c (by tauto)] at hh
      exact hh
  refine ⟨L', hL', h.shrink hp hat (fun k hk => by rwa [isStab_same same] at hk) ?_, same, hw, hf⟩
  intro k d c hh
  rw [isStab_same same, same.logs]
  exact h.ops k d c (hat k d c hh)

/-- `remove_stabilizer`. -/
theorem removeStabilizer_total {L : Lattice} (h : L.Css φ) {p : Pos} (hs : L.isStab p = true) :
    ∃ L', L.removeStabilizer p = .ok L' ∧ L'.Css φ ∧ Frame L L' ∧ (∀ v, v ≠ p → ∀ d c, L'.At v d c = L.At v d c) ∧
      (∀ d c, L'.At p d c = false) ∧ ∀ v, L'.isStab v = true ↔ L.isStab v = true ∧ v ≠ p := by
  have loop : ∀ (es : List LEdge) (M : Lattice), M.Keyed → (∀ e ∈ es, e ∈ M.edges) → (es.map LEdge.key).Nodup →
      ∃ M', loopE Lattice.removeEdge M es = .ok M' ∧ SameVertices M M' ∧ M'.edges = M.edges.filter fun e => e.key ∉ es.map LEdge.key := by
    intro es
    induction es with
    | nil => exact fun M _ _ _ => ⟨M, rfl, SameVertices.refl M, by simp⟩
    | cons e es ih =>
      intro M hk hm hn
      rw [List.map_cons, List.nodup_cons] at hn
      obtain ⟨M1, h1⟩ := removeEdge_total (hm e (List.mem_cons_self ..))
      obtain ⟨hM1, _⟩ := removeEdge_spec hk h1
      obtain ⟨M', h2, h3, h4⟩ := ih M1 (by
          subst hM1
          exact List.Nodup.sublist (List.filter_sublist.map _) hk) (by
          intro x hx
          rw [hM1]
          refine List.mem_filter.2 ⟨hm x (List.mem_cons_of_mem _ hx), ?_⟩
          rw [decide_eq_true_eq]
          intro hke
          exact hn.1 (hke ▸ List.mem_map_of_mem hx)) hn.2
      refine ⟨M', by rw [loopE, h1]; exact h2, SameVertices.trans (by rw [hM1]; exact ⟨rfl, rfl, rfl, rfl, rfl⟩) h3, ?_⟩
      rw [h4, hM1]
      simp only [List.filter_filter]
      refine List.filter_congr fun x _ => ?_
      simp only [List.map_cons, List.mem_cons, not_or, Bool.decide_and, ne_eq]
      rw [Bool.and_comm]
  obtain ⟨M, h1, same, hed⟩ := loop (L.opEdges p) L h.pre.keys (fun e he => (mem_opEdges.1 he).1)
    (List.Nodup.sublist (List.filter_sublist.map _) h.pre.keys)
  have mem : ∀ x, x ∈ M.edges ↔ x ∈ L.edges ∧ x.op ≠ p := by
    intro x
    rw [hed, List.mem_filter, decide_eq_true_eq]
    refine and_congr_right fun hx => not_congr ⟨fun hm => ?_, fun ho => List.mem_map_of_mem (mem_opEdges.2 ⟨hx, ho⟩)⟩
    obtain ⟨y, hy, hke⟩ := List.mem_map.1 hm
    have := congrArg Prod.fst hke
    exact this.symm.trans (mem_opEdges.1 hy).2
  have hpM : M.Pre := by
    refine ⟨?_, ?_, ?_, ?_⟩
    · have := h.pre.occ
      unfold Lattice.occupied at this ⊢
      rw [same.data, same.stabs, same.logs]
      exact this
    · unfold Lattice.Keyed
      rw [hed]
      exact List.Nodup.sublist (List.filter_sublist.map _) h.pre.keys
    · intro e he
      rw [same.data]
      exact h.pre.data e ((mem e).1 he).1
    · exact fun e he => h.pre.xz e ((mem e).1 he).1
  have hMp : M.opEdges p = [] := by
    rw [List.eq_nil_iff_forall_not_mem]
    intro e he
    obtain ⟨h2, h3⟩ := mem_opEdges.1 he
    exact ((mem e).1 h2).2 h3
  obtain ⟨L', h3, hp', fr, hed', hst⟩ := removeStabVertex hpM (by rw [isStab_same same]; exact hs) hMp
  have atv : ∀ v, v ≠ p → ∀ d c, L'.At v d c = L.At v d c := by
    intro v hv d c
    rw [at_edges hed', Bool.eq_iff_iff, at_iff hpM.keys, at_iff h.pre.keys]
    constructor
    · rintro ⟨x, hx, hh⟩
      exact ⟨x, ((mem x).1 hx).1, hh⟩
    · rintro ⟨x, hx, h4, hh⟩
      exact ⟨x, (mem x).2 ⟨hx, h4 ▸ hv⟩, h4, hh⟩
  have atp : ∀ d c, L'.At p d c = false := fun d c => by
    rw [at_edges hed']
    unfold Lattice.At
    rw [hMp]
    rfl
  have hst' : ∀ v, L'.isStab v = true ↔ L.isStab v = true ∧ v ≠ p := fun v => by rw [hst, isStab_same same]
  have ne : ∀ k d c, L'.At k d c = true → k ≠ p := by
    rintro k d c hh rfl
    rw [atp] at hh
    cases hh
  have hat : ∀ k d c, L'.At k d c = true → L.At k d c = true := fun k d c hh => by
    rw [← atv k (ne k d c hh)]
    exact hh
  refine ⟨L', ?_, h.shrink hp' hat (fun k hk => ((hst' k).1 hk).1) ?_, same.frame.trans fr, atv, atp, hst'⟩
  · unfold Lattice.removeStabilizer
    rw [h1]
    exact h3
  · intro k d c hh
    rw [hst', (same.frame.trans fr).logs]
    rcases h.ops k d c (hat k d c hh) with h5 | h5
    · exact .inl ⟨h5, ne k d c hh⟩
    · exact .inr h5

end Plaquette
