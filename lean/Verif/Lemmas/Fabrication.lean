import Verif.Lemmas.LatticeCode

/-!
# Fabrication errors
-/

namespace Plaquette

/-- A function of the data qubit and the letter of an edge. -/
def Resp (f : LEdge → Bool) : Prop := ∀ a b : LEdge, a.data = b.data → a.factor = b.factor → f a = f b

theorem resp_anti (c : List LEdge) : Resp fun a => xorSum c (pairAnti a) := by
  intro a b h1 h2
  refine xorSum_congr fun e _ => ?_
  simp [pairAnti, h1, h2]

theorem antiE_self (es : List LEdge) (h : (es.map LEdge.data).Nodup) : antiE es es = false := by
  unfold antiE
  refine xorSum_false fun e he => ?_
  rw [xorSum_pairAnti h, decide_eq_false_iff_not]
  rintro ⟨b, hb, h1, h3⟩
  exact h3 (congrArg LEdge.factor (List.inj_on_of_nodup_map h hb he h1))

/-- At most one edge between two vertices. -/
def Lattice.Keyed (L : Lattice) : Prop := (L.edges.map LEdge.key).Nodup

theorem Lattice.Keyed.op_nodup {L : Lattice} (h : L.Keyed) (v : Pos) : ((L.opEdges v).map LEdge.data).Nodup := by
  have h1 : ((L.opEdges v).map LEdge.key).Nodup := (List.Nodup.sublist (List.filter_sublist.map _) h)
  rw [List.Nodup, List.pairwise_map] at h1 ⊢
  refine h1.imp_of_mem ?_
  intro a b ha hb hab hc
  apply hab
  have h1 := (List.mem_filter.mp ha).2
  have h2 := (List.mem_filter.mp hb).2
  simp only [decide_eq_true_eq] at h1 h2
  simp [LEdge.key, h1, h2, hc]

theorem mem_opEdges {L : Lattice} {v : Pos} {e : LEdge} : e ∈ L.opEdges v ↔ e ∈ L.edges ∧ e.op = v := by
  simp [Lattice.opEdges]

/-- The vertices and settings are the same. -/
structure SameVertices (L L' : Lattice) : Prop where
  data : L'.dataqubits = L.dataqubits
  stabs : L'.stabgens = L.stabgens
  logs : L'.logicals = L.logicals
  gauge : L'.keepGauge = L.keepGauge
  join : L'.boundaryJoin = L.boundaryJoin

theorem SameVertices.refl (L : Lattice) : SameVertices L L := ⟨rfl, rfl, rfl, rfl, rfl⟩

theorem SameVertices.trans {L L' L'' : Lattice} (h : SameVertices L L') (h' : SameVertices L' L'') : SameVertices L L'' :=
  ⟨h'.data.trans h.data, h'.stabs.trans h.stabs, h'.logs.trans h.logs, h'.gauge.trans h.gauge, h'.join.trans h.join⟩

/-! ### Removing and adding an edge -/

theorem eraseP_filter {α : Type} (l : List α) (p : α → Bool) (h : ∀ a b, a ∈ l → b ∈ l → p a = true → p b = true → a = b)
    (hn : l.Nodup) : l.eraseP p = l.filter fun a => !p a := by
  induction l with
  | nil => rfl
  | cons a l ih =>
    rw [List.nodup_cons] at hn
    by_cases hp : p a = true
    · rw [List.eraseP_cons_of_pos hp, List.filter_cons_of_neg (by simp [hp]), eq_comm, List.filter_eq_self]
      intro b hb
      cases hpb : p b with
      | false => rfl
      | true => exact absurd hb ((h a b (by simp) (by simp [hb]) hp hpb) ▸ hn.1)
    · rw [List.eraseP_cons_of_neg hp, List.filter_cons_of_pos (by simpa using hp),
        ih (fun x y hx hy => h x y (by simp [hx]) (by simp [hy])) hn.2]

theorem removeEdge_spec {L L' : Lattice} (hk : L.Keyed) {e : LEdge} (h : L.removeEdge e = .ok L') :
    L' = { L with edges := L.edges.filter fun e' => e'.key ≠ e.key } ∧ ∃ e' ∈ L.edges, e'.key = e.key := by
  unfold Lattice.removeEdge at h
  split at h
  · rename_i hh
    rw [hasEdge_iff] at hh
    obtain ⟨e', he', hke⟩ := List.mem_map.mp hh
    simp only [Except.ok.injEq] at h
    refine ⟨?_, e', he', hke⟩
    rw [← h, eraseP_filter]
    · congr 1
      apply List.filter_congr
      intro x _
      simp only [LEdge.key, ne_eq, Prod.mk.injEq, ← decide_not]
    · intro a b ha hb hpa hpb
      have h1 := of_decide_eq_true hpa
      have h2 := of_decide_eq_true hpb
      exact List.inj_on_of_nodup_map hk ha hb (by simp [LEdge.key, h1, h2])
    · exact List.Nodup.of_map _ hk
  · simp at h

theorem addEdge_spec {L L' : Lattice} {data op : Pos} {factor : Letter} (h : L.addEdge data op factor = .ok L') :
    L' = { L with edges := L.edges ++ [⟨op, data, factor, none⟩] } ∧ (op, data) ∉ L.edges.map LEdge.key := by
  unfold Lattice.addEdge at h
  split at h
  · simp at h
  · rename_i hh
    simp only [Except.ok.injEq] at h
    refine ⟨h.symm, ?_⟩
    rw [← hasEdge_iff]; exact hh

/-- Taking an edge out of an operator. -/
theorem xorSum_remove {L : Lattice} (hk : L.Keyed) {e : LEdge} (he : e ∈ L.edges) (f : LEdge → Bool) :
    xorSum (Lattice.opEdges { L with edges := L.edges.filter fun e' => e'.key ≠ e.key } e.op) f =
      (xorSum (L.opEdges e.op) f ^^ f e) := by
  have h1 : Lattice.opEdges { L with edges := L.edges.filter fun e' => e'.key ≠ e.key } e.op =
      (L.opEdges e.op).filter fun e' => e'.key ≠ e.key := by
    simp only [Lattice.opEdges, List.filter_filter]
    apply List.filter_congr
    intro x _
    rw [Bool.and_comm]
  rw [h1, xorSum_filter]
  have hn : (L.opEdges e.op).Nodup := List.Nodup.of_map _ (hk.op_nodup e.op)
  have h2 : xorSum (L.opEdges e.op) (fun a => decide (a.key = e.key) && f a) = f e := by
    rw [xorSum_unique (a := e) (mem_opEdges.mpr ⟨he, rfl⟩) hn]
    · simp
    · intro b hb hbe
      have : b.key ≠ e.key := fun hc => hbe (List.inj_on_of_nodup_map hk (mem_opEdges.mp hb).1 he hc)
      simp [this]
  have h3 : xorSum (L.opEdges e.op) f = (xorSum (L.opEdges e.op) (fun a => decide (a.key ≠ e.key) && f a) ^^
      xorSum (L.opEdges e.op) (fun a => decide (a.key = e.key) && f a)) := by
    rw [← xorSum_xor]
    refine xorSum_congr fun a _ => ?_
    by_cases hc : a.key = e.key <;> simp [hc]
  rw [h3, h2]
  cases f e <;> simp

theorem opEdges_remove {L : Lattice} {e : LEdge} {v : Pos} (hv : v ≠ e.op) :
    Lattice.opEdges { L with edges := L.edges.filter fun e' => e'.key ≠ e.key } v = L.opEdges v := by
  simp only [Lattice.opEdges, List.filter_filter]
  apply List.filter_congr
  intro x _
  by_cases h : x.op = v
  · subst h
    simp [LEdge.key, hv]
  · simp [h]

/-! ### Multiplying an operator with a list of edges -/

/-- The edges `es` are multiplied into the operator `k`; only the operators `ex` may change otherwise. -/
structure Step (L L' : Lattice) (k : Pos) (es : List LEdge) (ex : Pos → Prop) : Prop where
  same : SameVertices L L'
  keys : L'.Keyed
  old : ∀ e ∈ L'.edges, ∃ e0, (e0 ∈ L.edges ∨ e0 ∈ es) ∧ e0.data = e.data ∧ e0.factor = e.factor
  sum : ∀ f, Resp f → xorSum (L'.opEdges k) f = (xorSum (L.opEdges k) f ^^ xorSum es f)
  others : ∀ v, v ≠ k → ¬ ex v → L'.opEdges v = L.opEdges v

theorem Step.trans {L L1 L2 : Lattice} {k : Pos} {es es' : List LEdge} {ex : Pos → Prop} (h : Step L L1 k es ex)
    (h' : Step L1 L2 k es' ex) : Step L L2 k (es ++ es') ex where
  same := h.same.trans h'.same
  keys := h'.keys
  old := by
    intro e he
    obtain ⟨e0, h0 | h0, h1, h2⟩ := h'.old e he
    · obtain ⟨e1, h3, h4, h5⟩ := h.old e0 h0
      refine ⟨e1, ?_, h4.trans h1, h5.trans h2⟩
      rcases h3 with h3 | h3
      · exact Or.inl h3
      · exact Or.inr (List.mem_append_left _ h3)
    · exact ⟨e0, Or.inr (List.mem_append_right _ h0), h1, h2⟩
  sum := by
    intro f hf
    rw [h'.sum f hf, h.sum f hf, xorSum_append, Bool.xor_assoc]
  others := fun v hv hx => (h'.others v hv hx).trans (h.others v hv hx)

theorem Step.refl {L : Lattice} (hk : L.Keyed) (k : Pos) (ex : Pos → Prop) : Step L L k [] ex where
  same := SameVertices.refl L
  keys := hk
  old := fun e he => ⟨e, Or.inl he, rfl, rfl⟩
  sum := by intro f _; simp
  others := fun _ _ _ => rfl

theorem mulEdge_step {L L' : Lattice} (hk : L.Keyed) {k : Pos} {e : LEdge} (ex : Pos → Prop)
    (h : Lattice.mulEdge k L e = .ok L') : Step L L' k [e] ex := by
  unfold Lattice.mulEdge at h
  split at h
  · rename_i e2 hf
    have hm := List.mem_of_find?_eq_some hf
    have hd : e2.data = e.data := by
      have := List.find?_some hf
      exact of_decide_eq_true this
    obtain ⟨he2, hop⟩ := mem_opEdges.mp hm
    split at h
    · rename_i hfac
      obtain ⟨rfl, _⟩ := removeEdge_spec hk h
      refine ⟨⟨rfl, rfl, rfl, rfl, rfl⟩, ?_, ?_, ?_, ?_⟩
      · exact List.Nodup.sublist (List.filter_sublist.map _) hk
      · intro x hx
        exact ⟨x, Or.inl (List.mem_filter.mp hx).1, rfl, rfl⟩
      · intro f hf'
        rw [← hop, xorSum_remove hk he2, hf' e2 e hd hfac]
        simp
      · intro v hv _
        exact opEdges_remove (by rw [hop]; exact hv)
    · simp at h
  · rename_i hf
    obtain ⟨rfl, hnew⟩ := addEdge_spec h
    refine ⟨⟨rfl, rfl, rfl, rfl, rfl⟩, ?_, ?_, ?_, ?_⟩
    · unfold Lattice.Keyed
      rw [List.map_append, List.nodup_append]
      refine ⟨hk, by simp, ?_⟩
      intro a ha b hb hab
      simp only [List.map_cons, List.map_nil, List.mem_singleton] at hb
      subst hab
      rw [hb] at ha
      exact hnew ha
    · intro x hx
      rcases List.mem_append.mp hx with hx | hx
      · exact ⟨x, Or.inl hx, rfl, rfl⟩
      · simp only [List.mem_singleton] at hx
        subst hx
        exact ⟨e, Or.inr (by simp), rfl, rfl⟩
    · intro f hf'
      have : Lattice.opEdges { L with edges := L.edges ++ [⟨k, e.data, e.factor, none⟩] } k =
          L.opEdges k ++ [⟨k, e.data, e.factor, none⟩] := by
        simp [Lattice.opEdges, List.filter_append]
      rw [this, xorSum_append, xorSum_cons, xorSum_nil, xorSum_cons, xorSum_nil, hf' ⟨k, e.data, e.factor, none⟩ e rfl rfl]
    · intro v hv _
      simp only [Lattice.opEdges, List.filter_append]
      simp [Ne.symm hv]

theorem mergeEdge_step {L L' : Lattice} (hk : L.Keyed) {k : Pos} {e : LEdge} (hne : e.op ≠ k)
    (h : Lattice.mergeEdge k L e = .ok L') : Step L L' k [e] (fun v => v = e.op) := by
  unfold Lattice.mergeEdge at h
  cases hr : L.removeEdge e with
  | error x => rw [hr] at h; simp at h
  | ok L1 =>
    rw [hr] at h
    simp only at h
    obtain ⟨hL1, _⟩ := removeEdge_spec hk hr
    have h1 : Step L L1 k [] (fun v => v = e.op) := by
      subst hL1
      refine ⟨⟨rfl, rfl, rfl, rfl, rfl⟩, ?_, ?_, ?_, ?_⟩
      · exact List.Nodup.sublist (List.filter_sublist.map _) hk
      · intro x hx
        exact ⟨x, Or.inl (List.mem_filter.mp hx).1, rfl, rfl⟩
      · intro f _
        rw [opEdges_remove (Ne.symm hne)]
        simp
      · intro v _ hx
        exact opEdges_remove hx
    have h2 : Step L1 L' k [e] (fun v => v = e.op) := mulEdge_step h1.keys _ h
    exact h1.trans h2

theorem loop_step {k : Pos} {ex : Pos → Prop} (F : Lattice → LEdge → Except Err Lattice) (es : List LEdge)
    (hF : ∀ L L' e, e ∈ es → L.Keyed → F L e = .ok L' → Step L L' k [e] ex) (L L' : Lattice) (hk : L.Keyed)
    (h : loopE F L es = .ok L') : Step L L' k es ex := by
  induction es generalizing L with
  | nil =>
    simp only [loopE, Except.ok.injEq] at h
    subst h
    exact Step.refl hk _ _
  | cons e es ih =>
    rw [loopE] at h
    cases h1 : F L e with
    | error x => rw [h1] at h; simp at h
    | ok L1 =>
      rw [h1] at h
      have s1 := hF L L1 e (by simp) hk h1
      exact s1.trans (ih (fun L L' e he => hF L L' e (by simp [he])) L1 s1.keys h)

theorem multiplyLogical_step {L L' : Lattice} (hk : L.Keyed) {log stab : Pos} (h : L.multiplyLogical log stab = .ok L') :
    Step L L' log (L.opEdges stab) (fun _ => False) :=
  loop_step _ _ (fun _ _ _ _ hk h => mulEdge_step hk _ h) L L' hk h

/-! ### Removing a vertex -/

theorem removeVertex_spec {L L' : Lattice} {p : Pos} (h : L.removeVertex p = .ok L') :
    (∀ e ∈ L.edges, e.op ≠ p ∧ e.data ≠ p) ∧ p ∈ L.occupied ∧
    L' = { L with
      dataqubits := L.dataqubits.filter (· ≠ p)
      stabgens := L.stabgens.filter (·.1 ≠ p)
      logicals := L.logicals.filter (·.1 ≠ p)
      equbits := L.equbits.filter (· ≠ p) } := by
  unfold Lattice.removeVertex at h
  split at h
  · simp at h
  · rename_i hocc
    split at h
    · simp at h
    · rename_i he
      simp only [Except.ok.injEq] at h
      refine ⟨?_, not_not.mp hocc, h.symm⟩
      intro e hm
      simp only [List.any_eq_true, not_exists, not_and, decide_eq_true_eq, not_or] at he
      exact he e hm

theorem filter_of_not_mem {α : Type} {l : List (Pos × α)} {p : Pos} (h : p ∉ l.map Prod.fst) : l.filter (·.1 ≠ p) = l := by
  rw [List.filter_eq_self]
  intro a ha
  simp only [ne_eq, decide_not, Bool.not_eq_eq_eq_not, Bool.not_true, decide_eq_false_iff_not]
  rintro rfl
  exact h (List.mem_map_of_mem ha)

/-! ### The invariant -/

/-- A lattice with distinct vertices, edges to data qubits, and only the letters X and Z. -/
structure Lattice.Pre (L : Lattice) : Prop where
  occ : L.occupied.Nodup
  keys : L.Keyed
  data : ∀ e ∈ L.edges, e.data ∈ L.dataqubits
  xz : ∀ e ∈ L.edges, e.factor ≠ .Y

theorem Lattice.Pre.stab_not_log {L : Lattice} (h : L.Pre) {p : Pos} (hs : L.isStab p = true) : p ∉ L.logicals.map Prod.fst := by
  intro hl
  rw [Lattice.isStab, List.any_eq_true] at hs
  obtain ⟨s, hs, hp⟩ := hs
  have hp := of_decide_eq_true hp
  have := (List.nodup_append.mp h.occ).2.2
  exact this p (List.mem_append_right _ (hp ▸ List.mem_map_of_mem hs)) p hl rfl

theorem Lattice.Pre.data_not_log {L : Lattice} (h : L.Pre) {p : Pos} (hs : p ∈ L.dataqubits) : p ∉ L.logicals.map Prod.fst := by
  intro hl
  have := (List.nodup_append.mp h.occ).2.2
  exact this p (List.mem_append_left _ hs) p hl rfl

theorem Lattice.Pre.logs_nodup {L : Lattice} (h : L.Pre) : (L.logicals.map Prod.fst).Nodup := (List.nodup_append.mp h.occ).2.1

theorem isStab_mem {L : Lattice} {p : Pos} (hs : L.isStab p = true) : ∃ s ∈ L.stabgens, s.1 = p := by
  rw [Lattice.isStab, List.any_eq_true] at hs
  obtain ⟨s, hs, hp⟩ := hs
  exact ⟨s, hs, of_decide_eq_true hp⟩

theorem mem_isStab {L : Lattice} {s : Pos × StabGroup} (hs : s ∈ L.stabgens) : L.isStab s.1 = true := by
  rw [Lattice.isStab, List.any_eq_true]
  exact ⟨s, hs, decide_eq_true rfl⟩

/-- After a step with the edges of another operator. -/
theorem Step.pre {L L' : Lattice} {k : Pos} {es : List LEdge} {ex : Pos → Prop} (h : Step L L' k es ex) (hp : L.Pre)
    (hes : ∀ e ∈ es, e ∈ L.edges) : L'.Pre where
  occ := by
    have := hp.occ
    unfold Lattice.occupied at this ⊢
    rw [h.same.data, h.same.stabs, h.same.logs]
    exact this
  keys := h.keys
  data := by
    intro e he
    obtain ⟨e0, h0, h1, _⟩ := h.old e he
    rw [h.same.data, ← h1]
    rcases h0 with h0 | h0
    · exact hp.data _ h0
    · exact hp.data _ (hes _ h0)
  xz := by
    intro e he
    obtain ⟨e0, h0, _, h1⟩ := h.old e he
    rw [← h1]
    rcases h0 with h0 | h0
    · exact hp.xz _ h0
    · exact hp.xz _ (hes _ h0)

theorem Step.anti_left {L L' : Lattice} {k : Pos} {es : List LEdge} {ex : Pos → Prop} (h : Step L L' k es ex) (c : List LEdge) :
    antiE (L'.opEdges k) c = (antiE (L.opEdges k) c ^^ antiE es c) := h.sum _ (resp_anti c)

theorem removeVertex_pre {L L' : Lattice} (hp : L.Pre) {p : Pos} (h : L.removeVertex p = .ok L') : L'.Pre := by
  obtain ⟨he, _, rfl⟩ := removeVertex_spec h
  refine ⟨?_, hp.keys, ?_, hp.xz⟩
  · refine List.Nodup.sublist ?_ hp.occ
    unfold Lattice.occupied
    exact ((List.filter_sublist.append (List.filter_sublist.map _)).append (List.filter_sublist.map _))
  · intro e hm
    simp only [List.mem_filter]
    exact ⟨hp.data e hm, by simpa using (he e hm).2⟩

/-! ### Multiplying a logical operator with a stabiliser -/

theorem comm_mul {L L' : Lattice} (hp : L.Pre) (hc : L.Comm) {log stab : Pos} (hl : L.isStab log = false)
    (hs : L.isStab stab = true) (h : Step L L' log (L.opEdges stab) (fun _ => False)) : L'.Comm := by
  obtain ⟨s0, hs0, rfl⟩ := isStab_mem hs
  have ne : ∀ s ∈ L.stabgens, s.1 ≠ log := by
    rintro s hs' rfl
    rw [mem_isStab hs'] at hl; simp at hl
  refine ⟨?_, ?_, ?_⟩
  · intro s hs' t ht
    rw [h.same.stabs] at hs' ht
    rw [h.others _ (ne s hs') id, h.others _ (ne t ht) id]
    exact hc.stab_stab s hs' t ht
  · intro s hs' t ht
    rw [h.same.stabs] at hs'
    rw [h.same.logs] at ht
    rw [h.others _ (ne s hs') id]
    by_cases hk : t.1 = log
    · rw [hk, antiE_symm, h.anti_left, ← hk, antiE_symm, antiE_symm (L.opEdges s0.1), hc.stab_log s hs' t ht,
        hc.stab_stab s hs' s0 hs0]
      rfl
    · rw [h.others _ hk id]
      exact hc.stab_log s hs' t ht
  · intro i j a b hi hj
    rw [h.same.logs] at hi hj
    have key := hc.log_log i j a b hi hj
    have ma := List.mem_of_getElem? hi
    have mb := List.mem_of_getElem? hj
    by_cases ha : a.1 = log <;> by_cases hb : b.1 = log
    · have hij : i = j := by
        have h1 := hp.logs_nodup
        have e1 : (L.logicals.map Prod.fst)[i]? = some log := by rw [List.getElem?_map, hi]; simp [ha]
        have e2 : (L.logicals.map Prod.fst)[j]? = some log := by rw [List.getElem?_map, hj]; simp [hb]
        exact (List.getElem?_inj (by rw [List.getElem?_eq_some_iff] at e1; exact e1.1) h1).mp (e1.trans e2.symm)
      rw [ha, hb, antiE_self _ (h.keys.op_nodup _)]
      simp [hij]
    · rw [ha, h.anti_left, h.others _ hb id, ← ha, key, hc.stab_log s0 hs0 b mb]
      simp
    · rw [hb, antiE_symm, h.anti_left, h.others _ ha id, ← hb, antiE_symm, key, hc.stab_log s0 hs0 a ma]
      simp
    · rw [h.others _ ha id, h.others _ hb id]
      exact key

/-! ### Super-stabilisers -/

theorem createSuperstab_spec {L L' : Lattice} (hp : L.Pre) (hc : L.Comm) {keep remove : Pos} (hne : keep ≠ remove)
    (h : L.createSuperstab keep remove = .ok L') :
    L'.Pre ∧ L'.Comm ∧ L'.logicals = L.logicals ∧ L'.keepGauge = L.keepGauge ∧ L'.boundaryJoin = L.boundaryJoin ∧
      L'.dataqubits = L.dataqubits := by
  unfold Lattice.createSuperstab at h
  split at h
  · rename_i hst
    obtain ⟨hk, hr⟩ := hst
    cases hl : loopE (Lattice.mergeEdge keep) L (L.opEdges remove) with
    | error x => rw [hl] at h; simp at h
    | ok L1 =>
      rw [hl] at h
      simp only at h
      have st : Step L L1 keep (L.opEdges remove) (fun v => v = remove) := by
        refine loop_step _ _ ?_ L L1 hp.keys hl
        intro M M' e he hkM hM
        have hop := (mem_opEdges.mp he).2
        have := mergeEdge_step hkM (by rw [hop]; exact Ne.symm hne) hM
        rw [hop] at this
        exact this
      have hp1 := st.pre hp (fun e he => (mem_opEdges.mp he).1)
      have hp2 := removeVertex_pre hp1 h
      obtain ⟨hed, _, rfl⟩ := removeVertex_spec h
      obtain ⟨k0, hk0, rfl⟩ := isStab_mem hk
      obtain ⟨r0, hr0, rfl⟩ := isStab_mem hr
      have hlog : L1.logicals.filter (·.1 ≠ r0.1) = L.logicals := by
        rw [st.same.logs]
        exact filter_of_not_mem (hp.stab_not_log (mem_isStab hr0))
      have hdat : L1.dataqubits.filter (· ≠ r0.1) = L.dataqubits := by
        rw [st.same.data, List.filter_eq_self]
        intro a ha
        simp only [ne_eq, decide_not, Bool.not_eq_eq_eq_not, Bool.not_true, decide_eq_false_iff_not]
        rintro rfl
        have h1 := (List.nodup_append.mp hp.occ).1
        exact (List.nodup_append.mp h1).2.2 _ ha _ (List.mem_map_of_mem hr0) rfl
      refine ⟨hp2, ⟨?_, ?_, ?_⟩, hlog, st.same.gauge, st.same.join, hdat⟩
      · intro s hs t ht
        simp only [List.mem_filter, st.same.stabs, ne_eq, decide_not, Bool.not_eq_eq_eq_not, Bool.not_true, decide_eq_false_iff_not] at hs ht
        show antiE (L1.opEdges s.1) (L1.opEdges t.1) = false
        by_cases hs1 : s.1 = k0.1 <;> by_cases ht1 : t.1 = k0.1
        · rw [hs1, ht1]; exact antiE_self _ (st.keys.op_nodup _)
        · rw [hs1, st.anti_left, st.others _ ht1 ht.2, hc.stab_stab k0 hk0 t ht.1, hc.stab_stab r0 hr0 t ht.1]; rfl
        · rw [ht1, antiE_symm, st.anti_left, st.others _ hs1 hs.2, hc.stab_stab k0 hk0 s hs.1, hc.stab_stab r0 hr0 s hs.1]; rfl
        · rw [st.others _ hs1 hs.2, st.others _ ht1 ht.2]; exact hc.stab_stab s hs.1 t ht.1
      · intro s hs t ht
        have ht : t ∈ L1.logicals.filter (·.1 ≠ r0.1) := ht
        rw [hlog] at ht
        simp only [List.mem_filter, st.same.stabs, ne_eq, decide_not, Bool.not_eq_eq_eq_not, Bool.not_true, decide_eq_false_iff_not] at hs
        show antiE (L1.opEdges s.1) (L1.opEdges t.1) = false
        have n1 : t.1 ≠ k0.1 := fun hh => hp.stab_not_log (mem_isStab hk0) (hh ▸ List.mem_map_of_mem ht)
        have n2 : t.1 ≠ r0.1 := fun hh => hp.stab_not_log (mem_isStab hr0) (hh ▸ List.mem_map_of_mem ht)
        rw [st.others _ n1 n2]
        by_cases hs1 : s.1 = k0.1
        · rw [hs1, st.anti_left, hc.stab_log k0 hk0 t ht, hc.stab_log r0 hr0 t ht]; rfl
        · rw [st.others _ hs1 hs.2]; exact hc.stab_log s hs.1 t ht
      · intro i j a b hi hj
        have hi : (L1.logicals.filter (·.1 ≠ r0.1))[i]? = some a := hi
        have hj : (L1.logicals.filter (·.1 ≠ r0.1))[j]? = some b := hj
        rw [hlog] at hi hj
        show antiE (L1.opEdges a.1) (L1.opEdges b.1) = _
        have ma := List.mem_of_getElem? hi
        have mb := List.mem_of_getElem? hj
        have n1 : ∀ t ∈ L.logicals, t.1 ≠ k0.1 := fun t ht hh => hp.stab_not_log (mem_isStab hk0) (hh ▸ List.mem_map_of_mem ht)
        have n2 : ∀ t ∈ L.logicals, t.1 ≠ r0.1 := fun t ht hh => hp.stab_not_log (mem_isStab hr0) (hh ▸ List.mem_map_of_mem ht)
        rw [st.others _ (n1 a ma) (n2 a ma), st.others _ (n1 b mb) (n2 b mb)]
        exact hc.log_log i j a b hi hj
  · simp at h

/-! ### The groups of edges at a data qubit -/

/-- The groups of a list of edges. -/
structure Groups (gs : List (Letter × List LEdge)) (es : List LEdge) : Prop where
  perm : (gs.flatMap Prod.snd).Perm es
  letter : ∀ g ∈ gs, ∀ e ∈ g.2, e.factor = g.1
  nodup : (gs.map Prod.fst).Nodup
  ne : ∀ g ∈ gs, g.2 ≠ []

theorem groupAdd_spec {gs : List (Letter × List LEdge)} {es : List LEdge} (h : Groups gs es) (e : LEdge) :
    Groups (groupAdd gs e) (es ++ [e]) := by
  unfold groupAdd
  split
  · rename_i hany
    rw [List.any_eq_true] at hany
    obtain ⟨g0, hg0, hf0⟩ := hany
    have hf0 := of_decide_eq_true hf0
    have hmap : (gs.map fun g => if g.1 = e.factor then (g.1, g.2 ++ [e]) else g).map Prod.fst = gs.map Prod.fst := by
      rw [List.map_map]
      apply List.map_congr_left
      intro g _
      simp only [Function.comp]
      split <;> rfl
    refine ⟨?_, ?_, ?_, ?_⟩
    · have key : ∀ (gs : List (Letter × List LEdge)), (gs.map Prod.fst).Nodup → g0 ∈ gs →
          ((gs.map fun g => if g.1 = e.factor then (g.1, g.2 ++ [e]) else g).flatMap Prod.snd).Perm (gs.flatMap Prod.snd ++ [e]) := by
        intro gs
        induction gs with
        | nil => intro _ h; simp at h
        | cons g gs ih =>
          intro hn hm
          rw [List.map_cons, List.nodup_cons] at hn
          by_cases hg : g.1 = e.factor
          · have hrest : (gs.map fun g => if g.1 = e.factor then (g.1, g.2 ++ [e]) else g) = gs := by
              rw [List.map_congr_left (g := id), List.map_id]
              intro x hx
              have : x.1 ≠ e.factor := fun hc => hn.1 (by rw [hg, ← hc]; exact List.mem_map_of_mem hx)
              simp [this]
            rw [List.map_cons, hrest, if_pos hg, List.flatMap_cons, List.flatMap_cons, List.append_assoc, List.append_assoc]
            exact List.Perm.append_left _ List.perm_append_comm
          · rw [List.map_cons, if_neg hg, List.flatMap_cons, List.flatMap_cons, List.append_assoc]
            refine List.Perm.append_left _ (ih hn.2 ?_)
            rcases List.mem_cons.mp hm with rfl | hm
            · exact absurd hf0 hg
            · exact hm
      exact (key gs h.nodup hg0).trans (h.perm.append_right _)
    · intro g hg x hx
      obtain ⟨g', hg', rfl⟩ := List.mem_map.mp hg
      split at hx
      · rename_i hc
        rw [if_pos hc]
        rcases List.mem_append.mp hx with hx | hx
        · exact h.letter g' hg' x hx
        · simp only [List.mem_singleton] at hx
          rw [hx]; exact hc.symm
      · rename_i hc
        rw [if_neg hc]
        exact h.letter g' hg' x hx
    · rw [hmap]; exact h.nodup
    · intro g hg
      obtain ⟨g', hg', rfl⟩ := List.mem_map.mp hg
      split
      · simp
      · exact h.ne g' hg'
  · rename_i hany
    refine ⟨?_, ?_, ?_, ?_⟩
    · rw [List.flatMap_append]
      have := h.perm.append_right [e]
      simpa using this
    · intro g hg x hx
      rcases List.mem_append.mp hg with hg | hg
      · exact h.letter g hg x hx
      · simp only [List.mem_singleton] at hg
        subst hg
        simp only [List.mem_singleton] at hx
        rw [hx]
    · rw [List.map_append, List.nodup_append]
      refine ⟨h.nodup, by simp, ?_⟩
      intro a ha b hb hab
      simp only [List.map_cons, List.map_nil, List.mem_singleton] at hb
      subst hab
      obtain ⟨g, hg, hga⟩ := List.mem_map.mp ha
      apply hany
      rw [List.any_eq_true]
      exact ⟨g, hg, decide_eq_true (hga.trans hb)⟩
    · intro g hg
      rcases List.mem_append.mp hg with hg | hg
      · exact h.ne g hg
      · simp only [List.mem_singleton] at hg
        subst hg; simp

theorem groups_fold (es : List LEdge) : ∀ (gs : List (Letter × List LEdge)) (ds : List LEdge), Groups gs ds →
    Groups (es.foldl groupAdd gs) (ds ++ es) := by
  induction es with
  | nil => intro gs ds h; simpa using h
  | cons e es ih =>
    intro gs ds h
    rw [List.foldl_cons, List.append_cons]
    exact ih _ _ (groupAdd_spec h e)

theorem stabGroups_spec (L : Lattice) (q : Pos) :
    Groups (L.stabGroups q) ((L.dataEdges q).filter fun e => L.isStab e.op) := by
  have := groups_fold ((L.dataEdges q).filter fun e => L.isStab e.op) [] [] ⟨by simp, by simp, by simp, by simp⟩
  simpa [Lattice.stabGroups] using this

theorem mem_group {L : Lattice} {q : Pos} {g : Letter × List LEdge} (hg : g ∈ L.stabGroups q) {e : LEdge} (he : e ∈ g.2) :
    e ∈ L.edges ∧ e.data = q ∧ L.isStab e.op = true ∧ e.factor = g.1 := by
  have h := stabGroups_spec L q
  have hm : e ∈ (L.stabGroups q).flatMap Prod.snd := List.mem_flatMap.mpr ⟨g, hg, he⟩
  have hm := h.perm.mem_iff.mp hm
  simp only [Lattice.dataEdges, List.mem_filter, decide_eq_true_eq] at hm
  exact ⟨hm.1.1, hm.1.2, hm.2, h.letter g hg e he⟩

theorem group_of {L : Lattice} {q : Pos} {e : LEdge} (he : e ∈ L.edges) (hd : e.data = q) (hs : L.isStab e.op = true) :
    ∃ g ∈ L.stabGroups q, e ∈ g.2 := by
  have h := stabGroups_spec L q
  have hm : e ∈ (L.dataEdges q).filter fun e => L.isStab e.op := by
    simp [Lattice.dataEdges, he, hd, hs]
  exact List.mem_flatMap.mp (h.perm.mem_iff.mpr hm)

/-- With two letters there are at most two groups, and they have different letters. -/
theorem groups_two {L : Lattice} (hp : L.Pre) (q : Pos) {g g' g'' : Letter × List LEdge} (hg : g ∈ L.stabGroups q)
    (hg' : g' ∈ L.stabGroups q) (hg'' : g'' ∈ L.stabGroups q) (h1 : g.1 ≠ g'.1) : g'' = g ∨ g'' = g' := by
  have h := stabGroups_spec L q
  have hl : ∀ g ∈ L.stabGroups q, g.1 ≠ .Y := by
    intro g hg
    obtain ⟨e, he⟩ := List.exists_mem_of_ne_nil _ (h.ne g hg)
    have := mem_group hg he
    rw [← this.2.2.2]
    exact hp.xz e this.1
  have a := hl g hg
  have b := hl g' hg'
  have c := hl g'' hg''
  have : g''.1 = g.1 ∨ g''.1 = g'.1 := by
    cases hx : g.1 <;> cases hy : g'.1 <;> cases hz : g''.1 <;> simp_all
  rcases this with h2 | h2
  · exact Or.inl (List.inj_on_of_nodup_map h.nodup hg'' hg h2)
  · exact Or.inr (List.inj_on_of_nodup_map h.nodup hg'' hg' h2)

end Plaquette
