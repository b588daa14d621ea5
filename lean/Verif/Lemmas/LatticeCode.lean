import Verif.Lemmas.LatticeOp

/-!
# From a lattice to a code
-/

namespace Plaquette

/-- A lattice whose indices are up to date, with at most one vertex at a position, one edge between two vertices, and edges
to data qubits only. -/
structure Lattice.Wf (L : Lattice) : Prop where
  occ : L.occupied.Nodup
  indexed : L.indexed = L.occupied
  keys : (L.edges.map LEdge.key).Nodup
  data : ∀ e ∈ L.edges, e.data ∈ L.dataqubits

/-- The operators of the lattice have the commutation relations of a code. -/
structure Lattice.Comm (L : Lattice) : Prop where
  stab_stab : ∀ s ∈ L.stabgens, ∀ t ∈ L.stabgens, antiE (L.opEdges s.1) (L.opEdges t.1) = false
  stab_log : ∀ s ∈ L.stabgens, ∀ l ∈ L.logicals, antiE (L.opEdges s.1) (L.opEdges l.1) = false
  log_log : ∀ (i j : Nat) a b, L.logicals[i]? = some a → L.logicals[j]? = some b →
    antiE (L.opEdges a.1) (L.opEdges b.1) = decide (i / 2 = j / 2 ∧ i ≠ j)

/-- Every operator has an edge, there is a stabiliser, and the logical operators come in pairs. -/
structure Lattice.Full (L : Lattice) : Prop where
  stab : ∀ s ∈ L.stabgens, L.opEdges s.1 ≠ []
  log : ∀ l ∈ L.logicals, L.opEdges l.1 ≠ []
  stab_ne : L.stabgens ≠ []
  log_ne : L.logicals ≠ []
  log_even : L.logicals.length % 2 = 0

/-- The operator of a vertex. -/
def Lattice.vop (L : Lattice) (v : Pos) : Op L.dataqubits.length := edgesOp L.idx L.dataqubits.length (L.opEdges v)

/-- The code of a lattice. -/
def Lattice.code (L : Lattice) : StabCode L.dataqubits.length where
  stabilisers := L.stabgens.map fun s => L.vop s.1
  logicalOps := L.logicals.map fun s => L.vop s.1

namespace Lattice.Wf
variable {L : Lattice} (h : L.Wf)
include h

theorem idx_lt {p : Pos} (hp : p ∈ L.dataqubits) : L.idx p < L.dataqubits.length := by
  unfold Lattice.idx
  rw [h.indexed]
  unfold Lattice.occupied
  rw [List.idxOf_append_of_mem (by simp [hp]), List.idxOf_append_of_mem hp]
  exact List.idxOf_lt_length_of_mem hp

theorem idx_data {p : Pos} (hp : p ∈ L.dataqubits) : L.idx p = L.dataqubits.idxOf p := by
  unfold Lattice.idx
  rw [h.indexed]
  unfold Lattice.occupied
  rw [List.idxOf_append_of_mem (by simp [hp]), List.idxOf_append_of_mem hp]

theorem idx_inj {p q : Pos} (hp : p ∈ L.dataqubits) (_hq : q ∈ L.dataqubits) (he : L.idx p = L.idx q) : p = q := by
  unfold Lattice.idx at he
  rw [h.indexed] at he
  exact (List.idxOf_inj (by simp [Lattice.occupied, hp])).mp he

theorem op_data {v : Pos} {e : LEdge} (he : e ∈ L.opEdges v) : e.data ∈ L.dataqubits :=
  h.data e (List.mem_filter.mp he).1

theorem op_nodup (v : Pos) : ((L.opEdges v).map LEdge.data).Nodup := by
  have h1 : ((L.opEdges v).map LEdge.key).Nodup := (h.keys.sublist (List.filter_sublist.map _))
  rw [List.Nodup, List.pairwise_map] at h1 ⊢
  refine h1.imp_of_mem ?_
  intro a b ha hb hab hc
  apply hab
  have h1 := (List.mem_filter.mp ha).2
  have h2 := (List.mem_filter.mp hb).2
  simp only [decide_eq_true_eq] at h1 h2
  simp [LEdge.key, h1, h2, hc]

theorem op_idx_nodup (v : Pos) : ((L.opEdges v).map fun e => L.idx e.data).Nodup := by
  have h1 := h.op_nodup v
  rw [List.Nodup, List.pairwise_map] at h1 ⊢
  refine h1.imp_of_mem ?_
  intro a b ha hb hab hc
  exact hab (h.idx_inj (h.op_data ha) (h.op_data hb) hc)

theorem operator {v : Pos} (hne : L.opEdges v ≠ []) : L.operator v = .ok ⟨L.dataqubits.length, L.vop v⟩ :=
  operator_eq L v hne (h.op_idx_nodup v) (fun _ he => h.idx_lt (h.op_data he))

/-- Anticommutation of the operators of two vertices. -/
theorem anti_vop (u v : Pos) : anti (L.vop u) (L.vop v) = antiE (L.opEdges u) (L.opEdges v) :=
  anti_edgesOp _ _ _ (fun _ he => h.idx_lt (h.op_data he))
    (fun _ ha _ hb he => h.idx_inj (h.op_data ha) (h.op_data hb) he)

end Lattice.Wf

theorem sameSize_map {α : Type} {n : Nat} (l : List α) (f : α → Op n) :
    sameSize n (l.map fun a => (⟨n, f a⟩ : AnyOp)) = .ok (l.map f) := by
  induction l with
  | nil => rfl
  | cons a l ih => simp [sameSize, ih]

theorem mkLatCode_ok {L : Lattice} (h : L.Wf) (hf : L.Full) (r : Nat) :
    mkLatCode L r = .ok { lattice := L, nRounds := r, n := L.dataqubits.length, code := L.code } := by
  have h1 : L.stabilisers = .ok (L.stabgens.map fun s => (⟨_, L.vop s.1⟩ : AnyOp)) :=
    mapLoop_ok _ (fun s hs => h.operator (hf.stab s hs))
  have h2 : L.logicalOperators = .ok (L.logicals.map fun s => (⟨_, L.vop s.1⟩ : AnyOp)) :=
    mapLoop_ok _ (fun s hs => h.operator (hf.log s hs))
  have h3 : mkStabCode (L.stabgens.map fun s => (⟨_, L.vop s.1⟩ : AnyOp)) (L.logicals.map fun s => (⟨_, L.vop s.1⟩ : AnyOp)) =
      .ok ⟨L.dataqubits.length, L.code⟩ := by
    have e1 := sameSize_map L.stabgens fun s => L.vop s.1
    have e2 := sameSize_map L.logicals fun s => L.vop s.1
    have hev := hf.log_even
    cases hs : L.stabgens with
    | nil => exact absurd hs hf.stab_ne
    | cons a as =>
      cases hl : L.logicals with
      | nil => exact absurd hl hf.log_ne
      | cons b bs =>
        rw [hs] at e1
        rw [hl] at e2 hev
        simp only [List.map_cons] at e1 e2
        simp only [List.map_cons, mkStabCode]
        rw [if_neg (by simpa using hev), e1, e2]
        simp [Lattice.code, hs, hl]
  unfold mkLatCode
  rw [h1, h2]
  simp only [h3]

/-- **Validity** of the code of a lattice. -/
theorem code_valid {L : Lattice} (h : L.Wf) (hc : L.Comm) : L.code.Valid where
  stab_stab a ha b hb := by
    simp only [Lattice.code, List.mem_map] at ha hb
    obtain ⟨s, hs, rfl⟩ := ha
    obtain ⟨t, ht, rfl⟩ := hb
    rw [commutes_iff, h.anti_vop]
    exact hc.stab_stab s hs t ht
  stab_log a ha b hb := by
    simp only [Lattice.code, List.mem_map] at ha hb
    obtain ⟨s, hs, rfl⟩ := ha
    obtain ⟨t, ht, rfl⟩ := hb
    rw [commutes_iff, h.anti_vop]
    exact hc.stab_log s hs t ht
  log_log i j a b ha hb := by
    simp only [Lattice.code, List.getElem?_map, Option.map_eq_some_iff] at ha hb
    obtain ⟨s, hs, rfl⟩ := ha
    obtain ⟨t, ht, rfl⟩ := hb
    have := hc.log_log i j s t hs ht
    by_cases hd : i / 2 = j / 2 ∧ i ≠ j
    · rw [if_pos hd, anticommutes_iff, h.anti_vop, this]; simp [hd]
    · rw [if_neg hd, commutes_iff, h.anti_vop, this]; simp only [decide_eq_false_iff_not]; exact hd

/-- If a code can be made from the lattice, it is the code of the lattice. -/
theorem mkLatCode_inv {L : Lattice} (h : L.Wf) {r : Nat} {c : LatCode} (hc : mkLatCode L r = .ok c) :
    L.Full ∧ c = { lattice := L, nRounds := r, n := L.dataqubits.length, code := L.code } := by
  have hemp : ∀ v, L.opEdges v = [] → ∃ e, L.operator v = .error e := by
    intro v hv
    refine ⟨.indexError, ?_⟩
    unfold Lattice.operator Lattice.opDict
    rw [hv]
    rw [List.map_nil, List.mergeSort_nil]; rfl
  have hloop : ∀ (l : List (Pos × StabGroup)) r, mapLoop (fun s => L.operator s.1) l = .ok r → ∀ s ∈ l, L.opEdges s.1 ≠ [] := by
    intro l
    induction l with
    | nil => intro r _ s hs; simp at hs
    | cons a l ih =>
      intro r hr s hs
      rw [mapLoop] at hr
      cases ha : L.operator a.1 with
      | error e => rw [ha] at hr; simp at hr
      | ok o =>
        rw [ha] at hr
        simp only at hr
        cases hl : mapLoop (fun s => L.operator s.1) l with
        | error e => rw [hl] at hr; simp at hr
        | ok r' =>
          rcases List.mem_cons.mp hs with rfl | hs
          · intro h0
            obtain ⟨e, he⟩ := hemp _ h0
            rw [he] at ha; simp at ha
          · exact ih r' hl s hs
  have hloop' : ∀ (l : List (Pos × List Char)) r, mapLoop (fun s => L.operator s.1) l = .ok r → ∀ s ∈ l, L.opEdges s.1 ≠ [] := by
    intro l
    induction l with
    | nil => intro r _ s hs; simp at hs
    | cons a l ih =>
      intro r hr s hs
      rw [mapLoop] at hr
      cases ha : L.operator a.1 with
      | error e => rw [ha] at hr; simp at hr
      | ok o =>
        rw [ha] at hr
        simp only at hr
        cases hl : mapLoop (fun s => L.operator s.1) l with
        | error e => rw [hl] at hr; simp at hr
        | ok r' =>
          rcases List.mem_cons.mp hs with rfl | hs
          · intro h0
            obtain ⟨e, he⟩ := hemp _ h0
            rw [he] at ha; simp at ha
          · exact ih r' hl s hs
  have hfull : L.Full := by
    unfold mkLatCode at hc
    cases hs : L.stabilisers with
    | error e => rw [hs] at hc; simp at hc
    | ok ss =>
      rw [hs] at hc
      simp only at hc
      cases hl : L.logicalOperators with
      | error e => rw [hl] at hc; simp at hc
      | ok ls =>
        rw [hl] at hc
        simp only at hc
        have f1 := hloop _ _ hs
        have f2 := hloop' _ _ hl
        have e1 : L.stabilisers = .ok (L.stabgens.map fun s => (⟨_, L.vop s.1⟩ : AnyOp)) :=
          mapLoop_ok _ (fun s hs => h.operator (f1 s hs))
        have e2 : L.logicalOperators = .ok (L.logicals.map fun s => (⟨_, L.vop s.1⟩ : AnyOp)) :=
          mapLoop_ok _ (fun s hs => h.operator (f2 s hs))
        rw [e1] at hs
        rw [e2] at hl
        simp only [Except.ok.injEq] at hs hl
        subst hs hl
        refine ⟨f1, f2, ?_, ?_, ?_⟩
        · intro h0; rw [h0] at hc; simp [mkStabCode] at hc
        · intro h0
          rw [h0] at hc
          cases hs : L.stabgens with
          | nil => rw [hs] at hc; simp [mkStabCode] at hc
          | cons a as => rw [hs] at hc; simp [mkStabCode] at hc
        · by_contra h0
          cases hs : L.stabgens with
          | nil => rw [hs] at hc; simp [mkStabCode] at hc
          | cons a as => rw [hs] at hc; simp [mkStabCode, h0] at hc
  refine ⟨hfull, ?_⟩
  rw [mkLatCode_ok h hfull] at hc
  simp only [Except.ok.injEq] at hc
  exact hc.symm

/-! ### Tools for the families -/

/-- Edges of an operator when only the time steps were changed. -/
theorem opEdges_map {L : Lattice} {es : List LEdge} {f : LEdge → LEdge} (hf : ∀ e, (f e).op = e.op) (h : L.edges = es.map f)
    (v : Pos) : L.opEdges v = (es.filter fun e => e.op = v).map f := by
  unfold Lattice.opEdges
  rw [h, List.filter_map]
  congr 1
  apply List.filter_congr
  intro e _
  simp [hf]

theorem antiE_map {f : LEdge → LEdge} (hf : ∀ e, (f e).data = e.data ∧ (f e).factor = e.factor) (as bs : List LEdge) :
    antiE (as.map f) (bs.map f) = antiE as bs := by
  unfold antiE
  rw [xorSum_map]
  refine xorSum_congr fun a _ => ?_
  rw [xorSum_map]
  refine xorSum_congr fun b _ => ?_
  simp [pairAnti, hf]

/-- Against a list of edges with distinct data qubits. -/
theorem xorSum_pairAnti {bs : List LEdge} (hn : (bs.map LEdge.data).Nodup) (a : LEdge) :
    xorSum bs (pairAnti a) = decide (∃ b ∈ bs, b.data = a.data ∧ b.factor ≠ a.factor) := by
  by_cases h : ∃ b ∈ bs, b.data = a.data
  · obtain ⟨b, hb, hba⟩ := h
    rw [xorSum_unique hb (List.Nodup.of_map _ hn)]
    · rw [pairAnti]
      have : (∃ b ∈ bs, b.data = a.data ∧ b.factor ≠ a.factor) ↔ a.factor ≠ b.factor := by
        constructor
        · rintro ⟨c, hc, h1, h2⟩
          have : c = b := List.inj_on_of_nodup_map hn hc hb (h1.trans hba.symm)
          subst this
          exact fun h => h2 h.symm
        · intro h; exact ⟨b, hb, hba, fun h' => h h'.symm⟩
      simp only [this]
      simp [hba]
    · intro c hc hcb
      have : ¬ a.data = c.data := fun h =>
        hcb (List.inj_on_of_nodup_map hn hc hb (h.symm.trans hba.symm))
      simp [pairAnti, this]
  · have : ¬ ∃ b ∈ bs, b.data = a.data ∧ b.factor ≠ a.factor := fun ⟨b, hb, h1, _⟩ => h ⟨b, hb, h1⟩
    simp only [this, decide_false]
    refine xorSum_false fun b hb => ?_
    have : ¬ a.data = b.data := fun h' => h ⟨b, hb, h'.symm⟩
    simp [pairAnti, this]

/-- Operators with one common letter commute. -/
theorem antiE_same_letter {as bs : List LEdge} (f : Letter) (ha : ∀ a ∈ as, a.factor = f) (hb : ∀ b ∈ bs, b.factor = f) :
    antiE as bs = false := by
  refine xorSum_false fun a haa => xorSum_false fun b hbb => ?_
  simp [pairAnti, ha a haa, hb b hbb]

/-- Operators without a common data qubit commute. -/
theorem antiE_disjoint {as bs : List LEdge} (h : ∀ a ∈ as, ∀ b ∈ bs, a.data ≠ b.data) : antiE as bs = false := by
  refine xorSum_false fun a haa => xorSum_false fun b hbb => ?_
  simp [pairAnti, h a haa b hbb]

theorem xor_decide (P Q : Prop) [Decidable P] [Decidable Q] : (decide P ^^ decide Q) = decide (¬ (P ↔ Q)) := by
  by_cases hP : P <;> by_cases hQ : Q <;> simp [hP, hQ]

end Plaquette
