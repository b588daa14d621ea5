import Verif.Lemmas.Distance
import Verif.Lemmas.Repetition
import Verif.Lemmas.SmallCodes

/-!
# Distance of the repetition code, the five-qubit code and the Shor code
-/

namespace Plaquette

/-- Every operator that anticommutes with a logical operator acts on some qubit. -/
theorem Lattice.Wf.weight_pos {L : Lattice} (h : L.Wf) {c : Op L.dataqubits.length} {v : Pos} (hc : anti (L.vop v) c = true) :
    1 ≤ c.weight := by
  rw [h.anti_vop_hit] at hc
  refine h.weight_ge (d := 1) (fun _ => (L.opEdges v).map fun e => (e.data, e.factor)) ?_ (by intros; omega)
  intro k _
  rw [xorSum_map]
  exact hc

namespace Rep

variable {size : Nat}

theorem distance (h3 : 3 ≤ size) : (lat size).code.HasDistance 1 := by
  refine (wf size h3).distance (comm size h3) ?_ ⟨0, ((size - 1, 1), ['X']), ((2 * size - 1, 0), ['Z']), rfl, rfl, rfl, Or.inr ?_⟩
  · intro c _ l _ h
    exact (wf size h3).weight_pos h
  · rw [op_z]; rfl

/-- Errors that are products of `X` need the weight `size`. -/
theorem bitflip (h3 : 3 ≤ size) {c : Op (lat size).dataqubits.length} (hx : ∀ q, c.z q = false)
    (hc : ∀ st ∈ stabs size, anti ((lat size).vop st.1) c = false) {l : Pos × List Char} (hl : l ∈ logs size)
    (h : anti ((lat size).vop l.1) c = true) : size ≤ c.weight := by
  have hX : ∀ p, (lat size).hit c p .X = false := by
    intro p
    unfold Lattice.hit
    split
    · simp [hx, Letter.hasZ]
    · rfl
  rw [(wf size h3).anti_vop_hit] at h
  simp only [logs, List.mem_cons, List.not_mem_nil, or_false] at hl
  rcases hl with rfl | rfl
  · rw [op_x, xorSum_false] at h
    · simp at h
    · intro e he
      simp only [xEdges, List.mem_map] at he
      obtain ⟨i, _, rfl⟩ := he
      exact hX _
  · rw [op_z] at h
    simp only [zEdges, xorSum_cons, xorSum_nil, Bool.xor_false, mkEdge] at h
    refine (wf size h3).weight_ge_lines (d := size) (m := 1) (fun k _ => (2 * (k : Int), 0)) (fun _ _ => .Z) (k₀ := size - 1) (by omega) ?_ ?_ ?_
    · simp only [List.range_one, xorSum_cons, xorSum_nil, Bool.xor_false]
      rw [← h]
      congr 2
      omega
    · intro k hk
      have hi : 2 * (k : Int) + 1 ∈ stabCells size := mem_stabCells.mpr (by omega)
      have := hc ((2 * (k : Int) + 1, 0), .A) (List.mem_map.mpr ⟨_, hi, rfl⟩)
      rw [(wf size h3).anti_vop_hit, op_stab _ _ hi] at this
      simp only [stabEdges, xorSum_cons, xorSum_nil, Bool.xor_false, mkEdge] at this
      simp only [List.range_one, xorSum_cons, xorSum_nil, Bool.xor_false]
      rw [← this]
      congr 2 <;> congr 1 <;> omega
    · intro k _ l _ i _ j _ h
      simp only [Prod.mk.injEq] at h
      omega

theorem twoAt (a : Letter) : (lat size).TwoAt a := by
  intro p hp
  refine ⟨(p.1 + 1, 0), (p.1 - 1, 0), ?_⟩
  intro st hst e he hd _
  have hst : st ∈ stabs size := hst
  obtain ⟨i, hi, hst⟩ := List.mem_map.mp hst
  subst hst
  rw [op_stab _ _ hi] at he
  simp only [stabEdges, List.mem_cons, List.not_mem_nil, or_false] at he
  rcases he with rfl | rfl
  · left; simp only [mkEdge] at hd; subst hd; simp
  · right; simp only [mkEdge] at hd; subst hd; simp

end Rep

/-! ### Checks by evaluation -/

/-- The value of a letter on a data qubit at `p`, against an operator that acts on at most the qubits at `P` and `Q`. -/
def twoHit (P Q : Pos) (b : (Bool × Bool) × Bool × Bool) (p : Pos) (a : Letter) : Bool :=
  (decide (p = P) && ((a.hasX && b.1.2) ^^ (a.hasZ && b.1.1))) ^^
    (decide (p = Q) && decide (Q ≠ P) && ((a.hasX && b.2.2) ^^ (a.hasZ && b.2.1)))

/-- No error on at most two qubits changes the logical qubits without being seen. -/
def Lattice.distThree (L : Lattice) : Bool :=
  decide (∀ P ∈ L.dataqubits, ∀ Q ∈ L.dataqubits, ∀ b : (Bool × Bool) × Bool × Bool,
    (∀ st ∈ L.stabgens, xorSum (L.opEdges st.1) (fun e => twoHit P Q b e.data e.factor) = false) →
      ∀ l ∈ L.logicals, xorSum (L.opEdges l.1) (fun e => twoHit P Q b e.data e.factor) = false)

theorem Lattice.Wf.two_qubits {L : Lattice} (h : L.Wf) {c : Op L.dataqubits.length} (hne : L.dataqubits ≠ []) (hw : c.weight ≤ 2) :
    ∃ P ∈ L.dataqubits, ∃ Q ∈ L.dataqubits, ∃ b, ∀ p ∈ L.dataqubits, ∀ a, L.hit c p a = twoHit P Q b p a := by
  have hpos : 0 < L.dataqubits.length := List.length_pos_iff.mpr hne
  obtain ⟨q, r, hqr⟩ : ∃ q r : Fin L.dataqubits.length, ∀ t, (c.x t || c.z t) = true → t = q ∨ t = r := by
    rw [Op.weight, List.countP_eq_length_filter] at hw
    have hm : ∀ t, (c.x t || c.z t) = true ↔ t ∈ (List.finRange _).filter fun q => c.x q || c.z q := by
      intro t; simp
    revert hw hm
    generalize (List.finRange _).filter _ = S
    intro hw hm
    match S, hw with
    | [], _ => exact ⟨⟨0, hpos⟩, ⟨0, hpos⟩, fun t ht => by simp [hm] at ht⟩
    | [q], _ => exact ⟨q, q, fun t ht => by simpa [hm] using ht⟩
    | [q, r], _ => exact ⟨q, r, fun t ht => by simpa [hm] using ht⟩
    | _ :: _ :: _ :: _, hw => simp at hw
  have hn : L.dataqubits.Nodup := by
    have := h.occ
    rw [Lattice.occupied, List.append_assoc] at this
    exact (List.nodup_append.mp this).1
  have hidx : ∀ t : Fin L.dataqubits.length, L.idx L.dataqubits[t.val] = t.val := by
    intro t
    rw [h.idx_data (List.getElem_mem _)]
    exact List.Nodup.idxOf_getElem hn _ _
  refine ⟨L.dataqubits[q.val], List.getElem_mem _, L.dataqubits[r.val], List.getElem_mem _, ((c.x q, c.z q), c.x r, c.z r), ?_⟩
  intro p hp a
  have hlt := h.idx_lt hp
  have hpe : p = L.dataqubits[L.idx p] := h.idx_inj hp (List.getElem_mem _) (by rw [hidx ⟨L.idx p, hlt⟩])
  unfold Lattice.hit twoHit
  rw [dif_pos ⟨hp, hlt⟩]
  by_cases h1 : (⟨L.idx p, hlt⟩ : Fin _) = q
  · subst h1
    have e3 : p = L.dataqubits[r.val] → ¬ L.dataqubits[r.val] ≠ p := fun h h' => h' h.symm
    rw [← hpe]
    by_cases h4 : p = L.dataqubits[r.val]
    · simp [← h4]
    · simp [h4]
  · have e1 : p ≠ L.dataqubits[q.val] := by
      intro hc
      apply h1
      ext
      show L.idx p = q.val
      rw [hc, hidx]
    by_cases h2 : (⟨L.idx p, hlt⟩ : Fin _) = r
    · subst h2
      simp [← hpe, e1]
    · have e2 : p ≠ L.dataqubits[r.val] := by
        intro hc
        apply h2
        ext
        show L.idx p = r.val
        rw [hc, hidx]
      have h0 : ¬ (c.x ⟨L.idx p, hlt⟩ || c.z ⟨L.idx p, hlt⟩) = true := fun hc => (hqr _ hc).elim h1 h2
      simp only [Bool.or_eq_true, not_or, Bool.not_eq_true] at h0
      simp [e1, e2, h0]

theorem Lattice.Wf.three_le {L : Lattice} (h : L.Wf) (hd : L.distThree = true) {c : Op L.dataqubits.length}
    (hc : ∀ st ∈ L.stabgens, anti (L.vop st.1) c = false) {l : Pos × List Char} (hl : l ∈ L.logicals)
    (hlc : anti (L.vop l.1) c = true) : 3 ≤ c.weight := by
  by_contra hw
  have hne : L.dataqubits ≠ [] := by
    intro h0
    have := h.weight_pos hlc
    have hle : c.weight ≤ L.dataqubits.length := by
      unfold Op.weight
      exact (List.countP_le_length).trans (by simp)
    have h00 : L.dataqubits.length = 0 := by rw [h0]; rfl
    omega
  obtain ⟨P, hP, Q, hQ, b, hb⟩ := h.two_qubits (c := c) hne (by omega)
  have key : ∀ v, anti (L.vop v) c = xorSum (L.opEdges v) (fun e => twoHit P Q b e.data e.factor) := by
    intro v
    rw [h.anti_vop_hit]
    exact xorSum_congr fun e he => hb _ (h.op_data he) _
  have := (of_decide_eq_true hd) P hP Q hQ b (fun st hst => by rw [← key]; exact hc st hst) l hl
  rw [← key, hlc] at this
  simp at this

/-- An undetected error that changes the logical qubits, given by its letters. -/
theorem Lattice.Wf.attained {L : Lattice} (h : L.Wf) (ws : List LEdge) (hd : ∀ e ∈ ws, e.data ∈ L.dataqubits)
    (hn : (ws.map LEdge.data).Nodup) (hs : ∀ st ∈ L.stabgens, antiE (L.opEdges st.1) ws = false)
    (hl : ∃ l ∈ L.logicals, antiE (L.opEdges l.1) ws = true) : ∃ e, L.code.IsLogical e ∧ e.weight = ws.length := by
  have key : ∀ v, anti (L.vop v) (edgesOp L.idx L.dataqubits.length ws) = antiE (L.opEdges v) ws := fun v =>
    anti_edgesOp _ _ _ (fun _ he => h.idx_lt (h.op_data he)) (fun _ ha _ hb he => h.idx_inj (h.op_data ha) (hd _ hb) he)
  refine ⟨edgesOp L.idx L.dataqubits.length ws, ⟨?_, ?_⟩, ?_⟩
  · intro a ha
    obtain ⟨st, hst, rfl⟩ := List.mem_map.mp ha
    rw [commutes_iff, key]
    exact hs st hst
  · obtain ⟨l, hl, hlw⟩ := hl
    exact ⟨_, List.mem_map_of_mem (f := fun s => L.vop s.1) hl, by rw [anticommutes_iff, key]; exact hlw⟩
  · refine weight_edgesOp _ _ ?_ fun e he => h.idx_lt (hd e he)
    rw [List.Nodup, List.pairwise_map] at hn ⊢
    exact hn.imp_of_mem fun ha hb hab hc => hab (h.idx_inj (hd _ ha) (hd _ hb) hc)

/-- Evaluation of a constructor. -/
def distResult (x : Except Err Lattice) (ws : List LEdge) : Bool :=
  match x with
  | .ok L => L.distThree && decide (∀ e ∈ ws, e.data ∈ L.dataqubits) && decide (ws.map LEdge.data).Nodup &&
      decide (∀ st ∈ L.stabgens, antiE (L.opEdges st.1) ws = false) && decide (∃ l ∈ L.logicals, antiE (L.opEdges l.1) ws = true) &&
      decide (ws.length = 3)
  | .error _ => false

theorem distResult_spec {L : Lattice} {ws : List LEdge} (hL : L.Wf) (h : distResult (.ok L) ws = true) : L.code.HasDistance 3 := by
  simp only [distResult, Bool.and_eq_true, decide_eq_true_eq] at h
  obtain ⟨⟨⟨⟨⟨h1, h2⟩, h3⟩, h4⟩, h5⟩, h6⟩ := h
  refine ⟨h6 ▸ hL.attained ws h2 h3 h4 h5, ?_⟩
  rintro e ⟨k1, a, ha, k2⟩
  obtain ⟨l, hl, rfl⟩ := List.mem_map.mp ha
  refine hL.three_le h1 ?_ hl ((anticommutes_iff _ _).mp k2)
  intro st hst
  exact (commutes_iff _ _).mp (k1 _ (List.mem_map_of_mem (f := fun s => L.vop s.1) hst))

def fiveWitness : List LEdge := [mkEdge (1, 1) (0, 0) .Y, mkEdge (2, 1) (0, 0) .Y, mkEdge (4, 1) (0, 0) .X]
def shorWitness : List LEdge := [mkEdge (0, 1) (0, 0) .X, mkEdge (1, 1) (0, 0) .X, mkEdge (2, 1) (0, 0) .X]

set_option maxRecDepth 100000 in
theorem five_dist : distResult fiveQubitLattice fiveWitness = true := by decide +kernel

set_option maxRecDepth 100000 in
theorem shor_dist : distResult shorLattice shorWitness = true := by decide +kernel

/-- The condition `TwoAt`, by evaluation. -/
def twoAtResult (x : Except Err Lattice) (a : Letter) : Bool :=
  match x with
  | .ok L => decide (∀ p ∈ L.dataqubits, (L.stabgens.filter fun st => (L.opEdges st.1).any fun e => e.data = p && e.factor ≠ a).length ≤ 2)
  | .error _ => true

theorem twoAtResult_spec {L : Lattice} {a : Letter} (h : twoAtResult (.ok L) a = true) : L.TwoAt a := by
  intro p hp
  have h1 := of_decide_eq_true h p hp
  have hm : ∀ st ∈ L.stabgens, ∀ e ∈ L.opEdges st.1, e.data = p → e.factor ≠ a →
      st ∈ L.stabgens.filter fun st => (L.opEdges st.1).any fun e => e.data = p && e.factor ≠ a := by
    intro st hst e he h1 h2
    rw [List.mem_filter]
    refine ⟨hst, List.any_eq_true.mpr ⟨e, he, ?_⟩⟩
    simp [h1, h2]
  revert h1 hm
  generalize (L.stabgens.filter _) = S
  intro h1 hm
  match S, h1 with
  | [], _ => exact ⟨(0, 0), (0, 0), fun st hst e he k1 k2 => by simpa using hm st hst e he k1 k2⟩
  | [u], _ => exact ⟨u.1, u.1, fun st hst e he k1 k2 => by
      have := hm st hst e he k1 k2
      simp only [List.mem_singleton] at this
      simp [this]⟩
  | [u, v], _ => exact ⟨u.1, v.1, fun st hst e he k1 k2 => by
      have := hm st hst e he k1 k2
      simp only [List.mem_cons, List.not_mem_nil, or_false] at this
      rcases this with rfl | rfl <;> simp⟩
  | _ :: _ :: _ :: _, h1 => simp at h1

set_option maxRecDepth 100000 in
theorem five_two : (twoAtResult fiveQubitLattice .X && twoAtResult fiveQubitLattice .Z) = true := by decide +kernel

set_option maxRecDepth 100000 in
theorem shor_two : (twoAtResult shorLattice .X && twoAtResult shorLattice .Z) = true := by decide +kernel

end Plaquette
