import Verif.Lemmas.CodeProps
import Verif.Lemmas.Family
import Verif.Lemmas.Syngraph

/-!
# Distance of a code and number of stabilisers flipped by an error
-/

namespace Plaquette

/-! ### Letters on data qubits against an operator -/

/-- Does the letter `a` on the data qubit at `p` anticommute with `c`? -/
def Lattice.hit (L : Lattice) (c : Op L.dataqubits.length) (p : Pos) (a : Letter) : Bool :=
  if h : p ∈ L.dataqubits ∧ L.idx p < L.dataqubits.length then
    (a.hasX && c.z ⟨L.idx p, h.2⟩) ^^ (a.hasZ && c.x ⟨L.idx p, h.2⟩)
  else false

theorem Lattice.hit_out {L : Lattice} {c : Op L.dataqubits.length} {p : Pos} {a : Letter} (h : p ∉ L.dataqubits) :
    L.hit c p a = false := dif_neg fun hc => h hc.1

/-- Where a letter anticommutes with `c`, `c` is not the identity. -/
theorem Lattice.hit_acts {L : Lattice} {c : Op L.dataqubits.length} {p : Pos} {a : Letter} (h : L.hit c p a = true) :
    ∃ q : Fin L.dataqubits.length, p ∈ L.dataqubits ∧ q.val = L.idx p ∧ (c.x q || c.z q) = true ∧
      ((a.hasX && c.z q) ^^ (a.hasZ && c.x q)) = true := by
  unfold Lattice.hit at h
  split at h
  · rename_i hp
    refine ⟨⟨L.idx p, hp.2⟩, hp.1, rfl, ?_, h⟩
    revert h
    cases c.x ⟨L.idx p, hp.2⟩ <;> cases c.z ⟨L.idx p, hp.2⟩ <;> simp
  · simp at h

theorem Lattice.Wf.anti_edge_hit {L : Lattice} (h : L.Wf) (c : Op L.dataqubits.length) {e : LEdge} (he : e.data ∈ L.dataqubits) :
    anti (edgesOp L.idx L.dataqubits.length [e]) c = L.hit c e.data e.factor := by
  have hlt := h.idx_lt he
  unfold Lattice.hit anti
  rw [dif_pos ⟨he, hlt⟩, Finset.sum_eq_single (⟨L.idx e.data, hlt⟩ : Fin _)]
  · simp only [edgesOp, xorSum_cons, xorSum_nil, Bool.xor_false, decide_true, Bool.true_and]
    cases e.factor <;> cases c.x ⟨L.idx e.data, hlt⟩ <;> cases c.z ⟨L.idx e.data, hlt⟩ <;> rfl
  · intro q _ hq
    have : ¬ L.idx e.data = q.val := fun hc => hq (Fin.ext hc.symm)
    simp [edgesOp, this, bit]
  · simp

theorem Lattice.Wf.anti_edges_hit {L : Lattice} (h : L.Wf) (c : Op L.dataqubits.length) (es : List LEdge)
    (he : ∀ e ∈ es, e.data ∈ L.dataqubits) :
    anti (edgesOp L.idx L.dataqubits.length es) c = xorSum es fun e => L.hit c e.data e.factor := by
  induction es with
  | nil => rw [anti_edgesOp_nil]; rfl
  | cons a es ih =>
    rw [anti_edgesOp_cons, h.anti_edge_hit c (he a (by simp)), ih (fun e h => he e (by simp [h])), xorSum_cons]

theorem Lattice.Wf.anti_vop_hit {L : Lattice} (h : L.Wf) (c : Op L.dataqubits.length) (v : Pos) :
    anti (L.vop v) c = xorSum (L.opEdges v) fun e => L.hit c e.data e.factor :=
  h.anti_edges_hit c _ fun _ he => h.op_data he

/-- An operator that anticommutes with `d` products of letters on disjoint sets of qubits has at least the weight `d`. -/
theorem Lattice.Wf.weight_ge {L : Lattice} (h : L.Wf) {c : Op L.dataqubits.length} {d : Nat} (T : Nat → List (Pos × Letter))
    (ht : ∀ k < d, xorSum (T k) (fun a => L.hit c a.1 a.2) = true)
    (hd : ∀ k < d, ∀ l < d, ∀ a ∈ T k, ∀ b ∈ T l, a.1 = b.1 → k = l) : d ≤ c.weight := by
  have : ∀ k : Fin d, ∃ q : Fin L.dataqubits.length, (c.x q || c.z q) = true ∧ ∃ a ∈ T k, a.1 ∈ L.dataqubits ∧ q.val = L.idx a.1 := by
    intro k
    have hk := ht k k.2
    by_contra hc
    rw [xorSum_false] at hk
    · simp at hk
    · intro a ha
      by_contra h0
      obtain ⟨q, h1, h2, h3, _⟩ := Lattice.hit_acts (by simpa using h0)
      exact hc ⟨q, h3, a, ha, h1, h2⟩
  choose f h1 a h2 h3 h4 using this
  have hinj : Function.Injective f := by
    intro k l hkl
    apply Fin.ext
    refine hd k k.2 l l.2 (a k) (h2 k) (a l) (h2 l) (h.idx_inj (h3 k) (h3 l) ?_)
    rw [← h4, ← h4, hkl]
  have hn : ((List.finRange d).map f).Nodup := (List.nodup_finRange d).map hinj
  have hs : (List.finRange d).map f ⊆ (List.finRange _).filter fun q => c.x q || c.z q := by
    intro q hq
    obtain ⟨k, _, rfl⟩ := List.mem_map.mp hq
    simp only [List.mem_filter, List.mem_finRange, true_and]
    exact h1 k
  have := (hn.subperm hs).length_le
  rw [List.length_map, List.length_finRange] at this
  rw [Op.weight, List.countP_eq_length_filter]
  exact this

/-- Lines that do not change from one to the next. -/
theorem lines_const {d : Nat} (t : Nat → Bool) (hs : ∀ k, k + 1 < d → (t k ^^ t (k + 1)) = false) {k₀ : Nat} (h0 : k₀ < d)
    (h : t k₀ = true) : ∀ k < d, t k = true := by
  have key : ∀ k < d, t k = t 0 := by
    intro k
    induction k with
    | zero => intro _; rfl
    | succ k ih =>
      intro hk
      have h1 := hs k hk
      rw [← ih (by omega)]
      revert h1
      cases t k <;> cases t (k + 1) <;> simp
  intro k hk
  rw [key k hk, ← key k₀ h0, h]

theorem xorSum_range_succ (m : Nat) (f : Nat → Bool) : xorSum (List.range (m + 1)) f = (xorSum (List.range m) f ^^ f m) := by
  rw [List.range_succ, xorSum_append]; simp

/-- A telescope. -/
theorem xorSum_tele (m : Nat) (g : Nat → Bool) : xorSum (List.range m) (fun i => g i ^^ g (i + 1)) = (g 0 ^^ g m) := by
  induction m with
  | zero => simp
  | succ m ih =>
    rw [xorSum_range_succ, ih]
    cases g 0 <;> cases g m <;> cases g (m + 1) <;> rfl

/-- Pairs of neighbours: every second pair is equal. -/
theorem xorSum_pairs (m : Nat) (r : Nat) (g : Nat → Bool) (h0 : g 0 = false) (hm : g (m + 1) = false)
    (hp : ∀ i ≤ m, i % 2 = r % 2 → g i = g (i + 1)) : xorSum (List.range m) (fun i => g (i + 1)) = false := by
  have key : ∀ j ≤ m, xorSum (List.range j) (fun i => g (i + 1)) = if j % 2 = r % 2 then g j else false := by
    intro j
    induction j with
    | zero => intro _; simp [h0]
    | succ j ih =>
      intro hj
      rw [xorSum_range_succ, ih (by omega)]
      by_cases hr : j % 2 = r % 2
      · rw [if_pos hr, if_neg (by omega), hp j (by omega) hr]; simp
      · rw [if_neg hr, if_pos (by omega)]; simp
  rw [key m le_rfl]
  by_cases hr : m % 2 = r % 2
  · rw [if_pos hr, hp m le_rfl hr, hm]
  · rw [if_neg hr]

theorem xorSum_pyRange (m : Nat) (f : Int → Bool) : xorSum (pyRange 0 m 1) f = xorSum (List.range m) fun i => f (i : Int) := by
  have : pyRange 0 m 1 = (List.range m).map fun (i : Nat) => (i : Int) := by
    unfold pyRange
    congr 1
    · funext k; omega
    · congr 1; omega
  rw [this, xorSum_map]

/-- The operator of a vertex with an edge in each of some directions, except those that lead outside. -/
theorem Lattice.Wf.anti_dirs {L : Lattice} (h : L.Wf) {v : Pos} {δ : Type} {dirs : List δ} {out : δ → Prop} [DecidablePred out]
    {mk : δ → LEdge} {f : LEdge → LEdge} (hf : ∀ e, (f e).data = e.data ∧ (f e).factor = e.factor)
    (hv : L.opEdges v = (dirEdges dirs out mk).map f) (ho : ∀ d ∈ dirs, out d → (mk d).data ∉ L.dataqubits)
    (c : Op L.dataqubits.length) : anti (L.vop v) c = xorSum dirs fun d => L.hit c (mk d).data (mk d).factor := by
  rw [h.anti_vop_hit, hv, xorSum_map, dirEdges, xorSum_filterMap]
  refine xorSum_congr fun d hd => ?_
  by_cases h0 : out d
  · rw [if_pos h0, Lattice.hit_out (ho d hd h0)]
  · rw [if_neg h0]
    simp [hf]

/-- The operator of a line. -/
theorem Lattice.Wf.anti_line {L : Lattice} (h : L.Wf) {v : Pos} {m : Nat} {op : Pos} {pos : Int → Pos} {a : Int → Letter}
    {f : LEdge → LEdge} (hf : ∀ e, (f e).data = e.data ∧ (f e).factor = e.factor)
    (hv : L.opEdges v = (lineE m op pos a).map f)
    (c : Op L.dataqubits.length) : anti (L.vop v) c = xorSum (List.range m) fun i => L.hit c (pos i) (a i) := by
  rw [h.anti_vop_hit, hv, xorSum_map, lineE, xorSum_map, xorSum_pyRange]
  refine xorSum_congr fun i _ => ?_
  simp [hf, mkEdge]

/-- A lower bound of the distance, from lines of letters: line `k₀` is a logical operator, and the stabilisers between two
lines make them equivalent. -/
theorem Lattice.Wf.weight_ge_lines {L : Lattice} (h : L.Wf) {c : Op L.dataqubits.length} {d m : Nat} (pos : Nat → Nat → Pos)
    (a : Nat → Nat → Letter) {k₀ : Nat} (h0 : k₀ < d) (hl : xorSum (List.range m) (fun i => L.hit c (pos k₀ i) (a k₀ i)) = true)
    (hs : ∀ k, k + 1 < d → xorSum (List.range m) (fun i => L.hit c (pos k i) (a k i) ^^ L.hit c (pos (k + 1) i) (a (k + 1) i)) = false)
    (hd : ∀ k < d, ∀ l < d, ∀ i < m, ∀ j < m, pos k i = pos l j → k = l) : d ≤ c.weight := by
  refine h.weight_ge (fun k => (List.range m).map fun i => (pos k i, a k i)) ?_ ?_
  · refine lines_const _ ?_ h0 ?_
    · intro k hk
      rw [xorSum_map, xorSum_map, ← xorSum_xor]
      exact hs k hk
    · rw [xorSum_map]
      exact hl
  · intro k hk l hl x hx y hy hxy
    simp only [List.mem_map, List.mem_range] at hx hy
    obtain ⟨i, hi, rfl⟩ := hx
    obtain ⟨j, hj, rfl⟩ := hy
    exact hd k hk l hl i hi j hj hxy

/-- The distance of the code of a lattice. -/
theorem Lattice.Wf.distance {L : Lattice} (h : L.Wf) (hc : L.Comm) {d : Nat}
    (hd : ∀ c : Op L.dataqubits.length, (∀ st ∈ L.stabgens, anti (L.vop st.1) c = false) →
      ∀ l ∈ L.logicals, anti (L.vop l.1) c = true → d ≤ c.weight)
    (hw : ∃ (i : Nat) (a b : Pos × List Char), L.logicals[i]? = some a ∧ L.logicals[i + 1]? = some b ∧ i % 2 = 0 ∧
      ((L.opEdges a.1).length = d ∨ (L.opEdges b.1).length = d)) : L.code.HasDistance d := by
  have hv := code_valid h hc
  refine ⟨?_, ?_⟩
  · obtain ⟨i, a, b, ha, hb, hi, hw⟩ := hw
    have ha' : L.code.logicalOps[i]? = some (L.vop a.1) := by simp [Lattice.code, ha]
    have hb' : L.code.logicalOps[i + 1]? = some (L.vop b.1) := by simp [Lattice.code, hb]
    have hab := hv.log_log i (i + 1) _ _ ha' hb'
    have hba := hv.log_log (i + 1) i _ _ hb' ha'
    rw [if_pos ⟨by omega, by omega⟩] at hab hba
    rcases hw with hw | hw
    · exact ⟨L.vop a.1, ⟨fun s hs => hv.stab_log s hs _ (List.mem_of_getElem? ha'), _, List.mem_of_getElem? hb', hba⟩,
        by rw [h.weight, hw]⟩
    · exact ⟨L.vop b.1, ⟨fun s hs => hv.stab_log s hs _ (List.mem_of_getElem? hb'), _, List.mem_of_getElem? ha', hab⟩,
        by rw [h.weight, hw]⟩
  · rintro e ⟨h1, a, ha, h2⟩
    obtain ⟨l, hl, rfl⟩ := List.mem_map.mp ha
    refine hd e ?_ l hl ((anticommutes_iff _ _).mp h2)
    intro st hst
    exact (commutes_iff _ _).mp (h1 _ (List.mem_map_of_mem (f := fun s => L.vop s.1) hst))

/-! ### Stabilisers flipped by an error on one qubit -/

/-- Every data qubit has at most two stabilisers with a letter other than `a`. -/
def Lattice.TwoAt (L : Lattice) (a : Letter) : Prop :=
  ∀ p ∈ L.dataqubits, ∃ u v : Pos, ∀ st ∈ L.stabgens, ∀ e ∈ L.opEdges st.1, e.data = p → e.factor ≠ a → st.1 = u ∨ st.1 = v

theorem Lattice.Wf.flipped_le {L : Lattice} (h : L.Wf) {a : Letter} (ha : L.TwoAt a) (q : Fin L.dataqubits.length) :
    (flipped L.code.stabilisers (singleOp false a q)).length ≤ 2 := by
  have hp : L.dataqubits[q.val] ∈ L.dataqubits := List.getElem_mem _
  have hidx : L.idx L.dataqubits[q.val] = q.val := by
    have hn := h.occ
    rw [Lattice.occupied, List.append_assoc] at hn
    rw [h.idx_data hp]
    exact List.Nodup.idxOf_getElem (List.nodup_append.mp hn).1 _ _
  obtain ⟨u, v, huv⟩ := ha _ hp
  have hst : (L.stabgens.map Prod.fst).Nodup := by
    have hn := h.occ
    rw [Lattice.occupied] at hn
    exact (List.nodup_append.mp (List.nodup_append.mp hn).1).2.1
  have key : ∀ s ∈ flipped L.code.stabilisers (singleOp false a q), ∃ w, (L.stabgens.map Prod.fst)[s]? = some w ∧ (w = u ∨ w = v) := by
    intro s hs
    obtain ⟨g, hg, hanti⟩ := mem_flipped.mp hs
    simp only [Lattice.code, List.getElem?_map, Option.map_eq_some_iff] at hg ⊢
    obtain ⟨st, hst, rfl⟩ := hg
    rw [anticommutes_iff, anti_symm, h.anti_vop_hit] at hanti
    refine ⟨st.1, ⟨st, hst, rfl⟩, ?_⟩
    by_contra hc
    rw [xorSum_false] at hanti
    · simp at hanti
    · intro e he
      by_contra h0
      obtain ⟨q', h1, h2, _, h4⟩ := Lattice.hit_acts (by simpa using h0)
      have hq : q' = q := by
        by_contra hne
        revert h4
        simp [singleOp, hne]
      subst hq
      refine hc (huv st (List.mem_of_getElem? hst) e he (h.idx_inj h1 hp (by rw [hidx]; exact h2.symm)) ?_)
      intro hf
      rw [hf] at h4
      revert h4
      cases a <;> simp [singleOp, Letter.hasX, Letter.hasZ]
  have hn : (flipped L.code.stabilisers (singleOp false a q)).Nodup := (flipped_sorted _ _).imp fun h => Nat.ne_of_lt h
  have hm : ((flipped L.code.stabilisers (singleOp false a q)).map fun s => (L.stabgens.map Prod.fst)[s]?).Nodup := by
    rw [List.nodup_map_iff_inj_on hn]
    intro s hs t ht he
    obtain ⟨w, hw, _⟩ := key s hs
    exact (List.getElem?_inj (List.getElem?_eq_some_iff.mp hw).1 hst).mp he
  have hsub : ((flipped L.code.stabilisers (singleOp false a q)).map fun s => (L.stabgens.map Prod.fst)[s]?) ⊆ [some u, some v] := by
    intro x hx
    obtain ⟨s, hs, rfl⟩ := List.mem_map.mp hx
    obtain ⟨w, hw, hw'⟩ := key s hs
    rw [hw]
    rcases hw' with rfl | rfl <;> simp
  have := (hm.subperm hsub).length_le
  simpa using this

end Plaquette
