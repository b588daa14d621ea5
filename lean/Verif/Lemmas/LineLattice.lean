import Verif.Lemmas.LineSystem
import Verif.Lemmas.Distance

/-!
# Parallel logical operators of a lattice
-/

namespace Plaquette

/-- The sum over a list, as a sum over other indices. -/
theorem xorSum_reindex {α : Type} {l : List α} (hl : l.Nodup) {P : α → Bool} {M : Nat} {sel : Nat → Bool} {v : Nat → α}
    (h1 : ∀ x, (x ∈ l ∧ P x = true) ↔ ∃ i < M, sel i = true ∧ v i = x) (h2 : ∀ i < M, ∀ j < M, v i = v j → i = j) (f : α → Bool) :
    xorSum l (fun x => P x && f x) = xorSum (List.range M) fun i => sel i && f (v i) := by
  rw [← xorSum_filter, ← xorSum_filter, ← xorSum_map v]
  refine xorSum_perm ?_ f
  rw [List.perm_ext_iff_of_nodup]
  · intro x
    simp only [List.mem_filter, List.mem_map, List.mem_range, h1 x]
    constructor
    · rintro ⟨i, hi, hs, rfl⟩; exact ⟨i, ⟨hi, hs⟩, rfl⟩
    · rintro ⟨i, ⟨hi, hs⟩, rfl⟩; exact ⟨i, hi, hs, rfl⟩
  · exact hl.filter _
  · rw [List.nodup_map_iff_inj_on (List.nodup_range.filter _)]
    intro i hi j hj h
    exact h2 i (List.mem_range.1 (List.mem_filter.1 hi).1) j (List.mem_range.1 (List.mem_filter.1 hj).1) h

theorem xsum_flipped_map {n : Nat} {α : Type} (l : List α) (F : α → Op n) (o : Op n) (P : α → Bool) :
    xsum (flipped (l.map F) o) (fun s => (l[s]?.map P).getD false) = xorSum l fun x => P x && anti (F x) o := by
  have h1 : ∀ f : Nat → Bool, xsum (List.range l.length) f = xorSum (List.range l.length) f := fun _ => rfl
  have h2 : xsum (flipped (l.map F) o) (fun s => (l[s]?.map P).getD false) =
      xsum (List.range l.length) fun s => (l[s]?.map fun x => P x && anti (F x) o).getD false := by
    rw [flipped, xsum_filter, List.length_map]
    refine xsum_congr fun s hs => ?_
    rw [List.mem_range] at hs
    rw [List.getElem?_map, List.getElem?_eq_getElem hs]
    simp only [Option.map_some, Option.getD_some]
    have : decide (commSign o (F l[s]) ≠ 0) = anti (F l[s]) o := by
      rw [commSign_eq, anti_symm]; cases anti (F l[s]) o <;> simp [bit]
    rw [this, Bool.and_comm]
  rw [h2, h1]
  have h3 : l = (List.range l.length).filterMap fun s => l[s]? := by
    rw [show (fun s => l[s]?) = id ∘ (fun s => l[s]?) from rfl, ← List.filterMap_map]
    have : (List.range l.length).map (fun s => l[s]?) = l.map some := by
      refine List.ext_getElem (by simp) fun i h1 h2 => ?_
      simp
    rw [this, List.filterMap_map]
    simp
  conv_rhs => rw [h3]
  rw [xorSum_filterMap]
  refine xorSum_congr fun s _ => ?_
  cases l[s]? <;> rfl

/-- Parallel lines of letters on the data qubits of a lattice, and the stabilisers between them. -/
structure Lattice.Lines (L : Lattice) (d : Nat) where
  m : Nat
  pos : Nat → Nat → Pos
  a : Nat → Nat → Letter
  colOf : Pos × StabGroup → Nat
  kdOf : Pos × StabGroup → Bool
  sideOf : Pos → Bool
  d_pos : 0 < d
  col_lt : ∀ st ∈ L.stabgens, colOf st < d
  data : ∀ k < d, ∀ i < m, pos k i ∈ L.dataqubits
  sum : ∀ k, k + 1 < d → ∀ c, xorSum (List.range m) (fun i => L.hit c (pos k i) (a k i) ^^ L.hit c (pos (k + 1) i) (a (k + 1) i)) =
    xorSum L.stabgens fun st => decide (colOf st = k + 1) && anti (L.vop st.1) c
  disj : ∀ k < d, ∀ l < d, ∀ i < m, ∀ j < m, pos k i = pos l j → k = l
  kind : ∀ st ∈ L.stabgens, ∀ e ∈ L.opEdges st.1, (e.factor = .X ∧ kdOf st = !sideOf e.data) ∨ (e.factor = .Z ∧ kdOf st = sideOf e.data)
  rel : ∀ k < d, ∀ i < m, (a k i = .X ∧ sideOf (pos k i) = false) ∨ (a k i = .Z ∧ sideOf (pos k i) = true)

/-- Where a letter meets an error on one qubit. -/
theorem Lattice.Wf.hit_single {L : Lattice} (h : L.Wf) {p : Pos} {a b : Letter} {q : Fin L.dataqubits.length}
    (hh : L.hit (singleOp false b q) p a = true) : p = L.dataqubits[q.val] ∧ a ≠ b := by
  obtain ⟨q', h1, h2, _, h4⟩ := Lattice.hit_acts hh
  have hp : L.dataqubits[q.val] ∈ L.dataqubits := List.getElem_mem _
  have hidx : L.idx L.dataqubits[q.val] = q.val := by
    have hn := h.occ
    rw [Lattice.occupied, List.append_assoc] at hn
    rw [h.idx_data hp]
    exact List.Nodup.idxOf_getElem (List.nodup_append.mp hn).1 _ _
  have hq : q' = q := by
    by_contra hne
    revert h4
    simp [singleOp, hne]
  subst hq
  refine ⟨h.idx_inj h1 hp (by rw [hidx]; exact h2.symm), ?_⟩
  rintro rfl
  revert h4
  cases a <;> simp [singleOp, Letter.hasX, Letter.hasZ]

theorem xorSum_true {α : Type} {l : List α} {f : α → Bool} (h : xorSum l f = true) : ∃ x ∈ l, f x = true := by
  by_contra hc
  rw [xorSum_false] at h
  · cases h
  · intro x hx
    by_contra h0
    exact hc ⟨x, hx, by simpa using h0⟩

namespace Lattice.Lines
variable {L : Lattice} {d : Nat} (D : L.Lines d)

/-- The operator of a line. -/
def lineOp (k : Nat) : Op L.dataqubits.length :=
  edgesOp L.idx L.dataqubits.length (if k < d then (List.range D.m).map fun i => mkEdge (D.pos k i) (0, 0) (D.a k i) else [])

theorem anti_lineOp (h : L.Wf) {k : Nat} (hk : k < d) (c : Op L.dataqubits.length) :
    anti (D.lineOp k) c = xorSum (List.range D.m) fun i => L.hit c (D.pos k i) (D.a k i) := by
  unfold lineOp
  rw [if_pos hk, h.anti_edges_hit, xorSum_map]
  · rfl
  · intro e he
    obtain ⟨i, hi, rfl⟩ := List.mem_map.1 he
    exact D.data k hk i (List.mem_range.1 hi)

/-- The lines as operators of the code. -/
def system (h : L.Wf) : LineSystem L.code.stabilisers d where
  T := D.lineOp
  col s := (L.stabgens[s]?.map D.colOf).getD 0
  kd s := (L.stabgens[s]?.map D.kdOf).getD false
  side q := D.sideOf L.dataqubits[q.val]
  pos := D.d_pos
  col_lt s := by
    cases hs : L.stabgens[s]? with
    | none => exact D.d_pos
    | some st => exact D.col_lt st (List.mem_of_getElem? hs)
  sum k hk o := by
    rw [D.anti_lineOp h (by omega), D.anti_lineOp h hk, ← xorSum_xor, D.sum k hk]
    rw [← xsum_flipped_map L.stabgens (fun s => L.vop s.1) o fun st => decide (D.colOf st = k + 1)]
    refine xsum_congr fun s _ => ?_
    cases L.stabgens[s]? <;> rfl
  disj k hk l hl a q h1 h2 := by
    rw [D.anti_lineOp h hk] at h1
    rw [D.anti_lineOp h hl] at h2
    obtain ⟨i, hi, h1⟩ := xorSum_true h1
    obtain ⟨j, hj, h2⟩ := xorSum_true h2
    exact D.disj k hk l hl i (List.mem_range.1 hi) j (List.mem_range.1 hj) ((h.hit_single h1).1.trans (h.hit_single h2).1.symm)
  kind b q s hs := by
    obtain ⟨g, hg, hanti⟩ := mem_flipped.mp hs
    simp only [Lattice.code, List.getElem?_map, Option.map_eq_some_iff] at hg
    obtain ⟨st, hst, rfl⟩ := hg
    rw [anticommutes_iff, anti_symm, h.anti_vop_hit] at hanti
    obtain ⟨e, he, hh⟩ := xorSum_true hanti
    obtain ⟨h1, h2⟩ := h.hit_single hh
    rw [hst]
    simp only [Option.map_some, Option.getD_some]
    rcases D.kind st (List.mem_of_getElem? hst) e he with ⟨h3, h4⟩ | ⟨h3, h4⟩
    · rw [h4, h1]
      cases b
      · simp
      · exact absurd h3 h2
    · rw [h4, h1]
      cases b
      · exact absurd h3 h2
      · simp
  rel k hk b q h1 := by
    rw [D.anti_lineOp h hk] at h1
    obtain ⟨i, hi, h1⟩ := xorSum_true h1
    obtain ⟨h1, h2⟩ := h.hit_single h1
    rw [← h1]
    rcases D.rel k hk i (List.mem_range.1 hi) with ⟨h3, h4⟩ | ⟨h3, h4⟩
    · rw [h4]
      cases b
      · rfl
      · exact absurd h3 h2
    · rw [h4]
      cases b
      · exact absurd h3 h2
      · rfl

end Lattice.Lines

/-! ## Sums over the stabilisers between two lines -/

theorem xorSum_around {m : Nat} {f u g : Nat → Bool} (h : ∀ i < m, f i = (u i ^^ (g i ^^ g (i + 1)))) (h0 : g 0 = g m) :
    xorSum (List.range m) u = xorSum (List.range m) f := by
  rw [xorSum_congr fun i hi => h i (List.mem_range.1 hi), xorSum_xor, xorSum_tele, h0]
  simp

theorem xorSum_alternate (m r : Nat) (g : Nat → Bool) (h0 : g 0 = false) (hm : g (m + 1) = false) :
    xorSum (List.range m) (fun i => g (i + 1)) = xorSum (List.range (m + 1)) fun i => decide (i % 2 = r % 2) && (g i ^^ g (i + 1)) := by
  have key : ∀ j, (xorSum (List.range j) (fun i => g (i + 1)) ^^ xorSum (List.range (j + 1)) fun i => decide (i % 2 = r % 2) && (g i ^^ g (i + 1))) =
      if j % 2 = r % 2 then g (j + 1) else false := by
    intro j
    induction j with
    | zero => by_cases hr : 0 % 2 = r % 2 <;> simp [h0, hr]
    | succ j ih =>
      rw [xorSum_range_succ, xorSum_range_succ _ (fun i => decide (i % 2 = r % 2) && (g i ^^ g (i + 1)))]
      have : ∀ a b c d : Bool, ((a ^^ b) ^^ (c ^^ d)) = ((a ^^ c) ^^ (b ^^ d)) := by decide
      rw [this, ih]
      by_cases hr : j % 2 = r % 2
      · have : ¬ (j + 1) % 2 = r % 2 := by omega
        simp [hr, this]
      · have : (j + 1) % 2 = r % 2 := by omega
        simp [hr, this]
  have := key m
  rw [hm] at this
  simp only [ite_self] at this
  revert this
  generalize xorSum _ _ = a
  generalize xorSum _ _ = b
  revert a b
  decide

end Plaquette
