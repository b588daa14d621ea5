import Verif.Lemmas.LineLattice
import Verif.Lemmas.RotatedDist
import Verif.Lemmas.QecCircuit

/-!
# Parallel logical operators of the rotated planar code
-/

namespace Plaquette
namespace Rotated

variable {size : Nat} {xzzx : Bool} {order : List (Int × Int)}

theorem anti_stab (h2 : 2 ≤ size) {c : Op (lat size xzzx order).dataqubits.length} {st : Pos × StabGroup} (hst : st ∈ (fam size xzzx).stabs) :
    let H := (lat size xzzx order).hit c
    let l := fun a => if xzzx then a else groupLetter st.2
    anti ((lat size xzzx order).vop st.1) c =
      (H (st.1.1 + 1, st.1.2 + 1) (l .X) ^^ (H (st.1.1 + 1, st.1.2 - 1) (l .Z) ^^
      (H (st.1.1 - 1, st.1.2 + 1) (l .Z) ^^ H (st.1.1 - 1, st.1.2 - 1) (l .X)))) := by
  have := (ok h2).op_stab (some order.length) (keeps size xzzx order) hst
  rw [(wf order h2).anti_dirs (keeps _ _ _).df this]
  · simp [diagDirs, mkEdge, nb, letter, sub_eq_add_neg]
  · intro d _ ho hd
    have hd : nb st.1 d ∈ (fam size xzzx).data := hd
    rw [mem_data] at hd
    exact ho hd.1

/-- The qubits on which the lines parallel to the logical `X` have the letter `Z`. -/
def turned (xzzx : Bool) (p : Pos) : Bool := xzzx && decide ((p.1 + p.2) % 4 = 0)

theorem stab_edge (h2 : 2 ≤ size) {st : Pos × StabGroup} (hst : st ∈ (fam size xzzx).stabs) {e : LEdge} (he : e ∈ (lat size xzzx order).opEdges st.1) :
    (e.factor = .X ∧ (st.2 == .A) = !turned xzzx e.data) ∨ (e.factor = .Z ∧ (st.2 == .A) = turned xzzx e.data) := by
  have hs := (ok h2).op_stab (some order.length) (keeps size xzzx order) hst
  rw [show (lat size xzzx order).opEdges st.1 = _ from hs] at he
  obtain ⟨e', he', rfl⟩ := List.mem_map.mp he
  rw [((keeps size xzzx order).df _).1, ((keeps size xzzx order).df _).2]
  obtain ⟨d, hdir, _, rfl⟩ := mem_E.mp he'
  have h3 := dirs hdir
  have h4 := mem_stabs hst
  simp only [isS] at h4
  obtain ⟨⟨s1, s2⟩, g⟩ := st
  obtain ⟨a, d1, d2⟩ := d
  simp only [mkEdge, nb, letter, turned] at h3 h4 ⊢
  cases xzzx with
  | false =>
    rcases h4 with ⟨_, _, _, _, _, _, ⟨rfl, h, _⟩ | ⟨rfl, h, _⟩⟩ <;> simp [groupLetter]
  | true =>
    simp only [if_true, Bool.true_and]
    rcases h4 with ⟨_, _, _, _, _, _, ⟨rfl, h, _⟩ | ⟨rfl, h, _⟩⟩ <;> rcases h3 with ⟨_, _, ⟨rfl, _⟩ | ⟨rfl, _⟩⟩
    · exact .inl ⟨rfl, by rw [decide_eq_false (by omega)]; rfl⟩
    · exact .inr ⟨rfl, by rw [decide_eq_true (by omega)]; rfl⟩
    · exact .inl ⟨rfl, by rw [decide_eq_true (by omega)]; rfl⟩
    · exact .inr ⟨rfl, by rw [decide_eq_false (by omega)]; rfl⟩

/-- The lines parallel to the logical `X`. -/
def linesX (h2 : 2 ≤ size) : (lat size xzzx order).Lines size where
  m := size
  pos k i := (2 * (i : Int) + 1, 2 * (k : Int) + 1)
  a k i := xLetter xzzx (i + k)
  colOf st := if st.2 = .A then (st.1.2 / 2).toNat else 0
  kdOf st := st.2 == .A
  sideOf p := turned xzzx p
  d_pos := by omega
  col_lt st hst := by
    have := mem_stabs (size := size) (xzzx := xzzx) hst
    simp only [isS] at this
    split
    · have h2 : st.1.2 / 2 < (size : Int) := by rename_i hA; simp only [hA, true_and, reduceCtorEq, false_and, or_false, false_or] at this; omega
      omega
    · omega
  data k hk i hi := by
    show _ ∈ (fam size xzzx).data
    rw [mem_data]; simp only [inside]; omega
  sum k hk c := by
    have hr := xorSum_reindex (l := (lat size xzzx order).stabgens) (P := fun st => decide ((if st.2 = .A then (st.1.2 / 2).toNat else 0) = k + 1))
      (M := size + 1) (sel := fun i => decide (i % 2 = (k + 1) % 2)) (v := fun i => ((2 * (i : Int), 2 * (k : Int) + 2), StabGroup.A))
      (List.Nodup.of_map _ (wf order h2).stab_nodup) ?_ ?_ (fun st => anti ((lat size xzzx order).vop st.1) c)
    · rw [hr]
      have := xorSum_alternate size (k + 1) (fun i => (lat size xzzx order).hit c (2 * (i : Int) - 1, 2 * (k : Int) + 1) (xLetter xzzx (i + k - 1)) ^^
        (lat size xzzx order).hit c (2 * (i : Int) - 1, 2 * (k : Int) + 3) (xLetter xzzx (i + k))) ?_ ?_
      · refine Eq.trans ?_ (this.trans ?_)
        · refine xorSum_congr fun i _ => ?_
          rw [show ((i + 1 : Nat) : Int) + k - 1 = i + k by omega, show ((i + 1 : Nat) : Int) + k = i + (k + 1 : Nat) by omega,
            show 2 * ((i + 1 : Nat) : Int) - 1 = 2 * i + 1 by omega, show 2 * (k : Int) + 3 = 2 * ((k + 1 : Nat) : Int) + 1 by omega]
        · refine xorSum_congr fun i hi => ?_
          rw [List.mem_range] at hi
          by_cases hpar : i % 2 = (k + 1) % 2
          · have hst := stab_mem (xzzx := xzzx) (size := size) (p := (2 * (i : Int), 2 * (k : Int) + 2)) (g := .A) (by
              simp only [isS, true_and, reduceCtorEq, false_and, or_false, false_or]; omega)
            have := anti_stab h2 (c := c) hst
            obtain ⟨l1, l2⟩ := letters_x (xzzx := xzzx) (i + k : Int) (by omega)
            have l3 : xLetter xzzx (i + k - 1) = xLetter xzzx (i + k + 1) := by
              unfold xLetter; rw [show ((i : Int) + k - 1) % 2 = (i + k + 1) % 2 by omega]
            dsimp only at this
            rw [l1, l2, show 2 * (k : Int) + 2 + 1 = 2 * (k : Int) + 3 by omega, show 2 * (k : Int) + 2 - 1 = 2 * (k : Int) + 1 by omega] at this
            rw [decide_eq_true hpar, Bool.true_and, Bool.true_and, this]
            rw [l3, show ((i + 1 : Nat) : Int) + k - 1 = i + k by omega, show ((i + 1 : Nat) : Int) + k = i + k + 1 by omega,
              show 2 * ((i + 1 : Nat) : Int) - 1 = 2 * i + 1 by omega]
            generalize (lat size xzzx order).hit c _ _ = a
            generalize (lat size xzzx order).hit c _ _ = b
            generalize (lat size xzzx order).hit c _ _ = e
            generalize (lat size xzzx order).hit c _ _ = f
            revert a b e f
            decide
          · rw [decide_eq_false hpar, Bool.false_and, Bool.false_and]
      · rw [Lattice.hit_out, Lattice.hit_out]
        · rfl
        · show _ ∉ (fam size xzzx).data
          rw [mem_data]; simp only [inside]; omega
        · show _ ∉ (fam size xzzx).data
          rw [mem_data]; simp only [inside]; omega
      · rw [Lattice.hit_out, Lattice.hit_out]
        · rfl
        · show _ ∉ (fam size xzzx).data
          rw [mem_data]; simp only [inside]; omega
        · show _ ∉ (fam size xzzx).data
          rw [mem_data]; simp only [inside]; omega
    · rintro ⟨⟨p1, p2⟩, g⟩
      constructor
      · rintro ⟨h2, h3⟩
        have h2 := mem_stabs (size := size) (xzzx := xzzx) h2
        rw [decide_eq_true_eq] at h3
        split at h3
        · rename_i hA
          dsimp only at h2 h3 hA
          subst hA
          simp only [isS, true_and, reduceCtorEq, false_and, or_false, false_or] at h2
          refine ⟨(p1 / 2).toNat, by omega, decide_eq_true (by omega), ?_⟩
          simp only [Prod.mk.injEq, and_true]
          omega
        · cases h3
      · rintro ⟨i, hi, hpar, h2⟩
        simp only [Prod.mk.injEq] at h2
        obtain ⟨⟨rfl, rfl⟩, rfl⟩ := h2
        have hpar := of_decide_eq_true hpar
        refine ⟨stab_mem (xzzx := xzzx) (size := size) (p := (2 * (i : Int), 2 * (k : Int) + 2)) (g := .A) (by
              simp only [isS, true_and, reduceCtorEq, false_and, or_false, false_or]; omega), ?_⟩
        rw [decide_eq_true_eq, if_pos rfl]
        dsimp only
        omega
    · intro i _ j _ h
      simp only [Prod.mk.injEq] at h
      omega
  disj k hk l hl i hi j hj h := by
    simp only [Prod.mk.injEq] at h
    omega
  kind st hst e he := by
    have h3 := stab_edge h2 hst he
    exact h3
  rel k hk i hi := by
    simp only [xLetter, turned]
    cases xzzx
    · simp
    · by_cases hp : ((i : Int) + k) % 2 = 0
      · have : ¬ (2 * (i : Int) + 1 + (2 * (k : Int) + 1)) % 4 = 0 := by omega
        simp [hp, this]
      · have : (2 * (i : Int) + 1 + (2 * (k : Int) + 1)) % 4 = 0 := by omega
        simp [hp, this]

theorem line_x (h2 : 2 ≤ size) (c : Op (lat size xzzx order).dataqubits.length) :
    anti ((lat size xzzx order).vop (xPos size)) c = anti ((linesX (xzzx := xzzx) (order := order) h2).lineOp 0) c := by
  have hv := (ok (xzzx := xzzx) h2).op_log (some order.length) (keeps size xzzx order) (l := (xPos size, ['X'])) (by simp [fam])
  rw [(filter_logs h2).1] at hv
  rw [(wf order h2).anti_line (keeps _ _ _).df hv, (linesX h2).anti_lineOp (wf order h2) (by omega)]
  refine xorSum_congr fun i _ => ?_
  simp [linesX]

/-- The lines parallel to the logical `Z`. -/
def linesZ (h2 : 2 ≤ size) : (lat size xzzx order).Lines size where
  m := size
  pos k i := (2 * (k : Int) + 1, 2 * (i : Int) + 1)
  a k i := zLetter xzzx (i + k)
  colOf st := if st.2 = .B then (st.1.1 / 2).toNat else 0
  kdOf st := !(st.2 == .A)
  sideOf p := !turned xzzx p
  d_pos := by omega
  col_lt st hst := by
    have := mem_stabs (size := size) (xzzx := xzzx) hst
    simp only [isS] at this
    split
    · have h2 : st.1.1 / 2 < (size : Int) := by rename_i hA; simp only [hA, true_and, reduceCtorEq, false_and, or_false, false_or] at this; omega
      omega
    · omega
  data k hk i hi := by
    show _ ∈ (fam size xzzx).data
    rw [mem_data]; simp only [inside]; omega
  sum k hk c := by
    have hr := xorSum_reindex (l := (lat size xzzx order).stabgens) (P := fun st => decide ((if st.2 = .B then (st.1.1 / 2).toNat else 0) = k + 1))
      (M := size + 1) (sel := fun i => decide (i % 2 = (k) % 2)) (v := fun i => ((2 * (k : Int) + 2, 2 * (i : Int)), StabGroup.B))
      (List.Nodup.of_map _ (wf order h2).stab_nodup) ?_ ?_ (fun st => anti ((lat size xzzx order).vop st.1) c)
    · rw [hr]
      have := xorSum_alternate size (k) (fun i => (lat size xzzx order).hit c (2 * (k : Int) + 1, 2 * (i : Int) - 1) (zLetter xzzx (i + k - 1)) ^^
        (lat size xzzx order).hit c (2 * (k : Int) + 3, 2 * (i : Int) - 1) (zLetter xzzx (i + k))) ?_ ?_
      · refine Eq.trans ?_ (this.trans ?_)
        · refine xorSum_congr fun i _ => ?_
          rw [show ((i + 1 : Nat) : Int) + k - 1 = i + k by omega, show ((i + 1 : Nat) : Int) + k = i + (k + 1 : Nat) by omega,
            show 2 * ((i + 1 : Nat) : Int) - 1 = 2 * i + 1 by omega, show 2 * (k : Int) + 3 = 2 * ((k + 1 : Nat) : Int) + 1 by omega]
        · refine xorSum_congr fun i hi => ?_
          rw [List.mem_range] at hi
          by_cases hpar : i % 2 = (k) % 2
          · have hst := stab_mem (xzzx := xzzx) (size := size) (p := (2 * (k : Int) + 2, 2 * (i : Int))) (g := .B) (by
              simp only [isS, true_and, reduceCtorEq, false_and, or_false, false_or]; omega)
            have := anti_stab h2 (c := c) hst
            obtain ⟨l1, l2⟩ := letters_z (xzzx := xzzx) (i + k : Int) (by omega)
            have l3 : zLetter xzzx (i + k - 1) = zLetter xzzx (i + k + 1) := by
              unfold zLetter; rw [show ((i : Int) + k - 1) % 2 = (i + k + 1) % 2 by omega]
            dsimp only at this
            rw [l1, l2, show 2 * (k : Int) + 2 + 1 = 2 * (k : Int) + 3 by omega, show 2 * (k : Int) + 2 - 1 = 2 * (k : Int) + 1 by omega] at this
            rw [decide_eq_true hpar, Bool.true_and, Bool.true_and, this]
            rw [l3, show ((i + 1 : Nat) : Int) + k - 1 = i + k by omega, show ((i + 1 : Nat) : Int) + k = i + k + 1 by omega,
              show 2 * ((i + 1 : Nat) : Int) - 1 = 2 * i + 1 by omega]
            generalize (lat size xzzx order).hit c _ _ = a
            generalize (lat size xzzx order).hit c _ _ = b
            generalize (lat size xzzx order).hit c _ _ = e
            generalize (lat size xzzx order).hit c _ _ = f
            revert a b e f
            decide
          · rw [decide_eq_false hpar, Bool.false_and, Bool.false_and]
      · rw [Lattice.hit_out, Lattice.hit_out]
        · rfl
        · show _ ∉ (fam size xzzx).data
          rw [mem_data]; simp only [inside]; omega
        · show _ ∉ (fam size xzzx).data
          rw [mem_data]; simp only [inside]; omega
      · rw [Lattice.hit_out, Lattice.hit_out]
        · rfl
        · show _ ∉ (fam size xzzx).data
          rw [mem_data]; simp only [inside]; omega
        · show _ ∉ (fam size xzzx).data
          rw [mem_data]; simp only [inside]; omega
    · rintro ⟨⟨p1, p2⟩, g⟩
      constructor
      · rintro ⟨h2, h3⟩
        have h2 := mem_stabs (size := size) (xzzx := xzzx) h2
        rw [decide_eq_true_eq] at h3
        split at h3
        · rename_i hA
          dsimp only at h2 h3 hA
          subst hA
          simp only [isS, true_and, reduceCtorEq, false_and, or_false, false_or] at h2
          refine ⟨(p2 / 2).toNat, by omega, decide_eq_true (by omega), ?_⟩
          simp only [Prod.mk.injEq, and_true]
          omega
        · cases h3
      · rintro ⟨i, hi, hpar, h2⟩
        simp only [Prod.mk.injEq] at h2
        obtain ⟨⟨rfl, rfl⟩, rfl⟩ := h2
        have hpar := of_decide_eq_true hpar
        refine ⟨stab_mem (xzzx := xzzx) (size := size) (p := (2 * (k : Int) + 2, 2 * (i : Int))) (g := .B) (by
              simp only [isS, true_and, reduceCtorEq, false_and, or_false, false_or]; omega), ?_⟩
        rw [decide_eq_true_eq, if_pos rfl]
        dsimp only
        omega
    · intro i _ j _ h
      simp only [Prod.mk.injEq] at h
      omega
  disj k hk l hl i hi j hj h := by
    simp only [Prod.mk.injEq] at h
    omega
  kind st hst e he := by
    have h3 := stab_edge h2 hst he
    simpa using h3
  rel k hk i hi := by
    simp only [zLetter, turned]
    cases xzzx
    · simp
    · by_cases hp : ((i : Int) + k) % 2 = 0
      · have : ¬ (2 * (k : Int) + 1 + (2 * (i : Int) + 1)) % 4 = 0 := by omega
        simp [hp, this]
      · have : (2 * (k : Int) + 1 + (2 * (i : Int) + 1)) % 4 = 0 := by omega
        simp [hp, this]

theorem line_z (h2 : 2 ≤ size) (c : Op (lat size xzzx order).dataqubits.length) :
    anti ((lat size xzzx order).vop (zPos size)) c = anti ((linesZ (xzzx := xzzx) (order := order) h2).lineOp 0) c := by
  have hv := (ok (xzzx := xzzx) h2).op_log (some order.length) (keeps size xzzx order) (l := (zPos size, ['Z'])) (by simp [fam])
  rw [(filter_logs h2).2] at hv
  rw [(wf order h2).anti_line (keeps _ _ _).df hv, (linesZ h2).anti_lineOp (wf order h2) (by omega)]
  refine xorSum_congr fun i _ => ?_
  simp [linesZ]

end Rotated
end Plaquette
