import Verif.Lemmas.LineLattice
import Verif.Lemmas.ToricDist
import Verif.Lemmas.QecCircuit

/-!
# Parallel logical operators of the toric code
-/

namespace Plaquette
namespace Toric

variable {size : Nat} {order : List (Int × Int)}

theorem anti_stab (h2 : 2 ≤ size) {c : Op (lat size order).dataqubits.length} {st : Pos × StabGroup} (hst : st ∈ (fam size).stabs) :
    let H := fun p => (lat size order).hit c p (groupLetter st.2)
    let w := wrapCoord (2 * (size : Int))
    anti ((lat size order).vop st.1) c =
      (H (st.1.1, w (st.1.2 + 1)) ^^ (H (st.1.1, w (st.1.2 - 1)) ^^ (H (w (st.1.1 + 1), st.1.2) ^^ H (w (st.1.1 - 1), st.1.2)))) := by
  obtain ⟨r1, r2, _⟩ := mem_stabs hst
  have hs : (2 : Int) ≤ size := by omega
  have := (ok h2).op_stab (some order.length) (Fam.keeps_step (fam size).raw.isStab order) hst
  rw [(wf order h2).anti_dirs (Fam.keeps_step _ _).df this]
  · have w1 := wrap_zero hs r1
    have w2 := wrap_zero hs r2
    rw [add_zero] at w1 w2
    simp [crossDirs, mkEdge, nb, sub_eq_add_neg, w1, w2]
  · intro d _ ho
    exact absurd ho (by simp)

theorem stab_edge (h2 : 2 ≤ size) {st : Pos × StabGroup} (hst : st ∈ (fam size).stabs) {e : LEdge} (he : e ∈ (lat size order).opEdges st.1) :
    e.factor = groupLetter st.2 := by
  have hs := (ok h2).op_stab (some order.length) (Fam.keeps_step (fam size).raw.isStab order) hst
  rw [show (lat size order).opEdges st.1 = _ from hs] at he
  obtain ⟨e', he', rfl⟩ := List.mem_map.mp he
  rw [(stepEdge_df _ _ _).2]
  obtain ⟨d, hdir, rfl⟩ := mem_E.mp he'
  rfl

/-- The lines parallel to the logical operator `X0`. -/
def linesX0 (h2 : 2 ≤ size) : (lat size order).Lines size where
  m := size
  pos k i := (2 * (k : Int) + 1, 2 * (i : Int) + 2)
  a _ _ := .X
  colOf st := if st.2 = .A ∧ st.1.1 < 2 * (size : Int) then (st.1.1 / 2).toNat else 0
  kdOf st := st.2 == .A
  sideOf _ := false
  d_pos := by omega
  col_lt st hst := by
    have := mem_stabs (size := size) hst
    split
    · have h2 : st.1.1 / 2 < (size : Int) := by omega
      omega
    · omega
  data k hk i hi := by
    show _ ∈ (fam size).data
    rw [mem_data]; dsimp only; omega
  sum k hk c := by
    have hr := xorSum_reindex (l := (lat size order).stabgens) (P := fun st => decide ((if st.2 = .A ∧ st.1.1 < 2 * (size : Int) then (st.1.1 / 2).toNat else 0) = k + 1))
      (M := size) (sel := fun _ => true) (v := fun i => ((2 * (k : Int) + 2, 2 * (i : Int) + 2), StabGroup.A))
      (List.Nodup.of_map _ (wf order h2).stab_nodup) ?_ ?_ (fun st => anti ((lat size order).vop st.1) c)
    · rw [hr]
      refine xorSum_around (g := fun i => (lat size order).hit c (2 * (k : Int) + 2, wrapCoord (2 * (size : Int)) (2 * (i : Int) + 1)) .X) ?_ ?_
      · intro i hi
        have hst := (stab_mem (size := size) (p := (2 * (k : Int) + 2, 2 * (i : Int) + 2)) (by dsimp only; omega)).1 (by dsimp only; omega)
        have := anti_stab h2 (c := c) hst
        simp only [groupLetter] at this
        rw [wrap_in (x := 2 * (k : Int) + 2 + 1) (by omega) (by omega), wrap_in (x := 2 * (k : Int) + 2 - 1) (by omega) (by omega),
          show 2 * (k : Int) + 2 + 1 = 2 * ((k + 1 : Nat) : Int) + 1 by omega, show 2 * (k : Int) + 2 - 1 = 2 * (k : Int) + 1 by omega,
          show 2 * (i : Int) + 2 + 1 = 2 * ((i + 1 : Nat) : Int) + 1 by omega, show 2 * (i : Int) + 2 - 1 = 2 * (i : Int) + 1 by omega] at this
        rw [Bool.true_and, this]
        generalize (lat size order).hit c _ _ = a
        generalize (lat size order).hit c _ _ = b
        generalize (lat size order).hit c _ _ = e
        generalize (lat size order).hit c _ _ = f
        revert a b e f
        decide
      · have := (wrap_ends (2 * (size : Int)) (by omega)).1
        simp only [Nat.cast_zero, mul_zero, zero_add, this]
    · rintro ⟨⟨p1, p2⟩, g⟩
      constructor
      · rintro ⟨h2, h3⟩
        have h2 := mem_stabs (size := size) h2
        rw [decide_eq_true_eq] at h3
        split at h3
        · rename_i hA
          dsimp only at h2 h3 hA
          obtain ⟨hA, _⟩ := hA
          subst hA
          simp only [true_and, reduceCtorEq, false_and, or_false, false_or] at h2
          refine ⟨((p2 - 2) / 2).toNat, by omega, rfl, ?_⟩
          simp only [Prod.mk.injEq, and_true]
          omega
        · cases h3
      · rintro ⟨i, hi, _, h2⟩
        simp only [Prod.mk.injEq] at h2
        obtain ⟨⟨rfl, rfl⟩, rfl⟩ := h2
        refine ⟨(stab_mem (size := size) (p := (2 * (k : Int) + 2, 2 * (i : Int) + 2)) (by dsimp only; omega)).1 (by dsimp only; omega), ?_⟩
        rw [decide_eq_true_eq, if_pos ⟨rfl, by dsimp only; omega⟩]
        dsimp only
        omega
    · intro i _ j _ h
      simp only [Prod.mk.injEq] at h
      omega
  disj k hk l hl i hi j hj h := by
    simp only [Prod.mk.injEq] at h
    omega
  kind st hst e he := by
    rw [stab_edge h2 hst he]
    have := mem_stabs (size := size) hst
    rcases this.2.2 with ⟨h, _⟩ | ⟨h, _⟩ <;> simp [h, groupLetter]
  rel _ _ _ _ := by simp

theorem line_X0 (h2 : 2 ≤ size) (c : Op (lat size order).dataqubits.length) :
    anti ((lat size order).vop (0, (size : Int))) c = anti ((linesX0 (order := order) h2).lineOp (0)) c := by
  have hv := op_log (order := order) h2 (l := ((0, (size : Int)), ['X'])) (by simp [fam])
  rw [(filter_logs h2).1] at hv
  rw [(wf order h2).anti_line (Fam.keeps_step _ _).df hv, (linesX0 h2).anti_lineOp (wf order h2) (by omega)]
  refine xorSum_congr fun i _ => ?_
  simp only [linesX0]
  rfl

/-- The lines parallel to the logical operator `X1`. -/
def linesX1 (h2 : 2 ≤ size) : (lat size order).Lines size where
  m := size
  pos k i := (2 * (i : Int) + 2, 2 * (k : Int) + 1)
  a _ _ := .X
  colOf st := if st.2 = .A ∧ st.1.2 < 2 * (size : Int) then (st.1.2 / 2).toNat else 0
  kdOf st := st.2 == .A
  sideOf _ := false
  d_pos := by omega
  col_lt st hst := by
    have := mem_stabs (size := size) hst
    split
    · have h2 : st.1.2 / 2 < (size : Int) := by omega
      omega
    · omega
  data k hk i hi := by
    show _ ∈ (fam size).data
    rw [mem_data]; dsimp only; omega
  sum k hk c := by
    have hr := xorSum_reindex (l := (lat size order).stabgens) (P := fun st => decide ((if st.2 = .A ∧ st.1.2 < 2 * (size : Int) then (st.1.2 / 2).toNat else 0) = k + 1))
      (M := size) (sel := fun _ => true) (v := fun i => ((2 * (i : Int) + 2, 2 * (k : Int) + 2), StabGroup.A))
      (List.Nodup.of_map _ (wf order h2).stab_nodup) ?_ ?_ (fun st => anti ((lat size order).vop st.1) c)
    · rw [hr]
      refine xorSum_around (g := fun i => (lat size order).hit c (wrapCoord (2 * (size : Int)) (2 * (i : Int) + 1), 2 * (k : Int) + 2) .X) ?_ ?_
      · intro i hi
        have hst := (stab_mem (size := size) (p := (2 * (i : Int) + 2, 2 * (k : Int) + 2)) (by dsimp only; omega)).1 (by dsimp only; omega)
        have := anti_stab h2 (c := c) hst
        simp only [groupLetter] at this
        rw [wrap_in (x := 2 * (k : Int) + 2 + 1) (by omega) (by omega), wrap_in (x := 2 * (k : Int) + 2 - 1) (by omega) (by omega),
          show 2 * (k : Int) + 2 + 1 = 2 * ((k + 1 : Nat) : Int) + 1 by omega, show 2 * (k : Int) + 2 - 1 = 2 * (k : Int) + 1 by omega,
          show 2 * (i : Int) + 2 + 1 = 2 * ((i + 1 : Nat) : Int) + 1 by omega, show 2 * (i : Int) + 2 - 1 = 2 * (i : Int) + 1 by omega] at this
        rw [Bool.true_and, this]
        generalize (lat size order).hit c _ _ = a
        generalize (lat size order).hit c _ _ = b
        generalize (lat size order).hit c _ _ = e
        generalize (lat size order).hit c _ _ = f
        revert a b e f
        decide
      · have := (wrap_ends (2 * (size : Int)) (by omega)).1
        simp only [Nat.cast_zero, mul_zero, zero_add, this]
    · rintro ⟨⟨p1, p2⟩, g⟩
      constructor
      · rintro ⟨h2, h3⟩
        have h2 := mem_stabs (size := size) h2
        rw [decide_eq_true_eq] at h3
        split at h3
        · rename_i hA
          dsimp only at h2 h3 hA
          obtain ⟨hA, _⟩ := hA
          subst hA
          simp only [true_and, reduceCtorEq, false_and, or_false, false_or] at h2
          refine ⟨((p1 - 2) / 2).toNat, by omega, rfl, ?_⟩
          simp only [Prod.mk.injEq, and_true]
          omega
        · cases h3
      · rintro ⟨i, hi, _, h2⟩
        simp only [Prod.mk.injEq] at h2
        obtain ⟨⟨rfl, rfl⟩, rfl⟩ := h2
        refine ⟨(stab_mem (size := size) (p := (2 * (i : Int) + 2, 2 * (k : Int) + 2)) (by dsimp only; omega)).1 (by dsimp only; omega), ?_⟩
        rw [decide_eq_true_eq, if_pos ⟨rfl, by dsimp only; omega⟩]
        dsimp only
        omega
    · intro i _ j _ h
      simp only [Prod.mk.injEq] at h
      omega
  disj k hk l hl i hi j hj h := by
    simp only [Prod.mk.injEq] at h
    omega
  kind st hst e he := by
    rw [stab_edge h2 hst he]
    have := mem_stabs (size := size) hst
    rcases this.2.2 with ⟨h, _⟩ | ⟨h, _⟩ <;> simp [h, groupLetter]
  rel _ _ _ _ := by simp

theorem line_X1 (h2 : 2 ≤ size) (c : Op (lat size order).dataqubits.length) :
    anti ((lat size order).vop ((size : Int), 0)) c = anti ((linesX1 (order := order) h2).lineOp (0)) c := by
  have hv := op_log (order := order) h2 (l := (((size : Int), 0), ['X'])) (by simp [fam])
  rw [(filter_logs h2).2.2.1] at hv
  rw [(wf order h2).anti_line (Fam.keeps_step _ _).df hv, (linesX1 h2).anti_lineOp (wf order h2) (by omega)]
  refine xorSum_congr fun i _ => ?_
  simp only [linesX1]
  rfl

/-- The lines parallel to the logical operator `Z0`. -/
def linesZ0 (h2 : 2 ≤ size) : (lat size order).Lines size where
  m := size
  pos k i := (2 * (i : Int) + 1, 2 * (k : Int) + 2)
  a _ _ := .Z
  colOf st := if st.2 = .B ∧ 0 < st.1.2 then ((st.1.2 - 1) / 2).toNat else 0
  kdOf st := st.2 == .B
  sideOf _ := true
  d_pos := by omega
  col_lt st hst := by
    have := mem_stabs (size := size) hst
    split
    · have h2 : (st.1.2 - 1) / 2 < (size : Int) := by omega
      omega
    · omega
  data k hk i hi := by
    show _ ∈ (fam size).data
    rw [mem_data]; dsimp only; omega
  sum k hk c := by
    have hr := xorSum_reindex (l := (lat size order).stabgens) (P := fun st => decide ((if st.2 = .B ∧ 0 < st.1.2 then ((st.1.2 - 1) / 2).toNat else 0) = k + 1))
      (M := size) (sel := fun _ => true) (v := fun i => ((2 * (i : Int) + 1, 2 * (k : Int) + 3), StabGroup.B))
      (List.Nodup.of_map _ (wf order h2).stab_nodup) ?_ ?_ (fun st => anti ((lat size order).vop st.1) c)
    · rw [hr]
      refine xorSum_around (g := fun i => (lat size order).hit c (wrapCoord (2 * (size : Int)) (2 * (i : Int)), 2 * (k : Int) + 3) .Z) ?_ ?_
      · intro i hi
        have hst := (stab_mem (size := size) (p := (2 * (i : Int) + 1, 2 * (k : Int) + 3)) (by dsimp only; omega)).2 (by dsimp only; omega)
        have := anti_stab h2 (c := c) hst
        simp only [groupLetter] at this
        rw [wrap_in (x := 2 * (k : Int) + 3 + 1) (by omega) (by omega), wrap_in (x := 2 * (k : Int) + 3 - 1) (by omega) (by omega),
          show 2 * (k : Int) + 3 + 1 = 2 * ((k + 1 : Nat) : Int) + 2 by omega, show 2 * (k : Int) + 3 - 1 = 2 * (k : Int) + 2 by omega,
          show 2 * (i : Int) + 1 + 1 = 2 * ((i + 1 : Nat) : Int) by omega, show 2 * (i : Int) + 1 - 1 = 2 * (i : Int) by omega] at this
        rw [Bool.true_and, this]
        generalize (lat size order).hit c _ _ = a
        generalize (lat size order).hit c _ _ = b
        generalize (lat size order).hit c _ _ = e
        generalize (lat size order).hit c _ _ = f
        revert a b e f
        decide
      · have := (wrap_ends (2 * (size : Int)) (by omega)).2
        simp only [Nat.cast_zero, mul_zero, zero_add, this]
    · rintro ⟨⟨p1, p2⟩, g⟩
      constructor
      · rintro ⟨h2, h3⟩
        have h2 := mem_stabs (size := size) h2
        rw [decide_eq_true_eq] at h3
        split at h3
        · rename_i hA
          dsimp only at h2 h3 hA
          obtain ⟨hA, _⟩ := hA
          subst hA
          simp only [true_and, reduceCtorEq, false_and, or_false, false_or] at h2
          refine ⟨((p1 - 1) / 2).toNat, by omega, rfl, ?_⟩
          simp only [Prod.mk.injEq, and_true]
          omega
        · cases h3
      · rintro ⟨i, hi, _, h2⟩
        simp only [Prod.mk.injEq] at h2
        obtain ⟨⟨rfl, rfl⟩, rfl⟩ := h2
        refine ⟨(stab_mem (size := size) (p := (2 * (i : Int) + 1, 2 * (k : Int) + 3)) (by dsimp only; omega)).2 (by dsimp only; omega), ?_⟩
        rw [decide_eq_true_eq, if_pos ⟨rfl, by dsimp only; omega⟩]
        dsimp only
        omega
    · intro i _ j _ h
      simp only [Prod.mk.injEq] at h
      omega
  disj k hk l hl i hi j hj h := by
    simp only [Prod.mk.injEq] at h
    omega
  kind st hst e he := by
    rw [stab_edge h2 hst he]
    have := mem_stabs (size := size) hst
    rcases this.2.2 with ⟨h, _⟩ | ⟨h, _⟩ <;> simp [h, groupLetter]
  rel _ _ _ _ := by simp

theorem line_Z0 (h2 : 2 ≤ size) (c : Op (lat size order).dataqubits.length) :
    anti ((lat size order).vop ((size : Int), 2 * (size : Int) + 1)) c = anti ((linesZ0 (order := order) h2).lineOp (size - 1)) c := by
  have hv := op_log (order := order) h2 (l := (((size : Int), 2 * (size : Int) + 1), ['Z'])) (by simp [fam])
  rw [(filter_logs h2).2.1] at hv
  rw [(wf order h2).anti_line (Fam.keeps_step _ _).df hv, (linesZ0 h2).anti_lineOp (wf order h2) (by omega)]
  refine xorSum_congr fun i _ => ?_
  simp only [linesZ0]
  congr 2
  omega

/-- The lines parallel to the logical operator `Z1`. -/
def linesZ1 (h2 : 2 ≤ size) : (lat size order).Lines size where
  m := size
  pos k i := (2 * (k : Int) + 2, 2 * (i : Int) + 1)
  a _ _ := .Z
  colOf st := if st.2 = .B ∧ 0 < st.1.1 then ((st.1.1 - 1) / 2).toNat else 0
  kdOf st := st.2 == .B
  sideOf _ := true
  d_pos := by omega
  col_lt st hst := by
    have := mem_stabs (size := size) hst
    split
    · have h2 : (st.1.1 - 1) / 2 < (size : Int) := by omega
      omega
    · omega
  data k hk i hi := by
    show _ ∈ (fam size).data
    rw [mem_data]; dsimp only; omega
  sum k hk c := by
    have hr := xorSum_reindex (l := (lat size order).stabgens) (P := fun st => decide ((if st.2 = .B ∧ 0 < st.1.1 then ((st.1.1 - 1) / 2).toNat else 0) = k + 1))
      (M := size) (sel := fun _ => true) (v := fun i => ((2 * (k : Int) + 3, 2 * (i : Int) + 1), StabGroup.B))
      (List.Nodup.of_map _ (wf order h2).stab_nodup) ?_ ?_ (fun st => anti ((lat size order).vop st.1) c)
    · rw [hr]
      refine xorSum_around (g := fun i => (lat size order).hit c (2 * (k : Int) + 3, wrapCoord (2 * (size : Int)) (2 * (i : Int))) .Z) ?_ ?_
      · intro i hi
        have hst := (stab_mem (size := size) (p := (2 * (k : Int) + 3, 2 * (i : Int) + 1)) (by dsimp only; omega)).2 (by dsimp only; omega)
        have := anti_stab h2 (c := c) hst
        simp only [groupLetter] at this
        rw [wrap_in (x := 2 * (k : Int) + 3 + 1) (by omega) (by omega), wrap_in (x := 2 * (k : Int) + 3 - 1) (by omega) (by omega),
          show 2 * (k : Int) + 3 + 1 = 2 * ((k + 1 : Nat) : Int) + 2 by omega, show 2 * (k : Int) + 3 - 1 = 2 * (k : Int) + 2 by omega,
          show 2 * (i : Int) + 1 + 1 = 2 * ((i + 1 : Nat) : Int) by omega, show 2 * (i : Int) + 1 - 1 = 2 * (i : Int) by omega] at this
        rw [Bool.true_and, this]
        generalize (lat size order).hit c _ _ = a
        generalize (lat size order).hit c _ _ = b
        generalize (lat size order).hit c _ _ = e
        generalize (lat size order).hit c _ _ = f
        revert a b e f
        decide
      · have := (wrap_ends (2 * (size : Int)) (by omega)).2
        simp only [Nat.cast_zero, mul_zero, zero_add, this]
    · rintro ⟨⟨p1, p2⟩, g⟩
      constructor
      · rintro ⟨h2, h3⟩
        have h2 := mem_stabs (size := size) h2
        rw [decide_eq_true_eq] at h3
        split at h3
        · rename_i hA
          dsimp only at h2 h3 hA
          obtain ⟨hA, _⟩ := hA
          subst hA
          simp only [true_and, reduceCtorEq, false_and, or_false, false_or] at h2
          refine ⟨((p2 - 1) / 2).toNat, by omega, rfl, ?_⟩
          simp only [Prod.mk.injEq, and_true]
          omega
        · cases h3
      · rintro ⟨i, hi, _, h2⟩
        simp only [Prod.mk.injEq] at h2
        obtain ⟨⟨rfl, rfl⟩, rfl⟩ := h2
        refine ⟨(stab_mem (size := size) (p := (2 * (k : Int) + 3, 2 * (i : Int) + 1)) (by dsimp only; omega)).2 (by dsimp only; omega), ?_⟩
        rw [decide_eq_true_eq, if_pos ⟨rfl, by dsimp only; omega⟩]
        dsimp only
        omega
    · intro i _ j _ h
      simp only [Prod.mk.injEq] at h
      omega
  disj k hk l hl i hi j hj h := by
    simp only [Prod.mk.injEq] at h
    omega
  kind st hst e he := by
    rw [stab_edge h2 hst he]
    have := mem_stabs (size := size) hst
    rcases this.2.2 with ⟨h, _⟩ | ⟨h, _⟩ <;> simp [h, groupLetter]
  rel _ _ _ _ := by simp

theorem line_Z1 (h2 : 2 ≤ size) (c : Op (lat size order).dataqubits.length) :
    anti ((lat size order).vop (2 * (size : Int) + 1, (size : Int))) c = anti ((linesZ1 (order := order) h2).lineOp (size - 1)) c := by
  have hv := op_log (order := order) h2 (l := ((2 * (size : Int) + 1, (size : Int)), ['Z'])) (by simp [fam])
  rw [(filter_logs h2).2.2.2] at hv
  rw [(wf order h2).anti_line (Fam.keeps_step _ _).df hv, (linesZ1 h2).anti_lineOp (wf order h2) (by omega)]
  refine xorSum_congr fun i _ => ?_
  simp only [linesZ1]
  congr 2
  omega

end Toric
end Plaquette
