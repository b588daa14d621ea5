import Verif.Lemmas.LineLattice
import Verif.Lemmas.PlanarDist
import Verif.Lemmas.QecCircuit

/-!
# Parallel logical operators of the planar code
-/

namespace Plaquette
namespace Planar

variable {size : Nat} {order : List (Int × Int)}

theorem anti_stab (h1 : 1 ≤ size) {c : Op (lat size order).dataqubits.length} {st : Pos × StabGroup} (hst : st ∈ stabs size) :
    let H := fun p => (lat size order).hit c p (groupLetter st.2)
    anti ((lat size order).vop st.1) c =
      (H (st.1.1, st.1.2 + 1) ^^ (H (st.1.1, st.1.2 - 1) ^^ (H (st.1.1 + 1, st.1.2) ^^ H (st.1.1 - 1, st.1.2)))) := by
  rw [(wf size order h1).anti_dirs (stepEdge_df _ _) (op_stab size order hst)]
  · simp [crossDirs, mkEdge, sub_eq_add_neg]
  · intro d _ ho hd
    rw [lat_data, mem_data] at hd
    simp only [outside, mkEdge] at ho hd
    omega

theorem stab_edge {st : Pos × StabGroup} (hst : st ∈ stabs size) {e : LEdge} (he : e ∈ (lat size order).opEdges st.1) :
    e.factor = groupLetter st.2 := by
  rw [op_stab size order hst] at he
  obtain ⟨e', he', rfl⟩ := List.mem_map.1 he
  rw [(stepEdge_df _ _ _).2]
  simp only [stabEdges, List.mem_filterMap, dirEdge] at he'
  obtain ⟨d, _, hd⟩ := he'
  split at hd
  · cases hd
  · cases hd; rfl

/-- The rows parallel to the logical `X`. -/
def linesX (h1 : 1 ≤ size) : (lat size order).Lines size where
  m := size
  pos k i := (2 * (k : Int), 2 * (i : Int))
  a _ _ := .X
  colOf st := if st.2 = .A then ((st.1.1 + 1) / 2).toNat else 0
  kdOf st := st.2 == .A
  sideOf _ := false
  d_pos := h1
  col_lt st hst := by
    have := mem_stabs (s := size) hst
    split
    · have h2 : (st.1.1 + 1) / 2 < size := by omega
      omega
    · omega
  data k hk i hi := by
    rw [lat_data, mem_data]; dsimp only; omega
  sum k hk c := by
    have hr := xorSum_reindex (l := (lat size order).stabgens) (P := fun st => decide ((if st.2 = .A then ((st.1.1 + 1) / 2).toNat else 0) = k + 1))
      (M := size) (sel := fun _ => true) (v := fun i => ((2 * (k : Int) + 1, 2 * (i : Int)), StabGroup.A))
      (List.Nodup.of_map _ (wf size order h1).stab_nodup) ?_ ?_ (fun st => anti ((lat size order).vop st.1) c)
    · rw [hr]
      refine xorSum_around (g := fun i => (lat size order).hit c (2 * (k : Int) + 1, 2 * (i : Int) - 1) .X) ?_ ?_
      · intro i hi
        have hst := (stab_mem (s := size) (p := (2 * (k : Int) + 1, 2 * (i : Int))) (by dsimp only; omega)).1 (by dsimp only; omega)
        have := anti_stab h1 (c := c) hst
        simp only [groupLetter] at this
        rw [show 2 * (k : Int) + 1 + 1 = 2 * ((k + 1 : Nat) : Int) by omega, show 2 * (k : Int) + 1 - 1 = 2 * (k : Int) by omega,
          show 2 * (i : Int) + 1 = 2 * ((i + 1 : Nat) : Int) - 1 by omega] at this
        rw [Bool.true_and, this]
        generalize (lat size order).hit c _ _ = a
        generalize (lat size order).hit c _ _ = b
        generalize (lat size order).hit c _ _ = e
        generalize (lat size order).hit c _ _ = f
        revert a b e f
        decide
      · rw [Lattice.hit_out, Lattice.hit_out]
        · rw [lat_data, mem_data]; dsimp only; omega
        · rw [lat_data, mem_data]; dsimp only; omega
    · rintro ⟨⟨p1, p2⟩, g⟩
      constructor
      · rintro ⟨h2, h3⟩
        have h2 := mem_stabs (s := size) h2
        rw [decide_eq_true_eq] at h3
        split at h3
        · rename_i hA
          dsimp only at h2 h3 hA
          subst hA
          simp only [true_and, reduceCtorEq, false_and, or_false] at h2
          refine ⟨(p2 / 2).toNat, by omega, rfl, ?_⟩
          simp only [Prod.mk.injEq, and_true]
          omega
        · cases h3
      · rintro ⟨i, hi, _, h2⟩
        simp only [Prod.mk.injEq] at h2
        obtain ⟨⟨rfl, rfl⟩, rfl⟩ := h2
        refine ⟨(stab_mem (s := size) (p := (2 * (k : Int) + 1, 2 * (i : Int))) (by dsimp only; omega)).1 (by dsimp only; omega), ?_⟩
        rw [decide_eq_true_eq, if_pos rfl]
        dsimp only
        omega
    · intro i _ j _ h
      simp only [Prod.mk.injEq] at h
      omega
  disj k hk l hl i hi j hj h := by
    simp only [Prod.mk.injEq] at h
    omega
  kind st hst e he := by
    rw [stab_edge hst he]
    have := mem_stabs (s := size) hst
    rcases this.2 with ⟨h, _⟩ | ⟨h, _⟩ <;> simp [h, groupLetter]
  rel _ _ _ _ := by simp

/-- The columns parallel to the logical `Z`. -/
def linesZ (h1 : 1 ≤ size) : (lat size order).Lines size where
  m := size
  pos k i := (2 * (i : Int), 2 * (k : Int))
  a _ _ := .Z
  colOf st := if st.2 = .B then ((st.1.2 + 1) / 2).toNat else 0
  kdOf st := st.2 == .B
  sideOf _ := true
  d_pos := h1
  col_lt st hst := by
    have := mem_stabs (s := size) hst
    split
    · have h2 : (st.1.2 + 1) / 2 < size := by omega
      omega
    · omega
  data k hk i hi := by
    rw [lat_data, mem_data]; dsimp only; omega
  sum k hk c := by
    have hr := xorSum_reindex (l := (lat size order).stabgens) (P := fun st => decide ((if st.2 = .B then ((st.1.2 + 1) / 2).toNat else 0) = k + 1))
      (M := size) (sel := fun _ => true) (v := fun i => ((2 * (i : Int), 2 * (k : Int) + 1), StabGroup.B))
      (List.Nodup.of_map _ (wf size order h1).stab_nodup) ?_ ?_ (fun st => anti ((lat size order).vop st.1) c)
    · rw [hr]
      refine xorSum_around (g := fun i => (lat size order).hit c (2 * (i : Int) - 1, 2 * (k : Int) + 1) .Z) ?_ ?_
      · intro i hi
        have hst := (stab_mem (s := size) (p := (2 * (i : Int), 2 * (k : Int) + 1)) (by dsimp only; omega)).2 (by dsimp only; omega)
        have := anti_stab h1 (c := c) hst
        simp only [groupLetter] at this
        rw [show 2 * (k : Int) + 1 + 1 = 2 * ((k + 1 : Nat) : Int) by omega, show 2 * (k : Int) + 1 - 1 = 2 * (k : Int) by omega,
          show 2 * (i : Int) + 1 = 2 * ((i + 1 : Nat) : Int) - 1 by omega] at this
        rw [Bool.true_and, this]
        generalize (lat size order).hit c _ _ = a
        generalize (lat size order).hit c _ _ = b
        generalize (lat size order).hit c _ _ = e
        generalize (lat size order).hit c _ _ = f
        revert a b e f
        decide
      · rw [Lattice.hit_out, Lattice.hit_out]
        · rw [lat_data, mem_data]; dsimp only; omega
        · rw [lat_data, mem_data]; dsimp only; omega
    · rintro ⟨⟨p1, p2⟩, g⟩
      constructor
      · rintro ⟨h2, h3⟩
        have h2 := mem_stabs (s := size) h2
        rw [decide_eq_true_eq] at h3
        split at h3
        · rename_i hA
          dsimp only at h2 h3 hA
          subst hA
          simp only [true_and, reduceCtorEq, false_and, false_or] at h2
          refine ⟨(p1 / 2).toNat, by omega, rfl, ?_⟩
          simp only [Prod.mk.injEq, and_true]
          omega
        · cases h3
      · rintro ⟨i, hi, _, h2⟩
        simp only [Prod.mk.injEq] at h2
        obtain ⟨⟨rfl, rfl⟩, rfl⟩ := h2
        refine ⟨(stab_mem (s := size) (p := (2 * (i : Int), 2 * (k : Int) + 1)) (by dsimp only; omega)).2 (by dsimp only; omega), ?_⟩
        rw [decide_eq_true_eq, if_pos rfl]
        dsimp only
        omega
    · intro i _ j _ h
      simp only [Prod.mk.injEq] at h
      omega
  disj k hk l hl i hi j hj h := by
    simp only [Prod.mk.injEq] at h
    omega
  kind st hst e he := by
    rw [stab_edge hst he]
    have := mem_stabs (s := size) hst
    rcases this.2 with ⟨h, _⟩ | ⟨h, _⟩ <;> simp [h, groupLetter]
  rel _ _ _ _ := by simp

theorem line_x (h1 : 1 ≤ size) (c : Op (lat size order).dataqubits.length) :
    anti ((lat size order).vop (xPos size)) c = anti ((linesX (order := order) h1).lineOp (size - 1)) c := by
  rw [(wf size order h1).anti_line (pos := fun i => (2 * (size : Int) - 2, 2 * i)) (a := fun _ => .X) (stepEdge_df _ _) (op_x size order h1),
    (linesX h1).anti_lineOp (wf size order h1) (by omega)]
  refine xorSum_congr fun i _ => ?_
  simp only [linesX]
  congr 2
  omega

theorem line_z (h1 : 1 ≤ size) (c : Op (lat size order).dataqubits.length) :
    anti ((lat size order).vop (zPos size)) c = anti ((linesZ (order := order) h1).lineOp (size - 1)) c := by
  rw [(wf size order h1).anti_line (pos := fun i => (2 * i, 2 * (size : Int) - 2)) (a := fun _ => .Z) (stepEdge_df _ _) (op_z size order h1),
    (linesZ h1).anti_lineOp (wf size order h1) (by omega)]
  refine xorSum_congr fun i _ => ?_
  simp only [linesZ]
  congr 2
  omega

end Planar
end Plaquette
