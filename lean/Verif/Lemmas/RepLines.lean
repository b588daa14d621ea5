import Verif.Lemmas.LineLattice
import Verif.Lemmas.SmallDist
import Verif.Lemmas.QecCircuit

/-!
# Parallel logical operators of the repetition code
-/

namespace Plaquette
namespace Rep

variable {size : Nat}

theorem stab_get {st : Pos × StabGroup} (hst : st ∈ stabs size) : ∃ i ∈ stabCells size, st = ((i, 0), .A) := by
  obtain ⟨i, hi, rfl⟩ := List.mem_map.1 hst
  exact ⟨i, hi, rfl⟩

/-- `Z` on each qubit. -/
def linesZ (h3 : 3 ≤ size) : (lat size).Lines size where
  m := 1
  pos k _ := (2 * (k : Int), 0)
  a _ _ := .Z
  colOf st := ((st.1.1 + 1) / 2).toNat
  kdOf _ := true
  sideOf _ := true
  d_pos := by omega
  col_lt st hst := by
    obtain ⟨i, hi, rfl⟩ := stab_get (size := size) hst
    rw [mem_stabCells] at hi
    have : (i + 1) / 2 < (size : Int) := by omega
    dsimp only
    omega
  data k hk i hi := by
    show _ ∈ data size
    rw [mem_data]; dsimp only; omega
  sum k hk c := by
    have hr := xorSum_reindex (l := (lat size).stabgens) (P := fun st => decide ((((st.1.1 + 1) / 2).toNat) = k + 1))
      (M := 1) (sel := fun _ => true) (v := fun _ => ((2 * (k : Int) + 1, 0), StabGroup.A))
      (List.Nodup.of_map _ (wf size h3).stab_nodup) ?_ ?_ (fun st => anti ((lat size).vop st.1) c)
    · rw [hr]
      have hi : 2 * (k : Int) + 1 ∈ stabCells size := mem_stabCells.mpr (by omega)
      simp only [List.range_one, xorSum_cons, xorSum_nil, Bool.xor_false, Bool.true_and]
      rw [(wf size h3).anti_vop_hit, op_stab _ _ hi]
      simp only [stabEdges, xorSum_cons, xorSum_nil, Bool.xor_false, mkEdge]
      congr 2 <;> congr 1 <;> omega
    · rintro ⟨⟨p1, p2⟩, g⟩
      constructor
      · rintro ⟨h2, h3⟩
        obtain ⟨i, hi, h2⟩ := stab_get (size := size) h2
        cases h2
        rw [mem_stabCells] at hi
        have h3 := of_decide_eq_true h3
        dsimp only at h3
        refine ⟨0, by omega, rfl, ?_⟩
        simp only [Prod.mk.injEq, and_true]
        omega
      · rintro ⟨i, hi, _, h2⟩
        simp only [Prod.mk.injEq] at h2
        obtain ⟨⟨rfl, rfl⟩, rfl⟩ := h2
        refine ⟨List.mem_map.2 ⟨_, mem_stabCells.2 (by omega), rfl⟩, ?_⟩
        rw [decide_eq_true_eq]
        dsimp only
        omega
    · intro i _ j _ h
      omega
  disj k hk l hl i hi j hj h := by
    simp only [Prod.mk.injEq] at h
    omega
  kind st hst e he := by
    obtain ⟨i, hi, rfl⟩ := stab_get (size := size) hst
    rw [op_stab _ _ hi] at he
    simp only [stabEdges, List.mem_cons, List.not_mem_nil, or_false] at he
    rcases he with rfl | rfl <;> simp [mkEdge]
  rel _ _ _ _ := by simp

theorem line_z (h3 : 3 ≤ size) (c : Op (lat size).dataqubits.length) :
    anti ((lat size).vop (2 * (size : Int) - 1, 0)) c = anti ((linesZ h3).lineOp (size - 1)) c := by
  rw [(linesZ h3).anti_lineOp (wf size h3) (by omega), (wf size h3).anti_vop_hit, op_z]
  simp only [zEdges, xorSum_cons, xorSum_nil, Bool.xor_false, mkEdge, linesZ, List.range_one]
  congr 2
  omega

end Rep
end Plaquette
