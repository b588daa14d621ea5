import Verif.Lemmas.Distance
import Verif.Lemmas.Planar

/-!
# Distance of the planar code
-/

namespace Plaquette
namespace Planar

variable {size : Nat} {order : List (Int × Int)}

theorem stab_mem {s : Int} {p : Pos} (hp : 0 ≤ p.1 ∧ p.1 ≤ 2 * s - 2 ∧ 0 ≤ p.2 ∧ p.2 ≤ 2 * s - 2) :
    (p.1 % 2 = 1 ∧ p.2 % 2 = 0 → (p, StabGroup.A) ∈ stabs s) ∧ (p.1 % 2 = 0 ∧ p.2 % 2 = 1 → (p, StabGroup.B) ∈ stabs s) := by
  constructor
  · intro h; rw [stabs, mem_stabsOf, mem_cells]; exact ⟨hp, kind_A.mpr h⟩
  · intro h; rw [stabs, mem_stabsOf, mem_cells]; exact ⟨hp, kind_B.mpr h⟩

/-- An operator that commutes with the stabiliser at `p`. -/
theorem around (h1 : 1 ≤ size) {c : Op (lat size order).dataqubits.length} {st : Pos × StabGroup} (hst : st ∈ stabs size)
    (hc : anti ((lat size order).vop st.1) c = false) :
    let H := fun p => (lat size order).hit c p (groupLetter st.2)
    (H (st.1.1, st.1.2 + 1) ^^ (H (st.1.1, st.1.2 - 1) ^^ (H (st.1.1 + 1, st.1.2) ^^ H (st.1.1 - 1, st.1.2)))) = false := by
  rw [(wf size order h1).anti_dirs (stepEdge_df _ _) (op_stab size order hst)] at hc
  · simpa [crossDirs, mkEdge, sub_eq_add_neg] using hc
  · intro d _ ho hd
    rw [lat_data, mem_data] at hd
    simp only [outside, mkEdge] at ho hd
    omega

theorem dist_x (h1 : 1 ≤ size) {c : Op (lat size order).dataqubits.length}
    (hc : ∀ st ∈ stabs size, anti ((lat size order).vop st.1) c = false)
    (hl : anti ((lat size order).vop (xPos size)) c = true) : size ≤ c.weight := by
  rw [(wf size order h1).anti_line (pos := fun i => (2 * (size : Int) - 2, 2 * i)) (a := fun _ => .X) (stepEdge_df _ _) (op_x size order h1)] at hl
  refine (wf size order h1).weight_ge_lines (m := size) (fun k i => (2 * (k : Int), 2 * (i : Int))) (fun _ _ => .X) (k₀ := size - 1) (by omega) ?_ ?_ ?_
  · rw [← hl]
    refine xorSum_congr fun i _ => ?_
    congr 2
    omega
  · intro k hk
    have : ∀ i ∈ List.range size, (fun i : Nat => ((lat size order).hit c (2 * (k : Int), 2 * (i : Int)) .X ^^
        (lat size order).hit c (2 * ((k + 1 : Nat) : Int), 2 * (i : Int)) .X)) i =
        (fun i : Nat => ((fun i : Nat => (lat size order).hit c (2 * (k : Int) + 1, 2 * (i : Int) - 1) .X) i ^^
          (fun i : Nat => (lat size order).hit c (2 * (k : Int) + 1, 2 * (i : Int) - 1) .X) (i + 1))) i := by
      intro i hi
      rw [List.mem_range] at hi
      have hst := (stab_mem (s := size) (p := (2 * (k : Int) + 1, 2 * (i : Int))) (by dsimp only; omega)).1 (by dsimp only; omega)
      have := around h1 hst (hc _ hst)
      simp only [groupLetter] at this
      rw [show 2 * (k : Int) + 1 + 1 = 2 * ((k + 1 : Nat) : Int) by omega, show 2 * (k : Int) + 1 - 1 = 2 * (k : Int) by omega,
        show 2 * (i : Int) + 1 = 2 * ((i + 1 : Nat) : Int) - 1 by omega] at this
      dsimp only
      revert this
      generalize (lat size order).hit c _ _ = a
      generalize (lat size order).hit c _ _ = b
      generalize (lat size order).hit c _ _ = e
      generalize (lat size order).hit c _ _ = f
      revert a b e f
      decide
    rw [xorSum_congr this, xorSum_tele, Lattice.hit_out, Lattice.hit_out]
    · rfl
    · rw [lat_data, mem_data]; dsimp only; omega
    · rw [lat_data, mem_data]; dsimp only; omega
  · intro k hk l hl i hi j hj h
    simp only [Prod.mk.injEq] at h
    omega

theorem dist_z (h1 : 1 ≤ size) {c : Op (lat size order).dataqubits.length}
    (hc : ∀ st ∈ stabs size, anti ((lat size order).vop st.1) c = false)
    (hl : anti ((lat size order).vop (zPos size)) c = true) : size ≤ c.weight := by
  rw [(wf size order h1).anti_line (pos := fun i => (2 * i, 2 * (size : Int) - 2)) (a := fun _ => .Z) (stepEdge_df _ _) (op_z size order h1)] at hl
  refine (wf size order h1).weight_ge_lines (m := size) (fun k i => (2 * (i : Int), 2 * (k : Int))) (fun _ _ => .Z) (k₀ := size - 1) (by omega) ?_ ?_ ?_
  · rw [← hl]
    refine xorSum_congr fun i _ => ?_
    congr 2
    omega
  · intro k hk
    have : ∀ i ∈ List.range size, (fun i : Nat => ((lat size order).hit c (2 * (i : Int), 2 * (k : Int)) .Z ^^
        (lat size order).hit c (2 * (i : Int), 2 * ((k + 1 : Nat) : Int)) .Z)) i =
        (fun i : Nat => ((fun i : Nat => (lat size order).hit c (2 * (i : Int) - 1, 2 * (k : Int) + 1) .Z) i ^^
          (fun i : Nat => (lat size order).hit c (2 * (i : Int) - 1, 2 * (k : Int) + 1) .Z) (i + 1))) i := by
      intro i hi
      rw [List.mem_range] at hi
      have hst := (stab_mem (s := size) (p := (2 * (i : Int), 2 * (k : Int) + 1)) (by dsimp only; omega)).2 (by dsimp only; omega)
      have := around h1 hst (hc _ hst)
      simp only [groupLetter] at this
      rw [show 2 * (k : Int) + 1 + 1 = 2 * ((k + 1 : Nat) : Int) by omega, show 2 * (k : Int) + 1 - 1 = 2 * (k : Int) by omega,
        show 2 * (i : Int) + 1 = 2 * ((i + 1 : Nat) : Int) - 1 by omega] at this
      dsimp only
      revert this
      generalize (lat size order).hit c _ _ = a
      generalize (lat size order).hit c _ _ = b
      generalize (lat size order).hit c _ _ = e
      generalize (lat size order).hit c _ _ = f
      revert a b e f
      decide
    rw [xorSum_congr this, xorSum_tele, Lattice.hit_out, Lattice.hit_out]
    · rfl
    · rw [lat_data, mem_data]; dsimp only; omega
    · rw [lat_data, mem_data]; dsimp only; omega
  · intro k hk l hl i hi j hj h
    simp only [Prod.mk.injEq] at h
    omega

theorem distance (h1 : 1 ≤ size) : (lat size order).code.HasDistance size := by
  refine (wf size order h1).distance (comm size order h1) ?_ ⟨0, (xPos size, ['X']), (zPos size, ['Z']), rfl, rfl, rfl, Or.inl ?_⟩
  · intro c hc l hl h
    have hl : l ∈ logs size := hl
    simp only [logs, List.mem_cons, List.not_mem_nil, or_false] at hl
    rcases hl with rfl | rfl
    · exact dist_x h1 hc h
    · exact dist_z h1 hc h
  · rw [op_x size order h1]; simp [xEdges, length_pyRange]

/-- The stabilisers next to a data qubit. -/
theorem twoAt (a : Letter) (ha : a ≠ .Y) : (lat size order).TwoAt a := by
  intro p hp
  rw [lat_data, mem_data] at hp
  refine ⟨if (p.1 % 2 = 0) = (a = .X) then (p.1, p.2 + 1) else (p.1 + 1, p.2), if (p.1 % 2 = 0) = (a = .X) then (p.1, p.2 - 1) else (p.1 - 1, p.2), ?_⟩
  intro st hst e he hd hf
  have hst : st ∈ stabs size := hst
  rw [op_stab size order hst] at he
  obtain ⟨e, he', rfl⟩ := List.mem_map.mp he
  rw [(stepEdge_df _ _ _).1] at hd
  rw [(stepEdge_df _ _ _).2] at hf
  obtain ⟨d, hdir, ho, rfl⟩ := mem_stabEdges.mp he'
  have h3 := crossDirs_par hdir
  have h4 := (mem_stabs hst).2
  obtain ⟨⟨s1, s2⟩, g⟩ := st
  obtain ⟨p1, p2⟩ := p
  simp only [mkEdge, Prod.mk.injEq] at hd hf hp h4 ⊢
  cases a with
  | Y => exact absurd rfl ha
  | X =>
    obtain ⟨rfl, h4⟩ : g = .B ∧ (s1 % 2 = 0 ∧ s2 % 2 = 1) := by
      rcases h4 with ⟨rfl, _⟩ | h4
      · exact absurd rfl hf
      · exact h4
    by_cases hpar : p1 % 2 = 0
    · rw [if_pos (by simpa using hpar), if_pos (by simpa using hpar)]; simp only [Prod.mk.injEq]; omega
    · rw [if_neg (by simpa using hpar), if_neg (by simpa using hpar)]; simp only [Prod.mk.injEq]; omega
  | Z =>
    obtain ⟨rfl, h4⟩ : g = .A ∧ (s1 % 2 = 1 ∧ s2 % 2 = 0) := by
      rcases h4 with h4 | ⟨rfl, _⟩
      · exact h4
      · exact absurd rfl hf
    by_cases hpar : p1 % 2 = 0
    · rw [if_neg (by simp [hpar]), if_neg (by simp [hpar])]; simp only [Prod.mk.injEq]; omega
    · rw [if_pos (by simpa using hpar), if_pos (by simpa using hpar)]; simp only [Prod.mk.injEq]; omega

end Planar
end Plaquette
