import Verif.Lemmas.Distance
import Verif.Lemmas.Toric

/-!
# Distance of the toric code
-/

namespace Plaquette
namespace Toric

variable {size : Nat} {order : List (Int × Int)}

theorem stab_mem {p : Pos} (hp : 1 ≤ p.1 ∧ p.1 ≤ 2 * (size : Int) ∧ 1 ≤ p.2 ∧ p.2 ≤ 2 * (size : Int)) :
    (p.1 % 2 = 0 ∧ p.2 % 2 = 0 → (p, StabGroup.A) ∈ (fam size).stabs) ∧
      (p.1 % 2 = 1 ∧ p.2 % 2 = 1 → (p, StabGroup.B) ∈ (fam size).stabs) := by
  constructor
  · intro h
    show _ ∈ stabsOf kind (cells size)
    rw [mem_stabsOf, mem_cells]; exact ⟨hp, kind_A.mpr h⟩
  · intro h
    show _ ∈ stabsOf kind (cells size)
    rw [mem_stabsOf, mem_cells]; exact ⟨hp, kind_B.mpr h⟩

/-- An operator that commutes with the stabiliser at `p`. -/
theorem around (h2 : 2 ≤ size) {c : Op (lat size order).dataqubits.length} {st : Pos × StabGroup} (hst : st ∈ (fam size).stabs)
    (hc : anti ((lat size order).vop st.1) c = false) :
    let H := fun p => (lat size order).hit c p (groupLetter st.2)
    let w := wrapCoord (2 * (size : Int))
    (H (st.1.1, w (st.1.2 + 1)) ^^ (H (st.1.1, w (st.1.2 - 1)) ^^ (H (w (st.1.1 + 1), st.1.2) ^^ H (w (st.1.1 - 1), st.1.2)))) = false := by
  obtain ⟨r1, r2, _⟩ := mem_stabs hst
  have hs : (2 : Int) ≤ size := by omega
  have := (ok h2).op_stab (some order.length) (Fam.keeps_step (fam size).raw.isStab order) hst
  rw [(wf order h2).anti_dirs (Fam.keeps_step _ _).df this] at hc
  · have w1 := wrap_zero hs r1
    have w2 := wrap_zero hs r2
    rw [add_zero] at w1 w2
    simpa [crossDirs, mkEdge, nb, sub_eq_add_neg, w1, w2] using hc
  · intro d _ ho
    exact absurd ho (by simp)

theorem op_log (h2 : 2 ≤ size) {l : Pos × List Char} (hl : l ∈ (fam size).logs) :
    (lat size order).opEdges l.1 = ((fam size).logE.filter fun e => e.op = l.1).map (stepEdge (fam size).raw.isStab order) :=
  (ok h2).op_log (some order.length) (Fam.keeps_step (fam size).raw.isStab order) hl

theorem wrap_in {m x : Int} (h0 : 1 ≤ x) (h1 : x ≤ m) : wrapCoord m x = x := by
  have := wrap_eq m x (by omega) (by omega) (by omega)
  omega

theorem wrap_ends (m : Int) (hm : 1 ≤ m) : wrapCoord m 1 = wrapCoord m (m + 1) ∧ wrapCoord m 0 = wrapCoord m m := by
  have := wrap_eq m 0 (by omega) (by omega) (by omega)
  have := wrap_eq m 1 (by omega) (by omega) (by omega)
  have := wrap_eq m m (by omega) (by omega) (by omega)
  have := wrap_eq m (m + 1) (by omega) (by omega) (by omega)
  omega

theorem dist_x0 (h2 : 2 ≤ size) {c : Op (lat size order).dataqubits.length}
    (hc : ∀ st ∈ (fam size).stabs, anti ((lat size order).vop st.1) c = false)
    (hl : anti ((lat size order).vop (0, (size : Int))) c = true) : size ≤ c.weight := by
  have hv := op_log (order := order) h2 (l := ((0, (size : Int)), ['X'])) (by simp [fam])
  rw [(filter_logs h2).1] at hv
  rw [(wf order h2).anti_line (Fam.keeps_step _ _).df hv] at hl
  refine (wf order h2).weight_ge_lines (m := size) (fun k i => (2 * (k : Int) + 1, 2 * (i : Int) + 2)) (fun _ _ => .X) (k₀ := 0) (by omega) ?_ ?_ ?_
  · exact hl
  · intro k hk
    have : ∀ i ∈ List.range size, (fun i : Nat => ((lat size order).hit c (2 * (k : Int) + 1, 2 * (i : Int) + 2) .X ^^
        (lat size order).hit c (2 * ((k + 1 : Nat) : Int) + 1, 2 * (i : Int) + 2) .X)) i =
        (fun i : Nat => ((fun i : Nat => (lat size order).hit c (2 * (k : Int) + 2, wrapCoord (2 * (size : Int)) (2 * (i : Int) + 1)) .X) i ^^
          (fun i : Nat => (lat size order).hit c (2 * (k : Int) + 2, wrapCoord (2 * (size : Int)) (2 * (i : Int) + 1)) .X) (i + 1))) i := by
      intro i hi
      rw [List.mem_range] at hi
      have hst := (stab_mem (size := size) (p := (2 * (k : Int) + 2, 2 * (i : Int) + 2)) (by dsimp only; omega)).1 (by dsimp only; omega)
      have := around h2 hst (hc _ hst)
      simp only [groupLetter] at this
      rw [wrap_in (x := 2 * (k : Int) + 2 + 1) (by omega) (by omega), wrap_in (x := 2 * (k : Int) + 2 - 1) (by omega) (by omega),
        show 2 * (k : Int) + 2 + 1 = 2 * ((k + 1 : Nat) : Int) + 1 by omega, show 2 * (k : Int) + 2 - 1 = 2 * (k : Int) + 1 by omega,
        show 2 * (i : Int) + 2 + 1 = 2 * ((i + 1 : Nat) : Int) + 1 by omega, show 2 * (i : Int) + 2 - 1 = 2 * (i : Int) + 1 by omega] at this
      dsimp only
      revert this
      generalize (lat size order).hit c _ _ = a
      generalize (lat size order).hit c _ _ = b
      generalize (lat size order).hit c _ _ = e
      generalize (lat size order).hit c _ _ = f
      revert a b e f
      decide
    rw [xorSum_congr this, xorSum_tele]
    have := (wrap_ends (2 * (size : Int)) (by omega)).1
    simp only [Nat.cast_zero, mul_zero, zero_add, this, bne_self_eq_false]
  · intro k hk l hl i hi j hj h
    simp only [Prod.mk.injEq] at h
    omega

theorem dist_x1 (h2 : 2 ≤ size) {c : Op (lat size order).dataqubits.length}
    (hc : ∀ st ∈ (fam size).stabs, anti ((lat size order).vop st.1) c = false)
    (hl : anti ((lat size order).vop ((size : Int), 0)) c = true) : size ≤ c.weight := by
  have hv := op_log (order := order) h2 (l := (((size : Int), 0), ['X'])) (by simp [fam])
  rw [(filter_logs h2).2.2.1] at hv
  rw [(wf order h2).anti_line (Fam.keeps_step _ _).df hv] at hl
  refine (wf order h2).weight_ge_lines (m := size) (fun k i => (2 * (i : Int) + 2, 2 * (k : Int) + 1)) (fun _ _ => .X) (k₀ := 0) (by omega) ?_ ?_ ?_
  · exact hl
  · intro k hk
    have : ∀ i ∈ List.range size, (fun i : Nat => ((lat size order).hit c (2 * (i : Int) + 2, 2 * (k : Int) + 1) .X ^^
        (lat size order).hit c (2 * (i : Int) + 2, 2 * ((k + 1 : Nat) : Int) + 1) .X)) i =
        (fun i : Nat => ((fun i : Nat => (lat size order).hit c (wrapCoord (2 * (size : Int)) (2 * (i : Int) + 1), 2 * (k : Int) + 2) .X) i ^^
          (fun i : Nat => (lat size order).hit c (wrapCoord (2 * (size : Int)) (2 * (i : Int) + 1), 2 * (k : Int) + 2) .X) (i + 1))) i := by
      intro i hi
      rw [List.mem_range] at hi
      have hst := (stab_mem (size := size) (p := (2 * (i : Int) + 2, 2 * (k : Int) + 2)) (by dsimp only; omega)).1 (by dsimp only; omega)
      have := around h2 hst (hc _ hst)
      simp only [groupLetter] at this
      rw [wrap_in (x := 2 * (k : Int) + 2 + 1) (by omega) (by omega), wrap_in (x := 2 * (k : Int) + 2 - 1) (by omega) (by omega),
        show 2 * (k : Int) + 2 + 1 = 2 * ((k + 1 : Nat) : Int) + 1 by omega, show 2 * (k : Int) + 2 - 1 = 2 * (k : Int) + 1 by omega,
        show 2 * (i : Int) + 2 + 1 = 2 * ((i + 1 : Nat) : Int) + 1 by omega, show 2 * (i : Int) + 2 - 1 = 2 * (i : Int) + 1 by omega] at this
      dsimp only
      revert this
      generalize (lat size order).hit c _ _ = a
      generalize (lat size order).hit c _ _ = b
      generalize (lat size order).hit c _ _ = e
      generalize (lat size order).hit c _ _ = f
      revert a b e f
      decide
    rw [xorSum_congr this, xorSum_tele]
    have := (wrap_ends (2 * (size : Int)) (by omega)).1
    simp only [Nat.cast_zero, mul_zero, zero_add, this, bne_self_eq_false]
  · intro k hk l hl i hi j hj h
    simp only [Prod.mk.injEq] at h
    omega

theorem dist_z0 (h2 : 2 ≤ size) {c : Op (lat size order).dataqubits.length}
    (hc : ∀ st ∈ (fam size).stabs, anti ((lat size order).vop st.1) c = false)
    (hl : anti ((lat size order).vop ((size : Int), 2 * (size : Int) + 1)) c = true) : size ≤ c.weight := by
  have hv := op_log (order := order) h2 (l := (((size : Int), 2 * (size : Int) + 1), ['Z'])) (by simp [fam])
  rw [(filter_logs h2).2.1] at hv
  rw [(wf order h2).anti_line (Fam.keeps_step _ _).df hv] at hl
  refine (wf order h2).weight_ge_lines (m := size) (fun k i => (2 * (i : Int) + 1, 2 * (k : Int) + 2)) (fun _ _ => .Z) (k₀ := size - 1) (by omega) ?_ ?_ ?_
  · rw [← hl]
    refine xorSum_congr fun i _ => ?_
    congr 2
    omega
  · intro k hk
    have : ∀ i ∈ List.range size, (fun i : Nat => ((lat size order).hit c (2 * (i : Int) + 1, 2 * (k : Int) + 2) .Z ^^
        (lat size order).hit c (2 * (i : Int) + 1, 2 * ((k + 1 : Nat) : Int) + 2) .Z)) i =
        (fun i : Nat => ((fun i : Nat => (lat size order).hit c (wrapCoord (2 * (size : Int)) (2 * (i : Int)), 2 * (k : Int) + 3) .Z) i ^^
          (fun i : Nat => (lat size order).hit c (wrapCoord (2 * (size : Int)) (2 * (i : Int)), 2 * (k : Int) + 3) .Z) (i + 1))) i := by
      intro i hi
      rw [List.mem_range] at hi
      have hst := (stab_mem (size := size) (p := (2 * (i : Int) + 1, 2 * (k : Int) + 3)) (by dsimp only; omega)).2 (by dsimp only; omega)
      have := around h2 hst (hc _ hst)
      simp only [groupLetter] at this
      rw [wrap_in (x := 2 * (k : Int) + 3 + 1) (by omega) (by omega), wrap_in (x := 2 * (k : Int) + 3 - 1) (by omega) (by omega),
        show 2 * (k : Int) + 3 + 1 = 2 * ((k + 1 : Nat) : Int) + 2 by omega, show 2 * (k : Int) + 3 - 1 = 2 * (k : Int) + 2 by omega,
        show 2 * (i : Int) + 1 + 1 = 2 * ((i + 1 : Nat) : Int) by omega, show 2 * (i : Int) + 1 - 1 = 2 * (i : Int) by omega] at this
      dsimp only
      revert this
      generalize (lat size order).hit c _ _ = a
      generalize (lat size order).hit c _ _ = b
      generalize (lat size order).hit c _ _ = e
      generalize (lat size order).hit c _ _ = f
      revert a b e f
      decide
    rw [xorSum_congr this, xorSum_tele]
    have := (wrap_ends (2 * (size : Int)) (by omega)).2
    simp only [Nat.cast_zero, mul_zero, this, bne_self_eq_false]
  · intro k hk l hl i hi j hj h
    simp only [Prod.mk.injEq] at h
    omega

theorem dist_z1 (h2 : 2 ≤ size) {c : Op (lat size order).dataqubits.length}
    (hc : ∀ st ∈ (fam size).stabs, anti ((lat size order).vop st.1) c = false)
    (hl : anti ((lat size order).vop (2 * (size : Int) + 1, (size : Int))) c = true) : size ≤ c.weight := by
  have hv := op_log (order := order) h2 (l := ((2 * (size : Int) + 1, (size : Int)), ['Z'])) (by simp [fam])
  rw [(filter_logs h2).2.2.2] at hv
  rw [(wf order h2).anti_line (Fam.keeps_step _ _).df hv] at hl
  refine (wf order h2).weight_ge_lines (m := size) (fun k i => (2 * (k : Int) + 2, 2 * (i : Int) + 1)) (fun _ _ => .Z) (k₀ := size - 1) (by omega) ?_ ?_ ?_
  · rw [← hl]
    refine xorSum_congr fun i _ => ?_
    congr 2
    omega
  · intro k hk
    have : ∀ i ∈ List.range size, (fun i : Nat => ((lat size order).hit c (2 * (k : Int) + 2, 2 * (i : Int) + 1) .Z ^^
        (lat size order).hit c (2 * ((k + 1 : Nat) : Int) + 2, 2 * (i : Int) + 1) .Z)) i =
        (fun i : Nat => ((fun i : Nat => (lat size order).hit c (2 * (k : Int) + 3, wrapCoord (2 * (size : Int)) (2 * (i : Int))) .Z) i ^^
          (fun i : Nat => (lat size order).hit c (2 * (k : Int) + 3, wrapCoord (2 * (size : Int)) (2 * (i : Int))) .Z) (i + 1))) i := by
      intro i hi
      rw [List.mem_range] at hi
      have hst := (stab_mem (size := size) (p := (2 * (k : Int) + 3, 2 * (i : Int) + 1)) (by dsimp only; omega)).2 (by dsimp only; omega)
      have := around h2 hst (hc _ hst)
      simp only [groupLetter] at this
      rw [wrap_in (x := 2 * (k : Int) + 3 + 1) (by omega) (by omega), wrap_in (x := 2 * (k : Int) + 3 - 1) (by omega) (by omega),
        show 2 * (k : Int) + 3 + 1 = 2 * ((k + 1 : Nat) : Int) + 2 by omega, show 2 * (k : Int) + 3 - 1 = 2 * (k : Int) + 2 by omega,
        show 2 * (i : Int) + 1 + 1 = 2 * ((i + 1 : Nat) : Int) by omega, show 2 * (i : Int) + 1 - 1 = 2 * (i : Int) by omega] at this
      dsimp only
      revert this
      generalize (lat size order).hit c _ _ = a
      generalize (lat size order).hit c _ _ = b
      generalize (lat size order).hit c _ _ = e
      generalize (lat size order).hit c _ _ = f
      revert a b e f
      decide
    rw [xorSum_congr this, xorSum_tele]
    have := (wrap_ends (2 * (size : Int)) (by omega)).2
    simp only [Nat.cast_zero, mul_zero, this, bne_self_eq_false]
  · intro k hk l hl i hi j hj h
    simp only [Prod.mk.injEq] at h
    omega

theorem distance (h2 : 2 ≤ size) : (lat size order).code.HasDistance size := by
  refine (wf order h2).distance (comm order h2) ?_ ⟨0, _, _, rfl, rfl, rfl, Or.inl ?_⟩
  · intro c hc l hl h
    have hl : l ∈ (fam size).logs := hl
    simp only [fam, List.mem_cons, List.not_mem_nil, or_false] at hl
    rcases hl with rfl | rfl | rfl | rfl
    · exact dist_x0 h2 hc h
    · exact dist_z0 h2 hc h
    · exact dist_x1 h2 hc h
    · exact dist_z1 h2 hc h
  · have hv := op_log (order := order) h2 (l := ((0, (size : Int)), ['X'])) (by simp [fam])
    rw [(filter_logs h2).1] at hv
    rw [hv]; simp [x0, length_lineE]

/-- The stabilisers next to a data qubit. -/
theorem twoAt (h2 : 2 ≤ size) (a : Letter) (ha : a ≠ .Y) : (lat size order).TwoAt a := by
  intro p hp
  have hp : p ∈ (fam size).data := hp
  rw [mem_data] at hp
  refine ⟨if (p.1 % 2 = 0) = (a = .X) then (wrapCoord (2 * size) (p.1 + 1), p.2) else (p.1, wrapCoord (2 * size) (p.2 + 1)),
    if (p.1 % 2 = 0) = (a = .X) then (wrapCoord (2 * size) (p.1 - 1), p.2) else (p.1, wrapCoord (2 * size) (p.2 - 1)), ?_⟩
  intro st hst e he hd hf
  have hst : st ∈ (fam size).stabs := hst
  have hs := (ok h2).op_stab (some order.length) (Fam.keeps_step (fam size).raw.isStab order) hst
  rw [show (lat size order).opEdges st.1 = _ from hs] at he
  obtain ⟨e, he', rfl⟩ := List.mem_map.mp he
  rw [(stepEdge_df _ _ _).1] at hd
  rw [(stepEdge_df _ _ _).2] at hf
  obtain ⟨d, hdir, rfl⟩ := mem_E.mp he'
  have h3 := dirs hdir
  obtain ⟨r1, r2, h4⟩ := mem_stabs hst
  have hs2 : (2 : Int) ≤ size := by omega
  have w1 := wrap_eq (2 * size) (st.1.1 + d.1) (by omega) (by omega) (by omega)
  have w2 := wrap_eq (2 * size) (st.1.2 + d.2) (by omega) (by omega) (by omega)
  have w3 := wrap_eq (2 * size) (p.1 + 1) (by omega) (by omega) (by omega)
  have w4 := wrap_eq (2 * size) (p.1 - 1) (by omega) (by omega) (by omega)
  have w5 := wrap_eq (2 * size) (p.2 + 1) (by omega) (by omega) (by omega)
  have w6 := wrap_eq (2 * size) (p.2 - 1) (by omega) (by omega) (by omega)
  obtain ⟨⟨s1, s2⟩, g⟩ := st
  obtain ⟨p1, p2⟩ := p
  simp only [mkEdge, nb, Prod.mk.injEq] at hd hf hp h4 r1 r2 w1 w2 w3 w4 w5 w6 ⊢
  cases a with
  | Y => exact absurd rfl ha
  | X =>
    obtain ⟨rfl, h4⟩ : g = .B ∧ (s1 % 2 = 1 ∧ s2 % 2 = 1) := by
      rcases h4 with ⟨rfl, _⟩ | h4
      · exact absurd rfl hf
      · exact h4
    by_cases hpar : p1 % 2 = 0
    · rw [if_pos (by simpa using hpar), if_pos (by simpa using hpar)]; simp only [Prod.mk.injEq]; omega
    · rw [if_neg (by simpa using hpar), if_neg (by simpa using hpar)]; simp only [Prod.mk.injEq]; omega
  | Z =>
    obtain ⟨rfl, h4⟩ : g = .A ∧ (s1 % 2 = 0 ∧ s2 % 2 = 0) := by
      rcases h4 with h4 | ⟨rfl, _⟩
      · exact h4
      · exact absurd rfl hf
    by_cases hpar : p1 % 2 = 0
    · rw [if_neg (by simp [hpar]), if_neg (by simp [hpar])]; simp only [Prod.mk.injEq]; omega
    · rw [if_pos (by simpa using hpar), if_pos (by simpa using hpar)]; simp only [Prod.mk.injEq]; omega

end Toric
end Plaquette
