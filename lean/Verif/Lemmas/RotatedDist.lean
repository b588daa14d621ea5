import Verif.Lemmas.Distance
import Verif.Lemmas.Rotated

/-!
# Distance of the rotated planar code
-/

namespace Plaquette
namespace Rotated

variable {size : Nat} {xzzx : Bool} {order : List (Int × Int)}

/-- All cells where a stabiliser should be have one. -/
theorem stab_mem {p : Pos} {g : StabGroup} (h : isS size p g) : (p, g) ∈ (fam size xzzx).stabs := by
  show _ ∈ cellStabs (cells size)
  rw [mem_cellStabs]
  obtain ⟨p1, p2⟩ := p
  simp only [isS] at h
  simp only [cells, List.mem_append]
  by_cases hc : 2 ≤ p1 ∧ p1 ≤ 2 * (size : Int) - 2 ∧ 2 ≤ p2 ∧ p2 ≤ 2 * (size : Int) - 2
  · refine Or.inl (Or.inl (Or.inr ?_))
    refine List.mem_map.mpr ⟨(p1, p2), mem_pairs.mpr ⟨mem_evens.mpr (by dsimp only; omega), mem_evens.mpr (by dsimp only; omega)⟩, ?_⟩
    simp only [Prod.mk.injEq, Option.some.injEq, true_and, grp]
    rcases h with ⟨_, _, _, _, _, _, ⟨rfl, h, _⟩ | ⟨rfl, h, _⟩⟩
    · rw [if_pos (by omega)]
    · rw [if_neg (by omega)]
  · rcases h with ⟨_, _, _, _, _, _, ⟨rfl, h, _⟩ | ⟨rfl, h, _⟩⟩
    · refine Or.inl (Or.inr ?_)
      by_cases h0 : p1 = 0
      · refine List.mem_flatMap.mpr ⟨p2, (mem_pyRange (by omega)).mpr (by omega), ?_⟩
        subst h0; simp
      · refine List.mem_flatMap.mpr ⟨p2 + (size : Int) % 2 * 2, (mem_pyRange (by omega)).mpr (by omega), ?_⟩
        simp only [List.mem_cons, Prod.mk.injEq]
        refine Or.inr (Or.inl ⟨⟨by omega, by omega⟩, trivial⟩)
    · refine Or.inr ?_
      by_cases h0 : p2 = 0
      · refine List.mem_flatMap.mpr ⟨p1, (mem_pyRange (by omega)).mpr (by omega), ?_⟩
        subst h0; simp
      · refine List.mem_flatMap.mpr ⟨p1 - (size : Int) % 2 * 2, (mem_pyRange (by omega)).mpr (by omega), ?_⟩
        simp only [List.mem_cons, Prod.mk.injEq]
        refine Or.inr (Or.inl ⟨⟨by omega, by omega⟩, trivial⟩)

/-- An operator that commutes with the stabiliser at `p`. -/
theorem around (h2 : 2 ≤ size) {c : Op (lat size xzzx order).dataqubits.length} {st : Pos × StabGroup} (hst : st ∈ (fam size xzzx).stabs)
    (hc : anti ((lat size xzzx order).vop st.1) c = false) :
    let H := (lat size xzzx order).hit c
    let l := fun a => if xzzx then a else groupLetter st.2
    (H (st.1.1 + 1, st.1.2 + 1) (l .X) ^^ (H (st.1.1 + 1, st.1.2 - 1) (l .Z) ^^
      (H (st.1.1 - 1, st.1.2 + 1) (l .Z) ^^ H (st.1.1 - 1, st.1.2 - 1) (l .X)))) = false := by
  have := (ok h2).op_stab (some order.length) (keeps size xzzx order) hst
  rw [(wf order h2).anti_dirs (keeps _ _ _).df this] at hc
  · simpa [diagDirs, mkEdge, nb, letter, sub_eq_add_neg] using hc
  · intro d _ ho hd
    have hd : nb st.1 d ∈ (fam size xzzx).data := hd
    rw [mem_data] at hd
    exact ho hd.1

theorem letters_x (k : Int) (hk : (k + 1) % 2 = 0) : (if xzzx then .X else groupLetter .A) = xLetter xzzx (k + 1) ∧
    (if xzzx then .Z else groupLetter .A) = xLetter xzzx k := by
  unfold xLetter
  cases xzzx <;> simp [groupLetter]; omega

theorem dist_x (h2 : 2 ≤ size) {c : Op (lat size xzzx order).dataqubits.length}
    (hc : ∀ st ∈ (fam size xzzx).stabs, anti ((lat size xzzx order).vop st.1) c = false)
    (hl : anti ((lat size xzzx order).vop (xPos size)) c = true) : size ≤ c.weight := by
  have hv := (ok (xzzx := xzzx) h2).op_log (some order.length) (keeps size xzzx order) (l := (xPos size, ['X'])) (by simp [fam])
  rw [(filter_logs h2).1] at hv
  rw [(wf order h2).anti_line (keeps _ _ _).df hv] at hl
  refine (wf order h2).weight_ge_lines (m := size) (fun k i => (2 * (i : Int) + 1, 2 * (k : Int) + 1)) (fun k i => xLetter xzzx (i + k)) (k₀ := 0) (by omega) ?_ ?_ ?_
  · simpa using hl
  · intro k hk
    have := xorSum_pairs size (k + 1) (fun i => (lat size xzzx order).hit c (2 * (i : Int) - 1, 2 * (k : Int) + 1) (xLetter xzzx (i + k - 1)) ^^
        (lat size xzzx order).hit c (2 * (i : Int) - 1, 2 * (k : Int) + 3) (xLetter xzzx (i + k))) ?_ ?_ ?_
    · rw [← this]
      refine xorSum_congr fun i _ => ?_
      rw [show ((i + 1 : Nat) : Int) + k - 1 = i + k by omega, show ((i + 1 : Nat) : Int) + k = i + (k + 1 : Nat) by omega,
        show 2 * ((i + 1 : Nat) : Int) - 1 = 2 * i + 1 by omega, show 2 * (k : Int) + 3 = 2 * ((k + 1 : Nat) : Int) + 1 by omega]
    · rw [Lattice.hit_out, Lattice.hit_out]
      · rfl
      · show _ ∉ (fam size xzzx).data
        rw [mem_data]; simp only [inside]; omega
      · show _ ∉ (fam size xzzx).data
        rw [mem_data]; simp only [inside]; omega
    · rw [Lattice.hit_out, Lattice.hit_out]
      · rfl
      · show _ ∉ (fam size xzzx).data
        rw [mem_data]; simp only [inside]; omega
      · show _ ∉ (fam size xzzx).data
        rw [mem_data]; simp only [inside]; omega
    · intro i hi hpar
      have hst := stab_mem (xzzx := xzzx) (size := size) (p := (2 * (i : Int), 2 * (k : Int) + 2)) (g := .A) (by
        simp only [isS, true_and, reduceCtorEq, false_and, or_false]; omega)
      have := around h2 hst (hc _ hst)
      obtain ⟨l1, l2⟩ := letters_x (xzzx := xzzx) (i + k : Int) (by omega)
      have l3 : xLetter xzzx (i + k - 1) = xLetter xzzx (i + k + 1) := by
        unfold xLetter; rw [show ((i : Int) + k - 1) % 2 = (i + k + 1) % 2 by omega]
      dsimp only at this
      rw [l1, l2, show 2 * (k : Int) + 2 + 1 = 2 * (k : Int) + 3 by omega, show 2 * (k : Int) + 2 - 1 = 2 * (k : Int) + 1 by omega] at this
      rw [l3, show ((i + 1 : Nat) : Int) + k - 1 = i + k by omega, show ((i + 1 : Nat) : Int) + k = i + k + 1 by omega,
        show 2 * ((i + 1 : Nat) : Int) - 1 = 2 * i + 1 by omega]
      revert this
      generalize (lat size xzzx order).hit c _ _ = a
      generalize (lat size xzzx order).hit c _ _ = b
      generalize (lat size xzzx order).hit c _ _ = e
      generalize (lat size xzzx order).hit c _ _ = f
      revert a b e f
      decide
  · intro k hk l hl i hi j hj h
    simp only [Prod.mk.injEq] at h
    omega

theorem letters_z (k : Int) (hk : (k + 1) % 2 = 1) : (if xzzx then .X else groupLetter .B) = zLetter xzzx (k + 1) ∧
    (if xzzx then .Z else groupLetter .B) = zLetter xzzx k := by
  unfold zLetter
  cases xzzx <;> simp [groupLetter]; omega

theorem dist_z (h2 : 2 ≤ size) {c : Op (lat size xzzx order).dataqubits.length}
    (hc : ∀ st ∈ (fam size xzzx).stabs, anti ((lat size xzzx order).vop st.1) c = false)
    (hl : anti ((lat size xzzx order).vop (zPos size)) c = true) : size ≤ c.weight := by
  have hv := (ok (xzzx := xzzx) h2).op_log (some order.length) (keeps size xzzx order) (l := (zPos size, ['Z'])) (by simp [fam])
  rw [(filter_logs h2).2] at hv
  rw [(wf order h2).anti_line (keeps _ _ _).df hv] at hl
  refine (wf order h2).weight_ge_lines (m := size) (fun k i => (2 * (k : Int) + 1, 2 * (i : Int) + 1)) (fun k i => zLetter xzzx (i + k)) (k₀ := 0) (by omega) ?_ ?_ ?_
  · simpa using hl
  · intro k hk
    have := xorSum_pairs size k (fun i => (lat size xzzx order).hit c (2 * (k : Int) + 1, 2 * (i : Int) - 1) (zLetter xzzx (i + k - 1)) ^^
        (lat size xzzx order).hit c (2 * (k : Int) + 3, 2 * (i : Int) - 1) (zLetter xzzx (i + k))) ?_ ?_ ?_
    · rw [← this]
      refine xorSum_congr fun i _ => ?_
      rw [show ((i + 1 : Nat) : Int) + k - 1 = i + k by omega, show ((i + 1 : Nat) : Int) + k = i + (k + 1 : Nat) by omega,
        show 2 * ((i + 1 : Nat) : Int) - 1 = 2 * i + 1 by omega, show 2 * (k : Int) + 3 = 2 * ((k + 1 : Nat) : Int) + 1 by omega]
    · rw [Lattice.hit_out, Lattice.hit_out]
      · rfl
      · show _ ∉ (fam size xzzx).data
        rw [mem_data]; simp only [inside]; omega
      · show _ ∉ (fam size xzzx).data
        rw [mem_data]; simp only [inside]; omega
    · rw [Lattice.hit_out, Lattice.hit_out]
      · rfl
      · show _ ∉ (fam size xzzx).data
        rw [mem_data]; simp only [inside]; omega
      · show _ ∉ (fam size xzzx).data
        rw [mem_data]; simp only [inside]; omega
    · intro i hi hpar
      have hst := stab_mem (xzzx := xzzx) (size := size) (p := (2 * (k : Int) + 2, 2 * (i : Int))) (g := .B) (by
        simp only [isS, true_and, reduceCtorEq, false_and, false_or]; omega)
      have := around h2 hst (hc _ hst)
      obtain ⟨l1, l2⟩ := letters_z (xzzx := xzzx) (i + k : Int) (by omega)
      have l3 : zLetter xzzx (i + k - 1) = zLetter xzzx (i + k + 1) := by
        unfold zLetter; rw [show ((i : Int) + k - 1) % 2 = (i + k + 1) % 2 by omega]
      dsimp only at this
      rw [l1, l2, show 2 * (k : Int) + 2 + 1 = 2 * (k : Int) + 3 by omega, show 2 * (k : Int) + 2 - 1 = 2 * (k : Int) + 1 by omega] at this
      rw [l3, show ((i + 1 : Nat) : Int) + k - 1 = i + k by omega, show ((i + 1 : Nat) : Int) + k = i + k + 1 by omega,
        show 2 * ((i + 1 : Nat) : Int) - 1 = 2 * i + 1 by omega]
      revert this
      generalize (lat size xzzx order).hit c _ _ = a
      generalize (lat size xzzx order).hit c _ _ = b
      generalize (lat size xzzx order).hit c _ _ = e
      generalize (lat size xzzx order).hit c _ _ = f
      revert a b e f
      decide
  · intro k hk l hl i hi j hj h
    simp only [Prod.mk.injEq] at h
    omega

theorem distance (h2 : 2 ≤ size) : (lat size xzzx order).code.HasDistance size := by
  refine (wf order h2).distance (comm order h2) ?_ ⟨0, _, _, rfl, rfl, rfl, Or.inl ?_⟩
  · intro c hc l hl h
    have hl : l ∈ (fam size xzzx).logs := hl
    simp only [fam, List.mem_cons, List.not_mem_nil, or_false] at hl
    rcases hl with rfl | rfl
    · exact dist_x h2 hc h
    · exact dist_z h2 hc h
  · have hv := (ok (xzzx := xzzx) h2).op_log (some order.length) (keeps size xzzx order) (l := (xPos size, ['X'])) (by simp [fam])
    rw [(filter_logs h2).1] at hv
    rw [show (lat size xzzx order).opEdges (xPos size) = _ from hv]; simp [xE, length_lineE]

/-- The stabilisers next to a data qubit. -/
theorem twoAt (h2 : 2 ≤ size) (a : Letter) (ha : a ≠ .Y) : (lat size xzzx order).TwoAt a := by
  intro p hp
  have hp : p ∈ (fam size xzzx).data := hp
  rw [mem_data] at hp
  have key : ∀ b : Bool, (∀ st ∈ (fam size xzzx).stabs, ∀ d ∈ diagDirs, nb st.1 d = p → letter xzzx st.2 d ≠ a → (d.2.1 = d.2.2) = (b = true)) →
      ∃ u v : Pos, ∀ st ∈ (lat size xzzx order).stabgens, ∀ e ∈ (lat size xzzx order).opEdges st.1, e.data = p → e.factor ≠ a → st.1 = u ∨ st.1 = v := by
    intro b hb
    refine ⟨if b then (p.1 + 1, p.2 + 1) else (p.1 + 1, p.2 - 1), if b then (p.1 - 1, p.2 - 1) else (p.1 - 1, p.2 + 1), ?_⟩
    intro st hst e he hd hf
    have hst : st ∈ (fam size xzzx).stabs := hst
    have hs := (ok h2).op_stab (some order.length) (keeps size xzzx order) hst
    rw [show (lat size xzzx order).opEdges st.1 = _ from hs] at he
    obtain ⟨e, he', rfl⟩ := List.mem_map.mp he
    rw [((keeps size xzzx order).df _).1] at hd
    rw [((keeps size xzzx order).df _).2] at hf
    obtain ⟨d, hdir, _, rfl⟩ := mem_E.mp he'
    have h3 := dirs hdir
    have h4 := hb st hst d hdir hd hf
    obtain ⟨⟨s1, s2⟩, g⟩ := st
    obtain ⟨p1, p2⟩ := p
    simp only [mkEdge, nb, Prod.mk.injEq] at hd ⊢
    cases b
    · simp only [Bool.false_eq_true, if_false, Prod.mk.injEq, eq_iff_iff, iff_false] at h4 ⊢
      omega
    · simp only [if_true, Prod.mk.injEq, eq_iff_iff, iff_true] at h4 ⊢
      omega
  cases xzzx with
  | true =>
    refine key (decide (a = .Z)) ?_
    intro st hst d hd _ hf
    have := dirs hd
    simp only [letter, if_true] at hf
    cases a with
    | Y => exact absurd rfl ha
    | X => simp only [hf, false_and, false_or] at this; simp [this]
    | Z => simp only [hf, false_and, or_false] at this; simp [this]
  | false =>
    refine key (decide ((p.1 + p.2) % 4 = (if a = .X then 0 else 2))) ?_
    intro st hst d hd hp' hf
    rw [decide_eq_true_eq]
    have h3 := dirs hd
    have h4 := mem_stabs hst
    subst hp'
    simp only [isS] at h4
    obtain ⟨⟨s1, s2⟩, g⟩ := st
    simp only [nb, letter, Bool.false_eq_true, if_false] at hf h4 hp ⊢
    simp only [eq_iff_iff]
    cases a with
    | Y => exact absurd rfl ha
    | X =>
      obtain ⟨rfl, h5⟩ : g = .B ∧ (s1 + s2) % 4 = 2 := by
        rcases h4 with ⟨_, _, _, _, _, _, ⟨rfl, h, _⟩ | ⟨rfl, h, _⟩⟩
        · exact absurd rfl hf
        · exact ⟨rfl, h⟩
      simp only [if_true]
      omega
    | Z =>
      obtain ⟨rfl, h5⟩ : g = .A ∧ (s1 + s2) % 4 = 0 := by
        rcases h4 with ⟨_, _, _, _, _, _, ⟨rfl, h, _⟩ | ⟨rfl, h, _⟩⟩
        · exact ⟨rfl, h⟩
        · exact absurd rfl hf
      simp only [reduceCtorEq, if_false]
      omega

end Rotated
end Plaquette
