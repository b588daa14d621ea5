import Verif.Lemmas.CorrectedCode
import Verif.Lemmas.PlanarLines
import Verif.Lemmas.ToricLines
import Verif.Lemmas.RotatedLines
import Verif.Lemmas.RepLines

/-!
# Codes on which different errors flip different stabilisers
-/

namespace Plaquette

/-- The error `a` on the data qubit at `p` flips the stabiliser. -/
def Lattice.flips (L : Lattice) (a : Letter) (p : Pos) (st : Pos × StabGroup) : Prop := ∃ e ∈ L.opEdges st.1, e.data = p ∧ e.factor ≠ a

theorem Lattice.Wf.mem_flipped {L : Lattice} (h : L.Wf) {a : Letter} {q : Fin L.dataqubits.length} {s : Nat} :
    s ∈ flipped L.code.stabilisers (singleOp false a q) ↔ ∃ st, L.stabgens[s]? = some st ∧ L.flips a L.dataqubits[q.val] st := by
  rw [Plaquette.mem_flipped]
  constructor
  · rintro ⟨g, hg, hanti⟩
    simp only [Lattice.code, List.getElem?_map, Option.map_eq_some_iff] at hg
    obtain ⟨st, hst, rfl⟩ := hg
    rw [anticommutes_iff, anti_symm, h.anti_vop_hit] at hanti
    obtain ⟨e, he, hh⟩ := xorSum_true hanti
    obtain ⟨h1, h2⟩ := h.hit_single hh
    exact ⟨st, hst, e, he, h1, h2⟩
  · rintro ⟨st, hst, e, he, h1, h2⟩
    refine ⟨L.vop st.1, by simp [Lattice.code, hst], ?_⟩
    rw [anticommutes_iff, anti_symm, h.anti_vop_hit]
    have hn := h.op_nodup st.1
    rw [xorSum_unique he (List.Nodup.of_map _ hn)]
    · have hp : L.dataqubits[q.val] ∈ L.dataqubits := List.getElem_mem _
      have hidx : L.idx L.dataqubits[q.val] = q.val := by
        have hn := h.occ
        rw [Lattice.occupied, List.append_assoc] at hn
        rw [h.idx_data hp]
        exact List.Nodup.idxOf_getElem (List.nodup_append.mp hn).1 _ _
      rw [h1]
      unfold Lattice.hit
      rw [dif_pos ⟨hp, by rw [hidx]; exact q.2⟩]
      have : (⟨L.idx L.dataqubits[q.val], by rw [hidx]; exact q.2⟩ : Fin L.dataqubits.length) = q := Fin.ext hidx
      rw [this]
      revert h2
      generalize e.factor = b
      cases a <;> cases b <;> simp [singleOp, Letter.hasX, Letter.hasZ]
    · intro e' he' hne
      by_contra hc
      obtain ⟨h3, _⟩ := h.hit_single (by simpa using hc)
      refine hne ?_
      exact List.inj_on_of_nodup_map hn he' he (h3.trans h1.symm)

/-- Different errors `X` and `Z` flip different stabilisers, if they flip any. -/
def Lattice.Apart (L : Lattice) : Prop :=
  ∀ a a' : Letter, a ≠ .Y → a' ≠ .Y → ∀ p ∈ L.dataqubits, ∀ p' ∈ L.dataqubits, (∃ st ∈ L.stabgens, L.flips a p st) →
    (∀ st ∈ L.stabgens, L.flips a p st ↔ L.flips a' p' st) → a = a' ∧ p = p'

theorem Lattice.Wf.simple {L : Lattice} (h : L.Wf) (hA : L.Apart) : ∀ l ∈ errorOps L.dataqubits.length, ∀ l' ∈ errorOps L.dataqubits.length,
    flipped L.code.stabilisers (singleOp false l.1 l.2) ≠ [] →
    flipped L.code.stabilisers (singleOp false l.1 l.2) = flipped L.code.stabilisers (singleOp false l'.1 l'.2) → l = l' := by
  intro l hl l' hl' hne heq
  have hY : ∀ l ∈ errorOps L.dataqubits.length, l.1 ≠ .Y := by
    intro l hl
    obtain ⟨o, ho⟩ := List.getElem?_of_mem hl
    have := (errorOps_idx ho).2
    rw [this]
    split <;> decide
  obtain ⟨s, hs⟩ := List.exists_mem_of_ne_nil _ hne
  obtain ⟨st, hst, hfl⟩ := h.mem_flipped.1 hs
  obtain ⟨h1, h2⟩ := hA l.1 l'.1 (hY l hl) (hY l' hl') _ (List.getElem_mem l.2.2) _ (List.getElem_mem l'.2.2) ⟨st, List.mem_of_getElem? hst, hfl⟩ (by
    intro st hst
    obtain ⟨s, hs⟩ := List.getElem?_of_mem hst
    have hu : ∀ (l : Letter × Fin L.dataqubits.length), L.flips l.1 L.dataqubits[l.2.val] st ↔ s ∈ flipped L.code.stabilisers (singleOp false l.1 l.2) := by
      intro l
      rw [h.mem_flipped]
      constructor
      · intro hf; exact ⟨st, hs, hf⟩
      · rintro ⟨st', h1, h2⟩
        rw [hs] at h1; cases h1; exact h2
    rw [hu, hu, heq])
  refine Prod.ext h1 (Fin.ext ?_)
  have hn := h.occ
  rw [Lattice.occupied, List.append_assoc] at hn
  exact (List.Nodup.getElem_inj_iff (List.nodup_append.mp hn).1).1 h2

namespace Planar
variable {size : Nat} {order : List (Int × Int)}

theorem flips_iff {a : Letter} {p : Pos} (hp : p ∈ (lat size order).dataqubits) {st : Pos × StabGroup} (hst : st ∈ stabs size) :
    (lat size order).flips a p st ↔ groupLetter st.2 ≠ a ∧
      ((p.1 = st.1.1 ∧ (p.2 = st.1.2 + 1 ∨ p.2 = st.1.2 - 1)) ∨ (p.2 = st.1.2 ∧ (p.1 = st.1.1 + 1 ∨ p.1 = st.1.1 - 1))) := by
  have hp : p ∈ data size := hp
  rw [mem_data] at hp
  obtain ⟨p1, p2⟩ := p
  obtain ⟨⟨s1, s2⟩, gr⟩ := st
  unfold Lattice.flips
  rw [op_stab size order hst]
  constructor
  · rintro ⟨e, he, hd, hf⟩
    obtain ⟨e0, he0, rfl⟩ := List.mem_map.1 he
    rw [(stepEdge_df _ _ _).1] at hd
    rw [(stepEdge_df _ _ _).2] at hf
    simp only [stabEdges, List.mem_filterMap, dirEdge, crossDirs] at he0
    obtain ⟨d, hd', h3⟩ := he0
    split at h3
    · cases h3
    · cases h3
      simp only [mkEdge, Prod.mk.injEq] at hd hf
      refine ⟨hf, ?_⟩
      simp only [List.mem_cons, List.not_mem_nil, or_false] at hd'
      rcases hd' with rfl | rfl | rfl | rfl <;> dsimp only at hd ⊢ <;> omega
  · rintro ⟨hf, hadj⟩
    refine ⟨stepEdge (raw size).isStab order (mkEdge (p1, p2) (s1, s2) (groupLetter gr)), List.mem_map_of_mem ?_, by rw [(stepEdge_df _ _ _).1]; rfl,
      by rw [(stepEdge_df _ _ _).2]; exact hf⟩
    simp only [stabEdges, List.mem_filterMap, dirEdge, crossDirs]
    refine ⟨(p1 - s1, p2 - s2), ?_, ?_⟩
    · simp only [List.mem_cons, Prod.mk.injEq, List.not_mem_nil, or_false]
      dsimp only at hadj
      omega
    · dsimp only at hp ⊢
      rw [show s1 + (p1 - s1) = p1 by omega, show s2 + (p2 - s2) = p2 by omega, if_neg (by unfold outside; dsimp only; omega)]

theorem apart (h3 : 3 ≤ size) : (lat size order).Apart := by
  intro a a' ha ha' p hp p' hp' ⟨st, hst, hfl⟩ heq
  have hst : st ∈ stabs size := hst
  have h1 := (flips_iff hp hst).1 hfl
  have h2 := (flips_iff hp' hst).1 ((heq st hst).1 hfl)
  have haa : a = a' := by
    obtain ⟨_, h⟩ := mem_stabs hst
    rcases h with ⟨h, _⟩ | ⟨h, _⟩ <;> rw [h] at h1 h2 <;> cases a <;> cases a' <;> simp [groupLetter] at * 
  subst haa
  refine ⟨rfl, ?_⟩
  have hp0 : p ∈ data size := hp
  have hp0' : p' ∈ data size := hp'
  rw [mem_data] at hp0 hp0'
  have key : ∀ u : Pos × StabGroup, u ∈ stabs size → groupLetter u.2 ≠ a →
      (((p.1 = u.1.1 ∧ (p.2 = u.1.2 + 1 ∨ p.2 = u.1.2 - 1)) ∨ (p.2 = u.1.2 ∧ (p.1 = u.1.1 + 1 ∨ p.1 = u.1.1 - 1))) ↔
      ((p'.1 = u.1.1 ∧ (p'.2 = u.1.2 + 1 ∨ p'.2 = u.1.2 - 1)) ∨ (p'.2 = u.1.2 ∧ (p'.1 = u.1.1 + 1 ∨ p'.1 = u.1.1 - 1)))) := by
    intro u hu hua
    have := heq u hu
    rw [flips_iff hp hu, flips_iff hp' hu] at this
    simpa only [hua, ne_eq, not_false_eq_true, true_and] using this
  obtain ⟨p1, p2⟩ := p
  obtain ⟨q1, q2⟩ := p'
  dsimp only at hp0 hp0' key
  simp only [Prod.mk.injEq]
  have hZ : a = .Z → p1 = q1 ∧ p2 = q2 := by
    rintro rfl
    have k : ∀ u1 u2 : Int, 0 ≤ u1 → u1 ≤ 2 * size - 2 → 0 ≤ u2 → u2 ≤ 2 * size - 2 → u1 % 2 = 1 → u2 % 2 = 0 → _ := fun u1 u2 a b c d e f =>
      key ((u1, u2), .A) ((stab_mem ⟨a, b, c, d⟩).1 ⟨e, f⟩) (show groupLetter .A ≠ .Z by decide)
    dsimp only at k
    have k1 := k (p1 + 1) p2
    have k2 := k (p1 - 1) p2
    have k3 := k p1 (p2 + 1)
    have k4 := k p1 (p2 - 1)
    have k5 := k (q1 + 1) q2
    have k6 := k (q1 - 1) q2
    have k7 := k q1 (q2 + 1)
    have k8 := k q1 (q2 - 1)
    rcases Int.emod_two_eq_zero_or_one p1 with e | e <;> rcases Int.emod_two_eq_zero_or_one q1 with e' | e'
    · clear k3 k4 k7 k8
      omega
    · clear k3 k4 k5 k6
      omega
    · clear k1 k2 k7 k8
      omega
    · clear k1 k2 k5 k6
      omega
  have hX : a = .X → p1 = q1 ∧ p2 = q2 := by
    rintro rfl
    have k : ∀ u1 u2 : Int, 0 ≤ u1 → u1 ≤ 2 * size - 2 → 0 ≤ u2 → u2 ≤ 2 * size - 2 → u1 % 2 = 0 → u2 % 2 = 1 → _ := fun u1 u2 a b c d e f =>
      key ((u1, u2), .B) ((stab_mem ⟨a, b, c, d⟩).2 ⟨e, f⟩) (show groupLetter .B ≠ .X by decide)
    dsimp only at k
    have k1 := k (p1 + 1) p2
    have k2 := k (p1 - 1) p2
    have k3 := k p1 (p2 + 1)
    have k4 := k p1 (p2 - 1)
    have k5 := k (q1 + 1) q2
    have k6 := k (q1 - 1) q2
    have k7 := k q1 (q2 + 1)
    have k8 := k q1 (q2 - 1)
    rcases Int.emod_two_eq_zero_or_one p1 with e | e <;> rcases Int.emod_two_eq_zero_or_one q1 with e' | e'
    · clear k1 k2 k5 k6
      omega
    · clear k1 k2 k7 k8
      omega
    · clear k3 k4 k5 k6
      omega
    · clear k3 k4 k7 k8
      omega
  cases a
  · exact hX rfl
  · exact absurd rfl ha
  · exact hZ rfl

end Planar

namespace Toric
variable {size : Nat} {order : List (Int × Int)}

/-- Neighbours on a circle of `2 * size` cells. -/
def Next (size : Nat) (x y : Int) : Prop := y = x + 1 ∨ y = x - 1 ∨ (y = 1 ∧ x = 2 * size) ∨ (y = 2 * size ∧ x = 1)

theorem flips_iff (h2 : 2 ≤ size) {a : Letter} {p : Pos} (hp : p ∈ (lat size order).dataqubits) {st : Pos × StabGroup} (hst : st ∈ (fam size).stabs) :
    (lat size order).flips a p st ↔ groupLetter st.2 ≠ a ∧
      ((p.1 = st.1.1 ∧ Next size st.1.2 p.2) ∨ (p.2 = st.1.2 ∧ Next size st.1.1 p.1)) := by
  have hp : p ∈ (fam size).data := hp
  rw [mem_data] at hp
  obtain ⟨r1, r2, _⟩ := mem_stabs hst
  have hs : (2 : Int) ≤ size := by omega
  obtain ⟨p1, p2⟩ := p
  obtain ⟨⟨s1, s2⟩, gr⟩ := st
  dsimp only at hp r1 r2
  unfold Lattice.flips Next
  rw [show (lat size order).opEdges (s1, s2) = _ from (ok h2).op_stab (some order.length) (Fam.keeps_step (fam size).raw.isStab order) hst]
  have w1 := wrap_zero hs r1
  have w2 := wrap_zero hs r2
  have w3 := wrap_eq (2 * size) (s1 + 1) (by omega) (by omega) (by omega)
  have w4 := wrap_eq (2 * size) (s1 + -1) (by omega) (by omega) (by omega)
  have w5 := wrap_eq (2 * size) (s2 + 1) (by omega) (by omega) (by omega)
  have w6 := wrap_eq (2 * size) (s2 + -1) (by omega) (by omega) (by omega)
  constructor
  · rintro ⟨e, he, hd, hf⟩
    obtain ⟨e0, he0, rfl⟩ := List.mem_map.1 he
    rw [(stepEdge_df _ _ _).1] at hd
    rw [(stepEdge_df _ _ _).2] at hf
    obtain ⟨d, hd', rfl⟩ := mem_E.1 he0
    simp only [mkEdge, nb, Prod.mk.injEq] at hd hf
    refine ⟨hf, ?_⟩
    simp only [crossDirs, List.mem_cons, List.not_mem_nil, or_false] at hd'
    rcases hd' with rfl | rfl | rfl | rfl <;> dsimp only at hd ⊢ <;> omega
  · rintro ⟨hf, hadj⟩
    dsimp only at hadj
    have : ∃ d ∈ crossDirs, nb size (s1, s2) d = (p1, p2) := by
      by_cases c1 : p1 = wrapCoord (2 * size) (s1 + 1) ∧ p2 = s2
      · exact ⟨(1, 0), by decide, by simp only [nb, Prod.mk.injEq]; omega⟩
      by_cases c2 : p1 = wrapCoord (2 * size) (s1 + -1) ∧ p2 = s2
      · exact ⟨(-1, 0), by decide, by simp only [nb, Prod.mk.injEq]; omega⟩
      by_cases c3 : p2 = wrapCoord (2 * size) (s2 + 1) ∧ p1 = s1
      · exact ⟨(0, 1), by decide, by simp only [nb, Prod.mk.injEq]; omega⟩
      by_cases c4 : p2 = wrapCoord (2 * size) (s2 + -1) ∧ p1 = s1
      · exact ⟨(0, -1), by decide, by simp only [nb, Prod.mk.injEq]; omega⟩
      exfalso
      omega
    obtain ⟨d, hd, hnb⟩ := this
    refine ⟨stepEdge (fam size).raw.isStab order (mkEdge (p1, p2) (s1, s2) (groupLetter gr)), List.mem_map_of_mem ?_, by rw [(stepEdge_df _ _ _).1]; rfl,
      by rw [(stepEdge_df _ _ _).2]; exact hf⟩
    rw [mem_E]
    exact ⟨d, hd, by rw [hnb]⟩

set_option maxHeartbeats 2000000 in
theorem cell (h3 : 3 ≤ size) {p1 p2 q1 q2 : Int} (hp0 : 1 ≤ p1 ∧ p1 ≤ 2 * size ∧ 1 ≤ p2 ∧ p2 ≤ 2 * size ∧ p1 % 2 ≠ p2 % 2)
    (hp0' : 1 ≤ q1 ∧ q1 ≤ 2 * size ∧ 1 ≤ q2 ∧ q2 ≤ 2 * size ∧ q1 % 2 ≠ q2 % 2) {par : Int}
    (k : ∀ u1 u2 : Int, 1 ≤ u1 → u1 ≤ 2 * size → 1 ≤ u2 → u2 ≤ 2 * size → u1 % 2 = par → u2 % 2 = par →
      (((p1 = u1 ∧ Next size u2 p2) ∨ (p2 = u2 ∧ Next size u1 p1)) ↔ ((q1 = u1 ∧ Next size u2 q2) ∨ (q2 = u2 ∧ Next size u1 q1))))
    (hpar : p1 % 2 = par ∨ p2 % 2 = par) (hpar' : q1 % 2 = par ∨ q2 % 2 = par) : p1 = q1 ∧ p2 = q2 := by
  unfold Next at k
  have e1 : ∃ x, 1 ≤ x ∧ x ≤ 2 * (size : Int) ∧ (x = p1 + 1 ∨ (x = 1 ∧ p1 = 2 * size)) := by
    by_cases c : p1 = 2 * size
    · exact ⟨1, by omega⟩
    · exact ⟨p1 + 1, by omega⟩
  have e2 : ∃ x, 1 ≤ x ∧ x ≤ 2 * (size : Int) ∧ (x = p1 - 1 ∨ (x = 2 * size ∧ p1 = 1)) := by
    by_cases c : p1 = 1
    · exact ⟨2 * size, by omega⟩
    · exact ⟨p1 - 1, by omega⟩
  have e3 : ∃ x, 1 ≤ x ∧ x ≤ 2 * (size : Int) ∧ (x = p2 + 1 ∨ (x = 1 ∧ p2 = 2 * size)) := by
    by_cases c : p2 = 2 * size
    · exact ⟨1, by omega⟩
    · exact ⟨p2 + 1, by omega⟩
  have e4 : ∃ x, 1 ≤ x ∧ x ≤ 2 * (size : Int) ∧ (x = p2 - 1 ∨ (x = 2 * size ∧ p2 = 1)) := by
    by_cases c : p2 = 1
    · exact ⟨2 * size, by omega⟩
    · exact ⟨p2 - 1, by omega⟩
  obtain ⟨x1, e1⟩ := e1
  obtain ⟨x2, e2⟩ := e2
  obtain ⟨x3, e3⟩ := e3
  obtain ⟨x4, e4⟩ := e4
  by_cases c : p2 % 2 = par
  · have k1 := (k x1 p2 (by omega) (by omega) (by omega) (by omega) (by omega) c).1 (by omega)
    have k2 := (k x2 p2 (by omega) (by omega) (by omega) (by omega) (by omega) c).1 (by omega)
    clear k e3 e4
    rcases k1 with ⟨k1, k1'⟩ | ⟨k1, k1'⟩ <;> rcases k2 with ⟨k2, k2'⟩ | ⟨k2, k2'⟩ <;> omega
  · have c : p1 % 2 = par := by omega
    have k1 := (k p1 x3 (by omega) (by omega) (by omega) (by omega) c (by omega)).1 (by omega)
    have k2 := (k p1 x4 (by omega) (by omega) (by omega) (by omega) c (by omega)).1 (by omega)
    clear k e1 e2
    rcases k1 with ⟨k1, k1'⟩ | ⟨k1, k1'⟩ <;> rcases k2 with ⟨k2, k2'⟩ | ⟨k2, k2'⟩ <;> omega

theorem apart (h3 : 3 ≤ size) : (lat size order).Apart := by
  have h20 : 2 ≤ size := by omega
  intro a a' ha ha' p hp p' hp' ⟨st, hst, hfl⟩ heq
  have hst : st ∈ (fam size).stabs := hst
  have h1 := (flips_iff h20 hp hst).1 hfl
  have h2 := (flips_iff h20 hp' hst).1 ((heq st hst).1 hfl)
  have haa : a = a' := by
    obtain ⟨_, _, h⟩ := mem_stabs hst
    rcases h with ⟨h, _⟩ | ⟨h, _⟩ <;> rw [h] at h1 h2 <;> cases a <;> cases a' <;> simp [groupLetter] at *
  subst haa
  refine ⟨rfl, ?_⟩
  have hp0 : p ∈ (fam size).data := hp
  have hp0' : p' ∈ (fam size).data := hp'
  rw [mem_data] at hp0 hp0'
  have key : ∀ u : Pos × StabGroup, u ∈ (fam size).stabs → groupLetter u.2 ≠ a →
      (((p.1 = u.1.1 ∧ Next size u.1.2 p.2) ∨ (p.2 = u.1.2 ∧ Next size u.1.1 p.1)) ↔
      ((p'.1 = u.1.1 ∧ Next size u.1.2 p'.2) ∨ (p'.2 = u.1.2 ∧ Next size u.1.1 p'.1))) := by
    intro u hu hua
    have := heq u hu
    rw [flips_iff h20 hp hu, flips_iff h20 hp' hu] at this
    simpa only [hua, ne_eq, not_false_eq_true, true_and] using this
  obtain ⟨p1, p2⟩ := p
  obtain ⟨q1, q2⟩ := p'
  dsimp only at hp0 hp0' key
  simp only [Prod.mk.injEq]
  cases a
  · refine cell h3 hp0 hp0' (par := 1) (fun u1 u2 b1 b2 b3 b4 b5 b6 => key ((u1, u2), .B) ((stab_mem ⟨b1, b2, b3, b4⟩).2 ⟨b5, b6⟩) (show groupLetter .B ≠ .X by decide)) ?_ ?_ <;> omega
  · exact absurd rfl ha
  · refine cell h3 hp0 hp0' (par := 0) (fun u1 u2 b1 b2 b3 b4 b5 b6 => key ((u1, u2), .A) ((stab_mem ⟨b1, b2, b3, b4⟩).1 ⟨b5, b6⟩) (show groupLetter .A ≠ .Z by decide)) ?_ ?_ <;> omega

end Toric

namespace Rep
variable {size : Nat}

theorem flips_iff {a : Letter} {p : Pos} (hp : p ∈ (lat size).dataqubits) {i : Int} (hi : i ∈ stabCells size) :
    (lat size).flips a p ((i, 0), .A) ↔ a ≠ .Z ∧ (p.1 = i + 1 ∨ p.1 = i - 1) := by
  have hp : p ∈ data size := hp
  rw [mem_data] at hp
  obtain ⟨p1, p2⟩ := p
  unfold Lattice.flips
  rw [op_stab _ _ hi]
  simp only [stabEdges, List.mem_cons, List.not_mem_nil, or_false, exists_eq_or_imp, exists_eq_left, mkEdge, Prod.mk.injEq]
  dsimp only at hp
  constructor
  · rintro (⟨h1, h2⟩ | ⟨h1, h2⟩) <;> exact ⟨fun h => h2 h.symm, by omega⟩
  · rintro ⟨h1, h2 | h2⟩
    · exact Or.inr ⟨by omega, fun h => h1 h.symm⟩
    · exact Or.inl ⟨by omega, fun h => h1 h.symm⟩

theorem apart (h3 : 3 ≤ size) : (lat size).Apart := by
  intro a a' ha ha' p hp p' hp' ⟨st, hst, hfl⟩ heq
  obtain ⟨i, hi, rfl⟩ := stab_get hst
  have h1 := (flips_iff hp hi).1 hfl
  have h2 := (flips_iff hp' hi).1 ((heq _ hst).1 hfl)
  refine ⟨by revert ha ha' h1 h2; cases a <;> cases a' <;> simp, ?_⟩
  have key : ∀ j : Int, 1 ≤ j → j < 2 * size - 2 → 2 ∣ j - 1 → ((p.1 = j + 1 ∨ p.1 = j - 1) ↔ (p'.1 = j + 1 ∨ p'.1 = j - 1)) := by
    intro j b1 b2 b3
    have hj := mem_stabCells.2 ⟨b1, b2, b3⟩
    have := heq _ (List.mem_map.2 ⟨j, hj, rfl⟩)
    rw [flips_iff hp hj, flips_iff hp' hj] at this
    simpa only [h1.1, h2.1, ne_eq, not_false_eq_true, true_and] using this
  have hp : p ∈ data size := hp
  have hp' : p' ∈ data size := hp'
  rw [mem_data] at hp hp'
  have k1 := key (p.1 + 1)
  have k2 := key (p.1 - 1)
  have k3 := key (p'.1 + 1)
  have k4 := key (p'.1 - 1)
  refine Prod.ext ?_ (by omega)
  obtain ⟨x, hx⟩ := hp.2.2.2
  obtain ⟨y, hy⟩ := hp'.2.2.2
  rw [hx, hy] at k1 k2 k3 k4
  omega

theorem anti_x (h3 : 3 ≤ size) {c : Op (lat size).dataqubits.length} (hz : ∀ q, c.z q = false) :
    anti c ((lat size).vop ((size : Int) - 1, 1)) = false := by
  rw [anti_symm, (wf size h3).anti_vop_hit, op_x]
  refine xorSum_false fun e he => ?_
  obtain ⟨i, _, rfl⟩ := List.mem_map.1 he
  unfold Lattice.hit
  split
  · simp [hz, mkEdge, Letter.hasX, Letter.hasZ]
  · rfl

end Rep

end Plaquette
