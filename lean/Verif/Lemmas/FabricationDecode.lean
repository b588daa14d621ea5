import Verif.Lemmas.FabricationCss
import Verif.Lemmas.MatchingBackend
import Verif.Props.Families

/-!
# Decoding codes with fabrication errors: lemmas (C124)
-/

namespace Plaquette

/-- Lattices of CSS codes stay well formed under fabrication errors, with any treatment of gauge operators. -/
theorem cssFabricated_wf {L : Lattice} (h : L.CssFabricated) : L.Wf := by
  have h0 := cssKept h
  obtain ⟨φ, hc⟩ := h0.css
  refine ⟨hc.pre.occ, ?_, hc.pre.keys, hc.pre.data⟩
  cases h with
  | planar h2 h =>
    rw [Planar.make _ h2 crossOrder (by decide), Except.ok.injEq] at h
    subst h
    exact (Planar.wf _ _ (by omega)).indexed
  | toric h2 h =>
    rw [Toric.make h2 crossOrder (by decide), Except.ok.injEq] at h
    subst h
    exact (Toric.wf _ h2).indexed
  | rotated h2 h =>
    rw [Rotated.make h2 diagOrder (by decide), Except.ok.injEq] at h
    subst h
    exact (Rotated.wf _ h2).indexed
  | @repetition size _ h3 h =>
    by_cases hodd : size % 2 = 1
    · rw [Rep.make size hodd h3, Except.ok.injEq] at h
      subst h
      exact (Rep.wf size (by omega)).indexed
    · rw [repetitionLattice, if_pos hodd] at h
      simp at h
  | shor h =>
    obtain ⟨L', hL, hw, -⟩ := goodResult_spec shor_good
    rw [h, Except.ok.injEq] at hL
    subst hL
    exact hw.indexed
  | errors _ _ h =>
    unfold Lattice.applyFabrication at h
    dsimp only at h
    split at h
    · cases h
    split at h
    · cases h
    rw [Except.ok.injEq] at h
    subst h
    rfl

/-- At most two stabilisers act on a data qubit with a letter other than `X`, and at most two with a letter other than `Z`. -/
theorem css_twoAt {φ : Pos → Letter → Letter} {L : Lattice} (h : L.Css φ) {a b : Letter} (hab : ∀ x : Letter, x ≠ .Y → x ≠ a → x = b) : L.TwoAt a := by
  have key : ∀ st ∈ L.stabgens, ∀ e ∈ L.opEdges st.1, e.factor ≠ a → L.isStab st.1 = true ∧ L.At st.1 e.data b = true := by
    intro st hst e he hf
    rw [Lattice.opEdges, List.mem_filter] at he
    refine ⟨?_, ?_⟩
    · rw [Lattice.isStab, List.any_eq_true]
      exact ⟨st, hst, by simp⟩
    · have := at_mem h.pre.keys he.1
      rw [hab e.factor (h.pre.xz e he.1) hf, show e.op = st.1 by simpa using he.2] at this
      exact this
  intro p _
  by_cases h1 : ∃ u, L.isStab u = true ∧ L.At u p b = true
  · obtain ⟨u, hu, hu'⟩ := h1
    by_cases h2 : ∃ v, v ≠ u ∧ L.isStab v = true ∧ L.At v p b = true
    · obtain ⟨v, hne, hv, hv'⟩ := h2
      refine ⟨u, v, fun st hst e he hp hf => ?_⟩
      obtain ⟨k1, k2⟩ := key st hst e he hf
      rw [hp] at k2
      rcases h.two p b u v st.1 hu hv k1 hu' hv' k2 with h3 | h3 | h3
      · exact absurd h3.symm hne
      · exact .inl h3.symm
      · exact .inr h3.symm
    · refine ⟨u, u, fun st hst e he hp hf => ?_⟩
      obtain ⟨k1, k2⟩ := key st hst e he hf
      rw [hp] at k2
      by_contra hne
      exact h2 ⟨st.1, fun h3 => hne (.inl h3), k1, k2⟩
  · refine ⟨p, p, fun st hst e he hp hf => ?_⟩
    obtain ⟨k1, k2⟩ := key st hst e he hf
    rw [hp] at k2
    exact absurd ⟨st.1, k1, k2⟩ h1

/-- The wrong outcomes of one stabiliser cancel in pairs. -/
theorem xsum_differences (f : Nat → Bool) : ∀ r, xsum (List.range (r + 1)) (fun t => f t ^^ (decide (0 < t) && f (t - 1))) = f r := by
  intro r
  induction r with
  | zero => simp
  | succ r ih =>
    rw [List.range_succ, xsum_append, ih]
    simp only [xsum_cons, xsum_nil, Bool.xor_false, Nat.add_sub_cancel, Nat.succ_pos, decide_true, Bool.true_and]
    cases f r <;> cases f (r + 1) <;> rfl

/-- What all rounds of the syndrome together say about a stabiliser. -/
theorem shows_total {n : Nat} {f : Faults n} {r : Nat} {stabs : List (Op n)} {syn : Option (List (List Bool))} (h : f.Shows r stabs syn) {s : Nat} {gen : Op n}
    (hs : stabs[s]? = some gen) : Odd (Set.ncard {t | t < r ∧ SynBit syn t s}) ↔ Odd (Set.ncard {t | t < r ∧ Anticommutes (opMat gen) (opMat (f.data t))}) := by
  classical
  have h1 : {t | t < r ∧ SynBit syn t s} = {t | t < r ∧ decide (SynBit syn t s) = true} := by simp
  have h2 : {t | t < r ∧ Anticommutes (opMat gen) (opMat (f.data t))} = {t | t < r ∧ anti gen (f.data t) = true} := by
    ext t
    simp only [Set.mem_ofPred_eq, anticommutes_iff]
  rw [h1, h2, ← xsum_ncard, ← xsum_ncard]
  have h3 : xsum (List.range r) (fun t => decide (SynBit syn t s)) =
      xsum (List.range r) (fun t => anti gen (f.data t) ^^ (decide (f.meas t s) ^^ (decide (0 < t) && decide (f.meas (t - 1) s)))) := by
    refine xsum_congr fun t ht => ?_
    have hb := h.bit t (List.mem_range.1 ht) s gen hs
    rw [anticommutes_iff] at hb
    rw [Bool.eq_iff_iff, decide_eq_true_iff, hb]
    by_cases a1 : anti gen (f.data t) = true <;> by_cases a2 : f.meas t s <;> by_cases a3 : 0 < t <;> by_cases a4 : f.meas (t - 1) s <;>
      simp [Xor, a1, a2, a3, a4]
  rw [h3, xsum_xor]
  have h4 : xsum (List.range r) (fun t => decide (f.meas t s) ^^ (decide (0 < t) && decide (f.meas (t - 1) s))) = false := by
    cases r with
    | zero => rfl
    | succ r =>
      rw [xsum_differences (fun t => decide (f.meas t s))]
      exact decide_eq_false (h.last r s le_rfl)
  rw [h4, Bool.xor_false]

end Plaquette
