import Verif.Model.GeneratorObject
import Verif.Props.Layout
import Verif.Lemmas.Rates

/-!
# A circuit generator that is used more than once: lemmas (C127)
-/

namespace Plaquette
variable {F : Type}

theorem calls_spec {api : FloatApi F} : ∀ {sels : List LogicalSel} {O O' : GenObj F}, O.calls api sels = .ok O' →
    O'.gen = O.gen ∧ ∃ cs : List (List (Gate F)), sels.map (O.gen.getCircuit api) = cs.map .ok ∧ O'.circ = O.circ ++ cs.flatten := by
  intro sels
  induction sels with
  | nil =>
    intro O O' h
    cases h
    exact ⟨rfl, [], rfl, by simp⟩
  | cons sel sels ih =>
    intro O O' h
    unfold GenObj.calls GenObj.getCircuit at h
    cases hg : O.gen.getCircuit api sel with
    | error e => rw [hg] at h; cases h
    | ok gs =>
      rw [hg] at h
      obtain ⟨h1, cs, h2, h3⟩ := ih h
      refine ⟨h1, gs :: cs, ?_, ?_⟩
      · rw [List.map_cons, List.map_cons, hg, ← h2]
      · rw [h3, List.flatten_cons, List.append_assoc]

theorem calls_make {api : FloatApi F} {c : LatCode} {qe ge : List (List Char × ErrDict F)} {anc : Bool} {sels : List LogicalSel} {O O' : GenObj F}
    (hO : GenObj.make c qe ge anc = .ok O) (h : O.calls api sels = .ok O') :
    ∃ cs : List (List (Gate F)), sels.map (generateCircuit api c qe ge · anc) = cs.map .ok ∧ O'.circ = cs.flatten := by
  unfold GenObj.make at hO
  cases hG : Gen.make c qe ge anc with
  | error e => rw [hG] at hO; cases hO
  | ok G =>
    rw [hG] at hO
    cases hO
    obtain ⟨_, cs, h2, h3⟩ := calls_spec h
    refine ⟨cs, ?_, by simpa using h3⟩
    rw [← h2]
    refine List.map_congr_left fun sel _ => ?_
    unfold generateCircuit
    rw [hG]

theorem measured_append (a b : List (Gate F)) : measuredQubits (a ++ b) = measuredQubits a ++ measuredQubits b := by
  simp [measuredQubits]

/-- A slice that leaves out the same number of elements on both sides. -/
theorem mid_length {α : Type} (l : List α) (k : Nat) (hk : 0 < k) : (pySlice l k (-(k : Int))).length = l.length - 2 * k := by
  have h1 : pyBound l.length (k : Int) = min k l.length := by
    unfold pyBound
    rw [if_neg (by omega)]
    simp
  have h2 : pyBound l.length (-(k : Int)) = l.length - k := by
    unfold pyBound
    rw [if_pos (by omega)]
    omega
  unfold pySlice
  rw [h1, h2, List.length_take, List.length_drop]
  omega

theorem mid_zero {α : Type} (l : List α) : pySlice l 0 (-(0 : Int)) = [] := by
  simp [pySlice, pyBound]

/-- The number of results of the logical operators at each end. -/
def rawCut {n : Nat} (code : StabCode n) (anc : Bool) : Nat :=
  if anc then code.nLogicalQubits else match firstWeight code with | .ok d => code.nLogicalQubits * d | .error _ => 0

/-- The results are accepted for exactly one length, up to erasures. -/
theorem fromRaw_length {c : LatCode} (hs : c.code.stabilisers ≠ []) {anc : Bool} {raw : List Bool} {er : Option (List Bool)} {s : Sample}
    (h : Sample.fromRaw c raw er anc = .ok s) : raw.length = 2 * rawCut c.code anc + (c.nRounds + 1) * c.code.stabilisers.length := by
  have hpos : 0 < (c.nRounds + 1) * c.code.stabilisers.length := Nat.mul_pos (Nat.succ_pos _) (List.length_pos_iff.2 hs)
  have hk : ∀ raw init fin mid, splitResults c raw anc = .ok (init, fin, mid) → mid = pySlice raw (rawCut c.code anc) (-(rawCut c.code anc : Int)) := by
    cases anc with
    | true =>
      intro raw init fin mid h
      simp only [splitResults, Bool.not_true, Bool.false_eq_true, if_false, Except.ok.injEq, Prod.mk.injEq] at h
      exact h.2.2.symm
    | false =>
      intro raw init fin mid h
      cases hw : firstWeight c.code with
      | error e =>
        simp only [splitResults, Bool.not_false, if_true, hw] at h
        cases h
      | ok d =>
        simp only [splitResults, Bool.not_false, if_true, hw, Except.ok.injEq, Prod.mk.injEq] at h
        simp only [rawCut, hw, Bool.false_eq_true, if_false]
        rw [← h.2.2]
        push_cast
        rfl
  generalize rawCut c.code anc = k at hk ⊢
  unfold Sample.fromRaw at h
  cases hsp : splitResults c raw anc with
  | error e => rw [hsp] at h; cases h
  | ok t =>
    obtain ⟨init, fin, mid⟩ := t
    rw [hsp] at h
    have hmid := hk raw init fin mid hsp
    dsimp only at h
    cases hr : reshape mid (c.nRounds + 1) c.code.stabilisers.length with
    | error e => rw [hr] at h; cases h
    | ok st =>
      unfold reshape at hr
      split at hr
      · next hl =>
        rw [hmid] at hl
        rcases Nat.eq_zero_or_pos k with rfl | h0
        · have := mid_zero raw
          simp only [Nat.cast_zero] at hl
          rw [this, List.length_nil] at hl
          omega
        · rw [mid_length raw k h0] at hl
          omega
      · cases hr

/-- Every refusal of results of another length, with logical operators, is a `ValueError`. -/
theorem fromRaw_error {c : LatCode} {anc : Bool} (hl : c.code.logicalOps ≠ []) {raw : List Bool} {er : Option (List Bool)} {e : Err}
    (h : Sample.fromRaw c raw er anc = .error e) : e = .valueError := by
  unfold Sample.fromRaw at h
  cases hsp : splitResults c raw anc with
  | error e' =>
    unfold splitResults firstWeight at hsp
    cases anc <;> cases hll : c.code.logicalOps <;> simp [hll] at hsp hl
  | ok t =>
    obtain ⟨init, fin, mid⟩ := t
    rw [hsp] at h
    dsimp only at h
    cases hr : reshape mid (c.nRounds + 1) c.code.stabilisers.length with
    | error e' =>
      rw [hr] at h
      unfold reshape at hr
      split at hr
      · cases hr
      · cases hr; cases h; rfl
    | ok st =>
      rw [hr] at h
      cases er with
      | none => cases h
      | some er =>
        dsimp only at h
        split at h
        · cases h; rfl
        · cases hr2 : reshape er c.nRounds c.n with
          | error e' =>
            rw [hr2] at h
            unfold reshape at hr2
            split at hr2
            · cases hr2
            · cases hr2; cases h; rfl
          | ok er' => rw [hr2] at h; cases h

end Plaquette
