import Verif.Lemmas.PauliState
import Verif.Lemmas.Unique

/-! Helper lemmas: the loop of `_measure_base`. -/

namespace Plaquette
open Matrix Complex

variable {n k : Nat}

/-- Forced outcomes the code accepts. -/
def GoodForced (f : Option Int) : Prop := ∀ v, f = some v → v = 0 ∨ v = 1

instance (f : Option Int) : Decidable (GoodForced f) :=
  match f with
  | none => .isTrue (by simp [GoodForced])
  | some v => decidable_of_iff (v = 0 ∨ v = 1) (by simp [GoodForced])

theorem chosen_good {f : Option Int} (hf : GoodForced f) (draw : Bool) : ∃ out, chosen f draw = .ok out := by
  cases f with
  | none => exact ⟨_, rfl⟩
  | some v =>
    rcases hf v rfl with rfl | rfl
    · exact ⟨false, by simp [chosen]⟩
    · exact ⟨true, by simp [chosen]⟩

theorem measure_total_forced {T : Tab n} (hT : T.SemiValid) {m : Op n} (hm : ¬ m.IsScalar) {f : Option Int}
    (hf : GoodForced f) (draw : Bool) : ∃ T' out, measure T m f draw = .ok (T', out) := by
  cases hn : nonzero T.s m with
  | nil => exact ⟨_, _, measure_det hn (nonzero_d_ne_nil hT hm hn) _ _⟩
  | cons k others =>
    obtain ⟨out, ho⟩ := chosen_good hf draw
    refine ⟨randTab T m k out, out, ?_⟩
    rw [measure_random hn f draw, ho]

theorem projector_eigen (m : Op n) (out : Bool) (ψ : Vec n) :
    opMat m *ᵥ (projector m out *ᵥ ψ) = sgn out • (projector m out *ᵥ ψ) := by
  rw [Matrix.mulVec_mulVec, ← Matrix.smul_mulVec]
  congr 1
  simp only [projector, Matrix.mul_smul, Matrix.mul_add, Matrix.mul_one, opMat_sq, smul_add, smul_smul]
  rw [mul_comm (sgn out) (1 / 2), mul_left_comm, sgn_mul_self, mul_one, add_comm]

/-- A sign-labelled eigen equation as a stabiliser. -/
theorem stabilises_of_eigen {base : Letter} {t : Fin n} {φ : Vec n} {m : Bool} :
    Stabilises (singleOp m base t) φ ↔ opMat (singleOp false base t) *ᵥ φ = sgn m • φ := by
  have e : opMat (singleOp m base t) = sgn m • opMat (singleOp false base t) := by
    simp [opMat, singleOp]
  unfold Stabilises
  rw [e, Matrix.smul_mulVec]
  constructor
  · intro h; rw [← h, smul_smul, sgn_mul_self, one_smul, h]
  · intro h; rw [h, smul_smul, sgn_mul_self, one_smul]

theorem anti_single_same (a b : Bool) (base : Letter) (t u : Fin n) :
    anti (singleOp a base t) (singleOp b base u) = false := by
  apply z2_inj
  rw [z2_anti]
  apply Finset.sum_eq_zero
  intro q _
  cases base <;> simp [singleOp, z2] <;> split_ifs <;> decide

/-- Everything stabilised by `p` before a measurement of a commuting operator is stabilised afterwards. -/
theorem measure_keeps {T T' : Tab n} (hT : T.SemiValid) {m p : Op n} {f : Option Int} {draw out : Bool}
    (h : measure T m f draw = .ok (T', out)) (hc : anti p m = false)
    (hp : ∀ ψ, T.Represents ψ → Stabilises p ψ) : ∀ φ, T'.Represents φ → Stabilises p φ := by
  intro φ hφ
  obtain ⟨ψ, hψ⟩ := exists_represents hT
  obtain ⟨c, _, rfl⟩ := represents_unique (measure_semi hT h) (measure_represents hT h hψ) hφ
  have := hp ψ hψ
  unfold Stabilises at *
  rw [Matrix.mulVec_smul, Matrix.mulVec_mulVec]
  congr 1
  have e : opMat p * projector m out = projector m out * opMat p := by
    simp only [projector, Matrix.mul_smul, Matrix.smul_mul, Matrix.mul_add, Matrix.add_mul, Matrix.mul_one,
      Matrix.one_mul]
    rw [opMat_comm p m, hc, sgn_false, one_smul]
  rw [e, ← Matrix.mulVec_mulVec, this]

/-- What the loop guarantees. -/
theorem measureLoop_sem {base : Letter} (items : List MeasItem) (T : Tab n) (hT : T.Valid) (res : List Bool)
    (hit : ∀ it ∈ items, it.target < n ∧ GoodForced it.forced ∧ it.idx < res.length)
    (hnd : (items.map MeasItem.idx).Nodup) :
    ∃ T' res', measureLoop n base false items ⟨n, T⟩ res = .ok (⟨n, T'⟩, res') ∧ T'.Valid ∧
      res'.length = res.length ∧
      (∀ i, i ∉ items.map MeasItem.idx → res'[i]? = res[i]?) ∧
      (∀ u b, (∀ ψ, T.Represents ψ → Stabilises (singleOp b base u) ψ) →
        ∀ φ, T'.Represents φ → Stabilises (singleOp b base u) φ) ∧
      (∀ it ∈ items, ∃ (h : it.target < n) (b : Bool), res'[it.idx]? = some b ∧
        ∀ φ, T'.Represents φ → Stabilises (singleOp b base ⟨it.target, h⟩) φ) := by
  induction items generalizing T res with
  | nil => exact ⟨T, res, rfl, hT, rfl, by simp, fun _ _ h => h, by simp⟩
  | cons it rest ih =>
    obtain ⟨ht, hf, hi⟩ := hit it (by simp)
    obtain ⟨T1, out, hm⟩ := measure_total_forced hT.semi (singleOp_not_scalar false base ⟨it.target, ht⟩) hf it.draw
    simp only [List.map_cons, List.nodup_cons] at hnd
    obtain ⟨T', res', h1, h2, h3, h4, h5, h6⟩ := ih T1 (measure_valid hT hm) (res.set it.idx out)
      (fun j hj => by
        have := hit j (by simp [hj])
        simpa using this) hnd.2
    have hs : ∀ φ, T1.Represents φ → Stabilises (singleOp out base ⟨it.target, ht⟩) φ := by
      intro φ hφ
      obtain ⟨ψ, hψ⟩ := exists_represents hT.semi
      obtain ⟨c, _, rfl⟩ := represents_unique (measure_semi hT.semi hm) (measure_represents hT.semi hm hψ) hφ
      rw [stabilises_of_eigen, Matrix.mulVec_smul, projector_eigen, smul_comm]
    refine ⟨T', res', ?_, h2, by simpa using h3, ?_, ?_, ?_⟩
    · unfold measureLoop
      rw [if_neg (by omega), dif_pos ⟨ht, rfl⟩]
      simp only [hm]
      exact h1
    · intro i hi'
      simp only [List.map_cons, List.mem_cons, not_or] at hi'
      rw [h4 i hi'.2, List.getElem?_set_ne (fun h => hi'.1 h.symm)]
    · intro u b hub
      exact h5 u b (measure_keeps hT.semi hm (anti_single_same _ _ _ _ _) hub)
    · intro j hj
      rcases List.mem_cons.mp hj with rfl | hj
      · refine ⟨ht, out, ?_, h5 _ _ hs⟩
        rw [h4 _ hnd.1, List.getElem?_set_self hi]
      · exact h6 j hj

theorem ptraceAny_size {base : Letter} {T : Tab n} {t : Nat} {S : AnyTab} (h : ptraceAny base ⟨n, T⟩ t = .ok S) :
    S.1 + 1 = n := by
  cases n with
  | zero => simp [ptraceAny] at h
  | succ k =>
    simp only [ptraceAny] at h
    split at h
    · split at h
      · cases h
      · cases h; rfl
    · cases h

theorem measureLoop_two {base : Letter} (a b : MeasItem) (rest : List MeasItem) (T : Tab n) (res : List Bool) :
    ∃ e, measureLoop n base true (a :: b :: rest) ⟨n, T⟩ res = .error e := by
  unfold measureLoop
  by_cases h : n ≤ a.target
  · exact ⟨_, by rw [if_pos h]⟩
  rw [if_neg h, dif_pos ⟨by omega, rfl⟩]
  cases hm : measure T (singleOp false base ⟨a.target, by omega⟩) a.forced a.draw with
  | error e => exact ⟨e, rfl⟩
  | ok r =>
    obtain ⟨T', m⟩ := r
    simp only [if_true]
    cases hp : ptraceAny base ⟨n, T'⟩ a.target with
    | error e => exact ⟨e, rfl⟩
    | ok S =>
      obtain ⟨k, S⟩ := S
      have hk := ptraceAny_size hp
      simp only at hk ⊢
      unfold measureLoop
      by_cases h' : n ≤ b.target
      · exact ⟨_, by rw [if_pos h']⟩
      · rw [if_neg h', dif_neg (by omega)]
        exact ⟨_, rfl⟩

end Plaquette
