import Verif.Model.PauliState
import Verif.Lemmas.Reset

/-! Helper lemmas: partial trace, tensor products. -/

namespace Plaquette
open Matrix Complex

variable {n k : Nat}

/-- The amplitudes of `ψ` with qubit `t` equal to `v`. -/
def slice (t : Fin (k + 1)) (v : Bool) (ψ : Vec (k + 1)) : Vec k := fun b => ψ (t.insertNth (α := fun _ => Bool) v b)

theorem sum_insertNth (t : Fin (k + 1)) (f : Basis (k + 1) → ℂ) :
    ∑ b, f b = ∑ w : Bool, ∑ b : Basis k, f (t.insertNth (α := fun _ => Bool) w b) := by
  rw [← (Fin.insertNthEquiv (fun _ => Bool) t).sum_comp, Fintype.sum_prod_type]
  rfl

theorem pauliMat_insert (p : Op (k + 1)) (t : Fin (k + 1)) (v w : Bool) (a b : Basis k) :
    pauliMat p.x p.z (t.insertNth (α := fun _ => Bool) v a) (t.insertNth (α := fun _ => Bool) w b) =
      sigma (p.x t) (p.z t) v w * pauliMat (dropCol t p).x (dropCol t p).z a b := by
  simp only [pauliMat, tensor]
  rw [Fin.prod_univ_succAbove _ t]
  simp [dropCol]

theorem stabilises_slice {p : Op (k + 1)} {t : Fin (k + 1)} (hx : p.x t = false) (hz : p.z t = false)
    {ψ : Vec (k + 1)} (h : Stabilises p ψ) (v : Bool) : Stabilises (dropCol t p) (slice t v ψ) := by
  unfold Stabilises at *
  funext a
  have ha := congrFun h (t.insertNth (α := fun _ => Bool) v a)
  show _ = ψ (t.insertNth (α := fun _ => Bool) v a)
  rw [← ha]
  simp only [mulVec, dotProduct]
  rw [sum_insertNth t]
  simp only [opMat, Matrix.smul_apply, smul_eq_mul, pauliMat_insert, hx, hz, Fintype.sum_bool]
  cases v <;> simp [sigma, slice, dropCol]

theorem anti_dropCol {p q : Op (k + 1)} {t : Fin (k + 1)} (hx : q.x t = false) (hz : q.z t = false) :
    anti (dropCol t p) (dropCol t q) = anti p q := by
  apply z2_inj
  rw [z2_anti, z2_anti, Fin.sum_univ_succAbove _ t, hx, hz]
  simp only [dropCol]
  simp [show z2 false = 0 from rfl]

theorem anti_single (p : Op n) (neg : Bool) (q : Fin n) :
    anti p (singleOp neg .Z q) = p.x q ∧ anti p (singleOp neg .X q) = p.z q := by
  constructor
  · apply z2_inj
    rw [z2_anti, Finset.sum_eq_single q]
    · simp [singleOp, z2]
    · intro b _ hb; simp [singleOp, hb, z2]
    · simp
  · apply z2_inj
    rw [z2_anti, Finset.sum_eq_single q]
    · simp [singleOp, z2]
    · intro b _ hb; simp [singleOp, hb, z2]
    · simp

theorem commute_of_eigen {p m : Op n} {ψ : Vec n} (h0 : ψ ≠ 0) {a b : Bool} (hp : opMat p *ᵥ ψ = sgn a • ψ)
    (hm : opMat m *ᵥ ψ = sgn b • ψ) : anti p m = false := by
  by_contra hc
  have hc : anti p m = true := by simpa using hc
  have e : opMat p *ᵥ (opMat m *ᵥ ψ) = -(opMat m *ᵥ (opMat p *ᵥ ψ)) := by
    rw [Matrix.mulVec_mulVec, opMat_comm, hc, Matrix.smul_mulVec, Matrix.mulVec_mulVec]; simp
  rw [hp, hm, Matrix.mulVec_smul, Matrix.mulVec_smul, hp, hm, smul_smul, smul_smul, mul_comm, ← sgn_xor] at e
  have e' : sgn (a ^^ b) • ψ = sgn (!(a ^^ b)) • ψ := by
    rw [e]; cases a <;> cases b <;> simp [sgn]
  have := sgn_smul_inj h0 e'
  simp at this

/-- The other letter. -/
def otherLetter : Letter → Letter
  | .X => .Z
  | .Z => .X
  | .Y => .Y

/-- The value of the target qubit whose amplitudes are kept. -/
def keptValue : Letter → Bool → Bool
  | .Z, out => out
  | _, _ => false

theorem opMat_single_mulVec_Z (t : Fin (k + 1)) (ψ : Vec (k + 1)) (v : Bool) (a : Basis k) :
    (opMat (singleOp false .Z t) *ᵥ ψ) (t.insertNth (α := fun _ => Bool) v a) =
      sgn v * ψ (t.insertNth (α := fun _ => Bool) v a) := by
  have hd : pauliMat (dropCol t (singleOp false .Z t)).x (dropCol t (singleOp false .Z t)).z = (1 : Mat k) := by
    rw [← tensor_one]
    simp [pauliMat, dropCol, singleOp, Fin.succAbove_ne, sigma_zero]
  have hx : (singleOp false .Z t).x t = false := by simp [singleOp]
  have hz : (singleOp false .Z t).z t = true := by simp [singleOp]
  simp only [mulVec, dotProduct]
  rw [sum_insertNth t]
  simp only [opMat, Matrix.smul_apply, smul_eq_mul, pauliMat_insert, hd, Fintype.sum_bool, Matrix.one_apply, hx, hz]
  cases v <;> simp [sigma, singleOp, sgn]

theorem opMat_single_mulVec_X (t : Fin (k + 1)) (ψ : Vec (k + 1)) (v : Bool) (a : Basis k) :
    (opMat (singleOp false .X t) *ᵥ ψ) (t.insertNth (α := fun _ => Bool) v a) =
      ψ (t.insertNth (α := fun _ => Bool) (!v) a) := by
  have hd : pauliMat (dropCol t (singleOp false .X t)).x (dropCol t (singleOp false .X t)).z = (1 : Mat k) := by
    rw [← tensor_one]
    simp [pauliMat, dropCol, singleOp, Fin.succAbove_ne, sigma_zero]
  have hx : (singleOp false .X t).x t = true := by simp [singleOp]
  have hz : (singleOp false .X t).z t = false := by simp [singleOp]
  simp only [mulVec, dotProduct]
  rw [sum_insertNth t]
  simp only [opMat, Matrix.smul_apply, smul_eq_mul, pauliMat_insert, hd, Fintype.sum_bool, Matrix.one_apply, hx, hz]
  cases v <;> simp [sigma, singleOp, sgn]

theorem slice_ne_zero {base : Letter} (hb : base ≠ .Y) {t : Fin (k + 1)} {ψ : Vec (k + 1)} {out : Bool} (h0 : ψ ≠ 0)
    (h : opMat (singleOp false base t) *ᵥ ψ = sgn out • ψ) : slice t (keptValue base out) ψ ≠ 0 := by
  intro hs
  apply h0
  funext b
  have hb' : t.insertNth (α := fun _ => Bool) (b t) (fun i => b (t.succAbove i)) = b := by
    rw [Fin.insertNth_eq_iff]
    exact ⟨rfl, rfl⟩
  rw [← hb']
  generalize (fun i => b (t.succAbove i)) = a
  generalize b t = v
  have hs' := congrFun hs a
  have he := congrFun h (t.insertNth (α := fun _ => Bool) v a)
  simp only [slice, Pi.zero_apply, Pi.smul_apply, smul_eq_mul] at hs' he ⊢
  cases base with
  | Y => exact absurd rfl hb
  | Z =>
    rw [opMat_single_mulVec_Z] at he
    by_cases hv : v = out
    · subst hv; exact hs'
    · have hv' : v = !out := by cases v <;> cases out <;> simp_all
      subst hv'
      cases out
      · simp [sgn] at he
        exact self_eq_neg.mp he.symm
      · simp [sgn] at he
        exact self_eq_neg.mp he
  | X =>
    rw [opMat_single_mulVec_X] at he
    cases v
    · exact hs'
    · simp only [Bool.not_true] at he
      simp only [keptValue] at hs'
      rw [hs'] at he
      exact (mul_eq_zero.mp he.symm).resolve_left (sgn_ne_zero _)

theorem traceRows_eq {base : Letter} (hb : base ≠ .Y) (T : Tab n) (t : Fin n) :
    traceRows base T t = some ((List.finRange n).filter fun i => anti (T.s i) (singleOp false (otherLetter base) t)) := by
  cases base with
  | Y => exact absurd rfl hb
  | X => simp [traceRows, otherLetter, anti_single]
  | Z => simp [traceRows, otherLetter, anti_single]

theorem bits_of_anti {base : Letter} (hb : base ≠ .Y) {p : Op n} {t : Fin n}
    (h1 : anti p (singleOp false base t) = false) (h2 : anti p (singleOp false (otherLetter base) t) = false) :
    p.x t = false ∧ p.z t = false := by
  cases base with
  | Y => exact absurd rfl hb
  | X => rw [(anti_single _ _ _).2] at h1; rw [otherLetter, (anti_single _ _ _).1] at h2; exact ⟨h2, h1⟩
  | Z => rw [(anti_single _ _ _).1] at h1; rw [otherLetter, (anti_single _ _ _).2] at h2; exact ⟨h1, h2⟩

theorem single_other_anti {base : Letter} (hb : base ≠ .Y) (t : Fin n) :
    anti (singleOp false (otherLetter base) t) (singleOp false base t) = true := by
  cases base with
  | Y => exact absurd rfl hb
  | X => rw [(anti_single _ _ _).2]; simp [otherLetter, singleOp]
  | Z => rw [(anti_single _ _ _).1]; simp [otherLetter, singleOp]

theorem ptrace_sem {base : Letter} (hb : base ≠ .Y) {T : Tab (k + 1)} (hT : T.SemiValid) {t : Fin (k + 1)}
    {ψ : Vec (k + 1)} (hψ : T.Represents ψ) {out : Bool}
    (hm : opMat (singleOp false base t) *ᵥ ψ = sgn out • ψ) :
    ∃ T' : Tab k, ptrace base T t = .ok T' ∧ T'.SemiValid ∧ T'.Represents (slice t (keptValue base out) ψ) := by
  obtain ⟨h1, h2⟩ := (semiValid_iff T).mp hT
  have hcomm : ∀ i, anti (T.s i) (singleOp false base t) = false := fun i =>
    commute_of_eigen hψ.1 (a := false) (by rw [hψ.2 i]; simp) hm
  have hrows := traceRows_eq hb T t
  cases hl : (List.finRange (k + 1)).filter (fun i => anti (T.s i) (singleOp false (otherLetter base) t)) with
  | nil =>
    exfalso
    have hall : ∀ i, anti (T.s i) (singleOp false (otherLetter base) t) = false := by
      intro i
      have := List.filter_eq_nil_iff.mp hl i (List.mem_finRange i)
      simpa using this
    have := measure_det_sem hT ((nonzero_eq_nil _ _).mpr hall) hψ
    have := commute_of_eigen hψ.1 this hm
    rw [single_other_anti hb] at this
    exact absurd this (by simp)
  | cons f others =>
    have hnd : (f :: others).Nodup := hl ▸ (List.nodup_finRange _).filter _
    have hf : anti (T.s f) (singleOp false (otherLetter base) t) = true := by
      have : f ∈ (List.finRange (k + 1)).filter (fun i => anti (T.s i) (singleOp false (otherLetter base) t)) := by
        rw [hl]; simp
      exact (List.mem_filter.mp this).2
    have hmem : ∀ i, i ≠ f → (i ∈ others ↔ anti (T.s i) (singleOp false (otherLetter base) t) = true) := by
      intro i hi
      have : i ∈ f :: others ↔ anti (T.s i) (singleOp false (otherLetter base) t) = true := by
        rw [← hl, List.mem_filter]; simp
      rw [← this, List.mem_cons]
      simp [hi]
    rw [hl] at hrows
    let s1 : Fin (k + 1) → Op (k + 1) := fun i => if i ∈ others then mulOp (T.s i) (T.s f) else T.s i
    have hs1a : ∀ i (p : Op (k + 1)), anti p (s1 i) = (anti p (T.s i) ^^ (decide (i ∈ others) && anti p (T.s f))) := by
      intro i p
      by_cases hi : i ∈ others
      · simp [s1, hi, anti_mul_right]
      · simp [s1, hi]
    have hbits : ∀ i, i ≠ f → (s1 i).x t = false ∧ (s1 i).z t = false := by
      intro i hi
      apply bits_of_anti hb
      · rw [anti_symm, hs1a, anti_symm, hcomm, anti_symm, hcomm]; simp
      · rw [anti_symm, hs1a, anti_symm, anti_symm _ (T.s f), hf]
        by_cases hi' : i ∈ others
        · rw [(hmem i hi).mp hi']; simp [hi']
        · have : anti (T.s i) (singleOp false (otherLetter base) t) = false := by
            have := mt (hmem i hi).mpr hi'
            simpa using this
          simp [this, hi']
    have hstab : ∀ i, Stabilises (s1 i) ψ := by
      intro i
      by_cases hi : i ∈ others
      · simp only [s1, hi, if_true]; exact stabilises_mul (h1 _ _) (hψ.2 i) (hψ.2 f)
      · simp only [s1, hi, if_false]; exact hψ.2 i
    refine ⟨_, by unfold ptrace; rw [hrows], ?_, slice_ne_zero hb hψ.1 hm, ?_⟩
    · rw [semiValid_iff]
      constructor
      · intro i j
        show anti (dropCol t (s1 (f.succAbove i))) (dropCol t (s1 (f.succAbove j))) = false
        have hb1 := hbits _ (Fin.succAbove_ne f j)
        rw [anti_dropCol hb1.1 hb1.2, hs1a, anti_symm, hs1a, anti_symm (s1 _) (T.s f), hs1a]
        simp [h1]
      · intro i j
        show anti (dropCol t (Function.update T.d f _ (f.succAbove i))) (dropCol t (s1 (f.succAbove j))) = _
        have hb1 := hbits _ (Fin.succAbove_ne f j)
        rw [anti_dropCol hb1.1 hb1.2, Function.update_of_ne (Fin.succAbove_ne f i), hs1a, h2, h2]
        simp [Fin.succAbove_ne]
    · intro i
      exact stabilises_slice (hbits _ (Fin.succAbove_ne f i)).1 (hbits _ (Fin.succAbove_ne f i)).2 (hstab _) _

/-! ### Tensor products -/

variable {m : Nat}

theorem opMat_tensorOp (a : Op m) (b : Op n) (u u' : Basis m) (v v' : Basis n) :
    opMat (tensorOp a b) (Fin.append u v) (Fin.append u' v') = opMat a u u' * opMat b v v' := by
  simp only [opMat, Matrix.smul_apply, smul_eq_mul, tensorOp, sgn_xor, pauliMat, tensor, Fin.prod_univ_add,
    Fin.append_left, Fin.append_right]
  ring

theorem anti_tensorOp (a c : Op m) (b d : Op n) :
    anti (tensorOp a b) (tensorOp c d) = (anti a c ^^ anti b d) := by
  apply z2_inj
  rw [z2_xor, z2_anti, z2_anti, z2_anti, Fin.sum_univ_add]
  simp [tensorOp]

theorem sum_append (f : Basis (m + n) → ℂ) : ∑ b, f b = ∑ u : Basis m, ∑ v : Basis n, f (Fin.append u v) := by
  rw [← (Fin.appendEquiv m n).sum_comp, Fintype.sum_prod_type]
  rfl

/-- The product vector. -/
def tensorVec (ψ : Vec m) (φ : Vec n) : Vec (m + n) :=
  fun b => ψ (fun i => b (Fin.castAdd n i)) * φ (fun j => b (Fin.natAdd m j))

theorem tensorVec_append (ψ : Vec m) (φ : Vec n) (u : Basis m) (v : Basis n) :
    tensorVec ψ φ (Fin.append u v) = ψ u * φ v := by
  simp [tensorVec]

theorem tensorVec_ext {f g : Vec (m + n)} (h : ∀ u v, f (Fin.append u v) = g (Fin.append u v)) : f = g := by
  funext b
  have := h (fun i => b (Fin.castAdd n i)) (fun j => b (Fin.natAdd m j))
  rwa [Fin.append_castAdd_natAdd] at this

theorem tensorOp_mulVec (a : Op m) (b : Op n) (ψ : Vec m) (φ : Vec n) :
    opMat (tensorOp a b) *ᵥ tensorVec ψ φ = tensorVec (opMat a *ᵥ ψ) (opMat b *ᵥ φ) := by
  apply tensorVec_ext
  intro u v
  rw [tensorVec_append]
  simp only [mulVec, dotProduct]
  rw [sum_append]
  simp only [opMat_tensorOp, tensorVec_append, Finset.sum_mul_sum]
  refine Finset.sum_congr rfl fun i _ => Finset.sum_congr rfl fun j _ => ?_
  ring

theorem tensorVec_ne_zero {ψ : Vec m} {φ : Vec n} (h : ψ ≠ 0) (h' : φ ≠ 0) : tensorVec ψ φ ≠ 0 := by
  obtain ⟨u, hu⟩ := Function.ne_iff.mp h
  obtain ⟨v, hv⟩ := Function.ne_iff.mp h'
  intro hc
  have := congrFun hc (Fin.append u v)
  rw [tensorVec_append] at this
  exact mul_ne_zero hu hv this

theorem tensorTab_valid {A : Tab m} {B : Tab n} (hA : A.Valid) (hB : B.Valid) : (tensorTab A B).Valid := by
  rw [valid_iff] at *
  obtain ⟨a1, a2, a3⟩ := hA
  obtain ⟨b1, b2, b3⟩ := hB
  have e : ∀ (k : Nat) (p : Op k), anti p (idOp k) = false := fun k p => by rw [anti_symm]; simp
  refine ⟨?_, ?_, ?_⟩ <;> intro i j <;>
    refine Fin.addCases (fun i => ?_) (fun i => ?_) i <;> refine Fin.addCases (fun j => ?_) (fun j => ?_) j <;>
    simp [tensorTab, anti_tensorOp, a1, a2, a3, b1, b2, b3, e, Fin.ext_iff] <;> omega

theorem tensorTab_represents {A : Tab m} {B : Tab n} {ψ : Vec m} {φ : Vec n} (hA : A.Represents ψ)
    (hB : B.Represents φ) : (tensorTab A B).Represents (tensorVec ψ φ) := by
  refine ⟨tensorVec_ne_zero hA.1 hB.1, fun i => ?_⟩
  have h1 := hA.2
  have h2 := hB.2
  unfold Stabilises at *
  refine Fin.addCases (fun i => ?_) (fun i => ?_) i <;>
    simp [tensorTab, tensorOp_mulVec, opMat_idOp, h1, h2]

end Plaquette
