import Verif.Lemmas.Stab

/-! Helper lemmas about `measure`. -/

namespace Plaquette
open Matrix Complex

variable {n : Nat}

theorem mem_nonzero (rows : Fin n → Op n) (m : Op n) (i : Fin n) : i ∈ nonzero rows m ↔ anti (rows i) m = true := by
  simp [nonzero, commSign_ne_zero]

theorem nonzero_nodup (rows : Fin n → Op n) (m : Op n) : (nonzero rows m).Nodup :=
  (List.nodup_finRange n).filter _

theorem nonzero_eq_nil (rows : Fin n → Op n) (m : Op n) : nonzero rows m = [] ↔ ∀ i, anti (rows i) m = false := by
  rw [List.eq_nil_iff_forall_not_mem]
  simp [mem_nonzero]

/-- The tableau after a random measurement with pivot `k`. -/
def randTab (T : Tab n) (m : Op n) (k : Fin n) (out : Bool) : Tab n where
  d i := if i = k then T.s k else if anti (T.d i) m then mulOp (T.s k) (T.d i) else T.d i
  s i := if i = k then { m with r := m.r ^^ out } else if anti (T.s i) m then mulOp (T.s k) (T.s i) else T.s i

/-- The outcome chosen in the random branch. -/
def chosen (forced : Option Int) (draw : Bool) : Except Err Bool :=
  match forced with
  | some v => if v = 0 then .ok false else if v = 1 then .ok true else .error .valueError
  | none => .ok draw

theorem measure_random {T : Tab n} {m : Op n} {k : Fin n} {others : List (Fin n)}
    (h : nonzero T.s m = k :: others) (forced : Option Int) (draw : Bool) :
    measure T m forced draw =
      match chosen forced draw with
      | .error e => .error e
      | .ok out => .ok (randTab T m k out, out) := by
  have hnd := nonzero_nodup T.s m
  rw [h] at hnd
  have hk : k ∉ others := (List.nodup_cons.mp hnd).1
  have hmem : ∀ i, i ∈ others ↔ (i ≠ k ∧ anti (T.s i) m = true) := by
    intro i
    rw [← mem_nonzero, h, List.mem_cons]
    constructor
    · intro hi; exact ⟨fun e => hk (e ▸ hi), Or.inr hi⟩
    · rintro ⟨h1, h2 | h2⟩
      · exact absurd h2 h1
      · exact h2
  unfold measure chosen
  simp only [h]
  cases forced with
  | none =>
    simp only [Except.ok.injEq, Prod.mk.injEq, and_true]
    apply Tab.ext
    · funext i
      by_cases hi : i = k
      · subst hi; simp [randTab, hk]
      · simp [randTab, Function.update, hi, mem_nonzero]
    · funext i
      by_cases hi : i = k
      · subst hi; simp [randTab]
      · simp [randTab, Function.update, hi, hmem]
  | some v =>
    simp only
    split_ifs with h0 h1
    · simp only [Except.ok.injEq, Prod.mk.injEq, and_true]
      apply Tab.ext
      · funext i
        by_cases hi : i = k
        · subst hi; simp [randTab, hk]
        · simp [randTab, Function.update, hi, mem_nonzero]
      · funext i
        by_cases hi : i = k
        · subst hi; simp [randTab]
        · simp [randTab, Function.update, hi, hmem]
    · simp only [Except.ok.injEq, Prod.mk.injEq, and_true]
      apply Tab.ext
      · funext i
        by_cases hi : i = k
        · subst hi; simp [randTab, hk]
        · simp [randTab, Function.update, hi, mem_nonzero]
      · funext i
        by_cases hi : i = k
        · subst hi; simp [randTab]
        · simp [randTab, Function.update, hi, hmem]
    · rfl

/-- Pivot facts. -/
theorem pivot_anti {T : Tab n} {m : Op n} {k : Fin n} {others : List (Fin n)}
    (h : nonzero T.s m = k :: others) : anti (T.s k) m = true := by
  rw [← mem_nonzero, h]; simp

theorem anti_flip (m : Op n) (b : Bool) (a : Op n) : anti a { m with r := b } = anti a m := rfl

theorem randTab_semi {T : Tab n} (hT : T.SemiValid) {m : Op n} {k : Fin n} (hk : anti (T.s k) m = true) (out : Bool) :
    (randTab T m k out).SemiValid := by
  obtain ⟨h1, h2⟩ := (semiValid_iff T).mp hT
  have h2' : ∀ i j, anti (T.s j) (T.d i) = decide (i = j) := fun i j => by rw [anti_symm, h2]
  rw [semiValid_iff]
  constructor
  · intro i j
    by_cases hi : i = k <;> by_cases hj : j = k
    · subst hi hj; simp [randTab]
    · subst hi
      simp only [randTab, hj, if_true, if_false]
      rw [anti_symm, anti_flip]
      cases hb : anti (T.s j) m <;> simp [anti_mul_left, hb, hk]
    · subst hj
      simp only [randTab, hi, if_true, if_false]
      rw [anti_flip]
      cases hb : anti (T.s i) m <;> simp [anti_mul_left, hb, hk]
    · simp only [randTab, hi, hj, if_false]
      cases anti (T.s i) m <;> cases anti (T.s j) m <;> simp [anti_mul_left, anti_mul_right, h1]
  · intro i j
    by_cases hi : i = k <;> by_cases hj : j = k
    · subst hi hj; simp only [randTab, if_true]; rw [anti_flip, hk]; simp
    · subst hi
      have hij : i ≠ j := fun h => hj h.symm
      simp only [randTab, hj, if_true, if_false]
      cases hb : anti (T.s j) m <;> simp [anti_mul_right, h1, hij]
    · subst hj
      simp only [randTab, hi, if_true, if_false]
      rw [anti_flip]
      cases hb : anti (T.d i) m <;> simp [anti_mul_left, hb, hk, hi]
    · simp only [randTab, hi, hj, if_false]
      cases anti (T.d i) m <;> cases anti (T.s j) m <;>
        simp [anti_mul_left, anti_mul_right, h1, h2, hi]

theorem randTab_valid {T : Tab n} (hT : T.Valid) {m : Op n} {k : Fin n} (hk : anti (T.s k) m = true) (out : Bool) :
    (randTab T m k out).Valid := by
  obtain ⟨h1, h2, h3⟩ := (valid_iff T).mp hT
  have h2' : ∀ i j, anti (T.s j) (T.d i) = decide (i = j) := fun i j => by rw [anti_symm, h2]
  obtain ⟨g1, g2⟩ := (semiValid_iff _).mp (randTab_semi hT.semi hk out)
  rw [valid_iff]
  refine ⟨g1, g2, ?_⟩
  intro i j
  by_cases hi : i = k <;> by_cases hj : j = k
  · subst hi hj; simp [randTab]
  · subst hi
    simp only [randTab, hj, if_true, if_false]
    cases hb : anti (T.d j) m <;> simp [anti_mul_right, h2', hj]
  · subst hj
    simp only [randTab, hi, if_true, if_false]
    cases hb : anti (T.d i) m <;> simp [anti_mul_left, h2, hi]
  · simp only [randTab, hi, hj, if_false]
    cases anti (T.d i) m <;> cases anti (T.d j) m <;>
      simp [anti_mul_left, anti_mul_right, h2, h2', h3, hi, hj]

theorem opMat_flip (m : Op n) (out : Bool) : opMat { m with r := m.r ^^ out } = sgn out • opMat m := by
  simp only [opMat, sgn_xor, smul_smul, mul_comm]

theorem projector_stab (m : Op n) (out : Bool) :
    opMat { m with r := m.r ^^ out } * projector m out = projector m out := by
  rw [opMat_flip, projector, Matrix.mul_smul, Matrix.mul_add, Matrix.mul_one, Matrix.smul_mul, Matrix.mul_smul,
    opMat_sq, smul_smul, sgn_mul_self, one_smul, add_comm]

theorem projector_comm {p m : Op n} (h : anti p m = false) (out : Bool) :
    opMat p * projector m out = projector m out * opMat p := by
  have := opMat_comm p m
  rw [h, sgn_false, one_smul] at this
  simp only [projector, Matrix.mul_smul, Matrix.smul_mul, Matrix.mul_add, Matrix.add_mul, Matrix.mul_one,
    Matrix.one_mul, this]

theorem projector_anti {p m : Op n} (h : anti p m = true) (out : Bool) :
    opMat p * projector m out = projector m (!out) * opMat p := by
  have := opMat_comm p m
  rw [h] at this
  have e : sgn (!out) = -sgn out := by cases out <;> simp [sgn]
  simp only [projector, Matrix.mul_smul, Matrix.smul_mul, Matrix.mul_add, Matrix.add_mul, Matrix.mul_one,
    Matrix.one_mul, this, e, smul_smul]
  simp

theorem projector_add (m : Op n) : projector m false + projector m true = 1 := by
  simp only [projector, sgn_false, sgn_true]
  rw [← smul_add]
  ext i j
  simp
  ring

theorem projector_sq (m : Op n) (out : Bool) : projector m out * projector m out = projector m out := by
  have h := projector_stab m out
  rw [opMat_flip] at h
  conv_lhs => lhs; rw [projector]
  rw [Matrix.smul_mul, Matrix.add_mul, Matrix.one_mul, h, ← two_smul ℂ, smul_smul]
  norm_num

theorem projector_conjTranspose (m : Op n) (out : Bool) : (projector m out)ᴴ = projector m out := by
  rw [projector, conjTranspose_smul, conjTranspose_add, conjTranspose_one, conjTranspose_smul, opMat_conjTranspose]
  cases out <;> simp [sgn]

/-- squared norm as an inner product -/
theorem normSq_eq (ψ : Vec n) : (normSq ψ : ℂ) = star ψ ⬝ᵥ ψ := by
  simp only [normSq, dotProduct, Complex.ofReal_sum]
  apply Finset.sum_congr rfl
  intro b _
  rw [Pi.star_apply, Complex.normSq_eq_conj_mul_self]
  rfl

theorem normSq_mulVec (A : Mat n) (ψ : Vec n) : (normSq (A *ᵥ ψ) : ℂ) = star ψ ⬝ᵥ ((Aᴴ * A) *ᵥ ψ) := by
  rw [normSq_eq, Matrix.star_mulVec, ← Matrix.dotProduct_mulVec, Matrix.mulVec_mulVec]

theorem normSq_pos {ψ : Vec n} (h : ψ ≠ 0) : 0 < normSq ψ := by
  obtain ⟨b, hb⟩ := Function.ne_iff.mp h
  unfold normSq
  apply Finset.sum_pos'
  · intro i _; exact Complex.normSq_nonneg _
  · exact ⟨b, Finset.mem_univ _, Complex.normSq_pos.mpr hb⟩

/-- The two outcomes of any measurement have total weight `‖ψ‖²`. -/
theorem normSq_projector_add (m : Op n) (ψ : Vec n) :
    normSq (projector m false *ᵥ ψ) + normSq (projector m true *ᵥ ψ) = normSq ψ := by
  have h : ((normSq (projector m false *ᵥ ψ) + normSq (projector m true *ᵥ ψ) : ℝ) : ℂ) = (normSq ψ : ℂ) := by
    push_cast
    rw [normSq_mulVec, normSq_mulVec, projector_conjTranspose, projector_conjTranspose, projector_sq, projector_sq,
      ← dotProduct_add, ← Matrix.add_mulVec, projector_add, Matrix.one_mulVec, normSq_eq]
  exact_mod_cast h

/-- Operators preserve the norm. -/
theorem normSq_opMat (p : Op n) (ψ : Vec n) : normSq (opMat p *ᵥ ψ) = normSq ψ := by
  have h : (normSq (opMat p *ᵥ ψ) : ℂ) = (normSq ψ : ℂ) := by
    rw [normSq_mulVec, opMat_conjTranspose, opMat_sq, Matrix.one_mulVec, normSq_eq]
  exact_mod_cast h

/-- If a stabiliser anticommutes with `m`, both outcomes have weight one half. -/
theorem normSq_projector_half {p m : Op n} (h : anti p m = true) {ψ : Vec n} (hp : Stabilises p ψ) (out : Bool) :
    normSq (projector m out *ᵥ ψ) = normSq ψ / 2 := by
  have key : ∀ o, normSq (projector m (!o) *ᵥ ψ) = normSq (projector m o *ᵥ ψ) := by
    intro o
    have : projector m (!o) *ᵥ ψ = opMat p *ᵥ (projector m o *ᵥ ψ) := by
      rw [Matrix.mulVec_mulVec, projector_anti h, ← Matrix.mulVec_mulVec, hp]
    rw [this, normSq_opMat]
  have h1 := normSq_projector_add m ψ
  have h2 := key false
  simp only [Bool.not_false] at h2
  cases out
  · linarith
  · linarith

theorem randTab_represents {T : Tab n} (hT : T.SemiValid) {m : Op n} {k : Fin n} (hk : anti (T.s k) m = true)
    (out : Bool) {ψ : Vec n} (hψ : T.Represents ψ) : (randTab T m k out).Represents (projector m out *ᵥ ψ) := by
  obtain ⟨h1, h2⟩ := (semiValid_iff T).mp hT
  constructor
  · intro h0
    have := normSq_projector_half hk (hψ.2 k) out
    rw [h0] at this
    have h0' : normSq (0 : Vec n) = 0 := by simp [normSq]
    have := normSq_pos hψ.1
    linarith
  · intro i
    unfold Stabilises
    rw [Matrix.mulVec_mulVec]
    by_cases hi : i = k
    · subst hi
      simp only [randTab, if_true]
      rw [projector_stab]
    · simp only [randTab, hi, if_false]
      cases hb : anti (T.s i) m
      · simp only [Bool.false_eq_true, if_false]
        rw [projector_comm hb, ← Matrix.mulVec_mulVec, hψ.2 i]
      · simp only [if_true]
        rw [projector_comm (by rw [anti_mul_left, hk, hb]; rfl), ← Matrix.mulVec_mulVec,
          stabilises_mul (h1 _ _) (hψ.2 k) (hψ.2 i)]

/-! ### Deterministic branch -/

theorem scratch_facts {T : Tab n} (hT : T.SemiValid) (l : List (Fin n)) (hl : l.Nodup) (acc : Op n)
    (hacc : ∀ i, anti acc (T.s i) = false) :
    let r := l.foldl (fun acc i => mulOp acc (T.s i)) acc
    (∀ i, anti r (T.s i) = false) ∧ (∀ j, anti (T.d j) r = (anti (T.d j) acc ^^ decide (j ∈ l))) ∧
    (∀ ψ : Vec n, Stabilises acc ψ → (∀ i, Stabilises (T.s i) ψ) → Stabilises r ψ) := by
  obtain ⟨h1, h2⟩ := (semiValid_iff T).mp hT
  induction l generalizing acc with
  | nil => exact ⟨hacc, by simp, fun ψ h _ => h⟩
  | cons a l ih =>
    have hnd := List.nodup_cons.mp hl
    have := ih hnd.2 (mulOp acc (T.s a)) (fun i => by rw [anti_mul_left, hacc, h1]; rfl)
    obtain ⟨g1, g2, g3⟩ := this
    refine ⟨g1, ?_, ?_⟩
    · intro j
      simp only [List.foldl_cons]
      rw [g2, anti_mul_right, h2]
      by_cases hja : j = a
      · subst hja; simp [hnd.1]
      · simp [hja]
    · intro ψ ha hs
      exact g3 ψ (stabilises_mul (hacc a) ha (hs a)) hs

theorem measure_det {T : Tab n} {m : Op n} (h : nonzero T.s m = []) (hd : nonzero T.d m ≠ [])
    (forced : Option Int) (draw : Bool) :
    measure T m forced draw =
      .ok (T, decide (((nonzero T.d m).foldl (fun acc i => mulOp acc (T.s i)) (idOp n)).r ≠ m.r)) := by
  unfold measure
  simp only [h]
  cases hh : nonzero T.d m with
  | nil => exact absurd hh hd
  | cons a l => rfl

theorem measure_det_sem {T : Tab n} (hT : T.SemiValid) {m : Op n} (h : nonzero T.s m = [])
    {ψ : Vec n} (hψ : T.Represents ψ) :
    opMat m *ᵥ ψ = sgn (decide (((nonzero T.d m).foldl (fun acc i => mulOp acc (T.s i)) (idOp n)).r ≠ m.r)) • ψ := by
  obtain ⟨g1, g2, g3⟩ := scratch_facts hT (nonzero T.d m) (nonzero_nodup _ _) (idOp n) (by simp)
  set r := (nonzero T.d m).foldl (fun acc i => mulOp acc (T.s i)) (idOp n) with hr
  have hst := g3 ψ (stabilises_id ψ) hψ.2
  have hbits := bits_eq_of_anti hT m r
    (fun i => by rw [(nonzero_eq_nil _ _).mp h i, anti_symm, g1])
    (fun i => by
      rw [g2, anti_symm (T.d i) (idOp n), anti_idOp, Bool.false_xor]
      cases hb : anti (T.d i) m
      · simp [mem_nonzero, hb]
      · simp [mem_nonzero, hb])
  have hm : opMat m = sgn (decide (r.r ≠ m.r)) • opMat r := by
    simp only [opMat, hbits.1, hbits.2, smul_smul]
    congr 1
    cases r.r <;> cases m.r <;> simp [sgn]
  rw [hm, Matrix.smul_mulVec, hst]

theorem nonzero_d_ne_nil {T : Tab n} (hT : T.SemiValid) {m : Op n} (hm : ¬ m.IsScalar) (h : nonzero T.s m = []) :
    nonzero T.d m ≠ [] := by
  intro hd
  exact hm (scalar_of_commutes hT m ((nonzero_eq_nil _ _).mp h) ((nonzero_eq_nil _ _).mp hd))

theorem sgn_smul_inj {a b : Bool} {ψ : Vec n} (h0 : ψ ≠ 0) (h : sgn a • ψ = sgn b • ψ) : a = b := by
  apply sgn_inj
  have : (sgn a - sgn b) • ψ = 0 := by rw [sub_smul, h, sub_self]
  rcases smul_eq_zero.mp this with h1 | h1
  · exact sub_eq_zero.mp h1
  · exact absurd h1 h0

/-- If the represented vector is an eigenvector of `m`, the measurement is deterministic with that outcome. -/
theorem measure_of_eigen {T : Tab n} (hT : T.SemiValid) {m : Op n} (hm : ¬ m.IsScalar) {ψ : Vec n}
    (hψ : T.Represents ψ) {out : Bool} (h : opMat m *ᵥ ψ = sgn out • ψ) (forced : Option Int) (draw : Bool) :
    measure T m forced draw = .ok (T, out) := by
  have hn : nonzero T.s m = [] := by
    rw [nonzero_eq_nil]
    intro i
    by_contra hc
    have hc : anti (T.s i) m = true := by simpa using hc
    have e : opMat (T.s i) *ᵥ (opMat m *ᵥ ψ) = -(opMat m *ᵥ (opMat (T.s i) *ᵥ ψ)) := by
      rw [Matrix.mulVec_mulVec, opMat_comm, hc, Matrix.smul_mulVec, Matrix.mulVec_mulVec]; simp
    have hs := hψ.2 i
    unfold Stabilises at hs
    rw [hs, h, Matrix.mulVec_smul, hs] at e
    have e' : sgn out • ψ = sgn (!out) • ψ := by
      rw [e]; cases out <;> simp [sgn]
    have := sgn_smul_inj hψ.1 e'
    simp at this
  rw [measure_det hn (nonzero_d_ne_nil hT hm hn)]
  have := measure_det_sem hT hn hψ
  rw [h] at this
  rw [sgn_smul_inj hψ.1 this]

/-- Every successful measurement: either nothing changes or the tableau is `randTab`. -/
theorem measure_cases {T T' : Tab n} {m : Op n} {forced : Option Int} {draw out : Bool}
    (h : measure T m forced draw = .ok (T', out)) :
    (nonzero T.s m = [] ∧ nonzero T.d m ≠ [] ∧ T' = T ∧
      out = decide (((nonzero T.d m).foldl (fun acc i => mulOp acc (T.s i)) (idOp n)).r ≠ m.r)) ∨
    (∃ k others, nonzero T.s m = k :: others ∧ chosen forced draw = .ok out ∧ T' = randTab T m k out) := by
  cases hn : nonzero T.s m with
  | nil =>
    left
    by_cases hd : nonzero T.d m = []
    · unfold measure at h; simp only [hn, hd] at h; exact absurd h (by simp)
    · rw [measure_det hn hd] at h
      simp only [Except.ok.injEq, Prod.mk.injEq] at h
      exact ⟨rfl, hd, h.1.symm, h.2.symm⟩
  | cons k others =>
    right
    refine ⟨k, others, rfl, ?_⟩
    rw [measure_random hn] at h
    cases hc : chosen forced draw with
    | error e => rw [hc] at h; exact absurd h (by simp)
    | ok o =>
      rw [hc] at h
      simp only [Except.ok.injEq, Prod.mk.injEq] at h
      exact ⟨by rw [h.2], by rw [← h.1, ← h.2]⟩

theorem measure_valid {T T' : Tab n} {m : Op n} {forced : Option Int} {draw out : Bool} (hT : T.Valid)
    (h : measure T m forced draw = .ok (T', out)) : T'.Valid := by
  rcases measure_cases h with ⟨_, _, rfl, _⟩ | ⟨k, o, hn, _, rfl⟩
  · exact hT
  · exact randTab_valid hT (pivot_anti hn) _

theorem measure_semi {T T' : Tab n} {m : Op n} {forced : Option Int} {draw out : Bool} (hT : T.SemiValid)
    (h : measure T m forced draw = .ok (T', out)) : T'.SemiValid := by
  rcases measure_cases h with ⟨_, _, rfl, _⟩ | ⟨k, o, hn, _, rfl⟩
  · exact hT
  · exact randTab_semi hT (pivot_anti hn) _

theorem projector_of_eigen {m : Op n} {ψ : Vec n} {out : Bool} (h : opMat m *ᵥ ψ = sgn out • ψ) :
    projector m out *ᵥ ψ = ψ := by
  rw [projector, Matrix.smul_mulVec, Matrix.add_mulVec, Matrix.one_mulVec, Matrix.smul_mulVec, h, smul_smul,
    sgn_mul_self, one_smul, ← two_smul ℂ, smul_smul]
  norm_num

/-- In all cases the new tableau represents the projected vector. -/
theorem measure_represents {T T' : Tab n} {m : Op n} {forced : Option Int} {draw out : Bool} (hT : T.SemiValid)
    (h : measure T m forced draw = .ok (T', out)) {ψ : Vec n} (hψ : T.Represents ψ) :
    T'.Represents (projector m out *ᵥ ψ) := by
  rcases measure_cases h with ⟨hn, _, rfl, ho⟩ | ⟨k, o, hn, _, rfl⟩
  · have := measure_det_sem hT hn hψ
    rw [← ho] at this
    rw [projector_of_eigen this]; exact hψ
  · exact randTab_represents hT (pivot_anti hn) _ hψ

theorem app_valid {T : Tab n} (hT : T.Valid) (G : CGate n) (hG : G.Ok) : (G.app T).Valid := by
  obtain ⟨h1, h2, h3⟩ := (valid_iff T).mp hT
  rw [valid_iff]
  exact ⟨fun i j => (anti_row G hG _ _).trans (h1 i j), fun i j => (anti_row G hG _ _).trans (h2 i j),
    fun i j => (anti_row G hG _ _).trans (h3 i j)⟩

theorem app_semi {T : Tab n} (hT : T.SemiValid) (G : CGate n) (hG : G.Ok) : (G.app T).SemiValid := by
  obtain ⟨h1, h2⟩ := (semiValid_iff T).mp hT
  rw [semiValid_iff]
  exact ⟨fun i j => (anti_row G hG _ _).trans (h1 i j), fun i j => (anti_row G hG _ _).trans (h2 i j)⟩

theorem app_represents {T : Tab n} (G : CGate n) (hG : G.Ok) {ψ : Vec n} (hψ : T.Represents ψ) :
    (G.app T).Represents (G.unitary *ᵥ ψ) := by
  constructor
  · intro h
    apply hψ.1
    calc ψ = (G.unitaryᴴ * G.unitary) *ᵥ ψ := by rw [unitary_unitary G hG, Matrix.one_mulVec]
      _ = 0 := by rw [← Matrix.mulVec_mulVec, h, Matrix.mulVec_zero]
  · intro i
    show opMat (G.row (T.s i)) *ᵥ (G.unitary *ᵥ ψ) = _
    rw [Matrix.mulVec_mulVec, ← gate_conj G hG, ← Matrix.mulVec_mulVec, hψ.2 i]

theorem zeroState_valid (n : Nat) : (zeroState n).Valid := by
  rw [valid_iff]
  refine ⟨fun i j => ?_, fun i j => ?_, fun i j => ?_⟩
  · simp [anti, zeroState, bit]
  · unfold anti
    simp only [zeroState, bit]
    by_cases h : i = j
    · subst h; simp
    · have : ∀ q, (if decide (i = q) = true then 1 else 0) * (if decide (j = q) = true then 1 else 0) = 0 := by
        intro q
        by_cases h1 : i = q
        · have : j ≠ q := fun e => h (h1.trans e.symm)
          simp [this]
        · simp [h1]
      simp [h]
  · simp [anti, zeroState, bit]

theorem singleOp_not_scalar (neg : Bool) (l : Letter) (q : Fin n) : ¬ (singleOp neg l q).IsScalar := by
  rintro ⟨h1, h2⟩
  have a := h1 q
  have b := h2 q
  cases l <;> simp [singleOp] at a b

end Plaquette
