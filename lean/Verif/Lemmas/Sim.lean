import Verif.Spec.Sim
import Verif.Lemmas.Reset
import Verif.Lemmas.Circuit

/-!
# The tableau simulator follows the state vector
-/

namespace Plaquette
open Matrix
variable {F : Type} {n : Nat}

theorem opMat_Z (q : Fin n) (a b : Basis n) :
    opMat (singleOp false .Z q) a b = if a = b then sgn (b q) else 0 := by
  have e1 : (Letter.Z == Letter.X || Letter.Z == Letter.Y) = false := rfl
  have e2 : (Letter.Z == Letter.Z || Letter.Z == Letter.Y) = true := rfl
  simp only [opMat, Matrix.smul_apply, sgn_false, one_smul, singleOp, pauliMat, tensor, e1, e2, Bool.and_false,
    Bool.and_true]
  split
  · rename_i h
    subst h
    rw [Finset.prod_eq_single q]
    · cases h : a q <;> simp [sigma, sgn]
    · intro i _ hi; simp [hi, sigma]
    · simp
  · rename_i h
    obtain ⟨i, hi⟩ := Function.ne_iff.mp h
    apply Finset.prod_eq_zero (Finset.mem_univ i)
    by_cases hq : i = q
    · subst hq; simp [sigma, hi]
    · simp [hq, sigma, hi]

theorem projZ_eq (q : Fin n) (out : Bool) : projZ q out = projector (singleOp false .Z q) out := by
  funext a b
  rw [projector]
  simp only [Matrix.smul_apply, Matrix.add_apply, projZ, Matrix.one_apply, smul_eq_mul, opMat_Z]
  by_cases h : a = b
  · subst h
    cases hq : a q <;> cases out <;> simp [sgn] <;> norm_num
  · simp [h]

/-- The simulator is in the given state. -/
def Sim.Is (S : Sim n) (σ : VState n) : Prop :=
  S.tab.Valid ∧ S.tab.Represents σ.ψ ∧ S.pos = σ.pos ∧ S.meas = σ.meas ∧ S.erasure = σ.erasure

/-- The flags of the error block. -/
def Sim.flags (S : Sim n) : Bool × Bool × Bool := (S.inError, S.anyApplied, S.applyBranch)

theorem appAll_valid {T : Tab n} (hT : T.Valid) (Gs : List (CGate n)) (h : ∀ G ∈ Gs, G.Ok) : (appAll Gs T).Valid := by
  unfold appAll
  induction Gs generalizing T with
  | nil => exact hT
  | cons G Gs ih => exact ih (app_valid hT G (h G (by simp))) fun G' h' => h G' (List.mem_cons_of_mem _ h')

theorem appAll_represents {T : Tab n} {ψ : Vec n} (hT : T.Represents ψ) (Gs : List (CGate n)) (h : ∀ G ∈ Gs, G.Ok) :
    (appAll Gs T).Represents (evolve Gs ψ) := by
  unfold appAll evolve
  induction Gs generalizing T ψ with
  | nil => exact hT
  | cons G Gs ih => exact ih (app_represents G (h G (by simp)) hT) fun G' h' => h G' (List.mem_cons_of_mem _ h')

theorem gates_is {S : Sim n} {σ : VState n} (h : S.Is σ) (Gs : List (CGate n)) (hG : ∀ G ∈ Gs, G.Ok) :
    (S.gates Gs).Is { σ with ψ := evolve Gs σ.ψ } :=
  ⟨appAll_valid h.1 Gs hG, appAll_represents h.2.1 Gs hG, h.2.2.1, h.2.2.2.1, h.2.2.2.2⟩

/-- One measurement step. -/
theorem measure_step (rng : Rng F) {T T' : Tab n} {q : Fin n} {out : Bool} {σ : VState n} (hv : T.Valid)
    (hr : T.Represents σ.ψ)
    (h : measure T (singleOp false .Z q) none (rng.bit σ.pos) = .ok (T', out)) :
    ∃ σ1, VMeas rng q σ out σ1 ∧ T'.Valid ∧ T'.Represents σ1.ψ ∧
      σ1.pos = (if nonzero T.s (singleOp false .Z q) = [] then σ.pos else σ.pos + 1) ∧
      σ1.meas = σ.meas ∧ σ1.erasure = σ.erasure := by
  have hv' := measure_valid hv h
  have hr' := measure_represents hv.semi h hr
  rcases measure_cases h with ⟨hn, hd, hT, ho⟩ | ⟨k, o, hn, hc, hT⟩
  · have he := measure_det_sem hv.semi hn hr
    rw [← ho] at he
    have hp := projector_of_eigen he
    refine ⟨σ, .certain σ out (by rw [projZ_eq, hp]), hv', ?_, ?_, rfl, rfl⟩
    · rw [hp] at hr'; exact hr'
    · rw [if_pos hn]
  · simp only [chosen, Except.ok.injEq] at hc
    subst hc
    refine ⟨_, .random σ ?_, hv', ?_, ?_, rfl, rfl⟩
    · intro o
      rw [projZ_eq]
      exact normSq_projector_half (pivot_anti hn) (hr.2 k) o
    · simp only [projZ_eq]; exact hr'
    · simp [hn]

theorem measureAll_is (rng : Rng F) {S S' : Sim n} {σ : VState n} {qs : List (Fin n)} (h : S.Is σ)
    (hm : S.measureAll rng qs = .ok S') : ∃ σ', VMeasAll rng qs σ σ' ∧ S'.Is σ' ∧ S'.flags = S.flags := by
  induction qs generalizing S σ with
  | nil => simp only [Sim.measureAll, Except.ok.injEq] at hm; subst hm; exact ⟨σ, .nil σ, h, rfl⟩
  | cons q qs ih =>
    rw [Sim.measureAll] at hm
    unfold Sim.measureZ at hm
    obtain ⟨hv, hr, hpos, hmeas, her⟩ := h
    cases hM : measure S.tab (singleOp false .Z q) none (rng.bit S.pos) with
    | error e => simp [hM] at hm
    | ok r =>
      obtain ⟨T, out⟩ := r
      simp only [hM] at hm
      rw [hpos] at hM
      obtain ⟨σ1, h1, h2, h3, h4, h5, h6⟩ := measure_step rng hv hr hM
      have hI : Sim.Is { S with tab := T, meas := S.meas ++ [out], pos := if nonzero S.tab.s (singleOp false .Z q) = [] then S.pos else S.pos + 1 }
          { σ1 with meas := σ1.meas ++ [out] } :=
        ⟨h2, h3, by simp only [h4, hpos], by simp only [hmeas, h5], by simp only [her, h6]⟩
      obtain ⟨σ', k1, k2, k3⟩ := ih hI hm
      exact ⟨σ', .cons h1 k1, k2, k3⟩

theorem resetAll_is (rng : Rng F) {S S' : Sim n} {σ : VState n} {qs : List (Fin n)} (h : S.Is σ)
    (hm : S.resetAll rng qs = .ok S') : ∃ σ', VResetAll rng qs σ σ' ∧ S'.Is σ' ∧ S'.flags = S.flags := by
  induction qs generalizing S σ with
  | nil => simp only [Sim.resetAll, Except.ok.injEq] at hm; subst hm; exact ⟨σ, .nil σ, h, rfl⟩
  | cons q qs ih =>
    rw [Sim.resetAll] at hm
    obtain ⟨hv, hr, hpos, hmeas, her⟩ := h
    cases hR : resetOne false .Z S.tab q (rng.bit S.pos) with
    | error e => simp [hR] at hm
    | ok T' =>
      simp only [hR] at hm
      obtain ⟨T1, out, hM, hT⟩ := resetOne_ok hR
      rw [hpos] at hM
      obtain ⟨σ1, h1, h2, h3, h4, h5, h6⟩ := measure_step rng hv hr hM
      have hT' : T'.Valid ∧ T'.Represents (if out then (CGate.x q).unitary *ᵥ σ1.ψ else σ1.ψ) := by
        rcases hT with ⟨rfl, ho | ho⟩ | ⟨ho, G, hG, rfl⟩
        · subst ho; exact ⟨h2, by simpa using h3⟩
        · cases ho
        · subst ho
          simp only [fixGate, Option.some.injEq] at hG
          subst hG
          exact ⟨app_valid h2 _ trivial, by simpa using app_represents (CGate.x q) trivial h3⟩
      have hI : Sim.Is { S with tab := T', pos := if nonzero S.tab.s (singleOp false .Z q) = [] then S.pos else S.pos + 1 }
          { σ1 with ψ := if out then (CGate.x q).unitary *ᵥ σ1.ψ else σ1.ψ } :=
        ⟨hT'.1, hT'.2, by simp only [h4, hpos], by simp only [hmeas, h5], by simp only [her, h6]⟩
      obtain ⟨σ', k1, k2, k3⟩ := ih hI hm
      exact ⟨σ', .cons h1 k1, k2, k3⟩

theorem pauliNo_unitary (q : Fin n) : pauliNo q 0 = 1 ∧ pauliNo q 1 = (CGate.x q).unitary ∧
    pauliNo q 2 = (CGate.y q).unitary ∧ pauliNo q 3 = (CGate.z q).unitary := ⟨rfl, rfl, rfl, rfl⟩

theorem applyPauli_is {S S' : Sim n} {σ : VState n} (h : S.Is σ) (q : Fin n) (k : Fin 4)
    (hm : S.applyPauli q k.val = .ok S') : S'.Is (σ.pauli q k) ∧ S'.flags = S.flags := by
  match k with
  | 0 =>
    simp only [Sim.applyPauli, Fin.val_zero, Except.ok.injEq] at hm
    subst hm
    refine ⟨?_, rfl⟩
    have : σ.pauli q 0 = σ := by simp [VState.pauli, pauliNo]
    rw [this]; exact h
  | 1 =>
    simp only [Sim.applyPauli] at hm
    cases hm
    exact ⟨gates_is h [.x q] (by simp [CGate.Ok]), rfl⟩
  | 2 =>
    simp only [Sim.applyPauli] at hm
    cases hm
    exact ⟨gates_is h [.y q] (by simp [CGate.Ok]), rfl⟩
  | 3 =>
    simp only [Sim.applyPauli] at hm
    cases hm
    exact ⟨gates_is h [.z q] (by simp [CGate.Ok]), rfl⟩

theorem tick_is {S : Sim n} {σ : VState n} (h : S.Is σ) : ({ S with pos := S.pos + 1 } : Sim n).Is σ.tick :=
  ⟨h.1, h.2.1, by simp [VState.tick, h.2.2.1], h.2.2.2.1, h.2.2.2.2⟩

theorem depolarize_is (rng : Rng F) {S S' : Sim n} {σ : VState n} {qs : List (Fin n)} (h : S.Is σ)
    (hm : S.depolarize rng qs = .ok S') : S'.Is (σ.depolarize rng qs) ∧ S'.flags = S.flags := by
  induction qs generalizing S σ with
  | nil => simp only [Sim.depolarize, Except.ok.injEq] at hm; subst hm; exact ⟨h, rfl⟩
  | cons q qs ih =>
    rw [Sim.depolarize] at hm
    cases hp : ({ S with pos := S.pos + 1 } : Sim n).applyPauli q (1 + (rng.int3 S.pos).val) with
    | error e => simp [hp] at hm
    | ok S1 =>
      simp only [hp] at hm
      obtain ⟨k1, k2⟩ := applyPauli_is (tick_is h) q ⟨1 + (rng.int3 S.pos).val, by omega⟩ hp
      obtain ⟨k3, k4⟩ := ih k1 hm
      simp only [h.2.2.1] at k3
      exact ⟨k3, k4.trans k2⟩

theorem qubitOf_ok {v : Val F} {q : Fin n} (h : qubitOf n v = .ok q) : v = .int (q.val : Int) := by
  cases v with
  | int i =>
    simp only [qubitOf] at h
    split at h
    · split at h
      · simp only [Except.ok.injEq] at h
        subst h
        congr 1
        simp only
        omega
      · cases h
    · cases h
  | flt f => simp [qubitOf] at h
  | name m => simp [qubitOf] at h

theorem qubitsOf_ok {vs : List (Val F)} {qs : List (Fin n)} (h : qubitsOf n vs = .ok qs) : vs = qArgs qs := by
  induction vs generalizing qs with
  | nil => simp only [qubitsOf, Except.ok.injEq] at h; subst h; rfl
  | cons v vs ih =>
    rw [qubitsOf] at h
    cases h1 : qubitOf n v with
    | error e => simp [h1] at h
    | ok q =>
      cases h2 : qubitsOf n vs with
      | error e => simp [h1, h2] at h
      | ok qs' =>
        simp only [h1, h2, Except.ok.injEq] at h
        subst h
        rw [qubitOf_ok h1, ih h2]
        rfl

theorem qubitOf_int (q : Fin n) : qubitOf n (Val.int (q.val : Int) : Val F) = .ok q := by
  simp [qubitOf]

theorem qubitsOf_qArgs (qs : List (Fin n)) : qubitsOf n (qArgs qs : List (Val F)) = .ok qs := by
  induction qs with
  | nil => rfl
  | cons q qs ih =>
    unfold qArgs at *
    rw [List.map_cons, qubitsOf, qubitOf_int, ih]

theorem numOf_ok {api : FloatApi F} {v : Val F} {p : F} (h : numOf api v = .ok p) : ValIs api v p := by
  cases v with
  | int i => simp only [numOf, Except.ok.injEq] at h; exact Or.inr ⟨i, rfl, h.symm⟩
  | flt f => simp only [numOf, Except.ok.injEq] at h; exact Or.inl (by rw [h])
  | name m => simp [numOf] at h

theorem numsOf_ok {api : FloatApi F} {vs : List (Val F)} {ps : List F} (h : numsOf api vs = .ok ps) :
    List.Forall₂ (ValIs api) vs ps := by
  induction vs generalizing ps with
  | nil => simp only [numsOf, Except.ok.injEq] at h; subst h; exact .nil
  | cons v vs ih =>
    rw [numsOf] at h
    cases h1 : numOf api v with
    | error e => simp [h1] at h
    | ok q =>
      cases h2 : numsOf api vs with
      | error e => simp [h1, h2] at h
      | ok qs' =>
        simp only [h1, h2, Except.ok.injEq] at h
        subst h
        exact .cons (numOf_ok h1) (ih h2)

theorem pairs_args (args : List (Val F)) (hl : (odds args).length = (evens args).length) (cs ts : List (Fin n))
    (hc : qubitsOf n (evens args) = .ok cs) (ht : qubitsOf n (odds args) = .ok ts) : args = pairArgs (cs.zip ts) := by
  induction args using evens.induct generalizing cs ts with
  | case1 => simp [evens, odds, qubitsOf] at hc ht; subst hc ht; rfl
  | case2 a => simp [evens, odds] at hl
  | case3 a b l ih =>
    simp only [evens, odds, List.length_cons, Nat.add_right_cancel_iff] at hl hc ht
    rw [qubitsOf] at hc ht
    cases h1 : qubitOf n a with
    | error e => simp [h1] at hc
    | ok c =>
      cases h2 : qubitsOf n (evens l) with
      | error e => simp [h1, h2] at hc
      | ok cs' =>
        cases h3 : qubitOf n b with
        | error e => simp [h3] at ht
        | ok t =>
          cases h4 : qubitsOf n (odds l) with
          | error e => simp [h3, h4] at ht
          | ok ts' =>
            simp only [h1, h2, h3, h4, Except.ok.injEq] at hc ht
            subst hc ht
            have := ih hl cs' ts' h2 h4
            rw [List.zip_cons_cons, pairArgs, List.flatMap_cons, ← pairArgs, ← this, qubitOf_ok h1, qubitOf_ok h3]
            rfl

theorem pairsDiffer_args (ps : List (Fin n × Fin n)) (h : PairsDiffer (pairArgs ps : List (Val F))) :
    ∀ p ∈ ps, p.1 ≠ p.2 := by
  induction ps with
  | nil => simp
  | cons p ps ih =>
    have h' : PairsDiffer (Val.int (p.1.val : Int) :: Val.int (p.2.val : Int) :: pairArgs ps : List (Val F)) := h
    intro p' hp'
    rcases List.mem_cons.mp hp' with rfl | hp'
    · intro he
      exact h'.1 (by rw [he])
    · exact ih h'.2 p' hp'

theorem take_append_at {args : List (Val F)} {k : Nat} {v : Val F} (h : argAt args k = .ok v) :
    args = args.take k ++ v :: args.drop (k + 1) ∧ (args.take k).length = k := by
  unfold argAt at h
  split at h
  · rename_i v' hv
    simp only [Except.ok.injEq] at h
    subst h
    obtain ⟨hk, he⟩ := List.getElem?_eq_some_iff.mp hv
    refine ⟨?_, by simp; omega⟩
    conv_lhs => rw [← List.take_append_drop k args]
    rw [← he, ← List.drop_eq_getElem_cons hk]
  · cases h

/-- An unconditional instruction. -/
theorem handleGate_is (api : FloatApi F) (rng : Rng F) {S S' : Sim n} {σ : VState n} {name : Name} {args : List (Val F)}
    (h : S.Is σ) (hok : TwoOk name args) (hm : S.handleGate api rng name args = .ok S') :
    ∃ σ', VGate api rng name args σ σ' ∧ S'.Is σ' ∧ S'.flags = S.flags := by
  have one : ∀ (G : Fin n → CGate n), (∀ q, (G q).Ok) → S.oneQubit G args = .ok S' →
      ∃ qs : List (Fin n), args = qArgs qs ∧ S'.Is { σ with ψ := evolve (qs.map G) σ.ψ } ∧ S'.flags = S.flags := by
    intro G hG hm
    unfold Sim.oneQubit at hm
    cases hq : qubitsOf n args with
    | error e => simp [hq] at hm
    | ok qs =>
      simp only [hq, Except.ok.injEq] at hm
      subst hm
      refine ⟨qs, qubitsOf_ok hq, gates_is h _ ?_, rfl⟩
      intro G' hG'
      obtain ⟨q, _, rfl⟩ := List.mem_map.mp hG'
      exact hG q
  have two : ∀ (G : Fin n → Fin n → CGate n), (∀ c t, c ≠ t → (G c t).Ok) → PairsDiffer args →
      S.twoQubit G args = .ok S' →
      ∃ ps : List (Fin n × Fin n), args = pairArgs ps ∧
        S'.Is { σ with ψ := evolve (ps.map fun p => G p.1 p.2) σ.ψ } ∧ S'.flags = S.flags := by
    intro G hG hd hm
    unfold Sim.twoQubit at hm
    split at hm
    · cases hm
    · rename_i hl
      cases hc : qubitsOf n (evens args) with
      | error e => simp [hc] at hm
      | ok cs =>
        cases ht : qubitsOf n (odds args) with
        | error e => simp [hc, ht] at hm
        | ok ts =>
          simp only [hc, ht, Except.ok.injEq] at hm
          subst hm
          have he := pairs_args args (not_not.mp hl) cs ts hc ht
          refine ⟨cs.zip ts, he, gates_is h _ ?_, rfl⟩
          rw [he] at hd
          intro G' hG'
          obtain ⟨p, hp, rfl⟩ := List.mem_map.mp hG'
          exact hG _ _ (pairsDiffer_args _ hd p hp)
  unfold Sim.handleGate at hm
  cases name <;> simp only at hm
  case X => obtain ⟨qs, rfl, h1, h2⟩ := one _ (by simp [CGate.Ok]) hm; exact ⟨_, .x qs σ, h1, h2⟩
  case Y => obtain ⟨qs, rfl, h1, h2⟩ := one _ (by simp [CGate.Ok]) hm; exact ⟨_, .y qs σ, h1, h2⟩
  case Z => obtain ⟨qs, rfl, h1, h2⟩ := one _ (by simp [CGate.Ok]) hm; exact ⟨_, .z qs σ, h1, h2⟩
  case H => obtain ⟨qs, rfl, h1, h2⟩ := one _ (by simp [CGate.Ok]) hm; exact ⟨_, .h qs σ, h1, h2⟩
  case CX =>
    obtain ⟨ps, rfl, h1, h2⟩ := two _ (by simp [CGate.Ok]) (hok (Or.inl rfl)) hm
    exact ⟨_, .cx ps σ, h1, h2⟩
  case CZ =>
    obtain ⟨ps, rfl, h1, h2⟩ := two _ (by simp [CGate.Ok]) (hok (Or.inr rfl)) hm
    exact ⟨_, .cz ps σ, h1, h2⟩
  case M =>
    cases hq : qubitsOf n args with
    | error e => simp [hq] at hm
    | ok qs =>
      simp only [hq] at hm
      obtain ⟨σ', k1, k2, k3⟩ := measureAll_is rng h hm
      rw [qubitsOf_ok hq]
      exact ⟨σ', .m qs k1, k2, k3⟩
  case R =>
    cases hq : qubitsOf n args with
    | error e => simp [hq] at hm
    | ok qs =>
      simp only [hq] at hm
      obtain ⟨σ', k1, k2, k3⟩ := resetAll_is rng h hm
      rw [qubitsOf_ok hq]
      exact ⟨σ', .r qs k1, k2, k3⟩
  case DEPOLARIZE =>
    cases hq : qubitsOf n args with
    | error e => simp [hq] at hm
    | ok qs =>
      simp only [hq] at hm
      obtain ⟨k2, k3⟩ := depolarize_is rng h hm
      rw [qubitsOf_ok hq]
      exact ⟨_, .depolarize qs σ, k2, k3⟩
  case E_ERASE =>
    rcases args with _ | ⟨v, _ | ⟨qv, _ | ⟨w, rest⟩⟩⟩
    · cases hm
    · cases hm
    · simp only at hm
      cases hp : numOf api v with
      | error e => simp [hp] at hm
      | ok p =>
        simp only [hp] at hm
        have hv := numOf_ok hp
        cases he : rng.below S.pos p with
        | false =>
          simp only [he, Bool.false_eq_true, if_false, Except.ok.injEq] at hm
          subst hm
          refine ⟨_, .noErase hv qv σ (by rw [← h.2.2.1]; exact he), ?_, rfl⟩
          exact ⟨h.1, h.2.1, by simp [VState.tick, h.2.2.1], h.2.2.2.1, by simp [h.2.2.2.2]⟩
        | true =>
          simp only [he, if_true] at hm
          cases hq : qubitOf n qv with
          | error e => simp [hq] at hm
          | ok q =>
            simp only [hq] at hm
            rw [qubitOf_ok hq]
            have hI : Sim.Is { S with erasure := S.erasure ++ [true], pos := S.pos + 1 + 1 }
                { σ.tick.tick with erasure := σ.erasure ++ [true] } :=
              ⟨h.1, h.2.1, by simp [VState.tick, h.2.2.1], h.2.2.2.1, by simp [h.2.2.2.2]⟩
            obtain ⟨k1, k2⟩ := applyPauli_is hI q (rng.int4 (S.pos + 1)) hm
            rw [h.2.2.1] at k1
            exact ⟨_, .erase hv q σ (by rw [← h.2.2.1]; exact he), k1, k2⟩
    · cases hm
  case E_PAULI =>
    cases hps : numsOf api (args.take 3) with
    | error e => simp [hps] at hm
    | ok ps =>
      cases ha : argAt args 3 with
      | error e => simp [hps, ha] at hm
      | ok qv =>
        cases hc : rng.choice4 S.pos ps with
        | none => simp [hps, ha, hc] at hm
        | some k =>
          cases hq : qubitOf n qv with
          | error e => simp [hps, ha, hc, hq] at hm
          | ok q =>
            simp only [hps, ha, hc, hq] at hm
            obtain ⟨e1, e2⟩ := take_append_at ha
            obtain ⟨k1, k2⟩ := applyPauli_is (tick_is h) q k hm
            rw [qubitOf_ok hq] at e1
            rw [e1]
            exact ⟨_, .pauli (numsOf_ok hps) e2 q _ σ k (by rw [← h.2.2.1]; exact hc), k1, k2⟩
  case E_PAULI2 =>
    cases hps : numsOf api (args.take 15) with
    | error e => simp [hps] at hm
    | ok ps =>
      simp only [hps] at hm
      split at hm
      · cases hm
      · rename_i hl
        cases hc : rng.choice16 S.pos ps with
        | none => simp [hc] at hm
        | some k =>
          simp only [hc] at hm
          cases ha : argAt (args.drop 15) 0 with
          | error e => simp [ha] at hm
          | ok qv1 =>
            simp only [ha] at hm
            cases hq1 : qubitOf n qv1 with
            | error e => simp [hq1] at hm
            | ok q1 =>
              simp only [hq1] at hm
              cases hp1 : ({ S with pos := S.pos + 1 } : Sim n).applyPauli q1 (k.val / 4) with
              | error e => simp [hp1] at hm
              | ok S1 =>
                simp only [hp1] at hm
                cases hb : argAt (args.drop 15) 1 with
                | error e => simp [hb] at hm
                | ok qv2 =>
                  simp only [hb] at hm
                  cases hq2 : qubitOf n qv2 with
                  | error e => simp [hq2] at hm
                  | ok q2 =>
                    simp only [hq2] at hm
                    have f2 := numsOf_ok hps
                    have hlen : (args.take 15).length = 15 := by rw [f2.length_eq]; exact not_not.mp hl
                    obtain ⟨k1, k2⟩ := applyPauli_is (tick_is h) q1 ⟨k.val / 4, by omega⟩ hp1
                    obtain ⟨k3, k4⟩ := applyPauli_is k1 q2 ⟨k.val % 4, by omega⟩ hm
                    have e0 := (take_append_at ha).1
                    have e1 := (take_append_at hb).1
                    rw [qubitOf_ok hq1] at e0
                    rw [qubitOf_ok hq2] at e1
                    have e2 : args.drop 15 = Val.int (q1.val : Int) :: Val.int (q2.val : Int) :: (args.drop 15).drop 2 := by
                      simp only [List.take_zero, List.nil_append, Nat.zero_add] at e0
                      rw [e0] at e1
                      simp only [List.take_succ_cons, List.take_zero, List.cons_append, List.nil_append] at e1
                      rw [e1] at e0
                      exact e0.trans (by simp)
                    have e3 : args = args.take 15 ++ Val.int (q1.val : Int) :: Val.int (q2.val : Int) :: (args.drop 15).drop 2 := by
                      rw [← e2, List.take_append_drop]
                    rw [e3]
                    exact ⟨_, .pauli2 f2 hlen q1 q2 _ σ ⟨k.val / 4, by omega⟩ ⟨k.val % 4, by omega⟩ k
                      (by simp only; omega) (by rw [← h.2.2.1]; exact hc), k3, k4.trans k2⟩
  all_goals cases hm

end Plaquette
