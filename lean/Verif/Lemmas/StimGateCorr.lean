import Verif.Lemmas.StimCorr

/-!
# The meaning of the translation of each instruction
-/

open Matrix
open scoped ENNReal

namespace Plaquette
variable {n N : Nat}

theorem given_some {c : Prop} {α β : Type} {o : Option α} {f : α → β} {y : β} (h : given c o f = some y) : c ∧ ∃ x, o = some x ∧ f x = y := by
  unfold given at h
  split at h
  next hc =>
    rw [Option.map_eq_some_iff] at h
    exact ⟨hc, h⟩
  next => cases h

theorem given_eq {c : Prop} {α β : Type} {o : Option α} {f : α → β} {x : α} (hc : c) (ho : o = some x) : given c o f = some (f x) := by
  unfold given
  rw [if_pos hc, ho]
  rfl

theorem stimMeaning_one {i : SInstr ℝ} {J : SInstrument N} (h : stimMeaning N [i] = some J) : i.meaning N = some J := by
  simp only [stimMeaning] at h
  rcases hi : i.meaning N with _ | I
  · rw [hi] at h; simp at h
  · rw [hi] at h
    simp only [Option.some.injEq, SInstrument.andThen_nothing] at h
    rw [h]

theorem stimMeaning_cons {i : SInstr ℝ} {is : List (SInstr ℝ)} {J : SInstrument N} (h : stimMeaning N (i :: is) = some J) :
    ∃ J1 J2, i.meaning N = some J1 ∧ stimMeaning N is = some J2 ∧ J = J1.andThen J2 := by
  obtain ⟨J1, J2, h1, h2, h3⟩ := stimMeaning_append (is1 := [i]) h
  exact ⟨J1, J2, stimMeaning_one h1, h2, h3⟩

theorem qubitNo_lift (q : Fin n) : qubitNo (n + 1) (q.val : Int) = some q.castSucc := by
  unfold qubitNo
  rw [dif_pos ⟨by have := q.isLt; omega, by omega⟩]
  rfl

theorem qubitNo_last (n : Nat) : qubitNo (n + 1) (n : Int) = some (Fin.last n) := by
  unfold qubitNo
  rw [dif_pos ⟨by simp, by simp⟩]
  rfl

theorem mapE_qArgs (qs : List (Fin n)) : mapE stimQubit (qArgs qs : List (Val ℝ)) = .ok (qs.map fun q => (q.val : Int)) := by
  induction qs with
  | nil => rfl
  | cons q qs ih =>
    have ih : mapE (stimQubit (F := ℝ)) (List.map (fun q : Fin n => Val.int (q.val : Int)) qs) = .ok (qs.map fun q => (q.val : Int)) := ih
    simp [qArgs, mapE, stimQubit, ih]

theorem pairArgs_qArgs (ps : List (Fin n × Fin n)) : (pairArgs ps : List (Val ℝ)) = qArgs (ps.flatMap fun p => [p.1, p.2]) := by
  simp [pairArgs, qArgs, List.map_flatMap]

theorem plains_lift (qs : List (Fin n)) : plains (n + 1) ((qs.map fun q => (q.val : Int)).map .qubit) = some (qs.map Fin.castSucc) := by
  induction qs with
  | nil => rfl
  | cons q qs ih => simp only [List.map_cons, plains, STarget.plain, qubitNo_lift, ih]

theorem plainPairs_lift (ps : List (Fin n × Fin n)) (hp : ∀ p ∈ ps, p.1 ≠ p.2) :
    plainPairs (n + 1) (((ps.flatMap fun p => [p.1, p.2]).map fun q => (q.val : Int)).map .qubit) = some (ps.map fun p => (p.1.castSucc, p.2.castSucc)) := by
  induction ps with
  | nil => rfl
  | cons p ps ih =>
    have := ih fun p hp' => hp p (List.mem_cons_of_mem _ hp')
    have h1 : p.1.castSucc ≠ p.2.castSucc := by simpa using hp p (by simp)
    simp only [List.flatMap_cons, List.map_append, List.map_cons, List.map_nil, List.cons_append, List.nil_append, plainPairs, STarget.plain, qubitNo_lift, this, if_neg h1]

/-- The lengths of the records of the elementary instruments. -/
theorem len_gate (G : CGate n) : (Instrument.gate G).Len 0 0 := by
  intro b h
  simp only [Instrument.gate, List.mem_singleton] at h
  subst h
  exact ⟨rfl, rfl⟩

theorem len_measure (q : Fin n) : (Instrument.measure q).Len 1 0 := by
  intro b h
  simp only [Instrument.measure, List.mem_cons, List.not_mem_nil, or_false] at h
  rcases h with rfl | rfl <;> exact ⟨rfl, rfl⟩

theorem len_reset (q : Fin n) : (Instrument.reset q).Len 0 0 := by
  intro b h
  simp only [Instrument.reset, List.mem_cons, List.not_mem_nil, or_false] at h
  rcases h with rfl | rfl <;> exact ⟨rfl, rfl⟩

theorem len_maybe (p : ℝ) (A : Mat n) : (Instrument.maybe p A).Len 0 0 := by
  intro b h
  simp only [Instrument.maybe, List.mem_cons, List.not_mem_nil, or_false] at h
  rcases h with rfl | rfl <;> exact ⟨rfl, rfl⟩

theorem len_pauli (ps : List ℝ≥0∞) (q : Fin n) : (Instrument.pauli ps q).Len 0 0 := by
  intro b h
  obtain ⟨k, -, rfl⟩ := List.mem_map.1 h
  exact ⟨rfl, rfl⟩

theorem len_pauli2 (ps : List ℝ≥0∞) (q1 q2 : Fin n) : (Instrument.pauli2 ps q1 q2).Len 0 0 := by
  intro b h
  obtain ⟨k, -, rfl⟩ := List.mem_map.1 h
  exact ⟨rfl, rfl⟩

/-- Instruments one after the other, on one more qubit. -/
theorem corr_inOrder {α β : Type} (f : α → Instrument n) (g : β → Instrument (n + 1)) (c : α → β) (hfg : ∀ x, (f x).lift = g (c x)) {k : Nat} (hf : ∀ x, (f x).Len k 0) (xs : List α) :
    Corr (Instrument.inOrder (xs.map f)) (.keep (.inOrder ((xs.map c).map g))) (List.replicate (xs.length * k) false) := by
  have h := corr_keep (by simpa using Instrument.len_inOrder f hf xs)
  rw [Instrument.lift_inOrder, List.map_map] at h
  rw [List.map_map]
  have : Instrument.lift ∘ f = g ∘ c := funext hfg
  rwa [← this]

/-- One instrument, on one more qubit. -/
theorem corr_single {α : Type} (f : Instrument n) (g : α → Instrument (n + 1)) (x : α) (hfg : f.lift = g x) (hf : f.Len 0 0) : Corr f (.keep (.inOrder ([x].map g))) [] := by
  have h := corr_keep hf
  rw [hfg] at h
  have e : Instrument.inOrder ([x].map g) = g x := by
    simp [Instrument.inOrder, Instrument.andThen, Instrument.nothing]
  rw [e]
  exact h

theorem stimProb_valIs {api : FloatApi ℝ} {v : Val ℝ} {p : ℝ} (h : ValIs api v p) : stimProb api v = .ok p := by
  rcases h with rfl | ⟨i, rfl, rfl⟩ <;> rfl

theorem mapE_valIs {api : FloatApi ℝ} {vs : List (Val ℝ)} {ps : List ℝ} (h : List.Forall₂ (ValIs api) vs ps) : mapE (stimProb api) vs = .ok ps := by
  induction h with
  | nil => rfl
  | cons h _ ih => simp only [mapE, stimProb_valIs h, ih]

/-- One-qubit gates. -/
theorem corr_one (api : FloatApi ℝ) (nm : Name) (qs : List (Fin n)) (f : Fin n → Instrument n) (g : Fin (n + 1) → Instrument (n + 1)) (hfg : ∀ q, (f q).lift = g q.castSucc)
    {k : Nat} (hf : ∀ q, (f q).Len k 0) {is : List (SInstr ℝ)} {fl : List Bool} {J : SInstrument (n + 1)}
    (hs : stimGate api n ⟨nm, qArgs qs⟩ = .ok ([⟨nm.text, (qs.map fun q => (q.val : Int)).map .qubit, []⟩], List.replicate (qs.length * k) false))
    (hm : ∀ i : SInstr ℝ, i.name = nm.text → i.meaning (n + 1) = given (i.params = []) (plains (n + 1) i.targets) fun qs => .keep (.inOrder (qs.map g)))
    (h : stimGate api n ⟨nm, qArgs qs⟩ = .ok (is, fl)) (hJ : stimMeaning (n + 1) is = some J) : Corr (Instrument.inOrder (qs.map f)) J fl := by
  rw [hs] at h
  simp only [Except.ok.injEq, Prod.mk.injEq] at h
  obtain ⟨rfl, rfl⟩ := h
  have hJ := stimMeaning_one hJ
  rw [hm _ rfl, given_eq rfl (plains_lift qs), Option.some.injEq] at hJ
  subst hJ
  exact corr_inOrder f g Fin.castSucc hfg hf qs

/-- Two-qubit gates. -/
theorem corr_two (api : FloatApi ℝ) (nm : Name) (ps : List (Fin n × Fin n)) (hp : ∀ p ∈ ps, p.1 ≠ p.2) (f : Fin n × Fin n → Instrument n) (g : Fin (n + 1) × Fin (n + 1) → Instrument (n + 1))
    (hfg : ∀ p, (f p).lift = g (p.1.castSucc, p.2.castSucc)) (hf : ∀ q, (f q).Len 0 0) {is : List (SInstr ℝ)} {fl : List Bool} {J : SInstrument (n + 1)}
    (hs : stimGate api n ⟨nm, pairArgs ps⟩ = .ok ([⟨nm.text, ((ps.flatMap fun p => [p.1, p.2]).map fun q => (q.val : Int)).map .qubit, []⟩], []))
    (hm : ∀ i : SInstr ℝ, i.name = nm.text → i.meaning (n + 1) = given (i.params = []) (plainPairs (n + 1) i.targets) fun ps => .keep (.inOrder (ps.map g)))
    (h : stimGate api n ⟨nm, pairArgs ps⟩ = .ok (is, fl)) (hJ : stimMeaning (n + 1) is = some J) : Corr (Instrument.inOrder (ps.map f)) J fl := by
  rw [hs] at h
  simp only [Except.ok.injEq, Prod.mk.injEq] at h
  obtain ⟨rfl, rfl⟩ := h
  have hJ := stimMeaning_one hJ
  rw [hm _ rfl, given_eq rfl (plainPairs_lift ps hp), Option.some.injEq] at hJ
  subst hJ
  exact corr_inOrder f g _ hfg hf ps

/-- The weights of a chain of four correlated errors of a quarter of `p` each. -/
theorem chain_weights {p1 p2 p3 p4 p : ℝ} (h1 : p1 = equiProb (p / 4) 0) (h2 : p2 = equiProb (p / 4) 1) (h3 : p3 = equiProb (p / 4) 2) (h4 : p4 = equiProb (p / 4) 3)
    (hle : p ≤ 1) : p1 = p / 4 ∧ (1 - p1) * p2 = p / 4 ∧ (1 - p1) * ((1 - p2) * p3) = p / 4 ∧ (1 - p1) * ((1 - p2) * ((1 - p3) * p4)) = p / 4 ∧
      (1 - p1) * ((1 - p2) * ((1 - p3) * (1 - p4))) = 1 - p := by
  simp only [equiProb, Nat.cast_zero, zero_mul, sub_zero, div_one, Nat.cast_one, one_mul, Nat.cast_ofNat] at h1 h2 h3 h4
  have b2 : (1 : ℝ) - p / 4 ≠ 0 := by linarith
  have b3 : (1 : ℝ) - 2 * (p / 4) ≠ 0 := by linarith
  have b4 : (1 : ℝ) - 3 * (p / 4) ≠ 0 := by linarith
  have c2 : 1 - p2 = (1 - 2 * (p / 4)) / (1 - p / 4) := by rw [h2, eq_div_iff b2, sub_mul, div_mul_cancel₀ _ b2]; ring
  have c3 : 1 - p3 = (1 - 3 * (p / 4)) / (1 - 2 * (p / 4)) := by rw [h3, eq_div_iff b3, sub_mul, div_mul_cancel₀ _ b3]; ring
  have c4 : 1 - p4 = (1 - p) / (1 - 3 * (p / 4)) := by rw [h4, eq_div_iff b4, sub_mul, div_mul_cancel₀ _ b4]; ring
  refine ⟨h1, ?_, ?_, ?_, ?_⟩
  · rw [h1, h2, mul_div_cancel₀ _ b2]
  · rw [c2, h1, h3, div_mul_div_comm, mul_comm (1 - p / 4) (1 - 2 * (p / 4)), mul_div_mul_left _ _ b3, mul_div_cancel₀ _ b2]
  · rw [c3, h4, div_mul_div_comm, mul_comm (1 - 2 * (p / 4)) (1 - 3 * (p / 4)), mul_div_mul_left _ _ b4, c2, h1, div_mul_div_comm, mul_comm (1 - p / 4) (1 - 2 * (p / 4)),
      mul_div_mul_left _ _ b3, mul_div_cancel₀ _ b2]
  · rw [c3, c4, div_mul_div_comm, mul_comm (1 - 2 * (p / 4)) (1 - 3 * (p / 4)), mul_div_mul_left _ _ b4, c2, h1, div_mul_div_comm, mul_comm (1 - p / 4) (1 - 2 * (p / 4)),
      mul_div_mul_left _ _ b3, mul_div_cancel₀ _ b2]

theorem slen_correlated (p : ℝ) (A : Mat N) : (SInstrument.correlated p A).Len ([] : List Bool).length := by
  intro h b hb
  simp only [SInstrument.correlated, List.mem_cons, List.not_mem_nil, or_false] at hb
  rcases hb with rfl | rfl <;> rfl

theorem slen_elseCorrelated (p : ℝ) (A : Mat N) : (SInstrument.elseCorrelated p A).Len ([] : List Bool).length := by
  intro h b hb
  cases h
  · simp only [SInstrument.elseCorrelated, List.mem_cons, List.not_mem_nil, or_false] at hb
    rcases hb with rfl | rfl <;> rfl
  · simp only [SInstrument.elseCorrelated, List.mem_cons, List.not_mem_nil, or_false] at hb
    rcases hb with rfl
    rfl

theorem amp_correlated (p : ℝ) (A : Mat N) (W : Vec N → Bool → ℝ≥0∞) (h : Bool) (ψ : Vec N) :
    (SInstrument.correlated p A).amp W [] h ψ = .ofReal p * W (A *ᵥ ψ) true + .ofReal (1 - p) * W ψ false := by
  simp [SInstrument.amp, SInstrument.correlated]

theorem amp_elseCorrelated (p : ℝ) (A : Mat N) (W : Vec N → Bool → ℝ≥0∞) (ψ : Vec N) :
    (SInstrument.elseCorrelated p A).amp W [] false ψ = .ofReal p * W (A *ᵥ ψ) true + .ofReal (1 - p) * W ψ false ∧ (SInstrument.elseCorrelated p A).amp W [] true ψ = W ψ true := by
  simp [SInstrument.amp, SInstrument.elseCorrelated]

theorem slen_keep {I : Instrument N} {k : Nat} (h : I.Len k 0) : (SInstrument.keep I).Len k := by
  intro f b hb
  obtain ⟨x, hx, rfl⟩ := List.mem_map.1 hb
  exact (h x hx).1

/-- An instrument that records nothing. -/
theorem amp_silent {I J : SInstrument N} (hI : I.Len 0) (W : Vec N → Bool → ℝ≥0∞) (r : List Bool) (h : Bool) (ψ : Vec N) :
    (I.andThen J).amp W r h ψ = I.amp (fun φ h' => J.amp W r h' φ) [] h ψ := SInstrument.amp_andThen (r1 := []) hI W r h ψ

theorem amp_resetLast (W : Vec (n + 1) → Bool → ℝ≥0∞) (hW : ∀ h, W 0 h = 0) (h b : Bool) (ψ : Vec n) :
    (SInstrument.keep (Instrument.reset (Fin.last n))).amp W [] h (lift b ψ) = W (lift false ψ) h := by
  simp only [SInstrument.amp, SInstrument.keep, Instrument.reset, List.map_cons, List.map_nil, if_true, List.sum_cons, List.sum_nil, one_mul, add_zero, ← mulVec_mulVec, projZ_lift]
  cases b
  · simp [hW]
  · have : (CGate.x (Fin.last n)).unitary *ᵥ lift true ψ = lift false ψ := flip_lift true ψ
    simp [hW, this]

theorem amp_measureLast (W : Vec (n + 1) → Bool → ℝ≥0∞) (hW : ∀ h, W 0 h = 0) (f h b : Bool) (ψ : Vec n) :
    (SInstrument.keep (Instrument.measure (Fin.last n))).amp W [f] h (lift b ψ) = if b = f then W (lift b ψ) h else 0 := by
  simp only [SInstrument.amp, SInstrument.keep, Instrument.measure, List.map_cons, List.map_nil, List.sum_cons, List.sum_nil, one_mul, add_zero, projZ_lift]
  cases b <;> cases f <;> simp [hW]

theorem inOrder_one (I : Instrument N) : Instrument.inOrder [I] = I := by
  simp [Instrument.inOrder, Instrument.andThen, Instrument.nothing]

theorem factors_last (k : Fin 4) (q : Fin n) (t : Int → STarget) (ht : (t q.val).factor (n + 1) = some (pauliNo q.castSucc k)) :
    factors (n + 1) [.x (n : Int), t q.val] = some (pauliNo q.castSucc k * onQubit (Fin.last n) (sigma true false)) := by
  simp only [factors, ht, one_mul]
  simp only [STarget.factor, qubitNo_last]
  rfl

theorem factors_last' (n : Nat) : factors (n + 1) [.x (n : Int)] = some (onQubit (Fin.last n) (sigma true false)) := by
  simp only [factors, STarget.factor, qubitNo_last, Option.map_some, one_mul]
  rfl

theorem factor_mul_lift (q : Fin n) (k : Fin 4) (ψ : Vec n) : (pauliNo q.castSucc k * onQubit (Fin.last n) (sigma true false)) *ᵥ lift false ψ = lift true (pauliNo q k *ᵥ ψ) := by
  rw [← mulVec_mulVec, flip_lift, liftMat_pauliNo, liftMat_lift]
  rfl

theorem correlated_meaning {i : SInstr ℝ} {J : SInstrument N} {p : ℝ} (hi : i.name = "CORRELATED_ERROR".toList) (hp : i.params = [p]) (h : i.meaning N = some J) :
    0 ≤ p ∧ p ≤ 1 ∧ ∃ A, factors N i.targets = some A ∧ J = SInstrument.correlated p A := by
  rw [SInstr.meaning, hi] at h
  obtain ⟨h1, A, h2, h3⟩ := given_some (c := i.params.length = 1 ∧ IsDist i.params) (f := fun A => SInstrument.correlated (i.params.headD 0) A) h
  rw [hp] at h1 h3
  exact ⟨h1.2.1 p (by simp), by simpa using h1.2.2, A, h2, h3.symm⟩

theorem elseCorrelated_meaning {i : SInstr ℝ} {J : SInstrument N} {p : ℝ} (hi : i.name = "ELSE_CORRELATED_ERROR".toList) (hp : i.params = [p]) (h : i.meaning N = some J) :
    0 ≤ p ∧ p ≤ 1 ∧ ∃ A, factors N i.targets = some A ∧ J = SInstrument.elseCorrelated p A := by
  rw [SInstr.meaning, hi] at h
  obtain ⟨h1, A, h2, h3⟩ := given_some (c := i.params.length = 1 ∧ IsDist i.params) (f := fun A => SInstrument.elseCorrelated (i.params.headD 0) A) h
  rw [hp] at h1 h3
  exact ⟨h1.2.1 p (by simp), by simpa using h1.2.2, A, h2, h3.symm⟩

theorem resetLast_meaning {J : SInstrument (n + 1)} (h : SInstr.meaning (n + 1) ⟨"R".toList, [.qubit (n : Int)], []⟩ = some J) : J = .keep (.reset (Fin.last n)) := by
  obtain ⟨-, qs, h1, h2⟩ := given_some (c := ([] : List ℝ) = []) (o := plains (n + 1) [.qubit (n : Int)]) (f := fun qs => SInstrument.keep (Instrument.inOrder (qs.map .reset))) h
  simp only [plains, STarget.plain, qubitNo_last, Option.some.injEq] at h1
  rw [← h2, ← h1, List.map_cons, List.map_nil, inOrder_one]

theorem measureLast_meaning {J : SInstrument (n + 1)} (h : SInstr.meaning (n + 1) ⟨"M".toList, [.qubit (n : Int)], []⟩ = some J) : J = .keep (.measure (Fin.last n)) := by
  obtain ⟨-, qs, h1, h2⟩ := given_some (c := ([] : List ℝ) = []) (o := plains (n + 1) [.qubit (n : Int)]) (f := fun qs => SInstrument.keep (Instrument.inOrder (qs.map .measure))) h
  simp only [plains, STarget.plain, qubitNo_last, Option.some.injEq] at h1
  rw [← h2, ← h1, List.map_cons, List.map_nil, inOrder_one]

/-- The translation of an erasure. -/
theorem corr_erase {p : ℝ} (hp1 : p ≤ 1) (q : Fin n) {J : SInstrument (n + 1)}
    (hJ : stimMeaning (n + 1) (⟨"R".toList, [.qubit (n : Int)], []⟩ ::
      (appendEquiprobable (p / 4) 0 [[.x (n : Int), .x (q.val : Int)], [.x (n : Int), .y (q.val : Int)], [.x (n : Int), .z (q.val : Int)], [.x (n : Int)]] ++
        [⟨"M".toList, [.qubit (n : Int)], []⟩])) = some J) :
    Corr (Instrument.erase (ENNReal.ofReal p) q) J [true] := by
  obtain ⟨JR, JC, hR, hC, rfl⟩ := stimMeaning_cons hJ
  obtain ⟨J4, JM, hC0, hM, rfl⟩ := stimMeaning_append hC
  obtain rfl := resetLast_meaning hR
  obtain rfl := measureLast_meaning (stimMeaning_one hM)
  obtain ⟨E1, J1, h1, hC1, rfl⟩ := stimMeaning_cons hC0
  obtain ⟨E2, J2, h2, hC2, rfl⟩ := stimMeaning_cons hC1
  obtain ⟨E3, J3, h3, hC3, rfl⟩ := stimMeaning_cons hC2
  obtain ⟨E4, J5, h4, hC4, rfl⟩ := stimMeaning_cons hC3
  obtain rfl := Option.some.inj hC4
  clear hJ hC hC0 hC1 hC2 hC3 hC4 hR hM
  obtain ⟨a1, b1, A1, f1, rfl⟩ := correlated_meaning rfl rfl h1
  obtain ⟨a2, b2, A2, f2, rfl⟩ := elseCorrelated_meaning rfl rfl h2
  obtain ⟨a3, b3, A3, f3, rfl⟩ := elseCorrelated_meaning rfl rfl h3
  obtain ⟨a4, b4, A4, f4, rfl⟩ := elseCorrelated_meaning rfl rfl h4
  have f1 := Option.some.inj (f1.symm.trans (factors_last 1 q .x (by simp only [STarget.factor, qubitNo_lift, Option.map_some])))
  have f2 := Option.some.inj (f2.symm.trans (factors_last 2 q .y (by simp only [STarget.factor, qubitNo_lift, Option.map_some])))
  have f3 := Option.some.inj (f3.symm.trans (factors_last 3 q .z (by simp only [STarget.factor, qubitNo_lift, Option.map_some])))
  have f4 := Option.some.inj (f4.symm.trans (factors_last' n))
  subst f1 f2 f3 f4
  have key := chain_weights (p := p) rfl rfl rfl rfl hp1
  clear h1 h2 h3 h4
  generalize equiProb (p / 4) 0 = p1 at *
  generalize equiProb (p / 4) 1 = p2 at *
  generalize equiProb (p / 4) 2 = p3 at *
  generalize equiProb (p / 4) 3 = p4 at *
  obtain ⟨c1, c2, c3, c4, c5⟩ := key
  have hp0 : 0 ≤ p := by linarith
  rw [SInstrument.andThen_nothing]
  simp only [SInstrument.andThen_assoc]
  refine ⟨?_, ?_, ?_⟩
  · intro b hb
    simp only [Instrument.erase, List.mem_cons, List.mem_map] at hb
    rcases hb with rfl | ⟨k, -, rfl⟩ <;> exact ⟨rfl, rfl⟩
  · exact SInstrument.len_andThen (slen_keep (len_reset _)) (SInstrument.len_andThen (slen_correlated _ _) (SInstrument.len_andThen (slen_elseCorrelated _ _)
      (SInstrument.len_andThen (slen_elseCorrelated _ _) (SInstrument.len_andThen (slen_elseCorrelated _ _) (slen_keep (len_measure _))))))
  · intro W W' hW hW' r hr b h ψ
    have hW0 : ∀ h, W' 0 h = 0 := fun h => by rw [← lift_zero (n := n) false, hW', hW]
    obtain ⟨f, rfl⟩ := List.length_eq_one_iff.1 hr
    have amp0 : ∀ (J : SInstrument (n + 1)) (V : Vec (n + 1) → Bool → ℝ≥0∞), (∀ h, V 0 h = 0) → ∀ r h, J.amp V r h 0 = 0 := by
      intro J V hV r h
      unfold SInstrument.amp
      refine List.sum_eq_zero fun x hx => ?_
      obtain ⟨b, -, rfl⟩ := List.mem_map.1 hx
      rw [mulVec_zero, hV, mul_zero, ite_self]
    have hM : ∀ b h φ, (SInstrument.keep (Instrument.measure (Fin.last n))).amp W' [f] h (lift b φ) = if b = f then W φ else 0 := by
      intro b h φ
      rw [amp_measureLast W' hW0, hW']
    rw [amp_silent (slen_keep (len_reset _)), amp_resetLast _ fun h => amp0 _ _ hW0 _ _]
    rw [amp_silent (slen_correlated _ _), amp_correlated]
    rw [amp_silent (slen_elseCorrelated _ _), amp_silent (slen_elseCorrelated _ _), (amp_elseCorrelated _ _ _ _).2, (amp_elseCorrelated _ _ _ _).1]
    simp only [amp_silent (slen_elseCorrelated p3 _), amp_silent (slen_elseCorrelated p4 _), (amp_elseCorrelated _ _ _ _).2, (amp_elseCorrelated _ _ _ _).1, factor_mul_lift, flip_lift, hM,
      Bool.not_false]
    have hsum : (Instrument.erase (ENNReal.ofReal p) q).amp W (maskSel [f] ([true].map (!·))) (maskSel [f] [true]) ψ =
        ENNReal.ofReal (p / 4) * (if true = f then W (pauliNo q 1 *ᵥ ψ) else 0) + (ENNReal.ofReal (p / 4) * (if true = f then W (pauliNo q 2 *ᵥ ψ) else 0) +
          (ENNReal.ofReal (p / 4) * (if true = f then W (pauliNo q 3 *ᵥ ψ) else 0) + (ENNReal.ofReal (p / 4) * (if true = f then W ψ else 0) +
            ENNReal.ofReal (1 - p) * (if false = f then W ψ else 0)))) := by
      have e4 : min (ENNReal.ofReal p) 1 * 4⁻¹ = ENNReal.ofReal (p / 4) := by
        rw [min_eq_left (by simpa using hp1), ENNReal.ofReal_div_of_pos (by norm_num), div_eq_mul_inv]
        norm_num
      have e1 : 1 - ENNReal.ofReal p = ENNReal.ofReal (1 - p) := by rw [ENNReal.ofReal_sub _ hp0, ENNReal.ofReal_one]
      have e0 : pauliNo q 0 = 1 := rfl
      simp only [Instrument.amp, Instrument.erase, maskSel, List.map_cons, List.map_map, List.map_nil, e4, e1]
      cases f
      · simp [List.finRange_succ, maskSel]
      · simp [List.finRange_succ, maskSel, e0]
        ring
    rw [hsum]
    have m2 : ENNReal.ofReal (1 - p1) * ENNReal.ofReal p2 = ENNReal.ofReal (p / 4) := by rw [← ENNReal.ofReal_mul (by linarith), c2]
    have m3 : ENNReal.ofReal (1 - p1) * (ENNReal.ofReal (1 - p2) * ENNReal.ofReal p3) = ENNReal.ofReal (p / 4) := by
      rw [← ENNReal.ofReal_mul (by linarith), ← ENNReal.ofReal_mul (by linarith), c3]
    have m4 : ENNReal.ofReal (1 - p1) * (ENNReal.ofReal (1 - p2) * (ENNReal.ofReal (1 - p3) * ENNReal.ofReal p4)) = ENNReal.ofReal (p / 4) := by
      rw [← ENNReal.ofReal_mul (by linarith), ← ENNReal.ofReal_mul (by linarith), ← ENNReal.ofReal_mul (by linarith), c4]
    have m5 : ENNReal.ofReal (1 - p1) * (ENNReal.ofReal (1 - p2) * (ENNReal.ofReal (1 - p3) * ENNReal.ofReal (1 - p4))) = ENNReal.ofReal (1 - p) := by
      rw [← ENNReal.ofReal_mul (by linarith), ← ENNReal.ofReal_mul (by linarith), ← ENNReal.ofReal_mul (by linarith), c5]
    rw [← c1]
    rw [← c1] at m2 m3 m4
    conv_rhs => rw [← m5]
    simp only [mul_add]
    simp only [← mul_assoc] at m2 m3 m4 ⊢
    rw [m2, m3, m4]

end Plaquette
