import Verif.Lemmas.StimGateCorr

/-!
# The meaning of the translation of a circuit
-/

open Matrix
open scoped ENNReal

namespace Plaquette
variable {n N : Nat}

/-- The probabilities of erasures are at most one. -/
def ErasureSane (api : FloatApi ℝ) (g : Gate ℝ) : Prop := ∀ v w p, g.name = .E_ERASE → g.args = [v, w] → ValIs api v p → p ≤ 1

theorem channel2_meaning {i : SInstr ℝ} {J : SInstrument N} (hi : i.name = "PAULI_CHANNEL_2".toList) (h : i.meaning N = some J) :
    ∃ x, plainPairs N i.targets = some x ∧ SInstrument.keep (.inOrder (x.map fun p => .pauli2 (i.params.map .ofReal) p.1 p.2)) = J := by
  have key : i.meaning N = given (i.params.length = 15 ∧ IsDist i.params) (plainPairs N i.targets) fun x => .keep (.inOrder (x.map fun p => .pauli2 (i.params.map .ofReal) p.1 p.2)) := by
    rw [SInstr.meaning, hi]
    rfl
  rw [key] at h
  exact (given_some h).2

theorem error_meaning {i : SInstr ℝ} {J : SInstrument N} {p : ℝ} (k : Fin 4) (hi : (k, i.name) ∈ [(1, "X_ERROR".toList), (2, "Y_ERROR".toList), (3, "Z_ERROR".toList)]) (hp : i.params = [p])
    (h : i.meaning N = some J) : 0 ≤ p ∧ p ≤ 1 ∧ ∃ x, plains N i.targets = some x ∧ SInstrument.keep (.inOrder (x.map fun q => .maybe p (pauliNo q k))) = J := by
  have key : i.meaning N = given (i.params.length = 1 ∧ IsDist i.params) (plains N i.targets) fun qs => .keep (.inOrder (qs.map fun q => .maybe (i.params.headD 0) (pauliNo q k))) := by
    simp only [List.mem_cons, List.not_mem_nil, or_false, Prod.mk.injEq] at hi
    rcases hi with ⟨rfl, hi⟩ | ⟨rfl, hi⟩ | ⟨rfl, hi⟩ <;> rw [SInstr.meaning, hi] <;> rfl
  rw [key] at h
  obtain ⟨h1, x, h2, h3⟩ := given_some h
  rw [hp] at h1 h3
  exact ⟨h1.2.1 p (by simp), by simpa using h1.2.2, x, h2, h3⟩

theorem corr_channel2 (ps : List ℝ≥0∞) (q1 q2 : Fin n) :
    Corr (Instrument.pauli2 ps q1 q2) (.keep (.inOrder (([(q1, q2)].map fun p => (p.1.castSucc, p.2.castSucc)).map fun p => .pauli2 ps p.1 p.2))) [] := by
  have h := corr_keep (len_pauli2 ps q1 q2)
  rw [Instrument.lift_pauli2] at h
  rw [List.map_cons, List.map_nil, List.map_cons, List.map_nil, inOrder_one]
  exact h

theorem corr_stimGate {api : FloatApi ℝ} {nm : Name} {args : List (Val ℝ)} {I : Instrument n} (hd : Denotes api ENNReal.ofReal nm args I) (he : ErasureSane api ⟨nm, args⟩)
    {is : List (SInstr ℝ)} {fl : List Bool} {J : SInstrument (n + 1)} (h : stimGate api n ⟨nm, args⟩ = .ok (is, fl)) (hJ : stimMeaning (n + 1) is = some J) : Corr I J fl := by
  cases hd with
  | x qs => exact corr_one (k := 0) api .X qs _ (fun q => .gate (.x q)) (fun q => Instrument.lift_gate _) (fun q => len_gate _) (by simp [stimGate, stimAppend, mapE_qArgs]) (fun i hi => by rw [SInstr.meaning, hi]; rfl) h hJ
  | y qs => exact corr_one (k := 0) api .Y qs _ (fun q => .gate (.y q)) (fun q => Instrument.lift_gate _) (fun q => len_gate _) (by simp [stimGate, stimAppend, mapE_qArgs]) (fun i hi => by rw [SInstr.meaning, hi]; rfl) h hJ
  | z qs => exact corr_one (k := 0) api .Z qs _ (fun q => .gate (.z q)) (fun q => Instrument.lift_gate _) (fun q => len_gate _) (by simp [stimGate, stimAppend, mapE_qArgs]) (fun i hi => by rw [SInstr.meaning, hi]; rfl) h hJ
  | h qs => exact corr_one (k := 0) api .H qs _ (fun q => .gate (.h q)) (fun q => Instrument.lift_gate _) (fun q => len_gate _) (by simp [stimGate, stimAppend, mapE_qArgs]) (fun i hi => by rw [SInstr.meaning, hi]; rfl) h hJ
  | r qs => exact corr_one (k := 0) api .R qs _ .reset Instrument.lift_reset len_reset (by simp [stimGate, stimAppend, mapE_qArgs]) (fun i hi => by rw [SInstr.meaning, hi]; rfl) h hJ
  | m qs =>
    refine corr_one (k := 1) api .M qs _ .measure Instrument.lift_measure len_measure ?_ (fun i hi => by rw [SInstr.meaning, hi]; rfl) h hJ
    have hlen : (qArgs qs : List (Val ℝ)).length = qs.length := List.length_map _
    simp [stimGate, stimAppend, mapE_qArgs, hlen]
  | cx ps hp =>
    exact corr_two api .CX ps hp _ (fun p => .gate (.cx p.1 p.2)) (fun q => Instrument.lift_gate _) (fun q => len_gate _) (by simp [stimGate, stimAppend, pairArgs_qArgs, mapE_qArgs]) (fun i hi => by rw [SInstr.meaning, hi]; rfl) h hJ
  | cz ps hp =>
    exact corr_two api .CZ ps hp _ (fun p => .gate (.cz p.1 p.2)) (fun q => Instrument.lift_gate _) (fun q => len_gate _) (by simp [stimGate, stimAppend, pairArgs_qArgs, mapE_qArgs]) (fun i hi => by rw [SInstr.meaning, hi]; rfl) h hJ
  | depolarize qs =>
    simp only [stimGate, stimAppend, mapE_qArgs, Except.ok.injEq, Prod.mk.injEq] at h
    obtain ⟨rfl, -⟩ := h
    have hJ := stimMeaning_one hJ
    cases hJ
  | @erase v p hv q =>
    have hq : stimQubit (F := ℝ) (.int (q.val : Int)) = .ok (q.val : Int) := by simp [stimQubit]
    simp only [stimGate, stimProb_valIs hv, hq, Except.ok.injEq, Prod.mk.injEq] at h
    obtain ⟨rfl, rfl⟩ := h
    exact corr_erase (he _ _ p rfl rfl hv) q hJ
  | @pauli vs ps hvs hl hs q rest =>
    have hlen : (vs ++ Val.int (q.val : Int) :: rest).length = 4 := by
      by_contra hne
      simp only [stimGate, if_neg hne] at h
      cases h
    have hrest : rest = [] := by
      simp only [List.length_append, List.length_cons, hl] at hlen
      exact List.length_eq_zero_iff.1 (by omega)
    subst hrest
    have h1 : (vs ++ [Val.int (q.val : Int)]).take 3 = vs := List.take_left' hl
    have h2 : (vs ++ [Val.int (q.val : Int)]).drop 3 = qArgs [q] := List.drop_left' hl
    simp only [stimGate, if_pos hlen, h1, h2, mapE_valIs hvs, stimAppend, mapE_qArgs, Except.ok.injEq, Prod.mk.injEq] at h
    obtain ⟨rfl, rfl⟩ := h
    obtain ⟨-, x, hx, rfl⟩ := given_some (c := ps.length = 3 ∧ IsDist ps) (o := plains (n + 1) _) (f := fun qs => SInstrument.keep (.inOrder (qs.map fun q => .pauli (ps.map .ofReal) q)))
      (stimMeaning_one hJ)
    obtain rfl := Option.some.inj ((plains_lift [q]).symm.trans hx)
    exact corr_single _ (fun q => .pauli (ps.map .ofReal) q) _ (Instrument.lift_pauli _ _) (len_pauli _ _)
  | @pauli2 vs ps hvs hl hs q1 q2 rest =>
    have hlen : (vs ++ Val.int (q1.val : Int) :: Val.int (q2.val : Int) :: rest).length = 17 := by
      by_contra hne
      simp only [stimGate, if_neg hne] at h
      cases h
    have hrest : rest = [] := by
      simp only [List.length_append, List.length_cons, hl] at hlen
      exact List.length_eq_zero_iff.1 (by omega)
    subst hrest
    have h1 : (vs ++ [Val.int (q1.val : Int), Val.int (q2.val : Int)]).take 15 = vs := List.take_left' hl
    have h2 : (vs ++ [Val.int (q1.val : Int), Val.int (q2.val : Int)]).drop 15 = qArgs [q1, q2] := List.drop_left' hl
    simp only [stimGate, if_pos hlen, h1, h2, mapE_valIs hvs, stimAppend, mapE_qArgs, Except.ok.injEq, Prod.mk.injEq] at h
    obtain ⟨rfl, rfl⟩ := h
    obtain ⟨x, hx, rfl⟩ := channel2_meaning rfl (stimMeaning_one hJ)
    have hne : q1 ≠ q2 := by
      rintro rfl
      simp [plainPairs, STarget.plain, qubitNo_lift] at hx
    obtain rfl := Option.some.inj ((plainPairs_lift [(q1, q2)] (by simpa using hne)).symm.trans hx)
    exact corr_channel2 _ q1 q2

theorem withProb_one (w : ℝ≥0∞) (A : Mat n) : (Instrument.andThen [⟨1, A, [], []⟩] Instrument.nothing).withProb w = [⟨w, A, [], []⟩] := by
  simp [Instrument.andThen, Instrument.nothing, Instrument.withProb]

/-- The instrument of a conditional Pauli error. -/
theorem alts_one {p : ℝ} (hp0 : 0 ≤ p) (hp1 : p ≤ 1) (A : Mat n) :
    (Instrument.andThen (Instrument.inOrder [[⟨1, A, [], []⟩]]) Instrument.nothing).withProb (min (ENNReal.ofReal p) 1) ++ Instrument.nothing.withProb (1 - ENNReal.ofReal p) =
      Instrument.maybe p A := by
  rw [inOrder_one, withProb_one, min_eq_left (by simpa using hp1)]
  simp [Instrument.nothing, Instrument.withProb, Instrument.maybe, ENNReal.ofReal_sub _ hp0]

/-- The translation of a conditional error. -/
theorem corr_chain {api : FloatApi ℝ} {a : Alt ℝ} {as : List (Alt ℝ)} {I : Instrument n} (hd : DenotesAlts api ENNReal.ofReal (a :: as) I)
    {is : List (SInstr ℝ)} {fl : List Bool} {J : SInstrument (n + 1)} (h : stimLoop api n (chainInstrs a as) = .ok (is, fl)) (hJ : stimMeaning (n + 1) is = some J) : Corr I J fl := by
  obtain ⟨p, ⟨nm, args⟩, more⟩ := a
  have hmore : more = [] := by
    cases more with
    | nil => rfl
    | cons g more =>
      exfalso
      simp only [chainInstrs, Alt.instrs, List.cons_append, List.map_cons, stimLoop] at h
      split at h
      · cases h
      · simp only [stimGate] at h
        cases h
  subst hmore
  have has : as = [] := by
    cases as with
    | nil => rfl
    | cons a as =>
      exfalso
      simp only [chainInstrs, Alt.instrs, List.cons_append, List.flatMap_cons, List.map_nil, List.nil_append, stimLoop] at h
      split at h
      · cases h
      · simp only [stimGate] at h
        cases h
  subst has
  simp only [chainInstrs, Alt.instrs, List.cons_append, List.map_nil, List.flatMap_nil, List.nil_append, stimLoop] at h
  cases hd with
  | cons h1 h2 =>
  cases h2
  simp only [Alt.gates] at h1
  cases h1 with
  | @cons _ _ I0 J0 h3 h4 =>
  cases h4
  simp only [stimGate] at h
  by_cases hn : nm = .X ∨ nm = .Y ∨ nm = .Z
  · by_cases hl : args.length = 1
    · obtain ⟨v, rfl⟩ := List.length_eq_one_iff.1 hl
      have fin : ∀ (k : Fin 4) (q : Fin n), (k, nm.text ++ "_ERROR".toList) ∈ [((1 : Fin 4), "X_ERROR".toList), (2, "Y_ERROR".toList), (3, "Z_ERROR".toList)] → [v] = qArgs [q] →
          I0 = .inOrder [[⟨1, pauliNo q k, [], []⟩]] → Corr ((I0.andThen Instrument.nothing).withProb (min (ENNReal.ofReal p) 1) ++ Instrument.nothing.withProb (1 - ENNReal.ofReal p)) J fl := by
        intro k q hk hv hI0
        rw [hv] at h
        simp only [if_pos hn, stimProb, stimAppend, mapE_qArgs] at h
        simp only [qArgs, List.map_cons, List.map_nil, List.length_singleton, ne_eq, not_true, if_false, Except.ok.injEq, Prod.mk.injEq, List.append_nil] at h
        obtain ⟨rfl, rfl⟩ := h
        obtain ⟨hp0, hp1, x, hx, rfl⟩ := error_meaning k hk rfl (stimMeaning_one hJ)
        obtain rfl := Option.some.inj ((plains_lift [q]).symm.trans hx)
        rw [hI0, alts_one hp0 hp1]
        refine corr_single _ (fun q => .maybe p (pauliNo q k)) _ ?_ (len_maybe _ _)
        rw [Instrument.lift_maybe, ← liftMat_pauliNo]
      have one : ∀ qs : List (Fin n), [v] = qArgs qs → ∃ q, qs = [q] := by
        intro qs hqs
        have := congrArg List.length hqs
        rw [qArgs, List.length_map] at this
        exact List.length_eq_one_iff.1 this.symm
      rcases hn with rfl | rfl | rfl
      · obtain ⟨qs, hqs, hI⟩ : ∃ qs : List (Fin n), [v] = qArgs qs ∧ I0 = .inOrder (qs.map fun q => .gate (.x q)) := by
          generalize hargs : [v] = args at h3
          cases h3 with
          | x qs => exact ⟨qs, rfl, rfl⟩
        obtain ⟨q, rfl⟩ := one qs hqs
        exact fin 1 q (by decide) hqs hI
      · obtain ⟨qs, hqs, hI⟩ : ∃ qs : List (Fin n), [v] = qArgs qs ∧ I0 = .inOrder (qs.map fun q => .gate (.y q)) := by
          generalize hargs : [v] = args at h3
          cases h3 with
          | y qs => exact ⟨qs, rfl, rfl⟩
        obtain ⟨q, rfl⟩ := one qs hqs
        exact fin 2 q (by decide) hqs hI
      · obtain ⟨qs, hqs, hI⟩ : ∃ qs : List (Fin n), [v] = qArgs qs ∧ I0 = .inOrder (qs.map fun q => .gate (.z q)) := by
          generalize hargs : [v] = args at h3
          cases h3 with
          | z qs => exact ⟨qs, rfl, rfl⟩
        obtain ⟨q, rfl⟩ := one qs hqs
        exact fin 3 q (by decide) hqs hI
    · simp [hl] at h
  · simp [if_neg hn] at h

theorem stimLoop_append_ok {api : FloatApi ℝ} {anc : Nat} {c1 c2 : List (Gate ℝ)} {is : List (SInstr ℝ)} {fl : List Bool} (h : stimLoop api anc (c1 ++ c2) = .ok (is, fl)) :
    ∃ is1 fl1 is2 fl2, stimLoop api anc c1 = .ok (is1, fl1) ∧ stimLoop api anc c2 = .ok (is2, fl2) ∧ is = is1 ++ is2 ∧ fl = fl1 ++ fl2 := by
  induction c1 generalizing is fl with
  | nil => exact ⟨[], [], is, fl, rfl, h, rfl, rfl⟩
  | cons g c1 ih =>
    simp only [List.cons_append, stimLoop] at h
    rcases hg : stimGate api anc g with e | ⟨is0, fl0⟩
    · rw [hg] at h; cases h
    · rcases hc : stimLoop api anc (c1 ++ c2) with e | ⟨is', fl'⟩
      · rw [hg, hc] at h; cases h
      · rw [hg, hc] at h
        simp only [Except.ok.injEq, Prod.mk.injEq] at h
        obtain ⟨is1, fl1, is2, fl2, h1, h2, rfl, rfl⟩ := ih hc
        refine ⟨is0 ++ is1, fl0 ++ fl1, is2, fl2, by simp only [stimLoop, hg, h1], h2, ?_, ?_⟩
        · rw [← h.1, List.append_assoc]
        · rw [← h.2, List.append_assoc]

/-- The translation of a circuit. -/
theorem corr_run {api : FloatApi ℝ} {bs : List (Block ℝ)} {I : Instrument n} (hd : DenotesRun api ENNReal.ofReal bs I) (he : ∀ g ∈ flatten bs, ErasureSane api g)
    {is : List (SInstr ℝ)} {fl : List Bool} {J : SInstrument (n + 1)} (h : stimLoop api n (flatten bs) = .ok (is, fl)) (hJ : stimMeaning (n + 1) is = some J) : Corr I J fl := by
  induction hd generalizing is fl J with
  | nil =>
    cases h
    cases hJ
    exact corr_nothing
  | @gate name args bs I1 I2 h1 h2 ih =>
    rw [show flatten (Block.gate name args :: bs) = [⟨name, args⟩] ++ flatten bs from rfl] at h he
    obtain ⟨is1, fl1, is2, fl2, h3, h4, rfl, rfl⟩ := stimLoop_append_ok h
    obtain ⟨J1, J2, hJ1, hJ2, rfl⟩ := stimMeaning_append hJ
    refine corr_andThen (corr_stimGate h1 (he _ (by simp)) ?_ hJ1) (ih (fun g hg => he g (List.mem_append_right _ hg)) h4 hJ2)
    simp only [stimLoop] at h3
    rcases hg : stimGate api n ⟨name, args⟩ with e | ⟨is0, fl0⟩
    · rw [hg] at h3; cases h3
    · rw [hg] at h3
      simp only [List.append_nil] at h3
      exact h3
  | @chain a as bs I1 I2 h1 h2 ih =>
    rw [show flatten (Block.chain a as :: bs) = chainInstrs a as ++ flatten bs from rfl] at h he
    obtain ⟨is1, fl1, is2, fl2, h3, h4, rfl, rfl⟩ := stimLoop_append_ok h
    obtain ⟨J1, J2, hJ1, hJ2, rfl⟩ := stimMeaning_append hJ
    exact corr_andThen (corr_chain h1 h3 hJ1) (ih (fun g hg => he g (List.mem_append_right _ hg)) h4 hJ2)

theorem stimMeaning_joined {is1 is2 : List (SInstr ℝ)} {J1 J2 : SInstrument N} (h1 : stimMeaning N is1 = some J1) (h2 : stimMeaning N is2 = some J2) :
    ∃ J, stimMeaning N (is1 ++ is2) = some J := by
  induction is1 generalizing J1 with
  | nil => exact ⟨J2, h2⟩
  | cons i is1 ih =>
    obtain ⟨K1, K2, h3, h4, -⟩ := stimMeaning_cons h1
    obtain ⟨K, hK⟩ := ih h4
    exact ⟨K1.andThen K, by simp only [List.cons_append, stimMeaning, h3, hK]⟩

theorem stimMeaning_single {i : SInstr ℝ} {J : SInstrument N} (h : i.meaning N = some J) : ∃ J, stimMeaning N [i] = some J := ⟨J.andThen .nothing, by simp only [stimMeaning, h]⟩

/-- The probabilities of an instruction are probabilities, no `DEPOLARIZE`, and the two qubits of a pair channel differ. -/
structure StimSane (api : FloatApi ℝ) (g : Gate ℝ) : Prop where
  erase : ∀ v w p, g.name = .E_ERASE → g.args = [v, w] → ValIs api v p → 0 ≤ p ∧ p ≤ 1
  pauli : g.name = .E_PAULI → ∀ v ∈ g.args.take 3, ∀ p, ValIs api v p → 0 ≤ p
  pauli2 : g.name = .E_PAULI2 → ∀ v ∈ g.args.take 15, ∀ p, ValIs api v p → 0 ≤ p
  differ : ∀ vs v w, g.name = .E_PAULI2 → g.args = vs ++ [v, w] → v ≠ w
  error : ∀ p rest, g.name = .ERROR → g.args = .flt p :: rest → 0 ≤ p ∧ p ≤ 1
  noDepolarize : g.name ≠ .DEPOLARIZE

theorem StimSane.erasure {api : FloatApi ℝ} {g : Gate ℝ} (h : StimSane api g) : ErasureSane api g := fun v w p h1 h2 h3 => (h.erase v w p h1 h2 h3).2

theorem isDist_of {api : FloatApi ℝ} {vs : List (Val ℝ)} {ps : List ℝ} (hvs : List.Forall₂ (ValIs api) vs ps) (h : ∀ v ∈ vs, ∀ p, ValIs api v p → 0 ≤ p)
    (hs : (ps.map ENNReal.ofReal).sum ≤ 1) : IsDist ps := by
  have h0 : ∀ p ∈ ps, 0 ≤ p := by
    clear hs
    induction hvs with
    | nil => simp
    | cons h1 _ ih =>
      intro p hp
      rcases List.mem_cons.1 hp with rfl | hp
      · exact h _ (by simp) _ h1
      · exact ih (fun v hv => h v (List.mem_cons_of_mem _ hv)) p hp
  refine ⟨h0, ?_⟩
  have : ENNReal.ofReal ps.sum = (ps.map ENNReal.ofReal).sum := by
    clear hs hvs h
    induction ps with
    | nil => simp
    | cons p ps ih =>
      rw [List.sum_cons, List.map_cons, List.sum_cons, ENNReal.ofReal_add (h0 p (by simp)) (List.sum_nonneg fun q hq => h0 q (List.mem_cons_of_mem _ hq)),
        ih fun q hq => h0 q (List.mem_cons_of_mem _ hq)]
  rw [← this] at hs
  simpa using hs

theorem equiProb_dist {p : ℝ} (h0 : 0 ≤ p) (h1 : p ≤ 1) (i : Nat) (hi : i ≤ 3) : IsDist [equiProb (p / 4) i] := by
  have h2 : (i : ℝ) ≤ 3 := by exact_mod_cast hi
  have h3 : 0 < 1 - i * (p / 4) := by nlinarith
  refine ⟨fun x hx => ?_, ?_⟩
  · rw [List.mem_singleton.1 hx]
    exact div_nonneg (by linarith) h3.le
  · rw [List.sum_singleton, equiProb, div_le_one h3]
    nlinarith

/-- The translation of an instruction has a meaning. -/
theorem meaning_stimGate {api : FloatApi ℝ} {nm : Name} {args : List (Val ℝ)} {I : Instrument n} (hd : Denotes api ENNReal.ofReal nm args I) (he : StimSane api ⟨nm, args⟩)
    {is : List (SInstr ℝ)} {fl : List Bool} (h : stimGate api n ⟨nm, args⟩ = .ok (is, fl)) : ∃ J, stimMeaning (n + 1) is = some J := by
  cases hd with
  | x qs | y qs | z qs | h qs | r qs | m qs =>
    simp only [stimGate, stimAppend, mapE_qArgs, Except.ok.injEq, Prod.mk.injEq] at h
    obtain ⟨rfl, -⟩ := h
    exact stimMeaning_single (given_eq rfl (plains_lift qs))
  | cx ps hp | cz ps hp =>
    rw [pairArgs_qArgs] at h
    simp only [stimGate, stimAppend, mapE_qArgs, Except.ok.injEq, Prod.mk.injEq] at h
    obtain ⟨rfl, -⟩ := h
    exact stimMeaning_single (given_eq rfl (plainPairs_lift ps hp))
  | depolarize qs => exact absurd rfl he.noDepolarize
  | @erase v p hv q =>
    have hq : stimQubit (F := ℝ) (.int (q.val : Int)) = .ok (q.val : Int) := by simp [stimQubit]
    simp only [stimGate, stimProb_valIs hv, hq, Except.ok.injEq, Prod.mk.injEq] at h
    obtain ⟨rfl, rfl⟩ := h
    obtain ⟨hp0, hp1⟩ := he.erase _ _ p rfl rfl hv
    have hR : ∃ J, SInstr.meaning (n + 1) ⟨"R".toList, [.qubit (n : Int)], []⟩ = some J :=
      ⟨_, given_eq (o := plains (n + 1) [.qubit (n : Int)]) (x := [Fin.last n]) rfl (by simp only [plains, STarget.plain, qubitNo_last])⟩
    have hM : ∃ J, SInstr.meaning (n + 1) ⟨"M".toList, [.qubit (n : Int)], []⟩ = some J :=
      ⟨_, given_eq (o := plains (n + 1) [.qubit (n : Int)]) (x := [Fin.last n]) rfl (by simp only [plains, STarget.plain, qubitNo_last])⟩
    have hE : ∀ (i : SInstr ℝ) (j : Nat) (A : Mat (n + 1)), j ≤ 3 → i.name = "CORRELATED_ERROR".toList ∨ i.name = "ELSE_CORRELATED_ERROR".toList → i.params = [equiProb (p / 4) j] →
        factors (n + 1) i.targets = some A → ∃ J, i.meaning (n + 1) = some J := by
      intro i j A hj hi hp hA
      have hc : i.params.length = 1 ∧ IsDist i.params := by
        rw [hp]
        exact ⟨rfl, equiProb_dist hp0 hp1 j hj⟩
      rcases hi with hi | hi
      · refine ⟨SInstrument.correlated (i.params.headD 0) A, ?_⟩
        rw [SInstr.meaning, hi]
        exact given_eq hc hA
      · refine ⟨SInstrument.elseCorrelated (i.params.headD 0) A, ?_⟩
        rw [SInstr.meaning, hi]
        exact given_eq hc hA
    obtain ⟨JR, hR⟩ := hR
    obtain ⟨JM, hM⟩ := hM
    obtain ⟨J1, h1⟩ := hE ⟨"CORRELATED_ERROR".toList, [.x (n : Int), .x (q.val : Int)], [equiProb (p / 4) 0]⟩ 0 _ (by omega) (.inl rfl) rfl
      (factors_last 1 q .x (by simp only [STarget.factor, qubitNo_lift, Option.map_some]))
    obtain ⟨J2, h2⟩ := hE ⟨"ELSE_CORRELATED_ERROR".toList, [.x (n : Int), .y (q.val : Int)], [equiProb (p / 4) 1]⟩ 1 _ (by omega) (.inr rfl) rfl
      (factors_last 2 q .y (by simp only [STarget.factor, qubitNo_lift, Option.map_some]))
    obtain ⟨J3, h3⟩ := hE ⟨"ELSE_CORRELATED_ERROR".toList, [.x (n : Int), .z (q.val : Int)], [equiProb (p / 4) 2]⟩ 2 _ (by omega) (.inr rfl) rfl
      (factors_last 3 q .z (by simp only [STarget.factor, qubitNo_lift, Option.map_some]))
    obtain ⟨J4, h4⟩ := hE ⟨"ELSE_CORRELATED_ERROR".toList, [.x (n : Int)], [equiProb (p / 4) 3]⟩ 3 _ (by omega) (.inr rfl) rfl (factors_last' n)
    refine ⟨JR.andThen (J1.andThen (J2.andThen (J3.andThen (J4.andThen (JM.andThen .nothing))))), ?_⟩
    have := show stimMeaning (n + 1) (⟨"R".toList, [.qubit (n : Int)], []⟩ :: ⟨"CORRELATED_ERROR".toList, [.x (n : Int), .x (q.val : Int)], [equiProb (p / 4) 0]⟩ ::
      ⟨"ELSE_CORRELATED_ERROR".toList, [.x (n : Int), .y (q.val : Int)], [equiProb (p / 4) 1]⟩ ::
      ⟨"ELSE_CORRELATED_ERROR".toList, [.x (n : Int), .z (q.val : Int)], [equiProb (p / 4) 2]⟩ ::
      ⟨"ELSE_CORRELATED_ERROR".toList, [.x (n : Int)], [equiProb (p / 4) 3]⟩ :: [⟨"M".toList, [.qubit (n : Int)], []⟩]) =
        some (JR.andThen (J1.andThen (J2.andThen (J3.andThen (J4.andThen (JM.andThen .nothing)))))) by
      simp only [stimMeaning, hR, h1, h2, h3, h4, hM]
    exact this
  | @pauli vs ps hvs hl hs q rest =>
    have hlen : (vs ++ Val.int (q.val : Int) :: rest).length = 4 := by
      by_contra hne
      simp only [stimGate, if_neg hne] at h
      cases h
    have hrest : rest = [] := by
      simp only [List.length_append, List.length_cons, hl] at hlen
      exact List.length_eq_zero_iff.1 (by omega)
    subst hrest
    have h1 : (vs ++ [Val.int (q.val : Int)]).take 3 = vs := List.take_left' hl
    have h2 : (vs ++ [Val.int (q.val : Int)]).drop 3 = qArgs [q] := List.drop_left' hl
    simp only [stimGate, if_pos hlen, h1, h2, mapE_valIs hvs, stimAppend, mapE_qArgs, Except.ok.injEq, Prod.mk.injEq] at h
    obtain ⟨rfl, rfl⟩ := h
    have hd : ps.length = 3 ∧ IsDist ps := by
      refine ⟨hvs.length_eq ▸ hl, isDist_of hvs (fun v hv => he.pauli rfl v ?_) hs⟩
      show v ∈ (vs ++ [Val.int (q.val : Int)]).take 3
      rw [h1]; exact hv
    exact stimMeaning_single (given_eq hd (plains_lift [q]))
  | @pauli2 vs ps hvs hl hs q1 q2 rest =>
    have hlen : (vs ++ Val.int (q1.val : Int) :: Val.int (q2.val : Int) :: rest).length = 17 := by
      by_contra hne
      simp only [stimGate, if_neg hne] at h
      cases h
    have hrest : rest = [] := by
      simp only [List.length_append, List.length_cons, hl] at hlen
      exact List.length_eq_zero_iff.1 (by omega)
    subst hrest
    have h1 : (vs ++ [Val.int (q1.val : Int), Val.int (q2.val : Int)]).take 15 = vs := List.take_left' hl
    have h2 : (vs ++ [Val.int (q1.val : Int), Val.int (q2.val : Int)]).drop 15 = qArgs [q1, q2] := List.drop_left' hl
    simp only [stimGate, if_pos hlen, h1, h2, mapE_valIs hvs, stimAppend, mapE_qArgs, Except.ok.injEq, Prod.mk.injEq] at h
    obtain ⟨rfl, rfl⟩ := h
    have hd : ps.length = 15 ∧ IsDist ps := by
      refine ⟨hvs.length_eq ▸ hl, isDist_of hvs (fun v hv => he.pauli2 rfl v ?_) hs⟩
      show v ∈ (vs ++ [Val.int (q1.val : Int), Val.int (q2.val : Int)]).take 15
      rw [h1]; exact hv
    have hne : q1 ≠ q2 := by
      rintro rfl
      exact he.differ vs _ _ rfl rfl rfl
    have hm : ∀ (i : SInstr ℝ), i.name = "PAULI_CHANNEL_2".toList → (i.params.length = 15 ∧ IsDist i.params) → ∀ x, plainPairs (n + 1) i.targets = some x →
        ∃ J, i.meaning (n + 1) = some J := by
      intro i hi hc x hx
      refine ⟨SInstrument.keep (.inOrder (x.map fun p => .pauli2 (i.params.map .ofReal) p.1 p.2)), ?_⟩
      rw [SInstr.meaning, hi]
      exact given_eq hc hx
    obtain ⟨J, hJ⟩ := hm ⟨"PAULI_CHANNEL_2".toList, ([q1, q2].map fun q => (q.val : Int)).map .qubit, ps⟩ rfl hd _ (plainPairs_lift [(q1, q2)] (by simpa using hne))
    exact stimMeaning_single hJ

/-- The translation of a conditional error has a meaning. -/
theorem meaning_chain {api : FloatApi ℝ} {a : Alt ℝ} {as : List (Alt ℝ)} {I : Instrument n} (hd : DenotesAlts api ENNReal.ofReal (a :: as) I) (he : ∀ g ∈ chainInstrs a as, StimSane api g)
    {is : List (SInstr ℝ)} {fl : List Bool} (h : stimLoop api n (chainInstrs a as) = .ok (is, fl)) : ∃ J, stimMeaning (n + 1) is = some J := by
  obtain ⟨p, ⟨nm, args⟩, more⟩ := a
  have hmore : more = [] := by
    cases more with
    | nil => rfl
    | cons g more =>
      exfalso
      simp only [chainInstrs, Alt.instrs, List.cons_append, List.map_cons, stimLoop] at h
      split at h
      · cases h
      · simp only [stimGate] at h
        cases h
  subst hmore
  have has : as = [] := by
    cases as with
    | nil => rfl
    | cons a as =>
      exfalso
      simp only [chainInstrs, Alt.instrs, List.cons_append, List.flatMap_cons, List.map_nil, List.nil_append, stimLoop] at h
      split at h
      · cases h
      · simp only [stimGate] at h
        cases h
  subst has
  have hp := (he ⟨.ERROR, .flt p :: .name nm :: args⟩ (by simp [chainInstrs, Alt.instrs])).error p _ rfl rfl
  simp only [chainInstrs, Alt.instrs, List.cons_append, List.map_nil, List.flatMap_nil, List.nil_append, stimLoop] at h
  cases hd with
  | cons h1 h2 =>
  cases h2
  simp only [Alt.gates] at h1
  cases h1 with
  | @cons _ _ I0 J0 h3 h4 =>
  cases h4
  simp only [stimGate] at h
  by_cases hn : nm = .X ∨ nm = .Y ∨ nm = .Z
  · by_cases hl : args.length = 1
    · have hq : ∃ qs : List (Fin n), args = qArgs qs := by
        rcases hn with rfl | rfl | rfl
        · cases h3 with
          | x qs => exact ⟨qs, rfl⟩
        · cases h3 with
          | y qs => exact ⟨qs, rfl⟩
        · cases h3 with
          | z qs => exact ⟨qs, rfl⟩
      obtain ⟨qs, rfl⟩ := hq
      simp only [if_pos hn, hl, stimProb, stimAppend, mapE_qArgs, ne_eq, not_true, if_false, Except.ok.injEq, Prod.mk.injEq, List.append_nil] at h
      obtain ⟨rfl, -⟩ := h
      have hd : [p].length = 1 ∧ IsDist [p] := ⟨rfl, by intro x hx; rw [List.mem_singleton.1 hx]; exact hp.1, by simpa using hp.2⟩
      rcases hn with rfl | rfl | rfl
      · exact stimMeaning_single (given_eq hd (plains_lift qs))
      · exact stimMeaning_single (given_eq hd (plains_lift qs))
      · exact stimMeaning_single (given_eq hd (plains_lift qs))
    · simp [hl] at h
  · simp [if_neg hn] at h

/-- The translation of a circuit has a meaning. -/
theorem meaning_run {api : FloatApi ℝ} {bs : List (Block ℝ)} {I : Instrument n} (hd : DenotesRun api ENNReal.ofReal bs I) (he : ∀ g ∈ flatten bs, StimSane api g)
    {is : List (SInstr ℝ)} {fl : List Bool} (h : stimLoop api n (flatten bs) = .ok (is, fl)) : ∃ J, stimMeaning (n + 1) is = some J := by
  induction hd generalizing is fl with
  | nil =>
    cases h
    exact ⟨_, rfl⟩
  | @gate name args bs I1 I2 h1 h2 ih =>
    rw [show flatten (Block.gate name args :: bs) = [⟨name, args⟩] ++ flatten bs from rfl] at h he
    obtain ⟨is1, fl1, is2, fl2, h3, h4, rfl, rfl⟩ := stimLoop_append_ok h
    obtain ⟨J2, hJ2⟩ := ih (fun g hg => he g (List.mem_append_right _ hg)) h4
    have hg1 : stimGate api n ⟨name, args⟩ = .ok (is1, fl1) := by
      simp only [stimLoop] at h3
      rcases hg : stimGate api n ⟨name, args⟩ with e | ⟨is0, fl0⟩
      · rw [hg] at h3; cases h3
      · rw [hg] at h3
        simp only [List.append_nil] at h3
        exact h3
    obtain ⟨J1, hJ1⟩ := meaning_stimGate h1 (he _ (by simp)) hg1
    exact stimMeaning_joined hJ1 hJ2
  | @chain a as bs I1 I2 h1 h2 ih =>
    rw [show flatten (Block.chain a as :: bs) = chainInstrs a as ++ flatten bs from rfl] at h he
    obtain ⟨is1, fl1, is2, fl2, h3, h4, rfl, rfl⟩ := stimLoop_append_ok h
    obtain ⟨J2, hJ2⟩ := ih (fun g hg => he g (List.mem_append_right _ hg)) h4
    obtain ⟨J1, hJ1⟩ := meaning_chain h1 (fun g hg => he g (List.mem_append_left _ hg)) h3
    exact stimMeaning_joined hJ1 hJ2

end Plaquette
