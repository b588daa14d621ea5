import Verif.Lemmas.PauliText
import Verif.Lemmas.Measure

/-!
# Properties C11-C14: strings, dictionaries and states given by strings
-/

namespace Plaquette
variable {n : Nat}

/-- **C11 (full statement)** reading back the printed operator gives the operator. -/
def C11_statement : Prop := ∀ (n : Nat) (op : Op n), 1 ≤ n →
  stringToPauli (pauliToString op true) none = .ok ⟨n, op⟩ ∧
  stringToPauli (pauliToString op false) (some n) = .ok ⟨n, op⟩

/-- **C11 fails** for the identity: `string_to_pauli("+I")` raises `ValueError` (`max` of an empty sequence). -/
theorem C11_identity_counterexample : ¬ C11_statement := by
  intro h
  have h1 := (h 1 (idOp 1) (by decide)).1
  have h2 : stringToPauli (pauliToString (idOp 1) true) none = .error .valueError := by rfl
  rw [h2] at h1
  exact absurd h1 (by simp)

theorem canonical_roundtrip (op : Op n) (h : ¬ op.IsScalar) (qubits : Option Nat) (hq : qubits.getD 0 ≤ n) :
    stringToPauli (pauliToString op true) qubits = .ok ⟨n, op⟩ := by
  have hplain : ∀ c ∈ mainChars op, c.isDigit = false ∧ c ≠ ' ' ∧ c ≠ '_' ∧ c ≠ '+' ∧ c ≠ '-' := by
    intro c hc
    simp only [mainChars, List.mem_map] at hc
    obtain ⟨q, _, rfl⟩ := hc
    exact letterChar_plain _ _
  have hlen : (mainChars op).length = n := by simp [mainChars]
  have hf : ((pauliToString op true).filter fun c => c ≠ ' ' ∧ c ≠ '_') =
      (if op.r then '-' else '+') :: mainChars op := by
    simp only [pauliToString, if_true]
    rw [List.filter_eq_self]
    intro c hc
    rcases List.mem_cons.mp hc with rfl | hc
    · cases op.r <;> decide
    · have := hplain c hc
      simp [this.2.1, this.2.2.1]
  have hnd : ((if op.r then '-' else '+') :: mainChars op).any Char.isDigit = false := by
    rw [List.any_eq_false]
    intro c hc
    rcases List.mem_cons.mp hc with rfl | hc
    · cases op.r <;> decide
    · simp [(hplain c hc).1]
  have hmax : max (qubits.getD 0) n = n := max_eq_right hq
  unfold stringToPauli
  simp only [hf, hnd, Bool.false_eq_true, if_false]
  rw [if_pos (by cases op.r <;> simp)]
  simp only [canonical_dict, hlen, hmax, dict_roundtrip h]
  congr 3
  cases op.r <;> rfl

/-- **C11, canonical form, part that holds**: every operator that is not `±I` survives
`string_to_pauli(pauli_to_string(op))`, also when the number of qubits is passed. -/
theorem C11_canonical_roundtrip_partial (op : Op n) (h : ¬ op.IsScalar) :
    stringToPauli (pauliToString op true) none = .ok ⟨n, op⟩ ∧
    stringToPauli (pauliToString op true) (some n) = .ok ⟨n, op⟩ :=
  ⟨canonical_roundtrip op h none (by simp), canonical_roundtrip op h (some n) (by simp)⟩

/-- **C11, index form, part that holds**: every operator that is not `±I` survives the round trip through the short
form `"+ X0 Y12"` if the number of qubits is given. -/
theorem C11_short_roundtrip_partial (op : Op n) (h : ¬ op.IsScalar) :
    stringToPauli (pauliToString op false) (some n) = .ok ⟨n, op⟩ := by
  have hl : ∀ e ∈ pauliToDict op, isPauliChar e.2 = true ∧ e.2.isDigit = false := by
    intro e he
    obtain ⟨q, _, h2, _⟩ := (mem_pauliToDict _ _).mp he
    rw [← h2]
    exact ⟨letterChar_pauli _ _, (letterChar_plain _ _).1⟩
  have hne := pauliToDict_ne_nil h
  have hdict := dict_roundtrip h
  unfold stringToPauli
  simp only [short_text]
  cases hd : pauliToDict op with
  | nil => exact absurd hd hne
  | cons e l =>
    rw [hd] at hl hdict
    have hany : ((if op.r then '-' else '+') :: (e :: l).flatMap termText).any Char.isDigit = true := by
      rw [List.any_eq_true]
      obtain ⟨c, hc⟩ := List.exists_mem_of_ne_nil _ (Nat.toDigits_ne_nil (n := e.1) (b := 10))
      refine ⟨c, ?_, Nat.isDigit_of_mem_toDigits (by decide) (by decide) hc⟩
      simp [termText, hc]
    rw [if_pos hany, findAll_signed _ (by cases op.r <;> simp) e l hl]
    simp only [List.map_cons, List.map_map, Nat.ofDigitChars_ten_toDigits]
    have hmap : List.map ((fun t : Option Char × Char × List Char => (Nat.ofDigitChars 10 t.2.2 0, t.2.1)) ∘
        fun e : Nat × Char => ((none : Option Char), e.2, Nat.toDigits 10 e.1)) l = l := by
      conv_rhs => rw [← List.map_id l]
      apply List.map_congr_left
      intro e _
      simp [Nat.ofDigitChars_ten_toDigits]
    rw [hmap, hdict]
    simp only
    congr 3
    cases op.r <;> rfl

/-- Non-vacuity: `-XZ` (as printed in both forms). -/
example : let op : Op 2 := { x := ![true, false], z := ![false, true], r := true }
    ¬ op.IsScalar ∧ pauliToString op true = ['-', 'X', 'Z'] ∧ pauliToString op false = "- X0 Z1".toList := by
  refine ⟨by decide, by decide, by decide⟩

/-- **C12 (full statement)** a canonical-form string with an unknown letter raises an error. -/
def C12_statement : Prop := ∀ (s : List Char) (qubits : Option Nat),
  (∃ c ∈ s, c.isDigit = false ∧ c ∉ ['I', 'X', 'Y', 'Z', '+', '-', ' ', '_']) → (∀ c ∈ s, c.isDigit = false) →
  ∃ e, stringToPauli s qubits = .error e

/-- **C12 fails**: `string_to_pauli("XQ")` is accepted and gives `XI`. -/
theorem C12_unknown_letter_counterexample : ¬ C12_statement := by
  intro h
  obtain ⟨e, he⟩ := h ['X', 'Q'] none ⟨'Q', by decide⟩ (by decide)
  have h2 : ∃ r, stringToPauli ['X', 'Q'] none = .ok r := ⟨_, rfl⟩
  obtain ⟨r, hr⟩ := h2
  rw [hr] at he
  exact absurd he (by simp)

/-- **C12, what the code does instead**: every string without digits, blanks and underscores whose first
character is not a sign and that has some character other than `I` is accepted, and characters other than `X`, `Y`, `Z`
count as identities. (So the only strings of this kind that are rejected are the empty one and `I…I`.) Missing from the
full statement: the rejection. -/
theorem C12_canonical_accepts_partial (c : Char) (rest : List Char) (hsign : c ≠ '+' ∧ c ≠ '-')
    (hplain : ∀ a ∈ c :: rest, a.isDigit = false ∧ a ≠ ' ' ∧ a ≠ '_') (hne : ∃ a ∈ c :: rest, a ≠ 'I') :
    ∃ op : Op (c :: rest).length, stringToPauli (c :: rest) none = .ok ⟨_, op⟩ ∧ op.r = false ∧
      ∀ q : Fin (c :: rest).length,
        (op.x q = true ↔ (c :: rest)[q] = 'X' ∨ (c :: rest)[q] = 'Y') ∧
        (op.z q = true ↔ (c :: rest)[q] = 'Z' ∨ (c :: rest)[q] = 'Y') := by
  have hf : ((c :: rest).filter fun c => c ≠ ' ' ∧ c ≠ '_') = c :: rest := by
    rw [List.filter_eq_self]
    intro a ha
    have := hplain a ha
    simp [this.2.1, this.2.2]
  have hnd : (c :: rest).any Char.isDigit = false := by
    rw [List.any_eq_false]
    intro a ha
    simp [(hplain a ha).1]
  set dict := (c :: rest).zipIdx.filterMap fun e => if e.1 ≠ 'I' then some (e.2, e.1) else none with hdict
  have hmem : ∀ e : Nat × Char, e ∈ dict ↔ ∃ h : e.1 < (c :: rest).length, (c :: rest)[e.1] = e.2 ∧ e.2 ≠ 'I' := by
    intro e
    rw [hdict, List.mem_filterMap]
    constructor
    · rintro ⟨⟨a, i⟩, h1, h2⟩
      split_ifs at h2 with h3
      simp only [Option.some.injEq] at h2
      subst h2
      obtain ⟨h4, h5⟩ := List.getElem?_eq_some_iff.mp (List.mem_zipIdx_iff_getElem?.mp h1)
      exact ⟨h4, h5, h3⟩
    · rintro ⟨h1, h2, h3⟩
      refine ⟨(e.2, e.1), List.mem_zipIdx_iff_getElem?.mpr ?_, by simp [h3]⟩
      simp only
      rw [List.getElem?_eq_getElem h1, h2]
  have hnodup : (dict.map Prod.fst).Nodup := by
    have hgen : ∀ l : List (Char × Nat), (l.filterMap fun e => if e.1 ≠ 'I' then some (e.2, e.1) else none).map Prod.fst =
        (l.filter fun e => e.1 ≠ 'I').map Prod.snd := by
      intro l
      induction l with
      | nil => rfl
      | cons a l ih =>
        by_cases ha : a.1 = 'I'
        · simp [ha] at ih ⊢
          exact ih
        · simp [ha] at ih ⊢
          exact ih
    rw [hdict, hgen]
    refine List.Nodup.sublist (List.Sublist.map _ List.filter_sublist) ?_
    simp only [List.zipIdx_map_snd]
    exact List.nodup_range'
  have hdne : dict ≠ [] := by
    obtain ⟨a, ha, hI⟩ := hne
    obtain ⟨i, hi, hia⟩ := List.getElem_of_mem ha
    intro h0
    have : (i, a) ∈ dict := (hmem _).mpr ⟨hi, hia, hI⟩
    rw [h0] at this
    simp at this
  have hok := dictToPauli_ok hdne (c :: rest).length (fun e he => ((hmem e).mp he).1)
  refine ⟨{ (dict.foldl writeEntry (idOp _)) with r := false }, ?_, rfl, ?_⟩
  · unfold stringToPauli
    simp only [hf, hnd, Bool.false_eq_true, if_false]
    rw [if_neg (by simp [hsign])]
    simp only [← hdict, Option.getD_none, Nat.zero_max, hok]
  · intro q
    by_cases hI : (c :: rest)[q] = 'I'
    · have := write_other dict (idOp (c :: rest).length) q (fun e he hq => by
        obtain ⟨h1, h2, h3⟩ := (hmem e).mp he
        apply h3
        rw [← h2, ← hI]
        simp [hq])
      simp only [this.1, this.2]
      constructor <;> · rw [hI]; simp [idOp]
    · have := write_mem dict (idOp (c :: rest).length) q _ hnodup ((hmem (q.val, (c :: rest)[q])).mpr
        ⟨q.isLt, rfl, hI⟩)
      simp only [this.1, this.2]
      constructor <;> simp

/-- **C13 (full statement)** dictionaries. -/
def C13_statement : Prop := ∀ (n : Nat) (op : Op n),
  dictToPauli (pauliToDict op) (some n) = .ok ⟨n, { op with r := false }⟩

/-- **C13 fails** for the identity: the empty dictionary raises `ValueError`. -/
theorem C13_identity_counterexample : ¬ C13_statement := by
  intro h
  have h1 := h 1 (idOp 1)
  have h2 : dictToPauli (pauliToDict (idOp 1)) (some 1) = .error .valueError := by rfl
  rw [h2] at h1
  exact absurd h1 (by simp)

/-- **C13, part that holds**: every operator that is not `±I` comes back with a positive sign. -/
theorem C13_operator_roundtrip_partial (op : Op n) (h : ¬ op.IsScalar) :
    dictToPauli (pauliToDict op) (some n) = .ok ⟨n, { op with r := false }⟩ := dict_roundtrip h

/-- **C13** every non-empty dictionary (distinct keys below `n`, values X, Y or Z) comes back with the same entries. -/
theorem C13_dict_roundtrip (d : List (Nat × Char)) (hne : d ≠ []) (hnd : (d.map Prod.fst).Nodup)
    (hk : ∀ e ∈ d, e.1 < n) (hv : ∀ e ∈ d, e.2 = 'X' ∨ e.2 = 'Y' ∨ e.2 = 'Z') :
    ∃ op : Op n, dictToPauli d (some n) = .ok ⟨n, op⟩ ∧ ∀ e, e ∈ pauliToDict op ↔ e ∈ d := by
  refine ⟨_, dictToPauli_ok hne n hk, fun e => ?_⟩
  have hlet : ∀ (q : Fin n) (c : Char), (q.val, c) ∈ d →
      letterChar ((d.foldl writeEntry (idOp n)).x q) ((d.foldl writeEntry (idOp n)).z q) = c ∧ c ≠ 'I' := by
    intro q c h
    have := write_mem d (idOp n) q c hnd h
    rw [this.1, this.2]
    rcases hv _ h with h | h | h <;> simp only at h <;> subst h <;> decide
  rw [mem_pauliToDict]
  constructor
  · rintro ⟨q, h1, h2, h3⟩
    by_cases hex : ∃ c, (q.val, c) ∈ d
    · obtain ⟨c, hc⟩ := hex
      have := (hlet q c hc).1
      rw [this] at h2
      rw [h1, h2] at hc
      exact hc
    · exfalso
      have := write_other d (idOp n) q (fun e' h' hq => hex ⟨e'.2, by rw [← hq]; exact h'⟩)
      rw [this.1, this.2] at h2
      exact h3 (h2.symm.trans rfl)
  · intro he
    have := hlet ⟨e.1, hk e he⟩ e.2 he
    exact ⟨⟨e.1, hk e he⟩, rfl, this.1, this.2⟩

/-- Non-vacuity of C13. -/
example : let d : List (Nat × Char) := [(3, 'Y'), (0, 'X')]
    d ≠ [] ∧ (d.map Prod.fst).Nodup ∧ (∀ e ∈ d, e.1 < 5) ∧ ∀ e ∈ d, e.2 = 'X' ∨ e.2 = 'Y' ∨ e.2 = 'Z' := by decide

/-- A number of qubits that is too small is refused. -/
theorem C13_too_few_qubits (d : List (Nat × Char)) (e : Nat × Char) (he : e ∈ d) (hk : n ≤ e.1) :
    dictToPauli d (some n) = .error .valueError := by
  have := le_maxKey d e he
  cases d with
  | nil => simp at he
  | cons a d => simp only [dictToPauli, Option.getD_some]; rw [if_pos (le_trans hk this)]

/-- The relations a list of stabilisers and destabilisers must satisfy. -/
structure RowsValid (stabs destabs : List (Op n)) : Prop where
  same_length : destabs.length = stabs.length
  full : stabs.length = n
  stab_stab : ∀ i j (hi : i < stabs.length) (hj : j < stabs.length), Commutes (opMat stabs[i]) (opMat stabs[j])
  destab_destab : ∀ i j (hi : i < destabs.length) (hj : j < destabs.length),
    Commutes (opMat destabs[i]) (opMat destabs[j])
  same : ∀ i (hi : i < stabs.length) (hj : i < destabs.length), Anticommutes (opMat stabs[i]) (opMat destabs[i])
  different : ∀ i j (hi : i < stabs.length) (hj : j < destabs.length), i ≠ j →
    Commutes (opMat stabs[i]) (opMat destabs[j])

/-- **C14 (full statement)** an accepted list of stabilisers and destabilisers is a valid tableau. -/
def C14_statement : Prop := ∀ (n : Nat) (stabs destabs : List (List Char)) (r : List (Op n) × List (Op n)),
  stringToState n stabs destabs none = .ok r → RowsValid r.2 r.1

/-- **C14 fails**: `string_to_state(["ZI", "IZ"], ["XI", "XX"])` is accepted although destabiliser 1 (`XX`) anticommutes with
stabiliser 0 (`ZI`): the branch `elif j > i` is unreachable. -/
theorem C14_string_to_state_counterexample : ¬ C14_statement := by
  intro h
  let ZI : Op 2 := { x := ![false, false], z := ![true, false], r := false }
  let IZ : Op 2 := { x := ![false, false], z := ![false, true], r := false }
  let XI : Op 2 := { x := ![true, false], z := ![false, false], r := false }
  let XX : Op 2 := { x := ![true, true], z := ![false, false], r := false }
  have key : ∃ r : List (Op 2) × List (Op 2),
      stringToState 2 [['Z', 'I'], ['I', 'Z']] [['X', 'I'], ['X', 'X']] none = .ok r ∧
      ∃ (h1 : 0 < r.2.length) (h2 : 1 < r.1.length), commSign r.2[0] r.1[1] = 1 := by
    refine ⟨_, rfl, by decide, by decide, by decide⟩
  obtain ⟨r, hr, h1, h2, h3⟩ := key
  have := (h 2 _ _ r hr).different 0 1 h1 h2 (by decide)
  rw [commutes_iff] at this
  rw [commSign_eq, this] at h3
  simp [bit] at h3

/-- **C14, part that holds**: accepted stabilisers commute, accepted destabilisers commute and each destabiliser anticommutes
with its stabiliser. Missing: destabiliser `j` against stabiliser `i ≠ j`, and that there are as many rows as qubits. -/
theorem C14_state_check_partial (stabs destabs : List (Op n)) (r : List (Op n) × List (Op n))
    (h : stateCheck stabs destabs = .ok r) :
    r = (destabs, stabs) ∧ destabs.length = stabs.length ∧
    (∀ i j (hi : i < stabs.length) (hj : j < stabs.length), Commutes (opMat stabs[i]) (opMat stabs[j])) ∧
    (∀ i j (hi : i < destabs.length) (hj : j < destabs.length), Commutes (opMat destabs[i]) (opMat destabs[j])) ∧
    (∀ i (hi : i < stabs.length) (hj : i < destabs.length), Anticommutes (opMat stabs[i]) (opMat destabs[i])) := by
  unfold stateCheck at h
  by_cases hlen : destabs.length = stabs.length
  swap
  · rw [dif_neg hlen] at h; exact absurd h (by simp)
  rw [dif_pos hlen] at h
  simp only at h
  split at h
  · exact absurd h (by simp)
  rename_i hbad
  simp only [Except.ok.injEq] at h
  simp only [List.any_eq_true, List.mem_finRange, true_and, not_exists, Bool.not_eq_true] at hbad
  have hc : ∀ i j : Fin stabs.length, j ≤ i → commSign (stabs.get i) (stabs.get j) = 0 ∧
      commSign (destabs.get (i.cast hlen.symm)) (destabs.get (j.cast hlen.symm)) = 0 ∧
      (i = j → commSign (stabs.get i) (destabs.get (j.cast hlen.symm)) ≠ 0) := by
    intro i j hij
    have := hbad i j
    rw [if_neg (not_lt.mpr hij)] at this
    split_ifs at this with a b c
    exact ⟨by simpa using a, by simpa using b, fun e hz => c ⟨e, hz⟩⟩
  refine ⟨h.symm, hlen, ?_, ?_, ?_⟩
  · intro i j hi hj
    rw [commutes_iff]
    rcases le_total j i with hij | hij
    · have := (hc ⟨i, hi⟩ ⟨j, hj⟩ hij).1
      rw [commSign_eq] at this
      revert this
      simp only [List.get_eq_getElem]
      cases anti stabs[i] stabs[j] <;> simp [bit]
    · have := (hc ⟨j, hj⟩ ⟨i, hi⟩ hij).1
      rw [commSign_eq, anti_symm] at this
      revert this
      simp only [List.get_eq_getElem]
      cases anti stabs[i] stabs[j] <;> simp [bit]
  · intro i j hi hj
    rw [commutes_iff]
    rcases le_total j i with hij | hij
    · have := (hc ⟨i, hlen ▸ hi⟩ ⟨j, hlen ▸ hj⟩ hij).2.1
      rw [commSign_eq] at this
      revert this
      simp only [List.get_eq_getElem, Fin.val_cast]
      cases anti destabs[i] destabs[j] <;> simp [bit]
    · have := (hc ⟨j, hlen ▸ hj⟩ ⟨i, hlen ▸ hi⟩ hij).2.1
      rw [commSign_eq, anti_symm] at this
      revert this
      simp only [List.get_eq_getElem, Fin.val_cast]
      cases anti destabs[i] destabs[j] <;> simp [bit]
  · intro i hi hj
    rw [anticommutes_iff]
    have := (hc ⟨i, hi⟩ ⟨i, hi⟩ (le_refl _)).2.2 rfl
    rw [commSign_eq] at this
    revert this
    simp only [List.get_eq_getElem, Fin.val_cast]
    cases anti stabs[i] destabs[i] <;> simp [bit]

/-- Non-vacuity of the partial theorem: the strings of the zero state are accepted. -/
example : ∃ r, stringToState 2 [['Z', 'I'], ['I', 'Z']] [['X', 'I'], ['I', 'X']] none = .ok r := ⟨_, rfl⟩

end Plaquette
