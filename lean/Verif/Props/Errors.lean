import Verif.Model.Generator
import Verif.Spec.Sim
import Verif.Lemmas.CircuitCount
import Verif.Lemmas.QecFamilies

/-!
# Properties of the error data (C45, C46)
-/

namespace Plaquette
variable {F : Type} {n : Nat}

/-! ### C45: gate errors act on the intended qubits with the intended probabilities -/

/-- The letters of a Pauli channel, by number. -/
def channelLetter (a : Fin 4) : Char :=
  match a with
  | 0 => 'i'
  | 1 => 'x'
  | 2 => 'y'
  | 3 => 'z'

/-- The probability that a dictionary of parameters gives to an event: 0 if it is not in the dictionary. -/
def Gives (api : FloatApi F) (ps : Params F) (name : List Char) (p : F) : Prop :=
  match dictGet ps name with
  | none => p = api.ofInt 0
  | some v => toFloat api v = .ok p

theorem gives_param {api : FloatApi F} {ps : Params F} {name : List Char} {p : F} (h : Gives api ps name p) :
    toFloat api (param api ps name) = .ok p := by
  unfold Gives at h
  unfold param
  cases hd : dictGet ps name with
  | none => rw [hd] at h; rw [h]; rfl
  | some v => rw [hd] at h; exact h

theorem toFloats_ok {api : FloatApi F} {l : List (Raw F)} {fs : List F}
    (h : List.Forall₂ (fun r f => toFloat api r = .ok f) l fs) : toFloats api l = .ok (fs.map .flt) := by
  induction h with
  | nil => rfl
  | cons h1 _ ih => unfold toFloats; rw [h1, ih]; rfl

/-- The numbers of the pairs of letters, in order. -/
def pairNums : List (Fin 4 × Fin 4) := (List.finRange 4).flatMap fun a => (List.finRange 4).map fun b => (a, b)

theorem pairNames_eq : pairNames = pairNums.map fun p => [channelLetter p.1, channelLetter p.2] := by decide +kernel

theorem pairNums_get (a b : Fin 4) : pairNums[4 * a.val + b.val]? = some (a, b) := by
  revert a b; decide +kernel

theorem valIs_floats (api : FloatApi F) (fs : List F) : List.Forall₂ (ValIs api) (fs.map .flt) fs := by
  induction fs with
  | nil => exact .nil
  | cons f fs ih => exact .cons (.inl rfl) ih

theorem valIs_unique {api : FloatApi F} {fs ps : List F} (h : List.Forall₂ (ValIs api) (fs.map .flt) ps) : ps = fs := by
  induction fs generalizing ps with
  | nil => cases h; rfl
  | cons f fs ih =>
    cases h with
    | cons h1 h2 =>
      rw [ih h2]
      rcases h1 with h1 | ⟨i, h1, _⟩
      · cases h1; rfl
      · cases h1

/-- **C45** the error of a gate CX or CZ. `prob a b` is what the dictionary of the channel of (ancilla, data qubit) says about
the letters a, b. One instruction is appended, and it does the following: the random generator is asked to choose from a
distribution in which the number 4a+b has the probability `prob a b` (for (a, b) ≠ (0, 0), the rest is left for
"no error"), and if the answer is 4a+b, the Pauli operator a is applied to the ancilla and b to the data qubit. -/
theorem C45_two (api : FloatApi F) (G : Gen F) (gate : Name) (hgate : gate = .CX ∨ gate = .CZ) (anc data : Nat) (d : ErrDict F)
    (ps : Params F) (hd : dictGet G.gateErrors gate.text = some d) (hps : dictGet d (.tup [(anc : Int), (data : Int)]) = some ps)
    (prob : Fin 4 → Fin 4 → F) (hprob : ∀ a b, Gives api ps [channelLetter a, channelLetter b] (prob a b)) :
    ∃ (g : Gate F) (probs : List F), G.applyGateError api gate anc (some data) = .ok [g] ∧ probs.length = 15 ∧
      (∀ a b : Fin 4, (a, b) ≠ (0, 0) → probs[4 * a.val + b.val - 1]? = some (prob a b)) ∧
      ∀ (rng : Rng F) (ha : anc < n) (hq : data < n) (σ σ' : VState n), VGate api rng g.name g.args σ σ' ↔
        ∃ (a b : Fin 4) (k : Fin 16), k.val = 4 * a.val + b.val ∧ rng.choice16 σ.pos probs = some k ∧
          σ' = (σ.tick.pauli ⟨anc, ha⟩ a).pauli ⟨data, hq⟩ b := by
  have hge : G.gateError gate anc (some data) = some ps := by
    unfold Gen.gateError
    rw [hd]
    dsimp only
    rw [hps]
  obtain ⟨fs, hfs⟩ : ∃ fs, fs = (pairNums.map fun p => prob p.1 p.2).drop 1 := ⟨_, rfl⟩
  have hlen : fs.length = 15 := by
    rw [hfs, List.length_drop, List.length_map]
    rfl
  have hfl : toFloats api ((pairNames.map (param api ps)).drop 1) = .ok (fs.map .flt) := by
    refine toFloats_ok ?_
    rw [pairNames_eq, hfs, List.map_map]
    refine List.forall₂_drop 1 ?_
    generalize pairNums = l
    induction l with
    | nil => exact .nil
    | cons p l ih => exact .cons (gives_param (hprob p.1 p.2)) ih
  have hl15 : ((pairNames.map (param api ps)).drop 1).length = 15 := by
    rw [List.length_drop, List.length_map, pairNames_eq, List.length_map]; rfl
  refine ⟨⟨.E_PAULI2, fs.map .flt ++ [.int anc, .int data]⟩, fs, ?_, hlen, ?_, ?_⟩
  · unfold Gen.applyGateError
    rw [hge]
    have hemit : emit api .E_PAULI2 ((pairNames.map (param api ps)).drop 1 ++ [.int (anc : Int), .int (data : Int)]) =
        .ok [⟨.E_PAULI2, fs.map .flt ++ [.int anc, .int data]⟩] := by
      unfold emit appendGate
      rw [ofText_text]
      dsimp only
      unfold appendArgs
      dsimp only
      rw [if_pos (by rw [List.length_append, hl15]; rfl), ← hl15, List.take_left, List.drop_left, hfl]
      rfl
    rcases hgate with rfl | rfl <;> exact hemit
  · intro a b hab
    have hpos : 0 < 4 * a.val + b.val := by
      rcases Nat.eq_zero_or_pos (4 * a.val + b.val) with h | h
      · exact absurd (Prod.ext (Fin.ext (by simp; omega)) (Fin.ext (by simp; omega))) hab
      · exact h
    rw [hfs, List.getElem?_drop, show 1 + (4 * a.val + b.val - 1) = 4 * a.val + b.val by omega, List.getElem?_map, pairNums_get]
    rfl
  · intro rng ha hq σ σ'
    constructor
    · intro h
      dsimp only at h
      generalize hn : Name.E_PAULI2 = nm at h
      generalize hargs : fs.map Val.flt ++ [Val.int (anc : Int), Val.int (data : Int)] = args at h
      cases h <;> try (cases hn; done)
      rename_i vs ps' hvs hl q1 q2 rest k1 k2 k hk hch
      obtain ⟨e1, e2⟩ := List.append_inj hargs (by rw [List.length_map, hlen, hl])
      subst e1
      obtain rfl := valIs_unique hvs
      simp only [List.cons.injEq, Val.int.injEq] at e2
      have : q1 = ⟨anc, ha⟩ := Fin.ext (by simp; omega)
      have : q2 = ⟨data, hq⟩ := Fin.ext (by simp; omega)
      subst_vars
      exact ⟨k1, k2, k, hk, hch, rfl⟩
    · rintro ⟨a, b, k, hk, hch, rfl⟩
      exact VGate.pauli2 (valIs_floats api fs) (by rw [List.length_map, hlen]) ⟨anc, ha⟩ ⟨data, hq⟩ [] σ a b k hk hch

/-- **C45** the errors of the gates H, R, M and of data qubits: the Pauli operator number a with the probability of its
letter. -/
theorem C45_one (api : FloatApi F) (G : Gen F) (gate : Name) (hgate : gate = .H ∨ gate = .R ∨ gate = .M) (anc : Nat) (d : ErrDict F)
    (ps : Params F) (hd : dictGet G.gateErrors gate.text = some d) (hps : dictGet d (.int (anc : Int)) = some ps)
    (prob : Fin 4 → F) (hprob : ∀ a, Gives api ps [channelLetter a] (prob a)) :
    ∃ g : Gate F, G.applyGateError api gate anc none = .ok [g] ∧
      ∀ (rng : Rng F) (ha : anc < n) (σ σ' : VState n), VGate api rng g.name g.args σ σ' ↔
        ∃ a : Fin 4, rng.choice4 σ.pos [prob 1, prob 2, prob 3] = some a ∧ σ' = σ.tick.pauli ⟨anc, ha⟩ a := by
  have hge : G.gateError gate anc none = some ps := by
    unfold Gen.gateError
    rw [hd]
    exact hps
  have hfl : toFloats api [param api ps "x".toList, param api ps "y".toList, param api ps "z".toList] =
      .ok ([prob 1, prob 2, prob 3].map .flt) :=
    toFloats_ok (.cons (gives_param (hprob 1)) (.cons (gives_param (hprob 2)) (.cons (gives_param (hprob 3)) .nil)))
  refine ⟨⟨.E_PAULI, [prob 1, prob 2, prob 3].map .flt ++ [.int anc]⟩, ?_, ?_⟩
  · unfold Gen.applyGateError
    rw [hge]
    have hemit : emit api .E_PAULI [param api ps "x".toList, param api ps "y".toList, param api ps "z".toList, .int (anc : Int)] =
        .ok [⟨.E_PAULI, [prob 1, prob 2, prob 3].map .flt ++ [.int anc]⟩] := by
      unfold emit appendGate
      rw [ofText_text]
      dsimp only
      unfold appendArgs
      dsimp only
      rw [if_pos (by rfl)]
      simp only [List.take_succ_cons, List.take_zero, List.drop_succ_cons, List.drop_zero]
      rw [hfl]
      rfl
    rcases hgate with rfl | rfl | rfl <;> exact hemit
  · intro rng ha σ σ'
    constructor
    · intro h
      dsimp only at h
      generalize hn : Name.E_PAULI = nm at h
      generalize hargs : [prob 1, prob 2, prob 3].map Val.flt ++ [Val.int (anc : Int)] = args at h
      cases h <;> try (cases hn; done)
      rename_i vs ps' hvs hl q rest k hch
      obtain ⟨e1, e2⟩ := List.append_inj hargs (by rw [hl]; rfl)
      subst e1
      obtain rfl := valIs_unique hvs
      simp only [List.cons.injEq, Val.int.injEq] at e2
      have : q = ⟨anc, ha⟩ := Fin.ext (by simp; omega)
      subst_vars
      exact ⟨k, hch, rfl⟩
    · rintro ⟨k, hch, rfl⟩
      exact VGate.pauli (valIs_floats api _) rfl ⟨anc, ha⟩ [] σ k hch

/-- A case: the channel {"xz": 1, "iy": 0} after CX on (5, 2). -/
example : ∃ prob : Fin 4 → Fin 4 → Nat, prob 1 3 = 1 ∧ prob 0 2 = 0 ∧ prob 3 3 = 0 ∧
    ∀ a b, Gives natApi [("xz".toList, .flt 1), ("iy".toList, .flt 0)] [channelLetter a, channelLetter b] (prob a b) := by
  refine ⟨fun a b => if a = 1 ∧ b = 3 then 1 else 0, rfl, rfl, rfl, ?_⟩
  have hall : ∀ a b : Fin 4, dictGet [("xz".toList, Raw.flt 1), ("iy".toList, Raw.flt 0)] [channelLetter a, channelLetter b] =
      if a = 1 ∧ b = 3 then some (Raw.flt 1) else if a = 0 ∧ b = 2 then some (Raw.flt 0) else (none : Option (Raw Nat)) := by
    intro a b
    fin_cases a <;> fin_cases b <;> rfl
  intro a b
  unfold Gives
  rw [hall]
  fin_cases a <;> fin_cases b <;> rfl

/-! ### C46: check_against_code -/

/-- The electronic qubit of that index is a data qubit. -/
def Lattice.IsDataIdx (L : Lattice) (i : Int) : Prop := 0 ≤ i ∧ ∃ p, L.equbits[i.toNat]? = some p ∧ p ∈ L.dataqubits

/-- The electronic qubit of that index is the ancilla of a stabiliser. -/
def Lattice.IsStabIdx (L : Lattice) (i : Int) : Prop := 0 ≤ i ∧ ∃ p, L.equbits[i.toNat]? = some p ∧ L.isStab p = true

/-- What an entry of an error dictionary has to be. -/
def EntryFits (L : Lattice) (name : List Char) (key : QKey) (ps : List (List Char)) : Prop :=
  if name = "pauli".toList then ∃ i, key = .int i ∧ L.IsDataIdx i ∧ ∀ k ∈ ps, k ∈ onePauliNames
  else if name = "erasure".toList then ∃ i, key = .int i ∧ L.IsDataIdx i ∧ ∀ k ∈ ps, k = "p".toList
  else if name = "measurement".toList then ∃ i, key = .int i ∧ L.IsStabIdx i ∧ ∀ k ∈ ps, k = "p".toList
  else if name = "CX".toList ∨ name = "CZ".toList then
    ∃ i j, key = .tup [i, j] ∧ L.IsStabIdx i ∧ L.IsDataIdx j ∧
      ∀ k ∈ ps, ∃ a b : Fin 4, k = [channelLetter a, channelLetter b] ∧ (a, b) ≠ (0, 0)
  else if name = "H".toList ∨ name = "M".toList ∨ name = "R".toList then
    ∃ i, key = .int i ∧ L.IsStabIdx i ∧ ∀ k ∈ ps, k ∈ onePauliNames
  else False

theorem checkData_iff {L : Lattice} {k : QKey} : L.checkData k = .ok () ↔ ∃ i, k = .int i ∧ L.IsDataIdx i := by
  cases k with
  | tup l => simp [Lattice.checkData]
  | int i =>
    unfold Lattice.checkData Lattice.IsDataIdx
    simp only [QKey.int.injEq]
    by_cases h : i < 0 ∨ i ≥ L.equbits.length
    · rw [if_pos h]
      simp only [reduceCtorEq, false_iff]
      rintro ⟨j, rfl, h0, p, hp, _⟩
      have := (List.getElem?_eq_some_iff.mp hp).1
      omega
    · rw [if_neg h]
      have hlt : i.toNat < L.equbits.length := by omega
      rw [List.getElem?_eq_getElem hlt]
      dsimp only
      constructor
      · intro h'
        split at h'
        · rename_i hm
          exact ⟨i, rfl, by omega, _, List.getElem?_eq_getElem hlt, hm⟩
        · cases h'
      · rintro ⟨j, rfl, _, p, hp, hm⟩
        rw [List.getElem?_eq_getElem hlt] at hp
        cases hp
        rw [if_pos hm]

theorem checkStab_iff {L : Lattice} {k : QKey} : L.checkStab k = .ok () ↔ ∃ i, k = .int i ∧ L.IsStabIdx i := by
  cases k with
  | tup l => simp [Lattice.checkStab]
  | int i =>
    unfold Lattice.checkStab Lattice.IsStabIdx
    simp only [QKey.int.injEq]
    by_cases h : i < 0 ∨ i ≥ L.equbits.length
    · rw [if_pos h]
      simp only [reduceCtorEq, false_iff]
      rintro ⟨j, rfl, h0, p, hp, _⟩
      have := (List.getElem?_eq_some_iff.mp hp).1
      omega
    · rw [if_neg h]
      have hlt : i.toNat < L.equbits.length := by omega
      rw [List.getElem?_eq_getElem hlt]
      dsimp only
      constructor
      · intro h'
        split at h'
        · rename_i hm
          exact ⟨i, rfl, by omega, _, List.getElem?_eq_getElem hlt, hm⟩
        · cases h'
      · rintro ⟨j, rfl, _, p, hp, hm⟩
        rw [List.getElem?_eq_getElem hlt] at hp
        cases hp
        rw [if_pos hm]

theorem checkKeys_iff {allowed : List (List Char)} {ps : Params F} :
    checkKeys allowed ps = .ok () ↔ ∀ k ∈ ps.map Prod.fst, k ∈ allowed := by
  unfold checkKeys
  split
  · rename_i h; simpa using h
  · rename_i h; simpa using h

theorem checkLoop_iff {α : Type} {f : α → Except Err Unit} {l : List α} : checkLoop f l = .ok () ↔ ∀ a ∈ l, f a = .ok () := by
  induction l with
  | nil => simp [checkLoop]
  | cons a l ih =>
    unfold checkLoop
    cases h : f a with
    | error e => simp [h]
    | ok u => simp [ih, h]

theorem bind_unit {a b : Except Err Unit} : (a >>= fun _ => b) = .ok () ↔ a = .ok () ∧ b = .ok () := by
  cases a with
  | error e => simp [bind, Except.bind]
  | ok u => simp [bind, Except.bind]

theorem checkIf_iff {errs : List (List Char × ErrDict F)} (hn : (errs.map Prod.fst).Nodup) {name : List Char}
    {f : ErrDict F → Except Err Unit} : checkIf errs name f = .ok () ↔ ∀ d, (name, d) ∈ errs → f d = .ok () := by
  have hget : ∀ d, dictGet errs name = some d ↔ (name, d) ∈ errs := by
    clear f
    intro d
    unfold dictGet
    induction errs with
    | nil => simp
    | cons e errs ih =>
      rw [List.map_cons, List.nodup_cons] at hn
      rw [List.find?_cons]
      by_cases he : e.1 = name
      · simp only [he, decide_true, Option.map_some, Option.some.injEq, List.mem_cons]
        constructor
        · rintro rfl; left; rw [← he]
        · rintro (h | h)
          · rw [← h]
          · exact absurd (List.mem_map.mpr ⟨_, h, rfl⟩) (by rw [← he]; exact hn.1)
      · simp only [he, decide_false]
        rw [ih hn.2, List.mem_cons]
        constructor
        · exact Or.inr
        · rintro (h | h)
          · rw [← h] at he; simp at he
          · exact h
  unfold checkIf
  cases h : dictGet errs name with
  | none =>
    simp only [true_iff]
    intro d hd
    rw [(hget d).mpr hd] at h
    cases h
  | some d =>
    dsimp only
    constructor
    · intro hf d' hd'
      rw [(hget d').mpr hd'] at h
      cases h
      exact hf
    · intro hall
      exact hall d ((hget d).mp h)

theorem twoPauli_iff (k : List Char) : k ∈ twoPauliNames ↔ ∃ a b : Fin 4, k = [channelLetter a, channelLetter b] ∧ (a, b) ≠ (0, 0) := by
  constructor
  · have : ∀ k ∈ twoPauliNames, ∃ a b : Fin 4, k = [channelLetter a, channelLetter b] ∧ (a, b) ≠ (0, 0) := by decide +kernel
    exact this k
  · have : ∀ a b : Fin 4, (a, b) ≠ (0, 0) → [channelLetter a, channelLetter b] ∈ twoPauliNames := by decide +kernel
    rintro ⟨a, b, rfl, h⟩
    exact this a b h

/-- **C46** `check_against_code` raises no exception exactly if every entry of every dictionary fits the code. -/
theorem C46_check (L : Lattice) (errs : List (List Char × ErrDict F)) (hn : (errs.map Prod.fst).Nodup) :
    checkAgainstCode L errs = .ok () ↔
      ∀ name d, (name, d) ∈ errs → (name ∈ qubitErrorNames ∨ name ∈ gateErrorNames) ∧
        ∀ key ps, (key, ps) ∈ d → EntryFits L name key (ps.map Prod.fst) := by
  have hphys : ∀ allowed (d : ErrDict F), checkPhysQubit L allowed d = .ok () ↔
      ∀ key ps, (key, ps) ∈ d → ∃ i, key = .int i ∧ L.IsDataIdx i ∧ ∀ k ∈ ps.map Prod.fst, k ∈ allowed := by
    intro allowed d
    unfold checkPhysQubit
    rw [checkLoop_iff]
    simp only [Prod.forall, bind_unit, checkData_iff, checkKeys_iff]
    exact forall_congr' fun key => forall_congr' fun ps => imp_congr_right fun _ => by
      constructor
      · rintro ⟨⟨i, a, b⟩, c⟩; exact ⟨i, a, b, c⟩
      · rintro ⟨i, a, b, c⟩; exact ⟨⟨i, a, b⟩, c⟩
  have hstab : ∀ allowed (d : ErrDict F), checkStabQubit L allowed d = .ok () ↔
      ∀ key ps, (key, ps) ∈ d → ∃ i, key = .int i ∧ L.IsStabIdx i ∧ ∀ k ∈ ps.map Prod.fst, k ∈ allowed := by
    intro allowed d
    unfold checkStabQubit
    rw [checkLoop_iff]
    simp only [Prod.forall, bind_unit, checkStab_iff, checkKeys_iff]
    exact forall_congr' fun key => forall_congr' fun ps => imp_congr_right fun _ => by
      constructor
      · rintro ⟨⟨i, a, b⟩, c⟩; exact ⟨i, a, b, c⟩
      · rintro ⟨i, a, b, c⟩; exact ⟨⟨i, a, b⟩, c⟩
  have hone : ∀ (d : ErrDict F), checkOneQubit L d = .ok () ↔
      ∀ key ps, (key, ps) ∈ d → ∃ i, key = .int i ∧ L.IsStabIdx i ∧ ∀ k ∈ ps.map Prod.fst, k ∈ onePauliNames := by
    intro d
    exact hstab onePauliNames d
  have htwo : ∀ (d : ErrDict F), checkTwoQubit L d = .ok () ↔
      ∀ key ps, (key, ps) ∈ d → ∃ i j, key = .tup [i, j] ∧ L.IsStabIdx i ∧ L.IsDataIdx j ∧
        ∀ k ∈ ps.map Prod.fst, ∃ a b : Fin 4, k = [channelLetter a, channelLetter b] ∧ (a, b) ≠ (0, 0) := by
    intro d
    unfold checkTwoQubit
    rw [checkLoop_iff]
    simp only [Prod.forall]
    refine forall_congr' fun key => forall_congr' fun ps => imp_congr_right fun _ => ?_
    match key with
    | .int i => simp
    | .tup [] => simp
    | .tup [a] => simp
    | .tup (a :: b :: c :: l) => simp
    | .tup [a, b] =>
      simp only [bind_unit, checkStab_iff, checkData_iff, checkKeys_iff, twoPauli_iff]
      constructor
      · rintro ⟨⟨i, hi, h1⟩, ⟨j, hj, h2⟩, h3⟩
        cases hi
        cases hj
        exact ⟨a, b, rfl, h1, h2, h3⟩
      · rintro ⟨i, j, hij, h1, h2, h3⟩
        cases hij
        exact ⟨⟨a, rfl, h1⟩, ⟨b, rfl, h2⟩, h3⟩
  unfold checkAgainstCode
  by_cases hu : (errs.any fun e => e.1 ∉ qubitErrorNames ∧ e.1 ∉ gateErrorNames) = true
  · rw [if_pos hu]
    simp only [reduceCtorEq, false_iff]
    intro h
    obtain ⟨e, he, hc⟩ := List.any_eq_true.mp hu
    simp only [decide_eq_true_eq] at hc
    rcases (h e.1 e.2 he).1 with h1 | h1
    · exact hc.1 h1
    · exact hc.2 h1
  · rw [if_neg hu]
    have hu' : ∀ name d, (name, d) ∈ errs → name ∈ qubitErrorNames ∨ name ∈ gateErrorNames := by
      intro name d hm
      by_contra hc
      refine hu (List.any_eq_true.mpr ⟨_, hm, ?_⟩)
      simp only [decide_eq_true_eq]
      push Not at hc
      exact hc
    simp only [bind_unit, checkLoop_iff, checkIf_iff hn, hphys, hstab, hone, htwo]
    constructor
    · rintro ⟨h1, h2, h3, h4, h5⟩ name d hm
      refine ⟨hu' name d hm, fun key ps hk => ?_⟩
      have hname : name ∈ qubitErrorNames ++ gateErrorNames := List.mem_append.mpr (hu' name d hm)
      simp only [qubitErrorNames, gateErrorNames, List.cons_append, List.nil_append, List.mem_cons, List.not_mem_nil, or_false] at hname
      rcases hname with rfl | rfl | rfl | rfl | rfl | rfl | rfl | rfl
      · exact h1 d hm key ps hk
      · obtain ⟨i, a, b, c⟩ := h2 d hm key ps hk
        exact ⟨i, a, b, fun k hk => List.mem_singleton.mp (c k hk)⟩
      · obtain ⟨i, a, b, c⟩ := h3 d hm key ps hk
        exact ⟨i, a, b, fun k hk => List.mem_singleton.mp (c k hk)⟩
      · exact h4 _ (.head _) d hm key ps hk
      · exact h4 _ (.tail _ (.head _)) d hm key ps hk
      · exact h5 _ (.head _) d hm key ps hk
      · exact h5 _ (.tail _ (.tail _ (.head _))) d hm key ps hk
      · exact h5 _ (.tail _ (.head _)) d hm key ps hk
    · intro h
      refine ⟨fun d hm key ps hk => (h _ d hm).2 key ps hk, fun d hm key ps hk => ?_, fun d hm key ps hk => ?_, ?_, ?_⟩
      · obtain ⟨i, a, b, c⟩ := (h _ d hm).2 key ps hk
        exact ⟨i, a, b, fun k hk => List.mem_singleton.mpr (c k hk)⟩
      · obtain ⟨i, a, b, c⟩ := (h _ d hm).2 key ps hk
        exact ⟨i, a, b, fun k hk => List.mem_singleton.mpr (c k hk)⟩
      · intro g hg d hm key ps hk
        simp only [List.mem_cons, List.not_mem_nil, or_false] at hg
        rcases hg with rfl | rfl <;> exact (h _ d hm).2 key ps hk
      · intro g hg d hm key ps hk
        simp only [List.mem_cons, List.not_mem_nil, or_false] at hg
        rcases hg with rfl | rfl | rfl <;> exact (h _ d hm).2 key ps hk

set_option maxRecDepth 100000 in
/-- A case on the repetition code with 3 qubits (electronic qubits 0, 1, 2 are data qubits, 3 and 4 ancillas): a dictionary that is accepted. -/
example : checkAgainstCode (Rep.lat 3) [("pauli".toList, [(.int 0, [("x".toList, Raw.flt 1)])]),
    ("CZ".toList, [(.tup [3, 1], [("zz".toList, .flt 1)])])] = .ok () := by decide +kernel

set_option maxRecDepth 100000 in
/-- Rejected: an ancilla as data qubit, the pair in the wrong order, an unknown letter, an integer as key of CZ. -/
example : checkAgainstCode (Rep.lat 3) [("pauli".toList, [(.int 3, [("x".toList, Raw.flt 1)])])] ≠ .ok () ∧
    checkAgainstCode (Rep.lat 3) [("CZ".toList, [(.tup [1, 3], [("zz".toList, Raw.flt 1)])])] ≠ .ok () ∧
    checkAgainstCode (Rep.lat 3) [("H".toList, [(.int 3, [("q".toList, Raw.flt 1)])])] ≠ .ok () ∧
    checkAgainstCode (Rep.lat 3) [("CZ".toList, [(.int 3, [("zz".toList, Raw.flt 1)])])] = .error .typeError := by decide +kernel

end Plaquette
