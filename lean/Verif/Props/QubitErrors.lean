import Verif.Props.Errors

/-!
# Properties of the errors on data qubits and of measurements (C55)
-/

namespace Plaquette
variable {F : Type} {n : Nat}

theorem emit_pauli {api : FloatApi F} {ps : Params F} {prob : Fin 4 → F} (hprob : ∀ a, Gives api ps [channelLetter a] (prob a)) (q : Nat) :
    emit api .E_PAULI [param api ps "x".toList, param api ps "y".toList, param api ps "z".toList, .int (q : Int)] =
      .ok [⟨.E_PAULI, [prob 1, prob 2, prob 3].map .flt ++ [.int q]⟩] := by
  have hfl : toFloats api [param api ps "x".toList, param api ps "y".toList, param api ps "z".toList] =
      .ok ([prob 1, prob 2, prob 3].map .flt) :=
    toFloats_ok (.cons (gives_param (hprob 1)) (.cons (gives_param (hprob 2)) (.cons (gives_param (hprob 3)) .nil)))
  unfold emit appendGate
  rw [ofText_text]
  dsimp only
  unfold appendArgs
  dsimp only
  rw [if_pos (by rfl)]
  simp only [List.take_succ_cons, List.take_zero, List.drop_succ_cons, List.drop_zero]
  rw [hfl]
  rfl

theorem emit_erase {api : FloatApi F} {ps : Params F} {p : F} (hp : Gives api ps ['p'] p) (q : Nat) :
    emit api .E_ERASE [param api ps "p".toList, .int (q : Int)] = .ok [⟨.E_ERASE, [.flt p, .int q]⟩] := by
  have hfl : toFloats api [param api ps "p".toList] = .ok [.flt p] := toFloats_ok (.cons (gives_param hp) .nil)
  unfold emit appendGate
  rw [ofText_text]
  dsimp only
  unfold appendArgs
  dsimp only
  rw [if_pos (by rfl)]
  simp only [List.take_succ_cons, List.take_zero, List.drop_succ_cons, List.drop_zero]
  rw [hfl]
  rfl

/-- The instruction applies the Pauli operator number `a` to the qubit with probability `prob a`. -/
def ActsAsPauli (api : FloatApi F) (g : Gate F) (q : Nat) (prob : Fin 4 → F) : Prop :=
  ∀ (n : Nat) (rng : Rng F) (hq : q < n) (σ σ' : VState n), VGate api rng g.name g.args σ σ' ↔
    ∃ a : Fin 4, rng.choice4 σ.pos [prob 1, prob 2, prob 3] = some a ∧ σ' = σ.tick.pauli ⟨q, hq⟩ a

/-- The instruction erases the qubit with probability `p`: a random Pauli operator is applied. It records whether it did. -/
def ActsAsErasure (api : FloatApi F) (g : Gate F) (q : Nat) (p : F) : Prop :=
  ∀ (n : Nat) (rng : Rng F) (hq : q < n) (σ σ' : VState n), VGate api rng g.name g.args σ σ' ↔
    (rng.below σ.pos p = false ∧ σ' = { σ.tick with erasure := σ.erasure ++ [false] }) ∨
    (rng.below σ.pos p = true ∧ σ' = { σ.tick.tick with erasure := σ.erasure ++ [true] }.pauli ⟨q, hq⟩ (rng.int4 (σ.pos + 1)))

theorem acts_pauli (api : FloatApi F) (q : Nat) (prob : Fin 4 → F) :
    ActsAsPauli api ⟨.E_PAULI, [prob 1, prob 2, prob 3].map .flt ++ [.int q]⟩ q prob := by
  intro n rng ha σ σ'
  constructor
  · intro h
    dsimp only at h
    generalize hn : Name.E_PAULI = nm at h
    generalize hargs : [prob 1, prob 2, prob 3].map Val.flt ++ [Val.int (q : Int)] = args at h
    cases h <;> try (cases hn; done)
    rename_i vs ps' hvs hl q' rest k hch
    obtain ⟨e1, e2⟩ := List.append_inj hargs (by rw [hl]; rfl)
    subst e1
    obtain rfl := valIs_unique hvs
    simp only [List.cons.injEq, Val.int.injEq] at e2
    have : q' = ⟨q, ha⟩ := Fin.ext (by simp; omega)
    subst_vars
    exact ⟨k, hch, rfl⟩
  · rintro ⟨k, hch, rfl⟩
    exact VGate.pauli (valIs_floats api _) rfl ⟨q, ha⟩ [] σ k hch

theorem acts_erase (api : FloatApi F) (q : Nat) (p : F) : ActsAsErasure api ⟨.E_ERASE, [.flt p, .int q]⟩ q p := by
  intro n rng ha σ σ'
  have hval : ∀ p', ValIs api (.flt p) p' → p' = p := by
    rintro p' (h | ⟨i, h, _⟩)
    · cases h; rfl
    · cases h
  constructor
  · intro h
    dsimp only at h
    generalize hn : Name.E_ERASE = nm at h
    generalize hargs : [Val.flt p, Val.int (q : Int)] = args at h
    cases h <;> try (cases hn; done)
    · rename_i v p' hv q' hb
      cases hargs
      obtain rfl := hval _ hv
      exact .inl ⟨hb, rfl⟩
    · rename_i v p' hv q' hb
      simp only [List.cons.injEq, Val.int.injEq] at hargs
      obtain ⟨rfl, hq, -⟩ := hargs
      obtain rfl := hval _ hv
      have : q' = ⟨q, ha⟩ := Fin.ext (by simp; omega)
      subst this
      exact .inr ⟨hb, rfl⟩
  · rintro (⟨hb, rfl⟩ | ⟨hb, rfl⟩)
    · exact VGate.noErase (.inl rfl) _ σ hb
    · exact VGate.erase (.inl rfl) ⟨q, ha⟩ σ hb

/-- **C55** The errors of a data qubit `q` in a round: one instruction for its Pauli channel, if the dictionary "pauli" has parameters
for it, and one for its erasure, if the dictionary "erasure" has; both act on this qubit with the probabilities of the
dictionary. -/
theorem C55_data (api : FloatApi F) (G : Gen F) (v : Pos) (q : Nat) (hq : G.lat.idx v = q) (dp de : ErrDict F)
    (hdp : dictGet G.qubitErrors "pauli".toList = some dp) (hde : dictGet G.qubitErrors "erasure".toList = some de)
    (pp pe : Params F) (hpp : (dictGet dp (.int (q : Int))).getD [] = pp) (hpe : (dictGet de (.int (q : Int))).getD [] = pe)
    (prob : Fin 4 → F) (hprob : ∀ a, Gives api pp [channelLetter a] (prob a)) (p : F) (hp : Gives api pe ['p'] p) :
    ∃ gp ge, G.dataErrors api v = .ok (gp ++ ge) ∧
      (if pp = [] then gp = [] else ∃ g, gp = [g] ∧ ActsAsPauli api g q prob) ∧
      (if pe = [] then ge = [] else ∃ g, ge = [g] ∧ ActsAsErasure api g q p) := by
  refine ⟨if pp = [] then [] else [⟨.E_PAULI, [prob 1, prob 2, prob 3].map .flt ++ [.int q]⟩],
    if pe = [] then [] else [⟨.E_ERASE, [.flt p, .int q]⟩], ?_, ?_, ?_⟩
  · unfold Gen.dataErrors
    rw [hq]
    have h1 : G.qubitErr "pauli".toList q = .ok (dictGet dp (.int (q : Int))) := by unfold Gen.qubitErr; rw [hdp]
    have h2 : G.qubitErr "erasure".toList q = .ok (dictGet de (.int (q : Int))) := by unfold Gen.qubitErr; rw [hde]
    rw [h1, h2]
    have e1 : (match (Except.ok (dictGet dp (.int (q : Int))) : Except Err (Option (Params F))) with
        | .error e => .error e
        | .ok none => .ok []
        | .ok (some []) => .ok []
        | .ok (some ps) => emit api .E_PAULI [param api ps "x".toList, param api ps "y".toList, param api ps "z".toList, .int (q : Int)]) =
        (.ok (if pp = [] then [] else [⟨.E_PAULI, [prob 1, prob 2, prob 3].map .flt ++ [.int q]⟩]) : Except Err (List (Gate F))) := by
      cases hd : dictGet dp (.int (q : Int)) with
      | none => rw [hd] at hpp; subst hpp; rfl
      | some ps =>
        rw [hd] at hpp
        simp only [Option.getD_some] at hpp
        subst hpp
        match ps with
        | [] => rfl
        | a :: ps => exact (emit_pauli hprob q)
    have e2 : (match (Except.ok (dictGet de (.int (q : Int))) : Except Err (Option (Params F))) with
        | .error e => .error e
        | .ok none => .ok []
        | .ok (some []) => .ok []
        | .ok (some ps) => emit api .E_ERASE [param api ps "p".toList, .int (q : Int)]) =
        (.ok (if pe = [] then [] else [⟨.E_ERASE, [.flt p, .int q]⟩]) : Except Err (List (Gate F))) := by
      cases hd : dictGet de (.int (q : Int)) with
      | none => rw [hd] at hpe; subst hpe; rfl
      | some ps =>
        rw [hd] at hpe
        simp only [Option.getD_some] at hpe
        subst hpe
        match ps with
        | [] => rfl
        | a :: ps => exact (emit_erase hp q)
    exact (congrArg₂ catE e1 e2).trans rfl
  · split
    · rfl
    · exact ⟨_, rfl, acts_pauli api q prob⟩
  · split
    · rfl
    · exact ⟨_, rfl, acts_erase api q p⟩

/-- **C55** The measurement error of an ancilla: with the probability `p` of the dictionary "measurement", `X` is applied to it. -/
theorem C55_measurement (api : FloatApi F) (G : Gen F) (anc : Nat) (d : ErrDict F) (ps : Params F) (v : Raw F) (p : F)
    (hd : dictGet G.qubitErrors "measurement".toList = some d) (hps : dictGet d (.int (anc : Int)) = some ps)
    (hv : dictGet ps "p".toList = some v) (hp : toFloat api v = .ok p) (hu : api.inUnit p = true) :
    ∃ a : Alt F, G.applyMeasError api anc = .ok (chainInstrs a []) ∧
      ∀ (rng : Rng F) (ha : anc < n) (σ σ' : VState n), VAlts api rng [a] σ σ' ↔
        (rng.below σ.pos p = false ∧ σ' = σ.tick) ∨
        (rng.below σ.pos p = true ∧ σ' = { σ.tick with ψ := evolve [.x ⟨anc, ha⟩] σ.ψ }) := by
  refine ⟨⟨p, (.X, [.int anc]), []⟩, ?_, fun rng ha σ σ' => ?_⟩
  · unfold Gen.applyMeasError
    have h1 : G.qubitErr "measurement".toList anc = .ok (some ps) := by unfold Gen.qubitErr; rw [hd]; exact congrArg _ hps
    rw [h1]
    match ps with
    | [] => cases hv
    | a :: ps =>
      dsimp only
      rw [hv]
      dsimp only
      unfold emit appendGate
      rw [ofText_text]
      dsimp only
      unfold appendArgs
      dsimp only
      rw [hp]
      dsimp only
      rw [if_pos hu]
      rfl
  · constructor
    · intro h
      cases h with
      | hit hb hs =>
        refine .inr ⟨hb, ?_⟩
        cases hs with
        | cons h1 h2 =>
          cases h2
          dsimp only at h1
          generalize hn : Name.X = nm at h1
          generalize hargs : [(Val.int (anc : Int) : Val F)] = args at h1
          cases h1 <;> try (cases hn; done)
          rename_i qs
          match qs with
          | [] => cases hargs
          | [q] =>
            simp only [qArgs, List.map_cons, List.map_nil, List.cons.injEq, Val.int.injEq, and_true] at hargs
            have : q = ⟨anc, ha⟩ := Fin.ext (by simp; omega)
            subst this
            rfl
          | _ :: _ :: _ => simp [qArgs] at hargs
      | miss hb hs =>
        cases hs
        exact .inl ⟨hb, rfl⟩
    · rintro (⟨hb, rfl⟩ | ⟨hb, rfl⟩)
      · exact .miss hb (.none _)
      · exact .hit hb (.cons (VGate.x [⟨anc, ha⟩] σ.tick) (.nil _))

/-- Cases: data qubit 1 of the repetition code with the channel {"z": 1} and erasure probability 1, and ancilla 3 with
measurement errors. -/
example : ∃ G : Gen Nat, Gen.make ((Rep.lat 3).latCode 2) [("pauli".toList, [(.int 1, [("z".toList, .flt 1)])]),
      ("erasure".toList, [(.int 1, [("p".toList, .flt 1)])]), ("measurement".toList, [(.int 3, [("p".toList, .flt 1)])])] [] false = .ok G ∧
    (∀ v ∈ G.lat.dataqubits, G.lat.idx v = 1 → (G.dataErrors natApi v).map (fun l => l.map (·.name)) = .ok [.E_PAULI, .E_ERASE]) ∧
    (∃ v ∈ G.lat.dataqubits, G.lat.idx v = 1) ∧ (G.applyMeasError natApi 3).map (fun l => l.map (·.name)) = .ok [.ERROR] ∧
    (G.applyMeasError natApi 4).map (fun l => l.map (·.name)) = .ok [] :=
  ⟨_, rfl, by decide +kernel, by decide +kernel, by decide +kernel, by decide +kernel⟩

end Plaquette
