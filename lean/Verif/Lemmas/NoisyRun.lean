import Verif.Lemmas.QecMain
import Verif.Spec.Noise

/-!
# Parts of a circuit with errors
-/

namespace Plaquette
open Matrix
variable {F : Type} {n : Nat} {api : FloatApi F} {rng : Rng F}

/-! ### Runs in parts -/

theorem runGates_cons {S S' : Sim n} {g : Gate F} {gs : List (Gate F)} (h : S.runGates api rng (g :: gs) = .ok S') :
    ∃ S1, S.runGate api rng g = .ok S1 ∧ S1.runGates api rng gs = .ok S' := by
  rw [Sim.runGates] at h
  split at h
  · cases h
  · next S1 h1 => exact ⟨S1, h1, h⟩

theorem run_parts {S S' : Sim n} {a b : List (Gate F)} (h : S.runGates api rng (a ++ b) = .ok S') :
    ∃ S1, S.runGates api rng a = .ok S1 ∧ S1.runGates api rng b = .ok S' ∧ S.events api rng (a ++ b) = S.events api rng a ++ S1.events api rng b := by
  induction a generalizing S with
  | nil => exact ⟨S, rfl, h, rfl⟩
  | cons g a ih =>
    obtain ⟨S1, h1, h2⟩ := runGates_cons h
    obtain ⟨S2, h3, h4, h5⟩ := ih h2
    refine ⟨S2, ?_, h4, ?_⟩
    · rw [Sim.runGates, h1]; exact h3
    · rw [List.cons_append, Sim.events, h1, Sim.events, h1]
      simp only [h5, List.append_assoc]

/-- Gates without errors. -/
theorem plain_part {gs : List (Name × List (Val F))} (hp : ∀ g ∈ gs, PlainGate g) {S S' : Sim n} {σ : VState n} (hS : S.Is σ)
    (h : S.runGates api rng (gs.map toGate) = .ok S') :
    ∃ σ', S'.Is σ' ∧ VGates api rng gs σ σ' ∧ S.events api rng (gs.map toGate) = [] := by
  have e : gs.map toGate = flatten (gs.map fun g => Block.gate g.1 g.2) := by
    unfold flatten
    rw [List.flatMap_map, List.map_eq_flatMap]
    rfl
  have hgates : ∀ b ∈ gs.map (fun g => Block.gate g.1 g.2), b.Proper ∧ ∀ g' ∈ b.gates, PlainGate g' := by
    intro b hb
    obtain ⟨g, hg, rfl⟩ := List.mem_map.mp hb
    refine ⟨(hp g hg).proper, fun g' hg' => ?_⟩
    have : g' = g := List.mem_singleton.mp hg'
    subst this
    exact hp g' hg
  have h' := h
  rw [e] at h'
  obtain ⟨σ', h2, h3⟩ := run_is api rng hS (fun b hb => (hgates b hb).1) (fun b hb g hg => ((hgates b hb).2 g hg).two) h'
  refine ⟨σ', h3, vrun_plain h2, ?_⟩
  clear h' h2 h3 hS hgates e
  induction gs generalizing S with
  | nil => rfl
  | cons g gs ih =>
    obtain ⟨S1, h1, h2⟩ := runGates_cons h
    rw [List.map_cons, Sim.events, h1]
    dsimp only
    rw [ih (fun g hg => hp g (List.mem_cons_of_mem _ hg)) h2, List.append_nil]
    rcases hp g List.mem_cons_self with ⟨nm, i, hn, rfl⟩ | ⟨nm, i, j, hn, _, rfl⟩
    · rcases hn with rfl | rfl | rfl <;> rfl
    · rcases hn with rfl | rfl <;> rfl

/-! ### Pauli errors -/

/-- The operator of Pauli matrix number `k` on the qubit with index `i`. -/
def numOp (n : Nat) (i : Nat) (k : Fin 4) : Op n :=
  { x := fun q => decide (q.val = i) && numX k, z := fun q => decide (q.val = i) && numZ k, r := false }

theorem anti_numOp (p : Op n) (q : Fin n) (k : Fin 4) : anti p (numOp n q.val k) = ((p.x q && numZ k) ^^ (p.z q && numX k)) := by
  unfold anti
  rw [Finset.sum_eq_single q]
  · simp only [numOp, decide_true, Bool.true_and]
    cases p.x q <;> cases p.z q <;> cases numX k <;> cases numZ k <;> decide
  · intro i _ hi
    have : ¬ i.val = q.val := fun h => hi (Fin.ext h)
    simp [numOp, this, bit]
  · simp

theorem pauli_stab (q : Fin n) (k : Fin 4) {p : Op n} {ψ : Vec n} (h : Stabilises p ψ) :
    Stabilises { p with r := p.r ^^ anti p (numOp n q.val k) } (pauliNo q k *ᵥ ψ) := by
  rw [anti_numOp]
  obtain ⟨e0, e1, e2, e3⟩ := pauliNo_unitary q
  match k with
  | 0 =>
    rw [e0, Matrix.one_mulVec]
    simpa [numX, numZ] using h
  | 1 =>
    rw [e1]
    have := stab_gate (CGate.x q) trivial h
    simpa [CGate.row, xRow, numX, numZ] using this
  | 2 =>
    rw [e2]
    have := stab_gate (CGate.y q) trivial h
    simpa [CGate.row, yRow, zRow, xRow, numX, numZ, Bool.xor_assoc, Bool.xor_comm (p.z q)] using this
  | 3 =>
    rw [e3]
    have := stab_gate (CGate.z q) trivial h
    simpa [CGate.row, zRow, numX, numZ] using this

theorem pauli_ne_zero (q : Fin n) (k : Fin 4) {ψ : Vec n} (h : ψ ≠ 0) : pauliNo q k *ᵥ ψ ≠ 0 := by
  obtain ⟨e0, e1, e2, e3⟩ := pauliNo_unitary q
  match k with
  | 0 => rw [e0, Matrix.one_mulVec]; exact h
  | 1 => rw [e1]; exact gate_ne_zero (CGate.x q) trivial h
  | 2 => rw [e2]; exact gate_ne_zero (CGate.y q) trivial h
  | 3 => rw [e3]; exact gate_ne_zero (CGate.z q) trivial h

theorem pauli_value {i : Nat} (q : Fin n) (hq : q.val = i) (k : Fin 4) {p : Op n} {m : Bool} {ψ : Vec n} (h : HasValue p m ψ) :
    HasValue p (m ^^ anti p (numOp n i k)) (pauliNo q k *ᵥ ψ) := by
  subst hq
  have := pauli_stab q k h
  rw [anti_sign] at this
  exact this

/-! ### Measurement errors -/

/-- The instruction that flips the ancilla `a` before it is measured, if there is one. -/
def FlipGate (a : Nat) (gs : List (Gate F)) : Prop := gs = [] ∨ ∃ p, gs = [⟨.ERROR, [.flt p, .name .X, .int a]⟩]

/-- Its decision. -/
def flipEvents (a : Nat) (gs : List (Gate F)) (b : Bool) : List Event := if gs = [] then [] else [.flip a b]

theorem vgate_x {i : Nat} {σ σ' : VState n} (h : VGate api rng .X [.int i] σ σ') :
    ∃ q : Fin n, q.val = i ∧ σ' = { σ with ψ := (CGate.x q).unitary *ᵥ σ.ψ } := by
  generalize hnm : Name.X = nm at h
  generalize ha : [Val.int (i : Int)] = args at h
  cases h <;> first | cases hnm; done | skip
  rename_i qs
  obtain ⟨q, hq, rfl⟩ := qArgs_one ha.symm
  exact ⟨q, hq, rfl⟩

theorem flip_part {a : Nat} {gs : List (Gate F)} (hg : FlipGate a gs) {S S' : Sim n} {σ : VState n} (hS : S.Is σ)
    (h : S.runGates api rng gs = .ok S') :
    ∃ σ' b, S'.Is σ' ∧ S.events api rng gs = flipEvents a gs b ∧ (gs = [] → b = false) ∧ σ'.meas = σ.meas ∧ σ'.erasure = σ.erasure ∧
      ((b = false ∧ σ'.ψ = σ.ψ) ∨ (b = true ∧ ∃ q : Fin n, q.val = a ∧ σ'.ψ = (CGate.x q).unitary *ᵥ σ.ψ)) := by
  rcases hg with rfl | ⟨p, rfl⟩
  · cases h
    exact ⟨σ, false, hS, rfl, fun _ => rfl, rfl, rfl, .inl ⟨rfl, rfl⟩⟩
  · have e : ([⟨.ERROR, [.flt p, .name .X, .int a]⟩] : List (Gate F)) = flatten [.chain ⟨p, (.X, [.int a]), []⟩ []] := rfl
    have hev : S.events api rng [⟨.ERROR, [.flt p, .name .X, .int a]⟩] = [.flip a (rng.below S.pos p)] := by
      rw [Sim.events]
      obtain ⟨S1, h1, _⟩ := runGates_cons h
      rw [h1]
      simp [eventOf, numOf, Sim.events]
    rw [e] at h
    obtain ⟨σ', h2, h3⟩ := run_is api rng hS (fun b hb => by rw [List.mem_singleton.1 hb]; trivial) (fun b hb g hg => by
      rw [List.mem_singleton.1 hb] at hg
      simp only [Block.gates, Alt.gates, List.flatMap_nil, List.append_nil, List.mem_singleton] at hg
      subst hg
      rintro (h | h) <;> cases h) h
    refine ⟨σ', rng.below S.pos p, h3, by rw [hev]; rfl, (fun hc => absurd hc (by simp)), ?_⟩
    cases h2 with
    | chain ha hs =>
      cases hs
      rw [hS.2.2.1]
      cases ha with
      | hit hb hs =>
        cases hs with
        | cons hx hs =>
          cases hs
          obtain ⟨q, hq, rfl⟩ := vgate_x hx
          exact ⟨rfl, rfl, .inr ⟨hb, q, hq, rfl⟩⟩
      | miss hb hs =>
        cases hs
        exact ⟨rfl, rfl, .inl ⟨hb, rfl⟩⟩

/-- The gates that read the ancillas. -/
def readGates (err : Nat → List (Gate F)) (as : List Nat) : List (Gate F) :=
  as.flatMap fun a => [g1 .H a].map toGate ++ (err a ++ [g1 .M a].map toGate)

/-- `H a; (a flip); M a` for every ancilla. -/
theorem read_noisy (err : Nat → List (Gate F)) (as : List Nat) (herr : ∀ a ∈ as, FlipGate a (err a)) (hn : as.Nodup) (S : Nat → Op n)
    (hid : ∀ a ∈ as, ∀ b ∈ as, (S a).IdAt b) {T T' : Sim n} {σ : VState n} (hT : T.Is σ) (h : T.runGates api rng (readGates err as) = .ok T')
    (h0 : σ.ψ ≠ 0) (hX : ∀ a ∈ as, Stabilises (withX a (S a)) σ.ψ) :
    ∃ σ', T'.Is σ' ∧ σ'.ψ ≠ 0 ∧ σ'.erasure = σ.erasure ∧
    (∃ out fl : Nat → Bool, σ'.meas = σ.meas ++ as.map out ∧ T.events api rng (readGates err as) = as.flatMap (fun a => flipEvents a (err a) (fl a)) ∧
      (∀ a ∈ as, err a = [] → fl a = false) ∧ ∀ a ∈ as, Stabilises { S a with r := (S a).r ^^ (out a ^^ fl a) } σ'.ψ) ∧
    ∀ p : Op n, (∀ a ∈ as, p.IdAt a) → Stabilises p σ.ψ → Stabilises p σ'.ψ := by
  induction as generalizing T σ with
  | nil =>
    cases h
    exact ⟨σ, hT, h0, rfl, ⟨fun _ => false, fun _ => false, by simp, rfl, by simp, by simp⟩, fun _ _ hp => hp⟩
  | cons a as ih =>
    rw [List.nodup_cons] at hn
    have hcons : readGates err (a :: as) = ([g1 .H a].map toGate ++ (err a ++ [g1 .M a].map toGate)) ++ readGates err as := rfl
    rw [hcons] at h ⊢
    obtain ⟨T3, hA, hB, hev⟩ := run_parts h
    obtain ⟨T1, hA1, hA, hev1⟩ := run_parts hA
    obtain ⟨T2, hA2, hA3, hev2⟩ := run_parts hA
    obtain ⟨σ1, hT1, v1, ev1⟩ := plain_part (by simp only [List.mem_singleton]; rintro g rfl; exact .inl ⟨.H, a, by simp, rfl⟩) hT hA1
    obtain ⟨σ2, b, hT2, ev2, hb, f1, f2, f3⟩ := flip_part (herr a (by simp)) hT1 hA2
    obtain ⟨σ3, hT3, v3, ev3⟩ := plain_part (by simp only [List.mem_singleton]; rintro g rfl; exact .inl ⟨.M, a, by simp, rfl⟩) hT2 hA3
    cases v1 with
    | cons hH hs =>
    cases hs
    cases v3 with
    | cons hM hs =>
    cases hs
    obtain ⟨q, hq, rfl⟩ := vgate_h hH
    obtain ⟨q', out, σ4, hq', hM, hσ⟩ := vgate_m hM
    have : q' = q := Fin.ext (by omega)
    subst this
    obtain ⟨m1, m2, m3, m4, m5⟩ := vmeas_spec hM
    have hSa : (S a).IdAt a := hid a (by simp) a (by simp)
    have e1 := stab_gate (CGate.h q') trivial (hX a (by simp))
    rw [h_withX hq hSa] at e1
    have hxz : (withZ a (S a)).z q' = true := by
      have := (hSa q' hq).2
      simp [withZ, this, hq]
    -- the state before the measurement
    have e1' : Stabilises (withZ a { S a with r := (S a).r ^^ b }) σ2.ψ := by
      rcases f3 with ⟨rfl, f3⟩ | ⟨rfl, q2, hq2, f3⟩
      · rw [f3]; simpa using e1
      · have : q2 = q' := Fin.ext (by omega)
        subst this
        rw [f3]
        have := stab_gate (CGate.x q2) trivial e1
        have e : (CGate.x q2).row (withZ a (S a)) = withZ a { S a with r := (S a).r ^^ true } := by
          unfold CGate.row xRow
          ext i
          · rfl
          · rfl
          · simp only [hxz]; rfl
        rwa [e] at this
    have h02 : σ2.ψ ≠ 0 := by
      have h1 := gate_ne_zero (CGate.h q') trivial h0
      rcases f3 with ⟨_, f3⟩ | ⟨_, q2, _, f3⟩
      · rw [f3]; exact h1
      · rw [f3]; exact gate_ne_zero (CGate.x q2) trivial h1
    have e2 := m3 _ (anti_single_of_x false (by exact (hSa q' hq).1)) e1'
    have e3 := withZ_mul hq (S := { S a with r := (S a).r ^^ b }) hSa m1 e2
    have keep : ∀ p : Op n, p.IdAt a → Stabilises p σ.ψ → Stabilises p σ4.ψ := by
      intro p hp hs
      have hpa : p.IdAt q'.val := by rw [hq]; exact hp
      have h1 := stab_gate (CGate.h q') trivial hs
      rw [row_idAt_h hpa] at h1
      refine m3 p (anti_single_of_x false (hpa q' rfl).1) ?_
      rcases f3 with ⟨_, f3⟩ | ⟨_, q2, hq2, f3⟩
      · rw [f3]; exact h1
      · rw [f3]
        have h2 := stab_gate (CGate.x q2) trivial h1
        rwa [row_idAt_x (by rw [hq2]; exact hp)] at h2
    subst hσ
    obtain ⟨σ', i0, i1, i2, ⟨out', fl', i3, i4, i6, i7⟩, i5⟩ := ih (fun b hb => herr b (by simp [hb])) hn.2
      (fun b hb c hc => hid b (by simp [hb]) c (by simp [hc])) hT3 hB (m2 h02)
      (fun b hb => keep _ (withX_idAt (fun he => hn.1 (he ▸ hb)) (hid b (by simp [hb]) a (by simp))) (hX b (by simp [hb])))
    have hne : ∀ c ∈ as, ¬ c = a := fun c hc he => hn.1 (he ▸ hc)
    have hmap : as.map (fun c => if c = a then out else out' c) = as.map out' :=
      List.map_congr_left fun c hc => by rw [if_neg (hne c hc)]
    refine ⟨σ', i0, i1, ?_, ⟨fun c => if c = a then out else out' c, fun c => if c = a then b else fl' c, ?_, ?_, ?_, ?_⟩, ?_⟩
    · rw [i2]; exact m5.trans f2
    · rw [i3, List.map_cons, if_pos rfl, hmap]
      show σ4.meas ++ [out] ++ _ = _
      rw [m4, f1]; simp
    · rw [hev, hev1, hev2, ev1, ev2, ev3, i4, List.flatMap_cons]
      dsimp only
      rw [if_pos rfl, List.nil_append, List.append_nil]
      congr 1
      exact List.flatMap_congr fun c hc => by rw [if_neg (hne c hc)]
    · intro c hc he
      dsimp only
      rcases List.mem_cons.1 hc with rfl | hc
      · rw [if_pos rfl]; exact hb he
      · rw [if_neg (hne c hc)]; exact i6 c hc he
    · intro c hc
      dsimp only
      rcases List.mem_cons.1 hc with rfl | hc
      · rw [if_pos rfl, if_pos rfl]
        have := i5 { S c with r := (S c).r ^^ b ^^ out } (fun d hd => hid c (by simp) d (by simp [hd])) e3
        simpa [Bool.xor_assoc, Bool.xor_comm b out] using this
      · rw [if_neg (hne c hc), if_neg (hne c hc)]; exact i7 c hc
    · intro p hp hs
      exact i5 p (fun c hc => hp c (by simp [hc])) (keep p (hp a (by simp)) hs)

end Plaquette
