import Verif.Lemmas.SimChain
import Verif.Lemmas.CircuitCount

/-!
# Runs of the simulator follow the state-vector specification; totality; counts
-/

namespace Plaquette
open Matrix
variable {F : Type} {n : Nat}

theorem Is_of_core {S S' : Sim n} {σ : VState n} (h : S.core = S'.core) (hI : S.Is σ) : S'.Is σ := by
  rw [eq_withFlags h]; exact hI

theorem runSeq_is (api : FloatApi F) (rng : Rng F) {S S' : Sim n} {σ : VState n} {gs : List (Name × List (Val F))}
    (h : S.Is σ) (hok : ∀ g ∈ gs, TwoOk g.1 g.2) (hm : S.runSeq api rng gs = .ok S') :
    ∃ σ', VGates api rng gs σ σ' ∧ S'.Is σ' := by
  induction gs generalizing S σ with
  | nil => simp only [Sim.runSeq, Except.ok.injEq] at hm; subst hm; exact ⟨σ, .nil σ, h⟩
  | cons g gs ih =>
    rw [Sim.runSeq] at hm
    cases hg : S.handleGate api rng g.1 g.2 with
    | error e => simp [hg] at hm
    | ok S1 =>
      simp only [hg] at hm
      obtain ⟨σ1, h1, h2, _⟩ := handleGate_is api rng h (hok g (by simp)) hg
      obtain ⟨σ', h3, h4⟩ := ih h2 (fun g' h' => hok g' (List.mem_cons_of_mem _ h')) hm
      exact ⟨σ', .cons h1 h3, h4⟩

theorem runAlts_is (api : FloatApi F) (rng : Rng F) {S S' : Sim n} {σ : VState n} {as : List (Alt F)}
    (h : S.Is σ) (hok : ∀ a ∈ as, ∀ g ∈ a.gates, TwoOk g.1 g.2) (hm : S.runAlts api rng as = .ok S') :
    ∃ σ', VAlts api rng as σ σ' ∧ S'.Is σ' := by
  induction as generalizing S σ with
  | nil => simp only [Sim.runAlts, Except.ok.injEq] at hm; subst hm; exact ⟨σ, .none σ, h⟩
  | cons a as ih =>
    rw [Sim.runAlts] at hm
    have ht : Sim.Is ({ S with pos := S.pos + 1 } : Sim n) σ.tick := tick_is h
    split at hm
    · rename_i hb
      obtain ⟨σ', h1, h2⟩ := runSeq_is api rng ht (hok a (by simp)) hm
      exact ⟨σ', .hit (by rw [← h.2.2.1]; exact hb) h1, h2⟩
    · rename_i hb
      obtain ⟨σ', h1, h2⟩ := ih ht (fun a' h' => hok a' (List.mem_cons_of_mem _ h')) hm
      exact ⟨σ', .miss (by rw [← h.2.2.1]; simpa using hb) h1, h2⟩

/-- The gates of a block. -/
def Block.gates : Block F → List (Name × List (Val F))
  | .gate name args => [(name, args)]
  | .chain a as => a.gates ++ as.flatMap Alt.gates

/-- An unconditional instruction is not an error instruction. -/
def Block.Proper : Block F → Prop
  | .gate name _ => name.isError = false
  | .chain _ _ => True

theorem run_is (api : FloatApi F) (rng : Rng F) {S S' : Sim n} {σ : VState n} {bs : List (Block F)}
    (h : S.Is σ) (hp : ∀ b ∈ bs, b.Proper) (hok : ∀ b ∈ bs, ∀ g ∈ b.gates, TwoOk g.1 g.2)
    (hm : S.runGates api rng (flatten bs) = .ok S') : ∃ σ', VRun api rng bs σ σ' ∧ S'.Is σ' := by
  induction bs generalizing S σ with
  | nil => simp only [flatten, List.flatMap_nil, Sim.runGates, Except.ok.injEq] at hm; subst hm; exact ⟨σ, .nil σ, h⟩
  | cons b bs ih =>
    have e : flatten (b :: bs) = b.instrs ++ flatten bs := rfl
    rw [e, runGates_append] at hm
    cases hb : S.runGates api rng b.instrs with
    | error e => simp [hb, Except.bind] at hm
    | ok S1 =>
      rw [hb] at hm
      have hm : S1.runGates api rng (flatten bs) = .ok S' := hm
      have hrest := fun (σ1 : VState n) (h1 : S1.Is σ1) =>
        ih (S := S1) (σ := σ1) h1 (fun b' h' => hp b' (List.mem_cons_of_mem _ h'))
          (fun b' h' => hok b' (List.mem_cons_of_mem _ h')) hm
      cases b with
      | gate name args =>
        have hpr : name.isError = false := hp (.gate name args) (by simp)
        have hg : ({ S with inError := false } : Sim n).handleGate api rng name args = .ok S1 := by
          have : S.runGates api rng [{ name := name, args := args }] = .ok S1 := hb
          rw [Sim.runGates] at this
          cases hg : S.runGate api rng { name := name, args := args } with
          | error e => simp [hg] at this
          | ok S2 =>
            simp only [hg, Sim.runGates, Except.ok.injEq] at this
            subst this
            simpa [Sim.runGate, hpr] using hg
        have h0 : Sim.Is ({ S with inError := false } : Sim n) σ := h
        obtain ⟨σ1, h1, h2, _⟩ := handleGate_is api rng h0 (hok (.gate name args) (by simp) (name, args) (by simp [Block.gates])) hg
        obtain ⟨σ', h3, h4⟩ := hrest σ1 h2
        exact ⟨σ', .gate h1 h3, h4⟩
      | chain a as =>
        have hc := runGates_chain api rng S a as
        have hb : S.runGates api rng (chainInstrs a as) = .ok S1 := hb
        rw [hb] at hc
        cases hr : S.runAlts api rng (a :: as) with
        | error e => rw [hr] at hc; cases hc
        | ok S2 =>
          rw [hr] at hc
          have hcore : S1.core = S2.core := by simpa [sameCore, Except.map] using hc
          have hgates := hok (.chain a as) (by simp)
          obtain ⟨σ1, h1, h2⟩ := runAlts_is api rng h (fun a' ha' g hg => hgates g (by
            simp only [Block.gates, List.mem_append, List.mem_flatMap]
            rcases List.mem_cons.mp ha' with rfl | ha'
            · exact Or.inl hg
            · exact Or.inr ⟨a', ha', hg⟩)) hr
          obtain ⟨σ', h3, h4⟩ := hrest σ1 (Is_of_core hcore.symm h2)
          exact ⟨σ', .chain h1 h3, h4⟩

theorem mem_flatten {bs : List (Block F)} {b : Block F} (hb : b ∈ bs) {g : Gate F} (hg : g ∈ b.instrs) : g ∈ flatten bs :=
  List.mem_flatMap.mpr ⟨b, hb, hg⟩

theorem alt_twoOk {kind : Name} (hk : kind = .ERROR ∨ kind = .ERROR_ELSE) {a : Alt F} (h : ∀ g ∈ a.instrs kind, g.TwoOk) :
    ∀ g ∈ a.gates, TwoOk g.1 g.2 := by
  intro g hg
  rcases List.mem_cons.mp hg with rfl | hg
  · have := h _ (by rw [instrs_eq]; exact List.mem_cons_self)
    rcases hk with rfl | rfl <;> exact this
  · have := h { name := .ERROR_CONTINUE, args := .name g.1 :: g.2 } (by
      rw [instrs_eq]; exact List.mem_cons_of_mem _ (List.mem_map.mpr ⟨g, hg, rfl⟩))
    exact this

/-- Two-qubit gates of the blocks act on different qubits if those of the circuit do. -/
theorem block_twoOk {b : Block F} (hp : b.Proper) (h : ∀ g ∈ b.instrs, g.TwoOk) : ∀ g ∈ b.gates, TwoOk g.1 g.2 := by
  cases b with
  | gate name args =>
    intro g hg
    simp only [Block.gates, List.mem_singleton] at hg
    subst hg
    have := h { name := name, args := args } (by simp [Block.instrs])
    have hp : name.isError = false := hp
    cases name <;> simp_all [Gate.TwoOk, Name.isError]
  | chain a as =>
    intro g hg
    simp only [Block.gates, List.mem_append, List.mem_flatMap] at hg
    simp only [Block.instrs, chainInstrs, List.mem_append, List.mem_flatMap] at h
    rcases hg with hg | ⟨a', ha', hg⟩
    · exact alt_twoOk (Or.inl rfl) (fun g hg => h g (Or.inl hg)) g hg
    · exact alt_twoOk (Or.inr rfl) (fun g hg => h g (Or.inr ⟨a', ha', hg⟩)) g hg

/-- As `exists_blocks`, from outside a chain, with proper blocks. -/
theorem exists_proper (api : FloatApi F) (rng : Rng F) (c : List (Gate F)) (hok : ∀ g ∈ c, ArgsOk api g.name g.args)
    (S S' : Sim n) (h : S.runGates api rng c = .ok S') (hi : S.inError = false) :
    ∃ bs : List (Block F), c = flatten bs ∧ ∀ b ∈ bs, b.Proper := by
  have key : ∀ (c : List (Gate F)) (_ : ∀ g ∈ c, ArgsOk api g.name g.args) (S : Sim n),
      S.runGates api rng c = .ok S' →
      ∃ (conts : List (Name × List (Val F))) (alts : List (Alt F)) (bs : List (Block F)),
        c = contInstrs conts ++ alts.flatMap (Alt.instrs .ERROR_ELSE) ++ flatten bs ∧ (∀ b ∈ bs, b.Proper) ∧
        (S.inError = false → conts = [] ∧ alts = []) := by
    intro c
    induction c with
    | nil => intro _ S _; exact ⟨[], [], [], rfl, by simp, fun _ => ⟨rfl, rfl⟩⟩
    | cons g c ih =>
      intro hok S h
      rw [Sim.runGates] at h
      cases hg : S.runGate api rng g with
      | error e => simp [hg] at h
      | ok S1 =>
        simp only [hg] at h
        obtain ⟨conts, alts, bs, h1, hpr, h2⟩ := ih (fun g' h' => hok g' (List.mem_cons_of_mem _ h')) S1 h
        have hargs := hok g (by simp)
        obtain ⟨name, args⟩ := g
        simp only at hargs
        by_cases he : name.isError = true
        · cases name <;> simp [Name.isError] at he
          · obtain ⟨p, m, is, rfl, _⟩ := hargs
            refine ⟨[], [], .chain ⟨p, (m, is), conts⟩ alts :: bs, ?_, ?_, fun _ => ⟨rfl, rfl⟩⟩
            · rw [h1]
              simp [flatten, Block.instrs, chainInstrs, instrs_eq, contInstrs]
            · intro b hb
              rcases List.mem_cons.mp hb with rfl | hb
              · trivial
              · exact hpr b hb
          · obtain ⟨p, m, is, rfl, _⟩ := hargs
            refine ⟨[], ⟨p, (m, is), conts⟩ :: alts, bs, ?_, hpr, ?_⟩
            · rw [h1]; simp [instrs_eq, contInstrs]
            · intro hi
              simp [Sim.runGate, Name.isError, Sim.handleError, hi] at hg
          · obtain ⟨m, is, rfl, _⟩ := hargs
            refine ⟨(m, is) :: conts, alts, bs, ?_, hpr, ?_⟩
            · rw [h1]; simp [contInstrs]
            · intro hi
              simp [Sim.runGate, Name.isError, Sim.handleError, hi] at hg
        · have hi : S1.inError = false := by
            simp only [Sim.runGate, he] at hg
            exact (handleGate_keeps hg).1
          obtain ⟨rfl, rfl⟩ := h2 hi
          refine ⟨[], [], .gate name args :: bs, ?_, ?_, fun _ => ⟨rfl, rfl⟩⟩
          · rw [h1]
            simp [flatten, Block.instrs, contInstrs]
          · intro b hb
            rcases List.mem_cons.mp hb with rfl | hb
            · simpa [Block.Proper] using he
            · exact hpr b hb
  obtain ⟨conts, alts, bs, h1, h2, h3⟩ := key c hok S h
  obtain ⟨rfl, rfl⟩ := h3 hi
  exact ⟨bs, by simpa [contInstrs] using h1, h2⟩

/-! ### Totality -/

/-- An instruction that can be executed on `n` qubits: the indices are in range, two-qubit gates act on pairs of different
qubits, the probabilities are accepted by the random generator. -/
inductive Runnable (n : Nat) (api : FloatApi F) (rng : Rng F) : Name → List (Val F) → Prop
  | x (qs : List (Fin n)) : Runnable n api rng .X (qArgs qs)
  | y (qs : List (Fin n)) : Runnable n api rng .Y (qArgs qs)
  | z (qs : List (Fin n)) : Runnable n api rng .Z (qArgs qs)
  | h (qs : List (Fin n)) : Runnable n api rng .H (qArgs qs)
  | m (qs : List (Fin n)) : Runnable n api rng .M (qArgs qs)
  | r (qs : List (Fin n)) : Runnable n api rng .R (qArgs qs)
  | depolarize (qs : List (Fin n)) : Runnable n api rng .DEPOLARIZE (qArgs qs)
  | cx (ps : List (Fin n × Fin n)) (h : ∀ p ∈ ps, p.1 ≠ p.2) : Runnable n api rng .CX (pairArgs ps)
  | cz (ps : List (Fin n × Fin n)) (h : ∀ p ∈ ps, p.1 ≠ p.2) : Runnable n api rng .CZ (pairArgs ps)
  | erase (p : F) (q : Fin n) : Runnable n api rng .E_ERASE [.flt p, .int (q.val : Int)]
  | pauli (ps : List F) (hl : ps.length = 3) (q : Fin n) (h : ∀ k, (rng.choice4 k ps).isSome) :
      Runnable n api rng .E_PAULI (ps.map .flt ++ [.int (q.val : Int)])
  | pauli2 (ps : List F) (hl : ps.length = 15) (q1 q2 : Fin n) (h : ∀ k, (rng.choice16 k ps).isSome) :
      Runnable n api rng .E_PAULI2 (ps.map .flt ++ [.int (q1.val : Int), .int (q2.val : Int)])

theorem measureAll_total (rng : Rng F) {S : Sim n} (hv : S.tab.Valid) (qs : List (Fin n)) :
    ∃ S', S.measureAll rng qs = .ok S' ∧ S'.tab.Valid := by
  induction qs generalizing S with
  | nil => exact ⟨S, rfl, hv⟩
  | cons q qs ih =>
    obtain ⟨T, out, hm⟩ := measure_total hv.semi (singleOp_not_scalar false .Z q) (rng.bit S.pos)
    rw [Sim.measureAll, Sim.measureZ]
    simp only [hm]
    exact ih (measure_valid hv hm)

theorem resetAll_total' (rng : Rng F) {S : Sim n} (hv : S.tab.Valid) (qs : List (Fin n)) :
    ∃ S', S.resetAll rng qs = .ok S' ∧ S'.tab.Valid := by
  induction qs generalizing S with
  | nil => exact ⟨S, rfl, hv⟩
  | cons q qs ih =>
    have : ∃ T, resetOne false .Z S.tab q (rng.bit S.pos) = .ok T := by
      obtain ⟨T, out, hm⟩ := measure_total hv.semi (singleOp_not_scalar false .Z q) (rng.bit S.pos)
      unfold resetOne
      rw [hm]
      cases out <;> exact ⟨_, rfl⟩
    obtain ⟨T, hT⟩ := this
    rw [Sim.resetAll]
    simp only [hT]
    exact ih (resetOne_valid hv hT)

theorem applyPauli_total {S : Sim n} (hv : S.tab.Valid) (q : Fin n) (k : Nat) (hk : k < 4) :
    ∃ S', S.applyPauli q k = .ok S' ∧ S'.tab.Valid := by
  unfold Sim.applyPauli
  match k, hk with
  | 0, _ => exact ⟨_, rfl, hv⟩
  | 1, _ => exact ⟨_, rfl, appAll_valid hv _ (by simp [CGate.Ok])⟩
  | 2, _ => exact ⟨_, rfl, appAll_valid hv _ (by simp [CGate.Ok])⟩
  | 3, _ => exact ⟨_, rfl, appAll_valid hv _ (by simp [CGate.Ok])⟩

theorem depolarize_total (rng : Rng F) {S : Sim n} (hv : S.tab.Valid) (qs : List (Fin n)) :
    ∃ S', S.depolarize rng qs = .ok S' ∧ S'.tab.Valid := by
  induction qs generalizing S with
  | nil => exact ⟨S, rfl, hv⟩
  | cons q qs ih =>
    obtain ⟨S1, h1, h2⟩ := applyPauli_total (S := { S with pos := S.pos + 1 }) hv q (1 + (rng.int3 S.pos).val) (by omega)
    rw [Sim.depolarize]
    simp only [h1]
    exact ih h2

theorem evens_pairArgs (ps : List (Fin n × Fin n)) :
    evens (pairArgs ps : List (Val F)) = qArgs (ps.map Prod.fst) ∧ odds (pairArgs ps : List (Val F)) = qArgs (ps.map Prod.snd) := by
  induction ps with
  | nil => exact ⟨rfl, rfl⟩
  | cons p ps ih =>
    have e : (pairArgs (p :: ps) : List (Val F)) = .int (p.1.val : Int) :: .int (p.2.val : Int) :: pairArgs ps := rfl
    rw [e, evens, odds, ih.1, ih.2]
    exact ⟨rfl, rfl⟩

theorem numsOf_flt (api : FloatApi F) (ps : List F) : numsOf api (ps.map Val.flt) = .ok ps := by
  induction ps with
  | nil => rfl
  | cons p ps ih => rw [List.map_cons, numsOf, ih]; rfl

theorem twoQubit_total {S : Sim n} (hv : S.tab.Valid) (G : Fin n → Fin n → CGate n) (hG : ∀ a b, a ≠ b → (G a b).Ok)
    (ps : List (Fin n × Fin n)) (h : ∀ p ∈ ps, p.1 ≠ p.2) :
    ∃ S', S.twoQubit G (pairArgs ps : List (Val F)) = .ok S' ∧ S'.tab.Valid := by
  unfold Sim.twoQubit
  obtain ⟨e1, e2⟩ := evens_pairArgs (F := F) ps
  rw [e1, e2, qubitsOf_qArgs, qubitsOf_qArgs, if_neg (by simp [qArgs])]
  refine ⟨_, rfl, appAll_valid hv _ ?_⟩
  intro g hg
  obtain ⟨p, hp, rfl⟩ := List.mem_map.mp hg
  have hz : (ps.map Prod.fst).zip (ps.map Prod.snd) = ps := by
    rw [List.zip_map', List.map_id'']; intro x; rfl
  rw [hz] at hp
  exact hG _ _ (h p hp)

theorem handleGate_total (api : FloatApi F) (rng : Rng F) {S : Sim n} (hv : S.tab.Valid) {name : Name}
    {args : List (Val F)} (h : Runnable n api rng name args) :
    ∃ S', S.handleGate api rng name args = .ok S' ∧ S'.tab.Valid := by
  have one : ∀ (G : Fin n → CGate n) (_ : ∀ q, (G q).Ok) (qs : List (Fin n)),
      ∃ S', S.oneQubit G (qArgs qs : List (Val F)) = .ok S' ∧ S'.tab.Valid := by
    intro G hG qs
    unfold Sim.oneQubit
    rw [qubitsOf_qArgs]
    refine ⟨_, rfl, appAll_valid hv _ ?_⟩
    intro g hg
    obtain ⟨q, _, rfl⟩ := List.mem_map.mp hg
    exact hG q
  cases h with
  | x qs => exact one .x (fun _ => trivial) qs
  | y qs => exact one .y (fun _ => trivial) qs
  | z qs => exact one .z (fun _ => trivial) qs
  | h qs => exact one .h (fun _ => trivial) qs
  | m qs => simp only [Sim.handleGate, qubitsOf_qArgs]; exact measureAll_total rng hv qs
  | r qs => simp only [Sim.handleGate, qubitsOf_qArgs]; exact resetAll_total' rng hv qs
  | depolarize qs => simp only [Sim.handleGate, qubitsOf_qArgs]; exact depolarize_total rng hv qs
  | cx ps h => exact twoQubit_total hv .cx (fun a b h => h) ps h
  | cz ps h => exact twoQubit_total hv .cz (fun a b h => h) ps h
  | erase p q =>
    simp only [Sim.handleGate, numOf, qubitOf_int]
    by_cases hb : rng.below S.pos p = true
    · simp only [hb, if_true]
      exact applyPauli_total (S := { S with erasure := S.erasure ++ [true], pos := S.pos + 1 + 1 }) hv q _ (Fin.isLt _)
    · simp only [hb]; exact ⟨_, rfl, hv⟩
  | pauli ps hl q h =>
    have e1 : (ps.map Val.flt ++ [Val.int (q.val : Int)]).take 3 = (ps.map Val.flt : List (Val F)) :=
      List.take_left' (by simpa using hl)
    have e2 : argAt (ps.map Val.flt ++ [.int (q.val : Int)] : List (Val F)) 3 = .ok (.int (q.val : Int)) := by
      unfold argAt
      rw [List.getElem?_append_right (by simp [hl])]
      simp [hl]
    simp only [Sim.handleGate, e1, e2, numsOf_flt, qubitOf_int]
    have := h S.pos
    cases hc : rng.choice4 S.pos ps with
    | none => simp [hc] at this
    | some k => exact applyPauli_total (S := { S with pos := S.pos + 1 }) hv q _ k.isLt
  | pauli2 ps hl q1 q2 h =>
    have e1 : (ps.map Val.flt ++ [Val.int (q1.val : Int), Val.int (q2.val : Int)]).take 15 = (ps.map Val.flt : List (Val F)) :=
      List.take_left' (by simpa using hl)
    have e2 : (ps.map Val.flt ++ [.int (q1.val : Int), .int (q2.val : Int)] : List (Val F)).drop 15 =
        [.int (q1.val : Int), .int (q2.val : Int)] := List.drop_left' (by simpa using hl)
    simp only [Sim.handleGate, e1, e2, numsOf_flt, hl, ne_eq, not_true, if_false]
    have := h S.pos
    cases hc : rng.choice16 S.pos ps with
    | none => simp [hc] at this
    | some k =>
      simp only [argAt, List.getElem?_cons_zero, List.getElem?_cons_succ, qubitOf_int]
      obtain ⟨S1, h1, h2⟩ := applyPauli_total (S := { S with pos := S.pos + 1 }) hv q1 (k.val / 4) (by omega)
      simp only [h1]
      exact applyPauli_total h2 q2 _ (by omega)

theorem runSeq_total (api : FloatApi F) (rng : Rng F) {S : Sim n} (hv : S.tab.Valid) (gs : List (Name × List (Val F)))
    (h : ∀ g ∈ gs, Runnable n api rng g.1 g.2) : ∃ S', S.runSeq api rng gs = .ok S' ∧ S'.tab.Valid := by
  induction gs generalizing S with
  | nil => exact ⟨S, rfl, hv⟩
  | cons g gs ih =>
    obtain ⟨S1, h1, h2⟩ := handleGate_total api rng hv (h g (by simp))
    rw [Sim.runSeq]
    simp only [h1]
    exact ih h2 (fun g' h' => h g' (List.mem_cons_of_mem _ h'))

theorem runAlts_total (api : FloatApi F) (rng : Rng F) {S : Sim n} (hv : S.tab.Valid) (as : List (Alt F))
    (h : ∀ a ∈ as, ∀ g ∈ a.gates, Runnable n api rng g.1 g.2) : ∃ S', S.runAlts api rng as = .ok S' ∧ S'.tab.Valid := by
  induction as generalizing S with
  | nil => exact ⟨S, rfl, hv⟩
  | cons a as ih =>
    rw [Sim.runAlts]
    split
    · exact runSeq_total (S := { S with pos := S.pos + 1 }) api rng hv _ (h a (by simp))
    · exact ih (S := { S with pos := S.pos + 1 }) hv (fun a' h' => h a' (List.mem_cons_of_mem _ h'))

theorem run_total (api : FloatApi F) (rng : Rng F) {S : Sim n} (hv : S.tab.Valid) (bs : List (Block F))
    (h : ∀ b ∈ bs, ∀ g ∈ b.gates, Runnable n api rng g.1 g.2) :
    ∃ S', S.runGates api rng (flatten bs) = .ok S' ∧ S'.tab.Valid := by
  induction bs generalizing S with
  | nil => exact ⟨S, rfl, hv⟩
  | cons b bs ih =>
    have : ∃ S1, S.runGates api rng b.instrs = .ok S1 ∧ S1.tab.Valid := by
      cases b with
      | gate name args =>
        have hr : Runnable n api rng name args := h (.gate name args) (by simp) (name, args) (by simp [Block.gates])
        obtain ⟨S1, h1, h2⟩ := handleGate_total (S := { S with inError := false }) api rng hv hr
        have hne : name.isError = false := by cases hr <;> rfl
        refine ⟨S1, ?_, h2⟩
        simp [Block.instrs, Sim.runGates, Sim.runGate, hne, h1]
      | chain a as =>
        have hg := h (.chain a as) (by simp)
        obtain ⟨S1, h1, h2⟩ := runAlts_total api rng hv (a :: as) (fun a' ha' g hg' => hg g (by
            simp only [Block.gates, List.mem_append, List.mem_flatMap]
            rcases List.mem_cons.mp ha' with rfl | ha'
            · exact Or.inl hg'
            · exact Or.inr ⟨a', ha', hg'⟩))
        have hc := runGates_chain api rng S a as
        rw [h1] at hc
        cases hr : S.runGates api rng (chainInstrs a as) with
        | error e => rw [hr] at hc; cases hc
        | ok S2 =>
          rw [hr] at hc
          have hcore : S2.core = S1.core := by simpa [sameCore, Except.map] using hc
          refine ⟨S2, hr, ?_⟩
          rw [show S2.tab = S1.tab from congrArg Prod.fst hcore]
          exact h2
    obtain ⟨S1, h1, h2⟩ := this
    have e : flatten (b :: bs) = b.instrs ++ flatten bs := rfl
    rw [e, runGates_append, h1]
    exact ih h2 (fun b' h' => h b' (List.mem_cons_of_mem _ h'))

/-! ### Counts -/

theorem vmeas_meas {rng : Rng F} {q : Fin n} {σ σ' : VState n} {out : Bool} (h : VMeas rng q σ out σ') :
    σ'.meas = σ.meas ∧ σ'.erasure = σ.erasure := by
  cases h <;> exact ⟨rfl, rfl⟩

theorem vmeasAll_count {rng : Rng F} {qs : List (Fin n)} {σ σ' : VState n} (h : VMeasAll rng qs σ σ') :
    σ'.meas.length = σ.meas.length + qs.length ∧ σ'.erasure = σ.erasure ∧ σ.meas <+: σ'.meas := by
  induction h with
  | nil => simp
  | cons h hs ih =>
    obtain ⟨h1, h2⟩ := vmeas_meas h
    obtain ⟨i1, i2, i3⟩ := ih
    refine ⟨?_, i2.trans h2, ?_⟩
    · rw [i1]; simp [h1]; omega
    · exact List.IsPrefix.trans (by rw [h1]; exact List.prefix_append _ _) i3

theorem vresetAll_count {rng : Rng F} {qs : List (Fin n)} {σ σ' : VState n} (h : VResetAll rng qs σ σ') :
    σ'.meas = σ.meas ∧ σ'.erasure = σ.erasure := by
  induction h with
  | nil => exact ⟨rfl, rfl⟩
  | cons h hs ih =>
    obtain ⟨h1, h2⟩ := vmeas_meas h
    exact ⟨ih.1.trans h1, ih.2.trans h2⟩

theorem vdepolarize_count (rng : Rng F) (σ : VState n) (qs : List (Fin n)) :
    (σ.depolarize rng qs).meas = σ.meas ∧ (σ.depolarize rng qs).erasure = σ.erasure := by
  induction qs generalizing σ with
  | nil => exact ⟨rfl, rfl⟩
  | cons q qs ih => rw [VState.depolarize]; exact ih _

/-- Number of results of one instruction. -/
def nMeas (g : Name × List (Val F)) : Nat := if g.1 = .M then g.2.length else 0
/-- Number of erasure flags of one instruction. -/
def nErase (g : Name × List (Val F)) : Nat := if g.1 = .E_ERASE then 1 else 0

theorem vgate_count {api : FloatApi F} {rng : Rng F} {name : Name} {args : List (Val F)} {σ σ' : VState n}
    (h : VGate api rng name args σ σ') :
    σ'.meas.length = σ.meas.length + nMeas (name, args) ∧ σ'.erasure.length = σ.erasure.length + nErase (name, args) ∧
      σ.meas <+: σ'.meas ∧ σ.erasure <+: σ'.erasure := by
  cases h with
  | m qs h =>
    obtain ⟨h1, h2, h3⟩ := vmeasAll_count h
    exact ⟨by simpa [nMeas, qArgs] using h1, by simp [nErase, h2], h3, by rw [h2]⟩
  | r qs h => obtain ⟨h1, h2⟩ := vresetAll_count h; simp [h1, h2, nMeas, nErase]
  | depolarize qs => obtain ⟨h1, h2⟩ := vdepolarize_count rng σ qs; simp [h1, h2, nMeas, nErase]
  | noErase => simp [nMeas, nErase, VState.tick]
  | erase => simp [nMeas, nErase, VState.tick, VState.pauli]
  | _ => simp [nMeas, nErase, VState.tick, VState.pauli]

theorem vgates_count {api : FloatApi F} {rng : Rng F} {gs : List (Name × List (Val F))} {σ σ' : VState n}
    (h : VGates api rng gs σ σ') :
    σ'.meas.length = σ.meas.length + (gs.map nMeas).sum ∧ σ'.erasure.length = σ.erasure.length + (gs.map nErase).sum ∧
      σ.meas <+: σ'.meas ∧ σ.erasure <+: σ'.erasure := by
  induction h with
  | nil => simp
  | cons h hs ih =>
    obtain ⟨a1, a2, a3, a4⟩ := vgate_count h
    obtain ⟨b1, b2, b3, b4⟩ := ih
    exact ⟨by rw [b1, a1]; simp; omega, by rw [b2, a2]; simp; omega, a3.trans b3, a4.trans b4⟩

theorem valts_count {api : FloatApi F} {rng : Rng F} {as : List (Alt F)} {σ σ' : VState n}
    (h : VAlts api rng as σ σ') :
    (∃ gs, (gs = [] ∨ ∃ a ∈ as, gs = a.gates) ∧ σ'.meas.length = σ.meas.length + (gs.map nMeas).sum ∧
      σ'.erasure.length = σ.erasure.length + (gs.map nErase).sum) ∧ σ.meas <+: σ'.meas ∧ σ.erasure <+: σ'.erasure := by
  induction h with
  | none σ => exact ⟨⟨[], Or.inl rfl, rfl, rfl⟩, List.prefix_rfl, List.prefix_rfl⟩
  | hit h hs =>
    obtain ⟨a1, a2, a3, a4⟩ := vgates_count hs
    exact ⟨⟨_, Or.inr ⟨_, List.mem_cons_self, rfl⟩, a1, a2⟩, a3, a4⟩
  | miss h hs ih =>
    obtain ⟨⟨gs, h1, h2, h3⟩, h4, h5⟩ := ih
    refine ⟨⟨gs, ?_, h2, h3⟩, h4, h5⟩
    rcases h1 with h1 | ⟨a, ha, h1⟩
    · exact Or.inl h1
    · exact Or.inr ⟨a, List.mem_cons_of_mem _ ha, h1⟩

/-- The number of unconditional erasure instructions of a circuit. -/
def numberErase (c : List (Gate F)) : Nat := (c.filter fun g => g.name = .E_ERASE).length

/-- The conditional instruction does not measure or erase. -/
def Gate.QuietError (g : Gate F) : Prop :=
  g.name.isError = true → .name .M ∉ g.args ∧ .name .E_ERASE ∉ g.args

theorem numberMeasured_sum (c : List (Gate F)) : numberMeasured c = (c.map fun g => nMeas (g.name, g.args)).sum := by
  unfold numberMeasured
  have : ∀ t, c.foldl (fun t (g : Gate F) => if g.name = .M then t + g.args.length else t) t =
      t + (c.map fun g => nMeas (g.name, g.args)).sum := by
    induction c with
    | nil => simp
    | cons g c ih =>
      intro t
      rw [List.foldl_cons, ih]
      simp only [nMeas, List.map_cons, List.sum_cons]
      split <;> omega
  simpa using this 0

theorem numberErase_sum (c : List (Gate F)) : numberErase c = (c.map fun g => nErase (g.name, g.args)).sum := by
  unfold numberErase
  induction c with
  | nil => rfl
  | cons g c ih =>
    simp only [List.filter_cons, List.map_cons, List.sum_cons, nErase, decide_eq_true_eq]
    split <;> simp_all [nErase]; omega

theorem alt_quiet {kind : Name} (hk : kind = .ERROR ∨ kind = .ERROR_ELSE) {a : Alt F}
    (h : ∀ g ∈ a.instrs kind, g.QuietError) : (a.gates.map nMeas).sum = 0 ∧ (a.gates.map nErase).sum = 0 := by
  have key : ∀ g ∈ a.gates, nMeas g = 0 ∧ nErase g = 0 := by
    intro g hg
    have : .name .M ∉ [(Val.name g.1 : Val F)] ∧ .name .E_ERASE ∉ [(Val.name g.1 : Val F)] := by
      rcases List.mem_cons.mp hg with rfl | hg
      · have := h _ (by rw [instrs_eq]; exact List.mem_cons_self)
        have := this (by rcases hk with rfl | rfl <;> rfl)
        simp only [List.mem_cons, not_or] at this ⊢
        exact ⟨⟨this.1.2.1, by simp⟩, this.2.2.1, by simp⟩
      · have := h { name := .ERROR_CONTINUE, args := .name g.1 :: g.2 } (by
          rw [instrs_eq]; exact List.mem_cons_of_mem _ (List.mem_map.mpr ⟨g, hg, rfl⟩))
        have := this rfl
        simp only [List.mem_cons, not_or] at this ⊢
        exact ⟨⟨this.1.1, by simp⟩, this.2.1, by simp⟩
    simp only [List.mem_singleton, Val.name.injEq] at this
    exact ⟨if_neg fun e => this.1 e.symm, if_neg fun e => this.2 e.symm⟩
  constructor
  · rw [List.sum_eq_zero]; intro x hx; obtain ⟨g, hg, rfl⟩ := List.mem_map.mp hx; exact (key g hg).1
  · rw [List.sum_eq_zero]; intro x hx; obtain ⟨g, hg, rfl⟩ := List.mem_map.mp hx; exact (key g hg).2

theorem alt_nosum (kind : Name) (hk : kind = .ERROR ∨ kind = .ERROR_ELSE) (a : Alt F) :
    ((a.instrs kind).map fun g => nMeas (g.name, g.args)).sum = 0 ∧
      ((a.instrs kind).map fun g => nErase (g.name, g.args)).sum = 0 := by
  rw [instrs_eq]
  have h1 : ∀ gs : List (Name × List (Val F)), ((contInstrs gs).map fun g => nMeas (g.name, g.args)).sum = 0 ∧
      ((contInstrs gs).map fun g => nErase (g.name, g.args)).sum = 0 := by
    intro gs
    induction gs with
    | nil => exact ⟨rfl, rfl⟩
    | cons g gs ih =>
      unfold contInstrs at *
      simp only [List.map_cons, List.sum_cons, ih.1, ih.2]
      exact ⟨rfl, rfl⟩
  simp only [List.map_cons, List.sum_cons, (h1 a.more).1, (h1 a.more).2]
  rcases hk with rfl | rfl <;> exact ⟨rfl, rfl⟩

theorem vrun_count {api : FloatApi F} {rng : Rng F} {bs : List (Block F)} {σ σ' : VState n}
    (hq : ∀ g ∈ flatten bs, g.QuietError) (h : VRun api rng bs σ σ') :
    σ'.meas.length = σ.meas.length + numberMeasured (flatten bs) ∧
      σ'.erasure.length = σ.erasure.length + numberErase (flatten bs) := by
  rw [numberMeasured_sum, numberErase_sum]
  induction h with
  | nil => simp [flatten]
  | @gate name args bs σ σ1 σ2 h hs ih =>
    obtain ⟨a1, a2, _⟩ := vgate_count h
    have e : flatten (.gate name args :: bs) = { name := name, args := args } :: flatten bs := rfl
    rw [e] at hq ⊢
    obtain ⟨i1, i2⟩ := ih (fun g hg => hq g (List.mem_cons_of_mem _ hg))
    rw [i1, i2, a1, a2]
    simp only [List.map_cons, List.sum_cons]
    omega
  | @chain a as bs σ σ1 σ2 h hs ih =>
    obtain ⟨⟨gs, h1, h2, h3⟩, _⟩ := valts_count h
    have e : flatten (.chain a as :: bs) = chainInstrs a as ++ flatten bs := rfl
    rw [e] at hq ⊢
    obtain ⟨i1, i2⟩ := ih (fun g hg => hq g (List.mem_append_right _ hg))
    have hz : (gs.map nMeas).sum = 0 ∧ (gs.map nErase).sum = 0 := by
      rcases h1 with rfl | ⟨a', ha', rfl⟩
      · exact ⟨rfl, rfl⟩
      · rcases List.mem_cons.mp ha' with rfl | ha'
        · exact alt_quiet (Or.inl rfl) (fun g hg => hq g (by simp [chainInstrs, hg]))
        · exact alt_quiet (Or.inr rfl) (fun g hg => hq g (by
            simp only [chainInstrs, List.mem_append, List.mem_flatMap]
            exact Or.inl (Or.inr ⟨a', ha', hg⟩)))
    have hc : ((chainInstrs a as).map fun g => nMeas (g.name, g.args)).sum = 0 ∧
        ((chainInstrs a as).map fun g => nErase (g.name, g.args)).sum = 0 := by
      simp only [chainInstrs, List.map_append, List.sum_append, (alt_nosum .ERROR (Or.inl rfl) a).1,
        (alt_nosum .ERROR (Or.inl rfl) a).2, Nat.zero_add]
      clear h hs ih hq i1 i2 h1 h2 h3 e
      induction as with
      | nil => exact ⟨rfl, rfl⟩
      | cons a' as ih =>
        simp only [List.flatMap_cons, List.map_append, List.sum_append, (alt_nosum .ERROR_ELSE (Or.inr rfl) a').1,
          (alt_nosum .ERROR_ELSE (Or.inr rfl) a').2, ih.1, ih.2]
        trivial
    rw [i1, i2, h2, h3, hz.1, hz.2]
    simp only [List.map_append, List.sum_append, hc.1, hc.2]
    omega

end Plaquette
