import Verif.Lemmas.SimRun
import Verif.Lemmas.SimPre
import Verif.Props.Measure

/-!
# Properties C20, C21, C22: runs of the Clifford simulator
-/

namespace Plaquette
open Matrix
variable {F : Type} {n : Nat}

/-! ### C20 -/

/-- The vector of the all-zero state. -/
def zeroVec (n : Nat) : Vec n := fun b => if b = (fun _ => false) then 1 else 0

/-- **C20** a run of a circuit built by `append`, from any simulator state (outside an error block) that represents the
vector `σ.ψ`, for any answers of the random generator: the circuit is a sequence of unconditional instructions and chains
of conditional errors, and the new tableau is valid and represents the vector obtained by the gates' unitaries, the drawn
errors and the projections on the recorded outcomes (`VRun`); results and erasure flags are those of `VRun`. -/
theorem C20_run (api : FloatApi F) (rng : Rng F) (calls : List (List Char × List (Raw F))) (c : List (Gate F))
    (hc : appendAll api [] calls = .ok c) (htwo : ∀ g ∈ c, g.TwoOk) (S S' : Sim n) (σ : VState n)
    (hv : S.tab.Valid) (hr : S.tab.Represents σ.ψ) (hpos : S.pos = σ.pos) (hmeas : S.meas = σ.meas)
    (her : S.erasure = σ.erasure) (hi : S.inError = false) (h : S.runGates api rng c = .ok S') :
    ∃ bs σ', c = flatten bs ∧ VRun api rng bs σ σ' ∧ S'.tab.Valid ∧ S'.tab.Represents σ'.ψ ∧ S'.pos = σ'.pos ∧
      S'.meas = σ'.meas ∧ S'.erasure = σ'.erasure := by
  obtain ⟨bs, hb, hp⟩ := exists_proper api rng c (appendAll_ok hc (by simp)) S S' h hi
  subst hb
  have hI : S.Is σ := ⟨hv, hr, hpos, hmeas, her⟩
  obtain ⟨σ', h1, h2⟩ := run_is api rng hI hp
    (fun b hb => block_twoOk (hp b hb) (fun g hg => htwo g (mem_flatten hb hg))) h
  exact ⟨bs, σ', rfl, h1, h2⟩

/-- **C20** the first run of a new simulator: it starts in the all-zero vector, with no results. -/
theorem C20_fresh_run (api : FloatApi F) (rng : Rng F) (calls : List (List Char × List (Raw F))) (c : List (Gate F))
    (hc : appendAll api [] calls = .ok c) (htwo : ∀ g ∈ c, g.TwoOk) (pos : Nat) (S' : Sim n)
    (h : (Sim.fresh n pos).run api rng c true = .ok S') :
    ∃ bs σ', c = flatten bs ∧ VRun api rng bs ⟨zeroVec n, pos, [], []⟩ σ' ∧ S'.tab.Represents σ'.ψ ∧
      S'.results = (σ'.meas, if σ'.erasure.length > 0 then some σ'.erasure else none) := by
  obtain ⟨bs, σ', h1, h2, _, h4, _, h6, h7⟩ := C20_run api rng calls c hc htwo (Sim.fresh n pos) S' ⟨zeroVec n, pos, [], []⟩
    (zeroState_valid n) (C05_zero_state n).2 rfl rfl rfl rfl h
  exact ⟨bs, σ', h1, h2, h4, by rw [Sim.results, h6, h7]⟩

/-- **C20** number of results: one per measured qubit and one erasure flag per `E_ERASE`, if conditional errors neither
measure nor erase. -/
theorem C20_counts (api : FloatApi F) (rng : Rng F) (calls : List (List Char × List (Raw F))) (c : List (Gate F))
    (hc : appendAll api [] calls = .ok c) (htwo : ∀ g ∈ c, g.TwoOk) (hq : ∀ g ∈ c, g.QuietError) (pos : Nat) (S' : Sim n)
    (h : (Sim.fresh n pos).run api rng c true = .ok S') :
    S'.meas.length = numberMeasured c ∧ S'.erasure.length = numberErase c := by
  obtain ⟨bs, σ', h1, h2, _, h4, _, h6, h7⟩ := C20_run api rng calls c hc htwo (Sim.fresh n pos) S' ⟨zeroVec n, pos, [], []⟩
    (zeroState_valid n) (C05_zero_state n).2 rfl rfl rfl rfl h
  subst h1
  obtain ⟨k1, k2⟩ := vrun_count hq h2
  rw [h6, h7]
  exact ⟨by simpa using k1, by simpa using k2⟩

/-- **C20** every sequence of executable instructions and chains of executable instructions runs without an exception from
every valid state. -/
theorem C20_total (api : FloatApi F) (rng : Rng F) (bs : List (Block F))
    (h : ∀ b ∈ bs, ∀ g ∈ b.gates, Runnable n api rng g.1 g.2) (S : Sim n) (hv : S.tab.Valid) :
    ∃ S', S.runGates api rng (flatten bs) = .ok S' := by
  obtain ⟨S', h1, _⟩ := run_total api rng hv bs h
  exact ⟨S', h1⟩

/-- A random generator for the examples. -/
def rngOnes : Rng Nat where
  below _ p := decide (p = 1)
  bit _ := true
  int3 _ := 0
  int4 _ := 3
  choice4 _ _ := some 1
  choice16 _ _ := some 7

/-- A Bell pair, an erasure, a conditional error with two alternatives, and measurements of both qubits. -/
def demoCalls : List (List Char × List (Raw Nat)) :=
  [("H".toList, [.int 0]), ("CX".toList, [.int 0, .int 1]), ("E_ERASE".toList, [.int 1, .int 1]),
   ("ERROR".toList, [.int 0, .str "X".toList, .int 0]), ("ERROR_ELSE".toList, [.int 1, .str "Z".toList, .int 0]),
   ("ERROR_CONTINUE".toList, [.str "X".toList, .int 1]), ("M".toList, [.int 0, .int 1])]

/-- The circuit of `demoCalls`. -/
def demoCircuit : List (Gate Nat) :=
  [⟨.H, [.int 0]⟩, ⟨.CX, [.int 0, .int 1]⟩, ⟨.E_ERASE, [.flt 1, .int 1]⟩, ⟨.ERROR, [.flt 0, .name .X, .int 0]⟩,
   ⟨.ERROR_ELSE, [.flt 1, .name .Z, .int 0]⟩, ⟨.ERROR_CONTINUE, [.name .X, .int 1]⟩, ⟨.M, [.int 0, .int 1]⟩]

example : appendAll natApi [] demoCalls = .ok demoCircuit ∧ (∀ g ∈ demoCircuit, g.TwoOk) ∧
    (∀ g ∈ demoCircuit, g.QuietError) ∧
    (((Sim.fresh 2 0).run natApi rngOnes demoCircuit true).map Sim.results) = .ok ([true, false], some [true]) := by
  refine ⟨by rfl, ?_, ?_, by rfl⟩
  · intro g hg
    simp only [demoCircuit, List.mem_cons, List.not_mem_nil, or_false] at hg
    rcases hg with rfl | rfl | rfl | rfl | rfl | rfl | rfl <;> simp [Gate.TwoOk, TwoOk, PairsDiffer]
  · intro g hg
    simp only [demoCircuit, List.mem_cons, List.not_mem_nil, or_false] at hg
    rcases hg with rfl | rfl | rfl | rfl | rfl | rfl | rfl <;> simp [Gate.QuietError, Name.isError]

/-! ### C21 -/

/-- **C21** the first alternative that is drawn is executed, with all its continuations and nothing else of the chain:
if the draws of the alternatives before number `i` fail and that of number `i` succeeds, then the chain acts as the gates of
alternative `i` after `i + 1` draws (the flags of the simulator aside). -/
theorem C21_first_drawn (api : FloatApi F) (rng : Rng F) (S : Sim n) (a : Alt F) (as : List (Alt F)) (i : Nat) (b : Alt F)
    (hb : (a :: as)[i]? = some b) (hbefore : ∀ j c, j < i → (a :: as)[j]? = some c → rng.below (S.pos + j) c.p = false)
    (hi : rng.below (S.pos + i) b.p = true) :
    (S.runGates api rng (chainInstrs a as)).map Sim.core =
      (({ S with pos := S.pos + i + 1 } : Sim n).runSeq api rng b.gates).map Sim.core := by
  refine (runGates_chain api rng S a as).trans ?_
  generalize a :: as = alts at hb hbefore
  clear a as
  induction alts generalizing S i with
  | nil => simp at hb
  | cons a as ih =>
    rw [Sim.runAlts]
    cases i with
    | zero =>
      simp only [List.getElem?_cons_zero, Option.some.injEq] at hb
      subst hb
      rw [Nat.add_zero] at hi
      rw [if_pos hi]
    | succ i =>
      have h0 := hbefore 0 a (by omega) (by simp)
      rw [Nat.add_zero] at h0
      rw [if_neg (by simp [h0])]
      have := ih { S with pos := S.pos + 1 } i (by
        show rng.below (S.pos + 1 + i) b.p = true
        rw [Nat.add_assoc, Nat.add_comm 1 i]; exact hi) (by simpa using hb) (fun j c hj hc => by
          have := hbefore (j + 1) c (by omega) (by simpa using hc)
          show rng.below (S.pos + 1 + j) c.p = false
          rw [Nat.add_assoc, Nat.add_comm 1 j]; exact this)
      rw [this]
      have e : S.pos + 1 + i + 1 = S.pos + (i + 1) + 1 := by omega
      simp only [e]

/-- **C21** if no alternative is drawn, the chain does nothing. -/
theorem C21_none_drawn (api : FloatApi F) (rng : Rng F) (S : Sim n) (a : Alt F) (as : List (Alt F))
    (h : ∀ j c, (a :: as)[j]? = some c → rng.below (S.pos + j) c.p = false) :
    (S.runGates api rng (chainInstrs a as)).map Sim.core = .ok (S.tab, S.meas, S.erasure, S.pos + (as.length + 1)) := by
  refine (runGates_chain api rng S a as).trans ?_
  have e : as.length + 1 = (a :: as).length := rfl
  rw [e]
  generalize a :: as = alts at h
  clear a as e
  induction alts generalizing S with
  | nil => rfl
  | cons a as ih =>
    rw [Sim.runAlts]
    have h0 := h 0 a (by simp)
    rw [Nat.add_zero] at h0
    rw [if_neg (by simp [h0])]
    rw [ih { S with pos := S.pos + 1 } (fun j c hc => by
      have := h (j + 1) c (by simpa using hc)
      show rng.below (S.pos + 1 + j) c.p = false
      rw [Nat.add_assoc, Nat.add_comm 1 j]; exact this)]
    have e : S.pos + 1 + as.length = S.pos + (a :: as).length := by simp; omega
    simp only [e]

/-- **C21** gates after the chain are unaffected by how the chain went, except through the state: whatever follows (not
itself a continuation of a chain) runs as it would from a simulator without any error flags in the same state. -/
theorem C21_after_chain (api : FloatApi F) (rng : Rng F) (S S' : Sim n) (a : Alt F) (as : List (Alt F))
    (rest : List (Gate F)) (hrest : StartsFresh rest) (h : S.runGates api rng (chainInstrs a as) = .ok S') :
    (S.runGates api rng (chainInstrs a as ++ rest)).map Sim.core =
      ((S'.withFlags false false false).runGates api rng rest).map Sim.core := by
  rw [runGates_append, h]
  exact runGates_start api rng (S := S') (S' := S'.withFlags false false false) rfl rest hrest

/-- **C21** a continuation outside of a chain is refused. -/
theorem C21_orphan (api : FloatApi F) (rng : Rng F) (S : Sim n) (hi : S.inError = false) (g : Gate F) (rest : List (Gate F))
    (hg : g.name = .ERROR_ELSE ∨ g.name = .ERROR_CONTINUE) : S.runGates api rng (g :: rest) = .error .valueError := by
  obtain ⟨name, args⟩ := g
  rcases hg with hg | hg <;> simp only at hg <;> subst hg <;>
    simp [Sim.runGates, Sim.runGate, Name.isError, Sim.handleError, hi]

/-- After an unconditional instruction the simulator is outside of any chain. -/
theorem C21_gate_ends_chain (api : FloatApi F) (rng : Rng F) (S S' : Sim n) (g : Gate F) (hg : g.name.isError = false)
    (h : S.runGate api rng g = .ok S') : S'.inError = false := by
  simp only [Sim.runGate, hg] at h
  exact (handleGate_keeps h).1

-- second alternative of two, with its continuation
example : ((Sim.fresh 2 0).runGates natApi rngOnes (chainInstrs ⟨0, (.X, [.int 0]), []⟩ [⟨1, (.Z, [.int 0]), [(.X, [.int 1])]⟩])).map
    (fun S => (S.anyApplied, S.pos)) = .ok (true, 2) := by rfl

/-! ### C22 -/

/-- **C22** a run after a reset does not depend on what the simulator did before: if a new simulator accepts the circuit
(at the same position of the random generator), the run gives the same state, results, erasures and draws. -/
theorem C22_reset_run (api : FloatApi F) (rng : Rng F) (c : List (Gate F)) (S S1 : Sim n)
    (h : (Sim.fresh n S.pos).runGates api rng c = .ok S1) :
    ∃ S2, S.run api rng c true = .ok S2 ∧ S2.tab = S1.tab ∧ S2.results = S1.results ∧ S2.pos = S1.pos := by
  have hs : StartsFresh c := by
    intro g hg
    cases c with
    | nil => simp at hg
    | cons g' c =>
      simp only [List.head?_cons, Option.some.injEq] at hg
      subst hg
      by_contra hcon
      have : g'.name = .ERROR_ELSE ∨ g'.name = .ERROR_CONTINUE := by
        cases hn : g'.name <;> simp_all [Name.continues]
      rw [C21_orphan api rng _ rfl g' c this] at h
      cases h
  have := runGates_start api rng (S := S.reset) (S' := Sim.fresh n S.pos) rfl c hs
  rw [h] at this
  have hr : S.run api rng c true = S.reset.runGates api rng c := rfl
  cases h2 : S.reset.runGates api rng c with
  | error e => rw [h2] at this; cases this
  | ok S2 =>
    rw [h2] at this
    have hcore : S2.core = S1.core := by simpa [sameCore, Except.map] using this
    simp only [Sim.core, Prod.mk.injEq] at hcore
    obtain ⟨a1, a2, a3, a4⟩ := hcore
    exact ⟨S2, hr.trans h2, a1, by simp only [Sim.results, a2, a3], a4⟩

/-- **C22** a run without reset appends its results to those present, and the appended results are those of the same run
from the same state with no results. -/
theorem C22_accumulate (api : FloatApi F) (rng : Rng F) (c : List (Gate F)) (S S' : Sim n)
    (h : S.run api rng c false = .ok S') :
    ∃ S1, ({ S with meas := [], erasure := [] } : Sim n).run api rng c false = .ok S1 ∧
      S'.tab = S1.tab ∧ S'.meas = S.meas ++ S1.meas ∧ S'.erasure = S.erasure ++ S1.erasure ∧ S'.pos = S1.pos := by
  have e : S = Sim.pre { S with meas := [], erasure := [] } S.meas S.erasure := by simp [Sim.pre]
  have h : S.runGates api rng c = .ok S' := h
  rw [e, runGates_pre] at h
  show ∃ S1, ({ S with meas := [], erasure := [] } : Sim n).runGates api rng c = .ok S1 ∧ _
  cases h1 : ({ S with meas := [], erasure := [] } : Sim n).runGates api rng c with
  | error e => rw [h1] at h; cases h
  | ok S1 =>
    rw [h1] at h
    simp only [Except.map, Except.ok.injEq] at h
    subst h
    exact ⟨S1, rfl, rfl, rfl, rfl, rfl⟩

example : ∃ S1, (Sim.fresh 2 5).runGates natApi rngOnes demoCircuit = .ok S1 ∧ S1.results = ([true, false], some [true]) := by
  exact ⟨_, rfl, rfl⟩

-- two runs without a reset
example : (((Sim.fresh 1 0).run natApi rngOnes [⟨.X, [.int 0]⟩, ⟨.M, [.int 0]⟩] false).bind fun S =>
    S.run natApi rngOnes [⟨.X, [.int 0]⟩, ⟨.M, [.int 0]⟩] false).map Sim.results = .ok ([true, false], none) := by rfl

end Plaquette
