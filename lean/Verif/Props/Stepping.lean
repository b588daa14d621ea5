import Verif.Spec.Stepping
import Verif.Props.PyCircuit

/-!
# Stepping through circuits (C134)
-/

namespace Plaquette
variable {n : Nat} {F : Type}

/-! ### Lemmas -/

theorem step_eq (api : FloatApi F) (rng : Rng F) (c : List (Gate F)) (s : Stepper n) : s.step api rng c =
    (s.sim.runGates api rng ((c.drop s.next).take 1)).map fun S => (⟨S, s.next + 1⟩, decide (c.length ≤ s.next)) := by
  unfold Stepper.step
  by_cases h : s.next < c.length
  · rw [List.getElem?_eq_getElem h, List.drop_eq_getElem_cons h, List.take_succ_cons, List.take_zero]
    simp only [Sim.runGates]
    cases s.sim.runGate api rng c[s.next] with
    | error e => rfl
    | ok S => simp [Except.map, h]
  · have h' : c.length ≤ s.next := by omega
    rw [List.getElem?_eq_none h', List.drop_eq_nil_of_le h']
    simp [Sim.runGates, Except.map, h']

theorem loop_eq (api : FloatApi F) (rng : Rng F) (c : List (Gate F)) : ∀ (m : Nat) (s : Stepper n), s.next + m = c.length → s.loop api rng c (m + 1) =
    (s.sim.runGates api rng (c.drop s.next)).map fun S => ⟨S, c.length + 1⟩
  | 0, s, h => by
    have h' : c.length ≤ s.next := by omega
    rw [Stepper.loop, step_eq, List.drop_eq_nil_of_le h']
    simp only [List.take_nil, Sim.runGates, Except.map, decide_eq_true h']
    rw [show s.next = c.length by omega]
  | m + 1, s, h => by
    have h' : ¬ c.length ≤ s.next := by omega
    have h1 : s.next < c.length := by omega
    rw [Stepper.loop, step_eq, List.drop_eq_getElem_cons h1, List.take_succ_cons, List.take_zero]
    simp only [Sim.runGates]
    cases s.sim.runGate api rng c[s.next] with
    | error e => rfl
    | ok S =>
      simp only [Except.map, decide_eq_false h']
      rw [loop_eq api rng c m ⟨S, s.next + 1⟩ (by dsimp only; omega)]
      rfl

theorem run_eq (api : FloatApi F) (rng : Rng F) (c : List (Gate F)) (s : Stepper n) (b : Bool) : s.op api rng c (.run b) =
    (s.sim.run api rng c b).map fun S => (⟨S, c.length + 1⟩, false) := by
  unfold Stepper.op Sim.run
  dsimp only
  rw [loop_eq api rng c c.length _ (by simp)]
  rw [List.drop_zero]
  dsimp only
  cases (if b = true then s.sim.reset else s.sim).runGates api rng c with
  | error e => rfl
  | ok S => rfl

/-! ### The property -/

/-- **C134** `run` is the same as resetting (if wanted), making a new iterator and stepping until `StopIteration`: the model of `run` by the loop of calls of `__next__` is the one of C13. -/
theorem C134_run (api : FloatApi F) (rng : Rng F) (c : List (Gate F)) (s : Stepper n) (b : Bool) :
    (s.op api rng c (.run b)).map (fun x => x.1.sim) = s.sim.run api rng c b ∧ ∀ s' z, s.op api rng c (.run b) = .ok (s', z) → s'.next = c.length + 1 := by
  rw [run_eq]
  cases s.sim.run api rng c b with
  | error e => exact ⟨rfl, fun _ _ h => by cases h⟩
  | ok S => exact ⟨rfl, fun _ _ h => by cases h; rfl⟩

/-- **C134** As long as nothing is reset, calls execute the instructions one after the other on the state of the simulator, beginning with the first one after each `__iter__`. -/
theorem C134_order (api : FloatApi F) (rng : Rng F) (c : List (Gate F)) (os : List StepOp) (hr : NoReset os) (s : Stepper n) :
    (s.ops api rng c os).map (fun x => x.1.sim) = s.sim.runGates api rng (executed c s.next os) := by
  induction os generalizing s with
  | nil => rfl
  | cons o os ih =>
    have ih := fun s => ih (fun o ho => hr o (.tail _ ho)) s
    have key : ∀ (l : List (Gate F)) (k : Nat) (b : Bool), s.op api rng c o = (s.sim.runGates api rng l).map (fun S => (⟨S, k⟩, b)) →
        (s.ops api rng c (o :: os)).map (fun x => x.1.sim) = s.sim.runGates api rng (l ++ executed c k os) := by
      intro l k b h
      rw [Stepper.ops, h, runGates_append]
      cases s.sim.runGates api rng l with
      | error e => rfl
      | ok S =>
        refine Eq.trans ?_ (ih ⟨S, k⟩)
        simp only [Except.map]
        cases (⟨S, k⟩ : Stepper n).ops api rng c os with
        | error e => rfl
        | ok x => rfl
    cases o with
    | iter => exact key [] 0 false rfl
    | next => exact key _ (s.next + 1) _ (step_eq api rng c s)
    | reset => exact absurd rfl (hr _ (.head _)).1
    | run b =>
      cases b with
      | true => exact absurd rfl (hr _ (.head _)).2
      | false => exact key c (c.length + 1) false (run_eq api rng c s false)

/-- **C134** After a new iterator, `k` steps execute the first `k` instructions. -/
theorem C134_steps (api : FloatApi F) (rng : Rng F) (c : List (Gate F)) (k : Nat) (s : Stepper n) :
    (s.ops api rng c (.iter :: List.replicate k .next)).map (fun x => x.1.sim) = s.sim.runGates api rng (c.take k) := by
  have h : ∀ (k j : Nat), executed c j (List.replicate k .next) = (c.drop j).take k := by
    intro k
    induction k with
    | zero => intro j; simp [executed]
    | succ k ih =>
      intro j
      rw [List.replicate_succ, executed, ih, show k + 1 = 1 + k by omega, List.take_add, List.drop_drop]
  rw [C134_order api rng c _ (by
    intro o ho
    rcases List.mem_cons.1 ho with rfl | ho
    · exact ⟨by decide, by decide⟩
    · rw [(List.mem_replicate.1 ho).2]; exact ⟨by decide, by decide⟩) s]
  rw [executed, h, List.drop_zero]

/-- **C134** `StopIteration` is raised exactly when all instructions have been executed, and the state stays as it is. -/
theorem C134_stop (api : FloatApi F) (rng : Rng F) (c : List (Gate F)) (s s' : Stepper n) (b : Bool) (h : s.op api rng c .next = .ok (s', b)) :
    (b = true ↔ c.length ≤ s.next) ∧ (b = true → s'.sim = s.sim) ∧ s'.next = s.next + 1 := by
  have h : s.step api rng c = .ok (s', b) := h
  rw [step_eq] at h
  cases hr : s.sim.runGates api rng ((c.drop s.next).take 1) with
  | error e => rw [hr] at h; cases h
  | ok S =>
    rw [hr] at h
    cases h
    refine ⟨by simp, fun hb => ?_, rfl⟩
    rw [List.drop_eq_nil_of_le (by simpa using hb)] at hr
    cases hr
    rfl

/-- The results of stepping through the circuit after a reset are those of a run. -/
def ResetRestarts (P : List StepOp → Prop) : Prop := ∀ (n : Nat) (F : Type) (api : FloatApi F) (rng : Rng F) (c : List (Gate F)) (s : Stepper n) (os : List StepOp) (s' : Stepper n) (bs : List Bool)
  (S : Sim n), P os → s.ops api rng c (.reset :: os ++ List.replicate c.length .next) = .ok (s', bs) → s.sim.run api rng c true = .ok S → s'.sim.results = S.results

/-- **C134**: after `reset` the circuit can be stepped through from the beginning. -/
def C134_statement : Prop := ResetRestarts fun os => os = []

/-- **C134** fails: `reset` does not reset the instruction pointer. After the first instruction and a reset, stepping goes on with the second one. -/
theorem C134_counterexample : ¬ C134_statement := by
  intro h
  have h1 := h 1 Nat natApi zeroRng [⟨.X, [.int 0]⟩, ⟨.M, [.int 0]⟩] ⟨Sim.fresh 1 0, 1⟩ []
  cases h2 : (⟨Sim.fresh 1 0, 1⟩ : Stepper 1).ops natApi zeroRng [⟨.X, [.int 0]⟩, ⟨.M, [.int 0]⟩] (.reset :: [] ++ List.replicate 2 .next) with
  | error e =>
    have h3 : ((⟨Sim.fresh 1 0, 1⟩ : Stepper 1).ops natApi zeroRng [⟨.X, [.int 0]⟩, ⟨.M, [.int 0]⟩] (.reset :: [] ++ List.replicate 2 .next)).isOk = true := by decide
    rw [h2] at h3
    cases h3
  | ok x =>
    cases h4 : (Sim.fresh 1 0).run natApi zeroRng [⟨.X, [.int 0]⟩, ⟨.M, [.int 0]⟩] true with
    | error e =>
      have h3 : ((Sim.fresh 1 0).run natApi zeroRng [⟨.X, [.int 0]⟩, ⟨.M, [.int 0]⟩] true).isOk = true := by decide
      rw [h4] at h3
      cases h3
    | ok S =>
      have h5 := h1 x.1 x.2 S rfl h2 h4
      have h6 : ((⟨Sim.fresh 1 0, 1⟩ : Stepper 1).ops natApi zeroRng [⟨.X, [.int 0]⟩, ⟨.M, [.int 0]⟩] (.reset :: [] ++ List.replicate 2 .next)).map (fun x => x.1.sim.results) ≠
        ((Sim.fresh 1 0).run natApi zeroRng [⟨.X, [.int 0]⟩, ⟨.M, [.int 0]⟩] true).map Sim.results := by decide
      rw [h2, h4] at h6
      exact h6 (congrArg Except.ok h5)

/-- **C134** with a new iterator after the reset. -/
theorem C134_reset_partial : ResetRestarts fun os => os = [.iter] := by
  intro n F api rng c s os s' bs S hos h hS
  subst hos
  have h1 := C134_steps api rng c c.length ⟨s.sim.reset, s.next⟩
  have h2 : s.ops api rng c (.reset :: .iter :: List.replicate c.length .next) = .ok (s', bs) := h
  rw [Stepper.ops] at h2
  simp only [Stepper.op] at h2
  cases h3 : (⟨s.sim.reset, s.next⟩ : Stepper n).ops api rng c (.iter :: List.replicate c.length .next) with
  | error e => rw [h3] at h2; cases h2
  | ok x =>
    rw [h3] at h2 h1
    cases h2
    rw [List.take_length] at h1
    have h4 : s.sim.reset.runGates api rng c = .ok S := hS
    dsimp only at h1
    rw [h4] at h1
    exact congrArg Sim.results (Except.ok.inj h1)

/-- **C134** After a run, a reset and `__next__` without a new iterator nothing is executed, for all circuits. -/
theorem C134_after_run (api : FloatApi F) (rng : Rng F) (c : List (Gate F)) (s s' : Stepper n) (b z : Bool) (h : s.op api rng c (.run b) = .ok (s', z)) :
    s'.ops api rng c [.reset, .next] = .ok (⟨s'.sim.reset, c.length + 2⟩, [false, true]) := by
  have hn := (C134_run api rng c s b).2 s' z h
  simp only [Stepper.ops, Stepper.op, Stepper.step, hn]
  rw [List.getElem?_eq_none (by omega)]

/-- **C134** A device cannot be stepped through before it has run a circuit. -/
theorem C134_device (api : FloatApi F) (rng : Rng F) (c : List (Gate F)) (o : StepOp) (s : Stepper n) :
    deviceStep api rng c (none : Option (Stepper n)) o = .error .attributeError ∧ deviceStep api rng c (some s) o = s.op api rng c o := ⟨rfl, rfl⟩

/-- A new iterator begins again with the first instruction, on the state as it is: `X` is executed twice, and the outcome is 0. -/
example : NoReset [.iter, .next, .iter, .next, .next, .next] ∧
    ((⟨Sim.fresh 1 0, 0⟩ : Stepper 1).ops natApi zeroRng [⟨.X, [.int 0]⟩, ⟨.M, [.int 0]⟩] [.iter, .next, .iter, .next, .next, .next]).map (fun x => (x.1.sim.results, x.2)) =
      .ok (([false], none), [false, false, false, false, false, true]) := by
  refine ⟨?_, by decide⟩
  unfold NoReset
  decide

end Plaquette
