import Verif.Model.PyCircuit
import Verif.Spec.PyCircuit
import Verif.Props.QuantumState
import Verif.Lemmas.SimRun

/-!
# Circuits with negative qubit indices (C133)
-/

namespace Plaquette
variable {n : Nat} {F : Type}

/-! ### Lemmas -/

theorem allName_get {qs : List Int} {is : List (Fin n)} (h : AllName qs is) (h0 : ∀ q ∈ qs, 0 ≤ q) : qs = is.map fun i => (i.val : Int) := by
  induction h with
  | nil => rfl
  | cons h1 _ ih => rw [List.map_cons, names_pos h1 (h0 _ (.head _)), ih fun q hq => h0 q (.tail _ hq)]

theorem allName_halves : ∀ {qs : List Int} {is : List (Fin n)}, AllName qs is → AllName (evens qs) (evens is) ∧ AllName (odds qs) (odds is)
  | [], _, .nil => ⟨.nil, .nil⟩
  | [_], _, .cons h .nil => ⟨.cons h .nil, .nil⟩
  | _ :: _ :: _, _, .cons h (.cons h' hr) => ⟨.cons h (allName_halves hr).1, .cons h' (allName_halves hr).2⟩

theorem evens_map {α β : Type} (f : α → β) : ∀ l : List α, evens (l.map f) = (evens l).map f ∧ odds (l.map f) = (odds l).map f
  | [] => ⟨rfl, rfl⟩
  | [_] => ⟨rfl, rfl⟩
  | a :: b :: l => ⟨congrArg (f a :: ·) (evens_map f l).1, congrArg (f b :: ·) (evens_map f l).2⟩

theorem call_plain {c : GateCall} {Gs : List (CGate n)} (h : c.Means Gs) (hp : c.Plain) (S : Sim n) : S.call c = .ok (S.gates Gs) := by
  unfold Sim.call
  rw [plain_exec h hp]
  rfl

theorem pyMeasure_plain (rng : Rng F) (is : List (Fin n)) (S : Sim n) : S.pyMeasure rng (is.map fun i => (i.val : Int)) = S.measureAll rng is := by
  induction is generalizing S with
  | nil => rfl
  | cons i is ih =>
    have hi := i.2
    rw [List.map_cons, Sim.pyMeasure, Sim.measureAll, dif_pos ⟨by omega, by omega⟩]
    simp only [Int.toNat_natCast, Fin.eta]
    cases S.measureZ rng i with
    | error e => rfl
    | ok S' => exact ih S'

theorem pyReset_plain (rng : Rng F) (is : List (Fin n)) (S : Sim n) : S.pyReset rng (is.map fun i => (i.val : Int)) = S.resetAll rng is := by
  induction is generalizing S with
  | nil => rfl
  | cons i is ih =>
    have hi := i.2
    rw [List.map_cons, Sim.pyReset, Sim.resetAll, dif_pos ⟨by omega, by omega⟩]
    simp only [Int.toNat_natCast, Fin.eta, Sim.resetAll]
    cases resetOne false .Z S.tab i (rng.bit S.pos) with
    | error e => rfl
    | ok T => exact ih _

theorem pyDepolarize_plain (rng : Rng F) (is : List (Fin n)) (S : Sim n) : S.pyDepolarize rng (is.map fun i => (i.val : Int)) = S.depolarize rng is := by
  induction is generalizing S with
  | nil => rfl
  | cons i is ih =>
    have hn : AllName (QArg.one (i.val : Int)).items [i] := .cons (.inl rfl) .nil
    have h0 : ∀ q ∈ (QArg.one (i.val : Int)).items, 0 ≤ q := fun q hq => by
      obtain rfl : q = (i.val : Int) := List.mem_singleton.1 hq
      omega
    rw [List.map_cons, Sim.pyDepolarize, Sim.depolarize]
    match hr : rng.int3 S.pos with
    | 0 => rw [call_plain (GateCall.Means.x hn) trivial]; exact ih _
    | 1 => rw [call_plain (GateCall.Means.y hn) ⟨trivial, h0⟩]; exact ih _
    | 2 => rw [call_plain (GateCall.Means.z hn) ⟨trivial, h0⟩]; exact ih _

/-! ### The property -/

/-- What a circuit with integers does is what the same circuit with indices from 0 on does, for circuits with `P`. -/
def IndicesRight (P : List (Name × List Int) → Prop) : Prop := ∀ (n : Nat) (F : Type) (api : FloatApi F) (rng : Rng F) (gs : List (Name × List Int)) (hs : List (Name × List (Fin n))) (S S' : Sim n),
  P gs → (∀ g ∈ gs, g.1 ∈ qubitNames) → SameCircuit gs hs → S.runGates api rng (plainCircuit hs) = .ok S' → ∃ S'', S.pyRun rng gs = .ok S'' ∧ S''.results = S'.results

/-- **C133**: negative qubit indices in circuits count from the end. -/
def C133_statement : Prop := IndicesRight fun _ => True

/-- Negative indices occur in `X`, `CX` and `CZ` only. -/
def FewNegative (gs : List (Name × List Int)) : Prop := ∀ g ∈ gs, g.1 ∉ [Name.X, .CX, .CZ] → ∀ q ∈ g.2, 0 ≤ q

theorem qubitsOf_map (is : List (Fin n)) : qubitsOf n (is.map fun q => (.int (q.val : Int) : Val F)) = .ok is := qubitsOf_qArgs is

theorem twoQubit_plain (S : Sim n) (G : Fin n → Fin n → CGate n) (is : List (Fin n)) : S.twoQubit G (is.map fun q => (.int (q.val : Int) : Val F)) =
    if (odds is).length ≠ (evens is).length then .error .valueError else .ok (S.gates (List.zipWith G (evens is) (odds is))) := by
  unfold Sim.twoQubit
  rw [(evens_map _ is).1, (evens_map _ is).2, List.length_map, List.length_map, qubitsOf_map, qubitsOf_map]
  split
  · rfl
  · simp only [List.zip, List.map_zipWith]

theorem pair_plain {row : Fin n → Fin n → Op n → Op n} {T : Tab n} {qs : List Int} {is : List (Fin n)} (h : AllName qs is) (hl : (odds is).length ≠ (evens is).length) :
    statePair row T (.seq (evens qs)) (.seq (odds qs)) = (T, .error .valueError) := by
  have h1 := (allName_halves h).1.length_eq
  have h2 := (allName_halves h).2.length_eq
  unfold statePair
  dsimp only [QArg.len, QArg.items]
  rw [if_pos (by rw [h1, h2]; exact hl)]

/-- One instruction. -/
theorem pyGate_plain (api : FloatApi F) (rng : Rng F) (S : Sim n) {g : Name × List Int} {h : Name × List (Fin n)} (hq : g.1 ∈ qubitNames) (hs : g.1 = h.1 ∧ AllName g.2 h.2)
    (hf : g.1 ∉ [Name.X, .CX, .CZ] → ∀ q ∈ g.2, 0 ≤ q) : S.pyGate rng g.1 g.2 = S.runGate api rng ⟨h.1, h.2.map fun q => .int (q.val : Int)⟩ := by
  obtain ⟨name, qs⟩ := g
  obtain ⟨name', is⟩ := h
  obtain ⟨rfl, ha⟩ := hs
  dsimp only at hq ha hf ⊢
  simp only [qubitNames, List.mem_cons, List.not_mem_nil, or_false] at hq
  have pos : name ∉ [Name.X, .CX, .CZ] → qs = is.map fun i => (i.val : Int) := fun hn => allName_get ha (hf hn)
  have e := (allName_halves ha).1
  have o := (allName_halves ha).2
  rcases hq with rfl | rfl | rfl | rfl | rfl | rfl | rfl | rfl | rfl
  · have h1 := call_plain (GateCall.Means.x (a := .seq qs) ha) trivial { S with inError := false }
    simp only [Sim.pyGate, callOf, h1, Sim.runGate, Name.isError, Sim.handleGate, Sim.oneQubit, qubitsOf_map]
    rfl
  · have h1 := call_plain (GateCall.Means.y (a := .seq qs) ha) ⟨trivial, hf (by decide)⟩ { S with inError := false }
    simp only [Sim.pyGate, callOf, h1, Sim.runGate, Name.isError, Sim.handleGate, Sim.oneQubit, qubitsOf_map]
    rfl
  · have h1 := call_plain (GateCall.Means.z (a := .seq qs) ha) ⟨trivial, hf (by decide)⟩ { S with inError := false }
    simp only [Sim.pyGate, callOf, h1, Sim.runGate, Name.isError, Sim.handleGate, Sim.oneQubit, qubitsOf_map]
    rfl
  · have h1 := call_plain (GateCall.Means.hadamard (a := .seq qs) ha) ⟨trivial, hf (by decide)⟩ { S with inError := false }
    simp only [Sim.pyGate, callOf, h1, Sim.runGate, Name.isError, Sim.handleGate, Sim.oneQubit, qubitsOf_map]
    rfl
  · simp only [Sim.pyGate, callOf, Sim.runGate, Name.isError, Sim.handleGate, twoQubit_plain]
    by_cases hl : (odds is).length = (evens is).length
    · rw [call_plain (GateCall.Means.cx (cs := .seq (evens qs)) (ts := .seq (odds qs)) e o hl.symm) ⟨trivial, trivial⟩, if_neg (not_not.2 hl)]
      rfl
    · rw [if_pos hl, Sim.call, GateCall.exec, pair_plain ha hl]
      rfl
  · simp only [Sim.pyGate, callOf, Sim.runGate, Name.isError, Sim.handleGate, twoQubit_plain]
    by_cases hl : (odds is).length = (evens is).length
    · rw [call_plain (GateCall.Means.cz (cs := .seq (evens qs)) (ts := .seq (odds qs)) e o hl.symm) ⟨trivial, trivial⟩, if_neg (not_not.2 hl)]
      rfl
    · rw [if_pos hl, Sim.call, GateCall.exec, pair_plain ha hl]
      rfl
  · simp only [Sim.pyGate, callOf, Sim.runGate, Name.isError, Sim.handleGate, qubitsOf_map]
    rw [pos (by decide), pyMeasure_plain]
    rfl
  · simp only [Sim.pyGate, callOf, Sim.runGate, Name.isError, Sim.handleGate, qubitsOf_map]
    rw [pos (by decide), pyReset_plain]
    rfl
  · simp only [Sim.pyGate, callOf, Sim.runGate, Name.isError, Sim.handleGate, qubitsOf_map]
    rw [pos (by decide), pyDepolarize_plain]
    rfl

/-- **C133** for circuits in which negative indices occur in `X`, `CX` and `CZ` only: they do exactly what the circuits with indices from 0 on do, with the same exceptions. -/
theorem C133_equal_partial (api : FloatApi F) (rng : Rng F) (gs : List (Name × List Int)) (hs : List (Name × List (Fin n))) (S : Sim n) (hq : ∀ g ∈ gs, g.1 ∈ qubitNames)
    (h : SameCircuit gs hs) (hf : FewNegative gs) : S.pyRun rng gs = S.runGates api rng (plainCircuit hs) := by
  induction h generalizing S with
  | nil => rfl
  | cons h1 _ ih =>
    rw [Sim.pyRun, plainCircuit, List.map_cons, Sim.runGates, pyGate_plain api rng S (hq _ (.head _)) h1 (hf _ (.head _))]
    cases S.runGate api rng _ with
    | error e => rfl
    | ok S1 => exact ih S1 (fun g hg => hq g (.tail _ hg)) fun g hg => hf g (.tail _ hg)

theorem C133_partial : IndicesRight FewNegative := fun _ _ api rng gs hs S S' hf hq h hr =>
  ⟨S', by rw [C133_equal_partial api rng gs hs S hq h hf, hr], rfl⟩

/-- Draws for the examples. -/
def zeroRng : Rng Nat := ⟨fun _ _ => false, fun _ => false, fun _ => 0, fun _ => 0, fun _ _ => some 0, fun _ _ => some 0⟩

example : FewNegative [(.X, [-1]), (.CX, [-1, 0]), (.M, [0, 1])] ∧ SameCircuit (n := 2) [(.X, [-1]), (.CX, [-1, 0]), (.M, [0, 1])] [(.X, [1]), (.CX, [1, 0]), (.M, [0, 1])] ∧
    ((Sim.fresh 2 0).pyRun zeroRng [(.X, [-1]), (.CX, [-1, 0]), (.M, [0, 1])]).map Sim.results = .ok ([true, true], none) := by
  refine ⟨by unfold FewNegative; decide, ?_, by decide⟩
  exact .cons ⟨rfl, .cons (.inr (by decide)) .nil⟩ (.cons ⟨rfl, .cons (.inr (by decide)) (.cons (.inl (by decide)) .nil)⟩
    (.cons ⟨rfl, .cons (.inl (by decide)) (.cons (.inl (by decide)) .nil)⟩ .nil))

/-- A wrong circuit, by computation. -/
theorem wrong_circuit {P : List (Name × List Int) → Prop} (h : IndicesRight P) {gs : List (Name × List Int)} {hs : List (Name × List (Fin n))} (hp : P gs) (hq : ∀ g ∈ gs, g.1 ∈ qubitNames)
    (hs' : SameCircuit gs hs) {r : List Bool × Option (List Bool)} (hr : ((Sim.fresh n 0).runGates natApi zeroRng (plainCircuit hs)).map Sim.results = .ok r) :
    ((Sim.fresh n 0).pyRun zeroRng gs).map Sim.results = .ok r := by
  cases h1 : (Sim.fresh n 0).runGates natApi zeroRng (plainCircuit hs) with
  | error e => rw [h1] at hr; cases hr
  | ok S' =>
    obtain ⟨S'', h2, h3⟩ := h n Nat natApi zeroRng gs hs _ S' hp hq hs' h1
    rw [h1] at hr
    rw [h2, ← hr]
    exact congrArg Except.ok h3

/-- **C133** fails: after `X 0` and `Z -1` qubit 0 is measured as 0. -/
theorem C133_z_counterexample : ¬ IndicesRight fun gs => gs = [(.X, [0]), (.Z, [-1]), (.M, [0])] := fun h => by
  have := wrong_circuit (n := 1) (hs := [(.X, [0]), (.Z, [0]), (.M, [0])]) (r := ([true], none)) h rfl (by decide)
    (.cons ⟨rfl, .cons (.inl (by decide)) .nil⟩ (.cons ⟨rfl, .cons (.inr (by decide)) .nil⟩ (.cons ⟨rfl, .cons (.inl (by decide)) .nil⟩ .nil))) (by decide)
  revert this
  decide

/-- **C133** fails: after `H -1` no qubit can be measured, an `IndexError` is raised. -/
theorem C133_hadamard_counterexample : ¬ IndicesRight fun gs => gs = [(.H, [-1]), (.M, [0])] := fun h => by
  have := wrong_circuit (n := 1) (hs := [(.H, [0]), (.M, [0])]) (r := ([false], none)) h rfl (by decide)
    (.cons ⟨rfl, .cons (.inr (by decide)) .nil⟩ (.cons ⟨rfl, .cons (.inl (by decide)) .nil⟩ .nil)) (by decide)
  revert this
  decide

theorem C133_counterexample : ¬ C133_statement := fun h => C133_z_counterexample fun n F api rng gs hs S S' _ => h n F api rng gs hs S S' trivial

/-- Measurements and resets are refused at the first negative index, or when an index is too large. -/
theorem C133_refused (rng : Rng F) (S : Sim n) (name : Name) (hn : name ∈ [Name.M, .R]) (q : Int) (hq : q < 0 ∨ (n : Int) ≤ q) (qs : List Int) :
    S.pyGate rng name (q :: qs) = .error .valueError := by
  have h : ¬ (0 ≤ q ∧ q < n) := by omega
  simp only [List.mem_cons, List.not_mem_nil, or_false] at hn
  rcases hn with rfl | rfl
  · simp only [Sim.pyGate, callOf, Sim.pyMeasure, dif_neg h]
  · simp only [Sim.pyGate, callOf, Sim.pyReset, dif_neg h]

/-- A `Z` on the last qubit, written with the index -1, takes the signs of all operators away: every `X` before is undone, on all qubits. -/
theorem C133_z_erases (rng : Rng F) (S : Sim n) : S.pyGate rng .Z [-1] =
    .ok { S with inError := false, tab := { d := fun i => { S.tab.d i with r := false }, s := fun i => { S.tab.s i with r := false } } } := by
  have h := C132_z_erases S.tab
  have h' : (GateCall.z (.seq [-1])).exec S.tab = (GateCall.z (.one (-1))).exec S.tab := rfl
  simp only [Sim.pyGate, callOf, Sim.call, h', h]

end Plaquette
