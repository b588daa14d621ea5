import Verif.Spec.PyChannels
import Verif.Props.PyCircuit

/-!
# Error channels with negative qubit indices (C133)
-/

namespace Plaquette
variable {n : Nat} {F : Type}

/-! ### Lemmas -/

theorem pyPauli_plain (S : Sim n) {q : Int} {i : Fin n} (hn : Names q i) {k : Nat} (h : 0 ≤ q ∨ k < 2) : S.pyPauli q k = S.applyPauli i k := by
  have ha : AllName (QArg.one q).items [i] := .cons hn .nil
  match k with
  | 0 => rfl
  | 1 => rw [Sim.pyPauli, call_plain (GateCall.Means.x ha) trivial]; rfl
  | k + 2 =>
    have h0 : ∀ x ∈ (QArg.one q).items, 0 ≤ x := fun x hx => by
      obtain rfl : x = q := List.mem_singleton.1 hx
      omega
    match k with
    | 0 => rw [Sim.pyPauli, call_plain (GateCall.Means.y ha) ⟨trivial, h0⟩]; rfl
    | 1 => rw [Sim.pyPauli, call_plain (GateCall.Means.z ha) ⟨trivial, h0⟩]; rfl
    | k + 2 => rfl

theorem qubitOf_fin (i : Fin n) : qubitOf n (.int (i.val : Int) : Val F) = .ok i := by
  have hi := i.2
  unfold qubitOf
  simp

/-! ### The property -/

/-- The channel is asked for `Y` or `Z` on no qubit with a negative index by the draws. -/
def PyChannel.Quiet (rng : Rng F) (pos : Nat) : PyChannel F → Prop
  | .erase p q => 0 ≤ q ∨ (rng.below pos p = true → (rng.int4 (pos + 1)).val < 2)
  | .pauli ps q => 0 ≤ q ∨ ∀ s, rng.choice4 pos ps = some s → s.val < 2
  | .pauli2 ps q1 q2 => ∀ s, rng.choice16 pos ps = some s → (0 ≤ q1 ∨ s.val / 4 < 2) ∧ (0 ≤ q2 ∨ s.val % 4 < 2)

/-- **C133** for error channels: they do exactly what those with indices from 0 on do, if no `Y` or `Z` is drawn for a qubit with a negative index. -/
theorem C133_channels_partial (api : FloatApi F) (rng : Rng F) (S : Sim n) {c : PyChannel F} {g : Gate F} (h : c.Plain (n := n) g) (hq : c.Quiet rng S.pos) :
    S.pyChannel rng c = S.runGate api rng g := by
  cases h with
  | @erase p q i hn =>
    simp only [Sim.pyChannel, Sim.runGate, Name.isError, Sim.handleGate, numOf, qubitOf_fin]
    by_cases he : rng.below S.pos p = true
    · simp only [he, if_true]
      rw [pyPauli_plain _ hn]
      · rfl
      · exact hq.imp id fun h => h he
    · simp [he]
  | @pauli px py pz q i hn =>
    simp only [Sim.pyChannel, Sim.runGate, Name.isError, Sim.handleGate]
    have e1 : numsOf api (List.take 3 [Val.flt px, .flt py, .flt pz, .int (i.val : Int)]) = .ok [px, py, pz] := rfl
    have e2 : argAt [Val.flt px, .flt py, .flt pz, .int (i.val : Int)] 3 = .ok (.int (i.val : Int)) := rfl
    rw [e1, e2]
    cases hc : rng.choice4 S.pos [px, py, pz] with
    | none => simp [hc]
    | some s =>
      simp only [hc, qubitOf_fin]
      rw [pyPauli_plain _ hn (hq.imp id fun h => h s hc)]
      rfl
  | @pauli2 ps q1 q2 i j hl h1 h2 =>
    simp only [Sim.pyChannel, Sim.runGate, Name.isError, Sim.handleGate]
    have e0 : (ps.map (Val.flt (F := F))).length = 15 := by rw [List.length_map, hl]
    rw [List.take_append_of_le_length (by omega), List.take_of_length_le (by omega), numsOf_flt, List.drop_append_of_le_length (by omega), List.drop_of_length_le (by omega)]
    have e1 : argAt ([] ++ [Val.int (i.val : Int), .int (j.val : Int)] : List (Val F)) 0 = .ok (.int (i.val : Int)) := rfl
    have e2 : argAt ([] ++ [Val.int (i.val : Int), .int (j.val : Int)] : List (Val F)) 1 = .ok (.int (j.val : Int)) := rfl
    rw [e1, e2]
    simp only [hl, ne_eq, not_true_eq_false, if_false, qubitOf_fin]
    cases hc : rng.choice16 S.pos ps with
    | none => simp [hc]
    | some s =>
      obtain ⟨k1, k2⟩ := hq s hc
      simp only [hc, Bool.false_eq_true, if_false]
      rw [pyPauli_plain _ h1 k1]
      cases Sim.applyPauli _ i (s.val / 4) with
      | error e => rfl
      | ok S1 => exact pyPauli_plain S1 h2 k2

/-- With indices from 0 on nothing has to be assumed about the draws. -/
theorem quiet_of_pos (rng : Rng F) (pos : Nat) {c : PyChannel F} (h : ∀ q ∈ c.indices, 0 ≤ q) : c.Quiet rng pos := by
  cases c with
  | erase p q => exact .inl (h q (.head _))
  | pauli ps q => exact .inl (h q (.head _))
  | pauli2 ps q1 q2 => exact fun s _ => ⟨.inl (h q1 (.head _)), .inl (h q2 (.tail _ (.head _)))⟩

/-- Negative indices occur in `X`, `CX` and `CZ`, and in channels that do not draw `Y` or `Z` for them. -/
def PyInstr.Few (rng : Rng F) : PyInstr F → Prop
  | .gate name qs => name ∉ [Name.X, .CX, .CZ] → ∀ q ∈ qs, 0 ≤ q
  | .channel c => ∀ pos, c.Quiet rng pos

/-- **C133** for circuits of gates and error channels. -/
theorem C133_all_partial (api : FloatApi F) (rng : Rng F) {gs : List (PyInstr F)} {c : List (Gate F)} (h : List.Forall₂ (PyInstr.Plain (n := n)) gs c) (hf : ∀ g ∈ gs, g.Few rng)
    (S : Sim n) : S.pyRunAll rng gs = S.runGates api rng c := by
  induction h generalizing S with
  | nil => rfl
  | @cons g g' gs c h1 _ ih =>
    have e : S.pyInstr rng g = S.runGate api rng g' := by
      have h2 := hf g (.head _)
      cases h1 with
      | gate hq ha => exact pyGate_plain api rng S (g := (_, _)) (h := (_, _)) hq ⟨rfl, ha⟩ h2
      | channel hc => exact C133_channels_partial api rng S hc (h2 S.pos)
    rw [Sim.pyRunAll, Sim.runGates, e]
    cases S.runGate api rng g' with
    | error e => rfl
    | ok S1 => exact ih (fun g hg => hf g (.tail _ hg)) S1

/-- Non-vacuity: a circuit with both. -/
example : List.Forall₂ (PyInstr.Plain (n := 2)) [.gate .X [-1], .channel (.erase (3 : Nat) 0), .gate .M [1]]
    [⟨.X, [.int ((1 : Fin 2).val : Int)]⟩, ⟨.E_ERASE, [.flt 3, .int ((0 : Fin 2).val : Int)]⟩, ⟨.M, [.int ((1 : Fin 2).val : Int)]⟩] :=
  .cons (.gate (is := [1]) (by decide) (.cons (.inr (by decide)) .nil)) (.cons (.channel (.erase (.inl (by decide)))) (.cons (.gate (is := [1]) (by decide) (.cons (.inl (by decide)) .nil)) .nil))

/-- **C133 (full statement)** for error channels: negative indices count from the end. -/
def C133_channels_statement : Prop := ∀ (n : Nat) (F : Type) (api : FloatApi F) (rng : Rng F) (S : Sim n) (c : PyChannel F) (g : Gate F), c.Plain (n := n) g →
  S.pyChannel rng c = S.runGate api rng g

/-- Draws for the example: a `Z` from every channel on one qubit. -/
def lastRng : Rng Nat := ⟨fun _ _ => true, fun _ => false, fun _ => 2, fun _ => 3, fun _ _ => some 3, fun _ _ => some 3⟩

/-- A `Z` that is drawn for the last qubit, written with the index -1, takes the signs of all operators away. -/
theorem C133_channel_erases (rng : Rng F) (S : Sim n) (ps : List F) {s : Fin 4} (hs : rng.choice4 S.pos ps = some s) (h3 : s.val = 3) : S.pyChannel rng (.pauli ps (-1)) =
    .ok { S with inError := false, pos := S.pos + 1, tab := { d := fun i => { S.tab.d i with r := false }, s := fun i => { S.tab.s i with r := false } } } := by
  have h := C132_z_erases S.tab
  simp only [Sim.pyChannel, hs, h3, Sim.pyPauli, Sim.call, h]

/-- **C133** fails for error channels: an `E_PAULI` on the only qubit, with the index -1, that draws a `Z` takes the sign of the state 1 away. -/
theorem C133_channels_counterexample : ¬ C133_channels_statement := fun h => by
  have h1 := h 1 Nat natApi lastRng ((Sim.fresh 1 0).gates [.x 0]) (.pauli [0, 0, 1] (-1)) _ (.pauli (i := 0) (.inr (by decide)))
  have h2 := congrArg (fun r : Except Err (Sim 1) => r.map fun S => (S.tab.s 0).r) h1
  clear h1 h
  revert h2
  decide

/-- Non-vacuity: an `X` is drawn for a negative index. -/
example : (PyChannel.pauli [1, 0, 0] (-1) : PyChannel Nat).Plain (n := 2) ⟨.E_PAULI, [.flt 1, .flt 0, .flt 0, .int ((1 : Fin 2).val : Int)]⟩ ∧
    (PyChannel.pauli [1, 0, 0] (-1) : PyChannel Nat).Quiet { zeroRng with choice4 := fun _ _ => some 1 } 0 := by
  refine ⟨.pauli (.inr (by decide)), .inr fun s hs => ?_⟩
  cases hs
  decide

end Plaquette
