import Verif.Model.Generator

/-!
# Specification of the results of a circuit: which qubit they belong to
-/

namespace Plaquette
variable {F : Type}

/-- The measured qubits, in the order of the results. -/
def measuredQubits (c : List (Gate F)) : List (Val F) := c.flatMap fun g => if g.name = .M then g.args else []

/-- The qubits that may be erased, in the order of the flags. -/
def erasableQubits (c : List (Gate F)) : List (Val F) := c.flatMap fun g => if g.name = .E_ERASE then g.args.drop 1 else []

/-! ### Blocks of results -/

/-- The qubits measured for the logical operator with index `i`: the ancilla of the operator (which comes after the data
qubits and the ancillas of the stabilisers), or the qubits of its support, each of them once. -/
def LogicalBlock (c : LatCode) (anc : Bool) (i : Int) (l : List Nat) : Prop :=
  if anc then l = [c.n + c.code.stabilisers.length + i.toNat]
  else l.Nodup ∧ ∀ q, q ∈ l ↔ ∃ h : q < c.n, ∃ op, c.code.logicalOps[i.toNat]? = some op ∧ (op.x ⟨q, h⟩ || op.z ⟨q, h⟩) = true

/-- The qubits measured in one round: the ancillas of the stabilisers, in order. -/
def stabBlock (c : LatCode) : List Nat := (List.range c.code.stabilisers.length).map (c.n + ·)

/-- The circuit measures the logical operators, `n_rounds + 1` rounds of stabilisers, and the logical operators again; `lq`
has the blocks of the logical operators. -/
structure MeasureLayout (c : LatCode) (sel : LogicalSel) (anc : Bool) (circ : List (Gate F)) (lq : List (List Nat)) : Prop where
  logical : ∃ is, logicalOpsToIndices c.code.logicalOps.length sel = .ok is ∧ List.Forall₂ (LogicalBlock c anc) is lq
  measured : measuredQubits circ =
    (lq.flatten ++ (List.replicate (c.nRounds + 1) (stabBlock c)).flatten ++ lq.flatten).map fun (q : Nat) => Val.int (q : Int)

/-- The sample has the blocks of the raw results. -/
structure Unpacked (c : LatCode) (lq : List (List Nat)) (raw : List Bool) (s : Sample) : Prop where
  blocks : ∃ inits rounds finals : List (List Bool), raw = inits.flatten ++ rounds.flatten ++ finals.flatten ∧
    inits.map List.length = lq.map List.length ∧ finals.map List.length = lq.map List.length ∧
    rounds.map List.length = List.replicate (c.nRounds + 1) c.code.stabilisers.length ∧
    s.initial = inits.map parity ∧ s.final = finals.map parity ∧ s.stabilizers = rounds
  toggle : s.toggle = List.zipWith xor s.initial s.final
  syndrome_rounds : s.syndrome.length = c.nRounds
  syndrome : ∀ t row row', s.stabilizers[t]? = some row → s.stabilizers[t + 1]? = some row' →
    s.syndrome[t]? = some (List.zipWith xor row' row)

/-! ### Erasures -/

/-- The dictionary of the caller has parameters for the erasure of the qubit. -/
def ErasureEntry (qe : List (List Char × ErrDict F)) (q : Nat) : Prop :=
  ∃ d ps, dictGet qe "erasure".toList = some d ∧ dictGet d (.int q) = some ps ∧ ps ≠ []

end Plaquette
