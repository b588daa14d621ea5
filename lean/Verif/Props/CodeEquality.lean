import Verif.Model.Codes

/-!
# Equality of codes (C97)
-/

namespace Plaquette

variable {n : Nat}

theorem zip_all_iff {α : Type} [DecidableEq α] {a b : List α} :
    ((a.zip b).all fun p => decide (p.1 = p.2)) = true ↔ a.take b.length = b.take a.length := by
  induction a generalizing b with
  | nil => simp
  | cons x a ih =>
    cases b with
    | nil => simp
    | cons y b => simp [← ih]

/-- **C97 (full statement)** two codes are equal if and only if they have the same stabilisers and the same logical operators. -/
def C97_statement : Prop := ∀ (n : Nat) (a b : StabCode n), a.check = .ok () → b.check = .ok () →
  (a.eqv b = true ↔ a.stabilisers = b.stabilisers ∧ a.logicalOps = b.logicalOps)

/-- The product of Pauli operators given by their letters. -/
def lettersOp (l : List (Fin n × Letter)) : Op n := l.foldr (fun p o => mulOp (singleOp false p.2 p.1) o) (idOp n)

/-- The repetition code of three qubits: one logical qubit. -/
def oneLogical : StabCode 3 :=
  { stabilisers := [lettersOp [(0, .Z), (1, .Z)], lettersOp [(1, .Z), (2, .Z)]],
    logicalOps := [lettersOp [(0, .X), (1, .X), (2, .X)], lettersOp [(0, .Z)]] }

/-- A code on three qubits with one stabiliser and two logical qubits. -/
def twoLogical : StabCode 3 :=
  { stabilisers := [lettersOp [(0, .Z), (1, .Z)]],
    logicalOps := [lettersOp [(0, .X), (1, .X), (2, .X)], lettersOp [(0, .Z)], lettersOp [(2, .X)], lettersOp [(1, .Z), (2, .Z)]] }

/-- **C97 fails**: `zip` stops at the shorter list, so that the repetition code with one logical qubit and a code with two logical
qubits, which both pass the check, are equal. -/
theorem C97_zip_counterexample : ¬ C97_statement := by
  intro h
  have := (h 3 oneLogical twoLogical (by decide +kernel) (by decide +kernel)).1 (by decide +kernel)
  exact absurd (congrArg List.length this.1) (by decide +kernel)

/-- **C97, what equality means**: of the stabilisers, and of the logical operators, one list begins with the other. -/
theorem C97_prefix (a b : StabCode n) : a.eqv b = true ↔
    (a.stabilisers <+: b.stabilisers ∨ b.stabilisers <+: a.stabilisers) ∧ (a.logicalOps <+: b.logicalOps ∨ b.logicalOps <+: a.logicalOps) := by
  have key : ∀ x y : List (Op n), x.take y.length = y.take x.length ↔ (x <+: y ∨ y <+: x) := by
    intro x y
    constructor
    · intro h
      rcases le_total x.length y.length with hl | hl
      · rw [List.take_of_length_le hl] at h
        exact .inl (h ▸ List.take_prefix _ _)
      · rw [List.take_of_length_le hl] at h
        exact .inr (h ▸ List.take_prefix _ _)
    · rintro (h | h)
      · rw [List.take_of_length_le h.length_le, ← List.prefix_iff_eq_take.1 h]
      · rw [List.take_of_length_le h.length_le, ← List.prefix_iff_eq_take.1 h]
  unfold StabCode.eqv
  rw [Bool.and_eq_true, zip_all_iff, zip_all_iff, key, key]

/-- **C97, part that holds**: for codes with the same numbers of stabilisers and of logical operators, equality is equality of the
operators, with their order and their signs. Missing: codes with different numbers of operators. -/
theorem C97_same_size_partial (a b : StabCode n) (hs : a.stabilisers.length = b.stabilisers.length)
    (hl : a.logicalOps.length = b.logicalOps.length) :
    a.eqv b = true ↔ a.stabilisers = b.stabilisers ∧ a.logicalOps = b.logicalOps := by
  unfold StabCode.eqv
  rw [Bool.and_eq_true, zip_all_iff, zip_all_iff, List.take_of_length_le hs.le, List.take_of_length_le hs.ge,
    List.take_of_length_le hl.le, List.take_of_length_le hl.ge]

/-- **C97** equality is reflexive and symmetric. -/
theorem C97_symmetric (a b : StabCode n) : a.eqv a = true ∧ a.eqv b = b.eqv a := by
  refine ⟨(C97_same_size_partial a a rfl rfl).2 ⟨rfl, rfl⟩, ?_⟩
  rw [Bool.eq_iff_iff, C97_prefix, C97_prefix, or_comm, or_comm (a := a.logicalOps <+: _)]

/-- The repetition code again, with other stabilisers. -/
def otherOneLogical : StabCode 3 :=
  { stabilisers := [lettersOp [(0, .Z), (1, .Z)], lettersOp [(0, .Z), (2, .Z)]],
    logicalOps := [lettersOp [(0, .X), (1, .X), (2, .X)], lettersOp [(0, .Z)]] }

/-- **C97** equality is not transitive: two different codes with three qubits are equal to a third one. -/
theorem C97_not_transitive : ∃ a b c : StabCode 3, a.check = .ok () ∧ b.check = .ok () ∧ c.check = .ok () ∧ a.eqv b = true ∧
    b.eqv c = true ∧ a.eqv c = false := by
  refine ⟨oneLogical, twoLogical, otherOneLogical, by decide +kernel, by decide +kernel, by decide +kernel, by decide +kernel,
    by decide +kernel, ?_⟩
  rw [Bool.eq_false_iff, Ne, C97_same_size_partial oneLogical otherOneLogical rfl rfl]
  intro h
  have h1 := congrArg (fun l => l.map fun o : Op 3 => o.z 0) h.1
  exact absurd h1 (by decide +kernel)

-- the repetition code and the same code with a sign
example : oneLogical.eqv oneLogical = true ∧
    oneLogical.eqv { oneLogical with logicalOps := [lettersOp [(0, .X), (1, .X), (2, .X)], { lettersOp [(0, .Z)] with r := true }] } = false := by
  decide +kernel

end Plaquette
