import Verif.Spec.Distribution

/-!
# Specification of the meaning of OpenQASM 2.0 programs

The part of the language with registers, the gates `x`, `y`, `z`, `h`, `cx`, `cz` of `qelib1.inc`, `measure` and `reset` on single qubits, from the text on; written from the description of the
language (Cross et al., Open Quantum Assembly Language, 2017). A text outside of this part has no meaning here. Nothing refers to the export of the project.
-/

open Matrix
open scoped ENNReal

namespace Plaquette.OpenQasm
variable {N : Nat}

/-! ### Tokens -/

/-- Words (identifiers and numbers), symbols, white space. -/
inductive Tok
  | word (w : List Char)
  | sym (c : Char)
  | space
  deriving DecidableEq

/-- The characters of words. -/
def wordChar (c : Char) : Bool := c.isAlphanum || c = '_' || c = '.'

/-- The tokens of a text. -/
def rawTokens : List Char → List Tok
  | [] => []
  | c :: cs =>
    if wordChar c then
      match rawTokens cs with
      | .word w :: ts => .word (c :: w) :: ts
      | ts => .word [c] :: ts
    else if c = ' ' ∨ c = '\n' ∨ c = '\t' ∨ c = '\r' then .space :: rawTokens cs
    else .sym c :: rawTokens cs

/-- The tokens without white space. -/
def tokens (s : List Char) : List Tok := (rawTokens s).filter (· ≠ .space)

/-- Tokens in statements, each of which ends with a semicolon; `none` if there is something behind the last semicolon. -/
def statements : List Tok → Option (List (List Tok))
  | [] => some []
  | .sym ';' :: ts => (statements ts).map fun ss => [] :: ss
  | t :: ts =>
    match statements ts with
    | some (s :: ss) => some ((t :: s) :: ss)
    | _ => none

/-! ### Statements -/

/-- A statement. An operand is the name of a register and an index. -/
inductive Stmt
  | version
  | «include»
  | qreg (name : List Char) (size : Nat)
  | creg (name : List Char) (size : Nat)
  | gate1 (name : List Char) (a : List Char × Nat)
  | gate2 (name : List Char) (a b : List Char × Nat)
  | measure (a c : List Char × Nat)
  | reset (a : List Char × Nat)
  deriving DecidableEq

/-- A natural number without leading zeros. -/
def number (w : List Char) : Option Nat :=
  if w.all Char.isDigit ∧ w ≠ [] ∧ (w.head? = some '0' → w.length = 1) then some (w.foldl (fun n c => 10 * n + (c.toNat - '0'.toNat)) 0) else none

/-- An identifier: a lower case letter, then letters, digits and underscores. -/
def isIdent : List Char → Bool
  | [] => false
  | c :: cs => c.isLower && cs.all fun c => c.isAlphanum || c = '_'

/-- `name[index]` -/
def operand (r i : List Char) : Option (List Char × Nat) := if isIdent r then (number i).map (Prod.mk r) else none

/-- One statement. -/
def statement : List Tok → Option Stmt
  | [.word a, .word b] => if a = "OPENQASM".toList ∧ b = "2.0".toList then some .version else none
  | [.word a, .sym '"', .word b, .sym '"'] => if a = "include".toList ∧ b = "qelib1.inc".toList then some .include else none
  | [.word a, .word r, .sym '[', .word i, .sym ']'] =>
    (operand r i).map fun o =>
      if a = "qreg".toList then .qreg o.1 o.2
      else if a = "creg".toList then .creg o.1 o.2
      else if a = "reset".toList then .reset o
      else .gate1 a o
  | [.word a, .word r, .sym '[', .word i, .sym ']', .sym ',', .word r', .sym '[', .word i', .sym ']'] =>
    match operand r i, operand r' i' with
    | some o, some o' => some (.gate2 a o o')
    | _, _ => none
  | [.word a, .word r, .sym '[', .word i, .sym ']', .sym '-', .sym '>', .word r', .sym '[', .word i', .sym ']'] =>
    match operand r i, operand r' i' with
    | some o, some o' => if a = "measure".toList then some (.measure o o') else none
    | _, _ => none
  | _ => none

/-- The statements of a program: the version is the first one. -/
def parse (s : List Char) : Option (List Stmt) :=
  match (statements (tokens s)).bind fun ss => ss.mapM statement with
  | some (.version :: ss) => if .version ∈ ss then none else some ss
  | _ => none

/-! ### Meaning -/

/-- One possibility: an operator and the classical bits that are written, in order. -/
structure Branch (N : Nat) where
  op : Mat N
  writes : List (Nat × Bool)

/-- A program on `N` qubits: the number of classical bits, and the possibilities. -/
structure Program (N : Nat) where
  bits : Nat
  branches : List (Branch N)

/-- One after the other. -/
noncomputable def andThen (I J : List (Branch N)) : List (Branch N) := I.flatMap fun a => J.map fun b => ⟨b.op * a.op, a.writes ++ b.writes⟩

/-- What has been declared: whether the gates are known, and the registers with their sizes, in order. -/
structure Env where
  gates : Bool
  qregs : List (List Char × Nat)
  cregs : List (List Char × Nat)

/-- The number of qubits or bits in registers. -/
def total (rs : List (List Char × Nat)) : Nat := (rs.map Prod.snd).sum

/-- The place of an operand: the registers are numbered one behind the other. -/
def place : List (List Char × Nat) → List Char × Nat → Option Nat
  | [], _ => none
  | r :: rs, a => if r.1 = a.1 then (if a.2 < r.2 then some a.2 else none) else (place rs a).map (r.2 + ·)

/-- Whether a name is used for a register. -/
def Env.uses (E : Env) (name : List Char) : Prop := name ∈ E.qregs.map Prod.fst ∨ name ∈ E.cregs.map Prod.fst

instance (E : Env) (name : List Char) : Decidable (E.uses name) := by unfold Env.uses; infer_instance

/-- The qubit of an operand. -/
def Env.qubit (N : Nat) (E : Env) (a : List Char × Nat) : Option (Fin N) := (place E.qregs a).bind fun i => if h : i < N then some ⟨i, h⟩ else none

/-- The gates on one qubit. -/
def gate1 (name : List Char) (q : Fin N) : Option (CGate N) :=
  if name = "x".toList then some (.x q) else if name = "y".toList then some (.y q) else if name = "z".toList then some (.z q) else if name = "h".toList then some (.h q) else none

/-- The gates on two qubits, which have to be different. -/
def gate2 (name : List Char) (p q : Fin N) : Option (CGate N) :=
  if p = q then none else if name = "cx".toList then some (.cx p q) else if name = "cz".toList then some (.cz p q) else none

/-- The meaning of a statement that is no declaration. -/
noncomputable def action (N : Nat) (E : Env) : Stmt → Option (List (Branch N))
  | .gate1 name a => if E.gates then (E.qubit N a).bind fun q => (gate1 name q).map fun G => [⟨G.unitary, []⟩] else none
  | .gate2 name a b =>
    if E.gates then (E.qubit N a).bind fun p => (E.qubit N b).bind fun q => (gate2 name p q).map fun G => [⟨G.unitary, []⟩] else none
  | .measure a c => (E.qubit N a).bind fun q => (place E.cregs c).map fun i => [⟨projZ q false, [(i, false)]⟩, ⟨projZ q true, [(i, true)]⟩]
  | .reset a => (E.qubit N a).map fun q => [⟨projZ q false, []⟩, ⟨(CGate.x q).unitary * projZ q true, []⟩]
  | _ => none

/-- The meaning of statements. -/
noncomputable def meaning (N : Nat) (E : Env) : List Stmt → Option (Program N)
  | [] => if total E.qregs = N then some ⟨total E.cregs, [⟨1, []⟩]⟩ else none
  | .include :: ss => meaning N { E with gates := true } ss
  | .qreg name k :: ss => if E.uses name then none else meaning N { E with qregs := E.qregs ++ [(name, k)] } ss
  | .creg name k :: ss => if E.uses name then none else meaning N { E with cregs := E.cregs ++ [(name, k)] } ss
  | s :: ss => (action N E s).bind fun I => (meaning N E ss).map fun P => { P with branches := andThen I P.branches }

/-- The meaning of a text as a program on `N` qubits. -/
noncomputable def program (N : Nat) (s : List Char) : Option (Program N) := (parse s).bind (meaning N ⟨false, [], []⟩)

/-- The classical bits after writing. -/
def written (l : List Bool) (ws : List (Nat × Bool)) : List Bool := ws.foldl (fun l w => l.set w.1 w.2) l

/-- Born's rule: the probability of the values `m` of the classical bits at the end, which are zero at the beginning. -/
noncomputable def Program.born (P : Program N) (ρ : Mat N) (m : List Bool) : ℝ≥0∞ :=
  (P.branches.map fun b => if written (List.replicate P.bits false) b.writes = m then ENNReal.ofReal (b.op * ρ * b.opᴴ).trace.re else 0).sum

end Plaquette.OpenQasm
