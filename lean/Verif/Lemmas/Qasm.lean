import Verif.Spec.Qasm
import Verif.Model.QasmText
import Verif.Lemmas.Circuit

/-!
# Reading the text of an exported program
-/

namespace Plaquette.OpenQasm

/-! ### Tokens -/

theorem rawTokens_append (s : List Char) {c : Char} (hc : wordChar c = false) (t : List Char) :
    rawTokens (s ++ c :: t) = rawTokens s ++ rawTokens (c :: t) := by
  induction s with
  | nil => rfl
  | cons a s ih =>
    rw [List.cons_append, rawTokens, rawTokens, ih]
    by_cases ha : wordChar a = true
    · rw [if_pos ha, if_pos ha]
      cases hs : rawTokens s with
      | nil =>
        have hc' : ∀ w ts, rawTokens (c :: t) ≠ .word w :: ts := by
          intro w ts h
          rw [rawTokens, if_neg (by simp [hc])] at h
          split at h <;> cases h
        simp only [List.nil_append]
        rfl
      | cons x xs => cases x <;> rfl
    · rw [if_neg ha, if_neg ha]
      split <;> rfl

theorem rawTokens_word {w : List Char} (hw : ∀ c ∈ w, wordChar c = true) (hn : w ≠ []) : rawTokens w = [.word w] := by
  induction w with
  | nil => exact absurd rfl hn
  | cons c w ih =>
    rw [rawTokens, if_pos (hw c (by simp))]
    cases w with
    | nil => rfl
    | cons d w => rw [ih (fun c hc => hw c (by simp [hc])) (by simp)]

theorem tokens_append (s : List Char) {c : Char} (hc : wordChar c = false) (t : List Char) : tokens (s ++ c :: t) = tokens s ++ tokens (c :: t) := by
  rw [tokens, rawTokens_append s hc, List.filter_append]
  rfl

theorem tokens_word {w : List Char} (hw : ∀ c ∈ w, wordChar c = true) (hn : w ≠ []) : tokens w = [.word w] := by
  rw [tokens, rawTokens_word hw hn]
  rfl

theorem tokens_space (t : List Char) : tokens (' ' :: t) = tokens t := by
  rw [tokens, rawTokens, if_neg (by decide), if_pos (by simp)]
  rfl

theorem tokens_newline (t : List Char) : tokens ('\n' :: t) = tokens t := by
  rw [tokens, rawTokens, if_neg (by decide), if_pos (by simp)]
  rfl

theorem tokens_sym {c : Char} (hc : wordChar c = false) (hs : ¬ (c = ' ' ∨ c = '\n' ∨ c = '\t' ∨ c = '\r')) (t : List Char) :
    tokens (c :: t) = .sym c :: tokens t := by
  rw [tokens, rawTokens, if_neg (by simp [hc]), if_neg hs]
  rfl

/-- The text of a natural number. -/
theorem digits_word (k : Nat) : (∀ c ∈ Nat.toDigits 10 k, wordChar c = true) ∧ Nat.toDigits 10 k ≠ [] := by
  refine ⟨fun c hc => ?_, Nat.toDigits_ne_nil⟩
  have := Nat.isDigit_of_mem_toDigits (by decide) (by decide) hc
  simp [wordChar, Char.isAlphanum, this]

theorem reprInt_nat (k : Nat) : reprInt (k : Int) = Nat.toDigits 10 k := by
  rw [reprInt, if_neg (by omega), Int.natAbs_natCast]

/-- The tokens of `reg[k]`. -/
theorem tokens_qref {r : Char} (hr : wordChar r = true) (k : Nat) {c : Char} (hc : wordChar c = false) (t : List Char) :
    tokens (qasmRef r k ++ c :: t) = [.word [r], .sym '[', .word (Nat.toDigits 10 k), .sym ']'] ++ tokens (c :: t) := by
  rw [tokens_append _ hc]
  congr 1
  rw [qasmRef, reprInt_nat]
  have h1 : r :: '[' :: (Nat.toDigits 10 k ++ [']']) = [r] ++ '[' :: (Nat.toDigits 10 k ++ [']']) := rfl
  rw [List.cons_append, List.cons_append, h1, tokens_append _ (by decide), tokens_word (by simpa using hr) (by simp), tokens_sym (by decide) (by decide), tokens_append _ (by decide),
    tokens_word (digits_word k).1 (digits_word k).2]
  rfl

/-! ### Statements -/

theorem statements_append {s : List Tok} (hs : .sym ';' ∉ s) {ts : List Tok} {ss : List (List Tok)} (h : statements ts = some ss) :
    statements (s ++ ([.sym ';'] ++ ts)) = some (s :: ss) := by
  induction s with
  | nil => rw [List.nil_append, List.cons_append, List.nil_append, statements, h]; rfl
  | cons t s ih =>
    simp only [List.mem_cons, not_or] at hs
    rw [List.cons_append, statements, ih hs.2]
    intro h'
    exact hs.1 h'.symm

/-- The tokens of a line without the semicolon. -/
def lineTokens : QasmLine → List Tok
  | .gate1 name q => [.word name.qasm, .word ['q'], .sym '[', .word (reprInt q), .sym ']']
  | .gate2 name c t => [.word name.qasm, .word ['q'], .sym '[', .word (reprInt c), .sym ']', .sym ',', .word ['q'], .sym '[', .word (reprInt t), .sym ']']
  | .measure q b => [.word "measure".toList, .word ['q'], .sym '[', .word (reprInt q), .sym ']', .sym '-', .sym '>', .word ['c'], .sym '[', .word (reprInt b), .sym ']']
  | .reset q => [.word "reset".toList, .word ['q'], .sym '[', .word (reprInt q), .sym ']']

/-- The qubits of a line are not negative, and its name is that of a gate. -/
def LineOk : QasmLine → Prop
  | .gate1 name q => (name = .H ∨ name = .X ∨ name = .Y ∨ name = .Z) ∧ 0 ≤ q
  | .gate2 name c t => (name = .CX ∨ name = .CZ) ∧ 0 ≤ c ∧ 0 ≤ t
  | .measure q _ => 0 ≤ q
  | .reset q => 0 ≤ q

theorem qasm_word (name : Name) (h : name = .H ∨ name = .X ∨ name = .Y ∨ name = .Z ∨ name = .CX ∨ name = .CZ) :
    (∀ c ∈ name.qasm, wordChar c = true) ∧ name.qasm ≠ [] := by
  rcases h with rfl | rfl | rfl | rfl | rfl | rfl <;> decide +kernel

theorem tokens_line {l : QasmLine} (hl : LineOk l) : tokens l.text = lineTokens l ++ [.sym ';'] := by
  cases l with
  | gate1 name q =>
    have hn := hl.1
    obtain ⟨k, rfl⟩ := Int.eq_ofNat_of_zero_le hl.2
    have hw := qasm_word name (by tauto)
    have e : QasmLine.text (.gate1 name (k : Int)) = name.qasm ++ ' ' :: (qasmRef 'q' k ++ [';']) := rfl
    have e2 := tokens_qref (r := 'q') (by decide) k (c := ';') (by decide) []
    rw [e, lineTokens, tokens_append _ (by decide), tokens_word hw.1 hw.2, tokens_space, e2, reprInt_nat]
    rfl
  | gate2 name c t =>
    obtain ⟨hn, hc, ht⟩ := hl
    obtain ⟨k, rfl⟩ := Int.eq_ofNat_of_zero_le hc
    obtain ⟨j, rfl⟩ := Int.eq_ofNat_of_zero_le ht
    have hw := qasm_word name (by tauto)
    have e : QasmLine.text (.gate2 name (k : Int) (j : Int)) = name.qasm ++ ' ' :: (qasmRef 'q' k ++ ',' :: (qasmRef 'q' j ++ ';' :: [])) := rfl
    rw [e, lineTokens, tokens_append _ (by decide), tokens_word hw.1 hw.2, tokens_space, tokens_qref (by decide) k (by decide), tokens_sym (by decide) (by decide),
      tokens_qref (by decide) j (by decide), reprInt_nat, reprInt_nat]
    rfl
  | measure q b =>
    obtain ⟨k, rfl⟩ := Int.eq_ofNat_of_zero_le hl
    have e : QasmLine.text (.measure (k : Int) b) = "measure".toList ++ ' ' :: (qasmRef 'q' k ++ ' ' :: '-' :: '>' :: ' ' :: (qasmRef 'c' b ++ ';' :: [])) := rfl
    rw [e, lineTokens, tokens_append _ (by decide), tokens_word (by decide) (by decide), tokens_space, tokens_qref (by decide) k (by decide), tokens_space,
      tokens_sym (by decide) (by decide), tokens_sym (by decide) (by decide), tokens_space, tokens_qref (by decide) b (by decide), reprInt_nat, reprInt_nat]
    rfl
  | reset q =>
    obtain ⟨k, rfl⟩ := Int.eq_ofNat_of_zero_le hl
    have e : QasmLine.text (.reset (k : Int)) = "reset".toList ++ ' ' :: (qasmRef 'q' k ++ ';' :: []) := rfl
    rw [e, lineTokens, tokens_append _ (by decide), tokens_word (by decide) (by decide), tokens_space, tokens_qref (by decide) k (by decide), reprInt_nat]
    rfl

theorem lineTokens_free (l : QasmLine) : Tok.sym ';' ∉ lineTokens l := by
  cases l <;> simp [lineTokens]

/-- The tokens of lines joined. -/
theorem tokens_join (ls : List (List Char)) : tokens (joinWith '\n' ls) = ls.flatMap tokens := by
  induction ls with
  | nil => rfl
  | cons a ls ih =>
    cases ls with
    | nil => simp [joinWith]
    | cons b ls =>
      rw [joinWith, tokens_append _ (by decide), tokens_newline, ih]
      · rfl
      · simp

/-! ### Numbers -/

theorem toDigits_head (k : Nat) (h : (Nat.toDigits 10 k).head? = some '0') : k = 0 := by
  induction k using Nat.strongRecOn with
  | ind k ih =>
    by_cases hk : k < 10
    · rw [Nat.toDigits_of_lt_base hk] at h
      have key : ∀ k < 10, [Nat.digitChar k].head? = some '0' → k = 0 := by decide
      exact key k hk h
    · rw [Nat.toDigits_of_base_le (by decide) (by omega)] at h
      rw [List.head?_append_of_ne_nil _ Nat.toDigits_ne_nil] at h
      have := ih (k / 10) (by omega) h
      omega

theorem number_digits (k : Nat) : number (Nat.toDigits 10 k) = some k := by
  rw [number, if_pos]
  · congr 1
    exact Nat.ofDigitChars_toDigits (by decide) (by decide)
  · refine ⟨?_, Nat.toDigits_ne_nil, fun h => ?_⟩
    · rw [List.all_eq_true]
      exact fun c hc => Nat.isDigit_of_mem_toDigits (by decide) (by decide) hc
    · rw [toDigits_head k h]; rfl

theorem operand_ref {r : Char} (hr : r = 'q' ∨ r = 'c') (k : Nat) : operand [r] (Nat.toDigits 10 k) = some ([r], k) := by
  rw [operand, if_pos (by rcases hr with rfl | rfl <;> decide), number_digits]
  rfl

/-- The statement of a line. -/
def lineStmt : QasmLine → Stmt
  | .gate1 name q => .gate1 name.qasm (['q'], q.toNat)
  | .gate2 name c t => .gate2 name.qasm (['q'], c.toNat) (['q'], t.toNat)
  | .measure q b => .measure (['q'], q.toNat) (['c'], b)
  | .reset q => .reset (['q'], q.toNat)

theorem statement_line {l : QasmLine} (hl : LineOk l) : statement (lineTokens l) = some (lineStmt l) := by
  cases l with
  | gate1 name q =>
    obtain ⟨hn, hq⟩ := hl
    obtain ⟨k, rfl⟩ := Int.eq_ofNat_of_zero_le hq
    rw [lineTokens, reprInt_nat, statement, operand_ref (by simp), lineStmt]
    rcases hn with rfl | rfl | rfl | rfl <;> rfl
  | gate2 name c t =>
    obtain ⟨hn, hc, ht⟩ := hl
    obtain ⟨k, rfl⟩ := Int.eq_ofNat_of_zero_le hc
    obtain ⟨j, rfl⟩ := Int.eq_ofNat_of_zero_le ht
    rw [lineTokens, reprInt_nat, reprInt_nat, statement, operand_ref (by simp), operand_ref (by simp), lineStmt]
    rfl
  | measure q b =>
    obtain ⟨k, rfl⟩ := Int.eq_ofNat_of_zero_le hl
    rw [lineTokens, reprInt_nat, reprInt_nat, statement, operand_ref (by simp), operand_ref (by simp), lineStmt]
    rfl
  | reset q =>
    obtain ⟨k, rfl⟩ := Int.eq_ofNat_of_zero_le hl
    rw [lineTokens, reprInt_nat, statement, operand_ref (by simp), lineStmt]
    rfl

/-- The text of a program is read as the statements of its lines. -/
theorem parse_text {q : Qasm} (hq : ∀ l ∈ q.lines, LineOk l) :
    parse q.text = some ([.include, .qreg ['q'] q.qreg, .creg ['c'] q.creg] ++ q.lines.map lineStmt) := by
  have h1 : ∀ ls : List QasmLine, (∀ l ∈ ls, LineOk l) → statements ((ls.map QasmLine.text).flatMap tokens) = some (ls.map lineTokens) := by
    intro ls
    induction ls with
    | nil => intro _; rfl
    | cons l ls ih =>
      intro h
      rw [List.map_cons, List.flatMap_cons, tokens_line (h l (by simp)), List.append_assoc,
        statements_append (lineTokens_free l) (ih fun l hl => h l (by simp [hl]))]
      rfl
  have h2 : ∀ ls : List QasmLine, (∀ l ∈ ls, LineOk l) → (ls.map lineTokens).mapM statement = some (ls.map lineStmt) := by
    intro ls
    induction ls with
    | nil => intro _; rfl
    | cons l ls ih =>
      intro h
      rw [List.map_cons, List.mapM_cons, statement_line (h l (by simp)), ih fun l hl => h l (by simp [hl])]
      rfl
  have t1 : tokens "OPENQASM 2.0;".toList = [.word "OPENQASM".toList, .word "2.0".toList] ++ [.sym ';'] := by decide
  have t2 : tokens "include \"qelib1.inc\";".toList = [.word "include".toList, .sym '"', .word "qelib1.inc".toList, .sym '"'] ++ [.sym ';'] := by decide
  have t3 : tokens ("qreg ".toList ++ qasmRef 'q' q.qreg ++ [';']) = [.word "qreg".toList, .word ['q'], .sym '[', .word (Nat.toDigits 10 q.qreg), .sym ']'] ++ [.sym ';'] := by
    rw [show "qreg ".toList ++ qasmRef 'q' q.qreg ++ [';'] = "qreg".toList ++ ' ' :: (qasmRef 'q' q.qreg ++ ';' :: []) by simp, tokens_append _ (by decide),
      tokens_word (by decide) (by decide), tokens_space, tokens_qref (by decide) _ (by decide)]
    rfl
  have t4 : tokens ("creg ".toList ++ qasmRef 'c' q.creg ++ [';']) = [.word "creg".toList, .word ['c'], .sym '[', .word (Nat.toDigits 10 q.creg), .sym ']'] ++ [.sym ';'] := by
    rw [show "creg ".toList ++ qasmRef 'c' q.creg ++ [';'] = "creg".toList ++ ' ' :: (qasmRef 'c' q.creg ++ ';' :: []) by simp, tokens_append _ (by decide),
      tokens_word (by decide) (by decide), tokens_space, tokens_qref (by decide) _ (by decide)]
    rfl
  have h3 : statements (tokens q.text) = some ([.word "OPENQASM".toList, .word "2.0".toList] ::
      [.word "include".toList, .sym '"', .word "qelib1.inc".toList, .sym '"'] ::
      [.word "qreg".toList, .word ['q'], .sym '[', .word (Nat.toDigits 10 q.qreg), .sym ']'] ::
      [.word "creg".toList, .word ['c'], .sym '[', .word (Nat.toDigits 10 q.creg), .sym ']'] :: q.lines.map lineTokens) := by
    rw [Qasm.text, tokens_join, List.flatMap_append, List.flatMap_cons, List.flatMap_cons, List.flatMap_cons, List.flatMap_cons, List.flatMap_nil, t1, t2, t3, t4]
    simp only [List.append_assoc, List.nil_append]
    exact statements_append (by decide) (statements_append (by decide) (statements_append (by simp) (statements_append (by simp) (h1 q.lines hq))))
  have s3 : statement [.word "qreg".toList, .word ['q'], .sym '[', .word (Nat.toDigits 10 q.qreg), .sym ']'] = some (.qreg ['q'] q.qreg) := by
    rw [statement, operand_ref (by simp)]; rfl
  have s4 : statement [.word "creg".toList, .word ['c'], .sym '[', .word (Nat.toDigits 10 q.creg), .sym ']'] = some (.creg ['c'] q.creg) := by
    rw [statement, operand_ref (by simp)]; rfl
  have h4 : (statements (tokens q.text)).bind (fun ss => ss.mapM statement) =
      some (.version :: ([.include, .qreg ['q'] q.qreg, .creg ['c'] q.creg] ++ q.lines.map lineStmt)) := by
    rw [h3, Option.bind_some, List.mapM_cons, List.mapM_cons, List.mapM_cons, List.mapM_cons, s3, s4, h2 q.lines hq]
    rfl
  rw [parse, h4]
  have hv : Stmt.version ∉ [Stmt.include, .qreg ['q'] q.qreg, .creg ['c'] q.creg] ++ q.lines.map lineStmt := by
    simp only [List.cons_append, List.nil_append, List.mem_cons, List.mem_map, not_or, not_exists, not_and, reduceCtorEq, not_false_eq_true, true_and]
    intro l _
    cases l <;> simp [lineStmt]
  simp only [if_neg hv]

end Plaquette.OpenQasm
