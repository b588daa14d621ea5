import Verif.Model.CircuitDrawing
import Verif.Spec.CircuitDrawing
import Verif.Props.QasmInitial
import Verif.Props.StateText

/-!
# The text from which circuits are drawn (C136)
-/

open scoped ENNReal

namespace Plaquette
variable {F : Type} {n : Nat} {prob : F → ℝ≥0∞}

/-! ### Lemmas -/

theorem pySplitLines_ne (s : List Char) : pySplitLines s ≠ [] := by
  cases s with
  | nil => simp [pySplitLines]
  | cons c s => unfold pySplitLines; dsimp only; split <;> simp

theorem pySplitLines_eq (s : List Char) : pySplitLines s = splitLines s := by
  induction s with
  | nil => rfl
  | cons c s ih =>
    have h := pySplitLines_ne s
    unfold pySplitLines splitLines
    dsimp only
    rw [← ih]
    cases hs : pySplitLines s with
    | nil => exact absurd hs h
    | cons l ls => rfl

theorem join_split (s : List Char) : joinLines (splitLines s) = s := by
  induction s with
  | nil => rfl
  | cons c s ih =>
    have h := pySplitLines_ne s
    rw [pySplitLines_eq] at h
    unfold splitLines
    cases hs : splitLines s with
    | nil => exact absurd hs h
    | cons l ls =>
      rw [hs] at ih
      by_cases hc : c = '\n'
      · rw [if_pos hc, joinLines, ih, hc]; rfl
        simp
      · rw [if_neg hc]
        cases ls with
        | nil => rw [joinLines] at ih ⊢; rw [← ih]
        | cons l' ls => rw [joinLines] at ih ⊢; rw [← ih]; rfl; all_goals simp

/-- A text with two lines in front. -/
def withHead (a b R : List Char) : List Char := a ++ '\n' :: (b ++ '\n' :: R)

theorem split_head {a b : List Char} (ha : '\n' ∉ a) (hb : '\n' ∉ b) (R : List Char) : splitLines (withHead a b R) = a :: b :: splitLines R := by
  rw [withHead, splitLines_append ha, splitLines_append hb]

theorem join_head (a b R : List Char) : joinLines (a :: b :: splitLines R) = withHead a b R := by
  have h := join_split R
  have hR : splitLines R ≠ [] := by rw [← pySplitLines_eq]; exact pySplitLines_ne R
  cases hs : splitLines R with
  | nil => exact absurd hs hR
  | cons l ls =>
    rw [hs] at h
    rw [joinLines, joinLines, h, withHead] <;> simp

theorem setLines {a b a' b' : List Char} (ha : '\n' ∉ a) (hb : '\n' ∉ b) (R : List Char) : ∃ ls, setLine (pySplitLines (withHead a b R)) 0 a' = .ok ls ∧
    setLine ls 1 b' = .ok (a' :: b' :: splitLines R) := by
  refine ⟨a' :: b :: splitLines R, ?_, ?_⟩
  · rw [pySplitLines_eq, split_head ha hb, setLine, if_pos (by simp)]; rfl
  · rw [setLine, if_pos (by simp)]; rfl

theorem text_head (q : Qasm) : ∃ R, q.text = withHead "OPENQASM 2.0;".toList "include \"qelib1.inc\";".toList R := ⟨_, rfl⟩

theorem drawn_of {c : List (Gate F)} {R : List Char} (h : openqasm c false = .ok (withHead "OPENQASM 2.0;".toList "include \"qelib1.inc\";".toList R)) :
    drawnText c = .ok (withHead "OPENQASM 3.0;".toList "include \"stdgates.inc\";".toList R) := by
  have h1 : '\n' ∉ "OPENQASM 2.0;".toList := by decide
  have h2 : '\n' ∉ "include \"qelib1.inc\";".toList := by decide
  unfold drawnText
  rw [h]
  generalize "OPENQASM 2.0;".toList = a at *
  generalize "include \"qelib1.inc\";".toList = b at *
  generalize "OPENQASM 3.0;".toList = a' at *
  generalize "include \"stdgates.inc\";".toList = b' at *
  obtain ⟨ls, k1, k2⟩ := setLines (a' := a') (b' := b') h1 h2 R
  dsimp only
  rw [k1]
  dsimp only
  rw [k2]
  dsimp only
  rw [join_head]

theorem exported {c : List (Gate F)} {text : List Char} (h : openqasm c false = .ok text) :
    ∃ R, text = withHead "OPENQASM 2.0;".toList "include \"qelib1.inc\";".toList R := by
  unfold openqasm at h
  cases hq : convertToQasm c false with
  | error e => rw [hq] at h; cases h
  | ok q => rw [hq] at h; cases h; exact text_head q

/-! ### The lines -/

/-- **C136** the text that is drawn has the two lines of the header of OpenQASM 3, then the lines of the exported text behind its header; there is an exception just when the export has one. -/
theorem C136_lines (c : List (Gate F)) : (∀ e, drawnText c = .error e ↔ openqasm c false = .error e) ∧
    ∀ text, openqasm c false = .ok text → ∃ drawn rest, drawnText c = .ok drawn ∧
      splitLines text = "OPENQASM 2.0;".toList :: "include \"qelib1.inc\";".toList :: rest ∧
      splitLines drawn = "OPENQASM 3.0;".toList :: "include \"stdgates.inc\";".toList :: rest := by
  have key : ∀ text, openqasm c false = .ok text → ∃ drawn rest, drawnText c = .ok drawn ∧
      splitLines text = "OPENQASM 2.0;".toList :: "include \"qelib1.inc\";".toList :: rest ∧
      splitLines drawn = "OPENQASM 3.0;".toList :: "include \"stdgates.inc\";".toList :: rest := by
    intro text h
    obtain ⟨R, rfl⟩ := exported h
    exact ⟨_, splitLines R, drawn_of h, split_head (by decide) (by decide) R, split_head (by decide) (by decide) R⟩
  refine ⟨fun e => ?_, key⟩
  cases ho : openqasm c false with
  | error e' => unfold drawnText; rw [ho]
  | ok text =>
    obtain ⟨d, r, h1, -⟩ := key text ho
    rw [h1]
    simp

/-! ### The meaning -/

namespace OpenQasm3
open OpenQasm

theorem tokens_head2 (R : List Char) : tokens (withHead "OPENQASM 2.0;".toList "include \"qelib1.inc\";".toList R) =
    [.word "OPENQASM".toList, .word "2.0".toList, .sym ';', .word "include".toList, .sym '"', .word "qelib1.inc".toList, .sym '"', .sym ';'] ++ tokens R := rfl

theorem tokens_head3 (R : List Char) : tokens (withHead "OPENQASM 3.0;".toList "include \"stdgates.inc\";".toList R) =
    [.word "OPENQASM".toList, .word "3.0".toList, .sym ';', .word "include".toList, .sym '"', .word "stdgates.inc".toList, .sym '"', .sym ';'] ++ tokens R := rfl

theorem mapM_statement {ts : List (List OpenQasm.Tok)} {ss : List Stmt} (h : ts.mapM OpenQasm.statement = some ss) (hs : ∀ s ∈ ss, s ≠ .version ∧ s ≠ .include) : ts.mapM statement = some ss := by
  induction ts generalizing ss with
  | nil => exact h
  | cons t ts ih =>
    rw [List.mapM_cons] at h ⊢
    cases h1 : OpenQasm.statement t with
    | none => rw [h1] at h; cases h
    | some s =>
      cases h2 : ts.mapM OpenQasm.statement with
      | none => rw [h1, h2] at h; cases h
      | some ss' =>
        rw [h1, h2] at h
        cases h
        have h3 := hs s (by simp)
        have h4 : statement t = some s := by
          unfold statement
          rw [if_neg, h1]
          · cases s <;> simp_all
          · rintro rfl
            revert h1
            have : OpenQasm.statement [.word "include".toList, .sym '"', .word "stdgates.inc".toList, .sym '"'] = none := by decide +kernel
            rw [this]
            simp
        rw [h4, ih h2 fun s hs' => hs s (by simp [hs'])]
        rfl

theorem statements_head (a b c d : List Char) (T : List OpenQasm.Tok) : statements ([.word a, .word b, .sym ';', .word c, .sym '"', .word d, .sym '"', .sym ';'] ++ T) =
    (statements T).map fun ss => [.word a, .word b] :: [.word c, .sym '"', .word d, .sym '"'] :: ss := by
  cases h : statements T <;> simp [statements, h]

theorem parse_head {R : List Char} {ss : List Stmt} (h : OpenQasm.parse (withHead "OPENQASM 2.0;".toList "include \"qelib1.inc\";".toList R) = some (.include :: ss))
    (hs : ∀ s ∈ ss, s ≠ .include) : parse (withHead "OPENQASM 3.0;".toList "include \"stdgates.inc\";".toList R) = some (.include :: ss) := by
  have e1 : OpenQasm.statement [.word "OPENQASM".toList, .word "2.0".toList] = some .version := by decide +kernel
  have e2 : OpenQasm.statement [.word "include".toList, .sym '"', .word "qelib1.inc".toList, .sym '"'] = some .include := by decide +kernel
  have e3 : statement [.word "include".toList, .sym '"', .word "stdgates.inc".toList, .sym '"'] = some .include := by decide +kernel
  unfold OpenQasm.parse at h
  unfold parse
  rw [tokens_head2, statements_head] at h
  rw [tokens_head3, statements_head]
  generalize "OPENQASM".toList = a at *
  generalize "2.0".toList = b at *
  generalize "3.0".toList = b' at *
  generalize "include".toList = c at *
  generalize "qelib1.inc".toList = d at *
  generalize "stdgates.inc".toList = d' at *
  cases hR : statements (tokens R) with
  | none => rw [hR] at h; cases h
  | some ts =>
    rw [hR] at h
    rw [Option.map_some] at h ⊢
    dsimp only
    rw [if_pos rfl, List.mapM_cons, e3]
    rw [Option.bind_some, List.mapM_cons, List.mapM_cons, e1, e2] at h
    cases hm : ts.mapM OpenQasm.statement with
    | none => rw [hm] at h; cases h
    | some ss' =>
      rw [hm] at h
      have h' : (if Stmt.version ∈ Stmt.include :: ss' then none else some (Stmt.include :: ss')) = some (Stmt.include :: ss) := h
      by_cases hv : Stmt.version ∈ Stmt.include :: ss'
      · rw [if_pos hv] at h'; cases h'
      · rw [if_neg hv] at h'
        cases h'
        rw [mapM_statement hm fun s hs' => ⟨fun e => hv (by rw [← e]; simp [hs']), hs s hs'⟩]
        rfl

end OpenQasm3

theorem lineStmt_ne (l : QasmLine) : OpenQasm.lineStmt l ≠ .include := by cases l <;> simp [OpenQasm.lineStmt]

/-- The text that is drawn has the meaning of the exported text. -/
theorem program_drawn {c : List (Gate F)} {ls : List QasmLine} (hq : qasmLoop false 0 c = .ok ls) (hl : ∀ l ∈ ls, OpenQasm.LineOk l) {text : List Char}
    (ht : openqasm c false = .ok text) : ∃ drawn, drawnText c = .ok drawn ∧ ∀ N, OpenQasm3.program N drawn = OpenQasm.program N text := by
  obtain ⟨R, rfl⟩ := exported ht
  refine ⟨_, drawn_of ht, fun N => ?_⟩
  have hp : ∃ ss, OpenQasm.parse (withHead "OPENQASM 2.0;".toList "include \"qelib1.inc\";".toList R) = some (.include :: ss) ∧ ∀ s ∈ ss, s ≠ .include := by
    unfold openqasm convertToQasm at ht
    rw [hq] at ht
    have h2 := OpenQasm.parse_text (q := ⟨numberOfQubits c, numberMeasured c, ls⟩) hl
    have h3 := Except.ok.inj ht
    rw [← h3]
    refine ⟨_, h2, fun s hs => ?_⟩
    rcases List.mem_cons.1 hs with rfl | hs
    · simp
    rcases List.mem_cons.1 hs with rfl | hs
    · simp
    obtain ⟨l, -, rfl⟩ := List.mem_map.1 hs
    exact lineStmt_ne l
  obtain ⟨ss, h1, h2⟩ := hp
  rw [OpenQasm3.program, OpenQasm.program, h1, OpenQasm3.parse_head h1 h2]

/-- **C136 (partial)** a circuit with resets at the beginning only is drawn from a program of OpenQASM 3 with the distribution of the results of the circuit. Missing: later resets. -/
theorem C136_initial_partial (api : FloatApi F) (args : List (List (Val F))) (bs : List (Block F)) (I : Instrument n) (h : DenotesRun api prob (args.map (.gate .R) ++ bs) I)
    (hn : numberOfQubits (flatten (args.map (.gate .R) ++ bs)) = n) (hR : ∀ g ∈ flatten bs, g.name ≠ .R) {drawn : List Char}
    (hd : drawnText (flatten (args.map (.gate .R) ++ bs)) = .ok drawn) :
    ∃ P, OpenQasm3.program n drawn = some P ∧ P.bits = numberMeasured (flatten bs) ∧ ∀ m, P.born (zeroDensity n) m = I.born (zeroDensity n) m [] := by
  cases ht : openqasm (flatten (args.map (.gate .R) ++ bs)) false with
  | error e => rw [((C136_lines _).1 e).2 ht] at hd; cases hd
  | ok text =>
    cases hq : qasmLoop false 0 (flatten (args.map (.gate .R) ++ bs)) with
    | error e => unfold openqasm convertToQasm at ht; rw [hq] at ht; cases ht
    | ok ls =>
      obtain ⟨J, hJ, -⟩ := initial_resets args h
      have hq' := hq
      rw [flatten_resets, loop_resets] at hq'
      obtain ⟨hl, -, -⟩ := exec_run hJ hR (K := numberMeasured (flatten bs)) hq' (by omega)
      obtain ⟨d, h1, h2⟩ := program_drawn hq hl ht
      rw [hd] at h1
      cases h1
      rw [h2]
      exact C105_initial_partial api args bs I h hn hR ht

/-- **C136 (partial)** a circuit without resets is drawn from a program of OpenQASM 3 with the distribution of the results of the circuit. -/
theorem C136_distribution_partial (api : FloatApi F) (bs : List (Block F)) (I : Instrument n) (h : DenotesRun api prob bs I) (hn : numberOfQubits (flatten bs) = n)
    (hR : ∀ g ∈ flatten bs, g.name ≠ .R) {drawn : List Char} (hd : drawnText (flatten bs) = .ok drawn) :
    ∃ P, OpenQasm3.program n drawn = some P ∧ P.bits = numberMeasured (flatten bs) ∧ ∀ m, P.born (zeroDensity n) m = I.born (zeroDensity n) m [] :=
  C136_initial_partial api [] bs I h hn hR hd

/-- **C136 (full statement)** every circuit that is drawn is drawn from a program with the distribution of the results of the circuit. -/
def C136_statement : Prop := ∀ (n : Nat) (api : FloatApi ℝ) (bs : List (Block ℝ)) (I : Instrument n), DenotesRun api ENNReal.ofReal bs I → numberOfQubits (flatten bs) = n →
  ∀ drawn, drawnText (flatten bs) = .ok drawn → ∃ P, OpenQasm3.program n drawn = some P ∧ ∀ m, P.born (zeroDensity n) m = I.born (zeroDensity n) m []

/-- **C136 fails**: `X 0, R 0, M 0` is drawn as `X 0, M 0`. -/
theorem C136_reset_counterexample : ¬ C136_statement := by
  intro h
  obtain ⟨I, J, hI, hJ, hne⟩ := reset_matters
  have e : drawnText (F := ℝ) (flatten [.gate .X (qArgs [(0 : Fin 1)]), .gate .R (qArgs [(0 : Fin 1)]), .gate .M (qArgs [(0 : Fin 1)])]) =
    drawnText (F := ℝ) (flatten [.gate .X (qArgs [(0 : Fin 1)]), .gate .M (qArgs [(0 : Fin 1)])]) := by
    unfold drawnText
    rfl
  have hok : ∃ d, drawnText (F := ℝ) (flatten [.gate .X (qArgs [(0 : Fin 1)]), .gate .M (qArgs [(0 : Fin 1)])]) = .ok d := by
    obtain ⟨d, -, h1, -⟩ := (C136_lines (F := ℝ) (flatten [.gate .X (qArgs [(0 : Fin 1)]), .gate .M (qArgs [(0 : Fin 1)])])).2 _ rfl
    exact ⟨d, h1⟩
  obtain ⟨d, hd⟩ := hok
  obtain ⟨P, hP, h1⟩ := h 1 realApi _ _ hI rfl d (e.trans hd)
  obtain ⟨P', hP', -, h2⟩ := C136_distribution_partial realApi _ _ hJ rfl (by
    intro g hg
    simp only [flatten, List.flatMap_cons, List.flatMap_nil, Block.instrs, List.cons_append, List.nil_append, List.mem_cons, List.not_mem_nil, or_false] at hg
    rcases hg with rfl | rfl <;> simp) hd
  have hPP : P = P' := by
    have := hP.symm.trans hP'
    simpa using this
  subst hPP
  exact hne ((h1 [true]).symm.trans (h2 [true]))

/-- Non-vacuity: the text for a Bell pair; a circuit with errors is not drawn. -/
example : drawnText (F := Nat) [⟨.H, [.int 0]⟩, ⟨.CX, [.int 0, .int 1]⟩, ⟨.M, [.int 1, .int 0]⟩] =
    .ok "OPENQASM 3.0;\ninclude \"stdgates.inc\";\nqreg q[2];\ncreg c[2];\nh q[0];\ncx q[0],q[1];\nmeasure q[1] -> c[0];\nmeasure q[0] -> c[1];".toList := by decide +kernel

example : drawnText (F := Nat) [⟨.H, [.int 0]⟩, ⟨.DEPOLARIZE, [.int 0]⟩] = .error .runtimeError := by decide +kernel

example : OpenQasm3.parse "OPENQASM 3.0; include \"stdgates.inc\"; qreg q[2]; creg c[1]; h q[0]; measure q[1] -> c[0];".toList =
    some [.include, .qreg ['q'] 2, .creg ['c'] 1, .gate1 ['h'] (['q'], 0), .measure (['q'], 1) (['c'], 0)] := by decide +kernel

end Plaquette
