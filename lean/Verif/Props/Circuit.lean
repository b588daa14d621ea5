import Verif.Lemmas.CircuitCount

/-!
# Properties C18, C19, C23: circuits as text, sizes, OpenQASM export
-/

namespace Plaquette
variable {F : Type}

/-! ### C18 -/

/-- **C18** every circuit built by `append` calls (from integers, floats or strings, including conditional error
instructions, gates without arguments and the empty circuit) is read back from its text exactly. -/
theorem C18_text_roundtrip (api : FloatApi F) (ha : api.Lawful) (calls : List (List Char × List (Raw F)))
    (c : List (Gate F)) (h : appendAll api [] calls = .ok c) : fromStr api (circuitText api c) = .ok c :=
  fromStr_text ha c (appendAll_ok h (by simp))

/-- **C18** appending the text of a second circuit appends its gates. -/
theorem C18_append_text (api : FloatApi F) (ha : api.Lawful) (calls calls' : List (List Char × List (Raw F)))
    (c c' : List (Gate F)) (_h : appendAll api [] calls = .ok c) (h' : appendAll api [] calls' = .ok c') :
    appendFromStr api c (circuitText api c') = .ok (c ++ c') := by
  have hok := appendAll_ok h' (by simp)
  unfold appendFromStr
  rw [appendLines_eq]
  have e := instrs_strip (circuitText api c')
  unfold instrs at e
  rw [e]
  cases c' with
  | nil => simp [circuitText, joinWith, splitOn, lineWords, strip, words, appendWords]
  | cons g c' =>
    unfold circuitText
    rw [splitOn_join]
    · rw [List.map_map]
      have : (lineWords ∘ Gate.line api) = fun g : Gate F => g.name.text :: g.args.map (Val.text api) :=
        funext fun g => lineWords_line ha g
      rw [this, List.filter_eq_self.mpr]
      · exact appendWords_lines ha c (g :: c') hok
      · intro w hw
        obtain ⟨g, _, rfl⟩ := List.mem_map.mp hw
        rfl
    · intro s hs
      obtain ⟨g, _, rfl⟩ := List.mem_map.mp hs
      intro hc
      exact absurd ((line_free ha g _ hc).1 (by decide)) (by decide)
    · simp

/-- Blanks and blank lines around a circuit text do not matter. -/
theorem C18_blanks (api : FloatApi F) (s : List Char) (a b : List Char) (ha : a.all isWs = true)
    (hb : b.all isWs = true) : fromStr api (a ++ s ++ b) = fromStr api s := by
  rw [fromStr_eq, fromStr_eq]
  congr 1
  have h1 : ∀ a : List Char, a.all isWs = true → ∀ t, instrs (a ++ t) = instrs t := by
    intro a
    induction a with
    | nil => intros; rfl
    | cons x a ih =>
      intro h t
      simp only [List.all_cons, Bool.and_eq_true] at h
      rw [List.cons_append, instrs_ws h.1, ih h.2]
  have h2 : ∀ b : List Char, b.all isWs = true → ∀ t, instrs (t ++ b) = instrs t := by
    intro b
    induction b with
    | nil => intros; simp
    | cons x b ih =>
      intro h t
      simp only [List.all_cons, Bool.and_eq_true] at h
      rw [← List.singleton_append, ← List.append_assoc, ih h.2, instrs_snoc _ h.1]
  rw [h2 b hb, h1 a ha]

/-- Non-vacuity: a circuit with a conditional error. -/
example : (do let c ← appendAll natApi []
                [("X".toList, [.int 0, .str "12".toList]), ("ERROR".toList, [.flt 1, .str "M".toList, .int 3]),
                 ("H".toList, [])]
              fromStr natApi (circuitText natApi c)) =
    .ok [⟨.X, [.int 0, .int 12]⟩, ⟨.ERROR, [.flt 1, .name .M, .int 3]⟩, ⟨.H, []⟩] := by decide +kernel

/-! ### C19 -/

/-- **C19** every qubit of every circuit fits in `number_of_qubits`. -/
theorem C19_fits (c : List (Gate F)) : FitsIn c (numberOfQubits c) := by
  intro g hg i hi
  have := (maxGates_foldl c 0).2.1 g hg i (g.qubits_sub _ hi)
  have := (maxGates_foldl c 0).1
  unfold numberOfQubits
  omega

/-- **C19 (full statement)** and no smaller register fits. -/
def C19_statement : Prop := ∀ (F : Type) (api : FloatApi F) (calls : List (List Char × List (Raw F)))
  (c : List (Gate F)), appendAll api [] calls = .ok c → ∀ N, 1 ≤ N → FitsIn c N → numberOfQubits c ≤ N

/-- **C19 fails** for probabilistic channels inside a conditional error: their first (probability) arguments are stored
as integers and counted as qubit indices. -/
theorem C19_nested_channel_counterexample : ¬ C19_statement := by
  intro h
  have := h Nat natApi [("ERROR".toList, [.flt 1, .str "E_ERASE".toList, .int 1, .int 0])]
    [⟨.ERROR, [.flt 1, .name .E_ERASE, .int 1, .int 0]⟩] (by decide) 1 (by decide) (by
      intro g hg i hi
      rw [List.mem_singleton.mp hg] at hi
      simp [Gate.qubits, targetsOf] at hi
      simp [hi])
  exact absurd this (by decide)

/-- **C19, part that holds** for circuits built by `append` without a channel inside a conditional error:
`number_of_qubits` is the smallest positive register size. Missing: channels inside conditional errors. -/
theorem C19_smallest_partial (api : FloatApi F) (calls : List (List Char × List (Raw F)))
    (c : List (Gate F)) (h : appendAll api [] calls = .ok c) (hp : ∀ g ∈ c, g.plain) (N : Nat) (hN : 1 ≤ N)
    (hfit : FitsIn c N) : numberOfQubits c ≤ N := by
  have hok := appendAll_ok h (by simp)
  obtain ⟨h1, h2, h3⟩ := maxGates_foldl c 0
  unfold numberOfQubits
  rcases h3 with h3 | ⟨g, hg, h3⟩
  · rw [h3]; omega
  · have := hfit g hg _ (int_mem_qubits (hok g hg) (hp g hg) h3)
    omega

/-- Non-vacuity of C19. -/
example : (do let c ← appendAll natApi []
                [("X".toList, [.int 0, .str "12".toList]), ("ERROR".toList, [.flt 1, .str "M".toList, .int 3])]
              pure (numberOfQubits c)) = .ok 13 := by decide

/-! ### C23 -/

/-- **C23 (full statement)** a successful export contains every instruction. -/
def C23_statement : Prop := ∀ (F : Type) (c : List (Gate F)) (q : Qasm), convertToQasm c false = .ok q →
  q.lines = exactQasmAll 0 c

/-- **C23 fails**: a reset is accepted (it is in the table of supported gates) but silently dropped. -/
theorem C23_reset_dropped_counterexample : ¬ C23_statement := by
  intro h
  have := h Nat [⟨.R, [.int 0]⟩] { qreg := 1, creg := 0, lines := [] } (by decide)
  exact absurd this (by decide)

/-- **C23, part that holds**: without resets a successful export contains exactly one line per gate target (per pair of
targets), in order, and the `k`-th measured qubit goes to classical bit `k` of a register of the right size.
Missing: resets. -/
theorem C23_export_partial (c : List (Gate F)) (hR : ∀ g ∈ c, g.name ≠ .R) (q : Qasm)
    (h : convertToQasm c false = .ok q) :
    q.lines = exactQasmAll 0 c ∧ q.qreg = numberOfQubits c ∧ q.creg = numberMeasured c := by
  unfold convertToQasm at h
  split at h
  · cases h
  · rename_i ls h'
    cases h
    exact ⟨qasmLoop_exact 0 c ls hR h', rfl, rfl⟩

/-- Whether or not unsupported gates are ignored and resets dropped, the measurement lines of an export use the classical
bits `0, 1, 2, …` in order, exactly as many as the declared register has. -/
theorem C23_classical_bits (c : List (Gate F)) (ign : Bool) (q : Qasm) (h : convertToQasm c ign = .ok q) :
    measBits q.lines = List.range q.creg := by
  have key : ∀ (c : List (Gate F)) k ls, qasmLoop ign k c = .ok ls → measBits ls = List.range' k (numberMeasured c) := by
    intro c
    induction c with
    | nil => intro k ls h; cases h; rfl
    | cons g c ih =>
      intro k ls h
      obtain ⟨name, args⟩ := g
      have hn : numberMeasured (⟨name, args⟩ :: c : List (Gate F)) =
          (if name = .M then args.length else 0) + numberMeasured c := by
        unfold numberMeasured
        rw [numberMeasured_cons, numberMeasured_add]
        simp [numberMeasured]
      rw [hn]
      unfold qasmLoop at h
      cases name <;> simp only [Name.inQasm, Bool.not_true, Bool.not_false, if_true, Bool.false_eq_true, if_false] at h
      case M =>
        split at h
        · cases h
        · rename_i ls' h'
          cases h
          rw [measBits_append, measBits_mapIdx, ih _ _ h']
          simp [List.range'_append]
      case R => simpa using ih _ _ h
      case CX =>
        split at h
        · cases h
        · rename_i ps hp
          split at h
          · cases h
          · rename_i h'
            cases h
            rw [measBits_append, (qasmPairs_ok _ _ _ hp).2, measBits_map_gate2, ih _ _ h']
            simp
      case CZ =>
        split at h
        · cases h
        · rename_i ps hp
          split at h
          · cases h
          · rename_i h'
            cases h
            rw [measBits_append, (qasmPairs_ok _ _ _ hp).2, measBits_map_gate2, ih _ _ h']
            simp
      case H | X | Y | Z =>
        split at h
        · cases h
        · rename_i h'
          cases h
          rw [measBits_append, measBits_map_gate1, ih _ _ h']
          simp
      all_goals
        split at h
        · simpa using ih _ _ h
        · cases h
  unfold convertToQasm at h
  split at h
  · cases h
  · rename_i ls h'
    cases h
    simp only
    rw [key c 0 ls h', List.range_eq_range']

/-- An unsupported instruction is refused unless the caller asks to ignore it. -/
theorem C23_unsupported_refused (c : List (Gate F)) (g : Gate F) (hg : g ∈ c) (hq : g.name.inQasm = false) :
    ∃ e, convertToQasm c false = .error e := by
  have key : ∀ (c : List (Gate F)), g ∈ c → ∀ k, ∃ e, qasmLoop false k c = .error e := by
    intro c
    induction c with
    | nil => intro h; cases h
    | cons a c ih =>
      intro hg k
      unfold qasmLoop
      rcases List.mem_cons.mp hg with rfl | hg'
      · exact ⟨.runtimeError, by simp [hq]⟩
      · obtain ⟨name, args⟩ := a
        cases name <;> simp only [Name.inQasm, Bool.not_true, Bool.not_false, if_true, Bool.false_eq_true, if_false]
        case R => exact ih hg' k
        case M => obtain ⟨e, he⟩ := ih hg' (k + args.length); exact ⟨e, by rw [he]⟩
        case CX =>
          obtain ⟨e, he⟩ := ih hg' k
          cases qasmPairs .CX args with
          | error e' => exact ⟨e', rfl⟩
          | ok ps => exact ⟨e, by simp only [he]⟩
        case CZ =>
          obtain ⟨e, he⟩ := ih hg' k
          cases qasmPairs .CZ args with
          | error e' => exact ⟨e', rfl⟩
          | ok ps => exact ⟨e, by simp only [he]⟩
        case H | X | Y | Z => obtain ⟨e, he⟩ := ih hg' k; exact ⟨e, by simp only [he]⟩
        all_goals exact ⟨_, rfl⟩
  obtain ⟨e, he⟩ := key c hg 0
  exact ⟨e, by unfold convertToQasm; rw [he]⟩

/-- Non-vacuity of C23. -/
example : convertToQasm (F := Nat) [⟨.H, [.int 0]⟩, ⟨.CX, [.int 0, .int 1]⟩, ⟨.M, [.int 1, .int 0]⟩] false =
    .ok { qreg := 2, creg := 2,
          lines := [.gate1 .H 0, .gate2 .CX 0 1, .measure 1 0, .measure 0 1] } := by decide

end Plaquette
