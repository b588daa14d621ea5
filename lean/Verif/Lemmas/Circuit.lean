import Verif.Model.Circuit

/-! Helper lemmas: reading and writing circuits. -/

namespace Plaquette
variable {F : Type}

/-- What is assumed about python floats: `float(str(f))` is `f`, and `str(f)` is a nonempty text without blanks
and `#`. -/
structure FloatApi.Lawful (api : FloatApi F) : Prop where
  parse_repr : ∀ f, api.parse (api.repr f) = some f
  repr_ne : ∀ f, api.repr f ≠ []
  repr_chars : ∀ f, ∀ c ∈ api.repr f, isWs c = false ∧ c ≠ '#'

/-- A word: nonempty, no blanks, no `#`. -/
def Tok (s : List Char) : Prop := s ≠ [] ∧ ∀ c ∈ s, isWs c = false ∧ c ≠ '#'

theorem digit_ok {c : Char} (h : c.isDigit = true) : isWs c = false ∧ c ≠ '#' ∧ c ≠ '-' ∧ c ≠ '+' := by
  simp only [Char.isDigit, Bool.and_eq_true, decide_eq_true_eq] at h
  refine ⟨?_, ?_, ?_, ?_⟩
  · simp only [isWs, Bool.or_eq_false_iff, decide_eq_false_iff_not]
    refine ⟨⟨⟨⟨⟨?_, ?_⟩, ?_⟩, ?_⟩, ?_⟩, ?_⟩ <;> rintro rfl <;> revert h <;> decide
  all_goals rintro rfl; revert h; decide

theorem tok_digits (k : Nat) : Tok (Nat.toDigits 10 k) :=
  ⟨Nat.toDigits_ne_nil, fun _ hc => by
    have := digit_ok (Nat.isDigit_of_mem_toDigits (by decide) (by decide) hc)
    exact ⟨this.1, this.2.1⟩⟩

theorem tok_reprInt (i : Int) : Tok (reprInt i) := by
  unfold reprInt
  split
  · refine ⟨by simp, fun c hc => ?_⟩
    rcases List.mem_cons.mp hc with rfl | hc
    · decide
    · exact (tok_digits _).2 c hc
  · exact tok_digits _

theorem parseInt_reprInt (i : Int) : parseInt (reprInt i) = some i := by
  have hd : ∀ k : Nat, (Nat.toDigits 10 k ≠ [] ∧ (Nat.toDigits 10 k).all Char.isDigit = true) := fun k =>
    ⟨Nat.toDigits_ne_nil, List.all_eq_true.mpr fun c hc => Nat.isDigit_of_mem_toDigits (by decide) (by decide) hc⟩
  unfold reprInt
  split
  · rename_i h
    have e : parseInt ('-' :: Nat.toDigits 10 i.natAbs) = some (-(i.natAbs : Int)) := by
      simp only [parseInt]
      rw [if_pos (hd _), Nat.ofDigitChars_ten_toDigits]
      rfl
    rw [e]
    congr 1
    omega
  · rename_i h
    have hne := (hd i.natAbs).1
    have hall := hd i.natAbs
    generalize hl : Nat.toDigits 10 i.natAbs = l at *
    have hk : Nat.ofDigitChars 10 l 0 = i.natAbs := by rw [← hl, Nat.ofDigitChars_ten_toDigits]
    match l, hne with
    | c :: t, _ =>
      have hc : c.isDigit = true := by have := hall.2; simp at this; exact this.1
      have hc' := digit_ok hc
      unfold parseInt
      split
      · rename_i h'; simp at h'; exact absurd h'.1 hc'.2.2.1
      · rename_i h'; simp at h'; exact absurd h'.1 hc'.2.2.2
      · simp only
        rw [if_pos hall, hk]
        show some (Int.ofNat i.natAbs) = some i
        congr 1
        simp only [Int.ofNat_eq_natCast]
        omega

theorem tok_name (n : Name) : Tok n.text := by
  refine ⟨by cases n <;> decide, ?_⟩
  cases n <;> decide

theorem ofText_text (n : Name) : Name.ofText n.text = some n := by cases n <;> decide

theorem ofText_some {s : List Char} {n : Name} (h : Name.ofText s = some n) : s = n.text := by
  unfold Name.ofText at h
  have := List.find?_some h
  have := beq_iff_eq.mp this
  exact this.symm

theorem tok_val {api : FloatApi F} (ha : api.Lawful) (v : Val F) : Tok (v.text api) := by
  cases v with
  | int i => exact tok_reprInt i
  | flt f => exact ⟨ha.repr_ne f, ha.repr_chars f⟩
  | name n => exact tok_name n

/-! ### words -/

theorem words_ws {c : Char} (h : isWs c = true) (s : List Char) : words (c :: s) = words s := by
  cases s <;> simp [words, h]

theorem words_tok {s : List Char} (hs : Tok s) (rest : List Char)
    (hr : rest = [] ∨ ∃ c t, rest = c :: t ∧ isWs c = true) : words (s ++ rest) = s :: words rest := by
  obtain ⟨hne, hc⟩ := hs
  induction s with
  | nil => exact absurd rfl hne
  | cons a s ih =>
    have ha := (hc a (by simp)).1
    cases s with
    | nil =>
      rcases hr with rfl | ⟨c, t, rfl, hw⟩
      · simp [words, ha]
      · simp [words, ha, hw]
    | cons b s =>
      have hb := (hc b (by simp)).1
      have := ih (by simp) (fun c h => hc c (by simp [h]))
      simp only [List.cons_append] at this ⊢
      rw [words]
      simp only [ha, hb, this]
      simp

theorem words_join {l : List (List Char)} (hl : ∀ s ∈ l, Tok s) : words (joinWith ' ' l) = l := by
  induction l with
  | nil => rfl
  | cons a l ih =>
    have hl' : ∀ s ∈ l, Tok s := fun s h => hl s (by simp [h])
    cases l with
    | nil =>
      have := words_tok (hl a (by simp)) [] (Or.inl rfl)
      simpa [joinWith, words] using this
    | cons b l =>
      rw [joinWith, words_tok (hl a (by simp)) _ (Or.inr ⟨' ', _, rfl, by decide⟩), words_ws (by decide), ih hl']
      simp

theorem words_append_ws (s : List Char) {c : Char} (h : isWs c = true) : words (s ++ [c]) = words s := by
  induction s with
  | nil => simp [words, h]
  | cons a s ih =>
    by_cases ha : isWs a = true
    · rw [List.cons_append, words_ws ha, words_ws ha, ih]
    · have ha : isWs a = false := by simpa using ha
      cases s with
      | nil => simp [words, ha, h]
      | cons b s =>
        by_cases hb : isWs b = true
        · simp only [List.cons_append, words, ha, hb, if_true] at ih ⊢
          simp [ih]
        · have hb : isWs b = false := by simpa using hb
          simp only [List.cons_append] at ih ⊢
          rw [words, words]
          simp only [ha, hb, ih]

theorem words_dropWhile (s : List Char) : words (s.dropWhile isWs) = words s := by
  induction s with
  | nil => rfl
  | cons a s ih =>
    by_cases ha : isWs a = true
    · rw [List.dropWhile_cons_of_pos ha, words_ws ha, ih]
    · rw [List.dropWhile_cons_of_neg ha]

/-- Removing trailing characters that `f` ignores. -/
theorem rdrop_eq {β : Type} (f : List Char → β) (hf : ∀ s c, isWs c = true → f (s ++ [c]) = f s) (s : List Char) :
    f ((s.reverse.dropWhile isWs).reverse) = f s := by
  induction hs : s.reverse generalizing s with
  | nil =>
    have : s = [] := by simpa using hs
    subst this; rfl
  | cons a t ih =>
    have hs' : s = t.reverse ++ [a] := by
      have := congrArg List.reverse hs
      simpa using this
    by_cases ha : isWs a = true
    · rw [List.dropWhile_cons_of_pos ha, hs', hf _ _ ha]
      exact ih t.reverse (by simp)
    · rw [List.dropWhile_cons_of_neg ha]
      simp [hs']

theorem words_strip (s : List Char) : words (strip s) = words s := by
  unfold strip
  rw [rdrop_eq words (fun s c h => words_append_ws s h), words_dropWhile]

/-! ### lines -/

theorem splitOn_ne_nil (sep : Char) (s : List Char) : splitOn sep s ≠ [] := by
  induction s with
  | nil => simp [splitOn]
  | cons a s ih =>
    unfold splitOn
    split
    · simp
    · split <;> simp

theorem splitOn_free {sep : Char} {s : List Char} (h : sep ∉ s) : splitOn sep s = [s] := by
  induction s with
  | nil => rfl
  | cons a s ih =>
    simp only [List.mem_cons, not_or] at h
    rw [splitOn, if_neg (fun e => h.1 e.symm), ih h.2]

theorem splitOn_append_sep {sep : Char} {s : List Char} (h : sep ∉ s) (t : List Char) :
    splitOn sep (s ++ sep :: t) = s :: splitOn sep t := by
  induction s with
  | nil => simp [splitOn]
  | cons a s ih =>
    simp only [List.mem_cons, not_or] at h
    rw [List.cons_append, splitOn, if_neg (fun e => h.1 e.symm), ih h.2]

theorem splitOn_join {sep : Char} {l : List (List Char)} (hl : ∀ s ∈ l, sep ∉ s) (hne : l ≠ []) :
    splitOn sep (joinWith sep l) = l := by
  induction l with
  | nil => exact absurd rfl hne
  | cons a l ih =>
    cases l with
    | nil => exact splitOn_free (hl a (by simp))
    | cons b l =>
      rw [joinWith, splitOn_append_sep (hl a (by simp)), ih (fun s h => hl s (by simp [h])) (by simp)]
      simp

/-- The words of a line without its comment. -/
def lineWords (l : List Char) : List (List Char) := words (strip ((splitOn '#' l).headD []))

theorem splitOn_snoc (sep : Char) (s : List Char) (c : Char) (hc : c ≠ sep) :
    ∃ init last, splitOn sep s = init ++ [last] ∧ splitOn sep (s ++ [c]) = init ++ [last ++ [c]] := by
  induction s with
  | nil => exact ⟨[], [], rfl, by simp [splitOn, hc]⟩
  | cons a s ih =>
    obtain ⟨init, last, h1, h2⟩ := ih
    by_cases ha : a = sep
    · refine ⟨[] :: init, last, ?_, ?_⟩
      · simp [splitOn, ha, h1]
      · simp [splitOn, ha, h2]
    · cases init with
      | nil =>
        refine ⟨[], a :: last, ?_, ?_⟩
        · simp [splitOn, ha, h1]
        · simp [splitOn, ha, h2]
      | cons b init =>
        refine ⟨(a :: b) :: init, last, ?_, ?_⟩
        · simp [splitOn, ha, h1]
        · simp [splitOn, ha, h2]

theorem lineWords_ws {c : Char} (h : isWs c = true) (l : List Char) : lineWords (c :: l) = lineWords l := by
  have hc : c ≠ '#' := by rintro rfl; revert h; decide
  unfold lineWords
  rw [words_strip, words_strip, splitOn, if_neg hc]
  cases hl : splitOn '#' l with
  | nil => exact absurd hl (splitOn_ne_nil _ _)
  | cons a r => simp [words_ws h]

theorem lineWords_snoc (l : List Char) {c : Char} (h : isWs c = true) : lineWords (l ++ [c]) = lineWords l := by
  have hc : c ≠ '#' := by rintro rfl; revert h; decide
  unfold lineWords
  rw [words_strip, words_strip]
  obtain ⟨init, last, h1, h2⟩ := splitOn_snoc '#' l c hc
  rw [h1, h2]
  cases init with
  | nil => simp [words_append_ws _ h]
  | cons a r => simp

/-- The nonempty instruction lines of a text. -/
def instrs (s : List Char) : List (List (List Char)) := ((splitOn '\n' s).map lineWords).filter fun w => !w.isEmpty

theorem instrs_ws {c : Char} (h : isWs c = true) (s : List Char) : instrs (c :: s) = instrs s := by
  unfold instrs
  by_cases hc : c = '\n'
  · subst hc
    simp [splitOn, lineWords, strip, words]
  · rw [splitOn, if_neg hc]
    cases hl : splitOn '\n' s with
    | nil => exact absurd hl (splitOn_ne_nil _ _)
    | cons a r => simp only [List.map_cons, lineWords_ws h]

theorem instrs_snoc (s : List Char) {c : Char} (h : isWs c = true) : instrs (s ++ [c]) = instrs s := by
  unfold instrs
  by_cases hc : c = '\n'
  · subst hc
    have : splitOn '\n' (s ++ ['\n']) = splitOn '\n' s ++ [[]] := by
      clear h
      induction s with
      | nil => rfl
      | cons a s ih =>
        by_cases ha : a = '\n'
        · simp [splitOn, ha, ih]
        · rw [List.cons_append, splitOn, if_neg ha, splitOn, if_neg ha, ih]
          cases hl : splitOn '\n' s with
          | nil => exact absurd hl (splitOn_ne_nil _ _)
          | cons b r => simp
    rw [this]
    simp [splitOn, lineWords, strip, words]
  · obtain ⟨init, last, h1, h2⟩ := splitOn_snoc '\n' s c hc
    rw [h1, h2]
    simp [lineWords_snoc _ h]

theorem instrs_strip (s : List Char) : instrs (strip s) = instrs s := by
  unfold strip
  rw [rdrop_eq instrs (fun s c h => instrs_snoc s h)]
  induction s with
  | nil => rfl
  | cons a s ih =>
    by_cases ha : isWs a = true
    · rw [List.dropWhile_cons_of_pos ha, instrs_ws ha, ih]
    · rw [List.dropWhile_cons_of_neg ha]

/-- `append` on each instruction line. -/
def appendWords (api : FloatApi F) (c : List (Gate F)) : List (List (List Char)) → Except Err (List (Gate F))
  | [] => .ok c
  | [] :: ls => appendWords api c ls
  | (w :: ws) :: ls =>
    match appendGate api w (ws.map Raw.str) with
    | .error e => .error e
    | .ok g => appendWords api (c ++ [g]) ls

theorem appendLines_eq (api : FloatApi F) (c : List (Gate F)) (ls : List (List Char)) :
    appendLines api c ls = appendWords api c ((ls.map lineWords).filter fun w => !w.isEmpty) := by
  induction ls generalizing c with
  | nil => rfl
  | cons l ls ih =>
    unfold appendLines
    simp only [List.map_cons]
    change (match lineWords l with
      | [] => _
      | w :: ws => _) = _
    cases h : lineWords l with
    | nil => simp [ih]
    | cons w ws =>
      simp only [List.isEmpty_cons, Bool.not_false, List.filter_cons_of_pos, appendWords]
      split <;> simp_all

theorem fromStr_eq (api : FloatApi F) (s : List Char) : fromStr api s = appendWords api [] (instrs s) := by
  unfold fromStr appendFromStr
  rw [appendLines_eq]
  exact congrArg _ (instrs_strip s)

/-! ### arguments -/

theorem toInts_shape {api : FloatApi F} {args : List (Raw F)} {vs : List (Val F)} (h : toInts api args = .ok vs) :
    ∀ v ∈ vs, ∃ i, v = .int i := by
  induction args generalizing vs with
  | nil => simp [toInts] at h; subst h; simp
  | cons a as ih =>
    rw [toInts] at h
    split at h
    · cases h
    · split at h
      · cases h
      · rename_i h2
        cases h
        intro v hv
        rcases List.mem_cons.mp hv with rfl | hv
        · exact ⟨_, rfl⟩
        · exact ih h2 v hv

theorem toInts_text {api : FloatApi F} {vs : List (Val F)} (h : ∀ v ∈ vs, ∃ i, v = .int i) :
    toInts api ((vs.map (Val.text api)).map Raw.str) = .ok vs := by
  induction vs with
  | nil => rfl
  | cons v vs ih =>
    obtain ⟨i, rfl⟩ := h v (by simp)
    have := ih (fun v hv => h v (by simp [hv]))
    simp only [List.map_cons, toInts, toInt, Val.text, parseInt_reprInt, this]

theorem toFloats_shape {api : FloatApi F} {args : List (Raw F)} {vs : List (Val F)} (h : toFloats api args = .ok vs) :
    vs.length = args.length ∧ ∀ v ∈ vs, ∃ f, v = .flt f := by
  induction args generalizing vs with
  | nil => simp [toFloats] at h; subst h; simp
  | cons a as ih =>
    rw [toFloats] at h
    split at h
    · cases h
    · split at h
      · cases h
      · rename_i h2
        cases h
        obtain ⟨h3, h4⟩ := ih h2
        refine ⟨by simp [h3], fun v hv => ?_⟩
        rcases List.mem_cons.mp hv with rfl | hv
        · exact ⟨_, rfl⟩
        · exact h4 v hv

theorem toInts_length {api : FloatApi F} {args : List (Raw F)} {vs : List (Val F)} (h : toInts api args = .ok vs) :
    vs.length = args.length := by
  induction args generalizing vs with
  | nil => simp [toInts] at h; subst h; simp
  | cons a as ih =>
    rw [toInts] at h
    split at h
    · cases h
    · split at h
      · cases h
      · rename_i h2
        cases h
        simp [ih h2]

theorem toFloats_text {api : FloatApi F} (ha : api.Lawful) {vs : List (Val F)} (h : ∀ v ∈ vs, ∃ f, v = .flt f) :
    toFloats api ((vs.map (Val.text api)).map Raw.str) = .ok vs := by
  induction vs with
  | nil => rfl
  | cons v vs ih =>
    obtain ⟨i, rfl⟩ := h v (by simp)
    have := ih (fun v hv => h v (by simp [hv]))
    simp only [List.map_cons, toFloats, toFloat, Val.text, ha.parse_repr, this]

/-- The stored form of a gate's arguments, as guaranteed by `append`. -/
def ArgsOk (api : FloatApi F) (name : Name) (vs : List (Val F)) : Prop :=
  match name with
  | .ERROR | .ERROR_ELSE => ∃ p n is, vs = .flt p :: .name n :: is ∧ api.inUnit p = true ∧ ∀ v ∈ is, ∃ i, v = .int i
  | .ERROR_CONTINUE => ∃ n is, vs = .name n :: is ∧ ∀ v ∈ is, ∃ i, v = .int i
  | .E_ERASE => ∃ fs is, vs = fs ++ is ∧ fs.length = 1 ∧ is.length = 1 ∧ (∀ v ∈ fs, ∃ f, v = .flt f) ∧
      ∀ v ∈ is, ∃ i, v = .int i
  | .E_PAULI => ∃ fs is, vs = fs ++ is ∧ fs.length = 3 ∧ is.length = 1 ∧ (∀ v ∈ fs, ∃ f, v = .flt f) ∧
      ∀ v ∈ is, ∃ i, v = .int i
  | .E_PAULI2 => ∃ fs is, vs = fs ++ is ∧ fs.length = 15 ∧ is.length = 2 ∧ (∀ v ∈ fs, ∃ f, v = .flt f) ∧
      ∀ v ∈ is, ∃ i, v = .int i
  | _ => ∀ v ∈ vs, ∃ i, v = .int i

theorem channel_ok {api : FloatApi F} {args : List (Raw F)} {vs : List (Val F)} {a b : Nat} (hab : args.length = a + b)
    (h : (match toFloats api (args.take a) with
      | .error e => .error e
      | .ok fs => match toInts api (args.drop a) with
        | .error e => .error e
        | .ok is => .ok (fs ++ is)) = (Except.ok vs : Except Err _)) :
    ∃ fs is, vs = fs ++ is ∧ fs.length = a ∧ is.length = b ∧ (∀ v ∈ fs, ∃ f, v = .flt f) ∧
      ∀ v ∈ is, ∃ i, v = .int i := by
  split at h
  · cases h
  · rename_i fs h1
    split at h
    · cases h
    · rename_i is h2
      cases h
      obtain ⟨h3, h4⟩ := toFloats_shape h1
      have h5 := toInts_length h2
      refine ⟨fs, is, rfl, ?_, ?_, h4, toInts_shape h2⟩
      · rw [h3]; simp; omega
      · rw [h5]; simp; omega

theorem appendArgs_ok {api : FloatApi F} {name : Name} {args : List (Raw F)} {vs : List (Val F)}
    (h : appendArgs api name args = .ok vs) : ArgsOk api name vs := by
  have hq : qubitArgs api args = .ok vs → ∀ v ∈ vs, ∃ i, v = .int i := by
    intro h
    unfold qubitArgs at h
    split at h
    · cases h
    · exact toInts_shape h
  have herr : ∀ args : List (Raw F), (match args with
      | [] => .error .indexError
      | a :: rest =>
        match toFloat api a with
        | .error e => .error e
        | .ok p =>
          if api.inUnit p then
            match allowedName rest.head? with
            | .error e => .error e
            | .ok n => match toInts api rest.tail with
              | .error e => .error e
              | .ok is => .ok (.flt p :: .name n :: is)
          else .error .valueError) = (Except.ok vs : Except Err _) →
      ∃ p n is, vs = .flt p :: .name n :: is ∧ api.inUnit p = true ∧ ∀ v ∈ is, ∃ i, v = .int i := by
    intro args h
    cases args with
    | nil => cases h
    | cons a rest =>
      simp only at h
      split at h
      · cases h
      · split at h
        · rename_i hp
          split at h
          · cases h
          · split at h
            · cases h
            · rename_i h2
              cases h
              exact ⟨_, _, _, rfl, hp, toInts_shape h2⟩
        · cases h
  cases name <;> simp only [appendArgs] at h
  case ERROR => exact herr args h
  case ERROR_ELSE => exact herr args h
  case ERROR_CONTINUE =>
    split at h
    · cases h
    · split at h
      · cases h
      · rename_i h2
        cases h
        exact ⟨_, _, rfl, toInts_shape h2⟩
  case E_ERASE =>
    split at h
    · exact channel_ok (a := 1) (b := 1) (by assumption) h
    · cases h
  case E_PAULI =>
    split at h
    · exact channel_ok (a := 3) (b := 1) (by assumption) h
    · cases h
  case E_PAULI2 =>
    split at h
    · exact channel_ok (a := 15) (b := 2) (by assumption) h
    · cases h
  all_goals exact hq h

theorem channel_text {api : FloatApi F} (ha : api.Lawful) {vs fs is : List (Val F)} {a b : Nat} (h : vs = fs ++ is)
    (h1 : fs.length = a) (h2 : is.length = b) (h3 : ∀ v ∈ fs, ∃ f, v = .flt f) (h4 : ∀ v ∈ is, ∃ i, v = .int i) :
    (match toFloats api (((vs.map (Val.text api)).map Raw.str).take a) with
      | .error e => .error e
      | .ok fs => match toInts api (((vs.map (Val.text api)).map Raw.str).drop a) with
        | .error e => .error e
        | .ok is => .ok (fs ++ is)) = (Except.ok vs : Except Err _) := by
  subst h
  have e1 : (((fs ++ is).map (Val.text api)).map (Raw.str (F := F))).take a = (fs.map (Val.text api)).map Raw.str := by
    rw [List.map_append, List.map_append, List.take_append_of_le_length (by simp [h1]), List.take_of_length_le (by simp [h1])]
  have e2 : (((fs ++ is).map (Val.text api)).map (Raw.str (F := F))).drop a = (is.map (Val.text api)).map Raw.str := by
    rw [List.map_append, List.map_append, List.drop_append_of_le_length (by simp [h1]), List.drop_of_length_le (by simp [h1])]
    simp
  rw [e1, e2, toFloats_text ha h3, toInts_text h4]

theorem appendArgs_text {api : FloatApi F} (ha : api.Lawful) {name : Name} {vs : List (Val F)}
    (h : ArgsOk api name vs) : appendArgs api name ((vs.map (Val.text api)).map Raw.str) = .ok vs := by
  cases name <;> simp only [ArgsOk] at h
  case ERROR =>
    obtain ⟨p, n, is, rfl, hp, hi⟩ := h
    simp only [appendArgs, List.map_cons, toFloat, Val.text, ha.parse_repr, hp, if_true, List.head?_cons, allowedName,
      ofText_text, List.tail_cons, toInts_text hi]
  case ERROR_ELSE =>
    obtain ⟨p, n, is, rfl, hp, hi⟩ := h
    simp only [appendArgs, List.map_cons, toFloat, Val.text, ha.parse_repr, hp, if_true, List.head?_cons, allowedName,
      ofText_text, List.tail_cons, toInts_text hi]
  case ERROR_CONTINUE =>
    obtain ⟨n, is, rfl, hi⟩ := h
    simp only [appendArgs, List.map_cons, Val.text, List.head?_cons, allowedName,
      ofText_text, List.tail_cons, toInts_text hi]
  case E_ERASE =>
    obtain ⟨fs, is, h0, h1, h2, h3, h4⟩ := h
    simp only [appendArgs]
    rw [if_pos (by rw [h0]; simp [h1, h2])]
    exact channel_text ha h0 h1 h2 h3 h4
  case E_PAULI =>
    obtain ⟨fs, is, h0, h1, h2, h3, h4⟩ := h
    simp only [appendArgs]
    rw [if_pos (by rw [h0]; simp [h1, h2])]
    exact channel_text ha h0 h1 h2 h3 h4
  case E_PAULI2 =>
    obtain ⟨fs, is, h0, h1, h2, h3, h4⟩ := h
    simp only [appendArgs]
    rw [if_pos (by rw [h0]; simp [h1, h2])]
    exact channel_text ha h0 h1 h2 h3 h4
  all_goals simp only [appendArgs, qubitArgs, toInts_text h]

theorem appendGate_ok {api : FloatApi F} {name : List Char} {args : List (Raw F)} {g : Gate F}
    (h : appendGate api name args = .ok g) : ArgsOk api g.name g.args := by
  unfold appendGate at h
  split at h
  · cases h
  · split at h
    · cases h
    · rename_i h2
      cases h
      exact appendArgs_ok h2

theorem appendGate_text {api : FloatApi F} (ha : api.Lawful) {g : Gate F} (h : ArgsOk api g.name g.args) :
    appendGate api g.name.text ((g.args.map (Val.text api)).map Raw.str) = .ok g := by
  unfold appendGate
  rw [ofText_text]
  simp only [appendArgs_text ha h]

theorem appendAll_ok {api : FloatApi F} {c c' : List (Gate F)} {l} (h : appendAll api c l = .ok c')
    (hc : ∀ g ∈ c, ArgsOk api g.name g.args) : ∀ g ∈ c', ArgsOk api g.name g.args := by
  induction l generalizing c with
  | nil => cases h; exact hc
  | cons a l ih =>
    obtain ⟨name, args⟩ := a
    rw [appendAll] at h
    split at h
    · cases h
    · rename_i g hg
      refine ih h ?_
      intro g' hg'
      rcases List.mem_append.mp hg' with hg' | hg'
      · exact hc g' hg'
      · rw [List.mem_singleton.mp hg']; exact appendGate_ok hg

theorem line_free {api : FloatApi F} (ha : api.Lawful) (g : Gate F) : ∀ c ∈ g.line api, (isWs c = true → c = ' ') ∧ c ≠ '#' := by
  have hj : ∀ l : List (List Char), (∀ s ∈ l, Tok s) → ∀ c ∈ joinWith ' ' l, (isWs c = true → c = ' ') ∧ c ≠ '#' := by
    intro l hl
    induction l with
    | nil => simp [joinWith]
    | cons a l ih =>
      have h1 : ∀ c ∈ a, (isWs c = true → c = ' ') ∧ c ≠ '#' := fun c hc => by
        have := (hl a (by simp)).2 c hc
        exact ⟨fun h => absurd (this.1.symm.trans h) (by decide), this.2⟩
      cases l with
      | nil => exact h1
      | cons b l =>
        intro c hc
        rw [joinWith] at hc
        · rcases List.mem_append.mp hc with hc | hc
          · exact h1 c hc
          · rcases List.mem_cons.mp hc with rfl | hc
            · decide
            · exact ih (fun s h => hl s (by simp [h])) c hc
        · simp
  intro c hc
  rcases List.mem_append.mp hc with hc | hc
  · have := (tok_name g.name).2 c hc
    exact ⟨fun h => absurd (this.1.symm.trans h) (by decide), this.2⟩
  · rcases List.mem_cons.mp hc with rfl | hc
    · decide
    · exact hj _ (fun s hs => by
        obtain ⟨v, _, rfl⟩ := List.mem_map.mp hs
        exact tok_val ha v) c hc

theorem lineWords_line {api : FloatApi F} (ha : api.Lawful) (g : Gate F) :
    lineWords (g.line api) = g.name.text :: g.args.map (Val.text api) := by
  unfold lineWords
  rw [words_strip, splitOn_free (fun h => (line_free ha g _ h).2 rfl)]
  simp only [List.headD_cons, Gate.line]
  rw [words_tok (tok_name _) _ (Or.inr ⟨' ', _, rfl, by decide⟩), words_ws (by decide), words_join]
  intro s hs
  obtain ⟨v, _, rfl⟩ := List.mem_map.mp hs
  exact tok_val ha v

theorem appendWords_lines {api : FloatApi F} (ha : api.Lawful) (c c' : List (Gate F))
    (h : ∀ g ∈ c', ArgsOk api g.name g.args) :
    appendWords api c (c'.map fun g => g.name.text :: g.args.map (Val.text api)) = .ok (c ++ c') := by
  induction c' generalizing c with
  | nil => simp [appendWords]
  | cons g c' ih =>
    simp only [List.map_cons, appendWords, appendGate_text ha (h g (by simp))]
    rw [ih _ (fun g' h' => h g' (by simp [h']))]
    simp

theorem fromStr_text {api : FloatApi F} (ha : api.Lawful) (c : List (Gate F))
    (h : ∀ g ∈ c, ArgsOk api g.name g.args) : fromStr api (circuitText api c) = .ok c := by
  rw [fromStr_eq]
  cases c with
  | nil => rfl
  | cons g c =>
    unfold instrs circuitText
    rw [splitOn_join]
    · rw [List.map_map]
      have : (lineWords ∘ Gate.line api) = fun g : Gate F => g.name.text :: g.args.map (Val.text api) :=
        funext fun g => lineWords_line ha g
      rw [this, List.filter_eq_self.mpr]
      · have := appendWords_lines ha [] (g :: c) h
        simpa using this
      · intro w hw
        obtain ⟨g, _, rfl⟩ := List.mem_map.mp hw
        rfl
    · intro s hs
      obtain ⟨g, _, rfl⟩ := List.mem_map.mp hs
      intro hc
      have := (line_free ha g _ hc).1 (by decide)
      exact absurd this (by decide)
    · simp

end Plaquette
