import Verif.Model.StateText
import Verif.Spec.StateText
import Verif.Props.ResetText

/-!
# The printed text of states (C135)
-/

namespace Plaquette
variable {n m : Nat}

/-! ### Lemmas -/

theorem splitLines_append {l : List Char} (h : '\n' ∉ l) (t : List Char) : splitLines (l ++ '\n' :: t) = l :: splitLines t := by
  induction l with
  | nil => simp [splitLines]
  | cons c l ih =>
    rw [List.mem_cons, not_or] at h
    rw [List.cons_append, splitLines, if_neg (fun e => h.1 e.symm), ih h.2]

theorem splitLines_single {l : List Char} (h : '\n' ∉ l) : splitLines l = [l] := by
  induction l with
  | nil => rfl
  | cons c l ih =>
    rw [List.mem_cons, not_or] at h
    rw [splitLines, if_neg (fun e => h.1 e.symm), ih h.2]

theorem splitLines_join : ∀ {ls : List (List Char)}, ls ≠ [] → (∀ l ∈ ls, '\n' ∉ l) → splitLines (joinLines ls) = ls
  | [], h, _ => absurd rfl h
  | [l], _, h => splitLines_single (h l (.head _))
  | l :: l' :: ls, _, h => by
    rw [joinLines, splitLines_append (h l (.head _)), splitLines_join (by simp) fun x hx => h x (.tail _ hx)]
    simp

theorem splitLines_more : ∀ {ls : List (List Char)} (_ : ls ≠ []) (_ : ∀ l ∈ ls, '\n' ∉ l) (t : List Char), splitLines (joinLines ls ++ '\n' :: t) = ls ++ splitLines t
  | [], h, _, _ => absurd rfl h
  | [l], _, h, t => by rw [joinLines, splitLines_append (h l (.head _))]; rfl
  | l :: l' :: ls, _, h, t => by
    rw [joinLines, List.append_assoc, List.cons_append, splitLines_append (h l (.head _)), splitLines_more (by simp) fun x hx => h x (.tail _ hx)]
    · rfl
    · simp

theorem digits_no_newline (k : Nat) : '\n' ∉ Nat.toDigits 10 k := by
  intro h
  have := Nat.isDigit_of_mem_toDigits (by decide) (by decide) h
  revert this
  decide

theorem letter_no_newline (a b : Bool) : letterChar a b ≠ '\n' := by cases a <;> cases b <;> decide

theorem pauli_no_newline (o : Op n) (sh : Bool) : '\n' ∉ pauliToString o sh := by
  have hs : ∀ b : Bool, '\n' ≠ (if b then '-' else '+') := by decide
  unfold pauliToString mainChars
  dsimp only
  split
  · rw [List.mem_cons, not_or]
    refine ⟨hs _, fun h => ?_⟩
    obtain ⟨q, _, hq⟩ := List.mem_map.1 h
    exact letter_no_newline _ _ hq
  · rw [List.mem_cons, not_or]
    refine ⟨hs _, fun h => ?_⟩
    obtain ⟨q, _, hq⟩ := List.mem_flatMap.1 h
    split at hq
    · rcases List.mem_cons.1 hq with hq | hq
      · revert hq; decide
      · rcases List.mem_cons.1 hq with hq | hq
        · exact letter_no_newline _ _ hq.symm
        · exact digits_no_newline _ hq
    · cases hq

theorem strings_no_newline (T : Tab n) (sh : Bool) : (∀ l ∈ (stateToStrings T sh).1, '\n' ∉ l) ∧ ∀ l ∈ (stateToStrings T sh).2, '\n' ∉ l := by
  refine ⟨fun l hl => ?_, fun l hl => ?_⟩ <;> obtain ⟨o, _, rfl⟩ := List.mem_map.1 hl <;> exact pauli_no_newline _ _

theorem strings_length (T : Tab n) (sh : Bool) : (stateToStrings T sh).1.length = n ∧ (stateToStrings T sh).2.length = n := by
  simp [stateToStrings]

theorem strings_ne (T : Tab n) (sh : Bool) (hn : 0 < n) : (stateToStrings T sh).1 ≠ [] ∧ (stateToStrings T sh).2 ≠ [] := by
  have h := strings_length T sh
  refine ⟨fun e => ?_, fun e => ?_⟩
  · rw [e] at h; exact absurd h.1 (by simp; omega)
  · rw [e] at h; exact absurd h.2 (by simp; omega)

/-! ### The property -/

/-- **C135** The text of a state is the destabilisers, a line of dashes and the stabilisers, a line for each; the two parts are read back as the state. -/
theorem C135_str (hn : 0 < n) (T : Tab n) (hT : T.Valid) : ∃ ds ss : List (List Char), splitLines (stateText T) = ds ++ List.replicate (n + 1) '-' :: ss ∧ ds.length = n ∧ ss.length = n ∧
    stringToState n ss ds none = .ok (List.ofFn T.d, List.ofFn T.s) := by
  have h1 := strings_no_newline T true
  have h2 := strings_ne T true hn
  have h3 := strings_length T true
  refine ⟨_, _, ?_, h3.1, h3.2, C100_state_roundtrip hT⟩
  unfold stateText
  dsimp only
  rw [splitLines_more h2.1 h1.1, h3.1, splitLines_append (by
    intro h
    exact absurd (List.mem_replicate.1 h).2 (by decide)), splitLines_join h2.2 h1.2]

/-- **C135** Two states with the same text are the same, with the same number of qubits. -/
theorem C135_injective (hn : 0 < n) (hm : 0 < m) (T : Tab n) (U : Tab m) (hT : T.Valid) (hU : U.Valid) (h : stateText T = stateText U) : n = m ∧ HEq T U := by
  obtain ⟨ds, ss, h1, h2, h3, h4⟩ := C135_str hn T hT
  obtain ⟨ds', ss', k1, k2, k3, k4⟩ := C135_str hm U hU
  rw [h, k1] at h1
  have hl := congrArg List.length h1
  simp only [List.length_append, List.length_cons, h2, h3, k2, k3] at hl
  obtain rfl : n = m := by omega
  obtain ⟨e1, e2⟩ := List.append_inj h1 (by rw [h2, k2])
  obtain ⟨-, e3⟩ := List.cons.inj e2
  subst e1 e3
  rw [h4] at k4
  simp only [Except.ok.injEq, Prod.mk.injEq] at k4
  have hd := List.ofFn_injective k4.1
  have hs := List.ofFn_injective k4.2
  refine ⟨rfl, heq_of_eq ?_⟩
  cases T; cases U
  simp_all

/-- **C135** What `pprint_state` prints: headings, and a line for each operator. -/
theorem C135_pprint (hn : 0 < n) (T : Tab n) (sh : Bool) : splitLines (printedText T sh true) = ("Destabilisers:".toList :: (stateToStrings T sh).1) ++ "Stabilisers:".toList :: (stateToStrings T sh).2 ∧
    splitLines (printedText T sh false) = "Stabilisers:".toList :: (stateToStrings T sh).2 := by
  have h1 := strings_no_newline T sh
  have h2 := strings_ne T sh hn
  unfold printedText
  dsimp only
  refine ⟨?_, ?_⟩
  · rw [if_pos rfl, splitLines_append (by decide), splitLines_more h2.1 h1.1, splitLines_append (by decide), splitLines_join h2.2 h1.2]
    rfl
  · rw [if_neg (by decide), splitLines_append (by decide), splitLines_join h2.2 h1.2]

/-- **C135** Tableaux that are printed alike, even without destabilisers, represent the same vectors. -/
theorem C135_same_vectors (hn : 0 < n) (T U : Tab n) (hT : T.Valid) (hU : U.Valid) (sh sd : Bool) (h : printedText T sh sd = printedText U sh sd) :
    (∀ i, T.s i = U.s i) ∧ ∀ ψ, T.Represents ψ ↔ U.Represents ψ := by
  have h1 := C135_pprint hn T sh
  have h2 := C135_pprint hn U sh
  have hss : (stateToStrings T sh).2 = (stateToStrings U sh).2 := by
    cases sd with
    | true =>
      have e := h1.1
      rw [h, h2.1] at e
      have := List.append_inj e (by simp [(strings_length T sh).1, (strings_length U sh).1])
      exact (List.cons.inj this.2).2.symm
    | false =>
      have e := h1.2
      rw [h, h2.2] at e
      exact (List.cons.inj e).2.symm
  have key : ∀ i, T.s i = U.s i := by
    intro i
    have hi : pauliToString (T.s i) sh = pauliToString (U.s i) sh := by
      have e : (List.ofFn T.s).map (fun o => pauliToString o sh) = (List.ofFn U.s).map fun o => pauliToString o sh := hss
      rw [List.map_ofFn, List.map_ofFn] at e
      exact congrFun (List.ofFn_injective e) i
    cases sh with
    | true =>
      have a := (C11_canonical_roundtrip_partial (T.s i) (stab_not_scalar hT i)).1
      rw [hi, (C11_canonical_roundtrip_partial (U.s i) (stab_not_scalar hU i)).1] at a
      simpa using a.symm
    | false =>
      have a := C11_short_roundtrip_partial (T.s i) (stab_not_scalar hT i)
      rw [hi, C11_short_roundtrip_partial (U.s i) (stab_not_scalar hU i)] at a
      simpa using a.symm
  refine ⟨key, fun ψ => ?_⟩
  unfold Tab.Represents
  simp only [key]

example : bellTab.Valid ∧ stateText bellTab = "+ZI\n+IX\n---\n+XX\n+ZZ".toList ∧ printedText bellTab true false = "Stabilisers:\n+XX\n+ZZ".toList :=
  ⟨C05_reachable_valid [.gates [.h 0, .cx 0 1]] (by simp [Cmd.Ok, CGate.Ok]) _ rfl, by decide, by decide⟩

end Plaquette
