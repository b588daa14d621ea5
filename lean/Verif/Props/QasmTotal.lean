import Verif.Props.Circuit
import Mathlib.Algebra.Ring.Parity

/-!
# Which circuits can be exported to OpenQASM (C128)
-/

namespace Plaquette
variable {F : Type}

/-- A gate that can be exported: it has a name in OpenQASM, and a gate on two qubits has an even number of arguments. -/
def Gate.Exports (g : Gate F) : Prop := g.name.inQasm = true ∧ (g.name = .CX ∨ g.name = .CZ → Even g.args.length)

/-- The exception that a gate causes. -/
def Gate.refused (g : Gate F) : Err := if g.name.inQasm then .indexError else .runtimeError

/-- **C128** Every circuit of gates that OpenQASM has can be exported. -/
def C128_statement : Prop := ∀ (F : Type) (api : FloatApi F) (calls : List (List Char × List (Raw F))) (c : List (Gate F)),
  appendAll api [] calls = .ok c → (∀ g ∈ c, g.name.inQasm = true) → ∃ q, convertToQasm c false = .ok q

theorem pairs_even (name : Name) : ∀ (l : List (Val F)), if Even l.length then ∃ ps, qasmPairs name l = .ok ps else qasmPairs name l = .error .indexError
  | [] => by simp [qasmPairs]
  | [a] => by simp [qasmPairs]
  | a :: b :: l => by
    have ih := pairs_even name l
    have he : Even (a :: b :: l).length ↔ Even l.length := by
      simp only [List.length_cons]
      rw [Nat.even_add_one, Nat.even_add_one, not_not]
    by_cases h : Even l.length
    · rw [if_pos (he.2 h)]
      rw [if_pos h] at ih
      obtain ⟨ps, hp⟩ := ih
      exact ⟨_, by rw [qasmPairs, hp]⟩
    · rw [if_neg (he.not.2 h)]
      rw [if_neg h] at ih
      rw [qasmPairs, ih]

/-- A gate that does not stop the export. -/
def Gate.Passes (ign : Bool) (g : Gate F) : Prop := g.Exports ∨ (ign = true ∧ g.name.inQasm = false)

theorem loop_passes {ign : Bool} {g : Gate F} (h : g.Passes ign) (gs : List (Gate F)) (k : Nat) : ∃ k', ∀ e, (qasmLoop ign k (g :: gs) = .error e ↔ qasmLoop ign k' gs = .error e) := by
  rw [qasmLoop]
  rcases h with ⟨h1, h2⟩ | ⟨rfl, h2⟩
  · rw [h1]
    simp only [Bool.not_true, Bool.false_eq_true, if_false]
    cases hn : g.name <;> rw [hn] at h1 h2 <;> simp only [Name.inQasm, Bool.false_eq_true] at h1 <;> dsimp only
    case M =>
      refine ⟨k + g.args.length, fun e => ?_⟩
      cases qasmLoop ign (k + g.args.length) gs <;> simp
    case R => exact ⟨k, fun e => Iff.rfl⟩
    case CX =>
      have := pairs_even .CX g.args
      rw [if_pos (h2 (.inl rfl))] at this
      obtain ⟨ps, hp⟩ := this
      refine ⟨k, fun e => ?_⟩
      rw [hp]
      cases qasmLoop ign k gs <;> simp
    case CZ =>
      have := pairs_even .CZ g.args
      rw [if_pos (h2 (.inr rfl))] at this
      obtain ⟨ps, hp⟩ := this
      refine ⟨k, fun e => ?_⟩
      rw [hp]
      cases qasmLoop ign k gs <;> simp
    all_goals
      refine ⟨k, fun e => ?_⟩
      cases qasmLoop ign k gs <;> simp
  · rw [h2]
    exact ⟨k, fun e => by simp⟩

theorem loop_refused {ign : Bool} {g : Gate F} (h : ¬ g.Passes ign) (gs : List (Gate F)) (k : Nat) : qasmLoop ign k (g :: gs) = .error g.refused := by
  rw [qasmLoop, Gate.refused]
  by_cases h1 : g.name.inQasm = true
  · rw [h1]
    simp only [Bool.not_true, Bool.false_eq_true, if_false, if_true]
    have h2 : (g.name = .CX ∨ g.name = .CZ) ∧ ¬ Even g.args.length := by
      by_contra hc
      exact h (.inl ⟨h1, fun h3 => by
        by_contra h4
        exact hc ⟨h3, h4⟩⟩)
    have h3 := pairs_even g.name g.args
    rw [if_neg h2.2] at h3
    rcases h2.1 with hn | hn <;> rw [hn] at h3 ⊢ <;> dsimp only <;> rw [h3]
  · have h1' : g.name.inQasm = false := by simpa using h1
    have : ign = false := by
      cases ign with
      | false => rfl
      | true => exact absurd (.inr ⟨rfl, h1'⟩) h
    rw [h1', this]
    simp

theorem loop_first {ign : Bool} {g : Gate F} (hg : ¬ g.Passes ign) (post : List (Gate F)) : ∀ (pre : List (Gate F)), (∀ a ∈ pre, a.Passes ign) → ∀ k,
    qasmLoop ign k (pre ++ g :: post) = .error g.refused := by
  intro pre
  induction pre with
  | nil => intro _ k; exact loop_refused hg post k
  | cons a pre ih =>
    intro h k
    obtain ⟨k', hk⟩ := loop_passes (h a List.mem_cons_self) (pre ++ g :: post) k
    rw [List.cons_append, hk]
    exact ih (fun b hb => h b (List.mem_cons_of_mem _ hb)) k'

theorem loop_all {ign : Bool} : ∀ (c : List (Gate F)), (∀ a ∈ c, a.Passes ign) → ∀ k e, qasmLoop ign k c ≠ .error e := by
  intro c
  induction c with
  | nil => intro _ k e h; cases h
  | cons a c ih =>
    intro h k e he
    obtain ⟨k', hk⟩ := loop_passes (h a List.mem_cons_self) c k
    exact ih (fun b hb => h b (List.mem_cons_of_mem _ hb)) k' e ((hk e).1 he)

/-- **C128 fails** for an odd number of qubits of `CX`, which `Circuit.append` accepts. -/
theorem C128_odd_counterexample : ¬ C128_statement := by
  intro h
  obtain ⟨q, hq⟩ := h Nat natApi [("CX".toList, [.int 0, .int 1, .int 2])] [⟨.CX, [.int 0, .int 1, .int 2]⟩] (by decide) (by decide)
  have : convertToQasm (F := Nat) [⟨.CX, [.int 0, .int 1, .int 2]⟩] false = .error .indexError := by decide
  rw [this] at hq
  cases hq

/-- **C128 (partial)**: exactly the circuits can be exported whose gates on two qubits have an even number of arguments, and which have no gates
without a name in OpenQASM unless these are ignored. -/
theorem C128_iff_partial (c : List (Gate F)) (ign : Bool) : (∃ q, convertToQasm c ign = .ok q) ↔
    ∀ g ∈ c, (g.name = .CX ∨ g.name = .CZ → Even g.args.length) ∧ (ign = false → g.name.inQasm = true) := by
  have key : ∀ g : Gate F, g.Passes ign ↔ (g.name = .CX ∨ g.name = .CZ → Even g.args.length) ∧ (ign = false → g.name.inQasm = true) := by
    intro g
    constructor
    · rintro (⟨h1, h2⟩ | ⟨rfl, h2⟩)
      · exact ⟨h2, fun _ => h1⟩
      · refine ⟨?_, fun h => by cases h⟩
        rintro (h | h) <;> rw [h] at h2 <;> cases h2
    · rintro ⟨h1, h2⟩
      by_cases h3 : g.name.inQasm = true
      · exact .inl ⟨h3, h1⟩
      · cases ign with
        | false => exact absurd (h2 rfl) h3
        | true => exact .inr ⟨rfl, by simpa using h3⟩
  constructor
  · rintro ⟨q, hq⟩ g hg
    rw [← key]
    by_contra hb
    classical
    have h1 : ∃ a ∈ c, ¬ a.Passes ign := ⟨g, hg, hb⟩
    have h2 : ∃ pre a post, c = pre ++ a :: post ∧ ¬ a.Passes ign ∧ ∀ b ∈ pre, b.Passes ign := by
      clear hq hg hb
      induction c with
      | nil => obtain ⟨_, h, _⟩ := h1; cases h
      | cons x c ih =>
        by_cases hx : x.Passes ign
        · obtain ⟨a, ha, ha'⟩ := h1
          rcases List.mem_cons.1 ha with rfl | ha
          · exact absurd hx ha'
          · obtain ⟨pre, a, post, rfl, h3, h4⟩ := ih ⟨a, ha, ha'⟩
            exact ⟨x :: pre, a, post, rfl, h3, fun b hb => by
              rcases List.mem_cons.1 hb with rfl | hb
              · exact hx
              · exact h4 b hb⟩
        · exact ⟨[], x, c, rfl, hx, fun b hb => by cases hb⟩
    obtain ⟨pre, a, post, rfl, h3, h4⟩ := h2
    unfold convertToQasm at hq
    rw [loop_first h3 post pre h4] at hq
    cases hq
  · intro h
    unfold convertToQasm
    cases hl : qasmLoop ign 0 c with
    | error e => exact absurd hl (loop_all c (fun a ha => (key a).2 (h a ha)) 0 e)
    | ok ls => exact ⟨_, rfl⟩

/-- **C128** The first gate that cannot be exported decides about the exception: `IndexError` for an odd number of arguments, else
`GateNotSupportedError`. -/
theorem C128_error (pre post : List (Gate F)) (g : Gate F) (ign : Bool) (hpre : ∀ a ∈ pre, a.Exports ∨ (ign = true ∧ a.name.inQasm = false))
    (hg : if g.name.inQasm then (g.name = .CX ∨ g.name = .CZ) ∧ ¬ Even g.args.length else ign = false) :
    convertToQasm (pre ++ g :: post) ign = .error (if g.name.inQasm then .indexError else .runtimeError) := by
  unfold convertToQasm
  rw [loop_first (g := g) ?_ post pre hpre 0]
  · rfl
  · rintro (⟨h1, h2⟩ | ⟨h1, h2⟩)
    · rw [if_pos h1] at hg
      exact hg.2 (h2 hg.1)
    · rw [h2] at hg
      simp [h1] at hg

example : ∃ q, convertToQasm (F := Nat) [⟨.CX, [.int 0, .int 1, .int 2, .int 0]⟩, ⟨.E_ERASE, [.flt 1, .int 0]⟩, ⟨.M, [.int 0]⟩] true = .ok q :=
  (C128_iff_partial _ _).2 (by decide)

end Plaquette
