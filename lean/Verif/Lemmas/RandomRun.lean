import Verif.Spec.Random
import Mathlib.MeasureTheory.Measure.Typeclasses.Probability

/-!
# Runs with a fair random generator
-/

open MeasureTheory
open scoped ENNReal

namespace Plaquette
variable {F : Type} {n : Nat} {Ω : Type} [m0 : MeasurableSpace Ω] {μ : Measure Ω} {prob : F → ℝ≥0∞} {past : Nat → MeasurableSpace Ω} {rng : Ω → Rng F} {k₀ : Nat}

instance : Finite (Op n) := by
  refine Finite.of_injective (fun p : Op n => (p.x, p.z, p.r)) fun p q h => ?_
  cases p; cases q
  simp only [Prod.mk.injEq] at h
  obtain ⟨rfl, rfl, rfl⟩ := h
  rfl

instance : Finite (Tab n) := by
  refine Finite.of_injective (fun p : Tab n => (p.d, p.s)) fun p q h => ?_
  cases p; cases q
  simp only [Prod.mk.injEq] at h
  obtain ⟨rfl, rfl⟩ := h
  rfl

instance : Countable (Sim n) := by
  refine Function.Injective.countable (f := fun S : Sim n => (S.tab, S.meas, S.erasure, S.inError, S.anyApplied, S.applyBranch, S.pos)) fun p q h => ?_
  cases p; cases q
  simp only [Prod.mk.injEq] at h
  obtain ⟨rfl, rfl, rfl, rfl, rfl, rfl, rfl⟩ := h
  rfl

/-- When the result is known, at least `k` calls were made, and whether it is the result is known after the calls made until then. -/
def Known (past : Nat → MeasurableSpace Ω) (rng : Ω → Rng F) (k : Nat) (m : Rng F → Except Err (Sim n)) : Prop :=
  ∀ S', MeasurableSet[past S'.pos] {ω | m (rng ω) = .ok S'} ∧ ∀ ω, m (rng ω) = .ok S' → k ≤ S'.pos

theorem known_const {k : Nat} {m : Rng F → Except Err (Sim n)} (c : Except Err (Sim n)) (hm : ∀ ω, m (rng ω) = c) (h : ∀ S', c = .ok S' → k ≤ S'.pos) :
    Known past rng k m := by
  intro S'
  refine ⟨?_, fun ω hω => h S' ((hm ω).symm.trans hω)⟩
  simp only [hm]
  exact MeasurableSet.const _

theorem Known.mono {k k' : Nat} {m : Rng F → Except Err (Sim n)} (h : Known past rng k m) (hk : k' ≤ k) : Known past rng k' m :=
  fun S' => ⟨(h S').1, fun ω hω => hk.trans ((h S').2 ω hω)⟩

theorem known_bind (hF : FairFrom k₀ μ prob past rng) {k k' : Nat} (hk : k' ≤ k) {m m' : Rng F → Except Err (Sim n)} {f : Sim n → Rng F → Except Err (Sim n)} (h : Known past rng k m)
    (hf : ∀ S', k ≤ S'.pos → Known past rng S'.pos (f S')) (hm : ∀ ω S'', m' (rng ω) = .ok S'' ↔ ∃ S', m (rng ω) = .ok S' ∧ f S' (rng ω) = .ok S'') :
    Known past rng k' m' := by
  intro S''
  constructor
  · have : {ω | m' (rng ω) = .ok S''} = ⋃ S' : Sim n, {ω | m (rng ω) = .ok S'} ∩ {ω | f S' (rng ω) = .ok S''} := by
      ext ω
      simp only [Set.mem_ofPred_eq, Set.mem_iUnion, Set.mem_inter_iff]
      exact hm ω S''
    rw [this]
    refine @MeasurableSet.iUnion _ _ (past S''.pos) _ _ fun S' => ?_
    by_cases hS : ∃ ω, ω ∈ {ω | m (rng ω) = .ok S'} ∩ {ω | f S' (rng ω) = .ok S''}
    · obtain ⟨ω, h1, h2⟩ := hS
      have hk' := (h S').2 ω h1
      have := (hf S' hk' S'').2 ω h2
      exact @MeasurableSet.inter _ (past S''.pos) _ _ (hF.mono this _ (h S').1) (hf S' hk' S'').1
    · rw [Set.eq_empty_iff_forall_notMem.2 fun ω hω => hS ⟨ω, hω⟩]
      exact @MeasurableSet.empty _ (past S''.pos)
  · intro ω hω
    obtain ⟨S', h1, h2⟩ := (hm ω S'').1 hω
    have := (h S').2 ω h1
    exact hk.trans (this.trans ((hf S' this S'').2 ω h2))

theorem known_answer (hF : FairFrom k₀ μ prob past rng) {k : Nat} {α : Type} [Countable α] {a : Rng F → α} (ha : ∀ v, MeasurableSet[past (k + 1)] {ω | a (rng ω) = v})
    {m : Rng F → Except Err (Sim n)} (f : α → Except Err (Sim n)) (hm : ∀ ω, m (rng ω) = f (a (rng ω))) (hf : ∀ v S', f v = .ok S' → k + 1 ≤ S'.pos) :
    Known past rng (k + 1) m := by
  intro S'
  refine ⟨?_, fun ω hω => hf _ S' ((hm ω).symm.trans hω)⟩
  have : {ω | m (rng ω) = .ok S'} = ⋃ v : α, {ω | a (rng ω) = v} ∩ {_ω | f v = .ok S'} := by
    ext ω
    simp only [Set.mem_ofPred_eq, Set.mem_iUnion, Set.mem_inter_iff, hm]
    exact ⟨fun h => ⟨_, rfl, h⟩, fun ⟨_, h1, h2⟩ => by rw [h1]; exact h2⟩
  rw [this]
  refine MeasurableSet.iUnion fun v => ?_
  by_cases hv : f v = .ok S'
  · exact @MeasurableSet.inter _ (past S'.pos) _ _ (hF.mono (hf v S' hv) _ (ha v)) (MeasurableSet.const _)
  · simp [hv]

theorem known_if (hF : FairFrom k₀ μ prob past rng) {k : Nat} {x : F} {m m1 m2 : Rng F → Except Err (Sim n)} (h1 : Known past rng (k + 1) m1) (h2 : Known past rng (k + 1) m2)
    (hm : ∀ ω, m (rng ω) = if (rng ω).below k x = true then m1 (rng ω) else m2 (rng ω)) : Known past rng (k + 1) m := by
  intro S'
  constructor
  · have : {ω | m (rng ω) = .ok S'} = {ω | (rng ω).below k x = true} ∩ {ω | m1 (rng ω) = .ok S'} ∪ {ω | (rng ω).below k x = true}ᶜ ∩ {ω | m2 (rng ω) = .ok S'} := by
      ext ω
      simp only [Set.mem_ofPred_eq, Set.mem_union, Set.mem_inter_iff, Set.mem_compl_iff, hm]
      by_cases h : (rng ω).below k x = true
      · rw [if_pos h]; simp [h]
      · rw [if_neg h]; simp [h]
    rw [this]
    by_cases hk : k + 1 ≤ S'.pos
    · have hb := hF.mono hk _ (hF.below k x)
      exact @MeasurableSet.union _ (past S'.pos) _ _ (@MeasurableSet.inter _ (past S'.pos) _ _ hb (h1 S').1)
        (@MeasurableSet.inter _ (past S'.pos) _ _ (@MeasurableSet.compl _ _ (past S'.pos) hb) (h2 S').1)
    · refine @MeasurableSet.congr _ (past S'.pos) _ _ (@MeasurableSet.empty _ (past S'.pos)) (Eq.symm (Set.eq_empty_iff_forall_notMem.2 ?_))
      rintro ω (⟨_, hω⟩ | ⟨_, hω⟩)
      · exact hk ((h1 S').2 ω hω)
      · exact hk ((h2 S').2 ω hω)
  · intro ω hω
    rw [hm] at hω
    split at hω
    · exact (h1 S').2 ω hω
    · exact (h2 S').2 ω hω

/-! ### The instructions -/

/-- A generator that always answers the first thing. -/
def Rng.zero : Rng F := { below := fun _ _ => false, bit := fun _ => false, int3 := fun _ => 0, int4 := fun _ => 0, choice4 := fun _ _ => none, choice16 := fun _ _ => none }

theorem measure_draw {T : Tab n} {m : Op n} (h : nonzero T.s m = []) (b b' : Bool) : measure T m none b = measure T m none b' := by
  unfold measure
  rw [h]

theorem known_measureZ (hF : FairFrom k₀ μ prob past rng) (S : Sim n) (q : Fin n) : Known past rng S.pos fun r => S.measureZ r q := by
  by_cases h : nonzero S.tab.s (singleOp false .Z q) = []
  · refine known_const (S.measureZ (Rng.zero : Rng F) q) (fun ω => ?_) fun S' hS => ?_
    · unfold Sim.measureZ
      dsimp only
      rw [measure_draw h _ false]
      rfl
    · unfold Sim.measureZ at hS
      dsimp only at hS
      split at hS
      · cases hS
      · cases hS; dsimp only; rw [if_pos h]
  · refine (known_answer hF (a := fun r => r.bit S.pos) (hF.bit S.pos) (fun b => match measure S.tab (singleOp false .Z q) none b with
      | .error e => .error e
      | .ok (T, out) => .ok { S with tab := T, meas := S.meas ++ [out], pos := S.pos + 1 }) (fun ω => ?_) fun v S' hS => ?_).mono (Nat.le_succ _)
    · unfold Sim.measureZ
      dsimp only
      cases measure S.tab (singleOp false .Z q) none ((rng ω).bit S.pos) with
      | error e => rfl
      | ok p => dsimp only; rw [if_neg h]
    · split at hS
      · cases hS
      · cases hS; exact le_rfl

theorem known_measureAll (hF : FairFrom k₀ μ prob past rng) (qs : List (Fin n)) : ∀ S : Sim n, Known past rng S.pos fun r => S.measureAll r qs := by
  induction qs with
  | nil => exact fun S => known_const (.ok S) (fun _ => rfl) fun S' h => by cases h; exact le_rfl
  | cons q qs ih =>
    intro S
    refine known_bind hF le_rfl (known_measureZ hF S q) (fun S' _ => ih S') fun ω S'' => ?_
    show Sim.measureAll (rng ω) S (q :: qs) = _ ↔ ∃ S', S.measureZ (rng ω) q = .ok S' ∧ S'.measureAll (rng ω) qs = .ok S''
    rw [Sim.measureAll]
    cases S.measureZ (rng ω) q with
    | error e => simp
    | ok S' => simp

/-- One reset. -/
def Sim.resetZ (rng : Rng F) (S : Sim n) (q : Fin n) : Except Err (Sim n) :=
  match resetOne false .Z S.tab q (rng.bit S.pos) with
  | .error e => .error e
  | .ok T => .ok { S with tab := T, pos := if nonzero S.tab.s (singleOp false .Z q) = [] then S.pos else S.pos + 1 }

theorem known_resetZ (hF : FairFrom k₀ μ prob past rng) (S : Sim n) (q : Fin n) : Known past rng S.pos fun r => S.resetZ r q := by
  by_cases h : nonzero S.tab.s (singleOp false .Z q) = []
  · refine known_const (S.resetZ (Rng.zero : Rng F) q) (fun ω => ?_) fun S' hS => ?_
    · unfold Sim.resetZ resetOne
      dsimp only
      rw [measure_draw h _ false]
      rfl
    · unfold Sim.resetZ at hS
      split at hS
      · cases hS
      · cases hS; dsimp only; rw [if_pos h]
  · refine (known_answer hF (a := fun r => r.bit S.pos) (hF.bit S.pos) (fun b => match resetOne false .Z S.tab q b with
      | .error e => .error e
      | .ok T => .ok { S with tab := T, pos := S.pos + 1 }) (fun ω => ?_) fun v S' hS => ?_).mono (Nat.le_succ _)
    · unfold Sim.resetZ
      cases resetOne false .Z S.tab q ((rng ω).bit S.pos) with
      | error e => rfl
      | ok p => dsimp only; rw [if_neg h]
    · split at hS
      · cases hS
      · cases hS; exact le_rfl

theorem known_resetAll (hF : FairFrom k₀ μ prob past rng) (qs : List (Fin n)) : ∀ S : Sim n, Known past rng S.pos fun r => S.resetAll r qs := by
  induction qs with
  | nil => exact fun S => known_const (.ok S) (fun _ => rfl) fun S' h => by cases h; exact le_rfl
  | cons q qs ih =>
    intro S
    refine known_bind hF le_rfl (known_resetZ hF S q) (fun S' _ => ih S') fun ω S'' => ?_
    show Sim.resetAll (rng ω) S (q :: qs) = _ ↔ ∃ S', S.resetZ (rng ω) q = .ok S' ∧ S'.resetAll (rng ω) qs = .ok S''
    rw [Sim.resetAll, Sim.resetZ]
    cases resetOne false .Z S.tab q ((rng ω).bit S.pos) with
    | error e => simp
    | ok T => simp

theorem applyPauli_pos {S S' : Sim n} {q : Fin n} {k : Nat} (h : S.applyPauli q k = .ok S') : S'.pos = S.pos := by
  unfold Sim.applyPauli at h
  split at h <;> cases h <;> rfl

theorem known_depolarize (hF : FairFrom k₀ μ prob past rng) (qs : List (Fin n)) : ∀ S : Sim n, Known past rng S.pos fun r => S.depolarize r qs := by
  induction qs with
  | nil => exact fun S => known_const (.ok S) (fun _ => rfl) fun S' h => by cases h; exact le_rfl
  | cons q qs ih =>
    intro S
    refine known_bind hF (Nat.le_succ _) (known_answer hF (a := fun r => r.int3 S.pos) (hF.int3 S.pos) (m := fun r => ({ S with pos := S.pos + 1 } : Sim n).applyPauli q (1 + (r.int3 S.pos).val)) (fun v => ({ S with pos := S.pos + 1 } : Sim n).applyPauli q (1 + v.val)) (fun _ => rfl) fun v S' hS =>
      (applyPauli_pos hS).ge) (fun S' _ => ih S') fun ω S'' => ?_
    show Sim.depolarize (rng ω) S (q :: qs) = _ ↔ ∃ S', ({ S with pos := S.pos + 1 } : Sim n).applyPauli q (1 + ((rng ω).int3 S.pos).val) = .ok S' ∧ S'.depolarize (rng ω) qs = .ok S''
    rw [Sim.depolarize]
    cases ({ S with pos := S.pos + 1 } : Sim n).applyPauli q (1 + ((rng ω).int3 S.pos).val) with
    | error e => simp
    | ok S' => simp

theorem known_error {k : Nat} {m : Rng F → Except Err (Sim n)} (e : Err) (hm : ∀ ω, m (rng ω) = .error e) : Known past rng k m :=
  known_const (.error e) hm fun _ h => by cases h

theorem known_erase (hF : FairFrom k₀ μ prob past rng) (api : FloatApi F) (S : Sim n) (args : List (Val F)) : Known past rng (S.pos + 1) fun r => S.handleGate api r .E_ERASE args := by
  match args with
  | [] => exact known_error _ fun _ => rfl
  | [_] => exact known_error _ fun _ => rfl
  | _ :: _ :: _ :: _ => exact known_error _ fun _ => rfl
  | [v, w] =>
    cases hv : numOf api v with
    | error e => exact known_error e fun ω => by unfold Sim.handleGate; simp only [hv]
    | ok p =>
      cases hw : qubitOf n w with
      | error e =>
        refine known_if hF (x := p) (m1 := fun _ => .error e) (m2 := fun _ => .ok { S with erasure := S.erasure ++ [false], pos := S.pos + 1 }) (known_error e fun _ => rfl)
          (known_const _ (fun _ => rfl) fun S' h => by cases h; exact le_rfl) fun ω => ?_
        unfold Sim.handleGate
        simp only [hv, hw]
        cases (rng ω).below S.pos p <;> rfl
      | ok q =>
        refine known_if hF (x := p) (m1 := fun r => ({ S with erasure := S.erasure ++ [true], pos := S.pos + 2 } : Sim n).applyPauli q (r.int4 (S.pos + 1)).val)
          (m2 := fun _ => .ok { S with erasure := S.erasure ++ [false], pos := S.pos + 1 })
          ((known_answer hF (a := fun r => r.int4 (S.pos + 1)) (hF.int4 (S.pos + 1)) (fun v => ({ S with erasure := S.erasure ++ [true], pos := S.pos + 2 } : Sim n).applyPauli q v.val) (fun _ => rfl)
            fun v S' hS => (applyPauli_pos hS).ge).mono (Nat.le_succ _))
          (known_const _ (fun _ => rfl) fun S' h => by cases h; exact le_rfl) fun ω => ?_
        unfold Sim.handleGate
        simp only [hv, hw]
        cases (rng ω).below S.pos p <;> rfl

theorem known_pauli (hF : FairFrom k₀ μ prob past rng) (api : FloatApi F) (S : Sim n) (args : List (Val F)) : Known past rng (S.pos + 1) fun r => S.handleGate api r .E_PAULI args := by
  cases hv : numsOf api (args.take 3) with
  | error e => exact known_error e fun ω => by unfold Sim.handleGate; simp only [hv]
  | ok ps =>
    cases ha : argAt args 3 with
    | error e => exact known_error e fun ω => by unfold Sim.handleGate; simp only [hv, ha]
    | ok w =>
      refine known_answer hF (a := fun r => r.choice4 S.pos ps) (hF.choice4 S.pos ps) (fun c => match c with
        | none => .error .valueError
        | some sample => match qubitOf n w with
          | .error e => .error e
          | .ok q => ({ S with pos := S.pos + 1 } : Sim n).applyPauli q sample.val) (fun ω => ?_) fun v S' hS => ?_
      · unfold Sim.handleGate
        simp only [hv, ha]
        rfl
      · cases v with
        | none => cases hS
        | some sample =>
          dsimp only at hS
          split at hS
          · cases hS
          · exact (applyPauli_pos hS).ge

theorem known_pauli2 (hF : FairFrom k₀ μ prob past rng) (api : FloatApi F) (S : Sim n) (args : List (Val F)) : Known past rng (S.pos + 1) fun r => S.handleGate api r .E_PAULI2 args := by
  cases hv : numsOf api (args.take 15) with
  | error e => exact known_error e fun ω => by unfold Sim.handleGate; simp only [hv]
  | ok ps =>
    by_cases hl : ps.length ≠ 15
    · exact known_error .valueError fun ω => by unfold Sim.handleGate; simp only [hv]; rw [if_pos hl]
    · refine known_answer hF (a := fun r => r.choice16 S.pos ps) (hF.choice16 S.pos ps) (fun c => match c with
        | none => .error .valueError
        | some sample =>
          match argAt (args.drop 15) 0 with
          | .error e => .error e
          | .ok qubit1 =>
            match qubitOf n qubit1 with
            | .error e => .error e
            | .ok q1 =>
              match ({ S with pos := S.pos + 1 } : Sim n).applyPauli q1 (sample.val / 4) with
              | .error e => .error e
              | .ok S1 =>
                match argAt (args.drop 15) 1 with
                | .error e => .error e
                | .ok qubit2 =>
                  match qubitOf n qubit2 with
                  | .error e => .error e
                  | .ok q2 => S1.applyPauli q2 (sample.val % 4)) (fun ω => ?_) fun v S' hS => ?_
      · unfold Sim.handleGate
        simp only [hv]
        rw [if_neg hl]
        rfl
      · cases v with
        | none => cases hS
        | some sample =>
          dsimp only at hS
          split at hS
          · cases hS
          split at hS
          · cases hS
          split at hS
          · cases hS
          rename_i S1 h1
          split at hS
          · cases hS
          split at hS
          · cases hS
          rw [applyPauli_pos hS, applyPauli_pos h1]

theorem known_oneQubit (S : Sim n) (G : Fin n → CGate n) (args : List (Val F)) : Known past rng S.pos fun _ => S.oneQubit G args :=
  known_const _ (fun _ => rfl) fun S' h => by
    unfold Sim.oneQubit at h
    split at h
    · cases h
    · cases h; exact le_rfl

theorem known_twoQubit (S : Sim n) (G : Fin n → Fin n → CGate n) (args : List (Val F)) : Known past rng S.pos fun _ => S.twoQubit G args :=
  known_const _ (fun _ => rfl) fun S' h => by
    unfold Sim.twoQubit at h
    split at h
    · cases h
    · split at h
      · cases h; exact le_rfl
      · cases h
      · cases h

theorem known_handleGate (hF : FairFrom k₀ μ prob past rng) (api : FloatApi F) (S : Sim n) (name : Name) (args : List (Val F)) :
    Known past rng S.pos fun r => S.handleGate api r name args := by
  cases name with
  | X => exact known_oneQubit S _ args
  | Y => exact known_oneQubit S _ args
  | Z => exact known_oneQubit S _ args
  | H => exact known_oneQubit S _ args
  | CX => exact known_twoQubit S _ args
  | CZ => exact known_twoQubit S _ args
  | M =>
    cases h : qubitsOf n args with
    | error e => exact known_error e fun ω => by unfold Sim.handleGate; simp only [h]
    | ok qs => simpa only [Sim.handleGate, h] using known_measureAll hF qs S
  | R =>
    cases h : qubitsOf n args with
    | error e => exact known_error e fun ω => by unfold Sim.handleGate; simp only [h]
    | ok qs => simpa only [Sim.handleGate, h] using known_resetAll hF qs S
  | DEPOLARIZE =>
    cases h : qubitsOf n args with
    | error e => exact known_error e fun ω => by unfold Sim.handleGate; simp only [h]
    | ok qs => simpa only [Sim.handleGate, h] using known_depolarize hF qs S
  | E_ERASE => exact (known_erase hF api S args).mono (Nat.le_succ _)
  | E_PAULI => exact (known_pauli hF api S args).mono (Nat.le_succ _)
  | E_PAULI2 => exact (known_pauli2 hF api S args).mono (Nat.le_succ _)
  | ERROR => exact known_error _ fun _ => rfl
  | ERROR_ELSE => exact known_error _ fun _ => rfl
  | ERROR_CONTINUE => exact known_error _ fun _ => rfl

theorem known_nested (hF : FairFrom k₀ μ prob past rng) (api : FloatApi F) (S : Sim n) (args : List (Val F)) : Known past rng S.pos fun r => S.nested api r args := by
  match args with
  | [] => exact known_error _ fun _ => rfl
  | .name m :: rest => exact known_handleGate hF api S m rest
  | .int _ :: _ => exact known_error _ fun _ => rfl
  | .flt _ :: _ => exact known_error _ fun _ => rfl

theorem known_ERROR (hF : FairFrom k₀ μ prob past rng) (api : FloatApi F) (S : Sim n) (args : List (Val F)) : Known past rng (S.pos + 1) fun r => S.handleError api r .ERROR args := by
  match args with
  | [] => exact known_error _ fun _ => rfl
  | v :: rest =>
    cases hv : numOf api v with
    | error e => exact known_error e fun ω => by unfold Sim.handleError; simp only [hv]
    | ok p =>
      refine known_if hF (x := p) (m1 := fun r => ({ S with inError := true, anyApplied := true, applyBranch := true, pos := S.pos + 1 } : Sim n).nested api r rest)
        (m2 := fun _ => .ok { S with inError := true, anyApplied := false, applyBranch := false, pos := S.pos + 1 }) (known_nested hF api _ rest)
        (known_const _ (fun _ => rfl) fun S' h => by cases h; exact le_rfl) fun ω => ?_
      unfold Sim.handleError
      simp only [hv]

theorem known_ELSE (hF : FairFrom k₀ μ prob past rng) (api : FloatApi F) (S : Sim n) (args : List (Val F)) (ha : S.anyApplied = false) :
    Known past rng (S.pos + 1) fun r => S.handleError api r .ERROR_ELSE args := by
  by_cases hi : S.inError = true
  · match args with
    | [] => exact known_error .indexError fun ω => by unfold Sim.handleError; simp [hi, ha]
    | v :: rest =>
      cases hv : numOf api v with
      | error e => exact known_error e fun ω => by unfold Sim.handleError; simp [hi, ha, hv]
      | ok p =>
        refine known_if hF (x := p) (m1 := fun r => ({ S with anyApplied := true, applyBranch := true, pos := S.pos + 1 } : Sim n).nested api r rest)
          (m2 := fun _ => .ok { S with pos := S.pos + 1 }) (known_nested hF api _ rest)
          (known_const _ (fun _ => rfl) fun S' h => by cases h; exact le_rfl) fun ω => ?_
        unfold Sim.handleError
        simp [hi, ha, hv]
  · exact known_error .valueError fun ω => by unfold Sim.handleError; simp [hi]

theorem known_handleError (hF : FairFrom k₀ μ prob past rng) (api : FloatApi F) (S : Sim n) (name : Name) (args : List (Val F)) :
    Known past rng S.pos fun r => S.handleError api r name args := by
  match name with
  | .ERROR => exact (known_ERROR hF api S args).mono (Nat.le_succ _)
  | .ERROR_ELSE =>
    by_cases ha : S.anyApplied = true
    · by_cases hi : S.inError = true
      · refine known_const (.ok { S with applyBranch := false }) (fun ω => by unfold Sim.handleError; simp [hi, ha]) fun S' h => by cases h; exact le_rfl
      · exact known_error .valueError fun ω => by unfold Sim.handleError; simp [hi]
    · exact (known_ELSE hF api S args (by simpa using ha)).mono (Nat.le_succ _)
  | .ERROR_CONTINUE =>
    by_cases hi : S.inError = true
    · by_cases ha : S.applyBranch = true
      · have := known_nested hF api S args
        refine fun S' => ⟨?_, fun ω hω => (this S').2 ω ?_⟩
        · have h1 := (this S').1
          have h2 : ∀ r, S.handleError api r .ERROR_CONTINUE args = S.nested api r args := fun r => by unfold Sim.handleError; simp [hi, ha]
          simpa only [h2] using h1
        · unfold Sim.handleError at hω; simpa [hi, ha] using hω
      · refine known_const (.ok S) (fun ω => by unfold Sim.handleError; simp [hi, ha]) fun S' h => by cases h; exact le_rfl
    · exact known_error .valueError fun ω => by unfold Sim.handleError; simp [hi]
  | .X => exact known_error _ fun _ => rfl
  | .Y => exact known_error _ fun _ => rfl
  | .Z => exact known_error _ fun _ => rfl
  | .H => exact known_error _ fun _ => rfl
  | .CX => exact known_error _ fun _ => rfl
  | .CZ => exact known_error _ fun _ => rfl
  | .M => exact known_error _ fun _ => rfl
  | .R => exact known_error _ fun _ => rfl
  | .DEPOLARIZE => exact known_error _ fun _ => rfl
  | .E_ERASE => exact known_error _ fun _ => rfl
  | .E_PAULI => exact known_error _ fun _ => rfl
  | .E_PAULI2 => exact known_error _ fun _ => rfl

theorem known_runGate (hF : FairFrom k₀ μ prob past rng) (api : FloatApi F) (S : Sim n) (g : Gate F) : Known past rng S.pos fun r => S.runGate api r g := by
  unfold Sim.runGate
  split
  · exact known_handleError hF api S _ _
  · exact known_handleGate hF api ({ S with inError := false } : Sim n) _ _

end Plaquette
