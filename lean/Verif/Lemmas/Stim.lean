import Verif.Spec.Stim
import Verif.Lemmas.CircuitCount
import Mathlib.Tactic.FieldSimp
import Mathlib.Tactic.Ring
import Mathlib.Tactic.Linarith
import Mathlib.Tactic.Positivity

/-!
# Lemmas about the Stim backend
-/

namespace Plaquette

/-- The probabilities of the emitted chain. -/
noncomputable def chainParams (p : ℝ) (i : Nat) (steps : List (List STarget)) : List ℝ :=
  (appendEquiprobable p i steps).flatMap SInstr.params

theorem chainParams_cons (p : ℝ) (i : Nat) (s : List STarget) (steps : List (List STarget)) :
    chainParams p i (s :: steps) = p / (1 - i * p) :: chainParams p (i + 1) steps := rfl

theorem chain_key (p : ℝ) (steps : List (List STarget)) : ∀ i : Nat, ((i + steps.length : ℕ) : ℝ) * p ≤ 1 →
    ((i : ℝ) * p < 1 ∨ steps = []) →
    (∀ j < steps.length, (1 - i * p) * chainProb (chainParams p i steps) j = p) ∧
      (1 - i * p) * chainNone (chainParams p i steps) = 1 - (i + steps.length : ℕ) * p := by
  induction steps with
  | nil => intro i _ _; exact ⟨by simp, by simp [chainParams, appendEquiprobable, chainNone]⟩
  | cons s steps ih =>
    intro i hk hi
    have hi : (i : ℝ) * p < 1 := by simpa using hi
    have hne : (1 - (i : ℝ) * p) ≠ 0 := by linarith
    have e : (1 - (i : ℝ) * p) * (1 - p / (1 - i * p)) = 1 - ((i + 1 : ℕ) : ℝ) * p := by
      rw [mul_sub, mul_one, mul_div_cancel₀ _ hne]; push_cast; ring
    have hlen : i + (s :: steps).length = (i + 1) + steps.length := by simp; omega
    rw [hlen] at hk
    have hnext : ((i + 1 : ℕ) : ℝ) * p < 1 ∨ steps = [] := by
      cases steps with
      | nil => exact Or.inr rfl
      | cons s' steps =>
        left
        by_cases hp : p ≤ 0
        · have : ((i + 1 : ℕ) : ℝ) * p ≤ 0 := mul_nonpos_of_nonneg_of_nonpos (by positivity) hp
          linarith
        · have hp : 0 < p := not_le.mp hp
          have : ((i + 1 : ℕ) : ℝ) * p < ((i + 1 + (s' :: steps).length : ℕ) : ℝ) * p := by
            apply mul_lt_mul_of_pos_right _ hp
            exact_mod_cast by simp
          linarith
    obtain ⟨h1, h2⟩ := ih (i + 1) hk hnext
    rw [chainParams_cons]
    constructor
    · intro j hj
      cases j with
      | zero => rw [chainProb, mul_div_cancel₀ _ hne]
      | succ j =>
        rw [chainProb, ← mul_assoc, e]
        exact h1 j (by simpa using hj)
    · rw [chainNone, ← mul_assoc, e, h2, hlen]

variable {α : Type}

/-- The state after `j` runs. -/
def StimState.After (smp : Sampler α) (B j : Nat) (s : StimState α) : Prop :=
  (j = 0 ∧ s = StimState.reset) ∨
    (0 < j ∧ s.drawn = (j - 1) / B + 1 ∧ s.batch = some ((List.range B).map (smp ((j - 1) / B))) ∧
      s.remaining = B - 1 - (j - 1) % B)

theorem run_after (smp : Sampler α) {B : Nat} (hB : 0 < B) (j : Nat) (s : StimState α) (h : s.After smp B j) :
    ∃ s', s.run smp B = .ok (s', smp (j / B) (j % B)) ∧ s'.After smp B (j + 1) := by
  have fresh : ∀ s : StimState α, s.remaining = 0 →
      s.run smp B = .ok ({ drawn := s.drawn + 1, batch := some ((List.range B).map (smp s.drawn)), remaining := B - 1 },
        smp s.drawn 0) := by
    intro s hs
    simp [StimState.run, hs, hB.ne', hB]
  have used : ∀ (s : StimState α) (k r : Nat), s.batch = some ((List.range B).map (smp k)) → s.remaining = r → 0 < r →
      r ≤ B → s.run smp B = .ok ({ s with remaining := r - 1 }, smp k (B - r)) := by
    intro s k r hb hr h0 hle
    simp [StimState.run, hr, hb, h0.ne', hle, show B - r < B by omega]
  rcases h with ⟨rfl, rfl⟩ | ⟨hj, hd, hb, hr⟩
  · refine ⟨{ drawn := 1, batch := some ((List.range B).map (smp 0)), remaining := B - 1 }, ?_, Or.inr ⟨by omega, ?_, ?_, ?_⟩⟩
    · rw [Nat.zero_div, Nat.zero_mod]; exact fresh StimState.reset rfl
    · simp
    · simp
    · simp
  · obtain ⟨k, rfl⟩ : ∃ k, j = k + 1 := ⟨j - 1, by omega⟩
    simp only [Nat.add_sub_cancel] at hd hb hr
    have hlt := Nat.mod_lt k hB
    by_cases h0 : k % B = B - 1
    · have hr0 : s.remaining = 0 := by omega
      have hdiv : (k + 1) / B = k / B + 1 := by
        rw [Nat.succ_div, if_pos]
        rw [Nat.dvd_iff_mod_eq_zero, Nat.add_mod, h0]
        by_cases h1 : B = 1
        · subst h1; simp [Nat.mod_one]
        · rw [Nat.mod_eq_of_lt (show 1 < B by omega), show B - 1 + 1 = B by omega, Nat.mod_self]
      have hmod : (k + 1) % B = 0 := by
        have a1 := Nat.div_add_mod (k + 1) B
        have a2 := Nat.div_add_mod k B
        rw [hdiv, Nat.mul_add] at a1
        omega
      refine ⟨{ drawn := k / B + 1 + 1, batch := some ((List.range B).map (smp (k / B + 1))), remaining := B - 1 }, ?_,
        Or.inr ⟨by omega, ?_, ?_, ?_⟩⟩
      · rw [fresh s hr0, hd, hdiv, hmod]
      · rw [Nat.add_sub_cancel, hdiv]
      · rw [Nat.add_sub_cancel, hdiv]
      · rw [Nat.add_sub_cancel, hmod]; rfl
    · have hdiv : (k + 1) / B = k / B := by
        rw [Nat.succ_div, if_neg, Nat.add_zero]
        intro hdvd
        rw [Nat.dvd_iff_mod_eq_zero, Nat.add_mod] at hdvd
        by_cases h1 : B = 1
        · subst h1; simp [Nat.mod_one] at h0
        · rw [Nat.mod_eq_of_lt (show 1 < B by omega), Nat.mod_eq_of_lt (show k % B + 1 < B by omega)] at hdvd
          omega
      have hmod : (k + 1) % B = k % B + 1 := by
        have a1 := Nat.div_add_mod (k + 1) B
        have a2 := Nat.div_add_mod k B
        rw [hdiv] at a1
        omega
      refine ⟨{ s with remaining := B - 1 - k % B - 1 }, ?_, Or.inr ⟨by omega, ?_, ?_, ?_⟩⟩
      · rw [used s (k / B) (B - 1 - k % B) hb hr (by omega) (by omega), hdiv, hmod,
          show B - (B - 1 - k % B) = k % B + 1 by omega]
      · rw [Nat.add_sub_cancel, hdiv]; exact hd
      · rw [Nat.add_sub_cancel, hdiv]; exact hb
      · rw [Nat.add_sub_cancel, hmod]; simp only; omega

theorem ancilla_fresh {F : Type} (c : List (Gate F)) : ∀ g ∈ c, Val.int (numberOfQubits c : Int) ∉ g.args := by
  intro g hg hi
  have := (maxGates_foldl c 0).2.1 g hg _ hi
  have := (maxGates_foldl c 0).1
  unfold numberOfQubits at *
  omega

section c26
variable {F : Type} [Field F]

theorem maskSel_append {β : Type} (a b : List β) (x y : List Bool) (h : a.length = x.length) :
    maskSel (a ++ b) (x ++ y) = maskSel a x ++ maskSel b y := by
  induction a generalizing x with
  | nil => cases x with
    | nil => rfl
    | cons _ _ => simp at h
  | cons c a ih => cases x with
    | nil => simp at h
    | cons v x =>
      simp only [List.cons_append, maskSel]
      rw [ih x (by simpa using h)]
      split <;> rfl

theorem maskSel_replicate {β : Type} (a : List β) (v : Bool) : maskSel a (List.replicate a.length v) = if v then a else [] := by
  induction a with
  | nil => cases v <;> rfl
  | cons c a ih => rw [List.length_cons, List.replicate_succ, maskSel, ih]; cases v <;> rfl

/-- The flags of one instruction. -/
theorem stimGate_flags (api : FloatApi F) (anc : Nat) (g : Gate F) (is : List (SInstr F)) (fl : List Bool)
    (h : stimGate api anc g = .ok (is, fl)) :
    fl = List.replicate (recordLen g) (decide (g.name = .E_ERASE)) ∧ (is.map SInstr.records).sum = fl.length := by
  have app : ∀ (nm : List Char) (args : List (Val F)) (ps : List F) is, stimAppend nm args ps = .ok is →
      (is.map SInstr.records).sum = if nm = "M".toList then args.length else 0 := by
    intro nm args ps is h
    have len : ∀ (args : List (Val F)) qs, mapE stimQubit args = .ok qs → qs.length = args.length := by
      intro args
      induction args with
      | nil => intro qs h; cases h; rfl
      | cons a args ih =>
        intro qs h
        rw [mapE] at h
        split at h
        · cases h
        · split at h
          · cases h
          · rename_i h'
            cases h
            simp [ih _ h']
    unfold stimAppend at h
    split at h
    · cases h
    · rename_i qs hq
      cases h
      simp only [List.map_cons, List.map_nil, List.sum_cons, List.sum_nil, Nat.add_zero, SInstr.records, List.length_map]
      rw [len _ _ hq]
  obtain ⟨name, args⟩ := g
  cases name
  case E_ERASE =>
    rcases args with _ | ⟨pv, _ | ⟨qv, _ | ⟨w, rest⟩⟩⟩
    · cases h
    · cases h
    rotate_left
    · cases h
    unfold stimGate at h
    dsimp only at h
    cases hp : stimProb api pv with
    | error e => simp [hp] at h
    | ok p =>
      cases hq : stimQubit qv with
      | error e => simp [hp, hq] at h
      | ok q =>
        simp only [hp, hq, Except.ok.injEq, Prod.mk.injEq] at h
        obtain ⟨rfl, rfl⟩ := h
        refine ⟨rfl, ?_⟩
        simp only [appendEquiprobable, List.map_cons, List.map_append, List.map_nil]
        rfl
  case M =>
    simp only [stimGate] at h
    split at h
    · cases h
    · rename_i is' h'
      simp only [Except.ok.injEq, Prod.mk.injEq] at h
      obtain ⟨rfl, rfl⟩ := h
      refine ⟨by simp [recordLen], ?_⟩
      rw [app _ _ _ _ h', if_pos (by rfl), List.length_replicate]
  case ERROR =>
    simp only [stimGate] at h
    rcases args with _ | ⟨pv, _ | ⟨v2, rest⟩⟩ <;> try (simp at h; done)
    cases v2 with
    | int i => simp at h
    | flt f => simp at h
    | name m =>
      simp only at h
      split at h
      · rename_i hm
        split at h
        · cases h
        · split at h
          · cases h
          · split at h
            · cases h
            · rename_i is' h'
              cases h
              refine ⟨rfl, ?_⟩
              rw [app _ _ _ _ h']
              rcases hm with rfl | rfl | rfl <;> rfl
      · cases h
  case E_PAULI | E_PAULI2 =>
    simp only [stimGate] at h
    split at h
    · split at h
      · cases h
      · split at h
        · cases h
        · rename_i is' h'
          cases h
          exact ⟨rfl, by rw [app _ _ _ _ h']; rfl⟩
    · cases h
  case ERROR_ELSE | ERROR_CONTINUE => simp [stimGate] at h
  all_goals
    simp only [stimGate] at h
    split at h
    · cases h
    · rename_i is' h'
      cases h
      exact ⟨rfl, by rw [app _ _ _ _ h']; rfl⟩

/-- The qubit a target acts on. -/
def STarget.index : STarget → Int
  | .qubit q | .x q | .y q | .z q => q

theorem stimGate_targets (api : FloatApi F) (anc : Nat) (g : Gate F) (is : List (SInstr F)) (fl : List Bool)
    (h : stimGate api anc g = .ok (is, fl)) (ha : ∀ k : Int, Val.int k ∈ g.args → k < anc) :
    ∀ i ∈ is, ∀ t ∈ i.targets, 0 ≤ t.index ∧ t.index ≤ anc := by
  have one : ∀ (v : Val F) q, stimQubit v = .ok q → v = .int q ∧ 0 ≤ q := by
    intro v q h
    cases v with
    | int i =>
      simp only [stimQubit] at h
      split at h
      · cases h; exact ⟨rfl, by assumption⟩
      · cases h
    | flt f => cases h
    | name m => cases h
  have app : ∀ (nm : List Char) (args : List (Val F)) (ps : List F) is, stimAppend nm args ps = .ok is → (∀ v ∈ args, v ∈ g.args) →
      ∀ i ∈ is, ∀ t ∈ i.targets, 0 ≤ t.index ∧ t.index ≤ anc := by
    intro nm args ps is h hsub
    have mem : ∀ (args : List (Val F)) qs, mapE stimQubit args = .ok qs → ∀ q ∈ qs, 0 ≤ q ∧ Val.int q ∈ args := by
      intro args
      induction args with
      | nil => intro qs h; cases h; simp
      | cons a args ih =>
        intro qs h
        rw [mapE] at h
        split at h
        · cases h
        · rename_i b hb
          split at h
          · cases h
          · rename_i h'
            cases h
            intro q hq
            rcases List.mem_cons.1 hq with rfl | hq
            · obtain ⟨rfl, h0⟩ := one _ _ hb
              exact ⟨h0, List.mem_cons_self ..⟩
            · obtain ⟨h0, h1⟩ := ih _ h' q hq
              exact ⟨h0, List.mem_cons_of_mem _ h1⟩
    unfold stimAppend at h
    split at h
    · cases h
    · rename_i qs hq
      cases h
      intro i hi t ht
      rw [List.mem_singleton] at hi
      subst hi
      obtain ⟨q, hq', rfl⟩ := List.mem_map.1 ht
      obtain ⟨h0, h1⟩ := mem _ _ hq q hq'
      exact ⟨h0, (ha q (hsub _ h1)).le⟩
  obtain ⟨name, args⟩ := g
  cases name
  case E_ERASE =>
    rcases args with _ | ⟨pv, _ | ⟨qv, _ | ⟨w, rest⟩⟩⟩
    · cases h
    · cases h
    rotate_left
    · cases h
    unfold stimGate at h
    dsimp only at h
    cases hp : stimProb api pv with
    | error e => simp [hp] at h
    | ok p =>
      cases hq : stimQubit qv with
      | error e => simp [hp, hq] at h
      | ok q =>
        simp only [hp, hq, Except.ok.injEq, Prod.mk.injEq] at h
        obtain ⟨rfl, rfl⟩ := h
        obtain ⟨rfl, h0⟩ := one _ _ hq
        have := ha q (by simp)
        simp only [appendEquiprobable, List.mem_cons, List.mem_append, List.not_mem_nil, or_false]
        rintro i ((rfl | (rfl | rfl | rfl | rfl) | rfl)) t ht <;>
          simp only [List.mem_cons, List.not_mem_nil, or_false] at ht <;>
          (rcases ht with rfl | rfl) <;> simp only [STarget.index] <;> omega
  case ERROR =>
    simp only [stimGate] at h
    rcases args with _ | ⟨pv, _ | ⟨v2, rest⟩⟩ <;> try (simp at h; done)
    cases v2 with
    | int i => simp at h
    | flt f => simp at h
    | name m =>
      simp only at h
      split at h
      · split at h
        · cases h
        · split at h
          · cases h
          · split at h
            · cases h
            · rename_i is' h'
              cases h
              exact app _ _ _ _ h' fun v hv => by simp [hv]
      · cases h
  case E_PAULI | E_PAULI2 =>
    simp only [stimGate] at h
    split at h
    · split at h
      · cases h
      · split at h
        · cases h
        · rename_i is' h'
          cases h
          exact app _ _ _ _ h' fun v hv => List.mem_of_mem_drop hv
    · cases h
  case ERROR_ELSE | ERROR_CONTINUE => simp [stimGate] at h
  all_goals
    simp only [stimGate] at h
    split at h
    · cases h
    · rename_i is' h'
      cases h
      exact app _ _ _ _ h' fun v hv => hv

theorem stimLoop_targets (api : FloatApi F) (anc : Nat) (c : List (Gate F)) (is : List (SInstr F)) (fl : List Bool)
    (h : stimLoop api anc c = .ok (is, fl)) (ha : ∀ g ∈ c, ∀ k : Int, Val.int k ∈ g.args → k < anc) :
    ∀ i ∈ is, ∀ t ∈ i.targets, 0 ≤ t.index ∧ t.index ≤ anc := by
  induction c generalizing is fl with
  | nil => cases h; simp
  | cons g gs ih =>
    rw [stimLoop] at h
    cases hg : stimGate api anc g with
    | error e => simp [hg] at h
    | ok r =>
      obtain ⟨is1, fl1⟩ := r
      cases hl : stimLoop api anc gs with
      | error e => simp [hg, hl] at h
      | ok r =>
        obtain ⟨is2, fl2⟩ := r
        simp only [hg, hl, Except.ok.injEq, Prod.mk.injEq] at h
        obtain ⟨rfl, rfl⟩ := h
        intro i hi
        rcases List.mem_append.1 hi with hi | hi
        · exact stimGate_targets api anc g is1 fl1 hg (ha g (List.mem_cons_self ..)) i hi
        · exact ih is2 fl2 hl (fun g' hg' => ha g' (List.mem_cons_of_mem _ hg')) i hi

theorem stimLoop_split (api : FloatApi F) (anc : Nat) (c : List (Gate F)) (is : List (SInstr F)) (fl : List Bool)
    (h : stimLoop api anc c = .ok (is, fl)) (ps : List (List Bool)) (hr : RecordOf c ps) :
    (is.map SInstr.records).sum = fl.length ∧ ps.flatten.length = fl.length ∧
      maskSel ps.flatten (fl.map (!·)) = partsOf .M c ps ∧ maskSel ps.flatten fl = partsOf .E_ERASE c ps := by
  induction hr generalizing is fl with
  | nil => cases h; exact ⟨rfl, rfl, rfl, rfl⟩
  | @cons g gs p ps hp hs ih =>
    rw [stimLoop] at h
    cases hg : stimGate api anc g with
    | error e => simp [hg] at h
    | ok r =>
      obtain ⟨is1, fl1⟩ := r
      cases hl : stimLoop api anc gs with
      | error e => simp [hg, hl] at h
      | ok r =>
        obtain ⟨is2, fl2⟩ := r
        simp only [hg, hl, Except.ok.injEq, Prod.mk.injEq] at h
        obtain ⟨rfl, rfl⟩ := h
        obtain ⟨k1, k2⟩ := stimGate_flags api anc g is1 fl1 hg
        obtain ⟨i1, i2, i3, i4⟩ := ih is2 fl2 hl
        have hlen : p.length = fl1.length := by rw [k1, List.length_replicate, hp]
        have name : ∀ v w : Bool, fl1 = List.replicate (recordLen g) v → maskSel p (fl1.map (xor w)) = if xor w v then p else [] := by
          intro v w hv
          rw [hv, List.map_replicate, ← hp, maskSel_replicate]
        have hM := name _ true k1
        have hE := name _ false k1
        have emptyp : g.name ≠ .M → g.name ≠ .E_ERASE → p = [] := by
          intro h1 h2
          have : recordLen g = 0 := by
            unfold recordLen; cases hn : g.name <;> simp_all
          exact List.eq_nil_of_length_eq_zero (hp.trans this)
        refine ⟨?_, ?_, ?_, ?_⟩
        · rw [List.map_append, List.sum_append, i1, k2, List.length_append]
        · rw [List.flatten_cons, List.length_append, List.length_append, i2, hlen]
        · rw [List.flatten_cons, List.map_append, maskSel_append _ _ _ _ (by simpa using hlen), i3, partsOf]
          congr 1
          have e : (fun b : Bool => !b) = xor true := by funext b; cases b <;> rfl
          rw [e, hM]
          by_cases h1 : g.name = .M
          · simp [h1]
          · by_cases h2 : g.name = .E_ERASE
            · simp [h2]
            · simp [h1, h2, emptyp h1 h2]
        · rw [List.flatten_cons, maskSel_append _ _ _ _ hlen, i4, partsOf]
          congr 1
          have e : fl1 = fl1.map (xor false) := by
            have : (xor false) = id := by funext b; cases b <;> rfl
            rw [this, List.map_id]
          rw [e, hE]
          clear e
          by_cases h2 : g.name = .E_ERASE
          · simp [h2]
          · simp [h2]

end c26

end Plaquette
