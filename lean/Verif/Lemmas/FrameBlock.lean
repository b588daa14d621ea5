import Verif.Lemmas.GateTrace

/-!
# What faulty gates do to the frame while operators are measured
-/

namespace Plaquette
variable {F : Type}

/-- Two frames agree on a qubit. -/
def PFrame.At (f g : PFrame) (q : Nat) : Prop := f.x q = g.x q ∧ f.z q = g.z q

theorem PFrame.At.refl (f : PFrame) (q : Nat) : f.At f q := ⟨rfl, rfl⟩
theorem PFrame.At.trans {f g h : PFrame} {q : Nat} (a : f.At g q) (b : g.At h q) : f.At h q := ⟨a.1.trans b.1, a.2.trans b.2⟩
theorem PFrame.At.symm {f g : PFrame} {q : Nat} (a : f.At g q) : g.At f q := ⟨a.1.symm, a.2.symm⟩

theorem kick_zero (f : PFrame) (q : Nat) : f.step (.kick q 0) = f := by
  show PFrame.mk _ _ = f
  have h1 : numX 0 = false := rfl
  have h2 : numZ 0 = false := rfl
  simp only [h1, h2, Bool.and_false, Bool.xor_false]

theorem kick_off (f : PFrame) {q i : Nat} (k : Fin 4) (h : i ≠ q) : (f.step (.kick q k)).At f i := by
  constructor
  · show (f.x i ^^ (decide (i = q) && numX k)) = _
    rw [decide_eq_false h]; simp
  · show (f.z i ^^ (decide (i = q) && numZ k)) = _
    rw [decide_eq_false h]; simp

/-- The faulty gates belong to ancillas in `G`. -/
def Blames (d : Nat) (G M : Nat → Prop) (tr : List (Kicked1 F)) : Prop :=
  ∀ p ∈ tr, (gateFault d p = true → G (firstQubit p.2)) ∧ (measFault p = true → M (firstQubit p.2))

theorem Blames.left {d : Nat} {G M : Nat → Prop} {a b : List (Kicked1 F)} (h : Blames d G M (a ++ b)) : Blames d G M a := fun p hp => h p (by simp [hp])
theorem Blames.right {d : Nat} {G M : Nat → Prop} {a b : List (Kicked1 F)} (h : Blames d G M (a ++ b)) : Blames d G M b := fun p hp => h p (by simp [hp])
theorem Blames.tail {d : Nat} {G M : Nat → Prop} {p : Kicked1 F} {b : List (Kicked1 F)} (h : Blames d G M (p :: b)) : Blames d G M b := fun p hp => h p (by simp [hp])

/-- The error after a gate on two qubits, if there is one. -/
def PairGate (a b : Nat) (gs : List (Gate F)) : Prop := gs = [] ∨ ∃ l : List (Val F), l.length = 15 ∧ gs = [⟨.E_PAULI2, l ++ [.int a, .int b]⟩]

theorem pauli_inv {a b c : Val F} {q : Nat} {k : List (Nat × Fin 4)} (h : KickOk ⟨.E_PAULI, [a, b, c, .int q]⟩ k) : ∃ j, k = [(q, j)] := by
  generalize hg : (⟨.E_PAULI, [a, b, c, .int q]⟩ : Gate F) = g at h
  cases h with
  | plain g h => subst hg; cases h
  | pauli a b c q' j =>
    simp only [Gate.mk.injEq, List.cons.injEq, Val.int.injEq, Nat.cast_inj, and_true, true_and] at hg
    exact ⟨j, by rw [hg.2.2.2]⟩
  | two g l q1 q2 j1 j2 hl hg' => subst hg; cases hg'
  | erase => cases hg
  | keep => cases hg
  | flip => cases hg
  | noFlip => cases hg

theorem two_inv {l : List (Val F)} (hl : l.length = 15) {q1 q2 : Nat} {k : List (Nat × Fin 4)} (h : KickOk ⟨.E_PAULI2, l ++ [.int q1, .int q2]⟩ k) :
    ∃ j1 j2, k = [(q1, j1), (q2, j2)] := by
  generalize hg : (⟨.E_PAULI2, l ++ [.int q1, .int q2]⟩ : Gate F) = g at h
  cases h with
  | plain g h => subst hg; cases h
  | pauli => cases hg
  | two g l' q1' q2' j1 j2 hl' hg' =>
    rw [← hg] at hg'
    simp only [Gate.mk.injEq, true_and] at hg'
    obtain ⟨h1, h2⟩ := List.append_inj hg' (by rw [hl, hl'])
    simp only [List.cons.injEq, Val.int.injEq, Nat.cast_inj, and_true] at h2
    exact ⟨j1, j2, by rw [h2.1, h2.2]⟩
  | erase => cases hg
  | keep => cases hg
  | flip => cases hg
  | noFlip => cases hg

theorem flip_inv {v : Val F} {q : Nat} {k : List (Nat × Fin 4)} (h : KickOk ⟨.ERROR, [v, .name .X, .int q]⟩ k) : k = [] ∨ k = [(q, 1)] := by
  generalize hg : (⟨.ERROR, [v, .name .X, .int q]⟩ : Gate F) = g at h
  cases h with
  | plain g h => exact .inl rfl
  | pauli => cases hg
  | two g l' q1' q2' j1 j2 hl' hg' => subst hg; cases hg'
  | erase => cases hg
  | keep => cases hg
  | flip v q' =>
    simp only [Gate.mk.injEq, List.cons.injEq, Val.int.injEq, Nat.cast_inj, and_true, true_and] at hg
    exact .inr (by rw [hg.2])
  | noFlip => exact .inl rfl

theorem erase_inv {v : Val F} {q : Nat} {k : List (Nat × Fin 4)} (h : KickOk ⟨.E_ERASE, [v, .int q]⟩ k) : k = [] ∨ ∃ j, k = [(q, j)] := by
  generalize hg : (⟨.E_ERASE, [v, .int q]⟩ : Gate F) = g at h
  cases h with
  | plain g h => exact .inl rfl
  | pauli => cases hg
  | two g l' q1' q2' j1 j2 hl' hg' => subst hg; cases hg'
  | erase v q' j =>
    simp only [Gate.mk.injEq, List.cons.injEq, Val.int.injEq, Nat.cast_inj, and_true, true_and] at hg
    exact .inr ⟨j, by rw [hg.2]⟩
  | keep => exact .inl rfl
  | flip => cases hg
  | noFlip => cases hg

section
variable {d : Nat} {G M : Nat → Prop}

/-- The error after a gate on one ancilla. -/
theorem err_one {a : Nat} {gs : List (Gate F)} (hg : PauliGate a gs) (ha : d ≤ a) {tr : List (Kicked1 F)} (ht : Trace gs tr) (hb : Blames d G M tr) (f : PFrame) :
    f.flips (trSteps tr) = [] ∧ (∀ q, q ≠ a → (f.after (trSteps tr)).At f q) ∧ (¬ G a → f.after (trSteps tr) = f) := by
  rcases hg with rfl | ⟨x, y, z, rfl⟩
  · rw [ht.nil]
    exact ⟨rfl, fun q _ => .refl f q, fun _ => rfl⟩
  · obtain ⟨k, t, rfl, hk, ht⟩ := ht.cons
    rw [ht.nil] at hb ⊢
    obtain ⟨j, rfl⟩ := pauli_inv hk
    have e : trSteps [((⟨.E_PAULI, [x, y, z, .int a]⟩ : Gate F), [(a, j)])] = [.kick a j] := rfl
    rw [e]
    refine ⟨rfl, fun q hq => kick_off f j hq, fun hG => ?_⟩
    by_cases hj : j = 0
    · subst hj; exact kick_zero f a
    · exact absurd ((hb _ (List.mem_singleton_self _)).1 (by simp [gateFault, hitBy, firstQubit, hj, ha])) hG

/-- The error after a gate on two qubits. -/
theorem err_two {a b : Nat} {gs : List (Gate F)} (hg : PairGate a b gs) {tr : List (Kicked1 F)} (ht : Trace gs tr) (hb : Blames d G M tr) (f : PFrame) :
    f.flips (trSteps tr) = [] ∧ (∀ q, q ≠ a → q ≠ b → (f.after (trSteps tr)).At f q) ∧ (¬ G a → f.after (trSteps tr) = f) := by
  rcases hg with rfl | ⟨l, hl, rfl⟩
  · rw [ht.nil]
    exact ⟨rfl, fun q _ _ => .refl f q, fun _ => rfl⟩
  · obtain ⟨k, t, rfl, hk, ht⟩ := ht.cons
    rw [ht.nil] at hb ⊢
    obtain ⟨j1, j2, rfl⟩ := two_inv hl hk
    have e : trSteps [((⟨.E_PAULI2, l ++ [.int a, .int b]⟩ : Gate F), [(a, j1), (b, j2)])] = [.kick a j1, .kick b j2] := rfl
    rw [e]
    refine ⟨rfl, fun q hq hq' => (kick_off _ j2 hq').trans (kick_off f j1 hq), fun hG => ?_⟩
    by_cases hj : j1 = 0 ∧ j2 = 0
    · obtain ⟨rfl, rfl⟩ := hj
      show (f.step (.kick a 0)).step (.kick b 0) = f
      rw [kick_zero, kick_zero]
    · refine absurd ((hb _ (List.mem_singleton_self _)).1 ?_) hG
      simp only [gateFault, hitBy, List.any_cons, List.any_nil, decide_true, Bool.true_or, Bool.and_true, Bool.or_false, Bool.or_eq_true, ne_eq, decide_not, Bool.not_eq_true', decide_eq_false_iff_not]
      tauto

/-- The flip before a measurement. -/
theorem err_flip {a : Nat} {gs : List (Gate F)} (hg : FlipGate a gs) {tr : List (Kicked1 F)} (ht : Trace gs tr) (hb : Blames d G M tr) (f : PFrame) :
    f.flips (trSteps tr) = [] ∧ (∀ q, q ≠ a → (f.after (trSteps tr)).At f q) ∧ (¬ M a → f.after (trSteps tr) = f) := by
  rcases hg with rfl | ⟨p, rfl⟩
  · rw [ht.nil]
    exact ⟨rfl, fun q _ => .refl f q, fun _ => rfl⟩
  · obtain ⟨k, t, rfl, hk, ht⟩ := ht.cons
    rw [ht.nil] at hb ⊢
    rcases flip_inv hk with rfl | rfl
    · exact ⟨rfl, fun q _ => .refl f q, fun _ => rfl⟩
    · have e : trSteps [((⟨.ERROR, [.flt p, .name .X, .int a]⟩ : Gate F), [(a, 1)])] = [.kick a 1] := rfl
      rw [e]
      refine ⟨rfl, fun q hq => kick_off f 1 hq, fun hM => ?_⟩
      exact absurd ((hb _ (List.mem_singleton_self _)).2 (by simp [measFault, hitBy])) hM

/-- The gates that prepare an ancilla, with errors. -/
def prepErr (ge1 : Name → Nat → List (Gate F)) (a : Nat) : List (Gate F) := (toGate (g1 .R a) :: ge1 .R a) ++ (toGate (g1 .H a) :: ge1 .H a)

/-- The gates that read an ancilla, with errors. -/
def readErr (ge1 : Name → Nat → List (Gate F)) (err : Nat → List (Gate F)) (a : Nat) : List (Gate F) :=
  (toGate (g1 .H a) :: ge1 .H a) ++ (err a ++ (toGate (g1 .M a) :: ge1 .M a))

/-- The gate of an edge, with errors. -/
def edgeErr (ge2 : Name → Nat → Nat → List (Gate F)) (idx : Pos → Nat) (e : LEdge) : List (Gate F) :=
  toGate (ctl idx e) :: ge2 (if e.factor = .X then .CX else .CZ) (idx e.op) (idx e.data)

/-- The gates of a block of measured operators, with errors after each gate. -/
def gateBlock (ge1 : Name → Nat → List (Gate F)) (ge2 : Name → Nat → Nat → List (Gate F)) (err : Nat → List (Gate F)) (idx : Pos → Nat) (as : List Pos) (es : List LEdge) : List (Gate F) :=
  (as.flatMap fun a => prepErr ge1 (idx a)) ++ ((es.flatMap (edgeErr ge2 idx)) ++ as.flatMap fun a => readErr ge1 err (idx a))

theorem had_off (f : PFrame) {a q : Nat} (h : q ≠ a) : (f.step (.had a)).At f q := ⟨if_neg h, if_neg h⟩
theorem clear_off (f : PFrame) {a q : Nat} (h : q ≠ a) : (f.step (.clear a)).At f q := ⟨if_neg h, if_neg h⟩

theorem trSteps_cons (p : Kicked1 F) (t : List (Kicked1 F)) : trSteps (p :: t) = (if p.1.name.noisy then kickSteps p.2 else plainSteps p.1.name p.1.args) ++ trSteps t := List.flatMap_cons ..

theorem plain_g1 (nm : Name) (a : Nat) (k : List (Nat × Fin 4)) (t : List (Kicked1 F)) (hn : nm.noisy = false) :
    trSteps ((toGate (g1 nm a), k) :: t) = plainSteps nm ([.int a] : List (Val F)) ++ trSteps t := by
  rw [trSteps_cons]
  show (if nm.noisy then _ else _) ++ _ = _
  rw [hn]
  rfl

/-- The preparation of an ancilla. -/
theorem prep_one {ge1 : Name → Nat → List (Gate F)} {a : Nat} (hg : ∀ nm, PauliGate a (ge1 nm a)) (ha : d ≤ a) {tr : List (Kicked1 F)} (ht : Trace (prepErr ge1 a) tr) (hb : Blames d G M tr)
    (f : PFrame) : f.flips (trSteps tr) = [] ∧ (∀ q, q ≠ a → (f.after (trSteps tr)).At f q) ∧
      (¬ G a → (f.after (trSteps tr)).x a = false ∧ (f.after (trSteps tr)).z a = false) := by
  unfold prepErr at ht
  obtain ⟨t1, t2, rfl, h1, h2⟩ := ht.append
  obtain ⟨k1, t1, rfl, _, h1⟩ := h1.cons
  obtain ⟨k2, t2, rfl, _, h2⟩ := h2.cons
  have b1 := hb.left.tail
  have b2 := hb.right.tail
  rw [trSteps_append, plain_g1 .R _ _ _ rfl, plain_g1 .H _ _ _ rfl]
  show f.flips ((.clear a :: trSteps t1) ++ (.had a :: trSteps t2)) = [] ∧ _
  have e : f.after ((.clear a :: trSteps t1) ++ (.had a :: trSteps t2)) = (((f.step (.clear a)).after (trSteps t1)).step (.had a)).after (trSteps t2) := by
    rw [after_append]; rfl
  have e' : f.after ((plainSteps .R ([.int a] : List (Val F)) ++ trSteps t1) ++ (plainSteps .H ([.int a] : List (Val F)) ++ trSteps t2)) =
      (((f.step (.clear a)).after (trSteps t1)).step (.had a)).after (trSteps t2) := e
  rw [e', flips_append]
  obtain ⟨c1, c2, c3⟩ := err_one (hg .R) ha h1 b1 (f.step (.clear a))
  obtain ⟨d1, d2, d3⟩ := err_one (hg .H) ha h2 b2 (((f.step (.clear a)).after (trSteps t1)).step (.had a))
  refine ⟨?_, fun q hq => ?_, fun hG => ?_⟩
  · show (f.step (.clear a)).flips (trSteps t1) ++ (((f.step (.clear a)).after (trSteps t1)).step (.had a)).flips (trSteps t2) = []
    rw [c1, d1]; rfl
  · exact (d2 q hq).trans ((had_off _ hq).trans ((c2 q hq).trans (clear_off f hq)))
  · rw [d3 hG, c3 hG]
    constructor
    · show (if a = a then (if a = a then false else f.z a) else _) = false
      simp
    · show (if a = a then (if a = a then false else f.x a) else _) = false
      simp

theorem prep_all {ge1 : Name → Nat → List (Gate F)} (idx : Pos → Nat) (as : List Pos) (hn : (as.map idx).Nodup) (hg : ∀ a ∈ as, ∀ nm, PauliGate (idx a) (ge1 nm (idx a)))
    (ha : ∀ a ∈ as, d ≤ idx a) {tr : List (Kicked1 F)} (ht : Trace (as.flatMap fun a => prepErr ge1 (idx a)) tr) (hb : Blames d G M tr)
    (f : PFrame) : f.flips (trSteps tr) = [] ∧ (∀ q, q ∉ as.map idx → (f.after (trSteps tr)).At f q) ∧
      ∀ a ∈ as, ¬ G (idx a) → (f.after (trSteps tr)).x (idx a) = false ∧ (f.after (trSteps tr)).z (idx a) = false := by
  induction as generalizing f tr with
  | nil =>
    rw [ht.nil]
    exact ⟨rfl, fun q _ => .refl f q, by simp⟩
  | cons a as ih =>
    rw [List.flatMap_cons] at ht
    obtain ⟨t1, t2, rfl, h1, h2⟩ := ht.append
    rw [List.map_cons, List.nodup_cons] at hn
    obtain ⟨c1, c2, c3⟩ := prep_one (hg a (by simp)) (ha a (by simp)) h1 hb.left f
    obtain ⟨d1, d2, d3⟩ := ih hn.2 (fun b hb => hg b (by simp [hb])) (fun b hb => ha b (by simp [hb])) h2 hb.right (f.after (trSteps t1))
    rw [trSteps_append, after_append, flips_append, c1, d1]
    refine ⟨rfl, fun q hq => ?_, fun b hb' hG => ?_⟩
    · rw [List.map_cons, List.mem_cons, not_or] at hq
      exact (d2 q hq.2).trans (c2 q hq.1)
    · rcases List.mem_cons.1 hb' with rfl | hb'
      · have := d2 (idx b) hn.1
        rw [this.1, this.2]
        exact c3 hG
      · exact d3 b hb' hG

/-- The X or Z of a frame at a data qubit that is seen by the gate of an edge. -/
def PFrame.seen (f : PFrame) (idx : Pos → Nat) (e : LEdge) : Bool := if e.factor = .X then f.z (idx e.data) else f.x (idx e.data)

theorem plain_ctl (idx : Pos → Nat) (e : LEdge) (k : List (Nat × Fin 4)) (t : List (Kicked1 F)) :
    trSteps ((toGate (ctl idx e), k) :: t) = (if e.factor = .X then .cx (idx e.op) (idx e.data) else .cz (idx e.op) (idx e.data)) :: trSteps t := by
  rw [trSteps_cons]
  unfold ctl toGate g2
  split <;> rfl

/-- The step of the gate of an edge. -/
theorem ctl_step (f : PFrame) (idx : Pos → Nat) (e : LEdge) (hne : idx e.op ≠ idx e.data) :
    let f' := f.step (if e.factor = .X then .cx (idx e.op) (idx e.data) else .cz (idx e.op) (idx e.data))
    (∀ q, q ≠ idx e.op → q ≠ idx e.data → f'.At f q) ∧ f'.x (idx e.op) = f.x (idx e.op) ∧ f'.z (idx e.op) = (f.z (idx e.op) ^^ f.seen idx e) ∧
      (f.x (idx e.op) = false → f'.At f (idx e.data)) := by
  intro f'
  by_cases h : e.factor = .X
  · have ef : f' = f.step (.cx (idx e.op) (idx e.data)) := by show f.step _ = _; rw [if_pos h]
    rw [ef]
    refine ⟨fun q h1 h2 => ⟨if_neg h2, if_neg h1⟩, if_neg hne, ?_, fun hx => ⟨?_, if_neg hne.symm⟩⟩
    · unfold PFrame.seen
      rw [if_pos h]
      exact if_pos rfl
    · refine (if_pos rfl).trans ?_
      rw [hx, Bool.xor_false]
  · have ef : f' = f.step (.cz (idx e.op) (idx e.data)) := by show f.step _ = _; rw [if_neg h]
    rw [ef]
    refine ⟨fun q h1 h2 => ⟨rfl, (if_neg h1).trans (if_neg h2)⟩, rfl, ?_, fun hx => ⟨rfl, ?_⟩⟩
    · unfold PFrame.seen
      rw [if_neg h]
      exact if_pos rfl
    · refine (if_neg hne.symm).trans ((if_pos rfl).trans ?_)
      rw [hx, Bool.xor_false]

/-- One controlled gate with its error. -/
theorem edge_one {ge2 : Name → Nat → Nat → List (Gate F)} {idx : Pos → Nat} {e : LEdge} (hg : ∀ nm, PairGate (idx e.op) (idx e.data) (ge2 nm (idx e.op) (idx e.data)))
    (hne : idx e.op ≠ idx e.data) {tr : List (Kicked1 F)} (ht : Trace (edgeErr ge2 idx e) tr) (hb : Blames d G M tr) (f : PFrame) :
    f.flips (trSteps tr) = [] ∧ (∀ q, q ≠ idx e.op → q ≠ idx e.data → (f.after (trSteps tr)).At f q) ∧
      (¬ G (idx e.op) → f.x (idx e.op) = false → (f.after (trSteps tr)).x (idx e.op) = false ∧ (f.after (trSteps tr)).z (idx e.op) = (f.z (idx e.op) ^^ f.seen idx e) ∧
        (f.after (trSteps tr)).At f (idx e.data)) := by
  unfold edgeErr at ht
  obtain ⟨k, t, rfl, _, ht⟩ := ht.cons
  rw [plain_ctl]
  obtain ⟨c1, c2, c3, c4⟩ := ctl_step f idx e hne
  obtain ⟨d1, d2, d3⟩ := err_two (hg _) ht hb.tail (f.step (if e.factor = .X then .cx (idx e.op) (idx e.data) else .cz (idx e.op) (idx e.data)))
  refine ⟨?_, fun q h1 h2 => (d2 q h1 h2).trans (c1 q h1 h2), fun hG hx => ?_⟩
  · show PFrame.flip f _ ++ _ = _
    rw [d1]
    split <;> rfl
  · have e' : f.after ((if e.factor = .X then .cx (idx e.op) (idx e.data) else .cz (idx e.op) (idx e.data)) :: trSteps t) =
        f.step (if e.factor = .X then .cx (idx e.op) (idx e.data) else .cz (idx e.op) (idx e.data)) := d3 hG
    rw [e']
    exact ⟨c2.trans hx, c3, c4 hx⟩

end

/-- What is known while the controlled gates of a block are applied; `es` are the edges that have been applied. -/
structure Pushed (idx : Pos → Nat) (as : List Pos) (G Q : Nat → Prop) (D : PFrame) (f : PFrame) (es all : List LEdge) : Prop where
  data : ∀ q, q ∉ as.map idx → ¬ Q q → f.At D q
  clean : ∀ a ∈ as, ¬ G (idx a) → f.x (idx a) = false
  sum : ∀ a ∈ as, ¬ G (idx a) → (∀ e ∈ all, e.op = a → ¬ Q (idx e.data)) → f.z (idx a) = xorSum (es.filter fun e => e.op = a) (D.seen idx)

section
variable {d : Nat} {G M Q : Nat → Prop}

theorem edges_all {ge2 : Name → Nat → Nat → List (Gate F)} {idx : Pos → Nat} {as : List Pos} {all : List LEdge} (hB : BlockOk idx as all)
    (hg : ∀ e ∈ all, ∀ nm, PairGate (idx e.op) (idx e.data) (ge2 nm (idx e.op) (idx e.data))) (hQ : ∀ e ∈ all, G (idx e.op) → Q (idx e.data))
    (D : PFrame) (es : List LEdge) (done : List LEdge) (hsub : ∀ e ∈ es, e ∈ all) {tr : List (Kicked1 F)} (ht : Trace (es.flatMap (edgeErr ge2 idx)) tr) (hb : Blames d G M tr)
    {f : PFrame} (hf : Pushed idx as G Q D f done all) : f.flips (trSteps tr) = [] ∧ Pushed idx as G Q D (f.after (trSteps tr)) (done ++ es) all := by
  induction es generalizing f tr done with
  | nil =>
    rw [ht.nil, List.append_nil]
    exact ⟨rfl, hf⟩
  | cons e es ih =>
    rw [List.flatMap_cons] at ht
    obtain ⟨t1, t2, rfl, h1, h2⟩ := ht.append
    have hm := hsub e (by simp)
    have hop := hB.op e hm
    have hne := hB.apart _ hop e hm
    have hda : idx e.data ∉ as.map idx := fun h => by
      obtain ⟨b, hb1, hb2⟩ := List.mem_map.1 h
      exact hB.apart b hb1 e hm hb2
    obtain ⟨c1, c2, c3⟩ := edge_one (hg e hm) hne h1 hb.left f
    have hP : Pushed idx as G Q D (f.after (trSteps t1)) (done ++ [e]) all := by
      constructor
      · intro q hq hqQ
        have hqo : q ≠ idx e.op := fun h => hq (h ▸ List.mem_map_of_mem hop)
        by_cases hqd : q = idx e.data
        · subst hqd
          have hG : ¬ G (idx e.op) := fun h => hqQ (hQ e hm h)
          exact (c3 hG (hf.clean _ hop hG)).2.2.trans (hf.data _ hq hqQ)
        · exact (c2 q hqo hqd).trans (hf.data q hq hqQ)
      · intro a ha hG
        by_cases hae : a = e.op
        · subst hae
          exact (c3 hG (hf.clean _ ha hG)).1
        · have : idx a ≠ idx e.op := fun h => hae (hB.inj a ha _ hop h)
          rw [(c2 _ this (hB.apart a ha e hm)).1]
          exact hf.clean a ha hG
      · intro a ha hG hnQ
        rw [List.filter_append, xorSum_append]
        by_cases hae : a = e.op
        · subst hae
          rw [(c3 hG (hf.clean _ ha hG)).2.1, hf.sum _ ha hG hnQ]
          congr 1
          simp only [List.filter_cons, decide_true, if_true, List.filter_nil, xorSum_cons, xorSum_nil, Bool.xor_false]
          unfold PFrame.seen
          have := hf.data _ hda (hnQ e hm rfl)
          rw [this.1, this.2]
        · have : idx a ≠ idx e.op := fun h => hae (hB.inj a ha _ hop h)
          rw [(c2 _ this (hB.apart a ha e hm)).2, hf.sum a ha hG hnQ]
          have h0 : ([e].filter fun e => decide (e.op = a)) = [] := by
            have hae' : ¬ e.op = a := fun h => hae h.symm
            simp [hae']
          rw [h0]
          simp
    obtain ⟨d1, d2⟩ := ih (done ++ [e]) (fun e he => hsub e (by simp [he])) h2 hb.right hP
    rw [trSteps_append, after_append, flips_append, c1, d1]
    refine ⟨rfl, ?_⟩
    rw [List.append_assoc] at d2
    exact d2

/-- The measurement of an ancilla. -/
theorem read_one {ge1 : Name → Nat → List (Gate F)} {err : Nat → List (Gate F)} {a : Nat} (hg : ∀ nm, PauliGate a (ge1 nm a)) (he : FlipGate a (err a)) (ha : d ≤ a)
    {tr : List (Kicked1 F)} (ht : Trace (readErr ge1 err a) tr) (hb : Blames d G M tr) (f : PFrame) :
    ∃ b, f.flips (trSteps tr) = [b] ∧ (¬ G a → ¬ M a → b = f.z a) ∧ ∀ q, q ≠ a → (f.after (trSteps tr)).At f q := by
  unfold readErr at ht
  obtain ⟨t1, t2, rfl, h1, h2⟩ := ht.append
  obtain ⟨t2, t3, rfl, h2', h3⟩ := h2.append
  obtain ⟨k1, t1, rfl, _, h1⟩ := h1.cons
  obtain ⟨k3, t3, rfl, _, h3⟩ := h3.cons
  have b1 := hb.left.tail
  have b2 := hb.right.left
  have b3 := hb.right.right.tail
  rw [trSteps_append, trSteps_append, plain_g1 .H _ _ _ rfl, plain_g1 .M _ _ _ rfl]
  have e1 : plainSteps .H ([.int a] : List (Val F)) ++ trSteps t1 = .had a :: trSteps t1 := rfl
  have e3 : plainSteps .M ([.int a] : List (Val F)) ++ trSteps t3 = .meas a :: trSteps t3 := rfl
  rw [e1, e3, after_append, after_append, flips_append, flips_append]
  obtain ⟨c1, c2, c3⟩ := err_one (hg .H) ha h1 b1 (f.step (.had a))
  have eA : f.after (.had a :: trSteps t1) = (f.step (.had a)).after (trSteps t1) := rfl
  rw [eA]
  obtain ⟨d1, d2, d3⟩ := err_flip he h2' b2 ((f.step (.had a)).after (trSteps t1))
  obtain ⟨m1, m2, m3⟩ := err_one (hg .M) ha h3 b3 (((f.step (.had a)).after (trSteps t1)).after (trSteps t2))
  refine ⟨(((f.step (.had a)).after (trSteps t1)).after (trSteps t2)).x a, ?_, fun hG hM => ?_, fun q hq => ?_⟩
  · show (f.step (.had a)).flips (trSteps t1) ++ (_ ++ ([_] ++ PFrame.flips (((f.step (.had a)).after (trSteps t1)).after (trSteps t2)) (trSteps t3))) = _
    rw [c1, d1, m1]
    rfl
  · rw [d3 hM, c3 hG]
    exact if_pos rfl
  · exact (m2 q hq).trans ((d2 q hq).trans ((c2 q hq).trans (had_off f hq)))

theorem read_all {ge1 : Name → Nat → List (Gate F)} {err : Nat → List (Gate F)} (idx : Pos → Nat) (as : List Pos) (hn : (as.map idx).Nodup)
    (hg : ∀ a ∈ as, ∀ nm, PauliGate (idx a) (ge1 nm (idx a))) (he : ∀ a ∈ as, FlipGate (idx a) (err (idx a))) (ha : ∀ a ∈ as, d ≤ idx a)
    {tr : List (Kicked1 F)} (ht : Trace (as.flatMap fun a => readErr ge1 err (idx a)) tr) (hb : Blames d G M tr) (f : PFrame) :
    List.Forall₂ (fun a b => ¬ G (idx a) → ¬ M (idx a) → b = f.z (idx a)) as (f.flips (trSteps tr)) ∧ ∀ q, q ∉ as.map idx → (f.after (trSteps tr)).At f q := by
  induction as generalizing f tr with
  | nil =>
    rw [ht.nil]
    exact ⟨.nil, fun q _ => .refl f q⟩
  | cons a as ih =>
    rw [List.flatMap_cons] at ht
    obtain ⟨t1, t2, rfl, h1, h2⟩ := ht.append
    rw [List.map_cons, List.nodup_cons] at hn
    obtain ⟨b, c1, c2, c3⟩ := read_one (hg a (by simp)) (he a (by simp)) (ha a (by simp)) h1 hb.left f
    obtain ⟨d1, d2⟩ := ih hn.2 (fun b hb => hg b (by simp [hb])) (fun b hb => he b (by simp [hb])) (fun b hb => ha b (by simp [hb])) h2 hb.right (f.after (trSteps t1))
    rw [trSteps_append, after_append, flips_append, c1]
    refine ⟨.cons c2 ?_, fun q hq => ?_⟩
    · rw [List.forall₂_iff_get] at d1 ⊢
      refine ⟨d1.1, fun i h1 h2 hG hM => (d1.2 i h1 h2 hG hM).trans ?_⟩
      refine (c3 _ fun hc => hn.1 ?_).2
      rw [← hc]
      exact List.mem_map_of_mem (List.get_mem _ _)
    · rw [List.map_cons, List.mem_cons, not_or] at hq
      exact (d2 q hq.2).trans (c3 q hq.1)

/-- A block of measured operators with faulty gates: a data qubit keeps its part of the frame unless it is next to the ancilla of a faulty gate, and the
result of an operator is flipped as the frame says unless one of its gates or its measurement is faulty or it is next to such a qubit. -/
theorem block_frame {ge1 : Name → Nat → List (Gate F)} {ge2 : Name → Nat → Nat → List (Gate F)} {err : Nat → List (Gate F)} {idx : Pos → Nat} {as : List Pos} {es : List LEdge}
    (hB : BlockOk idx as es) (hg1 : ∀ a ∈ as, ∀ nm, PauliGate (idx a) (ge1 nm (idx a))) (hg2 : ∀ e ∈ es, ∀ nm, PairGate (idx e.op) (idx e.data) (ge2 nm (idx e.op) (idx e.data)))
    (he : ∀ a ∈ as, FlipGate (idx a) (err (idx a))) (ha : ∀ a ∈ as, d ≤ idx a) (hlt : ∀ e ∈ es, idx e.data < d) (hQ : ∀ e ∈ es, G (idx e.op) → Q (idx e.data))
    {tr : List (Kicked1 F)} (ht : Trace (gateBlock ge1 ge2 err idx as es) tr) (hb : Blames d G M tr) {f D : PFrame} (hf : ∀ q < d, ¬ Q q → f.At D q) :
    (∀ q < d, ¬ Q q → (f.after (trSteps tr)).At D q) ∧
      List.Forall₂ (fun a b => ¬ G (idx a) → ¬ M (idx a) → (∀ e ∈ es, e.op = a → ¬ Q (idx e.data)) → b = xorSum (es.filter fun e => e.op = a) (D.seen idx)) as (f.flips (trSteps tr)) := by
  unfold gateBlock at ht
  obtain ⟨t1, t2, rfl, h1, h2⟩ := ht.append
  obtain ⟨t2, t3, rfl, h2, h3⟩ := h2.append
  have hnd : (as.map idx).Nodup := by
    rw [List.Nodup, List.pairwise_map]
    have := hB.nodup
    rw [List.Nodup] at this
    exact this.imp_of_mem fun ha hb hab h => hab (hB.inj _ ha _ hb h)
  have hnot : ∀ q < d, q ∉ as.map idx := by
    intro q hq h
    obtain ⟨a, ha1, rfl⟩ := List.mem_map.1 h
    have := ha a ha1
    omega
  obtain ⟨c1, c2, c3⟩ := prep_all idx as hnd hg1 ha h1 hb.left f
  -- the frame after the preparation, on the data
  let D' : PFrame := { x := fun q => if q < d then D.x q else (f.after (trSteps t1)).x q, z := fun q => if q < d then D.z q else (f.after (trSteps t1)).z q }
  have hD : ∀ q < d, D'.At D q := fun q hq => ⟨if_pos hq, if_pos hq⟩
  have hseen : ∀ e ∈ es, D'.seen idx e = D.seen idx e := by
    intro e hee
    unfold PFrame.seen
    rw [(hD _ (hlt e hee)).1, (hD _ (hlt e hee)).2]
  have hP : Pushed idx as G Q D' (f.after (trSteps t1)) [] es := by
    constructor
    · intro q hq hqQ
      by_cases hqd : q < d
      · exact (c2 q hq).trans ((hf q hqd hqQ).trans (hD q hqd).symm)
      · exact ⟨(if_neg hqd).symm, (if_neg hqd).symm⟩
    · intro a ha hG
      exact (c3 a ha hG).1
    · intro a ha hG _
      exact (c3 a ha hG).2
  obtain ⟨d1, d2⟩ := edges_all hB hg2 hQ D' es [] (fun e he => he) h2 hb.right.left hP
  rw [List.nil_append] at d2
  obtain ⟨e1, e2⟩ := read_all idx as hnd hg1 he ha h3 hb.right.right ((f.after (trSteps t1)).after (trSteps t2))
  rw [trSteps_append, trSteps_append, after_append, after_append, flips_append, flips_append, c1, d1]
  refine ⟨fun q hq hqQ => (e2 q (hnot q hq)).trans ((d2.data q (hnot q hq) hqQ).trans (hD q hq)), ?_⟩
  rw [List.nil_append, List.nil_append]
  rw [List.forall₂_iff_get] at e1 ⊢
  refine ⟨e1.1, fun i i1 i2 hG hM hnQ => ?_⟩
  rw [e1.2 i i1 i2 hG hM, d2.sum _ (List.get_mem _ _) hG hnQ]
  exact xorSum_congr fun e hee => hseen e (List.mem_filter.1 hee).1

end

end Plaquette
