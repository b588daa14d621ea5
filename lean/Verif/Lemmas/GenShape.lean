import Verif.Lemmas.Rates

/-!
# The gates of a generated circuit
-/

namespace Plaquette
variable {F : Type}

/-- A property of gates that holds for the pieces a generator emits. -/
structure Gen.Pieces (api : FloatApi F) (G : Gen F) (P : Gate F → Prop) : Prop where
  one : ∀ nm, nm = .H ∨ nm = .R ∨ nm = .M → ∀ i : Nat, AllE P (emit api nm [.int i])
  two : ∀ nm, nm = .CX ∨ nm = .CZ → ∀ i j : Nat, i ≠ j → AllE P (emit api nm [.int i, .int j])
  err1 : ∀ nm, nm = .H ∨ nm = .R ∨ nm = .M → ∀ i : Nat, AllE P (G.applyGateError api nm i none)
  err2 : ∀ nm, nm = .CX ∨ nm = .CZ → ∀ i j : Nat, i ≠ j → AllE P (G.applyGateError api nm i (some j))
  meas : ∀ i : Nat, AllE P (G.applyMeasError api i)
  data : ∀ v, AllE P (G.dataErrors api v)

namespace Gen.Pieces
variable {api : FloatApi F} {G : Gen F} {P : Gate F → Prop}

theorem opt {a : Except Err (List (Gate F))} (w : Bool) (h : AllE P a) : AllE P (if w = true then a else .ok []) := by
  split
  · exact h
  · exact AllE.nil

theorem gate1 (h : G.Pieces api P) {nm : Name} (hn : nm = .H ∨ nm = .R ∨ nm = .M) (i : Nat) (w : Bool) : AllE P (G.gateAndError api nm i none w) :=
  AllE.cat (h.one nm hn i) (opt w (h.err1 nm hn i))

theorem gate2 (h : G.Pieces api P) {nm : Name} (hn : nm = .CX ∨ nm = .CZ) {i j : Nat} (hij : i ≠ j) (w : Bool) : AllE P (G.gateAndError api nm i (some j) w) :=
  AllE.cat (h.two nm hn i j hij) (opt w (h.err2 nm hn i j hij))

theorem edge (h : G.Pieces api P) (y : Err) {i : Nat} (w : Bool) {e : LEdge} (hne : i ≠ G.lat.idx e.data) : AllE P (G.edgeGate api y i w e) := by
  unfold edgeGate
  split
  · exact h.gate2 (.inl rfl) hne w
  · exact AllE.error
  · exact h.gate2 (.inr rfl) hne w

theorem prepare (h : G.Pieces api P) (w : Bool) (op : Pos) : AllE P (G.prepare api w op) := (h.gate1 (by decide) _ _).cat (h.gate1 (by decide) _ _)

theorem readOut (h : G.Pieces api P) (w : Bool) (op : Pos) : AllE P (G.readOut api w op) :=
  (h.gate1 (by decide) _ _).cat ((opt w (h.meas _)).cat (h.gate1 (by decide) _ _))

theorem op (h : G.Pieces api P) (hw : G.lat.Wf) (w : Bool) {op : Pos} (hop : op ∈ G.lat.ancillas) : AllE P (G.measureOp api w op) :=
  (h.prepare w op).cat ((AllE.forE fun e he => h.edge _ w (hw.anc_data hop (hw.data e (List.mem_filter.1 he).1))).cat (h.readOut w op))

theorem logical (h : G.Pieces api P) (hw : G.lat.Wf) (i : Int) : AllE P (G.measureLogical api i) := by
  unfold measureLogical
  split
  · exact AllE.error
  · next op hop =>
    split
    · refine AllE.forE fun e he => ?_
      unfold measureFactor
      split
      · exact (h.gate1 (by decide) _ _).cat (h.gate1 (by decide) _ _)
      · exact AllE.error
      · exact h.gate1 (by decide) _ _
    · exact h.op hw _ (List.mem_append_right _ (List.mem_map_of_mem (List.mem_of_getElem? hop)))

theorem stabgens (h : G.Pieces api P) (hw : G.lat.Wf) (hs : G.lat.Sched) (w : Bool) : AllE P (G.measureStabgens api w) := by
  unfold measureStabgens
  split
  · next T hT =>
    refine (AllE.forE fun s _ => h.prepare w s.1).cat ((AllE.forE fun i _ => AllE.forE fun e he => h.edge _ w ?_).cat (AllE.forE fun s _ => h.readOut w s.1))
    obtain ⟨he, hstep⟩ := List.mem_filter.1 he
    rcases hs.steps with h | ⟨_, _, h⟩
    · rw [hT] at h; cases h
    · refine hw.anc_data (stab_anc (isStab_iff.1 (h e he ?_))) (hw.data e he)
      rw [of_decide_eq_true hstep]; simp
  · exact AllE.forE fun s hs => h.op hw w (List.mem_append_left _ (List.mem_map_of_mem hs))

theorem circuit (h : G.Pieces api P) (hw : G.lat.Wf) (hs : G.lat.Sched) (sel : LogicalSel) : AllE P (G.getCircuit api sel) := by
  unfold getCircuit
  have hd : AllE P (G.applyDataErrors api) := AllE.forE fun v _ => h.data v
  have hl : ∀ is, AllE P (G.measureLogicals api is) := fun is => AllE.forE fun i _ => h.logical hw i
  have hst : ∀ w, AllE P (G.measureStabgens api w) := h.stabgens hw hs
  split
  · exact AllE.error
  · split
    · exact AllE.error
    · split
      · exact AllE.error
      · exact (hl _).cat ((hst _).cat (((hd.cat (hst _)).repeatE _).cat (hd.cat ((hst _).cat (hl _)))))

end Gen.Pieces

/-- The gates of generated circuits. -/
inductive GShape : Gate F → Prop
  | one {nm : Name} (hn : nm = .H ∨ nm = .R ∨ nm = .M) (i : Nat) : GShape ⟨nm, [.int i]⟩
  | two {nm : Name} (hn : nm = .CX ∨ nm = .CZ) {i j : Nat} (hij : i ≠ j) : GShape ⟨nm, [.int i, .int j]⟩
  | flip (p : F) (i : Nat) : GShape ⟨.ERROR, [.flt p, .name .X, .int i]⟩
  | erase (p : F) (i : Nat) : GShape ⟨.E_ERASE, [.flt p, .int i]⟩
  | pauli {ps : List F} (hp : ps.length = 3) (i : Nat) : GShape ⟨.E_PAULI, ps.map .flt ++ [.int i]⟩
  | pauli2 {ps : List F} (hp : ps.length = 15) {i j : Nat} (hij : i ≠ j) : GShape ⟨.E_PAULI2, ps.map .flt ++ [.int i, .int j]⟩

theorem toFloats_flt {api : FloatApi F} : ∀ {l : List (Raw F)} {vs : List (Val F)}, toFloats api l = .ok vs → ∃ ps : List F, vs = ps.map .flt ∧ ps.length = l.length
  | [], _, h => by cases h; exact ⟨[], rfl, rfl⟩
  | a :: l, vs, h => by
    unfold toFloats at h
    split at h
    · cases h
    next p hp =>
    split at h
    · cases h
    next ws hw =>
    cases h
    obtain ⟨ps, rfl, h2⟩ := toFloats_flt hw
    exact ⟨p :: ps, rfl, by simp [h2]⟩

theorem shape_channel {api : FloatApi F} {nm : Name} {fs : List (Raw F)} {is : List Int}
    (h : nm = .E_ERASE ∧ fs.length = 1 ∧ is.length = 1 ∨ nm = .E_PAULI ∧ fs.length = 3 ∧ is.length = 1 ∨ nm = .E_PAULI2 ∧ fs.length = 15 ∧ is.length = 2)
    {P : Gate F → Prop} (hP : ∀ ps : List F, ps.length = fs.length → P ⟨nm, ps.map .flt ++ is.map .int⟩) : AllE P (emit api nm (fs ++ is.map Raw.int)) := by
  intro x hx g hg
  obtain ⟨vs, hv, rfl, _⟩ := emit_inv hx
  obtain rfl := List.mem_singleton.1 hg
  rw [channel_args h] at hv
  split at hv
  · cases hv
  next ws hw =>
  cases hv
  obtain ⟨ps, rfl, h1⟩ := toFloats_flt hw
  exact hP ps h1

theorem shape_pauli {api : FloatApi F} (a b c : Raw F) (i : Nat) : AllE GShape (emit api .E_PAULI [a, b, c, .int i]) :=
  shape_channel (fs := [a, b, c]) (is := [(i : Int)]) (by simp) fun _ h => .pauli h i

theorem shape_pairs {api : FloatApi F} (ps : Params F) {i j : Nat} (hij : i ≠ j) : AllE GShape (emit api .E_PAULI2 ((pairNames.map (param api ps)).drop 1 ++ [.int i, .int j])) :=
  shape_channel (fs := (pairNames.map (param api ps)).drop 1) (is := [(i : Int), (j : Int)]) (by simp [pairNames]) fun _ h => .pauli2 (h.trans (by simp [pairNames])) hij

theorem shape_pieces (api : FloatApi F) (G : Gen F) : G.Pieces api GShape where
  one nm hn i := by
    intro x hx g hg
    obtain ⟨vs, hv, rfl, _⟩ := emit_inv hx
    obtain rfl := List.mem_singleton.1 hg
    have : vs = [.int i] := by rcases hn with rfl | rfl | rfl <;> (cases hv; rfl)
    rw [this]
    exact .one hn i
  two nm hn i j hij := by
    intro x hx g hg
    obtain ⟨vs, hv, rfl, _⟩ := emit_inv hx
    obtain rfl := List.mem_singleton.1 hg
    have : vs = [.int i, .int j] := by rcases hn with rfl | rfl <;> (cases hv; rfl)
    rw [this]
    exact .two hn hij
  err1 nm hn i := by
    unfold Gen.applyGateError
    split
    · exact AllE.nil
    · split
      · exact shape_pauli _ _ _ _
      · exact shape_pauli _ _ _ _
      · exact shape_pauli _ _ _ _
      · rcases hn with h | h | h <;> cases h
      · rcases hn with h | h | h <;> cases h
      · exact AllE.error
  err2 nm hn i j hij := by
    unfold Gen.applyGateError
    split
    · exact AllE.nil
    · split
      · rcases hn with h | h <;> cases h
      · rcases hn with h | h <;> cases h
      · rcases hn with h | h <;> cases h
      · exact shape_pairs _ hij
      · exact shape_pairs _ hij
      · exact AllE.error
  meas i := by
    unfold Gen.applyMeasError
    split
    · exact AllE.error
    · exact AllE.nil
    · exact AllE.nil
    · split
      · exact AllE.error
      · intro x hx g hg
        obtain ⟨p, rfl, _⟩ := flip_emit (prob := fun _ => 0) hx
        obtain rfl := List.mem_singleton.1 hg
        exact .flip p i
  data v := by
    unfold Gen.dataErrors
    refine AllE.cat ?_ ?_
    · split
      · exact AllE.error
      · exact AllE.nil
      · exact AllE.nil
      · exact shape_pauli _ _ _ _
    · split
      · exact AllE.error
      · exact AllE.nil
      · exact AllE.nil
      · refine shape_channel (fs := [_]) (is := [_]) (by simp) fun ps h => ?_
        match ps, h with
        | [p], _ => exact .erase p _

end Plaquette
