import Verif.Model.Generator
import Verif.Lemmas.QecRun

/-!
# The gates of a generated circuit without errors
-/

namespace Plaquette
variable {F : Type} {api : FloatApi F}

/-- A pair of a name and arguments as an instruction. -/
def toGate (g : Name × List (Val F)) : Gate F := { name := g.1, args := g.2 }

theorem catE_ok {α : Type} (a b : List α) : catE (.ok a) (.ok b) = .ok (a ++ b) := rfl

theorem forE_ok {α β : Type} (f : α → Except Err (List β)) (g : α → List β) (l : List α) (h : ∀ a ∈ l, f a = .ok (g a)) :
    forE f l = .ok (l.flatMap g) := by
  induction l with
  | nil => rfl
  | cons a l ih => rw [forE, h a (by simp), ih (fun b hb => h b (by simp [hb])), catE_ok, List.flatMap_cons]

theorem repeatE_ok {β : Type} (a : List β) (k : Nat) : repeatE (.ok a) k = .ok (List.replicate k a).flatten := by
  induction k with
  | zero => rfl
  | succ k ih => rw [repeatE, ih, catE_ok, List.replicate_succ, List.flatten_cons]

/-- There are no errors in the dictionaries of the generator. -/
structure Gen.Quiet (G : Gen F) : Prop where
  qubit : ∀ name ∈ qubitErrorNames, ∀ i, G.qubitErr name i = .ok none
  gate : ∀ g a d, G.gateError g a d = none

namespace Gen.Quiet
variable {G : Gen F} (h : G.Quiet)
include h

theorem one (gate : Name) (hg : gate = .H ∨ gate = .R ∨ gate = .M) (a : Nat) (w : Bool) :
    G.gateAndError api gate a none w = .ok [toGate (g1 gate a)] := by
  have e : emit api gate [.int a] = .ok [toGate (g1 gate a)] := by
    rcases hg with rfl | rfl | rfl <;> rfl
  unfold Gen.gateAndError
  dsimp only
  rw [e]
  unfold Gen.applyGateError
  rw [h.gate]
  cases w <;> rfl

theorem two (gate : Name) (hg : gate = .CX ∨ gate = .CZ) (a b : Nat) (w : Bool) :
    G.gateAndError api gate a (some b) w = .ok [toGate (g2 gate a b)] := by
  have e : emit api gate [.int a, .int b] = .ok [toGate (g2 gate a b)] := by
    rcases hg with rfl | rfl <;> rfl
  unfold Gen.gateAndError
  dsimp only
  rw [e]
  unfold Gen.applyGateError
  rw [h.gate]
  cases w <;> rfl

theorem edge (y : Err) (w : Bool) (e : LEdge) (hY : e.factor ≠ .Y) :
    G.edgeGate api y (G.lat.idx e.op) w e = .ok [toGate (ctl G.lat.idx e)] := by
  unfold Gen.edgeGate ctl
  cases hf : e.factor with
  | X => exact h.two .CX (.inl rfl) _ _ w
  | Y => exact absurd hf hY
  | Z => exact h.two .CZ (.inr rfl) _ _ w

theorem prep (w : Bool) (a : Pos) :
    G.prepare api w a = .ok ([g1 .R (G.lat.idx a), g1 .H (G.lat.idx a)].map toGate) := by
  unfold Gen.prepare
  rw [h.one .R (by simp), h.one .H (by simp)]
  rfl

theorem read (w : Bool) (a : Pos) :
    G.readOut api w a = .ok ([g1 .H (G.lat.idx a), g1 .M (G.lat.idx a)].map toGate) := by
  unfold Gen.readOut
  rw [h.one .H (by simp), h.one .M (by simp)]
  have e : (if w = true then G.applyMeasError api (G.lat.idx a) else .ok []) = .ok [] := by
    unfold Gen.applyMeasError
    rw [h.qubit _ (by simp [qubitErrorNames])]
    cases w <;> rfl
  rw [e]
  rfl

theorem op (w : Bool) (a : Pos) (hY : ∀ e ∈ G.lat.edges, e.factor ≠ .Y) :
    G.measureOp api w a = .ok ((blockGates G.lat.idx [a] (G.lat.opEdges a)).map toGate) := by
  unfold Gen.measureOp
  rw [h.prep, h.read, forE_ok _ (fun e => [toGate (ctl G.lat.idx e)])]
  · rw [catE_ok, catE_ok]
    unfold blockGates
    simp [List.flatMap_singleton', ← List.map_eq_flatMap]
  · intro e he
    obtain ⟨h1, h2⟩ := List.mem_filter.mp he
    have h2 : e.op = a := of_decide_eq_true h2
    rw [← h2]
    exact h.edge _ w e (hY e h1)

theorem seq (w : Bool) (hY : ∀ e ∈ G.lat.edges, e.factor ≠ .Y) :
    G.measureSeq api w =
      .ok ((G.lat.stabgens.flatMap fun s => blockGates G.lat.idx [s.1] (G.lat.opEdges s.1)).map toGate) := by
  unfold Gen.measureSeq
  rw [forE_ok _ (fun s => (blockGates G.lat.idx [s.1] (G.lat.opEdges s.1)).map toGate) _ (fun s _ => h.op w s.1 hY),
    List.map_flatMap]

end Gen.Quiet

/-- The edges of the scheduled measurement, in the order of the time steps. -/
def Lattice.stepEdges (L : Lattice) (T : Nat) : List LEdge :=
  (List.range T).flatMap fun (i : Nat) => L.edges.filter fun e => e.step = some i

theorem Lattice.mem_stepEdges {L : Lattice} {T : Nat} {e : LEdge} :
    e ∈ L.stepEdges T ↔ e ∈ L.edges ∧ ∃ k, e.step = some k ∧ k < T := by
  unfold Lattice.stepEdges
  simp only [List.mem_flatMap, List.mem_range, List.mem_filter, decide_eq_true_eq]
  constructor
  · rintro ⟨k, hk, he, hs⟩; exact ⟨he, k, hs, hk⟩
  · rintro ⟨he, k, hs, hk⟩; exact ⟨k, hk, he, hs⟩

theorem Gen.Quiet.par {G : Gen F} (h : G.Quiet) (T : Nat) (w : Bool) (hY : ∀ e ∈ G.lat.edges, e.factor ≠ .Y) :
    G.measurePar api T w =
      .ok ((blockGates G.lat.idx (G.lat.stabgens.map Prod.fst) (G.lat.stepEdges T)).map toGate) := by
  unfold Gen.measurePar
  rw [forE_ok _ (fun (s : Pos × StabGroup) => [g1 .R (G.lat.idx s.1), g1 .H (G.lat.idx s.1)].map toGate) _ (fun s _ => h.prep w s.1),
    forE_ok _ (fun (s : Pos × StabGroup) => [g1 .H (G.lat.idx s.1), g1 .M (G.lat.idx s.1)].map toGate) _ (fun s _ => h.read w s.1),
    forE_ok _ (fun (i : Nat) => (G.lat.edges.filter fun e => e.step = some i).flatMap fun e => [toGate (ctl G.lat.idx e)])]
  · rw [catE_ok, catE_ok]
    unfold blockGates Lattice.stepEdges
    simp only [List.map_append, List.map_flatMap, List.flatMap_map, ← List.map_eq_flatMap, List.map_map]
    rfl
  · intro i _
    refine forE_ok _ _ _ fun e he => ?_
    exact h.edge _ w e (hY e (List.mem_filter.mp he).1)

/-- The blocks in which the stabilisers are measured. -/
def Lattice.stabBlocks (L : Lattice) : List (List Pos × List LEdge) :=
  match L.timeSteps with
  | some T => [(L.stabgens.map Prod.fst, L.stepEdges T)]
  | none => L.stabgens.map fun s => ([s.1], L.opEdges s.1)

theorem Gen.Quiet.stabgens {G : Gen F} (h : G.Quiet) (w : Bool) (hY : ∀ e ∈ G.lat.edges, e.factor ≠ .Y) :
    G.measureStabgens api w = .ok ((G.lat.stabBlocks.flatMap fun b => blockGates G.lat.idx b.1 b.2).map toGate) := by
  unfold Gen.measureStabgens Lattice.stabBlocks
  cases G.lat.timeSteps with
  | some T => simp only [h.par T w hY, List.flatMap_cons, List.flatMap_nil, List.append_nil]
  | none => simp only [h.seq w hY, List.flatMap_map]

theorem Gen.Quiet.data {G : Gen F} (h : G.Quiet) : G.applyDataErrors api = .ok [] := by
  unfold Gen.applyDataErrors
  rw [forE_ok _ (fun _ => [])]
  · simp
  · intro v _
    unfold Gen.dataErrors
    rw [h.qubit _ (by simp [qubitErrorNames]), h.qubit _ (by simp [qubitErrorNames])]
    rfl

/-- The generator made from empty dictionaries is quiet. -/
theorem quiet_of_empty {code : LatCode} {qe ge : List (List Char × ErrDict F)} {anc : Bool} {G : Gen F}
    (hq : ∀ e ∈ qe, e.2 = []) (hg : ∀ e ∈ ge, e.2 = []) (h : Gen.make code qe ge anc = .ok G) :
    G.Quiet ∧ G.code = code ∧ G.logicalAncilla = anc := by
  unfold Gen.make at h
  split at h
  · simp at h
  split at h
  · simp at h
  dsimp only at h
  split at h
  · simp at h
  simp only [Except.ok.injEq] at h
  subst h
  have hd : ∀ (names : List (List Char)) (d : List (List Char × ErrDict F)), (∀ e ∈ d, e.2 = []) →
      (∀ e ∈ setDefaults names d, e.2 = []) ∧ ∀ nm ∈ names, (dictGet (setDefaults names d) nm).isSome := by
    intro names d hd
    refine ⟨?_, ?_⟩
    · intro e he
      unfold setDefaults at he
      rcases List.mem_append.mp he with he | he
      · exact hd e he
      · obtain ⟨m, _, rfl⟩ := List.mem_map.mp he; rfl
    · intro nm hnm
      unfold dictGet setDefaults
      rw [Option.isSome_map, List.find?_isSome]
      by_cases hn : (dictGet d nm).isNone
      · exact ⟨(nm, []), List.mem_append_right _ (List.mem_map.mpr ⟨nm, by simp only [List.mem_filter]; exact ⟨hnm, hn⟩, rfl⟩), by simp⟩
      · unfold dictGet at hn
        rw [Option.isNone_map, Bool.not_eq_true, Option.isNone_eq_false_iff, List.find?_isSome] at hn
        obtain ⟨e, he, hk⟩ := hn
        exact ⟨e, by simp [he], hk⟩
  have hget : ∀ (d : List (List Char × ErrDict F)) (nm : List Char) (x : ErrDict F), (∀ e ∈ d, e.2 = []) → dictGet d nm = some x → x = [] := by
    intro d nm x hd hx
    unfold dictGet at hx
    rw [Option.map_eq_some_iff] at hx
    obtain ⟨e, he, rfl⟩ := hx
    exact hd e (List.mem_of_find?_eq_some he)
  refine ⟨⟨?_, ?_⟩, rfl, rfl⟩
  · intro name hname i
    obtain ⟨h1, h2⟩ := hd qubitErrorNames qe hq
    have h3 := h2 name hname
    unfold Gen.qubitErr
    dsimp only
    cases hx : dictGet (setDefaults qubitErrorNames qe) name with
    | none => rw [hx] at h3; simp at h3
    | some x => rw [hget _ _ _ h1 hx]; rfl
  · intro g a d
    obtain ⟨h1, _⟩ := hd gateErrorNames ge hg
    unfold Gen.gateError
    dsimp only
    cases hx : dictGet (setDefaults gateErrorNames ge) g.text with
    | none => rfl
    | some x =>
      rw [hget _ _ _ h1 hx]
      cases d <;> rfl

end Plaquette
