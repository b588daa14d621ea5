import Verif.Lemmas.NoisyGen
import Verif.Lemmas.Weights
import Verif.Spec.Random

/-!
# What holds for the pieces of a generated circuit holds for the circuit
-/

open scoped ENNReal

namespace Plaquette
variable {F : Type}

/-- A property of pieces of circuits that holds for the pieces a generator emits, and for sequences of such pieces. -/
structure Gen.Walk (api : FloatApi F) (G : Gen F) (Q : Except Err (List (Gate F)) → Prop) : Prop where
  nil : Q (.ok [])
  cat : ∀ a b, Q a → Q b → Q (catE a b)
  one : ∀ nm, nm = .H ∨ nm = .R ∨ nm = .M → ∀ i : Nat, Q (emit api nm [.int i])
  two : ∀ nm, nm = .CX ∨ nm = .CZ → ∀ i j : Nat, Q (emit api nm [.int i, .int j])
  err1 : ∀ nm, nm = .H ∨ nm = .R ∨ nm = .M → ∀ i : Nat, Q (G.applyGateError api nm i none)
  err2 : ∀ nm, nm = .CX ∨ nm = .CZ → ∀ i j : Nat, Q (G.applyGateError api nm i (some j))
  meas : ∀ i : Nat, Q (G.applyMeasError api i)
  data : ∀ v ∈ G.lat.dataqubits, Q (G.dataErrors api v)
  y : (∀ x, Q (.error x)) ∨ ∀ e ∈ G.lat.edges, e.factor ≠ .Y

namespace Gen.Walk
variable {api : FloatApi F} {G : Gen F} {Q : Except Err (List (Gate F)) → Prop}

theorem forE (h : G.Walk api Q) {α : Type} {k : α → Except Err (List (Gate F))} {l : List α} (hl : ∀ a ∈ l, Q (k a)) : Q (Plaquette.forE k l) := by
  induction l with
  | nil => exact h.nil
  | cons a as ih => exact h.cat _ _ (hl a List.mem_cons_self) (ih fun b hb => hl b (List.mem_cons_of_mem _ hb))

theorem repeatE (h : G.Walk api Q) {a : Except Err (List (Gate F))} (ha : Q a) (k : Nat) : Q (Plaquette.repeatE a k) := by
  induction k with
  | zero => exact h.nil
  | succ k ih => exact h.cat _ _ ha ih

theorem gate1 (h : G.Walk api Q) {nm : Name} (hn : nm = .H ∨ nm = .R ∨ nm = .M) (i : Nat) (w : Bool) : Q (G.gateAndError api nm i none w) := by
  unfold gateAndError
  refine h.cat _ _ (h.one nm hn i) ?_
  split
  · exact h.err1 nm hn i
  · exact h.nil

theorem gate2 (h : G.Walk api Q) {nm : Name} (hn : nm = .CX ∨ nm = .CZ) (i j : Nat) (w : Bool) : Q (G.gateAndError api nm i (some j) w) := by
  unfold gateAndError
  refine h.cat _ _ (h.two nm hn i j) ?_
  split
  · exact h.err2 nm hn i j
  · exact h.nil

theorem edge (h : G.Walk api Q) (y : Err) (i : Nat) (w : Bool) {e : LEdge} (he : e ∈ G.lat.edges) : Q (G.edgeGate api y i w e) := by
  unfold edgeGate
  split
  · exact h.gate2 (.inl rfl) _ _ w
  · next hf => exact h.y.elim (fun hx => hx _) fun hy => absurd hf (hy e he)
  · exact h.gate2 (.inr rfl) _ _ w

theorem prepare (h : G.Walk api Q) (w : Bool) (op : Pos) : Q (G.prepare api w op) := h.cat _ _ (h.gate1 (by decide) _ _) (h.gate1 (by decide) _ _)

theorem readOut (h : G.Walk api Q) (w : Bool) (op : Pos) : Q (G.readOut api w op) := by
  refine h.cat _ _ (h.gate1 (by decide) _ _) (h.cat _ _ ?_ (h.gate1 (by decide) _ _))
  split
  · exact h.meas _
  · exact h.nil

theorem op (h : G.Walk api Q) (w : Bool) (op : Pos) : Q (G.measureOp api w op) :=
  h.cat _ _ (h.prepare w op) (h.cat _ _ (h.forE fun _ he => h.edge _ _ w (List.mem_filter.1 he).1) (h.readOut w op))

theorem stabgens (h : G.Walk api Q) (w : Bool) : Q (G.measureStabgens api w) := by
  unfold measureStabgens
  split
  · exact h.cat _ _ (h.forE fun s _ => h.prepare w s.1)
      (h.cat _ _ (h.forE fun _ _ => h.forE fun _ he => h.edge _ _ w (List.mem_filter.1 he).1) (h.forE fun s _ => h.readOut w s.1))
  · exact h.forE fun s _ => h.op w s.1

theorem logicals (h : G.Walk api Q) (is : List Int) (hi : (∀ x, Q (.error x)) ∨ ∀ i ∈ is, 0 ≤ i ∧ i < G.lat.logicals.length) : Q (G.measureLogicals api is) := by
  refine h.forE fun i his => ?_
  unfold measureLogical
  split
  · next hx =>
    refine hi.elim (fun hx => hx _) fun hi => ?_
    have := hi i his
    rw [List.getElem?_eq_none_iff] at hx
    omega
  · split
    · refine h.forE fun e he => ?_
      unfold measureFactor
      split
      · exact h.cat _ _ (h.gate1 (by decide) _ _) (h.gate1 (by decide) _ _)
      · next hf => exact h.y.elim (fun hx => hx _) fun hy => absurd hf (hy e (List.mem_filter.1 he).1)
      · exact h.gate1 (by decide) _ _
    · exact h.op _ _

theorem parts (h : G.Walk api Q) (is : List Int) (hi : (∀ x, Q (.error x)) ∨ ∀ i ∈ is, 0 ≤ i ∧ i < G.lat.logicals.length) (r : Nat) :
    Q (catE (G.measureLogicals api is)
        (catE (G.measureStabgens api false)
          (catE (Plaquette.repeatE (catE (G.applyDataErrors api) (G.measureStabgens api true)) r)
            (catE (G.applyDataErrors api)
              (catE (G.measureStabgens api false) (G.measureLogicals api is)))))) := by
  have hd : Q (G.applyDataErrors api) := h.forE h.data
  have hl := h.logicals is hi
  have hs := h.stabgens
  exact h.cat _ _ hl (h.cat _ _ (hs _) (h.cat _ _ (h.repeatE (h.cat _ _ hd (hs _)) r) (h.cat _ _ hd (h.cat _ _ (hs _) hl))))

end Gen.Walk

/-! ### Numbers in the error data -/

/-- The probability that a value of the error data stands for. -/
def rawProb (api : FloatApi F) (prob : F → ℝ≥0∞) (v : Raw F) : ℝ≥0∞ :=
  match toFloat api v with
  | .ok p => prob p
  | .error _ => 1

theorem toFloats_prob {api : FloatApi F} {prob : F → ℝ≥0∞} : ∀ {l : List (Raw F)} {vs : List (Val F)}, toFloats api l = .ok vs →
    vs.length = l.length ∧ vs.map (argProb api prob) = l.map (rawProb api prob)
  | [], _, h => by cases h; exact ⟨rfl, rfl⟩
  | a :: l, vs, h => by
    unfold toFloats at h
    split at h
    · cases h
    next p hp =>
    split at h
    · cases h
    next ws hw =>
    cases h
    obtain ⟨h1, h2⟩ := toFloats_prob (prob := prob) hw
    refine ⟨by simp [h1], ?_⟩
    rw [List.map_cons, List.map_cons, h2]
    refine congrArg (· :: _) ?_
    unfold argProb rawProb numOf
    rw [hp]

theorem toFloats_total {api : FloatApi F} : ∀ {l : List (Raw F)}, (∀ v ∈ l, ∃ p, toFloat api v = .ok p) → ∃ vs, toFloats api l = .ok vs
  | [], _ => ⟨_, rfl⟩
  | a :: l, h => by
    obtain ⟨p, hp⟩ := h a List.mem_cons_self
    obtain ⟨vs, hv⟩ := toFloats_total fun v hv => h v (List.mem_cons_of_mem _ hv)
    exact ⟨.flt p :: vs, by unfold toFloats; rw [hp, hv]⟩

theorem emit_of {api : FloatApi F} {name : Name} {args : List (Raw F)} {vs : List (Val F)} (h : appendArgs api name args = .ok vs) : emit api name args = .ok [⟨name, vs⟩] := by
  unfold emit appendGate
  rw [ofText_text]
  dsimp only
  rw [h]

/-! ### The dictionaries -/

theorem setDefaults_get {names : List (List Char)} {d : List (List Char × ErrDict F)} {name : List Char} {e : ErrDict F} (h : dictGet (setDefaults names d) name = some e) :
    dictGet d name = some e ∨ e = [] := by
  unfold setDefaults at h
  rw [dictGet_append] at h
  cases hd : dictGet d name with
  | some x => rw [hd] at h; exact .inl h
  | none =>
    rw [hd, Option.none_or] at h
    obtain ⟨n, _, hn⟩ := List.mem_map.1 (dictGet_some_mem h)
    exact .inr (congrArg Prod.snd hn).symm

theorem setDefaults_isSome {names : List (List Char)} (d : List (List Char × ErrDict F)) {name : List Char} (hn : name ∈ names) : ∃ e, dictGet (setDefaults names d) name = some e := by
  unfold setDefaults
  rw [dictGet_append]
  cases hd : dictGet d name with
  | some x => exact ⟨x, rfl⟩
  | none =>
    have : (name, ([] : ErrDict F)) ∈ (names.filter fun n => (dictGet d n).isNone).map fun n => (n, ([] : ErrDict F)) :=
      List.mem_map.2 ⟨name, List.mem_filter.2 ⟨hn, by rw [hd]; rfl⟩, rfl⟩
    rw [Option.none_or]
    cases hx : dictGet ((names.filter fun n => (dictGet d n).isNone).map fun n => (n, ([] : ErrDict F))) name with
    | some e => exact ⟨e, rfl⟩
    | none => exact absurd rfl (dictGet_none.1 hx _ this)

theorem make_gates {code : LatCode} {qe ge : List (List Char × ErrDict F)} {anc : Bool} {G : Gen F} (h : Gen.make code qe ge anc = .ok G) :
    G.gateErrors = setDefaults gateErrorNames ge := by
  unfold Gen.make at h
  split at h
  · cases h
  split at h
  · cases h
  dsimp only at h
  split at h
  · cases h
  cases h
  rfl

end Plaquette
