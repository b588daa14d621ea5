import Verif.Spec.Layout
import Verif.Lemmas.QecExperiment

/-!
# The order of the measurements in a generated circuit
-/

namespace Plaquette
variable {F β : Type} {api : FloatApi F} {f : Gate F → List β}

/-- If nothing is raised, the gates have the given image. -/
def Emits (f : Gate F → List β) (a : Except Err (List (Gate F))) (ms : List β) : Prop := ∀ x, a = .ok x → x.flatMap f = ms

/-- If nothing is raised, all gates have the property. -/
def AllE (P : Gate F → Prop) (a : Except Err (List (Gate F))) : Prop := ∀ x, a = .ok x → ∀ g ∈ x, P g

theorem catE_inv {α : Type} {a b : Except Err (List α)} {x : List α} (h : catE a b = .ok x) : ∃ y z, a = .ok y ∧ b = .ok z ∧ x = y ++ z := by
  unfold catE at h
  split at h
  · cases h
  · split at h
    · cases h
    · cases h; exact ⟨_, _, rfl, rfl, rfl⟩

theorem Emits.nil : Emits f (.ok []) [] := by rintro x ⟨⟩; rfl

theorem Emits.error {e : Err} {ms : List β} : Emits f (.error e) ms := by rintro x ⟨⟩

theorem Emits.cat {a b : Except Err (List (Gate F))} {m1 m2 : List β} (h1 : Emits f a m1) (h2 : Emits f b m2) : Emits f (catE a b) (m1 ++ m2) := by
  intro x hx
  obtain ⟨y, z, hy, hz, rfl⟩ := catE_inv hx
  rw [List.flatMap_append, h1 y hy, h2 z hz]

theorem Emits.left {a b : Except Err (List (Gate F))} {m : List β} (h1 : Emits f a []) (h2 : Emits f b m) : Emits f (catE a b) m := h1.cat h2

theorem Emits.right {a b : Except Err (List (Gate F))} {m : List β} (h1 : Emits f a m) (h2 : Emits f b []) : Emits f (catE a b) m := by
  have := h1.cat h2
  rwa [List.append_nil] at this

theorem Emits.forE {α : Type} {k : α → Except Err (List (Gate F))} {ms : α → List β} {l : List α} (h : ∀ a ∈ l, Emits f (k a) (ms a)) :
    Emits f (forE k l) (l.flatMap ms) := by
  induction l with
  | nil => exact Emits.nil
  | cons a as ih =>
    rw [List.flatMap_cons]
    exact (h a List.mem_cons_self).cat (ih fun b hb => h b (List.mem_cons_of_mem _ hb))

theorem Emits.forE_nil {α : Type} {k : α → Except Err (List (Gate F))} {l : List α} (h : ∀ a ∈ l, Emits f (k a) []) : Emits f (Plaquette.forE k l) [] := by
  induction l with
  | nil => exact Emits.nil
  | cons a as ih => exact (h a List.mem_cons_self).left (ih fun b hb => h b (List.mem_cons_of_mem _ hb))

theorem Emits.repeatE {a : Except Err (List (Gate F))} {m : List β} (h : Emits f a m) (k : Nat) : Emits f (repeatE a k) (List.replicate k m).flatten := by
  induction k with
  | zero => exact Emits.nil
  | succ k ih => rw [List.replicate_succ, List.flatten_cons]; exact h.cat ih

theorem AllE.nil {P : Gate F → Prop} : AllE P (.ok []) := by rintro x ⟨⟩; simp

theorem AllE.error {P : Gate F → Prop} {e : Err} : AllE P (.error e) := by rintro x ⟨⟩

theorem AllE.cat {P : Gate F → Prop} {a b : Except Err (List (Gate F))} (h1 : AllE P a) (h2 : AllE P b) : AllE P (catE a b) := by
  intro x hx g hg
  obtain ⟨y, z, hy, hz, rfl⟩ := catE_inv hx
  rcases List.mem_append.1 hg with hg | hg
  · exact h1 y hy g hg
  · exact h2 z hz g hg

theorem AllE.forE {P : Gate F → Prop} {α : Type} {k : α → Except Err (List (Gate F))} {l : List α} (h : ∀ a ∈ l, AllE P (k a)) : AllE P (forE k l) := by
  induction l with
  | nil => exact AllE.nil
  | cons a as ih => exact (h a List.mem_cons_self).cat (ih fun b hb => h b (List.mem_cons_of_mem _ hb))

theorem AllE.repeatE {P : Gate F → Prop} {a : Except Err (List (Gate F))} (h : AllE P a) (k : Nat) : AllE P (repeatE a k) := by
  induction k with
  | zero => exact AllE.nil
  | succ k ih => exact h.cat ih

theorem emit_inv {name : Name} {args : List (Raw F)} {x : List (Gate F)} (h : emit api name args = .ok x) :
    ∃ vs, appendArgs api name args = .ok vs ∧ x = [⟨name, vs⟩] ∧ appendGate api name.text args = .ok ⟨name, vs⟩ := by
  unfold emit at h
  split at h
  · cases h
  · next g hg =>
    cases h
    have := hg
    unfold appendGate at this
    rw [ofText_text] at this
    dsimp only at this
    split at this
    · cases this
    · next vs hvs => cases this; exact ⟨vs, hvs, rfl, hg⟩

/-- The image of a gate depends on its name. -/
theorem emits_emit {name : Name} {args : List (Raw F)} (h : ∀ vs, f ⟨name, vs⟩ = []) : Emits f (emit api name args) [] := by
  intro x hx
  obtain ⟨vs, _, rfl, _⟩ := emit_inv hx
  simp [h]

/-- The gates of a generated circuit can be run. -/
structure GateFine (api : FloatApi F) (g : Gate F) : Prop where
  made : ∃ args, appendGate api g.name.text args = .ok g
  two : g.TwoOk
  quiet : g.QuietError

theorem fine_emit {name : Name} {args : List (Raw F)} (h1 : name.isError = false) (h2 : name ≠ .CX ∧ name ≠ .CZ) : AllE (GateFine api) (emit api name args) := by
  intro x hx g hg
  obtain ⟨vs, hvs, rfl, h⟩ := emit_inv hx
  obtain rfl := List.mem_singleton.1 hg
  refine ⟨⟨args, h⟩, ?_, fun h => ?_⟩
  · cases name <;> first | exact absurd h1 (by decide) | exact absurd rfl h2.1 | exact absurd rfl h2.2 | (rintro (h | h) <;> cases h)
  · rw [h1] at h; cases h

theorem fine_two {name : Name} (hn : name = .CX ∨ name = .CZ) {a b : Nat} (hab : a ≠ b) : AllE (GateFine api) (emit api name [.int a, .int b]) := by
  intro x hx g hg
  obtain ⟨vs, hvs, rfl, h⟩ := emit_inv hx
  obtain rfl := List.mem_singleton.1 hg
  have hvs' : vs = [.int a, .int b] := by rcases hn with rfl | rfl <;> (cases hvs; rfl)
  subst hvs'
  refine ⟨⟨_, h⟩, ?_, fun h => ?_⟩
  · have hp : PairsDiffer ([.int a, .int b] : List (Val F)) := ⟨fun h => hab (by injection h with h; exact_mod_cast h), trivial⟩
    rcases hn with rfl | rfl <;> exact fun _ => hp
  · rcases hn with rfl | rfl <;> cases h

theorem fine_error {p : Raw F} {anc : Nat} : AllE (GateFine api) (emit api .ERROR [p, .str "X".toList, .int anc]) := by
  intro x hx g hg
  obtain ⟨vs, hvs, rfl, h⟩ := emit_inv hx
  obtain rfl := List.mem_singleton.1 hg
  unfold appendArgs at hvs
  dsimp only at hvs
  split at hvs
  · cases hvs
  · split at hvs
    · rw [show allowedName (List.head? [Raw.str "X".toList, (Raw.int anc : Raw F)]) = .ok .X by rfl] at hvs
      dsimp only at hvs
      rw [show toInts api [Raw.str "X".toList, (Raw.int anc : Raw F)].tail = .ok [.int anc] by rfl] at hvs
      cases hvs
      refine ⟨⟨_, h⟩, ?_, fun _ => ?_⟩
      · show Plaquette.TwoOk .X _
        rintro (h | h) <;> cases h
      · constructor <;> (intro h; simp at h)
    · cases hvs

theorem appendAll_of {c : List (Gate F)} (h : ∀ g ∈ c, ∃ args, appendGate api g.name.text args = .ok g) :
    ∃ calls, appendAll api [] calls = .ok c := by
  suffices H : ∀ c0, ∃ calls, appendAll api c0 calls = .ok (c0 ++ c) by simpa using H []
  induction c with
  | nil => exact fun c0 => ⟨[], by simp [appendAll]⟩
  | cons g c ih =>
    intro c0
    obtain ⟨args, ha⟩ := h g List.mem_cons_self
    obtain ⟨calls, hc⟩ := ih (fun g' hg' => h g' (List.mem_cons_of_mem _ hg')) (c0 ++ [g])
    exact ⟨(g.name.text, args) :: calls, by rw [appendAll, ha]; simpa using hc⟩

/-! ### The parts of the circuit -/

namespace Gen
variable {G : Gen F}

/-- The image of the measurements of one row of qubits. -/
def mImage (f : Gate F → List β) (l : List Nat) : List β := l.flatMap fun (a : Nat) => f ⟨.M, [.int a]⟩

/-- Only measurements and erasures have an image. -/
def Only (f : Gate F → List β) : Prop := ∀ name vs, name ≠ .M → name ≠ .E_ERASE → f ⟨name, vs⟩ = []

theorem emits_gateError (hf : Only f) (gate : Name) (anc : Nat) (data : Option Nat) : Emits f (G.applyGateError api gate anc data) [] := by
  unfold applyGateError
  split
  · exact Emits.nil
  · split
    · exact emits_emit fun vs => hf _ vs (by decide) (by decide)
    · exact emits_emit fun vs => hf _ vs (by decide) (by decide)
    · exact emits_emit fun vs => hf _ vs (by decide) (by decide)
    · split
      · exact emits_emit fun vs => hf _ vs (by decide) (by decide)
      · exact Emits.error
    · split
      · exact emits_emit fun vs => hf _ vs (by decide) (by decide)
      · exact Emits.error
    · exact Emits.error

theorem emits_gate (hf : Only f) (gate : Name) (h1 : gate ≠ .M) (h2 : gate ≠ .E_ERASE) (anc : Nat) (data : Option Nat) (w : Bool) :
    Emits f (G.gateAndError api gate anc data w) [] := by
  have hb : Emits f (if w = true then G.applyGateError api gate anc data else .ok []) [] := by
    split
    · exact emits_gateError hf _ _ _
    · exact Emits.nil
  exact (emits_emit fun vs => hf gate vs h1 h2).cat hb

theorem emits_M (hf : Only f) (anc : Nat) (w : Bool) : Emits f (G.gateAndError api .M anc none w) (mImage f [anc]) := by
  have hb : Emits f (if w = true then G.applyGateError api .M anc none else .ok []) [] := by
    split
    · exact emits_gateError hf _ _ _
    · exact Emits.nil
  have ha : Emits f (emit api .M [.int anc]) (mImage f [anc]) := by
    rintro x ⟨⟩; rfl
  exact ha.right hb

theorem emits_meas (hf : Only f) (anc : Nat) : Emits f (G.applyMeasError api anc) [] := by
  unfold applyMeasError
  split
  · exact Emits.error
  · exact Emits.nil
  · exact Emits.nil
  · split
    · exact Emits.error
    · exact emits_emit fun vs => hf _ vs (by decide) (by decide)

theorem emits_edge (hf : Only f) (y : Err) (anc : Nat) (w : Bool) (e : LEdge) : Emits f (G.edgeGate api y anc w e) [] := by
  unfold edgeGate
  split
  · exact emits_gate hf _ (by decide) (by decide) _ _ _
  · exact Emits.error
  · exact emits_gate hf _ (by decide) (by decide) _ _ _

theorem emits_prepare (hf : Only f) (w : Bool) (op : Pos) : Emits f (G.prepare api w op) [] :=
  (emits_gate hf _ (by decide) (by decide) _ _ _).cat (emits_gate hf _ (by decide) (by decide) _ _ _)

theorem emits_readOut (hf : Only f) (w : Bool) (op : Pos) : Emits f (G.readOut api w op) (mImage f [G.lat.idx op]) := by
  have hb : Emits f (if w = true then G.applyMeasError api (G.lat.idx op) else .ok []) [] := by
    split
    · exact emits_meas hf _
    · exact Emits.nil
  exact (emits_gate hf .H (by decide) (by decide) _ none w).left (hb.left (emits_M hf _ w))

theorem emits_op (hf : Only f) (w : Bool) (op : Pos) : Emits f (G.measureOp api w op) (mImage f [G.lat.idx op]) := by
  exact (emits_prepare hf w op).left ((Emits.forE_nil fun e _ => emits_edge hf _ _ w e).left (emits_readOut hf w op))

theorem emits_factor (hf : Only f) (e : LEdge) : Emits f (G.measureFactor api e) (mImage f [G.lat.idx e.data]) := by
  unfold measureFactor
  split
  · exact (emits_gate hf .H (by decide) (by decide) _ none false).left (emits_M hf _ false)
  · exact Emits.error
  · exact emits_M hf _ _

/-- The qubits measured for the logical operator with the given number. -/
def logicalBlock (G : Gen F) (i : Int) : List Nat :=
  if G.logicalAncilla then [G.lat.idx (G.lat.selPos i)] else (G.lat.opEdges (G.lat.selPos i)).map fun e => G.lat.idx e.data

theorem flatMap_pure {α γ : Type} (l : List α) (g : α → γ) : (l.flatMap fun a => [g a]) = l.map g := by
  induction l with
  | nil => rfl
  | cons a l ih => rw [List.flatMap_cons, ih]; rfl

theorem mImage_cons (a : Nat) (l : List Nat) : mImage f (a :: l) = mImage f [a] ++ mImage f l := by simp [mImage]

theorem mImage_flatMap {α : Type} (l : List α) (g : α → List Nat) : l.flatMap (fun a => mImage f (g a)) = mImage f (l.flatMap g) := by
  simp [mImage, List.flatMap_assoc]

theorem emits_logical (hf : Only f) (i : Int) : Emits f (G.measureLogical api i) (mImage f (G.logicalBlock i)) := by
  unfold measureLogical logicalBlock Lattice.selPos
  split
  · exact Emits.error
  · next op hop =>
    rw [hop]
    simp only [Option.map_some, Option.getD_some]
    cases G.logicalAncilla
    · simp only [Bool.not_false, if_true, Bool.false_eq_true, if_false]
      rw [show List.map (fun e => G.lat.idx e.data) (G.lat.opEdges op.1) = (G.lat.opEdges op.1).flatMap fun e => [G.lat.idx e.data] from (flatMap_pure _ _).symm, ← mImage_flatMap]
      exact Emits.forE fun e _ => emits_factor hf e
    · exact emits_op hf _ _

theorem emits_logicals (hf : Only f) (is : List Int) : Emits f (G.measureLogicals api is) (mImage f (is.flatMap G.logicalBlock)) := by
  rw [← mImage_flatMap]
  exact Emits.forE fun i _ => emits_logical hf i

theorem emits_stabgens (hf : Only f) (w : Bool) : Emits f (G.measureStabgens api w) (mImage f (G.lat.stabgens.map fun s => G.lat.idx s.1)) := by
  have hrow : (G.lat.stabgens.map fun s => G.lat.idx s.1) = G.lat.stabgens.flatMap fun s => [G.lat.idx s.1] := (flatMap_pure _ _).symm
  rw [hrow, ← mImage_flatMap]
  unfold measureStabgens
  split
  · exact (Emits.forE_nil fun s _ => emits_prepare hf w s.1).left ((Emits.forE_nil fun i _ => Emits.forE_nil fun e _ => emits_edge hf _ _ w e).left
      (Emits.forE fun s _ => emits_readOut hf w s.1))
  · exact Emits.forE fun s _ => emits_op hf w s.1

/-- The image of the erasure of one qubit, if there is one. -/
def erasable (G : Gen F) (q : Nat) : Bool :=
  match G.qubitErr "erasure".toList q with
  | .ok (some (_ :: _)) => true
  | _ => false

theorem emits_dataErrors (hf : Only f) (hE : ∀ v v' q, f ⟨.E_ERASE, [v, .int q]⟩ = f ⟨.E_ERASE, [v', .int q]⟩) (z : Val F) (v : Pos) :
    Emits f (G.dataErrors api v) (if G.erasable (G.lat.idx v) then f ⟨.E_ERASE, [z, .int (G.lat.idx v)]⟩ else []) := by
  unfold dataErrors
  refine Emits.left ?_ ?_
  · split
    · exact Emits.error
    · exact Emits.nil
    · exact Emits.nil
    · exact emits_emit fun vs => hf _ vs (by decide) (by decide)
  · unfold erasable
    split
    · exact Emits.error
    · next h => rw [h]; exact Emits.nil
    · next h => rw [h]; exact Emits.nil
    · next ps hne hps =>
      rw [hps]
      cases ps with
      | nil => exact absurd rfl hne
      | cons a ps =>
        intro x hx
        obtain ⟨vs, hvs, rfl, _⟩ := emit_inv hx
        simp only [List.flatMap_cons, List.flatMap_nil, List.append_nil, if_true]
        have hvs : (match toFloats api [param api (a :: ps) "p".toList] with
          | .error e => .error e
          | .ok fs => .ok (fs ++ [.int (G.lat.idx v)])) = Except.ok vs := hvs
        simp only [toFloats] at hvs
        cases hp : toFloat api (param api (a :: ps) "p".toList) with
        | error e => rw [hp] at hvs; cases hvs
        | ok y =>
          rw [hp] at hvs
          cases hvs
          exact hE _ _ _

/-- The image of the erasures in one round. -/
def eImage (G : Gen F) (f : Gate F → List β) (z : Val F) : List β :=
  G.lat.dataqubits.flatMap fun v => if G.erasable (G.lat.idx v) then f ⟨.E_ERASE, [z, .int (G.lat.idx v)]⟩ else []

theorem emits_data (hf : Only f) (hE : ∀ v v' q, f ⟨.E_ERASE, [v, .int q]⟩ = f ⟨.E_ERASE, [v', .int q]⟩) (z : Val F) :
    Emits f (G.applyDataErrors api) (G.eImage f z) := Emits.forE fun v _ => emits_dataErrors hf hE z v

/-- The measurements and erasures of a generated circuit. -/
theorem emits_circuit (hf : Only f) (hE : ∀ v v' q, f ⟨.E_ERASE, [v, .int q]⟩ = f ⟨.E_ERASE, [v', .int q]⟩) (z : Val F) {sel : LogicalSel}
    {circ : List (Gate F)} (h : G.getCircuit api sel = .ok circ) :
    ∃ is, logicalOpsToIndices G.code.code.logicalOps.length sel = .ok is ∧
      circ.flatMap f = mImage f (is.flatMap G.logicalBlock) ++ (mImage f (G.lat.stabgens.map fun s => G.lat.idx s.1) ++
        ((List.replicate (G.code.nRounds - 1) (G.eImage f z ++ mImage f (G.lat.stabgens.map fun s => G.lat.idx s.1))).flatten ++
          (G.eImage f z ++ (mImage f (G.lat.stabgens.map fun s => G.lat.idx s.1) ++ mImage f (is.flatMap G.logicalBlock))))) := by
  unfold getCircuit at h
  split at h
  · cases h
  · next is his =>
    split at h
    · cases h
    · split at h
      · cases h
      · exact ⟨is, his, ((emits_logicals hf is).cat ((emits_stabgens hf false).cat ((((emits_data hf hE z).cat (emits_stabgens hf true)).repeatE _).cat
          ((emits_data hf hE z).cat ((emits_stabgens hf false).cat (emits_logicals hf is)))))) _ h⟩

/-! ### All gates can be run -/

theorem fine_gateError (gate : Name) (anc : Nat) (data : Option Nat) : AllE (GateFine api) (G.applyGateError api gate anc data) := by
  unfold applyGateError
  split
  · exact AllE.nil
  · split
    · exact fine_emit rfl (by decide)
    · exact fine_emit rfl (by decide)
    · exact fine_emit rfl (by decide)
    · split
      · exact fine_emit rfl (by decide)
      · exact AllE.error
    · split
      · exact fine_emit rfl (by decide)
      · exact AllE.error
    · exact AllE.error

theorem fine_if {a : Except Err (List (Gate F))} (w : Bool) (h : AllE (GateFine api) a) : AllE (GateFine api) (if w = true then a else .ok []) := by
  split
  · exact h
  · exact AllE.nil

theorem fine_one (gate : Name) (hg : gate = .H ∨ gate = .R ∨ gate = .M) (anc : Nat) (w : Bool) : AllE (GateFine api) (G.gateAndError api gate anc none w) := by
  refine AllE.cat (fine_emit ?_ ?_) (fine_if w (fine_gateError _ _ _)) <;> rcases hg with rfl | rfl | rfl <;> decide

theorem fine_pair (gate : Name) (hg : gate = .CX ∨ gate = .CZ) {anc q : Nat} (hne : anc ≠ q) (w : Bool) :
    AllE (GateFine api) (G.gateAndError api gate anc (some q) w) := AllE.cat (fine_two hg hne) (fine_if w (fine_gateError _ _ _))

theorem fine_edge (y : Err) {anc : Nat} (w : Bool) {e : LEdge} (hne : anc ≠ G.lat.idx e.data) : AllE (GateFine api) (G.edgeGate api y anc w e) := by
  unfold edgeGate
  split
  · exact fine_pair _ (.inl rfl) hne w
  · exact AllE.error
  · exact fine_pair _ (.inr rfl) hne w

theorem fine_prepare (w : Bool) (op : Pos) : AllE (GateFine api) (G.prepare api w op) := (fine_one _ (by decide) _ _).cat (fine_one _ (by decide) _ _)

theorem fine_meas (anc : Nat) : AllE (GateFine api) (G.applyMeasError api anc) := by
  unfold applyMeasError
  split
  · exact AllE.error
  · exact AllE.nil
  · exact AllE.nil
  · split
    · exact AllE.error
    · exact fine_error

theorem fine_readOut (w : Bool) (op : Pos) : AllE (GateFine api) (G.readOut api w op) :=
  (fine_one _ (by decide) _ _).cat ((fine_if w (fine_meas _)).cat (fine_one _ (by decide) _ _))

theorem fine_op (hw : G.lat.Wf) (w : Bool) {op : Pos} (hop : op ∈ G.lat.ancillas) : AllE (GateFine api) (G.measureOp api w op) :=
  (fine_prepare w op).cat ((AllE.forE fun e he => fine_edge _ w (hw.anc_data hop (hw.data e (List.mem_filter.1 he).1))).cat (fine_readOut w op))

theorem fine_logical (hw : G.lat.Wf) (i : Int) : AllE (GateFine api) (G.measureLogical api i) := by
  unfold measureLogical
  split
  · exact AllE.error
  · next op hop =>
    split
    · refine AllE.forE fun e he => ?_
      unfold measureFactor
      split
      · exact (fine_one _ (by decide) _ _).cat (fine_one _ (by decide) _ _)
      · exact AllE.error
      · exact fine_one _ (by decide) _ _
    · exact fine_op hw _ (List.mem_append_right _ (List.mem_map_of_mem (List.mem_of_getElem? hop)))

theorem fine_stabgens (hw : G.lat.Wf) (hs : G.lat.Sched) (w : Bool) : AllE (GateFine api) (G.measureStabgens api w) := by
  unfold measureStabgens
  split
  · next T hT =>
    refine (AllE.forE fun s _ => fine_prepare w s.1).cat ((AllE.forE fun i _ => AllE.forE fun e he => fine_edge _ w ?_).cat (AllE.forE fun s _ => fine_readOut w s.1))
    obtain ⟨he, hstep⟩ := List.mem_filter.1 he
    rcases hs.steps with h | ⟨_, _, h⟩
    · rw [hT] at h; cases h
    · refine hw.anc_data (stab_anc (isStab_iff.1 (h e he ?_))) (hw.data e he)
      rw [of_decide_eq_true hstep]; simp
  · exact AllE.forE fun s hs => fine_op hw w (List.mem_append_left _ (List.mem_map_of_mem hs))

theorem fine_dataErrors (v : Pos) : AllE (GateFine api) (G.dataErrors api v) := by
  unfold dataErrors
  refine AllE.cat ?_ ?_
  · split
    · exact AllE.error
    · exact AllE.nil
    · exact AllE.nil
    · exact fine_emit rfl (by decide)
  · split
    · exact AllE.error
    · exact AllE.nil
    · exact AllE.nil
    · exact fine_emit rfl (by decide)

theorem fine_circuit (hw : G.lat.Wf) (hs : G.lat.Sched) (sel : LogicalSel) : AllE (GateFine api) (G.getCircuit api sel) := by
  unfold getCircuit
  have hd : AllE (GateFine api) (G.applyDataErrors api) := AllE.forE fun v _ => fine_dataErrors v
  have hl : ∀ is, AllE (GateFine api) (G.measureLogicals api is) := fun is => AllE.forE fun i _ => fine_logical hw i
  have hst : ∀ w, AllE (GateFine api) (G.measureStabgens api w) := fine_stabgens hw hs
  split
  · exact AllE.error
  · split
    · exact AllE.error
    · split
      · exact AllE.error
      · exact (hl _).cat ((hst _).cat (((hd.cat (hst _)).repeatE _).cat (hd.cat ((hst _).cat (hl _)))))

end Gen
end Plaquette
