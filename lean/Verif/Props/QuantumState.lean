import Verif.Spec.QuantumState
import Verif.Props.Measure
import Verif.Props.Pauli
import Verif.Lemmas.Sim
import Verif.Props.Sim

/-!
# The gates of a `QuantumState` (C132)
-/

open Matrix

namespace Plaquette
variable {n : Nat}

/-! ### Lemmas -/

theorem pyQubit_names {q : Int} {i : Fin n} (h : Names q i) : pyQubit n q = some i := by
  have hi := i.2
  unfold pyQubit
  rcases h with rfl | rfl
  · rw [dif_pos ⟨by omega, by omega⟩]
    exact congrArg some (Fin.ext (by simp))
  · rw [dif_neg (by omega), dif_pos ⟨by omega, by omega⟩]
    exact congrArg some (Fin.ext (by simp))

theorem pyQubit_inv {q : Int} {i : Fin n} (h : pyQubit n q = some i) : Names q i := by
  unfold pyQubit at h
  split at h
  · cases h; left; simp only []; omega
  · split at h
    · cases h; right; simp only []; omega
    · cases h

theorem names_pos {q : Int} {i : Fin n} (h : Names q i) (h0 : 0 ≤ q) : q = (i.val : Int) := by
  have hi := i.2
  rcases h with h | h
  · exact h
  · omega

theorem xStep_eq {q : Int} {i : Fin n} (h : Names q i) : xStep (n := n) q = some (CGate.x i).row := by
  unfold xStep; rw [pyQubit_names h]; rfl

theorem pyColumn_nat {k : Nat} (h : k < 2 * n + 1) : pyColumn n (k : Int) = some k := by
  unfold pyColumn
  rw [if_pos ⟨by omega, by omega⟩]; simp

theorem zStep_eq {q : Int} {i : Fin n} (h : Names q i) (h0 : 0 ≤ q) : zStep (n := n) q = some (CGate.z i).row := by
  have hi := i.2
  obtain rfl := names_pos h h0
  unfold zStep
  rw [pyColumn_nat (by omega)]
  refine congrArg some (funext fun p => ?_)
  have h1 : ¬ 2 * n < n := by omega
  have h2 : ¬ 2 * n - n < n := by omega
  simp [Op.setCol, Op.col, h1, h2, CGate.row, zRow, i.2]

theorem hStep_eq {q : Int} {i : Fin n} (h : Names q i) (h0 : 0 ≤ q) : hStep (n := n) q = some (CGate.h i).row := by
  have hi := i.2
  obtain rfl := names_pos h h0
  unfold hStep
  rw [pyQubit_names h, pyColumn_nat (by omega), show ((i.val : Int) + (n : Int)) = ((i.val + n : Nat) : Int) by push_cast; rfl, pyColumn_nat (by omega)]
  refine congrArg some (funext fun p => ?_)
  have h1 : ¬ i.val + n < n := by omega
  have h2 : i.val + n - n < n := by omega
  simp [Op.setCol, Op.col, h1, h2, CGate.row, hRow, i.2]

theorem pairStep_eq {row : Fin n → Fin n → Op n → Op n} {q q' : Int} {c t : Fin n} (h : Names q c) (h' : Names q' t) : pairStep row (q, q') = some (row c t) := by
  unfold pairStep; rw [pyQubit_names h, pyQubit_names h']

/-- A loop in which every index is good applies the gates. -/
theorem applyEach_good {fs : List (Option (Op n → Op n))} {Gs : List (CGate n)} (h : List.Forall₂ (fun f G => f = some (CGate.row G)) fs Gs) (T : Tab n) :
    applyEach T fs = (appAll Gs T, .ok ()) := by
  induction h generalizing T with
  | nil => rfl
  | cons h _ ih => subst h; exact ih _

/-- A loop with a bad index applies the gates before it. -/
theorem applyEach_bad {fs : List (Option (Op n → Op n))} {Gs : List (CGate n)} (h : List.Forall₂ (fun f G => f = some (CGate.row G)) fs Gs) (rest : List (Option (Op n → Op n)))
    (T : Tab n) : applyEach T (fs ++ none :: rest) = (appAll Gs T, .error .indexError) := by
  induction h generalizing T with
  | nil => rfl
  | cons h _ ih => subst h; exact ih _

theorem forall₂_steps {step : Int → Option (Op n → Op n)} {G : Fin n → CGate n} {qs : List Int} {is : List (Fin n)} (h : AllName qs is)
    (hs : ∀ q ∈ qs, ∀ i, Names q i → step q = some (G i).row) : List.Forall₂ (fun f G => f = some (CGate.row G)) (qs.map step) (is.map G) := by
  induction h with
  | nil => exact .nil
  | @cons q i qs is h1 _ ih =>
    exact .cons (hs q (by simp) i h1) (ih fun q hq => hs q (List.mem_cons_of_mem _ hq))

theorem forall₂_pairs {row : Fin n → Fin n → Op n → Op n} {G : Fin n → Fin n → CGate n} (hG : ∀ c t, (G c t).row = row c t) {qs qs' : List Int} {c t : List (Fin n)}
    (h : AllName qs c) (h' : AllName qs' t) : List.Forall₂ (fun f G => f = some (CGate.row G)) ((qs.zip qs').map (pairStep row)) (List.zipWith G c t) := by
  induction h generalizing qs' t with
  | nil => exact .nil
  | cons h1 _ ih =>
    cases h' with
    | nil => exact .nil
    | cons h2 h3 => exact .cons (by rw [pairStep_eq h1 h2, hG]) (ih h3)

theorem names_lt {qs : List Int} {is : List (Fin n)} (h : AllName qs is) : (qs.any fun q => decide ((n : Int) ≤ q)) = false := by
  induction h with
  | nil => rfl
  | @cons q i qs is h1 _ ih =>
    have hi := i.2
    simp only [List.any_cons, ih, Bool.or_false, decide_eq_false_iff_not]
    rcases h1 with h | h <;> omega

theorem IsSeq.after {a : QArg} (h : a.IsSeq) : a.after = a := by
  cases a with
  | once _ => cases h
  | one _ => rfl
  | seq _ => rfl

theorem IsSeq.len {a : QArg} (h : a.IsSeq) : a.len = .ok a.items.length := by
  cases a with
  | once _ => cases h
  | one _ => rfl
  | seq _ => rfl

/-- The gates `X` on several qubits and `Z` on one only change signs, and can be exchanged. -/
theorem z_past_x (i : Fin n) (is : List (Fin n)) (T : Tab n) : (CGate.z i).app (appAll (is.map CGate.x) T) = appAll (is.map CGate.x) ((CGate.z i).app T) := by
  induction is generalizing T with
  | nil => rfl
  | cons j is ih =>
    simp only [List.map_cons, appAll, List.foldl_cons] at ih ⊢
    rw [ih]
    congr 1
    simp only [CGate.app, Tab.map, CGate.row, zRow, xRow, Tab.mk.injEq]
    constructor <;> · funext k; simp only [Op.mk.injEq, true_and]; exact Bool.xor_right_comm _ _ _

theorem y_gates (is : List (Fin n)) (T : Tab n) : appAll (is.map CGate.z) (appAll (is.map CGate.x) T) = appAll (is.map CGate.y) T := by
  induction is generalizing T with
  | nil => rfl
  | cons i is ih =>
    have h1 : appAll ((i :: is).map CGate.z) (appAll ((i :: is).map CGate.x) T) =
        appAll (is.map CGate.z) ((CGate.z i).app (appAll (is.map CGate.x) ((CGate.x i).app T))) := rfl
    have h2 : appAll ((i :: is).map CGate.y) T = appAll (is.map CGate.y) ((CGate.z i).app ((CGate.x i).app T)) := rfl
    rw [h1, h2, z_past_x, ih]

/-- A plain call applies the gates that it asks for. -/
theorem plain_exec {c : GateCall} {Gs : List (CGate n)} (h : c.Means Gs) (hp : c.Plain) (T : Tab n) : c.exec T = (appAll Gs T, .ok ()) := by
  have xs : ∀ {a : QArg} {is : List (Fin n)}, AllName a.items is → a.IsSeq → ∀ T : Tab n, stateX T a = (appAll (is.map CGate.x) T, .ok ()) := by
    intro a is h hs T
    unfold stateX
    rw [if_neg (by rw [names_lt h]; decide), IsSeq.after hs]
    exact applyEach_good (forall₂_steps h fun q _ i hi => xStep_eq hi) T
  have zs : ∀ {a : QArg} {is : List (Fin n)}, AllName a.items is → a.IsSeq → (∀ q ∈ a.items, 0 ≤ q) → ∀ T : Tab n, stateZ T a = (appAll (is.map CGate.z) T, .ok ()) := by
    intro a is h hs h0 T
    unfold stateZ
    rw [if_neg (by rw [names_lt h]; decide), IsSeq.after hs]
    exact applyEach_good (forall₂_steps h fun q hq i hi => zStep_eq hi (h0 q hq)) T
  have ps : ∀ {row : Fin n → Fin n → Op n → Op n} {G : Fin n → Fin n → CGate n}, (∀ c t, (G c t).row = row c t) → ∀ {cs ts : QArg} {c t : List (Fin n)}, AllName cs.items c →
      AllName ts.items t → c.length = t.length → cs.IsSeq → ts.IsSeq → ∀ T : Tab n, statePair row T cs ts = (appAll (List.zipWith G c t) T, .ok ()) := by
    intro row G hG cs ts c t h1 h2 hl hc ht T
    unfold statePair
    rw [IsSeq.len hc, IsSeq.len ht]
    have e1 := List.Forall₂.length_eq h1
    have e2 := List.Forall₂.length_eq h2
    dsimp only
    rw [if_neg (by omega)]
    exact applyEach_good (forall₂_pairs hG h1 h2) T
  cases h with
  | cx h1 h2 hl => exact ps (row := cxRow) (G := CGate.cx) (fun _ _ => rfl) h1 h2 hl hp.1 hp.2 T
  | cz h1 h2 hl => exact ps (row := czRow) (G := CGate.cz) (fun _ _ => rfl) h1 h2 hl hp.1 hp.2 T
  | hadamard h => exact applyEach_good (forall₂_steps h fun q hq i hi => hStep_eq hi (hp.2 q hq)) T
  | x h => exact xs h hp T
  | y h =>
    show stateY T _ = _
    unfold stateY
    rw [xs h hp.1 T, IsSeq.after hp.1]
    exact (zs h hp.1 hp.2 _).trans (by rw [y_gates])
  | z h => exact zs h hp.1 hp.2 T

/-! ### C132 -/

/-- Calls of a kind do what they ask for: if the tableau represents `ψ`, it represents `U_k ⋯ U_1 ψ` afterwards, and no exception is raised. -/
def CallsRight (P : GateCall → Prop) : Prop := ∀ (n : Nat) (c : GateCall) (Gs : List (CGate n)) (T : Tab n) (ψ : Vec n), P c → c.Typed → c.Means Gs → (∀ G ∈ Gs, G.Ok) → T.Valid →
  T.Represents ψ → ∃ T', c.exec T = (T', .ok ()) ∧ T'.Valid ∧ T'.Represents (Gs.foldl (fun φ G => G.unitary *ᵥ φ) ψ)

/-- **C132**: the methods of a `QuantumState` apply the gates to the qubits that are given: as integers, in sequences, or, where the annotations say so, by iterators; negative
indices count from the end. -/
def C132_statement : Prop := CallsRight fun _ => True

/-- **C132** for calls without iterators, in which only `x`, `cx` and `cz` have negative indices. -/
theorem C132_plain_partial : CallsRight GateCall.Plain := fun _ _ Gs T ψ hp _ hm hG hv hr =>
  ⟨_, plain_exec hm hp T, appAll_valid hv Gs hG, C04_gates_represent Gs hG T ψ hr⟩

theorem zero_represents (n : Nat) : (zeroState n).Represents (fun b => if b = (fun _ => false) then 1 else 0) := (C05_zero_state n).2

theorem not_both {T T' : Tab n} {ψ : Vec n} (h : T.Represents ψ) (h' : T'.Represents ψ) (i j : Fin n) (ha : Anticommutes (opMat (T.s i)) (opMat (T'.s j))) : False := by
  obtain ⟨h0, h1⟩ := h
  have e1 : opMat (T.s i) *ᵥ ψ = ψ := h1 i
  have e2 : opMat (T'.s j) *ᵥ ψ = ψ := h'.2 j
  have e3 : ψ = -ψ := by
    calc ψ = (opMat (T.s i) * opMat (T'.s j)) *ᵥ ψ := by rw [← mulVec_mulVec, e2, e1]
      _ = -ψ := by rw [show opMat (T.s i) * opMat (T'.s j) = _ from ha, neg_mulVec, ← mulVec_mulVec, e1, e2]
  exact h0 (self_eq_neg.1 e3)

theorem not_both_sign {T T' : Tab n} {ψ : Vec n} (h : T.Represents ψ) (h' : T'.Represents ψ) (i j : Fin n) (ha : opMat (T.s i) = -opMat (T'.s j)) : False := by
  obtain ⟨h0, h1⟩ := h
  have e1 : opMat (T.s i) *ᵥ ψ = ψ := h1 i
  have e2 : opMat (T'.s j) *ᵥ ψ = ψ := h'.2 j
  rw [ha, neg_mulVec, e2] at e1
  exact h0 (neg_eq_self.1 e1)

theorem opMat_opposite {a b : Op n} (hx : a.x = b.x) (hz : a.z = b.z) (hr : a.r = !b.r) : opMat a = -opMat b := by
  unfold opMat
  rw [hx, hz, hr, ← neg_smul]
  congr 1
  cases b.r <;> simp [sgn]

/-- A call is wrong if the stabilisers of the result do not fit to the gates. -/
theorem wrong_call {P : GateCall → Prop} (h : CallsRight P) {c : GateCall} {Gs : List (CGate n)} {T : Tab n} (hp : P c) (ht : c.Typed) (hm : c.Means Gs) (hG : ∀ G ∈ Gs, G.Ok)
    (hT : T.Valid) (i : Fin n) : anti ((c.exec T).1.s i) ((appAll Gs T).s i) = false ∧ ¬ (((c.exec T).1.s i).x = ((appAll Gs T).s i).x ∧
      ((c.exec T).1.s i).z = ((appAll Gs T).s i).z ∧ ((c.exec T).1.s i).r = !((appAll Gs T).s i).r) := by
  obtain ⟨ψ, hψ⟩ := exists_represents hT.semi
  obtain ⟨T', h1, _, h2⟩ := h n c Gs T ψ hp ht hm hG hT hψ
  have h3 := C04_gates_represent Gs hG T ψ hψ
  rw [h1]
  refine ⟨?_, fun ⟨a, b, d⟩ => not_both_sign h2 h3 i i (opMat_opposite a b d)⟩
  by_contra hne
  exact not_both h2 h3 i i ((anticommutes_iff _ _).2 (by simpa using hne))

/-- **C132 fails** for `z(-1)`: the gate is not applied, and all signs of the tableau are erased; on one qubit, `|1⟩` becomes `|0⟩`. -/
theorem C132_z_counterexample : ¬ CallsRight fun c => c = .z (.one (-1)) := by
  intro h
  have := (wrong_call (n := 1) (T := (CGate.x 0).app (zeroState 1)) (Gs := [.z 0]) h rfl trivial (GateCall.Means.z (is := [0]) (.cons (.inr (by decide)) .nil)) (by simp [CGate.Ok])
    (app_valid (zeroState_valid 1) _ trivial) 0).2
  exact this ⟨by decide, by decide, by decide⟩

/-- The same in general: `z(-1)` erases all signs. -/
theorem C132_z_erases (T : Tab n) : ((GateCall.z (.one (-1))).exec T) = ({ d := fun i => { T.d i with r := false }, s := fun i => { T.s i with r := false } }, .ok ()) := by
  have h0 : ¬ ((n : Int) ≤ -1) := by omega
  have hc : pyColumn n (-1) = some (2 * n) := by
    unfold pyColumn
    rw [if_neg (by omega), if_pos ⟨by omega, by omega⟩]
    exact congrArg some (by omega)
  have h1 : ¬ 2 * n < n := by omega
  have h2 : ¬ 2 * n - n < n := by omega
  simp [GateCall.exec, stateZ, QArg.items, QArg.after, h0, zStep, hc, applyEach, Tab.map, Op.setCol, Op.col, h1, h2]

/-- And `z(-2)` applies the gate `X` to the last qubit. -/
theorem C132_z_is_x (T : Tab (n + 1)) : (GateCall.z (.one (-2))).exec T = ((CGate.x (Fin.last n)).app T, .ok ()) := by
  have hc : pyColumn (n + 1) (-2) = some (2 * n + 1) := by
    unfold pyColumn
    rw [if_neg (by omega), if_pos ⟨by omega, by omega⟩]
    exact congrArg some (by omega)
  have h1 : ¬ 2 * (n + 1) < n + 1 := by omega
  have h2 : ¬ 2 * (n + 1) - (n + 1) < n + 1 := by omega
  have hrow : zStep (n := n + 1) (-2) = some (xRow (Fin.last n)) := by
    unfold zStep
    rw [hc]
    refine congrArg some (funext fun p => ?_)
    simp only [Op.setCol, Op.col, dif_neg h1, dif_neg h2, xRow]
    rw [dif_neg (by omega), dif_pos (by omega)]
    congr 3
    exact Fin.ext (by simp; omega)
  show stateZ T _ = _
  unfold stateZ
  rw [if_neg (by simp [QArg.items]; omega)]
  simp only [QArg.after, QArg.items, List.map_cons, List.map_nil, hrow, applyEach]
  rfl

/-- **C132 fails** for `hadamard(-1)`: `|0⟩` stays `|0⟩`. -/
theorem C132_hadamard_counterexample : ¬ CallsRight fun c => c = .hadamard (.one (-1)) := by
  intro h
  have := (wrong_call (n := 1) (T := zeroState 1) (Gs := [.h 0]) h rfl trivial (GateCall.Means.hadamard (is := [0]) (.cons (.inr (by decide)) .nil)) (by simp [CGate.Ok])
    (zeroState_valid 1) 0).1
  revert this
  decide

/-- Where there are more qubits, `hadamard` with a negative index also leaves invalid tableaus behind. -/
theorem C132_hadamard_invalid : ¬ ((GateCall.hadamard (.one (-2))).exec (zeroState 2)).1.Valid := by
  intro h
  have := ((valid_iff _).mp h).2.1 0 0
  revert this
  decide

/-- **C132 fails** for iterators: the check of the indices uses them up, and no gate is applied. -/
theorem C132_iterator_counterexample : ¬ CallsRight fun c => c = .x (.once [0]) := by
  intro h
  have := (wrong_call (n := 1) (T := zeroState 1) (Gs := [.x 0]) h rfl trivial (GateCall.Means.x (is := [0]) (.cons (.inl (by decide)) .nil)) (by simp [CGate.Ok])
    (zeroState_valid 1) 0).2
  exact this ⟨by decide, by decide, by decide⟩

theorem C132_counterexample : ¬ C132_statement := fun h => C132_z_counterexample fun n c Gs T ψ _ => h n c Gs T ψ trivial

/-- The same in general: with an iterator, `x`, `y` and `z` leave the state as it is, or raise. -/
theorem C132_iterators (T : Tab n) (qs : List Int) (c : GateCall) (hc : c ∈ [GateCall.x (.once qs), .y (.once qs), .z (.once qs)]) :
    c.exec T = (T, if ∃ q ∈ qs, (n : Int) ≤ q then .error .indexError else .ok ()) := by
  by_cases h : ∃ q ∈ qs, (n : Int) ≤ q
  · have h' : (qs.any fun q => decide ((n : Int) ≤ q)) = true := by simpa using h
    simp only [List.mem_cons, List.not_mem_nil, or_false] at hc
    rw [if_pos h]
    rcases hc with rfl | rfl | rfl <;> simp [GateCall.exec, stateX, stateY, stateZ, QArg.items, h']
  · have h' : (qs.any fun q => decide ((n : Int) ≤ q)) = false := by simpa using h
    simp only [List.mem_cons, List.not_mem_nil, or_false] at hc
    rw [if_neg h]
    rcases hc with rfl | rfl | rfl <;> simp [GateCall.exec, stateX, stateY, stateZ, QArg.items, QArg.after, applyEach, h']

/-- **C132**, indices that are too large: `x`, `y` and `z` refuse them and leave the state as it is. -/
theorem C132_refused (T : Tab n) (a : QArg) (q : Int) (hq : q ∈ a.items) (hn : (n : Int) ≤ q) (c : GateCall) (hc : c ∈ [GateCall.x a, .y a, .z a]) :
    c.exec T = (T, .error .indexError) := by
  have h : (a.items.any fun q => decide ((n : Int) ≤ q)) = true := List.any_eq_true.2 ⟨q, hq, decide_eq_true hn⟩
  simp only [List.mem_cons, List.not_mem_nil, or_false] at hc
  rcases hc with rfl | rfl | rfl <;> simp [GateCall.exec, stateX, stateY, stateZ, h]

/-- **C132**, indices that are too large: `hadamard` raises, but the gates before it have been applied. -/
theorem C132_hadamard_half (T : Tab n) (is : List (Fin n)) (q : Int) (hn : (n : Int) ≤ q) (rest : List Int) :
    (GateCall.hadamard (.seq (is.map (fun i => (i.val : Int)) ++ q :: rest))).exec T = (appAll (is.map CGate.h) T, .error .indexError) := by
  have hq : hStep (n := n) q = none := by
    unfold hStep
    rw [show pyQubit n q = none by unfold pyQubit; rw [dif_neg (by omega), dif_neg (by omega)]]
  have hall : AllName (is.map fun i => (i.val : Int)) is := by
    induction is with
    | nil => exact .nil
    | cons i is ih => exact .cons (.inl rfl) ih
  have hpos : ∀ q ∈ is.map (fun i => (i.val : Int)), 0 ≤ q := by
    intro q hq
    obtain ⟨i, _, rfl⟩ := List.mem_map.1 hq
    omega
  show applyEach T ((is.map (fun i => (i.val : Int)) ++ q :: rest).map hStep) = _
  rw [List.map_append, List.map_cons, hq]
  exact applyEach_bad (forall₂_steps hall fun q hq i hi => hStep_eq hi (hpos q hq)) _ T

/-- **C132**, other arguments: `hadamard` takes iterators, `cx` and `cz` do not; lists of different lengths are refused. -/
theorem C132_arguments (T : Tab n) (qs qs' : List Int) (a : QArg) :
    (GateCall.hadamard (.once qs)).exec T = (GateCall.hadamard (.seq qs)).exec T ∧
    (∀ c ∈ [GateCall.cx (.once qs) a, .cx a (.once qs), .cz (.once qs) a, .cz a (.once qs)], c.exec T = (T, .error .typeError)) ∧
    (qs.length ≠ qs'.length → ∀ c ∈ [GateCall.cx (.seq qs) (.seq qs'), .cz (.seq qs) (.seq qs')], c.exec T = (T, .error .valueError)) := by
  refine ⟨rfl, fun c hc => ?_, fun h c hc => ?_⟩
  · simp only [List.mem_cons, List.not_mem_nil, or_false] at hc
    rcases hc with rfl | rfl | rfl | rfl <;> cases a <;> rfl
  · simp only [List.mem_cons, List.not_mem_nil, or_false] at hc
    rcases hc with rfl | rfl <;> exact if_pos fun h' => h h'.symm

/-- **C132**, exceptions: a call that raises ends a sequence of calls, with the state that it left. -/
theorem C132_exception (T T1 T2 : Tab n) (cs rest : List GateCall) (c : GateCall) (e : Err) (h1 : execCalls T cs = (T1, .ok ())) (h2 : c.exec T1 = (T2, .error e)) :
    execCalls T (cs ++ c :: rest) = (T2, .error e) := by
  induction cs generalizing T with
  | nil => obtain ⟨rfl, _⟩ := Prod.mk.inj h1; rw [List.nil_append, execCalls, h2]
  | cons d cs ih =>
    rw [execCalls] at h1
    rw [List.cons_append, execCalls]
    match hd : d.exec T with
    | (T', .error e') => rw [hd] at h1; cases (Prod.mk.inj h1).2
    | (T', .ok ()) => rw [hd] at h1; exact ih T' h1

example : (execCalls (zeroState 2) [.hadamard (.seq [0, 2]), .x (.one 0)]).2 = .error .indexError := rfl

/-- **C132**, circuits: instructions with negative indices are accepted by `Circuit.append`, and `X 0`, `Z -1`, which the simulator hands to the methods, undoes the gate `X`. -/
theorem C132_circuit : (appendAll natApi [] [("X".toList, [.int 0]), ("Z".toList, [.int (-1)])] = .ok [⟨.X, [.int 0]⟩, ⟨.Z, [.int (-1)]⟩]) ∧
    ((execCalls (zeroState 1) [.x (.seq [0]), .z (.seq [-1])]).1.s 0).r = ((zeroState 1).s 0).r ∧ ((execCalls (zeroState 1) [.x (.seq [0])]).1.s 0).r ≠ ((zeroState 1).s 0).r := by
  refine ⟨by rfl, by decide, by decide⟩

/-- **C132**, several calls on a new state: the tableau is valid and represents the vector that the unitaries of all gates make of `|0…0⟩`. -/
theorem C132_calls_partial (cs : List (GateCall × List (CGate n))) (h : ∀ c ∈ cs, c.1.Means c.2 ∧ c.1.Plain ∧ ∀ G ∈ c.2, G.Ok) :
    ∃ T, execCalls (zeroState n) (cs.map Prod.fst) = (T, .ok ()) ∧ T.Valid ∧
      T.Represents ((cs.flatMap Prod.snd).foldl (fun φ G => G.unitary *ᵥ φ) (fun b => if b = (fun _ => false) then 1 else 0)) := by
  have key : ∀ (cs : List (GateCall × List (CGate n))), (∀ c ∈ cs, c.1.Means c.2 ∧ c.1.Plain ∧ ∀ G ∈ c.2, G.Ok) → ∀ T : Tab n,
      execCalls T (cs.map Prod.fst) = (appAll (cs.flatMap Prod.snd) T, .ok ()) := by
    intro cs
    induction cs with
    | nil => intro _ T; rfl
    | cons c cs ih =>
      intro h T
      obtain ⟨h1, h2, _⟩ := h c (by simp)
      rw [List.map_cons, execCalls, plain_exec h1 h2 T]
      dsimp only
      rw [ih (fun c hc => h c (List.mem_cons_of_mem _ hc)), List.flatMap_cons]
      unfold appAll
      rw [List.foldl_append]
  have hG : ∀ G ∈ cs.flatMap Prod.snd, G.Ok := by
    intro G hG
    obtain ⟨c, hc, hG⟩ := List.mem_flatMap.1 hG
    exact (h c hc).2.2 G hG
  exact ⟨_, key cs h _, appAll_valid (zeroState_valid n) _ hG, C04_gates_represent _ hG _ _ (zero_represents n)⟩

/-- Non-vacuity: a GHZ state, with a negative index. -/
example : ∃ T : Tab 3, execCalls (zeroState 3) [.hadamard (.one 0), .cx (.seq [0, 1]) (.seq [1, -1]), .y (.seq [0, 2])] = (T, .ok ()) ∧ T.Valid ∧
    T.Represents (([.h 0, .cx 0 1, .cx 1 2, .y 0, .y 2] : List (CGate 3)).foldl (fun φ G => G.unitary *ᵥ φ) (fun b => if b = (fun _ => false) then 1 else 0)) := by
  refine C132_calls_partial [(.hadamard (.one 0), [.h 0]), (.cx (.seq [0, 1]) (.seq [1, -1]), [.cx 0 1, .cx 1 2]), (.y (.seq [0, 2]), [.y 0, .y 2])] ?_
  intro c hc
  simp only [List.mem_cons, List.not_mem_nil, or_false] at hc
  rcases hc with rfl | rfl | rfl
  · exact ⟨.hadamard (is := [0]) (.cons (.inl (by decide)) .nil), ⟨trivial, by simp [QArg.items]⟩, by simp [CGate.Ok]⟩
  · exact ⟨.cx (c := [0, 1]) (t := [1, 2]) (.cons (.inl (by decide)) (.cons (.inl (by decide)) .nil)) (.cons (.inl (by decide)) (.cons (.inr (by decide)) .nil)) rfl,
      ⟨trivial, trivial⟩, by simp [CGate.Ok]⟩
  · exact ⟨.y (is := [0, 2]) (.cons (.inl (by decide)) (.cons (.inl (by decide)) .nil)), ⟨trivial, by simp [QArg.items]⟩, by simp [CGate.Ok]⟩

end Plaquette
