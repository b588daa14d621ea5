import Verif.Lemmas.MeasureLoop

/-!
# Properties C15-C17: measurements in a base, destructive measurement, tensor products, appending a qubit
-/

namespace Plaquette
open Matrix Complex

variable {n k m : Nat}

/-- **C15 (full statement)** a destructive measurement of distinct qubits returns one outcome per qubit and a valid
state of the remaining qubits. -/
def C15_statement : Prop := ∀ (n : Nat) (T : Tab n) (base : Letter) (targets : List Nat) (draws : List Bool),
  T.Valid → base ≠ .Y → targets.Nodup → (∀ t ∈ targets, t < n) →
  ∃ (S : AnyTab) (res : List Bool), measureBase base true T targets [none] draws = .ok (S, res) ∧
    S.1 + targets.length = n ∧ res.length = targets.length ∧ S.2.Valid

/-- **C15 fails** for every list of two or more qubits: the call raises, for every state, because the operators of the
later measurements are built for the size of the state before the first qubit was removed. -/
theorem C15_two_targets_counterexample (T : Tab n) (base : Letter) (targets : List Nat) (h : 2 ≤ targets.length)
    (fo : List (Option Int)) (draws : List Bool) : ∃ e, measureBase base true T targets fo draws = .error e := by
  unfold measureBase
  cases hp : padForced fo targets.length with
  | error e => exact ⟨e, rfl⟩
  | ok fo' =>
    simp only
    generalize hs : (((List.range targets.length).map fun i =>
      ({ target := targets.getD i 0, forced := fo'.getD i none, draw := draws.getD i false, idx := i } :
        MeasItem)).mergeSort fun a b => decide (b.target ≤ a.target)) = l
    have hl : l.length = targets.length := by rw [← hs]; simp
    match l, hl with
    | [], hl => simp at hl; omega
    | [_], hl => simp at hl; omega
    | a :: b :: rest, _ => exact measureLoop_two a b rest T _

theorem C15_destructive_counterexample : ¬ C15_statement := by
  intro h
  obtain ⟨S, res, h1, _⟩ := h 2 (zeroState 2) .Z [0, 1] [] (zeroState_valid 2) (by decide) (by decide) (by decide)
  obtain ⟨e, he⟩ := C15_two_targets_counterexample (zeroState 2) .Z [0, 1] (by decide) [none] []
  rw [he] at h1
  cases h1

/-- A measurement of one qubit, unfolded. -/
theorem measureBase_one (T : Tab (k + 1)) (base : Letter) (t : Fin (k + 1)) (f : Option Int) (draw : Bool)
    {T1 T2 out} (h1 : measure T (singleOp false base t) f draw = .ok (T1, out)) (h2 : ptrace base T1 t = .ok T2) :
    measureBase base true T [t.val] [f] [draw] = .ok (⟨k, T2⟩, [out]) := by
  have hm : measureBase base true T [t.val] [f] [draw] =
      measureLoop (k + 1) base true [{ target := t, forced := f, draw := draw, idx := 0 }] ⟨k + 1, T⟩ [false] := by
    simp [measureBase, padForced, List.range_succ]
  rw [hm]
  unfold measureLoop
  rw [if_neg (by have := t.2; simp only; omega), dif_pos ⟨t.2, rfl⟩]
  simp only [Fin.eta, h1, if_true, ptraceAny, t.2, dif_pos, h2, measureLoop, List.set_cons_zero]

/-- **C15, part that holds**: a destructive measurement of one qubit in the X or Z basis always succeeds, returns its
outcome, and the returned tableau (stabilisers commuting, destabiliser `i` paired with stabiliser `i`) represents the
projected vector with the measured qubit removed: the amplitudes where the measured qubit has the value `out` (Z basis),
or the part next to `|+⟩` / `|-⟩` (X basis).
Missing: lists of several qubits (they raise), and commutation of the destabilisers among themselves (see
`C15_destabilisers_counterexample`). -/
theorem C15_single_target_partial (T : Tab (k + 1)) (hT : T.SemiValid) (base : Letter) (hb : base ≠ .Y)
    (t : Fin (k + 1)) (f : Option Int) (hf : GoodForced f) (draw : Bool) :
    ∃ T' out, measureBase base true T [t.val] [f] [draw] = .ok (⟨k, T'⟩, [out]) ∧ T'.SemiValid ∧
      ∀ ψ, T.Represents ψ → T'.Represents fun b =>
        (projector (singleOp false base t) out *ᵥ ψ)
          (t.insertNth (α := fun _ => Bool) (if base = .Z then out else false) b) := by
  obtain ⟨T1, out, h1⟩ := measure_total_forced hT (singleOp_not_scalar false base t) hf draw
  obtain ⟨ψ, hψ⟩ := exists_represents hT
  obtain ⟨T2, h2, h3, _⟩ := ptrace_sem hb (measure_semi hT h1) (measure_represents hT h1 hψ) (projector_eigen _ _ _)
  refine ⟨T2, out, measureBase_one T base t f draw h1 h2, h3, fun φ hφ => ?_⟩
  obtain ⟨T2', h2', _, h4⟩ := ptrace_sem hb (measure_semi hT h1) (measure_represents hT h1 hφ) (projector_eigen _ _ _)
  rw [h2] at h2'
  cases h2'
  have : keptValue base out = (if base = .Z then out else false) := by cases base <;> simp [keptValue]
  rw [← this]
  exact h4

/-- Non-vacuity: one half of a Bell pair, measured destructively. -/
example : (appAll [CGate.h (0 : Fin 2), CGate.cx 0 1] (zeroState 2)).SemiValid :=
  (app_valid (app_valid (zeroState_valid 2) (.h 0) (by simp [CGate.Ok])) (.cx 0 1) (by simp [CGate.Ok])).semi

/-- A valid tableau whose destabilisers mix qubit 0 with the others. -/
def mixedTab : Tab 3 where
  s := ![⟨![false, false, false], ![true, true, false], false⟩, ⟨![false, false, false], ![true, false, false], false⟩,
    ⟨![false, false, false], ![false, false, true], false⟩]
  d := ![⟨![false, true, false], ![false, false, false], false⟩, ⟨![true, true, false], ![false, false, true], false⟩,
    ⟨![false, false, true], ![true, false, false], false⟩]

/-- **C15** even for one qubit the returned tableau need not be valid: its destabilisers can stop commuting with each
other. -/
theorem C15_destabilisers_counterexample : mixedTab.Valid ∧
    ∃ (T' : Tab 2) (out : Bool), measureBase .Z true mixedTab [0] [none] [false] = .ok (⟨2, T'⟩, [out]) ∧ ¬ T'.Valid := by
  have hv : mixedTab.Valid := (valid_iff _).mpr (by decide)
  refine ⟨hv, ?_⟩
  obtain ⟨T1, out, h1⟩ := measure_total_forced hv.semi (singleOp_not_scalar false .Z (0 : Fin 3))
    (f := none) (by decide) false
  obtain ⟨ψ, hψ⟩ := exists_represents hv.semi
  obtain ⟨T2, h2, _, _⟩ := ptrace_sem (base := .Z) (by decide) (measure_semi hv.semi h1)
    (measure_represents hv.semi h1 hψ) (projector_eigen _ _ _)
  refine ⟨T2, out, measureBase_one mixedTab .Z 0 none false h1 h2, fun hc => ?_⟩
  have hc := ((valid_iff _).mp hc).2.2 0 1
  have key : (do let r ← measure mixedTab (singleOp false .Z 0) none false
                 let T2 ← ptrace .Z r.1 0
                 pure (anti (T2.d 0) (T2.d 1))) = (.ok true : Except Err Bool) := by decide
  rw [h1] at key
  simp only [bind, Except.bind, h2, pure, Except.pure, Except.ok.injEq] at key
  rw [key] at hc
  exact absurd hc (by simp)

/-- **C15, non-destructive form** measuring any list of qubits (in any order, with repetitions) in the X or Z basis
succeeds for admissible forced outcomes; result number `j` is the outcome for target number `j`: the final state is
stabilised by `(-1)^(res j)` times the measured operator of target `j`, so measuring it again gives that value. -/
theorem C15_results_belong_to_targets (T : Tab n) (hT : T.Valid) (base : Letter) (targets : List Nat)
    (ht : ∀ t ∈ targets, t < n) (fo : List (Option Int)) (hfo : fo.length = 1 ∨ fo.length = targets.length)
    (hg : ∀ f ∈ fo, GoodForced f) (draws : List Bool) :
    ∃ (T' : Tab n) (res : List Bool), measureBase base false T targets fo draws = .ok (⟨n, T'⟩, res) ∧ T'.Valid ∧
      res.length = targets.length ∧
      ∀ (j : Nat) (t : Fin n), targets[j]? = some t.val → ∃ b, res[j]? = some b ∧
        (∀ φ, T'.Represents φ → Stabilises (singleOp b base t) φ) ∧
        ∀ f d, measure T' (singleOp false base t) f d = .ok (T', b) := by
  obtain ⟨fo', hp, hg'⟩ : ∃ fo', padForced fo targets.length = .ok fo' ∧ ∀ i, GoodForced (fo'.getD i none) := by
    have hgd : ∀ (l : List (Option Int)), (∀ f ∈ l, GoodForced f) → ∀ i, GoodForced (l.getD i none) := by
      intro l hl i
      rw [List.getD_eq_getElem?_getD]
      cases h : l[i]? with
      | none => simp [GoodForced]
      | some f => exact hl f (List.mem_of_getElem? h)
    match fo, hfo, hg with
    | [v], _, hg =>
      refine ⟨_, rfl, hgd _ ?_⟩
      intro f hf
      rw [List.eq_of_mem_replicate hf]
      exact hg v (by simp)
    | [], hfo, hg => exact ⟨[], by simp at hfo; simp [padForced, hfo], hgd _ (by simp)⟩
    | a :: b :: r, hfo, hg =>
      have : (a :: b :: r).length = targets.length := by simpa using hfo
      exact ⟨_, by unfold padForced; simp only; rw [if_pos this], hgd _ hg⟩
  unfold measureBase
  rw [hp]
  simp only
  set items := (List.range targets.length).map fun i =>
    ({ target := targets.getD i 0, forced := fo'.getD i none, draw := draws.getD i false, idx := i } : MeasItem)
    with hitems
  set sorted := items.mergeSort fun a b => decide (b.target ≤ a.target) with hsorted
  have hperm : sorted.Perm items := List.mergeSort_perm _ _
  obtain ⟨T', res, h1, h2, h3, _, _, h6⟩ := measureLoop_sem (base := base) sorted T hT
    (List.replicate targets.length false)
    (fun it hit => by
      have hit : it ∈ items := hperm.mem_iff.mp hit
      obtain ⟨i, hi, rfl⟩ := List.mem_map.mp hit
      have hi := List.mem_range.mp hi
      refine ⟨ht _ ?_, hg' i, by simpa using hi⟩
      simp [List.getD_eq_getElem?_getD, hi])
    (by
      rw [(hperm.map MeasItem.idx).nodup_iff, hitems, List.map_map]
      have : (MeasItem.idx ∘ fun i => ({ target := targets.getD i 0, forced := fo'.getD i none, draw := draws.getD i false, idx := i } :
          MeasItem)) = id := rfl
      rw [this, List.map_id]
      exact List.nodup_range)
  refine ⟨T', res, h1, h2, by simpa using h3, fun j t hj => ?_⟩
  have hjl : j < targets.length := by
    rw [List.getElem?_eq_some_iff] at hj; exact hj.1
  obtain ⟨hlt, b, hb, hs⟩ := h6 _ (hperm.mem_iff.mpr (List.mem_map.mpr ⟨j, List.mem_range.mpr hjl, rfl⟩))
  have htj : targets.getD j 0 = t := by rw [List.getD_eq_getElem?_getD, hj]; rfl
  have hs' : ∀ φ, T'.Represents φ → Stabilises (singleOp b base t) φ := by
    intro φ hφ
    have := hs φ hφ
    simpa only [htj, Fin.eta] using this
  refine ⟨b, hb, hs', fun f d => ?_⟩
  obtain ⟨ψ, hψ⟩ := exists_represents h2.semi
  exact measure_of_eigen h2.semi (singleOp_not_scalar _ _ _) hψ (stabilises_of_eigen.mp (hs' ψ hψ)) f d

/-- Non-vacuity: three measurements in unsorted order with a forced outcome. -/
example : (∀ t ∈ [2, 0, 1], t < 3) ∧ (∀ f ∈ [none, some (1 : Int), none], GoodForced f) := by decide

/-! ### C16 -/

/-- **C16** the tensor product of two operators is the Kronecker product of their matrices. -/
theorem C16_tensor_operators (a : Op m) (b : Op n) (u u' : Basis m) (v v' : Basis n) :
    opMat (tensorOp a b) (Fin.append u v) (Fin.append u' v') = opMat a u u' * opMat b v v' :=
  opMat_tensorOp a b u u' v v'

/-- **C16** the tensor product of two valid states is valid and represents the product vector. -/
theorem C16_tensor_states (A : Tab m) (B : Tab n) (hA : A.Valid) (hB : B.Valid) (ψ : Vec m) (φ : Vec n)
    (hψ : A.Represents ψ) (hφ : B.Represents φ) : (tensorTab A B).Valid ∧
    (tensorTab A B).Represents
      (fun b => ψ (fun i => b (Fin.castAdd n i)) * φ (fun j => b (Fin.natAdd m j))) :=
  ⟨tensorTab_valid hA hB, tensorTab_represents hψ hφ⟩

/-- **C16** commutation of products: anticommuting exactly when an odd number of the factors anticommute. -/
theorem C16_tensor_commutation (a c : Op m) (b d : Op n) :
    (Commutes (opMat (tensorOp a b)) (opMat (tensorOp c d)) ↔
      (Commutes (opMat a) (opMat c) ↔ Commutes (opMat b) (opMat d))) := by
  rw [commutes_iff, commutes_iff, commutes_iff, anti_tensorOp]
  cases anti a c <;> cases anti b d <;> simp

/-- The lists of X bits, of Z bits and the sign of an operator of any size. -/
def bitsOf (a : (k : Nat) × Op k) : List Bool × List Bool × Bool := (List.ofFn a.2.x, List.ofFn a.2.z, a.2.r)

theorem ofFn_append {α : Type} (f : Fin m → α) (g : Fin n → α) :
    List.ofFn (Fin.append f g) = List.ofFn f ++ List.ofFn g := by
  rw [List.ofFn_add]
  simp

/-- **C16** a tensor product of any number of operators has the bits of the factors, concatenated in order, and the
product of the signs. -/
theorem C16_tensor_many (l : List ((k : Nat) × Op k)) (hl : l ≠ []) :
    ∃ r, tensorMany l = .ok r ∧ bitsOf r =
      (l.flatMap fun a => (bitsOf a).1, l.flatMap fun a => (bitsOf a).2.1,
        l.foldr (fun a s => (bitsOf a).2.2 ^^ s) false) := by
  induction hlen : l.length generalizing l with
  | zero => exact absurd (List.length_eq_zero_iff.mp hlen) hl
  | succ N ih =>
    match l, hl, hlen with
    | [a], _, _ => exact ⟨a, by unfold tensorMany; rfl, by simp [bitsOf]⟩
    | a :: b :: rest, _, hlen =>
      obtain ⟨front, l', la, hd⟩ : ∃ front l' la, a :: b :: rest = front ++ [l', la] := by
        have : (a :: b :: rest).length = rest.length + 2 := by simp
        refine ⟨(a :: b :: rest).take rest.length, (a :: b :: rest)[rest.length],
          (a :: b :: rest)[rest.length + 1], ?_⟩
        conv_lhs => rw [← List.take_append_drop rest.length (a :: b :: rest)]
        congr 1
        rw [List.drop_eq_getElem_cons (by simp), List.drop_eq_getElem_cons (by simp)]
        simp
      have hrev : (a :: b :: rest).reverse = la :: l' :: front.reverse := by rw [hd]; simp
      obtain ⟨r, h1, h2⟩ := ih (front ++ [⟨l'.1 + la.1, tensorOp l'.2 la.2⟩]) (by simp) (by
        have := congrArg List.length hd
        simp at this hlen ⊢
        omega)
      refine ⟨r, ?_, ?_⟩
      · unfold tensorMany
        split
        · rename_i x y z h
          rw [hrev] at h
          cases h
          simpa using h1
        · rename_i h
          exact absurd hrev (h _ _ _)
      · rw [h2, hd]
        simp [bitsOf, tensorOp, ofFn_append]

/-- No operator: `ValueError`. -/
theorem C16_tensor_none : tensorMany [] = .error .valueError := by unfold tensorMany; rfl

/-- **C16** padding an operator to a larger register is the tensor product with the identity. -/
theorem C16_pad_operator (op : Op n) (extra : Nat) (he : 0 < extra) :
    padOperator op (n + extra) = ⟨n + (n + extra - n), tensorOp op (idOp _)⟩ := by
  unfold padOperator
  rw [if_neg (by omega)]
  simp [tensorOp, idOp]

/-- **C16** padding to a size that is not larger returns the operator unchanged. -/
theorem C16_pad_operator_small (op : Op n) (total : Nat) (h : total ≤ n) : padOperator op total = ⟨n, op⟩ := by
  simp [padOperator, h]

/-- Non-vacuity: a Bell pair next to the zero state. -/
example : (tensorTab (appAll [CGate.h (0 : Fin 2), CGate.cx 0 1] (zeroState 2)) (zeroState 3)).Valid :=
  tensorTab_valid (app_valid (app_valid (zeroState_valid 2) (.h 0) (by simp [CGate.Ok])) (.cx 0 1) (by simp [CGate.Ok]))
    (zeroState_valid 3)

/-! ### C17 -/

/-- **C17 (full statement)** `append_qubit` of a valid state is a valid state with one more qubit. -/
def C17_statement : Prop := ∀ (n : Nat) (T : Tab n), 0 < n → T.Valid →
  ∃ T' : Tab (n + 1), appendQubit T.raw n = .ok T'.raw ∧ T'.Valid

/-- **C17 fails for every state with two or more qubits**: `append_qubit` raises `IndexError` (it tries to insert one row
per existing qubit and indexes with arrays of different lengths). -/
theorem C17_append_raises (A : Rows) (hn : 2 ≤ n) : appendQubit A n = .error .indexError := by
  unfold appendQubit insertQubitAt
  rw [if_neg (by omega), if_neg (by omega)]
  simp only [Nat.add_sub_cancel]
  have : fancySet (npInsert (A.map fun row => npInsert row [n, n + n] false)
      (List.replicate n n ++ List.replicate n (2 * n))
      (List.replicate ((A.map fun row => npInsert row [n, n + n] false).headD []).length false))
      ((List.replicate n n ++ List.replicate n (2 * n)).take (n + n)) ([n, n + n].take (n + n)) = .error .indexError := by
    obtain ⟨j, rfl⟩ : ∃ j, n = j + 2 := ⟨n - 2, by omega⟩
    unfold fancySet
    have hc : ([j + 2, j + 2 + (j + 2)] : List Nat).take (j + 2 + (j + 2)) = [j + 2, j + 2 + (j + 2)] :=
      List.take_of_length_le (by simp; omega)
    rw [hc]
    have hr : ((List.replicate (j + 2) (j + 2) ++ List.replicate (j + 2) (2 * (j + 2))).take (j + 2 + (j + 2))) =
      (j + 2) :: (j + 2) :: (List.replicate j (j + 2) ++ List.replicate (j + 2) (2 * (j + 2))) := by
      rw [List.take_of_length_le (by simp)]
      simp [List.replicate_succ]
    rw [hr]
    simp
  rw [this]

/-- **C17 fails for every one-qubit state** as well: the new stabiliser row is zero, i.e. the identity (and
the old stabiliser gets its Z bit set). -/
theorem C17_append_one_qubit (T : Tab 1) : appendQubit T.raw 1 = .ok
    [[(T.d 0).x 0, false, (T.d 0).z 0, false, (T.d 0).r], [false, true, false, false, false],
     [(T.s 0).x 0, false, true, false, (T.s 0).r], [false, false, false, false, false]] := by
  simp only [Tab.raw, Op.raw, List.finRange_succ, List.finRange_zero, List.map_nil, List.map_cons]
  generalize (T.d 0).x 0 = a
  generalize (T.d 0).z 0 = b
  generalize (T.d 0).r = c
  generalize (T.s 0).x 0 = d
  generalize (T.s 0).z 0 = e
  generalize (T.s 0).r = f
  revert a b c d e f
  decide

/-- **C17 fails** for every state. -/
theorem C17_append_qubit_never_valid (n : Nat) (hn : 0 < n) (T : Tab n) :
    ¬ ∃ T' : Tab (n + 1), appendQubit T.raw n = .ok T'.raw ∧ T'.Valid := by
  rintro ⟨T', h, hv⟩
  by_cases h1 : n = 1
  · subst h1
    rw [C17_append_one_qubit] at h
    have h := Except.ok.inj h
    simp only [Tab.raw, Op.raw, List.finRange_succ, List.finRange_zero, List.map_nil, List.map_cons] at h
    simp at h
    obtain ⟨_, _, _, hx0, hx1, hz0, hz1, _⟩ := h
    have := ((valid_iff _).mp hv).2.1 1 1
    have hid : anti (T'.d 1) (T'.s 1) = false := by
      apply z2_inj
      rw [z2_anti]
      simp [Fin.sum_univ_two, hx0, hx1, hz0, hz1, z2]
    rw [hid] at this
    simp at this
  · rw [C17_append_raises T.raw (by omega)] at h
    cases h

theorem C17_append_qubit_counterexample : ¬ C17_statement := fun h =>
  C17_append_qubit_never_valid 1 (by decide) (zeroState 1) (h 1 (zeroState 1) (by decide) (zeroState_valid 1))

/-- **C17, what users can do instead**: `tensor_product(state, zero_state(1))` is the state with a qubit in `|0⟩`
added. Missing: everything about `append_qubit` itself, which never returns a valid state. -/
theorem C17_append_by_tensor_partial (T : Tab n) (hT : T.Valid) (ψ : Vec n) (hψ : T.Represents ψ) :
    (tensorTab T (zeroState 1)).Valid ∧ (tensorTab T (zeroState 1)).Represents
      (fun b => if b (Fin.last n) = false then ψ (fun i => b i.castSucc) else 0) := by
  refine ⟨tensorTab_valid hT (zeroState_valid 1), ?_⟩
  have h0 : (zeroState 1).Represents (fun b => if b 0 = false then 1 else 0) := by
    refine ⟨fun hc => by simpa using congrFun hc (fun _ => false), fun i => ?_⟩
    unfold Stabilises
    funext a
    have : (singleOp false .Z (0 : Fin 1)) = (zeroState 1).s i := by
      fin_cases i
      simp [singleOp, zeroState]
      constructor <;> funext q <;> fin_cases q <;> rfl
    rw [← this]
    have ha : (Fin.insertNth (α := fun _ => Bool) (0 : Fin 1) (a 0) (fun i => i.elim0)) = a := by
      rw [Fin.insertNth_eq_iff]; exact ⟨rfl, funext fun i => i.elim0⟩
    rw [← ha, opMat_single_mulVec_Z]
    cases a 0 <;> simp
  have := tensorTab_represents hψ h0
  convert this using 1
  funext b
  show _ = ψ (fun i => b i.castSucc) * (if b (Fin.last n) = false then 1 else 0)
  cases b (Fin.last n) <;> simp

end Plaquette
