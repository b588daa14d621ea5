import Verif.Model.Frontend
import Verif.Lemmas.Weights

/-!
# Lemmas on the tables of errors
-/

namespace Plaquette
variable {F : Type}

theorem dictGet_foldl {K V : Type} [DecidableEq K] (v : V) (ks : List K) (d : List (K × V)) (k : K) :
    dictGet (ks.foldl (fun o k => dictSet o k v) d) k = if k ∈ ks then some v else dictGet d k := by
  induction ks generalizing d with
  | nil => simp
  | cons a ks ih =>
    rw [List.foldl_cons, ih, dictGet_set]
    by_cases h1 : k ∈ ks
    · simp [h1]
    · by_cases h2 : k = a <;> simp [h1, h2]

theorem dictGet_mapKey {K V : Type} [DecidableEq K] (l : List K) (f : K → V) (k : K) :
    dictGet (l.map fun a => (a, f a)) k = if k ∈ l then some (f k) else none := by
  induction l with
  | nil => simp [dictGet]
  | cons a l ih =>
    unfold dictGet at ih ⊢
    rw [List.map_cons, List.find?_cons]
    by_cases h : a = k
    · subst h; simp
    · simp only [h, decide_false, Bool.false_eq_true]
      rw [ih]
      simp [Ne.symm h]

theorem dictSet_map {K V : Type} [DecidableEq K] {l : List K} {f : K → V} {k : K} (hk : k ∈ l) (v : V) :
    dictSet (l.map fun a => (a, f a)) k v = l.map fun a => (a, if a = k then v else f a) := by
  unfold dictSet
  rw [if_pos (by simpa using hk), List.map_map]
  refine List.map_congr_left fun a _ => ?_
  by_cases h : a = k <;> simp [h]

/-! ### Gate errors -/

/-- The keys of the errors of a gate: the ancillas of the stabilisers, or the pairs of ancilla and data qubit. -/
def Lattice.gateTargets (L : Lattice) (gate : List Char) : List QKey :=
  if gate = "CX".toList ∨ gate = "CZ".toList then L.gatePairs.map fun q => .tup [(q.1 : Int), (q.2 : Int)]
  else L.stabgens.map fun s => .int (L.idx s.1 : Int)

/-- The channels of a gate: one or two letters. -/
def ChannelOf (gate P : List Char) : Prop :=
  if gate = "CX".toList ∨ gate = "CZ".toList then P.length = 2 else P.length = 1

/-- The row of one constant channel. -/
def oneRow (L : Lattice) (e : List Char × List Char × F) : GateRow F :=
  ⟨e.1, if e.1 = "CX".toList ∨ e.1 = "CZ".toList then L.gatePairs.flatMap fun q => [q.1, q.2] else L.stabgens.map fun s => L.idx s.1,
    [e.2.1], [e.2.2]⟩

theorem pairUp_flatMap (l : List (Nat × Nat)) : pairUp (l.flatMap fun q => [q.1, q.2]) = .ok (l.map fun q => .tup [(q.1 : Int), (q.2 : Int)]) := by
  induction l with
  | nil => rfl
  | cons a l ih =>
    rw [List.flatMap_cons, List.cons_append, List.cons_append, List.nil_append, pairUp, ih]
    rfl

theorem addRow_one (L : Lattice) {enabled : List (List Char)} {e : List Char × List Char × F}
    (hg : e.1 ∈ (["CZ".toList, "CX".toList, "H".toList, "R".toList, "M".toList] : List (List Char))) (he : e.1 ∈ enabled)
    (hP : ChannelOf e.1 e.2.1) (d : List (List Char × ErrDict F)) :
    addRow enabled d (oneRow L e) =
      .ok (dictSet d e.1 ((L.gateTargets e.1).foldl (fun o k => dictSet o k [(e.2.1.map Char.toLower, .flt e.2.2)]) ((dictGet d e.1).getD []))) := by
  have hp : (oneRow L e).params = [(e.2.1.map Char.toLower, .flt e.2.2)] := by simp [oneRow, GateRow.params, dictSet]
  unfold addRow
  rw [hp]
  have e1 : (oneRow L e).gate = e.1 := rfl
  rw [e1, if_neg (by simpa using he)]
  dsimp only
  by_cases h2 : e.1 = "CX".toList ∨ e.1 = "CZ".toList
  · have h1 : ¬ (e.1 = "H".toList ∨ e.1 = "M".toList ∨ e.1 = "R".toList) := by rcases h2 with h | h <;> rw [h] <;> decide
    unfold ChannelOf at hP
    rw [if_pos h2] at hP
    rw [if_neg h1, if_pos h2, if_neg]
    · simp only [oneRow, if_pos h2, pairUp_flatMap, Lattice.gateTargets]
    · simp only [oneRow, List.any_cons, List.any_nil, Bool.or_false, decide_eq_true_eq]
      intro h
      simp only [List.mem_cons, List.not_mem_nil, or_false] at h
      rcases h with h | h | h <;> rw [h] at hP <;> exact absurd hP (by decide)
  · have h1 : e.1 = "H".toList ∨ e.1 = "M".toList ∨ e.1 = "R".toList := by
      simp only [List.mem_cons, List.not_mem_nil, or_false] at hg
      tauto
    rw [if_pos h1]
    simp only [oneRow, if_neg h2, Lattice.gateTargets, List.foldl_map]

theorem rows_dict (L : Lattice) {enabled : List (List Char)} (es : List (List Char × List Char × F)) (hn : (es.map Prod.fst).Nodup)
    (hg : ∀ e ∈ es, e.1 ∈ (["CZ".toList, "CX".toList, "H".toList, "R".toList, "M".toList] : List (List Char))) (he : ∀ e ∈ es, e.1 ∈ enabled)
    (hP : ∀ e ∈ es, ChannelOf e.1 e.2.1) : ∀ d0 : List (List Char × ErrDict F), ∃ d, foldE (addRow enabled) d0 (es.map (oneRow L)) = .ok d ∧
      ∀ g k, (dictGet d g).bind (dictGet · k) = match dictGet es g with
        | some (P, p) => if k ∈ L.gateTargets g then some [(P.map Char.toLower, .flt p)] else (dictGet d0 g).bind (dictGet · k)
        | none => (dictGet d0 g).bind (dictGet · k) := by
  induction es with
  | nil => intro d0; exact ⟨d0, rfl, fun g k => rfl⟩
  | cons e es ih =>
    intro d0
    rw [List.map_cons, List.nodup_cons] at hn
    obtain ⟨d, h1, h2⟩ := ih hn.2 (fun x hx => hg x (List.mem_cons_of_mem _ hx)) (fun x hx => he x (List.mem_cons_of_mem _ hx))
      (fun x hx => hP x (List.mem_cons_of_mem _ hx)) (dictSet d0 e.1 ((L.gateTargets e.1).foldl (fun o k => dictSet o k
        [(e.2.1.map Char.toLower, .flt e.2.2)]) ((dictGet d0 e.1).getD [])))
    refine ⟨d, ?_, fun g k => ?_⟩
    · rw [List.map_cons, foldE, addRow_one L (hg e List.mem_cons_self) (he e List.mem_cons_self) (hP e List.mem_cons_self)]
      exact h1
    · rw [h2]
      by_cases hge : e.1 = g
      · have hno : dictGet es g = none := dictGet_none.2 fun x hx hxg => hn.1 (by rw [hge, ← hxg]; exact List.mem_map_of_mem hx)
        have hyes : dictGet (e :: es) g = some e.2 := by simp [dictGet, hge]
        rw [hno, hyes]
        dsimp only
        rw [← hge, dictGet_set, if_pos rfl, Option.bind_some, dictGet_foldl]
        congr 1
        cases dictGet d0 e.1 <;> simp [dictGet]
      · have : dictGet (e :: es) g = dictGet es g := by simp [dictGet, hge]
        rw [this, dictGet_set, if_neg (Ne.symm hge)]

/-- The configuration of a gate with one constant channel. -/
def oneChannel (P : List Char) (p : F) : GateMeta F := ⟨.list ["constant".toList], [P], [[p]], true⟩

theorem simLoop_one {c : GateConfig F} {spec : List Char → Option (List Char × F)} (order : List (List Char))
    (h : ∀ g ∈ order, match spec g with
      | none => (c.chan g).isEmpty = true ∨ (c.chan g).enabled = false
      | some (P, p) => c.chan g = oneChannel P p) :
    c.simLoop order = .ok (order.filterMap fun g => (spec g).map fun s => (g, GateSim.channels [("constant".toList, s.1, [s.2])])) := by
  induction order with
  | nil => rfl
  | cons g order ih =>
    have hg := h g List.mem_cons_self
    unfold GateConfig.simLoop
    rw [ih fun x hx => h x (List.mem_cons_of_mem _ hx), List.filterMap_cons]
    cases hs : spec g with
    | none =>
      rw [hs] at hg
      rw [if_neg]
      · rfl
      · rcases hg with h | h <;> simp [h]
    | some s =>
      rw [hs] at hg
      rw [if_pos]
      · have : (c.chan g).sim = .ok (GateSim.channels [("constant".toList, s.1, [s.2])]) := by rw [hg]; rfl
        rw [this]
        rfl
      · rw [hg]; rfl

theorem rowsOne_const (L : Lattice) (draws : List F) (g P : List Char) (p : F) :
    rowsOne L draws g ("constant".toList, P, [p]) = .ok [⟨g, L.stabgens.map fun s => L.idx s.1, [P], [p]⟩] := by
  generalize hc : "constant".toList = c
  unfold rowsOne
  dsimp only
  rw [if_pos hc.symm]

theorem rowsTwo_const (L : Lattice) (draws : List F) (g P : List Char) (p : F) :
    rowsTwo L draws g ("constant".toList, P, [p]) = .ok [⟨g, L.gatePairs.flatMap fun q => [q.1, q.2], [P], [p]⟩] := by
  generalize hc : "constant".toList = c
  unfold rowsTwo
  dsimp only
  rw [if_pos hc.symm]

theorem assimilate_one (L : Lattice) (csv : List (GateRow F)) (draws : List Char → List F) (es : List (List Char × List Char × F))
    (hg : ∀ e ∈ es, e.1 ∈ (["CZ".toList, "CX".toList, "H".toList, "R".toList, "M".toList] : List (List Char))) :
    assimilateGates L csv draws (es.map fun e => (e.1, GateSim.channels [("constant".toList, e.2.1, [e.2.2])])) = .ok (es.map (oneRow L)) := by
  induction es with
  | nil => rfl
  | cons e es ih =>
    have h1 : assimilateGate L csv draws (e.1, GateSim.channels [("constant".toList, e.2.1, [e.2.2])]) = .ok [oneRow L e] := by
      unfold assimilateGate
      dsimp only
      have := hg e List.mem_cons_self
      simp only [List.mem_cons, List.not_mem_nil, or_false] at this
      by_cases h2 : e.1 = "CX".toList ∨ e.1 = "CZ".toList
      · have h1 : ¬ (e.1 = "H".toList ∨ e.1 = "M".toList ∨ e.1 = "R".toList) := by rcases h2 with h | h <;> rw [h] <;> decide
        rw [if_neg h1, if_pos h2]
        rw [rowsLoop, rowsTwo_const, rowsLoop, oneRow, if_pos h2]; rfl
      · have h1 : e.1 = "H".toList ∨ e.1 = "M".toList ∨ e.1 = "R".toList := by tauto
        rw [if_pos h1]
        rw [rowsLoop, rowsOne_const, rowsLoop, oneRow, if_neg h2]; rfl
    rw [List.map_cons, assimilateGates, h1, ih fun x hx => hg x (List.mem_cons_of_mem _ hx)]
    rfl

/-! ### Qubit errors -/

/-- The kind of an error in the dictionary, its parameter, and whether it is for data qubits. -/
def kindOf (e : List Char) : Option (List Char × List Char × Bool) :=
  if e = "X".toList ∨ e = "Y".toList ∨ e = "Z".toList then some ("pauli".toList, e.map Char.toLower, true)
  else if e = "erasure".toList then some ("erasure".toList, "p".toList, true)
  else if e = "measurement".toList then some ("measurement".toList, "p".toList, false)
  else none

variable {t : QubitTable F} {v : List Char → Nat → F}

theorem fill_ok {e par : List Char} (f : Nat → Params F) (qs : List Nat) (h : ∀ q ∈ qs, t.cell e q = .ok (v e q)) :
    t.fill e par (qs.map fun (q : Nat) => (QKey.int (q : Int), f q)) = .ok (qs.map fun (q : Nat) => (QKey.int (q : Int), dictSet (f q) par (.flt (v e q)))) := by
  induction qs with
  | nil => rfl
  | cons q qs ih =>
    rw [List.map_cons, QubitTable.fill]
    rw [show ((q : Int)).toNat = q from rfl, h q List.mem_cons_self, ih fun x hx => h x (List.mem_cons_of_mem _ hx)]
    rfl

/-- The qubits of a kind. -/
def QubitTable.ids (t : QubitTable F) (data : Bool) : List Nat := (t.qubits.filter fun q => q.2 = data).map Prod.fst

/-- The errors of one kind, after the errors `es` of this kind have been added. -/
def kindParams (v : List Char → Nat → F) (es : List (List Char)) (kind : List Char) (q : Nat) : Params F :=
  es.foldl (fun ps e => match kindOf e with
    | some (k, par, _) => if k = kind then dictSet ps par (.flt (v e q)) else ps
    | none => ps) []

/-- Is there an error of the kind? -/
def hasKind (es : List (List Char)) (kind : List Char) : Bool := es.any fun e => (kindOf e).any fun k => k.1 = kind

/-- Data qubits, or stabilisers? -/
def kindData (kind : List Char) : Bool := decide (kind ≠ "measurement".toList)

theorem kindOf_data {e kind par : List Char} {data : Bool} (h : kindOf e = some (kind, par, data)) :
    data = kindData kind := by
  unfold kindOf at h
  split at h
  · cases h; rfl
  split at h
  · cases h; rfl
  split at h
  · cases h; rfl
  · cases h

theorem addKind_ok {d : List (List Char × ErrDict F)} {es : List (List Char)} {e : List Char} (h : ∀ q data, q ∈ t.ids data → (kindOf e).isSome → t.cell e q = .ok (v e q))
    (hd : ∀ kind, dictGet d kind = if hasKind es kind then some ((t.ids (kindData kind)).map fun (q : Nat) => (QKey.int (q : Int), kindParams v es kind q)) else none) :
    ∃ d', t.addKind d e = .ok d' ∧ ∀ kind, dictGet d' kind =
      if hasKind (es ++ [e]) kind then some ((t.ids (kindData kind)).map fun (q : Nat) => (QKey.int (q : Int), kindParams v (es ++ [e]) kind q)) else none := by
  have key : ∀ kind par data, kindOf e = some (kind, par, data) → ∃ d', (match t.fill e par (match dictGet d kind with
      | some o => o
      | none => (t.qubits.filter fun q => q.2 = data).map fun q => (QKey.int (q.1 : Int), [])) with
    | .error x => .error x
    | .ok new => .ok (dictSet d kind new) : Except Err (List (List Char × ErrDict F))) = .ok d' ∧ ∀ kind, dictGet d' kind =
      if hasKind (es ++ [e]) kind then some ((t.ids (kindData kind)).map fun (q : Nat) => (QKey.int (q : Int), kindParams v (es ++ [e]) kind q)) else none := by
    intro kind par data hk
    have hdata := kindOf_data hk
    subst hdata
    have hold : (match dictGet d kind with
      | some o => o
      | none => (t.qubits.filter fun q => q.2 = kindData kind).map fun q => (QKey.int (q.1 : Int), [])) =
        (t.ids (kindData kind)).map fun (q : Nat) => (QKey.int (q : Int), kindParams v es kind q) := by
      rw [hd kind]
      by_cases hh : hasKind es kind = true
      · rw [if_pos hh]
      · rw [if_neg hh]
        unfold QubitTable.ids
        rw [List.map_map]
        refine List.map_congr_left fun q _ => ?_
        simp only [Function.comp]
        congr 1
        unfold kindParams
        have : ∀ (l : List (List Char)) (ps : Params F), hasKind l kind = false → l.foldl (fun ps e => match kindOf e with
          | some (k, par, _) => if k = kind then dictSet ps par (.flt (v e q.1)) else ps
          | none => ps) ps = ps := by
          intro l
          induction l with
          | nil => intro ps _; rfl
          | cons a l ih =>
            intro ps hl
            rw [hasKind, List.any_cons, Bool.or_eq_false_iff] at hl
            rw [List.foldl_cons]
            have : (match kindOf a with
              | some (k, par, _) => if k = kind then dictSet ps par (.flt (v a q.1)) else ps
              | none => ps) = ps := by
              cases hka : kindOf a with
              | none => rfl
              | some x =>
                rw [hka] at hl
                have := hl.1
                simp only [Option.any_some, decide_eq_false_iff_not] at this
                dsimp only
                rw [if_neg this]
            rw [this]
            exact ih ps hl.2
        rw [this es [] (by simpa using hh)]
    rw [hold, fill_ok (v := v) _ _ fun q hq => h q _ hq (by rw [hk]; rfl)]
    refine ⟨_, rfl, fun kind' => ?_⟩
    rw [dictGet_set]
    by_cases hkk : kind' = kind
    · subst hkk
      rw [if_pos rfl, if_pos]
      · simp only [kindParams, List.foldl_append, List.foldl_cons, List.foldl_nil, hk, if_true]
      · rw [hasKind, List.any_append, Bool.or_eq_true]
        right
        simp [hk]
    · rw [if_neg hkk, hd kind']
      have h1 : hasKind (es ++ [e]) kind' = hasKind es kind' := by
        simp only [hasKind, List.any_append, List.any_cons, List.any_nil, hk, Option.any_some, Bool.or_false]
        simp [Ne.symm hkk]
      have h2 : ∀ q, kindParams v (es ++ [e]) kind' q = kindParams v es kind' q := by
        intro q
        simp only [kindParams, List.foldl_append, List.foldl_cons, List.foldl_nil, hk]
        rw [if_neg (Ne.symm hkk)]
      simp only [h1, h2]
  unfold QubitTable.addKind
  dsimp only
  by_cases hX : e = "X".toList ∨ e = "Y".toList ∨ e = "Z".toList
  · rw [if_pos hX]
    exact key _ _ _ (by unfold kindOf; rw [if_pos hX])
  rw [if_neg hX]
  by_cases hE : e = "erasure".toList
  · rw [if_pos hE]
    exact key _ _ _ (by unfold kindOf; rw [if_neg hX, if_pos hE])
  rw [if_neg hE]
  by_cases hM : e = "measurement".toList
  · rw [if_pos hM]
    exact key _ _ _ (by unfold kindOf; rw [if_neg hX, if_neg hE, if_pos hM])
  rw [if_neg hM]
  have hk : kindOf e = none := by unfold kindOf; rw [if_neg hX, if_neg hE, if_neg hM]
  refine ⟨d, rfl, fun kind => ?_⟩
  have h1 : hasKind (es ++ [e]) kind = hasKind es kind := by
    simp only [hasKind, List.any_append, List.any_cons, List.any_nil, hk, Option.any_none, Bool.or_false]
  have h2 : ∀ q, kindParams v (es ++ [e]) kind q = kindParams v es kind q := by
    intro q
    simp only [kindParams, List.foldl_append, List.foldl_cons, List.foldl_nil, hk]
  simp only [h1, h2]
  exact hd kind

theorem dict_ok {enabled : List (List Char)} (h : ∀ e ∈ enabled, ∀ q data, q ∈ t.ids data → (kindOf e).isSome → t.cell e q = .ok (v e q)) :
    ∃ d, t.dict enabled = .ok d ∧ ∀ kind, dictGet d kind =
      if hasKind enabled kind then some ((t.ids (kindData kind)).map fun (q : Nat) => (QKey.int (q : Int), kindParams v enabled kind q)) else none := by
  suffices H : ∀ (l es : List (List Char)) (d : List (List Char × ErrDict F)), (∀ e ∈ l, e ∈ enabled) → (∀ kind, dictGet d kind =
      if hasKind es kind then some ((t.ids (kindData kind)).map fun (q : Nat) => (QKey.int (q : Int), kindParams v es kind q)) else none) →
      ∃ d', foldE t.addKind d l = .ok d' ∧ ∀ kind, dictGet d' kind =
      if hasKind (es ++ l) kind then some ((t.ids (kindData kind)).map fun (q : Nat) => (QKey.int (q : Int), kindParams v (es ++ l) kind q)) else none by
    exact H enabled [] [] (fun _ h => h) fun kind => by simp [dictGet, hasKind]
  intro l
  induction l with
  | nil => intro es d _ hd; exact ⟨d, rfl, by simpa using hd⟩
  | cons e l ih =>
    intro es d hl hd
    obtain ⟨d1, h1, h2⟩ := addKind_ok (v := v) (fun q data hq => h e (hl e List.mem_cons_self) q data hq) hd
    obtain ⟨d2, h3, h4⟩ := ih (es ++ [e]) d1 (fun x hx => hl x (List.mem_cons_of_mem _ hx)) h2
    refine ⟨d2, ?_, by simpa using h4⟩
    unfold foldE
    rw [h1]
    exact h3

/-! ### Constant qubit errors -/

/-- The constant errors of a configuration. -/
def constEntries (spec : List Char → Option F) (order : List (List Char)) : List (List Char × List Char × List F) :=
  order.filterMap fun e => (spec e).map fun p => (e, "constant".toList, [p])

theorem mem_constEntries {spec : List Char → Option F} {order : List (List Char)} {x : List Char × List Char × List F} :
    x ∈ constEntries spec order ↔ ∃ e ∈ order, ∃ p, spec e = some p ∧ x = (e, "constant".toList, [p]) := by
  unfold constEntries
  rw [List.mem_filterMap]
  refine exists_congr fun e => and_congr_right fun _ => ?_
  rw [Option.map_eq_some_iff]
  exact exists_congr fun p => and_congr_right fun _ => eq_comm

theorem assimilateQubit_const (csv : List (List Char × List (Nat × F))) (draws : List Char → List F) (t : QubitTable F) (e : List Char) (p : F) :
    assimilateQubit csv draws t (e, "constant".toList, [p]) = .ok { t with cols := dictSet t.cols e (t.qubits.map fun _ => p) } := by
  generalize hc : "constant".toList = c
  unfold assimilateQubit
  dsimp only
  rw [if_pos hc.symm]

theorem foldE_const (csv : List (List Char × List (Nat × F))) (draws : List Char → List F) (spec : List Char → Option F)
    (order : List (List Char)) : ∀ t : QubitTable F, ∃ t', foldE (assimilateQubit csv draws) t (constEntries spec order) = .ok t' ∧
      t'.qubits = t.qubits ∧ ∀ e, dictGet t'.cols e = if e ∈ order ∧ (spec e).isSome then (spec e).map fun p => t.qubits.map fun _ => p
        else dictGet t.cols e := by
  induction order with
  | nil => intro t; exact ⟨t, rfl, rfl, fun e => by simp⟩
  | cons a order ih =>
    intro t
    cases hs : spec a with
    | none =>
      obtain ⟨t', h1, h2, h3⟩ := ih t
      refine ⟨t', ?_, h2, fun e => ?_⟩
      · unfold constEntries
        rw [List.filterMap_cons, hs]
        exact h1
      · rw [h3]
        by_cases hea : e = a
        · subst hea; simp [hs]
        · simp [hea]
    | some p =>
      obtain ⟨t', h1, h2, h3⟩ := ih { t with cols := dictSet t.cols a (t.qubits.map fun _ => p) }
      refine ⟨t', ?_, h2, fun e => ?_⟩
      · unfold constEntries
        rw [List.filterMap_cons, hs, Option.map_some]
        dsimp only
        rw [foldE, assimilateQubit_const]
        exact h1
      · rw [h3]
        dsimp only
        rw [dictGet_set]
        by_cases hea : e = a
        · subst hea; simp [hs]
        · simp [hea]

theorem simulated_const {c : QubitConfig F} {spec : List Char → Option F} (order : List (List Char)) (hs : c.sample = true)
    (h : ∀ e ∈ order, match spec e with
      | none => (c.chan e).isEmpty = true ∨ (c.chan e).enabled = false
      | some p => c.chan e = ⟨"constant".toList, [p], true⟩) :
    c.simulated order = some (constEntries spec order) := by
  unfold QubitConfig.simulated constEntries
  rw [if_neg (by simp [hs])]
  congr 1
  refine List.filterMap_congr fun e he => ?_
  have := h e he
  dsimp only
  cases hse : spec e with
  | none =>
    rw [hse] at this
    rw [if_neg]
    · rfl
    · rcases this with h | h <;> simp [h]
  | some p =>
    rw [hse] at this
    have this : c.chan e = ⟨"constant".toList, [p], true⟩ := this
    rw [if_pos, if_neg]
    · rw [this]; rfl
    · rw [this]; dsimp only; decide
    · rw [this]; rfl

theorem dictGet_const (qs : List (Nat × Bool)) (p : F) {q : Nat} (h : q ∈ qs.map Prod.fst) :
    dictGet (qs.zip (qs.map fun _ => p) |>.map fun x => (x.1.1, x.2)) q = some p := by
  induction qs with
  | nil => simp at h
  | cons a qs ih =>
    unfold dictGet at ih ⊢
    rw [List.map_cons, List.zip_cons_cons, List.map_cons, List.find?_cons]
    by_cases ha : a.1 = q
    · simp [ha]
    · simp only [ha, decide_false]
      exact ih (by simpa [Ne.symm ha] using h)

theorem kindOf_inj {e e' kind par : List Char} {d d' : Bool} (h : kindOf e = some (kind, par, d)) (h' : kindOf e' = some (kind, par, d')) :
    e = e' := by
  have key : ∀ {e : List Char} {d : Bool}, kindOf e = some (kind, par, d) →
      (e = "X".toList ∧ kind = "pauli".toList ∧ par = "x".toList) ∨ (e = "Y".toList ∧ kind = "pauli".toList ∧ par = "y".toList) ∨
      (e = "Z".toList ∧ kind = "pauli".toList ∧ par = "z".toList) ∨ (e = "erasure".toList ∧ kind = "erasure".toList) ∨
      (e = "measurement".toList ∧ kind = "measurement".toList) := by
    intro e d h
    unfold kindOf at h
    split at h
    · rename_i hx
      rcases hx with rfl | rfl | rfl <;> cases h
      · exact .inl ⟨rfl, rfl, rfl⟩
      · exact .inr (.inl ⟨rfl, rfl, rfl⟩)
      · exact .inr (.inr (.inl ⟨rfl, rfl, rfl⟩))
    split at h
    · rename_i hx; cases h; exact .inr (.inr (.inr (.inl ⟨hx, rfl⟩)))
    split at h
    · rename_i hx; cases h; exact .inr (.inr (.inr (.inr ⟨hx, rfl⟩)))
    · cases h
  rcases key h with ⟨a, b, c⟩ | ⟨a, b, c⟩ | ⟨a, b, c⟩ | ⟨a, b⟩ | ⟨a, b⟩ <;>
    rcases key h' with ⟨a', b', c'⟩ | ⟨a', b', c'⟩ | ⟨a', b', c'⟩ | ⟨a', b'⟩ | ⟨a', b'⟩ <;> first
    | exact a.trans a'.symm
    | exact absurd (b.symm.trans b') (by decide)
    | exact absurd (c.symm.trans c') (by decide)

theorem dictGet_kindParams (v : List Char → Nat → F) (es : List (List Char)) {e kind par : List Char} {d : Bool}
    (h : kindOf e = some (kind, par, d)) (q : Nat) :
    dictGet (kindParams v es kind q) par = if e ∈ es then some (.flt (v e q)) else none := by
  unfold kindParams
  suffices H : ∀ ps : Params F, dictGet (es.foldl (fun ps e => match kindOf e with
      | some (k, par, _) => if k = kind then dictSet ps par (.flt (v e q)) else ps
      | none => ps) ps) par = if e ∈ es then some (.flt (v e q)) else dictGet ps par by
    rw [H []]; rfl
  induction es with
  | nil => intro ps; simp
  | cons a es ih =>
    intro ps
    rw [List.foldl_cons, ih]
    by_cases hm : e ∈ es
    · simp [hm]
    rw [if_neg hm]
    by_cases ha : e = a
    · subst ha
      rw [h]
      dsimp only
      rw [if_pos rfl, dictGet_set, if_pos rfl, if_pos List.mem_cons_self]
    · rw [if_neg (by simp [hm, ha])]
      cases hk : kindOf a with
      | none => rfl
      | some x =>
        obtain ⟨k', par', d'⟩ := x
        dsimp only
        by_cases hkk : k' = kind
        · subst hkk
          rw [if_pos rfl, dictGet_set, if_neg]
          rintro rfl
          exact ha (kindOf_inj h hk)
        · rw [if_neg hkk]

/-- The dictionary of constant qubit errors. -/
theorem constDict (zero : F) (L : Lattice) (csv : List (List Char × List (Nat × F))) (draws : List Char → List F) (spec : List Char → Option F)
    {qorder order : List (List Char)} (ho : ∀ e ∈ qorder, e ∈ qubitKeys) (hf : ∀ e ∈ qubitKeys, e ∈ qorder) (ho' : ∀ e ∈ qubitKeys, e ∈ order) :
    ∃ t d, assimilateQubits zero L csv draws (constEntries spec qorder) = .ok t ∧
      t.dict (order.filter fun e => e ∈ (constEntries spec qorder).map Prod.fst) = .ok d ∧
      ∀ e kind par data q, e ∈ qubitKeys → kindOf e = some (kind, par, data) →
        (((dictGet d kind).bind (dictGet · (.int (q : Nat)))).bind (dictGet · par)) =
          if (q, data) ∈ L.qubitInfo then (spec e).map .flt else none := by
  obtain ⟨t, h1, h2, h3⟩ := foldE_const csv draws spec qorder
    ⟨L.qubitInfo, (constEntries spec qorder).map fun e => (e.1, L.qubitInfo.map fun _ => zero)⟩
  dsimp only at h2 h3
  have hen : ∀ e, e ∈ (constEntries spec qorder).map Prod.fst ↔ e ∈ qorder ∧ (spec e).isSome := by
    intro e
    rw [List.mem_map]
    constructor
    · rintro ⟨x, hx, rfl⟩
      obtain ⟨e, he, p, hp, rfl⟩ := mem_constEntries.1 hx
      exact ⟨he, by rw [hp]; rfl⟩
    · rintro ⟨he, hp⟩
      obtain ⟨p, hp⟩ := Option.isSome_iff_exists.1 hp
      exact ⟨_, mem_constEntries.2 ⟨e, he, p, hp, rfl⟩, rfl⟩
  have hid : ∀ {q : Nat} {data : Bool}, q ∈ t.ids data ↔ (q, data) ∈ L.qubitInfo := by
    intro q data
    unfold QubitTable.ids
    rw [h2, List.mem_map]
    constructor
    · rintro ⟨x, hx, rfl⟩
      rw [List.mem_filter, decide_eq_true_eq] at hx
      obtain ⟨hx, rfl⟩ := hx
      exact hx
    · intro h
      exact ⟨_, List.mem_filter.2 ⟨h, by simp⟩, rfl⟩
  obtain ⟨d, h4, h5⟩ := dict_ok (t := t) (v := fun e _ => (spec e).getD zero)
    (enabled := order.filter fun e => e ∈ (constEntries spec qorder).map Prod.fst) (by
    intro e he q data hq _
    rw [List.mem_filter, decide_eq_true_eq, hen] at he
    obtain ⟨p, hp⟩ := Option.isSome_iff_exists.1 he.2.2
    unfold QubitTable.cell
    rw [h3, if_pos he.2, hp, Option.map_some, h2]
    dsimp only
    rw [dictGet_const _ _ (List.mem_map_of_mem (hid.1 hq))]
    rfl)
  refine ⟨t, d, ?_, h4, ?_⟩
  · unfold assimilateQubits
    rw [if_neg]
    · exact h1
    · rw [List.any_eq_true]
      rintro ⟨x, hx, hn⟩
      obtain ⟨e, he, p, hp, rfl⟩ := mem_constEntries.1 hx
      simp only [decide_not, Bool.not_eq_true', decide_eq_false_iff_not] at hn
      exact hn (ho e he)
  · intro e kind par data q he hk
    have hdata := kindOf_data hk
    rw [h5]
    have hmem : e ∈ order.filter (fun e => e ∈ (constEntries spec qorder).map Prod.fst) ↔ (spec e).isSome := by
      rw [List.mem_filter, decide_eq_true_eq, hen]
      exact ⟨fun h => h.2.2, fun h => ⟨ho' e he, hf e he, h⟩⟩
    by_cases hh : hasKind (order.filter fun e => e ∈ (constEntries spec qorder).map Prod.fst) kind = true
    · rw [if_pos hh, Option.bind_some]
      have hl : dictGet ((t.ids (kindData kind)).map fun (q : Nat) => (QKey.int (q : Int), kindParams (fun e _ => (spec e).getD zero)
          (order.filter fun e => e ∈ (constEntries spec qorder).map Prod.fst) kind q)) (.int (q : Nat)) =
          if q ∈ t.ids (kindData kind) then some (kindParams (fun e _ => (spec e).getD zero)
          (order.filter fun e => e ∈ (constEntries spec qorder).map Prod.fst) kind q) else none := by
        generalize t.ids (kindData kind) = l
        induction l with
        | nil => simp [dictGet]
        | cons a l ih =>
          unfold dictGet at ih ⊢
          rw [List.map_cons, List.find?_cons]
          by_cases ha : a = q
          · subst ha; simp
          · have : ¬ (QKey.int (a : Int) = QKey.int (q : Int)) := by
              intro h; injection h with h; exact ha (by exact_mod_cast h)
            simp only [this, decide_false]
            rw [ih]
            simp [Ne.symm ha]
      rw [hl]
      by_cases hq : q ∈ t.ids (kindData kind)
      · rw [if_pos hq, Option.bind_some, dictGet_kindParams _ _ hk, if_pos (hid.1 (hdata ▸ hq))]
        by_cases hs : (spec e).isSome
        · rw [if_pos (hmem.2 hs)]
          obtain ⟨p, hp⟩ := Option.isSome_iff_exists.1 hs
          rw [hp]; rfl
        · rw [if_neg (fun h => hs (hmem.1 h))]
          rw [Option.not_isSome_iff_eq_none.1 hs]; rfl
      · rw [if_neg hq, if_neg (fun h => hq (hdata ▸ hid.2 h))]
        rfl
    · rw [if_neg hh]
      have : spec e = none := by
        by_contra hne
        refine hh (List.any_eq_true.2 ⟨e, hmem.2 (Option.isSome_iff_ne_none.2 hne), ?_⟩)
        rw [hk]; simp
      rw [this]
      split <;> rfl

end Plaquette
