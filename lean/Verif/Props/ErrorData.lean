import Verif.Lemmas.ErrorData
import Verif.Lemmas.Circuit

/-!
# C77 to C81: the tables of errors

The values are data of a type `F` with values `zero` and `nan`; `order` is the order in which python runs through the set of
enabled errors.
-/

namespace Plaquette
variable {F : Type} [DecidableEq F] [Inhabited F]

/-- A small table: two data qubits and a stabiliser with errors X, and an error of a Hadamard gate. -/
def exampleTable : ErrTable Nat :=
  ⟨[⟨0, some (0, true)⟩, ⟨1, some (1, true)⟩, ⟨2, some (2, false)⟩], [("X".toList, [11, 12, 13])],
    [⟨"H".toList, [2], ["X".toList], [21]⟩], ["X".toList], ["H".toList]⟩

theorem exampleTable_usable : exampleTable.Usable := by
  refine ⟨⟨?_, by decide, by decide, by decide⟩, ?_, ?_⟩
  · intro r hr
    fin_cases hr
    · exact ⟨true, rfl⟩
    · exact ⟨true, rfl⟩
    · exact ⟨false, rfl⟩
  · intro e he _
    fin_cases he
    decide
  · intro r hr _ h
    fin_cases hr
    exact absurd h (by decide)

/-! ### C77: adding errors of qubits -/

/-- C77, the dictionary of errors: it has exactly the values of the tables, for the enabled errors; of the rows for the same gate
and qubits the bottom-most one counts. -/
theorem C77_dict (d : ErrTable F) (h : d.Usable) (order : List (List Char)) :
    ∃ D, d.dict order = .ok D ∧
      (∀ e kind par data, ErrorPlace e kind par data → ∀ (q : Nat) v,
        DictHas D kind (.int q) par v ↔ e ∈ d.enabledQ ∧ e ∈ order ∧ d.IsQubit q data ∧ d.At e q v) ∧
      ∀ g, g ∈ oneGates ∨ g ∈ twoGates → ∀ k par v, DictHas D g k par v ↔ g ∈ d.enabledG ∧ RowsGive d.gates g k par v :=
  h.dict_spec

/-- The example of C77_dict. -/
example : ∃ D, exampleTable.dict ["X".toList] = .ok D ∧ DictHas D "pauli".toList (.int 1) "x".toList 12 ∧ DictHas D "H".toList (.int 2) "x".toList 21 := by
  obtain ⟨D, h1, h2, h3⟩ := C77_dict exampleTable exampleTable_usable ["X".toList]
  refine ⟨D, h1, (h2 "X".toList _ _ true (by unfold ErrorPlace; decide) 1 12).2 ⟨by decide, by decide, ⟨⟨1, some (1, true)⟩, by decide, rfl, rfl⟩,
      ⟨[11, 12, 13], by decide, 1, ⟨1, some (1, true)⟩, rfl, rfl, rfl⟩⟩,
    (h3 _ (.inl (by decide)) _ _ _).2 ⟨by decide, [], _, [], rfl, rfl, .inl ⟨by decide, 2, by decide, rfl⟩, ⟨[], [], rfl, by decide⟩, by simp⟩⟩

/-- C77: the errors given to `add_qubit_error`, if it accepts them, are in the dictionary. -/
def C77_statement : Prop := ∀ (nan : Nat) (d d' : ErrTable Nat) (ids : List Nat) (name : List Char) (probs : List Nat) (order : List (List Char)),
  d.Usable → (∀ p ∈ probs, p ≠ nan) → (∀ e kind par data, ErrorPlace e kind par data → e ∈ order) →
  d.addQubitError 0 nan ids name probs = .ok d' →
  ∃ D, d'.dict order = .ok D ∧ ∀ q ∈ ids, ∀ kind par data, ErrorPlace name kind par data → d.IsQubit q data →
    ∃ (i : Nat) (p : Nat), ids[i]? = some q ∧ probs[i]? = some p ∧ DictHas D kind (.int q) par p

/-- All five names. -/
def fiveNames : List (List Char) := ["X".toList, "Y".toList, "Z".toList, "erasure".toList, "measurement".toList]

theorem place_five {e kind par : List Char} {data : Bool} (h : ErrorPlace e kind par data) : e ∈ fiveNames := by
  unfold ErrorPlace at h
  simp only [List.map_cons, List.map_nil, List.mem_cons, Prod.mk.injEq, List.not_mem_nil, or_false] at h
  rcases h with ⟨h, _⟩ | ⟨h, _⟩ | ⟨h, _⟩ | ⟨h, _⟩ | ⟨h, _⟩ <;> rw [h] <;> decide

/-- C77 is false: with more qubits than probabilities the rest of the qubits gets no error, without a complaint. -/
theorem C77_length_counterexample : ¬ C77_statement := by
  intro h
  obtain ⟨D, _, h2⟩ := h 99 exampleTable _ [0, 1] "Z".toList [5] fiveNames exampleTable_usable (by decide) (fun e kind par data hp => place_five hp) rfl
  obtain ⟨i, p, hi, hp, _⟩ := h2 1 (by decide) "pauli".toList "z".toList true (by unfold ErrorPlace; decide) ⟨_, List.mem_cons_of_mem _ List.mem_cons_self, rfl, rfl⟩
  cases i with
  | zero => cases hi
  | succ i => cases hp

/-- C77 is false: a number that is no qubit of the table is accepted, and the table then has no dictionary. -/
theorem C77_label_counterexample : ¬ C77_statement ∧ ∃ d', exampleTable.addQubitError 0 99 [7] "Z".toList [5] = .ok d' ∧
    d'.dict fiveNames = .error .keyError := by
  have h1 : ∃ d', exampleTable.addQubitError 0 99 [7] "Z".toList [5] = .ok d' ∧ d'.dict fiveNames = .error .keyError := ⟨_, rfl, by rfl⟩
  refine ⟨fun h => ?_, h1⟩
  obtain ⟨d', h1, h2⟩ := h1
  obtain ⟨D, h3, _⟩ := h 99 exampleTable d' [7] "Z".toList [5] fiveNames exampleTable_usable (by decide) (fun e kind par data hp => place_five hp) h1
  rw [h2] at h3
  cases h3

/-- The value given to a qubit by `add_qubit_error`: the last one given, if it is a number, and otherwise zero. -/
def AddedValue (zero nan : F) (l : List (Nat × F)) (q : Nat) (v : F) : Prop :=
  (∃ p, LastGives l q p ∧ v = if p = nan then zero else p) ∨ (q ∉ l.map Prod.fst ∧ v = zero)

omit [Inhabited F] in
theorem addQubitError_spec (zero nan : F) (d : ErrTable F) (hd : d.Proper) (ids : List Nat) (name : List Char) (probs : List F)
    (hf : name ≠ "fabrication".toList) (hn : name ∉ d.columns) (hi : ∀ ip ∈ ids.zip probs, ip.1 ∈ d.rows.map EdRow.label) :
    ∃ d', d.addQubitError zero nan ids name probs = .ok d' ∧ d'.Proper ∧ d'.rows = d.rows ∧ d'.gates = d.gates ∧ d'.enabledG = d.enabledG ∧
      d'.cols.map Prod.fst = d.cols.map Prod.fst ++ [name] ∧ d'.enabledQ = setAdd d.enabledQ name ∧
      ∀ e q, d'.look e q = if e = name then (if q ∈ d.rows.map EdRow.label then
        some (let v := (lastGiven (ids.zip probs) q).getD nan; if v = nan then zero else v) else none) else d.look e q := by
  unfold ErrTable.addQubitError
  rw [if_neg hf, if_neg hn]
  dsimp only
  have hnew : name ∉ d.cols.map Prod.fst := fun h => hn (List.mem_append_right _ h)
  have hnone : dictGet d.cols name = none := dictGet_none.2 fun e he heq => hnew (heq ▸ List.mem_map_of_mem he)
  generalize hd1 : ({ d with enabledQ := setAdd d.enabledQ name, cols := d.cols ++ [(name, d.rows.map fun _ => nan)] } : ErrTable F) = d1
  have p1 : d1.Proper := by
    rw [← hd1]
    refine ⟨hd.info, hd.labels, ?_, ?_⟩
    · intro c hc
      rcases List.mem_append.1 hc with h | h
      · exact hd.full c h
      · rw [List.mem_singleton.1 h]; simp
    · dsimp only
      rw [List.map_append, List.nodup_append]
      refine ⟨hd.names, by simp, ?_⟩
      intro a ha b hb hab
      rw [List.map_singleton, List.mem_singleton] at hb
      rw [hab, hb] at ha
      exact hnew ha
  have r1 : d1.rows = d.rows := by rw [← hd1]
  have l1 : ∀ e q, d1.look e q = if e = name then (if q ∈ d.rows.map EdRow.label then some nan else none) else d.look e q := by
    intro e q
    rw [← hd1]
    unfold ErrTable.look
    dsimp only
    rw [dictGet_append]
    by_cases he : e = name
    · rw [if_pos he, he, hnone, Option.none_or]
      simp only [dictGet, List.find?_cons, decide_true, Option.map_some, Option.bind_some]
      exact entry_const nan d.rows q
    · rw [if_neg he]
      have : dictGet [(name, d.rows.map fun _ => nan)] e = none := dictGet_none.2 fun x hx hxe => he (by
        rw [List.mem_singleton.1 hx] at hxe; exact hxe.symm)
      rw [this, Option.or_none]
  obtain ⟨h1, h2, h3, h4, h5, h7, h6⟩ := foldl_setCell (nan := nan) (name := name) (ids.zip probs) p1 (by rw [r1]; exact hi)
  generalize (ids.zip probs).foldl (ErrTable.setCell nan name) d1 = d2 at *
  have hcols : (d2.fillNa zero nan name).cols = d2.cols.map fun c => (c.1, if c.1 = name then c.2.map (fun v => if v = nan then zero else v) else c.2) := by
    unfold ErrTable.fillNa
    dsimp only
    rw [mapIf name fun c => c.map fun v => if v = nan then zero else v]
  refine ⟨_, rfl, ⟨h1.info, h1.labels, ?_, ?_⟩, h2.trans r1, ?_, ?_, ?_, ?_, fun e q => ?_⟩
  · rw [hcols]
    intro c hc
    rw [List.mem_map] at hc
    obtain ⟨c, hc, rfl⟩ := hc
    dsimp only
    split
    · rw [List.length_map]; exact h1.full _ hc
    · exact h1.full _ hc
  · rw [hcols, List.map_map]
    exact h1.names
  · exact h3.trans (by rw [← hd1])
  · exact h5.trans (by rw [← hd1])
  · rw [hcols, List.map_map]
    have : Prod.fst ∘ (fun c : List Char × List F => (c.1, if c.1 = name then c.2.map (fun v => if v = nan then zero else v) else c.2)) = Prod.fst := rfl
    rw [this, h7, ← hd1]
    simp
  · exact h4.trans (by rw [← hd1])
  · have hl : (d2.fillNa zero nan name).look e q = if e = name then (d2.look e q).map (fun v => if v = nan then zero else v) else d2.look e q := by
      unfold ErrTable.look
      rw [hcols]
      rw [dictGet_mapVal (fun k (c : List F) => if k = name then c.map (fun v => if v = nan then zero else v) else c)]
      have hr : (d2.fillNa zero nan name).rows = d2.rows := rfl
      rw [hr]
      cases dictGet d2.cols e with
      | none => simp
      | some col =>
        rw [Option.map_some, Option.bind_some, Option.bind_some]
        by_cases he : e = name
        · rw [if_pos he, if_pos he, entry_map]
        · rw [if_neg he, if_neg he]
    rw [hl, h6, l1]
    by_cases he : e = name
    · rw [if_pos he, if_pos he, if_pos he, if_pos he]
      by_cases hq : q ∈ d.rows.map EdRow.label
      · rw [if_pos hq, if_pos hq]; rfl
      · rw [if_neg hq, if_neg hq]; rfl
    · rw [if_neg he, if_neg he, if_neg he, if_neg he]

theorem mem_setAdd {s : List (List Char)} {x e : List Char} : e ∈ setAdd s x ↔ e ∈ s ∨ e = x := by
  unfold setAdd
  by_cases h : x ∈ s
  · rw [if_pos h]
    constructor
    · exact .inl
    · rintro (h' | rfl)
      · exact h'
      · exact h
  · rw [if_neg h]; simp

omit [Inhabited F] in
theorem addedValue_iff {zero nan : F} {l : List (Nat × F)} {q : Nat} {v : F} :
    (let w := (lastGiven l q).getD nan; if w = nan then zero else w) = v ↔ AddedValue zero nan l q v := by
  unfold AddedValue
  dsimp only
  cases h : lastGiven l q with
  | some p =>
    rw [Option.getD_some]
    have hp := lastGiven_iff.1 h
    constructor
    · rintro rfl; exact .inl ⟨p, hp, rfl⟩
    · rintro (⟨p', hp', rfl⟩ | ⟨hq, _⟩)
      · have := lastGiven_iff.2 hp'
        rw [h] at this
        cases this
        rfl
      · rw [lastGiven_none.2 hq] at h; cases h
  | none =>
    have hq := lastGiven_none.1 h
    simp only [Option.getD_none, if_true]
    constructor
    · rintro rfl; exact .inr ⟨hq, rfl⟩
    · rintro (⟨p', hp', rfl⟩ | ⟨_, rfl⟩)
      · rw [lastGiven_iff.2 hp'] at h; cases h
      · rfl

omit [DecidableEq F] [Inhabited F] in
theorem isQubit_rows {d d' : ErrTable F} (h : d'.rows = d.rows) (q : Nat) (data : Bool) : d'.IsQubit q data ↔ d.IsQubit q data := by
  unfold ErrTable.IsQubit
  rw [h]

/-- C77, what holds: if the name is new and the qubits are in the table, `add_qubit_error` enables the error, every qubit gets the
last value given for it, or zero, and nothing else changes in the dictionary. (Missing: a check of the lengths and of the qubits.) -/
theorem C77_add_partial (zero nan : F) (d : ErrTable F) (hd : d.Usable) (ids : List Nat) (name : List Char) (probs : List F)
    (hf : name ≠ "fabrication".toList) (hn : name ∉ d.columns) (hi : ∀ q ∈ ids, ∃ t, d.IsQubit q t)
    (order : List (List Char)) (ho : ∀ e kind par data, ErrorPlace e kind par data → e ∈ order) :
    ∃ d' D D', d.addQubitError zero nan ids name probs = .ok d' ∧ d'.Usable ∧ d.dict order = .ok D ∧ d'.dict order = .ok D' ∧
      (∀ e kind par data, ErrorPlace e kind par data → ∀ (q : Nat) v, DictHas D' kind (.int q) par v ↔
        if e = name then d.IsQubit q data ∧ AddedValue zero nan (ids.zip probs) q v else DictHas D kind (.int q) par v) ∧
      ∀ g, g ∈ oneGates ∨ g ∈ twoGates → ∀ k par v, DictHas D' g k par v ↔ DictHas D g k par v := by
  have hi' : ∀ ip ∈ ids.zip probs, ip.1 ∈ d.rows.map EdRow.label := by
    intro ip hip
    obtain ⟨t, r, hr, hrl, _⟩ := hi ip.1 (List.of_mem_zip hip).1
    exact hrl ▸ List.mem_map_of_mem hr
  obtain ⟨d', h1, h2, h3, h4, h5, h6, h7, h8⟩ := addQubitError_spec zero nan d hd.proper ids name probs hf hn hi'
  have hu : d'.Usable := by
    refine ⟨h2, ?_, ?_⟩
    · intro e he hp
      rw [h7, mem_setAdd] at he
      rw [h6, List.mem_append, List.mem_singleton]
      rcases he with he | he
      · exact .inl (hd.cols e he hp)
      · exact .inr he
    · rw [h4, h5]; exact hd.rows
  obtain ⟨D, hD, hq, hg⟩ := hd.dict_spec (order := order)
  obtain ⟨D', hD', hq', hg'⟩ := hu.dict_spec (order := order)
  refine ⟨d', D, D', h1, hu, hD, hD', fun e kind par data hp q v => ?_, fun g hgg k par v => ?_⟩
  · rw [hq' e kind par data hp, h7, mem_setAdd, isQubit_rows h3, ← h2.look_iff, h8]
    by_cases he : e = name
    · rw [if_pos he, if_pos he, ← addedValue_iff]
      constructor
      · rintro ⟨_, _, hqq, hv⟩
        obtain ⟨r, hr, hrl, _⟩ := hqq
        rw [if_pos (hrl ▸ List.mem_map_of_mem hr)] at hv
        exact ⟨⟨r, hr, hrl, by assumption⟩, Option.some.inj hv⟩
      · rintro ⟨hqq, hv⟩
        have hqq' := hqq
        obtain ⟨r, hr, hrl, _⟩ := hqq
        rw [if_pos (hrl ▸ List.mem_map_of_mem hr)]
        exact ⟨.inr he, ho e kind par data hp, hqq', congrArg some hv⟩
    · rw [if_neg he, if_neg he, hq e kind par data hp, hd.proper.look_iff]
      simp [he]
  · rw [hg' g hgg, hg g hgg, h4, h5]

/-- The hypotheses of C77_add_partial are met by the example, and the last of two values for a qubit counts. -/
example : ∃ d' D', exampleTable.addQubitError 0 99 [0, 1, 0] "Z".toList [5, 6, 7] = .ok d' ∧ d'.dict fiveNames = .ok D' ∧
    DictHas D' "pauli".toList (.int 0) "z".toList 7 ∧ DictHas D' "pauli".toList (.int 1) "x".toList 12 := by
  have hq : ∀ q ∈ [0, 1, 0], ∃ t, exampleTable.IsQubit q t := by
    intro q hq
    fin_cases hq
    · exact ⟨true, ⟨0, some (0, true)⟩, by decide, rfl, rfl⟩
    · exact ⟨true, ⟨1, some (1, true)⟩, by decide, rfl, rfl⟩
    · exact ⟨true, ⟨0, some (0, true)⟩, by decide, rfl, rfl⟩
  obtain ⟨d', D, D', h1, _, h3, h4, h5, _⟩ := C77_add_partial 0 99 exampleTable exampleTable_usable [0, 1, 0] "Z".toList [5, 6, 7] (by decide) (by decide)
    hq fiveNames (fun e kind par data hp => place_five hp)
  have hz : ErrorPlace "Z".toList "pauli".toList "z".toList true := by unfold ErrorPlace; decide
  have hx : ErrorPlace "X".toList "pauli".toList "x".toList true := by unfold ErrorPlace; decide
  refine ⟨d', D', h1, h4, (h5 _ _ _ _ hz 0 7).2 ?_, (h5 _ _ _ _ hx 1 12).2 ?_⟩
  · rw [if_pos rfl]
    exact ⟨⟨⟨0, some (0, true)⟩, by decide, rfl, rfl⟩, .inl ⟨7, ⟨[(0, 5), (1, 6)], [], rfl, by decide⟩, rfl⟩⟩
  · rw [if_neg (by decide)]
    obtain ⟨D2, h6, h7, _⟩ := C77_dict exampleTable exampleTable_usable fiveNames
    rw [h3] at h6
    cases h6
    exact (h7 _ _ _ _ hx 1 12).2 ⟨by decide, by decide, ⟨⟨1, some (1, true)⟩, by decide, rfl, rfl⟩,
      ⟨[11, 12, 13], by decide, 1, ⟨1, some (1, true)⟩, rfl, rfl, rfl⟩⟩

/-- C77: names that exist already and `fabrication` are refused. -/
theorem C77_refused (zero nan : F) (d : ErrTable F) (ids : List Nat) (name : List Char) (probs : List F) :
    (∃ d', d.addQubitError zero nan ids name probs = .ok d') ↔ name ≠ "fabrication".toList ∧ name ∉ d.columns := by
  unfold ErrTable.addQubitError
  by_cases h1 : name = "fabrication".toList
  · rw [if_pos h1]; simp [h1]
  · rw [if_neg h1]
    by_cases h2 : name ∈ d.columns
    · rw [if_pos h2]
      refine ⟨?_, fun h => absurd h2 h.2⟩
      rintro ⟨_, h⟩
      cases h
    · rw [if_neg h2]
      exact ⟨fun _ => ⟨h1, h2⟩, fun _ => ⟨_, rfl⟩⟩

example : ¬ ∃ d', exampleTable.addQubitError 0 99 [0] "X".toList [5] = .ok d' := by
  rw [C77_refused]
  exact fun h => h.2 (by decide)

/-! ### C78: changing errors of qubits -/

/-- The assignments that are asked for. -/
def UpdateArgs.pairs : UpdateArgs F → List (Nat × F)
  | .one i p => [(i, p)]
  | .many ids probs => ids.zip probs
  | .other => []

/-- One qubit and one value, or lists of the same length. -/
def UpdateArgs.Match : UpdateArgs F → Prop
  | .one _ _ => True
  | .many ids probs => ids.length = probs.length
  | .other => False

/-- C78: `update_qubit_error` refuses exactly `fabrication`, unknown columns and arguments that do not match. -/
theorem C78_accepts (nan : F) (d : ErrTable F) (name : List Char) (args : UpdateArgs F) (h1 : name ≠ "qubit_id".toList) (h2 : name ≠ "qubit_type".toList) :
    (∃ d', d.updateQubitError nan name args = .ok d') ↔ name ≠ "fabrication".toList ∧ name ∈ d.cols.map Prod.fst ∧ args.Match := by
  have hc : name ∈ d.columns ↔ name ∈ d.cols.map Prod.fst := by
    unfold ErrTable.columns
    rw [List.mem_append]
    simp only [List.mem_cons, List.not_mem_nil, or_false]
    tauto
  unfold ErrTable.updateQubitError
  by_cases hf : name = "fabrication".toList
  · rw [if_pos hf]; simp [hf]
  rw [if_neg hf]
  by_cases hn : name ∈ d.columns
  · rw [if_neg (not_not.2 hn), if_neg (by tauto)]
    rw [hc] at hn
    cases args with
    | one i p => exact ⟨fun _ => ⟨hf, hn, trivial⟩, fun _ => ⟨_, rfl⟩⟩
    | many ids probs =>
      dsimp only
      by_cases hl : probs.length = ids.length
      · rw [if_neg (not_not.2 hl)]
        exact ⟨fun _ => ⟨hf, hn, hl.symm⟩, fun _ => ⟨_, rfl⟩⟩
      · rw [if_pos hl]
        refine ⟨?_, fun h => absurd h.2.2.symm hl⟩
        rintro ⟨_, h⟩
        cases h
    | other =>
      refine ⟨?_, fun h => h.2.2.elim⟩
      rintro ⟨_, h⟩
      cases h
  · rw [if_pos hn]
    refine ⟨?_, fun h => absurd (hc.2 h.2.1) hn⟩
    rintro ⟨_, h⟩
    cases h

example : (∃ d', exampleTable.updateQubitError 99 "X".toList (.many [1, 0] [3, 4]) = .ok d') ∧
    ¬ ∃ d', exampleTable.updateQubitError 99 "X".toList (.many [1, 0] [3]) = .ok d' := by
  rw [C78_accepts _ _ _ _ (by decide) (by decide), C78_accepts _ _ _ _ (by decide) (by decide)]
  exact ⟨⟨by decide, by decide, rfl⟩, fun h => absurd h.2.2 (by simp [UpdateArgs.Match])⟩

/-- C78: after an update that is accepted the table can still be used. -/
def C78_statement : Prop := ∀ (nan : Nat) (d d' : ErrTable Nat) (name : List Char) (args : UpdateArgs Nat) (order : List (List Char)),
  d.Usable → d.updateQubitError nan name args = .ok d' → ∃ D, d'.dict order = .ok D

/-- C78 is false: an update of a qubit that does not exist is accepted, and the table then has no dictionary. -/
theorem C78_label_counterexample : ¬ C78_statement := by
  intro h
  obtain ⟨D, hD⟩ := h 99 exampleTable _ "X".toList (.one 7 5) fiveNames exampleTable_usable rfl
  have : ((exampleTable.setCell 99 "X".toList (7, 5)).dict fiveNames) = .error .keyError := by rfl
  rw [this] at hD
  cases hD

/-- C78, what holds: if the qubits are in the table, exactly their values of this error change, to the last value given.
(Missing: a check of the qubits. An error that is not enabled stays so.) -/
theorem C78_update_partial (nan : F) (d : ErrTable F) (hd : d.Usable) (name : List Char) (args : UpdateArgs F)
    (hf : name ≠ "fabrication".toList) (h1 : name ≠ "qubit_id".toList) (h2 : name ≠ "qubit_type".toList)
    (hn : name ∈ d.cols.map Prod.fst) (ha : args.Match) (hi : ∀ ip ∈ args.pairs, ∃ t, d.IsQubit ip.1 t)
    (order : List (List Char)) :
    ∃ d' D D', d.updateQubitError nan name args = .ok d' ∧ d'.Usable ∧ d.dict order = .ok D ∧ d'.dict order = .ok D' ∧
      (∀ e kind par data, ErrorPlace e kind par data → ∀ (q : Nat) v, DictHas D' kind (.int q) par v ↔
        if e = name ∧ q ∈ args.pairs.map Prod.fst then e ∈ d.enabledQ ∧ e ∈ order ∧ d.IsQubit q data ∧ LastGives args.pairs q v
        else DictHas D kind (.int q) par v) ∧
      ∀ g, g ∈ oneGates ∨ g ∈ twoGates → ∀ k par v, DictHas D' g k par v ↔ DictHas D g k par v := by
  have hi' : ∀ ip ∈ args.pairs, ip.1 ∈ d.rows.map EdRow.label := by
    intro ip hip
    obtain ⟨t, r, hr, hrl, _⟩ := hi ip hip
    exact hrl ▸ List.mem_map_of_mem hr
  have hup : d.updateQubitError nan name args = .ok (args.pairs.foldl (ErrTable.setCell nan name) d) := by
    have hc : name ∈ d.columns := List.mem_append_right _ hn
    unfold ErrTable.updateQubitError
    rw [if_neg hf, if_neg (not_not.2 hc), if_neg (by tauto)]
    cases args with
    | one i p => rfl
    | many ids probs =>
      dsimp only
      rw [if_neg (not_not.2 (show probs.length = ids.length from Eq.symm ha))]
      rfl
    | other => exact ha.elim
  obtain ⟨g1, g2, g3, g4, g5, g7, g6⟩ := foldl_setCell (nan := nan) (name := name) args.pairs hd.proper hi'
  generalize args.pairs.foldl (ErrTable.setCell nan name) d = d' at *
  have hu : d'.Usable := by
    refine ⟨g1, ?_, ?_⟩
    · rw [g4, g7]; exact hd.cols
    · rw [g3, g5]; exact hd.rows
  obtain ⟨D, hD, hq, hg⟩ := hd.dict_spec (order := order)
  obtain ⟨D', hD', hq', hg'⟩ := hu.dict_spec (order := order)
  refine ⟨d', D, D', hup, hu, hD, hD', fun e kind par data hp q v => ?_, fun g hgg k par v => ?_⟩
  · rw [hq' e kind par data hp, g4, isQubit_rows g2, ← g1.look_iff, g6]
    by_cases he : e = name
    · rw [if_pos he]
      by_cases hm : q ∈ args.pairs.map Prod.fst
      · rw [if_pos ⟨he, hm⟩]
        cases hl : lastGiven args.pairs q with
        | none => exact absurd hm (lastGiven_none.1 hl)
        | some p =>
          have hlab : q ∈ d.rows.map EdRow.label := by
            rw [List.mem_map] at hm
            obtain ⟨ip, hip, rfl⟩ := hm
            exact hi' ip hip
          obtain ⟨w, hw⟩ := hd.proper.total (he ▸ hn : e ∈ d.cols.map Prod.fst) hlab
          rw [hw, ← lastGiven_iff, hl]
          rfl
      · rw [if_neg (by tauto), lastGiven_none.2 hm, hq e kind par data hp, ← hd.proper.look_iff]
        cases d.look e q <;> rfl
    · rw [if_neg he, if_neg (by tauto), hq e kind par data hp, hd.proper.look_iff]
  · rw [hg' g hgg, hg g hgg, g3, g5]

/-- The hypotheses of C78_update_partial are met by the example. -/
example : ∃ d' D', exampleTable.updateQubitError 99 "X".toList (.many [1, 0] [3, 4]) = .ok d' ∧ d'.dict fiveNames = .ok D' ∧
    DictHas D' "pauli".toList (.int 0) "x".toList 4 := by
  have hq : ∀ ip ∈ (UpdateArgs.many [1, 0] [3, 4]).pairs, ∃ t, exampleTable.IsQubit ip.1 t := by
    intro q hq
    have : q = (1, 3) ∨ q = (0, 4) := by simpa [UpdateArgs.pairs] using hq
    rcases this with rfl | rfl
    · exact ⟨true, ⟨1, some (1, true)⟩, by decide, rfl, rfl⟩
    · exact ⟨true, ⟨0, some (0, true)⟩, by decide, rfl, rfl⟩
  obtain ⟨d', D, D', h1, _, h3, h4, h5, _⟩ := C78_update_partial 99 exampleTable exampleTable_usable "X".toList (.many [1, 0] [3, 4]) (by decide) (by decide)
    (by decide) (by decide) rfl hq fiveNames
  have hx : ErrorPlace "X".toList "pauli".toList "x".toList true := by unfold ErrorPlace; decide
  refine ⟨d', D', h1, h4, (h5 _ _ _ _ hx 0 4).2 ?_⟩
  rw [if_pos ⟨rfl, by decide⟩]
  exact ⟨by decide, by decide, ⟨⟨0, some (0, true)⟩, by decide, rfl, rfl⟩, ⟨[(1, 3)], [], rfl, by decide⟩⟩

/-! ### C79: errors of gates -/

/-- C79: an error added for a gate is in the dictionary. -/
def C79_statement : Prop := ∀ (d : ErrTable Nat) (r : GateRow Nat) (order : List (List Char)) (D : List (List Char × ErrDict Nat)),
  d.Usable → r.onQubits ≠ [] → r.probs ≠ [] → r.induced.length = r.probs.length → (d.addGateError r).dict order = .ok D →
  ∃ k par v, v ∈ r.probs ∧ DictHas D r.gate k par v

/-- C79 is false: the errors of an unknown gate are accepted and have no effect. -/
theorem C79_unknown_counterexample : ¬ C79_statement := by
  intro h
  obtain ⟨k, par, v, _, hv⟩ := h exampleTable ⟨"CNOT".toList, [2, 0], ["XX".toList], [5]⟩ [] _ exampleTable_usable (by decide) (by decide) rfl rfl
  exact absurd hv (by
    unfold DictHas
    intro hh
    have : dictGet ([("H".toList, [(QKey.int 2, [("x".toList, Raw.flt 21)])])] : List (List Char × ErrDict Nat)) "CNOT".toList = none := by rfl
    change ((dictGet ([("H".toList, [(QKey.int 2, [("x".toList, Raw.flt 21)])])] : List (List Char × ErrDict Nat)) "CNOT".toList).bind (dictGet · k)).bind
      (dictGet · par) = some (.flt v) at hh
    rw [this] at hh
    cases hh)

omit [DecidableEq F] [Inhabited F] in
theorem rowsGive_append (rows : List (GateRow F)) (r : GateRow F) (g : List Char) (k : QKey) (par : List Char) (v : F) :
    RowsGive (rows ++ [r]) g k par v ↔ (r.gate = g ∧ r.Acts k ∧ r.Gives par v) ∨ (¬ (r.gate = g ∧ r.Acts k) ∧ RowsGive rows g k par v) := by
  constructor
  · rintro ⟨a, r', b, hab, hg, hact, hv, hlast⟩
    rcases List.eq_nil_or_concat b with rfl | ⟨b', x, rfl⟩
    · have := List.append_inj' hab rfl
      have hr : r = r' := by simpa using this.2
      subst hr
      exact .inl ⟨hg, hact, hv⟩
    · have hab' : rows ++ [r] = (a ++ r' :: b') ++ [x] := by rw [hab]; simp
      obtain ⟨h1, h2⟩ := List.append_inj' hab' rfl
      have hx : r = x := by simpa using h2
      subst hx
      refine .inr ⟨fun h => hlast r (by simp) h.1 h.2, a, r', b', h1, hg, hact, hv, fun y hy => hlast y (by simp [hy])⟩
  · rintro (⟨hg, hact, hv⟩ | ⟨hn, a, r', b, hab, hg, hact, hv, hlast⟩)
    · exact ⟨rows, r, [], rfl, hg, hact, hv, by simp⟩
    · refine ⟨a, r', b ++ [r], by rw [hab]; simp, hg, hact, hv, fun y hy hyg hya => ?_⟩
      rcases List.mem_append.1 hy with hy | hy
      · exact hlast y hy hyg hya
      · rw [List.mem_singleton.1 hy] at hyg hya
        exact hn ⟨hyg, hya⟩

/-- C79, what holds: for the known gates, a row that is added takes precedence over all others; all other errors stay as they are.
(Missing: the name of the gate is not checked. If errors of the gate were switched off, they are switched on.) -/
theorem C79_add_partial (d : ErrTable F) (hd : d.Usable) (r : GateRow F) (hfit : r.Fits)
    (hon : r.gate ∈ d.enabledG ∨ ∀ r' ∈ d.gates, r'.gate ≠ r.gate) (order : List (List Char)) :
    ∃ D D', (d.addGateError r).Usable ∧ d.dict order = .ok D ∧ (d.addGateError r).dict order = .ok D' ∧
      (∀ g, g ∈ oneGates ∨ g ∈ twoGates → ∀ k par v, DictHas D' g k par v ↔
        (r.gate = g ∧ r.Acts k ∧ r.Gives par v) ∨ (¬ (r.gate = g ∧ r.Acts k) ∧ DictHas D g k par v)) ∧
      ∀ e kind par data, ErrorPlace e kind par data → ∀ (q : Nat) v, DictHas D' kind (.int q) par v ↔ DictHas D kind (.int q) par v := by
  have hu : (d.addGateError r).Usable := by
    refine ⟨⟨hd.proper.info, hd.proper.labels, hd.proper.full, hd.proper.names⟩, hd.cols, ?_⟩
    intro x hx he
    unfold ErrTable.addGateError at hx he
    dsimp only at hx he
    rw [mem_setAdd] at he
    rcases List.mem_append.1 hx with hx | hx
    · rcases he with he | he
      · exact hd.rows x hx he
      · rcases hon with h | h
        · exact hd.rows x hx (he ▸ h)
        · exact absurd he (h x hx)
    · rw [List.mem_singleton.1 hx]; exact hfit
  obtain ⟨D, hD, hq, hg⟩ := hd.dict_spec (order := order)
  obtain ⟨D', hD', hq', hg'⟩ := hu.dict_spec (order := order)
  refine ⟨D, D', hu, hD, hD', fun g hgg k par v => ?_, fun e kind par data hp q v => ?_⟩
  · rw [hg' g hgg, hg g hgg]
    unfold ErrTable.addGateError
    dsimp only
    rw [mem_setAdd, rowsGive_append]
    by_cases hgr : r.gate = g
    · subst hgr
      simp only [or_true, true_and]
      rcases hon with h | h
      · simp [h]
      · have hno : ¬ RowsGive d.gates r.gate k par v := by
          rintro ⟨a, r', b, hab, hg', _⟩
          exact h r' (by rw [hab]; simp) hg'
        simp [hno]
    · have : g ≠ r.gate := fun h => hgr h.symm
      simp [hgr, this]
  · rw [hq' e kind par data hp, hq e kind par data hp]
    rfl

/-- The example: a second error of the Hadamard gate on the same ancilla replaces the first. -/
example : ∃ D', (exampleTable.addGateError ⟨"H".toList, [2], ["Z".toList], [22]⟩).dict fiveNames = .ok D' ∧ DictHas D' "H".toList (.int 2) "z".toList 22 ∧
    ¬ DictHas D' "H".toList (.int 2) "x".toList 21 := by
  obtain ⟨D, D', _, _, h2, h3, _⟩ := C79_add_partial exampleTable exampleTable_usable ⟨"H".toList, [2], ["Z".toList], [22]⟩ (fun h => absurd h (by decide))
    (.inl (by decide)) fiveNames
  have hact : (⟨"H".toList, [2], ["Z".toList], [22]⟩ : GateRow Nat).Acts (.int 2) := .inl ⟨by decide, 2, by decide, rfl⟩
  refine ⟨D', h2, (h3 _ (.inl (by decide)) _ _ _).2 (.inl ⟨rfl, hact, ⟨[], [], rfl, by decide⟩⟩), fun h => ?_⟩
  rcases (h3 _ (.inl (by decide)) _ _ _).1 h with ⟨_, _, a, b, h, _⟩ | ⟨h, _⟩
  · cases a with
    | nil => exact absurd (List.cons.inj h).1 (by decide)
    | cons x a => exact absurd (List.cons.inj h).2 (by simp)
  · exact h ⟨rfl, hact⟩

/-- C79: `update_gate_error` never does anything. -/
theorem C79_never_updated (d : ErrTable F) : d.updateGateError = .error .notImplementedError := rfl

/-! ### C80: errors read from files and dataframes -/

/-- A file of qubit errors as it is described in the documentation: `qubit_id`, `qubit_type`, and full columns of errors. -/
structure QubitCsv.Good (q : QubitCsv F) : Prop where
  header : q.header = "qubit_id".toList :: "qubit_type".toList :: q.cols.map Prod.fst
  ids : (q.rows.map Prod.fst).Nodup
  full : ∀ c ∈ q.cols, c.2.length = q.rows.length
  names : (q.cols.map Prod.fst).Nodup

/-- The file says that the error of the qubit, which is a data qubit or not, has the value. -/
def QubitCsv.Says (q : QubitCsv F) (e : List Char) (id : Nat) (data : Bool) (v : F) : Prop :=
  ∃ (col : List F) (i : Nat), (e, col) ∈ q.cols ∧ q.rows[i]? = some (id, data) ∧ col[i]? = some v

/-- The file of gate errors with the rows: lists are separated by bars. -/
def gateFile (fr : F → List Char) (rows : List (GateRow F)) : GateCsv :=
  [("gate".toList, rows.map GateRow.gate), ("on_qubits".toList, rows.map fun r => joinWith '|' (r.onQubits.map fun (q : Nat) => reprInt q)),
    ("induced_errors".toList, rows.map fun r => joinWith '|' r.induced),
    ("probs".toList, rows.map fun r => joinWith '|' (r.probs.map fr))]

theorem delimited_join {α : Type} (f : List Char → Option α) {β : Type} (get : β → List α) (txt : β → List (List Char)) (l : List β)
    (h : ∀ b ∈ l, get b ≠ [] ∧ List.Forall₂ (fun s a => f s = some a ∧ '|' ∉ s) (txt b) (get b)) :
    delimited f (l.map fun b => joinWith '|' (txt b)) = .ok (l.map get) := by
  have inner : ∀ (ss : List (List Char)) (as : List α), List.Forall₂ (fun s a => f s = some a ∧ '|' ∉ s) ss as →
      mapLoop (parseField f) ss = .ok as ∧ ∀ s ∈ ss, '|' ∉ s := by
    intro ss as hh
    induction hh with
    | nil => exact ⟨rfl, by simp⟩
    | cons h1 _ ih =>
      refine ⟨?_, ?_⟩
      · rw [mapLoop, parseField, h1.1, ih.1]
      · intro s hs
        rcases List.mem_cons.1 hs with rfl | hs
        · exact h1.2
        · exact ih.2 s hs
  unfold delimited
  induction l with
  | nil => rfl
  | cons b l ih =>
    obtain ⟨h1, h2⟩ := h b List.mem_cons_self
    obtain ⟨h3, h4⟩ := inner _ _ h2
    have hne : txt b ≠ [] := by
      intro hb
      rw [hb] at h2
      cases hg : get b with
      | nil => exact h1 hg
      | cons _ _ => rw [hg] at h2; cases h2
    rw [List.map_cons, mapLoop, splitOn_join h4 hne, h3, ih fun x hx => h x (List.mem_cons_of_mem _ hx)]
    rfl

theorem bar_reprInt (q : Nat) : '|' ∉ reprInt (q : Int) := by
  intro h
  have e : reprInt (q : Int) = Nat.toDigits 10 q := by simp [reprInt]
  rw [e] at h
  exact absurd (Nat.isDigit_of_mem_toDigits (by decide) (by decide) h) (by decide)

omit [DecidableEq F] [Inhabited F] in
/-- C80: a file of gate errors is read as it is written, with lists separated by bars. -/
theorem C80_gates (pf : List Char → Option F) (fr : F → List Char) (hfr : ∀ v, pf (fr v) = some v ∧ '|' ∉ fr v) (rows : List (GateRow F))
    (hne : ∀ r ∈ rows, r.onQubits ≠ [] ∧ r.induced ≠ [] ∧ r.probs ≠ []) (hbar : ∀ r ∈ rows, ∀ s ∈ r.induced, '|' ∉ s) :
    readGateCsv pf (gateFile fr rows) = .ok rows := by
  have h1 := delimited_join parseInt (fun r : GateRow F => r.onQubits.map fun (q : Nat) => (q : Int)) (fun r => r.onQubits.map fun (q : Nat) => reprInt q)
    rows (fun r hr => ⟨by simpa using (hne r hr).1, by
      generalize r.onQubits = l
      induction l with
      | nil => exact .nil
      | cons q l ih => exact .cons ⟨parseInt_reprInt q, bar_reprInt q⟩ ih⟩)
  have h2 := delimited_join some (fun r : GateRow F => r.induced) (fun r => r.induced) rows (fun r hr => ⟨(hne r hr).2.1, by
      have := hbar r hr
      generalize r.induced = l at this
      induction l with
      | nil => exact .nil
      | cons q l ih => exact .cons ⟨rfl, this q List.mem_cons_self⟩ (ih fun s hs => this s (List.mem_cons_of_mem _ hs))⟩)
  have h3 := delimited_join pf (fun r : GateRow F => r.probs) (fun r => r.probs.map fr) rows (fun r hr => ⟨(hne r hr).2.2, by
      generalize r.probs = l
      induction l with
      | nil => exact .nil
      | cons q l ih => exact .cons (hfr q) ih⟩)
  unfold readGateCsv gateFile
  dsimp only
  rw [h1]
  dsimp only
  rw [h2]
  dsimp only
  rw [h3]
  dsimp only
  rw [if_neg]
  · congr 1
    clear h1 h2 h3 hne hbar
    induction rows with
    | nil => rfl
    | cons r rows ih =>
      simp only [List.map_cons, List.zip_cons_cons, List.zipWith_cons_cons]
      rw [ih]
      congr 1
      cases r
      simp only [List.map_map, GateRow.mk.injEq, true_and, and_true]
      rw [show (Int.toNat ∘ fun (q : Nat) => (q : Int)) = id from funext fun q => Int.toNat_natCast q, List.map_id]
  · rw [List.any_eq_true]
    rintro ⟨l, hl, hx⟩
    rw [List.mem_map] at hl
    obtain ⟨r, _, rfl⟩ := hl
    rw [List.any_eq_true] at hx
    obtain ⟨i, hi, hneg⟩ := hx
    rw [List.mem_map] at hi
    obtain ⟨q, _, rfl⟩ := hi
    simp at hneg
    omega

/-- The example of C80_gates: numbers are written as digits. -/
example : readGateCsv (fun s => (parseInt s).map Int.toNat) (gateFile (fun (n : Nat) => reprInt n)
    [⟨"CX".toList, [4, 0, 4, 1], ["XX".toList, "IZ".toList], [1, 2]⟩]) = .ok [⟨"CX".toList, [4, 0, 4, 1], ["XX".toList, "IZ".toList], [1, 2]⟩] :=
  C80_gates _ _ (fun v => ⟨by simp [parseInt_reprInt], bar_reprInt v⟩) _ (by simp) (by decide)

theorem mem_setOf (l : List (List Char)) (e : List Char) : e ∈ setOf l ↔ e ∈ l := by
  unfold setOf
  suffices H : ∀ s : List (List Char), e ∈ l.foldl setAdd s ↔ e ∈ s ∨ e ∈ l by rw [H]; simp
  induction l with
  | nil => simp
  | cons a l ih =>
    intro s
    rw [List.foldl_cons, ih, mem_setAdd, List.mem_cons]
    tauto

omit [DecidableEq F] [Inhabited F] in
/-- The table made from the rows of a file. -/
theorem fileTable_proper {q : QubitCsv F} (hq : q.Good) (gates : List (GateRow F)) (eq eg : List (List Char)) :
    (⟨q.rows.map fun r => ⟨r.1, some r⟩, q.cols, gates, eq, eg⟩ : ErrTable F).Proper ∧
    (∀ e id data v, q.Says e id data v ↔ (⟨q.rows.map fun r => ⟨r.1, some r⟩, q.cols, gates, eq, eg⟩ : ErrTable F).IsQubit id data ∧
      (⟨q.rows.map fun r => ⟨r.1, some r⟩, q.cols, gates, eq, eg⟩ : ErrTable F).At e id v) := by
  have hl : (q.rows.map fun r => (⟨r.1, some r⟩ : EdRow)).map EdRow.label = q.rows.map Prod.fst := by rw [List.map_map]; rfl
  refine ⟨⟨?_, by rw [hl]; exact hq.ids, by simpa using hq.full, hq.names⟩, fun e id data v => ⟨?_, ?_⟩⟩
  · intro r hr
    rw [List.mem_map] at hr
    obtain ⟨x, _, rfl⟩ := hr
    exact ⟨x.2, rfl⟩
  · rintro ⟨col, i, h1, h2, h3⟩
    refine ⟨⟨⟨id, some (id, data)⟩, ?_, rfl, rfl⟩, ⟨col, h1, i, ⟨id, some (id, data)⟩, ?_, rfl, h3⟩⟩
    · exact List.mem_map.2 ⟨(id, data), List.mem_of_getElem? h2, rfl⟩
    · dsimp only
      rw [List.getElem?_map, h2]
      rfl
  · rintro ⟨⟨r, hr, hrl, hri⟩, col, h1, i, r', h2, h2', h3⟩
    refine ⟨col, i, h1, ?_, h3⟩
    dsimp only at h2
    rw [List.getElem?_map, Option.map_eq_some_iff] at h2
    obtain ⟨x, hx, rfl⟩ := h2
    rw [List.mem_map] at hr
    obtain ⟨y, hy, rfl⟩ := hr
    dsimp only at hrl hri h2'
    rw [Option.some.injEq] at hri
    rw [hx]
    have hn := hq.ids
    have : x = y := List.inj_on_of_nodup_map hn (List.mem_of_getElem? hx) hy (by rw [h2', hrl])
    rw [this, hri]

/-- C80: errors read with `from_csv` from files of the documented form are in the dictionary. -/
theorem C80_fromCsv (pf : List Char → Option F) (fr : F → List Char) (hfr : ∀ v, pf (fr v) = some v ∧ '|' ∉ fr v) (q : QubitCsv F) (hq : q.Good)
    (rows : List (GateRow F)) (hne : ∀ r ∈ rows, r.onQubits ≠ [] ∧ r.induced ≠ [] ∧ r.probs ≠ []) (hbar : ∀ r ∈ rows, ∀ s ∈ r.induced, '|' ∉ s)
    (hfit : ∀ r ∈ rows, r.Fits) (order : List (List Char)) (ho : ∀ e kind par data, ErrorPlace e kind par data → e ∈ order) :
    ∃ d D, ErrTable.fromCsv pf (some q) (some (gateFile fr rows)) = .ok d ∧ d.Usable ∧ d.dict order = .ok D ∧
      (∀ e kind par data, ErrorPlace e kind par data → ∀ (id : Nat) v, DictHas D kind (.int id) par v ↔ q.Says e id data v) ∧
      ∀ g, g ∈ oneGates ∨ g ∈ twoGates → ∀ k par v, DictHas D g k par v ↔ RowsGive rows g k par v := by
  unfold ErrTable.fromCsv
  dsimp only
  rw [C80_gates pf fr hfr rows hne hbar]
  dsimp only
  obtain ⟨hp, hs⟩ := fileTable_proper hq rows (if q.rows.isEmpty then [] else setOf (q.header.drop 2)) (setOf (rows.map GateRow.gate))
  have hen : ∀ e, e ∈ (if q.rows.isEmpty then [] else setOf (q.header.drop 2)) → e ∈ q.cols.map Prod.fst := by
    intro e he
    split at he
    · cases he
    · rw [mem_setOf, hq.header] at he
      exact he
  generalize hd : (⟨q.rows.map fun r => ⟨r.1, some r⟩, q.cols, rows, if q.rows.isEmpty then [] else setOf (q.header.drop 2),
    setOf (rows.map GateRow.gate)⟩ : ErrTable F) = d at *
  have hu : d.Usable := by
    rw [← hd] at hp ⊢
    exact ⟨hp, fun e he _ => hen e he, fun r hr _ => hfit r hr⟩
  obtain ⟨D, hD, h1, h2⟩ := hu.dict_spec (order := order)
  refine ⟨d, D, rfl, hu, hD, fun e kind par data hpl id v => ?_, fun g hg k par v => ?_⟩
  · rw [h1 e kind par data hpl, hs]
    constructor
    · exact fun h => h.2.2
    · intro h
      refine ⟨?_, ho e kind par data hpl, h⟩
      obtain ⟨col, i, hc, hi, _⟩ := (hs e id data v).2 h
      rw [← hd]
      dsimp only
      rw [if_neg, mem_setOf, hq.header]
      · exact List.mem_map_of_mem hc
      · rw [List.isEmpty_iff]
        intro h0
        rw [h0] at hi
        cases hi
  · rw [h2 g hg]
    have e1 : d.gates = rows := by rw [← hd]
    have e2 : d.enabledG = setOf (rows.map GateRow.gate) := by rw [← hd]
    rw [e1, e2, mem_setOf]
    constructor
    · exact fun h => h.2
    · intro h
      obtain ⟨a, r, b, hab, hg', _⟩ := id h
      exact ⟨List.mem_map.2 ⟨r, by rw [hab]; simp, hg'⟩, h⟩

/-- A file: qubits in another order than their numbers. -/
def exampleCsv : QubitCsv Nat :=
  ⟨["qubit_id".toList, "qubit_type".toList, "X".toList], [(1, true), (0, true), (2, false)], [("X".toList, [31, 32, 33])]⟩

theorem exampleCsv_good : exampleCsv.Good := ⟨rfl, by decide, by decide, by decide⟩

/-- The hypotheses of C80_fromCsv are met by an example. -/
example : ∃ d D, ErrTable.fromCsv (fun s => (parseInt s).map Int.toNat) (some exampleCsv) (some (gateFile (fun (n : Nat) => reprInt n)
    [⟨"CX".toList, [2, 0, 2, 1], ["XX".toList], [4]⟩])) = .ok d ∧ d.dict fiveNames = .ok D ∧ DictHas D "pauli".toList (.int 1) "x".toList 31 ∧
    DictHas D "CX".toList (.tup [2, 1]) "xx".toList 4 := by
  obtain ⟨d, D, h1, _, h2, h3, h4⟩ := C80_fromCsv (fun s => (parseInt s).map Int.toNat) (fun (n : Nat) => reprInt n)
    (fun v => ⟨by simp [parseInt_reprInt], bar_reprInt v⟩) exampleCsv exampleCsv_good [⟨"CX".toList, [2, 0, 2, 1], ["XX".toList], [4]⟩] (by simp) (by decide)
    (by
      intro r hr
      rw [List.mem_singleton.1 hr]
      exact fun _ => ⟨⟨2, rfl⟩, by decide⟩) fiveNames (fun e kind par data hp => place_five hp)
  refine ⟨d, D, h1, h2, (h3 "X".toList _ _ true (by unfold ErrorPlace; decide) 1 31).2 ⟨[31, 32, 33], 0, by decide, rfl, rfl⟩, (h4 _ (.inr (by decide)) _ _ _).2
    ⟨[], _, [], rfl, rfl, .inr ⟨by decide, 1, 2, 1, rfl, rfl, rfl⟩, ⟨[], [], rfl, by decide⟩, by simp⟩⟩

/-- C80: errors read with `update_from_csv` are in the dictionary. -/
def C80_statement : Prop := ∀ (nan : Nat) (pf : List Char → Option Nat) (d d' : ErrTable Nat) (q : QubitCsv Nat) (overwrite : Bool) (order : List (List Char)),
  d.Usable → q.Good → (∀ e kind par data, ErrorPlace e kind par data → e ∈ order) → (∀ r ∈ q.rows, d.IsQubit r.1 r.2) →
  d.updateFromCsv nan pf (some q) none overwrite = .ok d' →
  ∃ D, d'.dict order = .ok D ∧ ∀ e kind par data, ErrorPlace e kind par data → ∀ id v, q.Says e id data v → v ≠ nan → DictHas D kind (.int (id : Nat)) par v

/-- C80 is false: errors of a column that is new are not enabled. -/
theorem C80_new_counterexample : ¬ C80_statement := by
  intro h
  obtain ⟨D, h1, h2⟩ := h 99 (fun _ => none) exampleTable _ ⟨["qubit_id".toList, "qubit_type".toList, "Z".toList], [(0, true)], [("Z".toList, [5])]⟩ false
    fiveNames exampleTable_usable ⟨rfl, by decide, by decide, by decide⟩ (fun e kind par data hp => place_five hp)
    (by
      intro r hr
      rw [List.mem_singleton.1 hr]
      exact ⟨⟨0, some (0, true)⟩, by decide, rfl, rfl⟩) rfl
  have h3 := h2 "Z".toList "pauli".toList "z".toList true (by unfold ErrorPlace; decide) 0 5 ⟨[5], 0, by decide, rfl, rfl⟩ (by decide)
  cases h1
  cases h3

/-- C80 is false: with `overwrite` the rows are numbered anew, so that the errors of other qubits are used. -/
theorem C80_overwrite_counterexample : ¬ C80_statement ∧ ∃ d' D, exampleTable.updateFromCsv 99 (fun _ => none) (some exampleCsv) none true = .ok d' ∧
    d'.dict fiveNames = .ok D ∧ DictHas D "pauli".toList (.int 0) "x".toList 31 ∧ exampleCsv.Says "X".toList 0 true 32 := by
  refine ⟨fun h => ?_, ⟨_, _, rfl, rfl, rfl, ⟨[31, 32, 33], 1, by decide, rfl, rfl⟩⟩⟩
  obtain ⟨D, h1, h2⟩ := h 99 (fun _ => none) exampleTable _ exampleCsv true fiveNames exampleTable_usable exampleCsv_good
    (fun e kind par data hp => place_five hp) (by
      intro r hr
      fin_cases hr
      · exact ⟨⟨1, some (1, true)⟩, by decide, rfl, rfl⟩
      · exact ⟨⟨0, some (0, true)⟩, by decide, rfl, rfl⟩
      · exact ⟨⟨2, some (2, false)⟩, by decide, rfl, rfl⟩) rfl
  have h3 := h2 "X".toList "pauli".toList "x".toList true (by unfold ErrorPlace; decide) 0 32 ⟨[31, 32, 33], 1, by decide, rfl, rfl⟩ (by decide)
  cases h1
  cases h3

omit [Inhabited F] in
theorem updateCol_spec {nan : F} {ids : List Nat} {col : List Char × List F} {d : ErrTable F} (hd : d.Proper) (hc : col.1 ∈ d.cols.map Prod.fst) :
    (d.updateCol nan ids col).Proper ∧ (d.updateCol nan ids col).rows = d.rows ∧ (d.updateCol nan ids col).gates = d.gates ∧
    (d.updateCol nan ids col).enabledQ = d.enabledQ ∧ (d.updateCol nan ids col).enabledG = d.enabledG ∧
    (d.updateCol nan ids col).cols.map Prod.fst = d.cols.map Prod.fst ∧
    ∀ e q, (d.updateCol nan ids col).look e q =
      if e = col.1 then (d.look e q).map (newValue nan (dictGet (ids.zip col.2) q)) else d.look e q := by
  have he : d.ensureCol nan col.1 = d := if_pos (List.mem_append_right _ hc)
  have heq : d.updateCol nan ids col = { d with cols := d.cols.map fun c => (c.1, if c.1 = col.1 then
      List.zipWith (fun r v => newValue nan (dictGet (ids.zip col.2) r.label) v) d.rows c.2 else c.2) } := by
    unfold ErrTable.updateCol
    rw [he]
    dsimp only
    rw [mapIf col.1 fun c => List.zipWith (fun r v => newValue nan (dictGet (ids.zip col.2) r.label) v) d.rows c]
  rw [heq]
  refine ⟨⟨hd.info, hd.labels, ?_, ?_⟩, rfl, rfl, rfl, rfl, ?_, fun e q => ?_⟩
  · intro c hc
    rw [List.mem_map] at hc
    obtain ⟨c, hc, rfl⟩ := hc
    dsimp only
    split
    · rw [List.length_zipWith, hd.full _ hc]; simp
    · exact hd.full _ hc
  · rw [List.map_map]
    exact hd.names
  · rw [List.map_map]; rfl
  · unfold ErrTable.look
    dsimp only
    rw [dictGet_mapVal (fun k c => if k = col.1 then List.zipWith (fun r v => newValue nan (dictGet (ids.zip col.2) r.label) v) d.rows c else c)]
    cases dictGet d.cols e with
    | none => simp
    | some c =>
      rw [Option.map_some, Option.bind_some, Option.bind_some]
      by_cases h : e = col.1
      · rw [if_pos h, if_pos h, entry_zipWith (fun l v => newValue nan (dictGet (ids.zip col.2) l) v)]
      · rw [if_neg h, if_neg h]

omit [Inhabited F] in
theorem foldl_updateCol {nan : F} {ids : List Nat} (cols : List (List Char × List F)) : ∀ {d : ErrTable F}, d.Proper →
    (∀ c ∈ cols, c.1 ∈ d.cols.map Prod.fst) → (cols.map Prod.fst).Nodup →
    (cols.foldl (ErrTable.updateCol nan ids) d).Proper ∧ (cols.foldl (ErrTable.updateCol nan ids) d).rows = d.rows ∧
    (cols.foldl (ErrTable.updateCol nan ids) d).gates = d.gates ∧ (cols.foldl (ErrTable.updateCol nan ids) d).enabledQ = d.enabledQ ∧
    (cols.foldl (ErrTable.updateCol nan ids) d).enabledG = d.enabledG ∧
    (cols.foldl (ErrTable.updateCol nan ids) d).cols.map Prod.fst = d.cols.map Prod.fst ∧
    ∀ e q, (cols.foldl (ErrTable.updateCol nan ids) d).look e q =
      (d.look e q).map (newValue nan ((dictGet cols e).bind fun col => dictGet (ids.zip col) q)) := by
  induction cols with
  | nil =>
    intro d hd _ _
    refine ⟨hd, rfl, rfl, rfl, rfl, rfl, fun e q => ?_⟩
    rw [List.foldl_nil]
    cases d.look e q <;> rfl
  | cons c cols ih =>
    intro d hd hc hn
    rw [List.map_cons, List.nodup_cons] at hn
    obtain ⟨a1, a2, a3, a4, a5, a6, a7⟩ := updateCol_spec (nan := nan) (ids := ids) hd (hc c List.mem_cons_self)
    obtain ⟨b1, b2, b3, b4, b5, b6, b7⟩ := ih a1 (fun x hx => by rw [a6]; exact hc x (List.mem_cons_of_mem _ hx)) hn.2
    rw [List.foldl_cons]
    refine ⟨b1, b2.trans a2, b3.trans a3, b4.trans a4, b5.trans a5, b6.trans a6, fun e q => ?_⟩
    rw [b7, a7]
    by_cases he : e = c.1
    · have h0 : dictGet cols e = none := dictGet_none.2 fun x hx hxe => hn.1 (by rw [← he, ← hxe]; exact List.mem_map_of_mem hx)
      have h1 : dictGet (c :: cols) e = some c.2 := by simp [dictGet, he]
      rw [if_pos he, h0, h1]
      cases d.look e q <;> rfl
    · have h1 : dictGet (c :: cols) e = dictGet cols e := by
        unfold dictGet
        rw [List.find?_cons]
        simp [Ne.symm he]
      rw [if_neg he, h1]

/-- The file has the value for the error of the qubit. -/
theorem QubitCsv.Good.get {q : QubitCsv F} (hq : q.Good) (e : List Char) (id : Nat) (v : F) :
    ((dictGet q.cols e).bind fun col => dictGet ((q.rows.map Prod.fst).zip col) id) = some v ↔ ∃ data, q.Says e id data v := by
  rw [Option.bind_eq_some_iff]
  constructor
  · rintro ⟨col, h1, h2⟩
    have hm := dictGet_some_mem h2
    obtain ⟨i, hi⟩ := List.mem_iff_getElem?.1 hm
    rw [List.getElem?_zip_eq_some, List.getElem?_map, Option.map_eq_some_iff] at hi
    obtain ⟨⟨⟨a, b⟩, h3, rfl⟩, h4⟩ := hi
    exact ⟨b, col, i, dictGet_some_mem h1, h3, h4⟩
  · rintro ⟨data, col, i, h1, h2, h3⟩
    refine ⟨col, dictGet_of_mem hq.names h1, dictGet_of_mem ?_ (List.mem_iff_getElem?.2 ⟨i, ?_⟩)⟩
    · rw [List.map_fst_zip (by rw [List.length_map, hq.full _ h1])]
      exact hq.ids
    · rw [List.getElem?_zip_eq_some, List.getElem?_map, h2]
      exact ⟨rfl, h3⟩

omit [DecidableEq F] [Inhabited F] in
theorem updateTypes_same {d : ErrTable F} {q : QubitCsv F} (hd : d.Proper) (hr : ∀ r ∈ q.rows, d.IsQubit r.1 r.2) : d.updateTypes q = d := by
  have : d.rows.map (fun r => match r.info, dictGet q.rows r.label with
      | some (id, _), some t => { r with info := some (id, t) }
      | _, _ => r) = d.rows := by
    conv_rhs => rw [← List.map_id d.rows]
    refine List.map_congr_left fun r hm => ?_
    obtain ⟨t, ht⟩ := hd.info r hm
    rw [ht]
    cases hg : dictGet q.rows r.label with
    | none => rfl
    | some t' =>
      obtain ⟨r2, h2, h3, h4⟩ := hr _ (dictGet_some_mem hg)
      have hrr : r2 = r := List.inj_on_of_nodup_map hd.labels h2 hm h3
      subst hrr
      dsimp only
      rw [id, ← h4]
  exact congrArg (fun rows => ({ d with rows := rows } : ErrTable F)) this

/-- C80 (partial): without `overwrite`, and for columns that the table has already, `update_from_csv` replaces the errors by those of
the file that are not missing, and leaves the others. -/
theorem C80_csv_partial (nan : F) (pf : List Char → Option F) (d : ErrTable F) (hd : d.Usable) (q : QubitCsv F) (hq : q.Good)
    (hr : ∀ r ∈ q.rows, d.IsQubit r.1 r.2) (hc : ∀ c ∈ q.cols, c.1 ∈ d.cols.map Prod.fst) (order : List (List Char)) :
    ∃ d' D D', d.updateFromCsv nan pf (some q) none false = .ok d' ∧ d'.Usable ∧ d.dict order = .ok D ∧ d'.dict order = .ok D' ∧
      (∀ e kind par data, ErrorPlace e kind par data → ∀ (id : Nat) v, DictHas D' kind (.int id) par v ↔
        (q.Says e id data v ∧ v ≠ nan ∧ e ∈ d.enabledQ ∧ e ∈ order) ∨
        ((∀ w, q.Says e id data w → w = nan) ∧ DictHas D kind (.int id) par v)) ∧
      ∀ g, g ∈ oneGates ∨ g ∈ twoGates → ∀ k par v, DictHas D' g k par v ↔ DictHas D g k par v := by
  obtain ⟨g1, g2, g3, g4, g5, g7, g6⟩ := foldl_updateCol (nan := nan) (ids := q.rows.map Prod.fst) q.cols hd.proper hc hq.names
  have hup : d.updateFromCsv nan pf (some q) none false = .ok (q.cols.foldl (ErrTable.updateCol nan (q.rows.map Prod.fst)) d) := by
    unfold ErrTable.updateFromCsv
    dsimp only
    rw [if_neg (by decide), updateTypes_same hd.proper hr]
  generalize q.cols.foldl (ErrTable.updateCol nan (q.rows.map Prod.fst)) d = d' at *
  have hu : d'.Usable := by
    refine ⟨g1, ?_, ?_⟩
    · rw [g4, g7]; exact hd.cols
    · rw [g3, g5]; exact hd.rows
  obtain ⟨D, hD, hq1, hg1⟩ := hd.dict_spec (order := order)
  obtain ⟨D', hD', hq', hg'⟩ := hu.dict_spec (order := order)
  refine ⟨d', D, D', hup, hu, hD, hD', fun e kind par data hp id v => ?_, fun g hgg k par v => ?_⟩
  · rw [hq' e kind par data hp, hq1 e kind par data hp, g4, isQubit_rows g2, ← g1.look_iff, ← hd.proper.look_iff, g6]
    have huniq : ∀ t t' w w', q.Says e id t w → q.Says e id t' w' → t = t' := by
      rintro t t' w w' ⟨_, i, _, h1, _⟩ ⟨_, j, _, h2, _⟩
      exact (Prod.mk.inj (List.inj_on_of_nodup_map hq.ids (List.mem_of_getElem? h1) (List.mem_of_getElem? h2) rfl)).2
    have hisq : ∀ t w, q.Says e id t w → d.IsQubit id t := fun t w ⟨_, i, _, h1, _⟩ => hr _ (List.mem_of_getElem? h1)
    have hqu : ∀ t t', d.IsQubit id t → d.IsQubit id t' → t = t' := by
      rintro t t' ⟨r, h1, h2, h3⟩ ⟨r', h1', h2', h3'⟩
      have : r = r' := List.inj_on_of_nodup_map hd.proper.labels h1 h1' (h2.trans h2'.symm)
      subst this
      rw [h3] at h3'
      exact (Prod.mk.inj (Option.some.inj h3')).2
    cases hw : ((dictGet q.cols e).bind fun col => dictGet ((q.rows.map Prod.fst).zip col) id) with
    | none =>
      have hno : ∀ t w, ¬ q.Says e id t w := fun t w h => by
        have := (hq.get e id w).2 ⟨t, h⟩
        rw [hw] at this
        cases this
      have : (d.look e id).map (newValue nan none) = d.look e id := by cases d.look e id <;> rfl
      rw [this]
      constructor
      · exact fun h => .inr ⟨fun w hw => absurd hw (hno _ w), h⟩
      · rintro (h | h)
        · exact absurd h.1 (hno _ v)
        · exact h.2
    | some w =>
      obtain ⟨t, ht⟩ := (hq.get e id w).1 hw
      have hval : ∀ t' w', q.Says e id t' w' → w' = w := fun t' w' h => by
        have := (hq.get e id w').2 ⟨t', h⟩
        rw [hw] at this
        exact (Option.some.inj this).symm
      by_cases hn : w = nan
      · have : (d.look e id).map (newValue nan (some w)) = d.look e id := by
          cases d.look e id with
          | none => rfl
          | some x => simp [newValue, hn]
        rw [this]
        constructor
        · exact fun h => .inr ⟨fun w' hw' => (hval _ _ hw').trans hn, h⟩
        · rintro (h | h)
          · exact absurd ((hval _ _ h.1).trans hn) h.2.1
          · exact h.2
      · constructor
        · rintro ⟨h1, h2, h3, h4⟩
          rw [Option.map_eq_some_iff] at h4
          obtain ⟨x, _, hx⟩ := h4
          have hv : v = w := by rw [← hx]; simp [newValue, hn]
          have : t = data := hqu _ _ (hisq _ _ ht) h3
          subst this
          rw [hv]
          exact .inl ⟨ht, hn, h1, h2⟩
        · rintro (⟨h1, h2, h3, h4⟩ | ⟨h1, _, _, h4, _⟩)
          · have hv := hval _ _ h1
            subst hv
            refine ⟨h3, h4, hisq _ _ h1, ?_⟩
            obtain ⟨col, i, hcol, hi, _⟩ := h1
            obtain ⟨r, hr1, hr2, _⟩ := hr _ (List.mem_of_getElem? hi)
            obtain ⟨x, hx⟩ := hd.proper.total (hc _ hcol) (List.mem_map.2 ⟨r, hr1, hr2⟩ : id ∈ d.rows.map EdRow.label)
            rw [hx, Option.map_some]
            simp [newValue, hn]
          · have : t = data := hqu _ _ (hisq _ _ ht) h4
            subst this
            exact absurd (h1 _ ht) hn
  · rw [hg' g hgg, hg1 g hgg, g3, g5]

/-- The hypotheses of C80_csv_partial are met by the example. -/
example : ∃ d' D', exampleTable.updateFromCsv 99 (fun _ => none) (some exampleCsv) none false = .ok d' ∧ d'.dict fiveNames = .ok D' ∧
    DictHas D' "pauli".toList (.int 0) "x".toList 32 := by
  obtain ⟨d', D, D', h1, _, _, h4, h5, _⟩ := C80_csv_partial 99 (fun _ => none) exampleTable exampleTable_usable exampleCsv exampleCsv_good (by
      intro r hr
      fin_cases hr
      · exact ⟨⟨1, some (1, true)⟩, by decide, rfl, rfl⟩
      · exact ⟨⟨0, some (0, true)⟩, by decide, rfl, rfl⟩
      · exact ⟨⟨2, some (2, false)⟩, by decide, rfl, rfl⟩) (by decide) fiveNames
  exact ⟨d', D', h1, h4, (h5 "X".toList _ _ true (by unfold ErrorPlace; decide) 0 32).2 (.inl ⟨⟨[31, 32, 33], 1, by decide, rfl, rfl⟩, by decide, by decide, by decide⟩)⟩

omit [DecidableEq F] [Inhabited F] in
/-- C80 is false for dataframes: `update` raises an exception whenever a dataframe is given. -/
theorem C80_dataframe_counterexample (d : ErrTable F) (q : Option (QubitCsv F)) (g : Option (List (GateRow F))) (overwrite : Bool) :
    d.update q g overwrite = if q.isSome ∨ g.isSome then .error .valueError else .ok d := by
  cases q <;> cases g <;> rfl

/-! ### C81: saving and reading again -/

/-- C81: errors saved with `save_to_csv` and read with `from_csv` are the same, when every error is enabled (however lists are written). -/
def C81_statement : Prop := ∀ (pf : List Char → Option Nat) (reprI : List Nat → List Char) (reprS : List (List Char) → List Char) (reprF : List Nat → List Char)
  (d : ErrTable Nat) (order : List (List Char)), d.Usable → (∀ e ∈ d.cols.map Prod.fst, e ∈ d.enabledQ) →
  (∀ r ∈ d.gates, r.gate ∈ d.enabledG) → (∀ e kind par data, ErrorPlace e kind par data → e ∈ order) →
  ∃ q d' D D', d.saveQubits = some q ∧ ErrTable.fromCsv pf (some q) (some (d.saveGates reprI reprS reprF)) = .ok d' ∧ d.dict order = .ok D ∧
    d'.dict order = .ok D' ∧ (∀ e kind par data, ErrorPlace e kind par data → ∀ (id : Nat) v, DictHas D kind (.int id) par v ↔ DictHas D' kind (.int id) par v) ∧
    ∀ g, g ∈ oneGates ∨ g ∈ twoGates → ∀ k par v, DictHas D g k par v ↔ DictHas D' g k par v

theorem mapLoop_parseField_err {α : Type} (f : List Char → Option α) (l : List (List Char)) :
    (∃ as, mapLoop (parseField f) l = .ok as) ∨ mapLoop (parseField f) l = .error .valueError := by
  induction l with
  | nil => exact .inl ⟨[], rfl⟩
  | cons x l ih =>
    rw [mapLoop, parseField]
    cases f x with
    | none => exact .inr rfl
    | some a =>
      dsimp only
      rcases ih with ⟨as, h⟩ | h <;> rw [h]
      · exact .inl ⟨_, rfl⟩
      · exact .inr rfl

theorem delimited_bad {α : Type} (f : List Char → Option α) (l : List (List Char)) {s : List Char} (hs : s ∈ l)
    (hb : mapLoop (parseField f) (splitOn '|' s) = .error .valueError) : delimited f l = .error .valueError := by
  unfold delimited
  induction l with
  | nil => cases hs
  | cons x l ih =>
    rw [mapLoop]
    rcases List.mem_cons.1 hs with rfl | hs
    · rw [hb]
    · rcases mapLoop_parseField_err f (splitOn '|' x) with ⟨as, h⟩ | h
      · rw [h]
        dsimp only
        rw [ih hs]
      · rw [h]

omit [DecidableEq F] [Inhabited F] in
/-- C81: a saved table with an error of a gate can never be read again, because `from_csv` takes the column of the gates, which is the
second one in the file, for the one of the qubits. -/
theorem C81_gates_refused (pf : List Char → Option F) (reprI : List Nat → List Char) (reprS : List (List Char) → List Char) (reprF : List F → List Char)
    (d : ErrTable F) (q : Option (QubitCsv F)) (r : GateRow F) (hr : r ∈ d.gates) (hg : r.gate ∈ oneGates ∨ r.gate ∈ twoGates) :
    ErrTable.fromCsv pf q (some (d.saveGates reprI reprS reprF)) = .error .valueError := by
  have h : delimited parseInt (d.gates.map GateRow.gate) = .error .valueError := by
    refine delimited_bad _ _ (List.mem_map_of_mem hr) ?_
    rw [mem_oneGates, mem_twoGates] at hg
    rcases hg with (hg | hg | hg) | hg | hg <;> rw [hg] <;> rfl
  unfold ErrTable.fromCsv ErrTable.saveGates readGateCsv
  dsimp only
  rw [h]

/-- C81 is false: an error of a Hadamard gate. -/
theorem C81_counterexample : ¬ C81_statement := by
  intro h
  obtain ⟨q, d', _, _, _, h1, _⟩ := h (fun _ => none) (fun _ => []) (fun _ => []) (fun _ => []) exampleTable fiveNames exampleTable_usable (by decide) (by decide)
    (fun e kind par data hp => place_five hp)
  rw [C81_gates_refused _ _ _ _ exampleTable (some q) ⟨"H".toList, [2], ["X".toList], [21]⟩ List.mem_cons_self (.inl (by decide))] at h1
  cases h1

omit [DecidableEq F] in
/-- C81 (partial): without errors of gates the errors are the same after saving and reading again. -/
theorem C81_qubits_partial (pf : List Char → Option F) (reprI : List Nat → List Char) (reprS : List (List Char) → List Char) (reprF : List F → List Char)
    (d : ErrTable F) (hd : d.Usable) (hen : ∀ e ∈ d.cols.map Prod.fst, e ∈ d.enabledQ) (hg : d.gates = []) (order : List (List Char)) :
    ∃ q d' D D', d.saveQubits = some q ∧ ErrTable.fromCsv pf (some q) (some (d.saveGates reprI reprS reprF)) = .ok d' ∧ d'.Usable ∧ d.dict order = .ok D ∧
      d'.dict order = .ok D' ∧ (∀ e kind par data, ErrorPlace e kind par data → ∀ (id : Nat) v, DictHas D kind (.int id) par v ↔ DictHas D' kind (.int id) par v) ∧
      ∀ g, g ∈ oneGates ∨ g ∈ twoGates → ∀ k par v, DictHas D g k par v ↔ DictHas D' g k par v := by
  have h1 : ¬ (d.rows.any fun r => r.info.isNone) = true := by
    rw [List.any_eq_true]
    rintro ⟨r, hr, hn⟩
    obtain ⟨t, ht⟩ := hd.proper.info r hr
    rw [ht] at hn
    cases hn
  have h2 : (d.rows.filterMap fun r => r.info.map fun i => (r.label, i.2)).map (fun r => (⟨r.1, some r⟩ : EdRow)) = d.rows := by
    have := hd.proper.info
    generalize d.rows = rows at this
    induction rows with
    | nil => rfl
    | cons r rows ih =>
      obtain ⟨t, ht⟩ := this r List.mem_cons_self
      rw [List.filterMap_cons, ht]
      dsimp only [Option.map_some]
      rw [List.map_cons, ih fun x hx => this x (List.mem_cons_of_mem _ hx), ← ht]
  obtain ⟨en, hfrom, hen2⟩ : ∃ en, ErrTable.fromCsv pf (some ⟨"qubit_id".toList :: "qubit_id.1".toList :: "qubit_type".toList :: d.cols.map Prod.fst,
      d.rows.filterMap fun r => r.info.map fun i => (r.label, i.2), d.cols⟩) (some (d.saveGates reprI reprS reprF)) = .ok ⟨d.rows, d.cols, [], en, []⟩ ∧
      ∀ e, (e ∈ en → e = "qubit_type".toList ∨ e ∈ d.cols.map Prod.fst) ∧ (d.rows ≠ [] → e ∈ d.cols.map Prod.fst → e ∈ en) := by
    unfold ErrTable.fromCsv ErrTable.saveGates readGateCsv
    dsimp only
    rw [hg, h2]
    refine ⟨_, rfl, fun e => ⟨fun he => ?_, fun hne he => ?_⟩⟩
    · split at he
      · cases he
      · rw [mem_setOf] at he
        exact List.mem_cons.1 he
    · rw [if_neg, mem_setOf]
      · exact List.mem_cons_of_mem _ he
      · intro h0
        rw [List.isEmpty_iff] at h0
        rw [h0] at h2
        exact hne h2.symm
  have hu : (⟨d.rows, d.cols, [], en, []⟩ : ErrTable F).Usable := by
    refine ⟨⟨hd.proper.info, hd.proper.labels, hd.proper.full, hd.proper.names⟩, fun e he hp => ?_, fun r hr => absurd hr (by simp)⟩
    rcases (hen2 e).1 he with h | h
    · obtain ⟨kind, par, data, hp⟩ := hp
      have := place_five hp
      rw [h] at this
      exact absurd this (by decide)
    · exact h
  obtain ⟨D, hD, hq1, hg1⟩ := hd.dict_spec (order := order)
  obtain ⟨D', hD', hq', hg'⟩ := hu.dict_spec (order := order)
  refine ⟨_, _, D, D', if_neg h1, hfrom, hu, hD, hD', fun e kind par data hp id v => ?_, fun g hgg k par v => ?_⟩
  · rw [hq1 e kind par data hp, hq' e kind par data hp]
    have hcol : d.At e id v → e ∈ d.cols.map Prod.fst ∧ d.rows ≠ [] := by
      rintro ⟨col, hc, i, r, hi, _⟩
      refine ⟨List.mem_map.2 ⟨_, hc, rfl⟩, fun h0 => ?_⟩
      rw [h0] at hi
      cases hi
    constructor
    · rintro ⟨_, h4, h5, h6⟩
      exact ⟨(hen2 e).2 (hcol h6).2 (hcol h6).1, h4, h5, h6⟩
    · rintro ⟨_, h4, h5, h6⟩
      exact ⟨hen e (hcol h6).1, h4, h5, h6⟩
  · rw [hg1 g hgg, hg' g hgg, hg]
    constructor
    · rintro ⟨_, a, r, b, h, _⟩
      cases a <;> cases h
    · rintro ⟨h, _⟩
      cases h

/-- The hypotheses of C81_qubits_partial are met by the example without its gate error. -/
example : ∃ q d' D', ({ exampleTable with gates := [] }).saveQubits = some q ∧
    ErrTable.fromCsv (fun _ => none) (some q) (some (({ exampleTable with gates := [] }).saveGates (fun _ => []) (fun _ => []) (fun _ => []))) = .ok d' ∧
    d'.dict fiveNames = .ok D' ∧ DictHas D' "pauli".toList (.int 1) "x".toList 12 := by
  have hu : ({ exampleTable with gates := [] } : ErrTable Nat).Usable := ⟨⟨exampleTable_usable.proper.info, exampleTable_usable.proper.labels,
    exampleTable_usable.proper.full, exampleTable_usable.proper.names⟩, exampleTable_usable.cols, fun r hr => absurd hr (by simp)⟩
  obtain ⟨q, d', D, D', h1, h2, _, h3, h4, h5, _⟩ := C81_qubits_partial (fun _ => none) (fun _ => []) (fun _ => []) (fun _ => []) _ hu (by decide) rfl fiveNames
  refine ⟨q, d', D', h1, h2, h4, (h5 "X".toList _ _ true (by unfold ErrorPlace; decide) 1 12).1 ?_⟩
  cases h3
  rfl

end Plaquette
