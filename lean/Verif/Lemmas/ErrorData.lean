import Verif.Spec.ErrorData
import Verif.Lemmas.Frontend
import Verif.Lemmas.Lattice
import Verif.Lemmas.Unpack

/-!
# Lemmas on the tables of errors and the functions that change them
-/

namespace Plaquette
variable {F : Type}

theorem errorPlace_iff {e kind par : List Char} {data : Bool} : ErrorPlace e kind par data ↔ kindOf e = some (kind, par, data) := by
  unfold ErrorPlace
  constructor
  · intro h
    simp only [List.map_cons, List.map_nil, List.mem_cons, Prod.mk.injEq, List.not_mem_nil, or_false] at h
    rcases h with ⟨rfl, rfl, rfl, rfl⟩ | ⟨rfl, rfl, rfl, rfl⟩ | ⟨rfl, rfl, rfl, rfl⟩ | ⟨rfl, rfl, rfl, rfl⟩ | ⟨rfl, rfl, rfl, rfl⟩ <;> decide
  · intro h
    unfold kindOf at h
    split at h
    · rename_i hx
      rcases hx with rfl | rfl | rfl <;> cases h <;> decide
    split at h
    · rename_i hx; subst hx; cases h; decide
    split at h
    · rename_i hx; subst hx; cases h; decide
    · cases h

theorem dictGet_mapVal {K V : Type} [DecidableEq K] (h : K → V → V) (l : List (K × V)) (k : K) :
    dictGet (l.map fun c => (c.1, h c.1 c.2)) k = (dictGet l k).map (h k) := by
  induction l with
  | nil => rfl
  | cons a l ih =>
    unfold dictGet at ih ⊢
    rw [List.map_cons, List.find?_cons, List.find?_cons]
    by_cases ha : a.1 = k
    · subst ha; simp
    · simp only [ha, decide_false]
      exact ih

/-- The entry of a column for a label. -/
def entry (rows : List EdRow) (col : List F) (q : Nat) : Option F := dictGet (List.zipWith (fun r v => (r.label, v)) rows col) q

theorem entry_nil (col : List F) (q : Nat) : entry [] col q = none := by simp [entry, dictGet]

theorem entry_cons (r : EdRow) (rows : List EdRow) (v : F) (col : List F) (q : Nat) :
    entry (r :: rows) (v :: col) q = if r.label = q then some v else entry rows col q := by
  unfold entry dictGet
  rw [List.zipWith_cons_cons, List.find?_cons]
  by_cases h : r.label = q <;> simp [h]

theorem entry_zipWith (h : Nat → F → F) (rows : List EdRow) (col : List F) (q : Nat) :
    entry rows (List.zipWith (fun r v => h r.label v) rows col) q = (entry rows col q).map (h q) := by
  induction rows generalizing col with
  | nil => simp [entry_nil]
  | cons r rows ih =>
    cases col with
    | nil => simp [entry, dictGet]
    | cons v col =>
      rw [List.zipWith_cons_cons, entry_cons, entry_cons, ih]
      by_cases hr : r.label = q
      · subst hr; simp
      · simp [hr]

theorem entry_map (h : F → F) (rows : List EdRow) (col : List F) (q : Nat) : entry rows (col.map h) q = (entry rows col q).map h := by
  induction rows generalizing col with
  | nil => simp [entry_nil]
  | cons r rows ih =>
    cases col with
    | nil => simp [entry, dictGet]
    | cons v col =>
      rw [List.map_cons, entry_cons, entry_cons, ih]
      by_cases hr : r.label = q <;> simp [hr]

theorem entry_const (v : F) (rows : List EdRow) (q : Nat) :
    entry rows (rows.map fun _ => v) q = if q ∈ rows.map EdRow.label then some v else none := by
  induction rows with
  | nil => simp [entry_nil]
  | cons r rows ih =>
    rw [List.map_cons, entry_cons, ih]
    by_cases hr : r.label = q
    · simp [hr]
    · simp [hr, Ne.symm hr]

theorem entry_iff {rows : List EdRow} (hn : (rows.map EdRow.label).Nodup) {col : List F} (hl : col.length = rows.length) {q : Nat} {v : F} :
    entry rows col q = some v ↔ ∃ (i : Nat) (r : EdRow), rows[i]? = some r ∧ r.label = q ∧ col[i]? = some v := by
  induction rows generalizing col with
  | nil => simp [entry_nil]
  | cons r rows ih =>
    cases col with
    | nil => simp at hl
    | cons w col =>
      rw [entry_cons]
      rw [List.map_cons, List.nodup_cons] at hn
      have ih := ih hn.2 (col := col) (by simpa using hl)
      by_cases hr : r.label = q
      · rw [if_pos hr]
        constructor
        · intro h
          exact ⟨0, r, rfl, hr, by simpa using h⟩
        · rintro ⟨i, r', h1, h2, h3⟩
          cases i with
          | zero => simpa using h3
          | succ i =>
            exfalso
            apply hn.1
            rw [hr, ← h2]
            exact List.mem_map_of_mem (List.mem_of_getElem? (by simpa using h1))
      · rw [if_neg hr, ih]
        constructor
        · rintro ⟨i, r', h1, h2, h3⟩
          exact ⟨i + 1, r', by simpa using h1, h2, by simpa using h3⟩
        · rintro ⟨i, r', h1, h2, h3⟩
          cases i with
          | zero =>
            simp only [List.getElem?_cons_zero, Option.some.injEq] at h1
            subst h1
            exact absurd h2 hr
          | succ i => exact ⟨i, r', by simpa using h1, h2, by simpa using h3⟩

variable {d : ErrTable F}

/-- The value of an error of a qubit. -/
def ErrTable.look (d : ErrTable F) (e : List Char) (q : Nat) : Option F := (dictGet d.cols e).bind fun col => entry d.rows col q

theorem ErrTable.Proper.look_iff (h : d.Proper) {e : List Char} {q : Nat} {v : F} : d.look e q = some v ↔ d.At e q v := by
  unfold ErrTable.look ErrTable.At
  rw [Option.bind_eq_some_iff]
  constructor
  · rintro ⟨col, h1, h2⟩
    have hm := dictGet_some_mem h1
    exact ⟨col, hm, (entry_iff h.labels (h.full _ hm)).1 h2⟩
  · rintro ⟨col, hm, h2⟩
    exact ⟨col, dictGet_of_mem h.names hm, (entry_iff h.labels (h.full _ hm)).2 h2⟩

theorem ErrTable.cell_look (e : List Char) (q : Nat) : d.cell e q = match d.look e q with
    | some v => .ok v
    | none => .error .keyError := by
  unfold ErrTable.cell ErrTable.look entry
  cases dictGet d.cols e with
  | none => rfl
  | some col =>
    dsimp only [Option.bind_some]
    cases dictGet (List.zipWith (fun r v => (r.label, v)) d.rows col) q <;> rfl

theorem ErrTable.any_label (i : Nat) : (d.rows.any fun r => r.label = i) = true ↔ i ∈ d.rows.map EdRow.label := by
  simp only [List.any_eq_true, decide_eq_true_eq, List.mem_map]

theorem mapIf (name : List Char) (g : List F → List F) (cols : List (List Char × List F)) :
    (cols.map fun c => if c.1 = name then (c.1, g c.2) else c) = cols.map fun c => (c.1, if c.1 = name then g c.2 else c.2) := by
  refine List.map_congr_left fun c _ => ?_
  by_cases h : c.1 = name <;> simp [h]

theorem setCell_eq {nan : F} {name : List Char} {ip : Nat × F} (h : ip.1 ∈ d.rows.map EdRow.label) :
    d.setCell nan name ip = { d with cols := d.cols.map fun c => (c.1, if c.1 = name then
      List.zipWith (fun r v => if r.label = ip.1 then ip.2 else v) d.rows c.2 else c.2) } := by
  have he : d.ensureRow nan ip.1 = d := by
    unfold ErrTable.ensureRow
    rw [if_pos (ErrTable.any_label _ |>.2 h)]
  unfold ErrTable.setCell
  rw [he]
  dsimp only
  rw [mapIf name fun c => List.zipWith (fun r v => if r.label = ip.1 then ip.2 else v) d.rows c]

theorem setCell_look {nan : F} {name : List Char} {ip : Nat × F} (h : ip.1 ∈ d.rows.map EdRow.label) (e : List Char) (q : Nat) :
    (d.setCell nan name ip).look e q = if e = name ∧ q = ip.1 then (d.look e q).map fun _ => ip.2 else d.look e q := by
  rw [setCell_eq h]
  unfold ErrTable.look
  dsimp only
  rw [dictGet_mapVal (fun k c => if k = name then List.zipWith (fun r v => if r.label = ip.1 then ip.2 else v) d.rows c else c)]
  cases dictGet d.cols e with
  | none => simp
  | some col =>
    rw [Option.map_some, Option.bind_some, Option.bind_some]
    by_cases he : e = name
    · rw [if_pos he, entry_zipWith (fun l v => if l = ip.1 then ip.2 else v)]
      by_cases hq : q = ip.1
      · simp [he, hq]
      · simp [hq]
    · simp [he]

theorem setCell_proper {nan : F} {name : List Char} {ip : Nat × F} (hd : d.Proper) (h : ip.1 ∈ d.rows.map EdRow.label) :
    (d.setCell nan name ip).Proper := by
  rw [setCell_eq h]
  refine ⟨hd.info, hd.labels, ?_, ?_⟩
  · intro c hc
    rw [List.mem_map] at hc
    obtain ⟨c, hc, rfl⟩ := hc
    dsimp only
    split
    · rw [List.length_zipWith, hd.full _ hc]; simp
    · exact hd.full _ hc
  · rw [List.map_map]
    exact hd.names

/-- The last value given, if any. -/
def lastGiven {K : Type} [DecidableEq K] (l : List (K × F)) (q : K) : Option F := dictGet l.reverse q

theorem lastGiven_iff {K : Type} [DecidableEq K] {l : List (K × F)} {q : K} {p : F} : lastGiven l q = some p ↔ LastGives l q p := by
  unfold lastGiven LastGives
  constructor
  · intro h
    unfold dictGet at h
    rw [Option.map_eq_some_iff] at h
    obtain ⟨x, h, rfl⟩ := h
    rw [List.find?_eq_some_iff_append] at h
    obtain ⟨h1, as, bs, h2, h3⟩ := h
    simp only [decide_eq_true_eq] at h1
    subst h1
    refine ⟨bs.reverse, as.reverse, ?_, ?_⟩
    · rw [← List.reverse_reverse l, h2]; simp
    · intro hm
      simp only [List.map_reverse, List.mem_reverse, List.mem_map] at hm
      obtain ⟨y, hy, hyq⟩ := hm
      have := h3 y hy
      simp [hyq] at this
  · rintro ⟨a, b, rfl, h⟩
    have : dictGet b.reverse q = none := dictGet_none.2 fun e he heq => h (by
      rw [← heq]; exact List.mem_map_of_mem (List.mem_reverse.1 he))
    rw [List.reverse_append, dictGet_append, List.reverse_cons, dictGet_append, this]
    simp [dictGet]

theorem lastGiven_none {K : Type} [DecidableEq K] {l : List (K × F)} {q : K} : lastGiven l q = none ↔ q ∉ l.map Prod.fst := by
  unfold lastGiven
  rw [dictGet_none]
  simp only [List.mem_reverse, List.mem_map, not_exists, not_and, ne_eq]

theorem lastGiven_cons {K : Type} [DecidableEq K] (ip : K × F) (l : List (K × F)) (q : K) :
    lastGiven (ip :: l) q = (lastGiven l q).or (if q = ip.1 then some ip.2 else none) := by
  unfold lastGiven
  rw [List.reverse_cons, dictGet_append]
  congr 1
  by_cases h : q = ip.1
  · simp [dictGet, h]
  · simp [dictGet, h, Ne.symm h]

theorem foldl_setCell {nan : F} {name : List Char} (l : List (Nat × F)) : ∀ {d : ErrTable F}, d.Proper → (∀ ip ∈ l, ip.1 ∈ d.rows.map EdRow.label) →
    (l.foldl (ErrTable.setCell nan name) d).Proper ∧ (l.foldl (ErrTable.setCell nan name) d).rows = d.rows ∧
    (l.foldl (ErrTable.setCell nan name) d).gates = d.gates ∧ (l.foldl (ErrTable.setCell nan name) d).enabledQ = d.enabledQ ∧
    (l.foldl (ErrTable.setCell nan name) d).enabledG = d.enabledG ∧
    (l.foldl (ErrTable.setCell nan name) d).cols.map Prod.fst = d.cols.map Prod.fst ∧
    ∀ e q, (l.foldl (ErrTable.setCell nan name) d).look e q =
      if e = name then (d.look e q).map fun v => (lastGiven l q).getD v else d.look e q := by
  induction l with
  | nil =>
    intro d hd _
    refine ⟨hd, rfl, rfl, rfl, rfl, rfl, fun e q => ?_⟩
    simp only [List.foldl_nil, lastGiven, List.reverse_nil]
    cases d.look e q <;> simp [dictGet]
  | cons ip l ih =>
    intro d hd hl
    have h0 := hl ip List.mem_cons_self
    have hr : (d.setCell nan name ip).rows = d.rows := by rw [setCell_eq h0]
    obtain ⟨h1, h2, h3, h4, h5, h7, h6⟩ := ih (d := d.setCell nan name ip) (setCell_proper hd h0) (fun x hx => by
      rw [hr]; exact hl x (List.mem_cons_of_mem _ hx))
    rw [List.foldl_cons]
    refine ⟨h1, h2.trans hr, h3.trans ?_, h4.trans ?_, h5.trans ?_, h7.trans ?_, fun e q => ?_⟩
    · rw [setCell_eq h0]
    · rw [setCell_eq h0]
    · rw [setCell_eq h0]
    · rw [setCell_eq h0, List.map_map]; rfl
    · rw [h6, setCell_look h0, lastGiven_cons]
      by_cases he : e = name
      · rw [if_pos he, if_pos he]
        by_cases hq : q = ip.1
        · rw [if_pos ⟨he, hq⟩, if_pos hq]
          cases d.look e q <;> cases lastGiven l q <;> rfl
        · rw [if_neg (by tauto), if_neg hq, Option.or_none]
      · rw [if_neg he, if_neg he, if_neg (by tauto)]

/-! ### The dictionary -/

/-- The table in the form of the configuration. -/
def ErrTable.simple (d : ErrTable F) : QubitTable F := ⟨d.rows.map fun r => (r.label, (r.info.map Prod.snd).getD false), d.cols⟩

theorem ErrTable.simple_cell (e : List Char) (q : Nat) : d.simple.cell e q = d.cell e q := by
  unfold QubitTable.cell ErrTable.cell ErrTable.simple
  dsimp only
  cases dictGet d.cols e with
  | none => rfl
  | some col =>
    dsimp only
    have : ((d.rows.map fun r => (r.label, (r.info.map Prod.snd).getD false)).zip col |>.map fun x => (x.1.1, x.2)) =
        List.zipWith (fun r v => (r.label, v)) d.rows col := by
      rw [List.zip, List.map_zipWith, List.zipWith_map_left]
    rw [this]
    cases dictGet (List.zipWith (fun r v => (r.label, v)) d.rows col) q <;> rfl

theorem ErrTable.Proper.keys (h : d.Proper) (data : Bool) : d.keys data = .ok (d.simple.ids data) := by
  unfold ErrTable.keys
  rw [mapLoop_ok (g := fun r => (r.label, decide ((r.info.map Prod.snd).getD false = data)))]
  · dsimp only
    unfold QubitTable.ids ErrTable.simple
    dsimp only
    rw [List.filter_map, List.filter_map, List.map_map, List.map_map]
    rfl
  · intro r hr
    obtain ⟨t, ht⟩ := h.info r hr
    rw [ht]
    dsimp only
    have : (d.rows.find? fun r' => r'.label = r.label) = some r := by
      have hn := h.labels
      generalize d.rows = rows at hr hn
      induction rows with
      | nil => cases hr
      | cons a rows ih =>
        rw [List.map_cons, List.nodup_cons] at hn
        rw [List.find?_cons]
        by_cases ha : a.label = r.label
        · rcases List.mem_cons.1 hr with rfl | hr
          · simp
          · exact absurd (ha ▸ List.mem_map_of_mem hr) hn.1
        · simp only [ha, decide_false]
          rcases List.mem_cons.1 hr with rfl | hr
          · exact absurd rfl ha
          · exact ih hr hn.2
    rw [this]
    dsimp only
    rw [ht]
    simp

theorem ErrTable.simple_fill (e par : List Char) (o : ErrDict F) : d.simple.fill e par o = d.fill e par o := by
  induction o with
  | nil => rfl
  | cons x o ih =>
    obtain ⟨k, ps⟩ := x
    unfold QubitTable.fill ErrTable.fill
    cases k with
    | tup _ => rfl
    | int q =>
      dsimp only
      rw [d.simple_cell, ih]
      cases d.cell e q.toNat with
      | error x => rfl
      | ok v => cases d.fill e par o <;> rfl

theorem ErrTable.Proper.addKind (h : d.Proper) (D : List (List Char × ErrDict F)) (e : List Char) : d.addKind D e = d.simple.addKind D e := by
  have key : ∀ kind par data, (match (match dictGet D kind with
      | some o => .ok o
      | none => match d.keys data with
        | .error x => .error x
        | .ok qs => .ok (qs.map fun (q : Nat) => (QKey.int (q : Int), [])) : Except Err (ErrDict F)) with
    | .error x => .error x
    | .ok old => match d.fill e par old with
      | .error x => .error x
      | .ok new => .ok (dictSet D kind new) : Except Err (List (List Char × ErrDict F))) = (match d.simple.fill e par (match dictGet D kind with
      | some o => o
      | none => (d.simple.qubits.filter fun q => q.2 = data).map fun q => (QKey.int (q.1 : Int), [])) with
    | .error x => .error x
    | .ok new => .ok (dictSet D kind new)) := by
    intro kind par data
    cases dictGet D kind with
    | some o => dsimp only; rw [d.simple_fill]
    | none =>
      dsimp only
      rw [h.keys data]
      dsimp only
      rw [d.simple_fill, QubitTable.ids, List.map_map]
      rfl
  unfold ErrTable.addKind QubitTable.addKind
  dsimp only
  by_cases h1 : e = "X".toList ∨ e = "Y".toList ∨ e = "Z".toList
  · rw [if_pos h1, if_pos h1]; exact key _ _ _
  rw [if_neg h1, if_neg h1]
  by_cases h2 : e = "erasure".toList
  · rw [if_pos h2, if_pos h2]; exact key _ _ _
  rw [if_neg h2, if_neg h2]
  by_cases h3 : e = "measurement".toList
  · rw [if_pos h3, if_pos h3]; exact key _ _ _
  rw [if_neg h3, if_neg h3]

theorem ErrTable.Proper.qubitDict (h : d.Proper) (order : List (List Char)) :
    d.qubitDict order = d.simple.dict (order.filter fun e => e ∈ d.enabledQ) := by
  unfold ErrTable.qubitDict QubitTable.dict
  rw [show d.addKind = d.simple.addKind from funext fun D => funext fun e => h.addKind D e]

theorem ErrTable.Proper.mem_ids (h : d.Proper) {q : Nat} {data : Bool} : q ∈ d.simple.ids data ↔ d.IsQubit q data := by
  unfold QubitTable.ids ErrTable.simple ErrTable.IsQubit
  simp only [List.mem_map, List.mem_filter, decide_eq_true_eq]
  constructor
  · rintro ⟨x, ⟨⟨r, hr, rfl⟩, hx⟩, rfl⟩
    obtain ⟨t, ht⟩ := h.info r hr
    rw [ht] at hx
    simp only [Option.map_some, Option.getD_some] at hx
    exact ⟨r, hr, rfl, by rw [ht, hx]⟩
  · rintro ⟨r, hr, rfl, ht⟩
    exact ⟨_, ⟨⟨r, hr, rfl⟩, by rw [ht]; rfl⟩, rfl⟩

theorem ErrTable.Proper.total (h : d.Proper) {e : List Char} (he : e ∈ d.cols.map Prod.fst) {q : Nat} (hq : q ∈ d.rows.map EdRow.label) :
    ∃ v, d.look e q = some v := by
  rw [List.mem_map] at he hq
  obtain ⟨c, hc, rfl⟩ := he
  obtain ⟨r, hr, rfl⟩ := hq
  obtain ⟨i, hi⟩ := List.getElem?_of_mem hr
  have hlt : i < c.2.length := by
    rw [h.full c hc]
    exact (List.getElem?_eq_some_iff.1 hi).1
  exact ⟨c.2[i], h.look_iff.2 ⟨c.2, hc, i, r, hi, rfl, List.getElem?_eq_getElem hlt⟩⟩

/-- The dictionary says what the table says, for the enabled errors. -/
theorem ErrTable.Proper.dictHas [Inhabited F] (h : d.Proper) {order : List (List Char)}
    (hc : ∀ e ∈ d.enabledQ, (kindOf e).isSome → e ∈ d.cols.map Prod.fst) :
    ∃ D, d.qubitDict order = .ok D ∧ (∀ kind, (∃ o, dictGet D kind = some o) → kind ∈ qubitErrorNames) ∧
      ∀ e kind par data, ErrorPlace e kind par data → ∀ (q : Nat) v,
        DictHas D kind (.int q) par v ↔ e ∈ d.enabledQ ∧ e ∈ order ∧ d.IsQubit q data ∧ d.At e q v := by
  obtain ⟨D, h1, h2⟩ := dict_ok (t := d.simple) (v := fun e q => (d.look e q).getD default) (enabled := order.filter fun e => e ∈ d.enabledQ) (by
    intro e he q data hq hk
    rw [List.mem_filter, decide_eq_true_eq] at he
    obtain ⟨r, hr, hrq, _⟩ := h.mem_ids.1 hq
    obtain ⟨v, hv⟩ := h.total (hc e he.2 hk) (q := q) (hrq ▸ List.mem_map_of_mem hr)
    rw [d.simple_cell, d.cell_look, hv]
    rfl)
  refine ⟨D, by rw [h.qubitDict, h1], ?_, ?_⟩
  · rintro kind ⟨o, ho⟩
    rw [h2] at ho
    split at ho
    · rename_i hh
      unfold hasKind at hh
      rw [List.any_eq_true] at hh
      obtain ⟨e, _, hh⟩ := hh
      cases hk : kindOf e with
      | none => rw [hk] at hh; cases hh
      | some x =>
        rw [hk] at hh
        simp only [Option.any_some, decide_eq_true_eq] at hh
        subst hh
        have := errorPlace_iff.2 hk
        unfold ErrorPlace at this
        simp only [List.map_cons, List.map_nil, List.mem_cons, Prod.mk.injEq, List.not_mem_nil, or_false] at this
        rcases this with ⟨_, h, _⟩ | ⟨_, h, _⟩ | ⟨_, h, _⟩ | ⟨_, h, _⟩ | ⟨_, h, _⟩ <;> rw [h] <;> decide
    · cases ho
  · intro e kind par data hp q v
    have hk := errorPlace_iff.1 hp
    unfold DictHas
    rw [h2]
    have hdata := kindOf_data hk
    have hmem : e ∈ (order.filter fun e => e ∈ d.enabledQ) ↔ e ∈ d.enabledQ ∧ e ∈ order := by simp [and_comm]
    by_cases hh : hasKind (order.filter fun e => e ∈ d.enabledQ) kind = true
    · rw [if_pos hh, Option.bind_some]
      have hget : dictGet ((d.simple.ids (kindData kind)).map fun (q : Nat) => (QKey.int (q : Int), kindParams (fun e q => (d.look e q).getD default)
          (order.filter fun e => e ∈ d.enabledQ) kind q)) (.int q) = if q ∈ d.simple.ids (kindData kind) then
          some (kindParams (fun e q => (d.look e q).getD default) (order.filter fun e => e ∈ d.enabledQ) kind q) else none := by
        generalize d.simple.ids (kindData kind) = l
        induction l with
        | nil => rfl
        | cons a l ih =>
          unfold dictGet at ih ⊢
          rw [List.map_cons, List.find?_cons]
          by_cases ha : a = q
          · subst ha; simp
          · have : (QKey.int (a : Int) = QKey.int (q : Int)) ↔ False := by simp [ha]
            simp only [this, decide_false]
            rw [ih]
            simp [Ne.symm ha]
      rw [hget, ← hdata]
      by_cases hq : q ∈ d.simple.ids data
      · rw [if_pos hq, Option.bind_some, dictGet_kindParams _ _ hk]
        by_cases hm : e ∈ (order.filter fun e => e ∈ d.enabledQ)
        · rw [if_pos hm]
          have hm' := hmem.1 hm
          obtain ⟨r, hr, hrq, _⟩ := h.mem_ids.1 hq
          obtain ⟨w, hw⟩ := h.total (hc e hm'.1 (by rw [hk]; rfl)) (q := q) (hrq ▸ List.mem_map_of_mem hr)
          rw [hw, ← h.look_iff, hw, ← h.mem_ids]
          simp [hm'.1, hm'.2, hq]
        · rw [if_neg hm]
          simp only [reduceCtorEq, false_iff]
          rintro ⟨ha, hb, _⟩
          exact hm (hmem.2 ⟨ha, hb⟩)
      · rw [if_neg hq]
        simp only [Option.bind_none, reduceCtorEq, false_iff]
        rintro ⟨_, _, hc, _⟩
        exact hq (h.mem_ids.2 hc)
    · rw [if_neg hh]
      simp only [Option.bind_none, reduceCtorEq, false_iff]
      rintro ⟨ha, hb, _⟩
      apply hh
      unfold hasKind
      rw [List.any_eq_true]
      exact ⟨e, hmem.2 ⟨ha, hb⟩, by rw [hk]; simp⟩

/-! ### Gate errors -/

/-- The keys of a row. -/
def rowKeys (r : GateRow F) : List QKey :=
  if r.gate ∈ oneGates then r.onQubits.map fun (q : Nat) => .int (q : Int)
  else if r.gate ∈ twoGates then match pairUp r.onQubits with
    | .ok ks => ks
    | .error _ => []
  else []

theorem pairUp_ok : ∀ (m : Nat) (l : List Nat), l.length = 2 * m → ∃ ks, pairUp l = .ok ks ∧
    ∀ k, k ∈ ks ↔ ∃ (i a b : Nat), l[2 * i]? = some a ∧ l[2 * i + 1]? = some b ∧ k = .tup [(a : Int), (b : Int)] := by
  intro m
  induction m with
  | zero =>
    intro l hl
    have hl0 : l = [] := List.length_eq_zero_iff.1 (by simpa using hl)
    rw [hl0]
    exact ⟨[], rfl, by simp⟩
  | succ m ih =>
    intro l hl
    match l, hl with
    | a :: b :: rest, hl =>
      obtain ⟨ks, h1, h2⟩ := ih rest (by simp only [List.length_cons] at hl; omega)
      refine ⟨.tup [(a : Int), (b : Int)] :: ks, by rw [pairUp, h1], fun k => ?_⟩
      rw [List.mem_cons, h2]
      constructor
      · rintro (rfl | ⟨i, x, y, hx, hy, rfl⟩)
        · exact ⟨0, a, b, rfl, rfl, rfl⟩
        · exact ⟨i + 1, x, y, by simpa [Nat.mul_add] using hx, by simpa [Nat.mul_add] using hy, rfl⟩
      · rintro ⟨i, x, y, hx, hy, rfl⟩
        cases i with
        | zero =>
          left
          simp only [Nat.mul_zero, List.getElem?_cons_zero, Option.some.injEq, Nat.zero_add, List.getElem?_cons_succ] at hx hy
          rw [hx, hy]
        | succ i =>
          right
          exact ⟨i, x, y, by simpa [Nat.mul_add] using hx, by simpa [Nat.mul_add] using hy, rfl⟩

theorem gates_disjoint {g : List Char} (h : g ∈ oneGates) : g ∉ twoGates := by
  unfold oneGates at h
  simp only [List.mem_cons, List.not_mem_nil, or_false] at h
  rcases h with rfl | rfl | rfl <;> decide

theorem mem_oneGates {g : List Char} : g ∈ oneGates ↔ g = "H".toList ∨ g = "M".toList ∨ g = "R".toList := by
  unfold oneGates
  simp only [List.mem_cons, List.not_mem_nil, or_false]

theorem mem_twoGates {g : List Char} : g ∈ twoGates ↔ g = "CX".toList ∨ g = "CZ".toList := by
  unfold twoGates
  simp only [List.mem_cons, List.not_mem_nil, or_false]

theorem mem_rowKeys {r : GateRow F} (h : r.Fits) (k : QKey) : k ∈ rowKeys r ↔ r.Acts k := by
  unfold rowKeys GateRow.Acts
  by_cases h1 : r.gate ∈ oneGates
  · have h2 := gates_disjoint h1
    rw [if_pos h1]
    simp only [h1, h2, true_and, false_and, or_false, List.mem_map]
    exact ⟨fun ⟨q, a, b⟩ => ⟨q, a, b.symm⟩, fun ⟨q, a, b⟩ => ⟨q, a, b.symm⟩⟩
  · rw [if_neg h1]
    by_cases h2 : r.gate ∈ twoGates
    · rw [if_pos h2]
      obtain ⟨⟨m, hm⟩, _⟩ := h h2
      obtain ⟨ks, h3, h4⟩ := pairUp_ok m _ hm
      rw [h3]
      simp only [h1, h2, true_and, false_and, false_or]
      exact h4 k
    · rw [if_neg h2]
      simp [h1, h2]

/-- The parameters of a key in a dictionary. -/
def paramsAt (D : List (List Char × ErrDict F)) (g : List Char) (k : QKey) : Option (Params F) := (dictGet D g).bind (dictGet · k)

theorem foldl_keys (ps : Params F) (qs : List Nat) (o : ErrDict F) : qs.foldl (fun o (q : Nat) => dictSet o (.int (q : Int)) ps) o =
    (qs.map fun (q : Nat) => QKey.int (q : Int)).foldl (fun o k => dictSet o k ps) o := by rw [List.foldl_map]

theorem addRow_spec {enabled : List (List Char)} {r : GateRow F} (h : r.gate ∈ enabled → r.Fits) (D : List (List Char × ErrDict F)) :
    ∃ D', addRow enabled D r = .ok D' ∧ (∀ g o, dictGet D' g = some o → (∃ o', dictGet D g = some o') ∨ g ∈ oneGates ∨ g ∈ twoGates) ∧
      ∀ g k, paramsAt D' g k = if r.gate ∈ enabled ∧ r.gate = g ∧ k ∈ rowKeys r then some r.params else paramsAt D g k := by
  unfold addRow
  by_cases he : r.gate ∈ enabled
  swap
  · rw [if_pos he]
    exact ⟨D, rfl, fun g o ho => .inl ⟨o, ho⟩, fun g k => by simp [he]⟩
  rw [if_neg (not_not.2 he)]
  have hfit := h he
  have fin : ∀ ks : List QKey, rowKeys r = ks → (r.gate ∈ oneGates ∨ r.gate ∈ twoGates) →
      ∃ D', (.ok (dictSet D r.gate (ks.foldl (fun o k => dictSet o k r.params) ((dictGet D r.gate).getD []))) : Except Err (List (List Char × ErrDict F))) = .ok D' ∧
      (∀ g o, dictGet D' g = some o → (∃ o', dictGet D g = some o') ∨ g ∈ oneGates ∨ g ∈ twoGates) ∧
      ∀ g k, paramsAt D' g k = if r.gate ∈ enabled ∧ r.gate = g ∧ k ∈ rowKeys r then some r.params else paramsAt D g k := by
    rintro ks rfl hg
    refine ⟨_, rfl, fun g o ho => ?_, fun g k => ?_⟩
    · rw [dictGet_set] at ho
      by_cases hgg : g = r.gate
      · exact .inr (hgg ▸ hg)
      · rw [if_neg hgg] at ho
        exact .inl ⟨o, ho⟩
    · unfold paramsAt
      rw [dictGet_set]
      by_cases hgg : g = r.gate
      · subst hgg
        rw [if_pos rfl, Option.bind_some, dictGet_foldl]
        simp only [he, true_and]
        congr 1
        cases dictGet D r.gate <;> rfl
      · rw [if_neg hgg, if_neg (by tauto)]
  dsimp only
  by_cases h1 : r.gate = "H".toList ∨ r.gate = "M".toList ∨ r.gate = "R".toList
  · rw [if_pos h1, foldl_keys]
    refine fin _ ?_ (.inl (mem_oneGates.2 h1))
    unfold rowKeys
    rw [if_pos (mem_oneGates.2 h1)]
  rw [if_neg h1]
  by_cases h2 : r.gate = "CX".toList ∨ r.gate = "CZ".toList
  · rw [if_pos h2]
    obtain ⟨⟨m, hm⟩, hi⟩ := hfit (mem_twoGates.2 h2)
    rw [if_neg]
    · obtain ⟨ks, h3, _⟩ := pairUp_ok m _ hm
      rw [h3]
      refine fin _ ?_ (.inr (mem_twoGates.2 h2))
      unfold rowKeys
      rw [if_neg (fun h => h1 (mem_oneGates.1 h)), if_pos (mem_twoGates.2 h2), h3]
    · rw [List.any_eq_true]
      rintro ⟨s, hs, hx⟩
      simp only [List.mem_cons, List.not_mem_nil, or_false, decide_eq_true_eq] at hx
      have := hi s hs
      tauto
  · rw [if_neg h2]
    refine ⟨D, rfl, fun g o ho => .inl ⟨o, ho⟩, fun g k => ?_⟩
    have : rowKeys r = [] := by
      unfold rowKeys
      rw [if_neg (fun h => h1 (mem_oneGates.1 h)), if_neg (fun h => h2 (mem_twoGates.1 h))]
    simp [this]

/-- The last row about the key. -/
def lastRow (enabled : List (List Char)) (rows : List (GateRow F)) (g : List Char) (k : QKey) : Option (GateRow F) :=
  rows.reverse.find? fun r => r.gate ∈ enabled ∧ r.gate = g ∧ k ∈ rowKeys r

theorem foldE_rows {enabled : List (List Char)} (rows : List (GateRow F)) : ∀ (_ : ∀ r ∈ rows, r.gate ∈ enabled → r.Fits) (D : List (List Char × ErrDict F)),
    ∃ D', foldE (addRow enabled) D rows = .ok D' ∧ (∀ g o, dictGet D' g = some o → (∃ o', dictGet D g = some o') ∨ g ∈ oneGates ∨ g ∈ twoGates) ∧
      ∀ g k, paramsAt D' g k = ((lastRow enabled rows g k).map GateRow.params).or (paramsAt D g k) := by
  induction rows with
  | nil => intro _ D; exact ⟨D, rfl, fun g o ho => .inl ⟨o, ho⟩, fun g k => by simp [lastRow]⟩
  | cons r rows ih =>
    intro h D
    obtain ⟨D1, h1, h2, h3⟩ := addRow_spec (h r List.mem_cons_self) D
    obtain ⟨D2, h4, h5, h6⟩ := ih (fun x hx => h x (List.mem_cons_of_mem _ hx)) D1
    refine ⟨D2, by rw [foldE, h1]; exact h4, fun g o ho => ?_, fun g k => ?_⟩
    · rcases h5 g o ho with ⟨o', ho'⟩ | h
      · exact h2 g o' ho'
      · exact .inr h
    · rw [h6, h3]
      unfold lastRow
      rw [List.reverse_cons, List.find?_append]
      cases List.find? (fun r => decide (r.gate ∈ enabled ∧ r.gate = g ∧ k ∈ rowKeys r)) rows.reverse with
      | some r' => simp
      | none =>
        by_cases hh : r.gate ∈ enabled ∧ r.gate = g ∧ k ∈ rowKeys r
        · rw [if_pos hh, List.find?_cons, decide_eq_true hh]; rfl
        · rw [if_neg hh, List.find?_cons, decide_eq_false hh]; rfl

theorem lastRow_iff {enabled : List (List Char)} {rows : List (GateRow F)} (h : ∀ r ∈ rows, r.gate ∈ enabled → r.Fits) {g : List Char} {k : QKey} {r : GateRow F} :
    lastRow enabled rows g k = some r ↔ g ∈ enabled ∧ ∃ a b, rows = a ++ r :: b ∧ r.gate = g ∧ r.Acts k ∧ ∀ r' ∈ b, r'.gate = g → ¬ r'.Acts k := by
  unfold lastRow
  rw [List.find?_eq_some_iff_append]
  constructor
  · rintro ⟨h1, as, bs, h2, h3⟩
    rw [decide_eq_true_eq] at h1
    obtain ⟨he, rfl, hk⟩ := h1
    have hrows : rows = bs.reverse ++ r :: as.reverse := by rw [← List.reverse_reverse rows, h2]; simp
    refine ⟨he, bs.reverse, as.reverse, hrows, rfl, (mem_rowKeys (h r (by rw [hrows]; simp) he) k).1 hk, ?_⟩
    intro r' hr' hg hact
    have h4 := h3 r' (List.mem_reverse.1 hr')
    simp only [Bool.not_eq_true', decide_eq_false_iff_not] at h4
    have he' : r'.gate ∈ enabled := hg ▸ he
    exact h4 ⟨he', hg, (mem_rowKeys (h r' (by rw [hrows]; exact List.mem_append_right _ (List.mem_cons_of_mem _ hr')) he') k).2 hact⟩
  · rintro ⟨he, a, b, hrows, rfl, hact, hlast⟩
    refine ⟨?_, b.reverse, a.reverse, by rw [hrows]; simp, ?_⟩
    · rw [decide_eq_true_eq]
      exact ⟨he, rfl, (mem_rowKeys (h r (by rw [hrows]; simp) he) k).2 hact⟩
    · intro r' hr'
      simp only [Bool.not_eq_true', decide_eq_false_iff_not]
      rintro ⟨he', hg, hk⟩
      rw [List.mem_reverse] at hr'
      exact hlast r' hr' hg ((mem_rowKeys (h r' (by rw [hrows]; exact List.mem_append_right _ (List.mem_cons_of_mem _ hr')) he') k).1 hk)

theorem params_get (r : GateRow F) (par : List Char) (v : F) : dictGet r.params par = some (.flt v) ↔ r.Gives par v := by
  unfold GateRow.Gives
  rw [← lastGiven_iff]
  unfold GateRow.params
  suffices H : ∀ (l : List (List Char × F)) (D : Params F), dictGet (l.foldl (fun d kv => dictSet d (kv.1.map Char.toLower) (.flt kv.2)) D) par =
      ((lastGiven (l.map fun x => (x.1.map Char.toLower, x.2)) par).map Raw.flt).or (dictGet D par) by
    rw [H]
    cases lastGiven ((r.induced.zip r.probs).map fun x => (x.1.map Char.toLower, x.2)) par <;> simp [dictGet]
  intro l
  induction l with
  | nil => intro D; simp [lastGiven, dictGet]
  | cons x l ih =>
    intro D
    rw [List.foldl_cons, ih, List.map_cons, lastGiven_cons, dictGet_set]
    cases lastGiven (l.map fun x => (x.1.map Char.toLower, x.2)) par with
    | some p => simp
    | none =>
      by_cases hp : par = x.1.map Char.toLower
      · simp [hp]
      · simp [hp]

/-- The dictionary of gate errors. -/
theorem gateDict_spec {enabled : List (List Char)} {rows : List (GateRow F)} (h : ∀ r ∈ rows, r.gate ∈ enabled → r.Fits) :
    ∃ D, gateDict enabled rows = .ok D ∧ (∀ g o, dictGet D g = some o → g ∈ oneGates ∨ g ∈ twoGates) ∧
      ∀ g k par v, DictHas D g k par v ↔ g ∈ enabled ∧ RowsGive rows g k par v := by
  obtain ⟨D, h1, h2, h3⟩ := foldE_rows rows h []
  refine ⟨D, h1, fun g o ho => ?_, fun g k par v => ?_⟩
  · rcases h2 g o ho with ⟨o', ho'⟩ | h
    · cases ho'
    · exact h
  · unfold DictHas RowsGive
    have := h3 g k
    unfold paramsAt at this
    rw [this]
    have hnil : (dictGet ([] : List (List Char × ErrDict F)) g).bind (dictGet · k) = none := rfl
    rw [hnil, Option.or_none]
    constructor
    · intro hh
      rw [Option.bind_eq_some_iff] at hh
      obtain ⟨ps, hps, hv⟩ := hh
      rw [Option.map_eq_some_iff] at hps
      obtain ⟨r, hr, rfl⟩ := hps
      obtain ⟨he, a, b, hab, hg, hact, hlast⟩ := (lastRow_iff h).1 hr
      exact ⟨he, a, r, b, hab, hg, hact, (params_get r par v).1 hv, hlast⟩
    · rintro ⟨he, a, r, b, hab, hg, hact, hv, hlast⟩
      rw [(lastRow_iff h).2 ⟨he, a, b, hab, hg, hact, hlast⟩]
      exact (params_get r par v).2 hv

theorem dictKeys_of_get {K V : Type} [DecidableEq K] {D : List (K × V)} {x : K × V} (h : x ∈ D) : ∃ o, dictGet D x.1 = some o := by
  cases hg : dictGet D x.1 with
  | some o => exact ⟨o, rfl⟩
  | none => exact absurd rfl (dictGet_none.1 hg x h)

/-- The dictionary of all errors. -/
theorem ErrTable.Usable.dict_spec [Inhabited F] (h : d.Usable) {order : List (List Char)} :
    ∃ D, d.dict order = .ok D ∧
      (∀ e kind par data, ErrorPlace e kind par data → ∀ (q : Nat) v,
        DictHas D kind (.int q) par v ↔ e ∈ d.enabledQ ∧ e ∈ order ∧ d.IsQubit q data ∧ d.At e q v) ∧
      ∀ g, g ∈ oneGates ∨ g ∈ twoGates → ∀ k par v, DictHas D g k par v ↔ g ∈ d.enabledG ∧ RowsGive d.gates g k par v := by
  obtain ⟨gd, hg1, hg2, hg3⟩ : ∃ gd, (if d.enabledG.isEmpty then .ok [] else gateDict d.enabledG d.gates : Except Err (List (List Char × ErrDict F))) = .ok gd ∧
      (∀ g o, dictGet gd g = some o → g ∈ oneGates ∨ g ∈ twoGates) ∧
      ∀ g k par v, DictHas gd g k par v ↔ g ∈ d.enabledG ∧ RowsGive d.gates g k par v := by
    by_cases he : d.enabledG.isEmpty = true
    · refine ⟨[], if_pos he, fun g o ho => absurd ho (by simp [dictGet]), fun g k par v => ?_⟩
      rw [List.isEmpty_iff.1 he]
      simp [DictHas, dictGet]
    · rw [if_neg he]
      exact gateDict_spec h.rows
  obtain ⟨qd, hq1, hq2, hq3⟩ := h.proper.dictHas (order := order) (fun e he hk => h.cols e he (by
    obtain ⟨⟨kind, par, data⟩, hx⟩ := Option.isSome_iff_exists.1 hk
    exact ⟨kind, par, data, errorPlace_iff.2 hx⟩))
  have hgn : ∀ g, g ∈ oneGates ∨ g ∈ twoGates → g ∈ gateErrorNames ∧ g ∉ qubitErrorNames := by
    intro g hg
    rw [mem_oneGates, mem_twoGates] at hg
    rcases hg with (rfl | rfl | rfl) | rfl | rfl <;> decide
  have hc1 : ¬ (gd.any fun x => x.1 ∉ gateErrorNames) = true := by
    rw [List.any_eq_true]
    rintro ⟨x, hx, hn⟩
    obtain ⟨o, ho⟩ := dictKeys_of_get hx
    exact (of_decide_eq_true hn) (hgn _ (hg2 _ _ ho)).1
  have hc2 : ¬ (qd.any fun x => x.1 ∉ qubitErrorNames) = true := by
    rw [List.any_eq_true]
    rintro ⟨x, hx, hn⟩
    exact (of_decide_eq_true hn) (hq2 _ (dictKeys_of_get hx))
  have hplace : ∀ {e kind par : List Char} {data : Bool}, ErrorPlace e kind par data → kind ∈ qubitErrorNames := by
    intro e kind par data hp
    unfold ErrorPlace at hp
    simp only [List.map_cons, List.map_nil, List.mem_cons, Prod.mk.injEq, List.not_mem_nil, or_false] at hp
    rcases hp with ⟨_, h, _⟩ | ⟨_, h, _⟩ | ⟨_, h, _⟩ | ⟨_, h, _⟩ | ⟨_, h, _⟩ <;> rw [h] <;> decide
  have hnog : ∀ kind ∈ qubitErrorNames, dictGet gd kind = none := by
    intro kind hk
    cases hx : dictGet gd kind with
    | none => rfl
    | some o => exact absurd hk (hgn _ (hg2 _ _ hx)).2
  have hnoq : ∀ g, g ∈ oneGates ∨ g ∈ twoGates → dictGet qd g = none := by
    intro g hg
    cases hx : dictGet qd g with
    | none => rfl
    | some o => exact absurd (hq2 _ ⟨o, hx⟩) (hgn _ hg).2
  unfold ErrTable.dict
  rw [hg1]
  dsimp only
  rw [if_neg hc1]
  by_cases hE : d.enabledQ.isEmpty = true
  · rw [if_pos hE]
    refine ⟨gd, rfl, fun e kind par data hp q v => ?_, fun g _ => hg3 g⟩
    rw [List.isEmpty_iff.1 hE]
    unfold DictHas
    rw [hnog kind (hplace hp)]
    simp
  · rw [if_neg hE, hq1]
    dsimp only
    rw [if_neg hc2]
    refine ⟨_, rfl, fun e kind par data hp q v => ?_, fun g hg k par v => ?_⟩
    · rw [← hq3 e kind par data hp]
      unfold DictHas
      rw [dictGet_append, hnog kind (hplace hp), Option.none_or]
    · rw [← hg3]
      unfold DictHas
      rw [dictGet_append, hnoq g hg, Option.or_none]

end Plaquette
