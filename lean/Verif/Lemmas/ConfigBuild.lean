import Verif.Lemmas.Frontend
import Verif.Lemmas.Weights
import Verif.Props.Errors

/-!
# The shape of the dictionaries of errors (C115)
-/

namespace Plaquette
variable {F : Type}

/-- The parameters of a kind of errors of qubits. -/
def kindPars (name : List Char) : List (List Char) := if name = "pauli".toList then onePauliNames else ["p".toList]

/-- The dictionaries of errors of qubits: every kind once, an entry for every qubit of the kind, with parameters of the kind. -/
structure DictShape (t : QubitTable F) (d : List (List Char × ErrDict F)) : Prop where
  nodup : (d.map Prod.fst).Nodup
  names : ∀ name e, (name, e) ∈ d → name ∈ qubitErrorNames
  keys : ∀ name e, (name, e) ∈ d → e.map Prod.fst = (t.ids (kindData name)).map fun q : Nat => QKey.int (q : Int)
  once : ∀ name e, (name, e) ∈ d → ∀ key ps, (key, ps) ∈ e → (ps.map Prod.fst).Nodup
  params : ∀ name e, (name, e) ∈ d → ∀ key ps, (key, ps) ∈ e → ∀ k v, (k, v) ∈ ps → k ∈ kindPars name ∧ ∃ f, v = .flt f

variable {t : QubitTable F}

theorem fill_shape {e par : List Char} : ∀ {old new : ErrDict F}, t.fill e par old = .ok new →
    new.map Prod.fst = old.map Prod.fst ∧ ∀ key ps, (key, ps) ∈ new → ∃ ps0 v, (key, ps0) ∈ old ∧ ps = dictSet ps0 par (.flt v)
  | [], new, h => by cases h; exact ⟨rfl, by simp⟩
  | (k, ps) :: rest, new, h => by
    unfold QubitTable.fill at h
    split at h
    · cases h
    next q =>
    split at h
    · cases h
    next v hv =>
    split at h
    · cases h
    next r hr =>
    cases h
    obtain ⟨h1, h2⟩ := fill_shape hr
    refine ⟨by rw [List.map_cons, List.map_cons, h1], fun key ps' hm => ?_⟩
    rcases List.mem_cons.1 hm with hm | hm
    · cases hm
      exact ⟨ps, v, .head _, rfl⟩
    · obtain ⟨ps0, v, h3, h4⟩ := h2 key ps' hm
      exact ⟨ps0, v, .tail _ h3, h4⟩

theorem addKind_eq (d : List (List Char × ErrDict F)) (e : List Char) : t.addKind d e = match kindOf e with
    | none => .ok d
    | some (kind, par, data) => match t.fill e par ((dictGet d kind).getD ((t.ids data).map fun q : Nat => (QKey.int (q : Int), []))) with
      | .error x => .error x
      | .ok new => .ok (dictSet d kind new) := by
  unfold QubitTable.addKind kindOf
  dsimp only
  split_ifs
  · dsimp only
    unfold QubitTable.ids
    rw [List.map_map]
    cases dictGet d "pauli".toList <;> rfl
  · dsimp only
    unfold QubitTable.ids
    rw [List.map_map]
    cases dictGet d "erasure".toList <;> rfl
  · dsimp only
    unfold QubitTable.ids
    rw [List.map_map]
    cases dictGet d "measurement".toList <;> rfl
  · rfl

theorem kindOf_pars {e kind par : List Char} {data : Bool} (h : kindOf e = some (kind, par, data)) : kind ∈ qubitErrorNames ∧ par ∈ kindPars kind := by
  unfold kindOf at h
  split_ifs at h with h1 h2 h3
  · cases h
    refine ⟨by decide, ?_⟩
    rcases h1 with rfl | rfl | rfl <;> decide
  · cases h; decide
  · cases h; decide

theorem addKind_shape {d d' : List (List Char × ErrDict F)} {e : List Char} (hd : DictShape t d) (h : t.addKind d e = .ok d') : DictShape t d' := by
  rw [addKind_eq] at h
  split at h
  · cases h; exact hd
  next kind par data hk =>
  split at h
  · cases h
  next new hnew =>
  cases h
  obtain ⟨k1, k2⟩ := fill_shape hnew
  obtain ⟨hn, hp⟩ := kindOf_pars hk
  have hold : ((dictGet d kind).getD ((t.ids data).map fun q : Nat => (QKey.int (q : Int), ([] : Params F)))).map Prod.fst =
      (t.ids (kindData kind)).map (fun q : Nat => QKey.int (q : Int)) ∧ ∀ key ps, (key, ps) ∈ (dictGet d kind).getD ((t.ids data).map fun q : Nat => (QKey.int (q : Int), ([] : Params F))) →
      (ps.map Prod.fst).Nodup ∧ ∀ k v, (k, v) ∈ ps → k ∈ kindPars kind ∧ ∃ f, v = .flt f := by
    cases hg : dictGet d kind with
    | none =>
      rw [Option.getD_none, List.map_map, kindOf_data hk]
      refine ⟨rfl, fun key ps hm => ?_⟩
      obtain ⟨q, _, hq⟩ := List.mem_map.1 hm
      cases hq
      exact ⟨List.nodup_nil, fun k v hkv => by cases hkv⟩
    | some o => exact ⟨hd.keys _ _ (dictGet_some_mem hg), fun key ps hm => ⟨hd.once _ _ (dictGet_some_mem hg) key ps hm, hd.params _ _ (dictGet_some_mem hg) key ps hm⟩⟩
  refine ⟨dictSet_nodup hd.nodup _ _, fun name e hm => ?_, fun name e hm => ?_, fun name e hm key ps hm' => ?_, fun name e hm key ps hm' k v hkv => ?_⟩
  · rcases mem_dictSet hm with hm | hm
    · cases hm; exact hn
    · exact hd.names _ _ hm.1
  · rcases mem_dictSet hm with hm | hm
    · cases hm; rw [k1]; exact hold.1
    · exact hd.keys _ _ hm.1
  · rcases mem_dictSet hm with hm | hm
    · cases hm
      obtain ⟨ps0, v', h1, rfl⟩ := k2 key ps hm'
      exact dictSet_nodup (hold.2 key ps0 h1).1 _ _
    · exact hd.once _ _ hm.1 key ps hm'
  · rcases mem_dictSet hm with hm | hm
    · cases hm
      obtain ⟨ps0, v', h1, rfl⟩ := k2 key ps hm'
      rcases mem_dictSet hkv with hkv | hkv
      · cases hkv; exact ⟨hp, _, rfl⟩
      · exact (hold.2 key ps0 h1).2 k v hkv.1
    · exact hd.params _ _ hm.1 key ps hm' k v hkv

theorem dict_shape {enabled : List (List Char)} {d : List (List Char × ErrDict F)} (h : t.dict enabled = .ok d) : DictShape t d := by
  suffices H : ∀ (l : List (List Char)) (d0 : List (List Char × ErrDict F)), DictShape t d0 → foldE t.addKind d0 l = .ok d → DictShape t d from
    H enabled [] ⟨List.nodup_nil, by simp, by simp, by simp, by simp⟩ h
  intro l
  induction l with
  | nil => intro d0 h0 h; cases h; exact h0
  | cons e l ih =>
    intro d0 h0 h
    unfold foldE at h
    split at h
    · cases h
    next d1 h1 => exact ih d1 (addKind_shape h0 h1) h

/-! ### Which qubits these are -/

/-- The table is one of the qubits of the lattice. -/
theorem ids_info {L : Lattice} (hq : t.qubits = L.qubitInfo) {q : Nat} {data : Bool} : q ∈ t.ids data ↔ (q, data) ∈ L.qubitInfo := by
  unfold QubitTable.ids
  rw [hq, List.mem_map]
  constructor
  · rintro ⟨x, hx, rfl⟩
    rw [List.mem_filter, decide_eq_true_eq] at hx
    obtain ⟨hx, rfl⟩ := hx
    exact hx
  · intro h
    exact ⟨_, List.mem_filter.2 ⟨h, by simp⟩, rfl⟩

theorem ids_nodup {L : Lattice} (hL : L.Indexed) (hq : t.qubits = L.qubitInfo) (data : Bool) : (t.ids data).Nodup := by
  unfold QubitTable.ids
  rw [hq]
  have h1 : (L.qubitInfo.map Prod.fst).Nodup := by
    unfold Lattice.qubitInfo
    rw [List.map_map, hL.equbits]
    refine List.Nodup.map_on ?_ (hL.occ.filter _)
    intro a ha b hb hab
    have ha' := (List.mem_filter.1 ha).1
    have hb' := (List.mem_filter.1 hb).1
    have hab : L.idx a = L.idx b := hab
    unfold Lattice.idx at hab
    rw [hL.indexed] at hab
    exact (List.idxOf_inj ha').1 hab
  exact h1.sublist (List.filter_sublist.map _)

end Plaquette
