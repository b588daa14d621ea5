import Verif.Model.Weights
import Verif.Lemmas.LatticeCode
import Mathlib.Tactic.Ring

/-!
# Lemmas on the computation of the weights
-/

namespace Plaquette

/-- A lattice with one vertex per position at most, whose indices are up to date. -/
structure Lattice.Indexed (L : Lattice) : Prop where
  occ : L.occupied.Nodup
  indexed : L.indexed = L.occupied
  equbits : L.equbits = L.occupied

theorem Lattice.Indexed.idx {L : Lattice} (h : L.Indexed) {i : Nat} {p : Pos} (hp : L.equbits[i]? = some p) : L.idx p = i := by
  unfold Lattice.idx
  rw [h.indexed]
  rw [h.equbits] at hp
  obtain ⟨hi, rfl⟩ := List.getElem?_eq_some_iff.mp hp
  exact h.occ.idxOf_getElem i hi

/-! ### Dictionaries -/

section dict
variable {K V : Type} [DecidableEq K]

theorem dictGet_some_mem {d : List (K × V)} {k : K} {v : V} (h : dictGet d k = some v) : (k, v) ∈ d := by
  unfold dictGet at h
  cases hf : d.find? (fun e => decide (e.1 = k)) with
  | none => rw [hf] at h; cases h
  | some e =>
    rw [hf] at h
    have h1 := List.mem_of_find?_eq_some hf
    have h2 := List.find?_some hf
    simp only [decide_eq_true_eq] at h2
    simp only [Option.map_some, Option.some.injEq] at h
    rw [← h2, ← h]
    exact h1

theorem dictGet_of_mem {d : List (K × V)} (hn : (d.map Prod.fst).Nodup) {k : K} {v : V} (h : (k, v) ∈ d) : dictGet d k = some v := by
  induction d with
  | nil => cases h
  | cons e d ih =>
    unfold dictGet
    rw [List.map_cons, List.nodup_cons] at hn
    rcases List.mem_cons.mp h with rfl | h
    · simp
    · have : e.1 ≠ k := by
        rintro rfl
        exact hn.1 (List.mem_map.mpr ⟨_, h, rfl⟩)
      rw [List.find?_cons_of_neg (by simpa using this)]
      exact ih hn.2 h

theorem dictGet_none {d : List (K × V)} {k : K} : dictGet d k = none ↔ ∀ e ∈ d, e.1 ≠ k := by
  simp [dictGet]

theorem dictGet_set (d : List (K × V)) (k k' : K) (v : V) :
    dictGet (dictSet d k v) k' = if k' = k then some v else dictGet d k' := by
  unfold dictSet
  split
  · rename_i ha
    have hmem : ∃ e ∈ d, e.1 = k := by simpa using ha
    clear ha
    induction d with
    | nil => obtain ⟨e, he, _⟩ := hmem; cases he
    | cons e d ih =>
      rw [List.map_cons]
      by_cases hek : e.1 = k
      · rw [if_pos hek]
        by_cases hk : k' = k
        · subst hk; simp [dictGet]
        · rw [if_neg hk]
          unfold dictGet
          rw [List.find?_cons_of_neg (by simpa using fun h => hk h.symm),
            List.find?_cons_of_neg (by rw [hek]; simpa using fun h => hk h.symm), List.find?_map]
          have : ∀ l : List (K × V), (l.find? ((fun e => decide (e.1 = k')) ∘ fun e => if e.1 = k then (k, v) else e)).map
              (Prod.snd ∘ fun e => if e.1 = k then (k, v) else e) = (l.find? fun e => decide (e.1 = k')).map Prod.snd := by
            intro l
            induction l with
            | nil => rfl
            | cons a l ih =>
              by_cases h1 : a.1 = k
              · rw [List.find?_cons_of_neg (by simp [h1]; exact fun h => hk h.symm),
                  List.find?_cons_of_neg (by rw [h1]; simpa using fun h => hk h.symm)]
                exact ih
              · by_cases h2 : a.1 = k'
                · rw [List.find?_cons_of_pos (by simp [h2, hk]), List.find?_cons_of_pos (by simp [h2])]
                  simp [h1]
                · rw [List.find?_cons_of_neg (by simp [h1, h2]), List.find?_cons_of_neg (by simp [h2])]
                  exact ih
          rw [Option.map_map]
          exact this d
      · rw [if_neg hek]
        obtain ⟨a, ha, hak⟩ := hmem
        have hmem' : ∃ e ∈ d, e.1 = k := by
          rcases List.mem_cons.mp ha with rfl | h
          · exact absurd hak hek
          · exact ⟨a, h, hak⟩
        have ih := ih hmem'
        by_cases h2 : e.1 = k'
        · have hk : k' ≠ k := fun h => hek (h2.trans h)
          rw [if_neg hk]
          simp [dictGet, h2]
        · unfold dictGet at ih ⊢
          rw [List.find?_cons_of_neg (by simpa using h2), ih, List.find?_cons_of_neg (by simpa using h2)]
  · rename_i ha
    have hno : ∀ e ∈ d, e.1 ≠ k := by
      simp only [List.any_eq_true, decide_eq_true_eq, not_exists, not_and] at ha
      exact ha
    unfold dictGet
    rw [List.find?_append]
    by_cases hk : k' = k
    · subst hk
      rw [List.find?_eq_none.mpr (by simpa using hno)]
      simp
    · rw [if_neg hk, List.find?_cons_of_neg (by simpa using fun h => hk h.symm)]
      simp

theorem dictSet_nodup {d : List (K × V)} (h : (d.map Prod.fst).Nodup) (k : K) (v : V) : ((dictSet d k v).map Prod.fst).Nodup := by
  unfold dictSet
  split
  · have : (d.map fun e => if e.1 = k then (k, v) else e).map Prod.fst = d.map Prod.fst := by
      rw [List.map_map]
      refine List.map_congr_left fun e _ => ?_
      simp only [Function.comp]
      split
      · rename_i h; exact h.symm
      · rfl
    rw [this]; exact h
  · rename_i ha
    have hno : ∀ e ∈ d, e.1 ≠ k := by
      simp only [List.any_eq_true, decide_eq_true_eq, not_exists, not_and] at ha
      exact ha
    rw [List.map_append, List.nodup_append]
    refine ⟨h, by simp, ?_⟩
    intro a ha' b hb
    simp only [List.map_cons, List.map_nil, List.mem_singleton] at hb
    subst hb
    obtain ⟨e, he, rfl⟩ := List.mem_map.mp ha'
    exact hno e he

theorem mem_dictSet {d : List (K × V)} {k : K} {v : V} {e : K × V} (h : e ∈ dictSet d k v) : e = (k, v) ∨ (e ∈ d ∧ e.1 ≠ k) := by
  unfold dictSet at h
  split at h
  · obtain ⟨a, ha, hae⟩ := List.mem_map.mp h
    split at hae
    · exact .inl hae.symm
    · subst hae
      rename_i hk
      exact .inr ⟨ha, hk⟩
  · rename_i hno
    rcases List.mem_append.mp h with h | h
    · exact .inr ⟨h, by simp only [List.any_eq_true, decide_eq_true_eq, not_exists, not_and] at hno; exact hno e h⟩
    · exact .inl (List.mem_singleton.mp h)

end dict

/-! ### Checks -/

theorem checkLoop_ok {α : Type} {f : α → Except Err Unit} {l : List α} : checkLoop f l = .ok () ↔ ∀ a ∈ l, f a = .ok () := by
  induction l with
  | nil => simp [checkLoop]
  | cons a l ih =>
    unfold checkLoop
    cases h : f a with
    | error e => simp [h]
    | ok u =>
      cases u
      simp [h, ih]

theorem bind_ok {α β : Type} {x : Except Err α} {f : α → Except Err β} {b : β} :
    (x >>= f) = .ok b ↔ ∃ a, x = .ok a ∧ f a = .ok b := by
  cases x with
  | error e => simp [bind, Except.bind]
  | ok a => simp [bind, Except.bind]

theorem Lattice.checkData_ok {L : Lattice} {k : QKey} :
    L.checkData k = .ok () ↔ ∃ (i : Nat) (p : Pos), k = .int i ∧ L.equbits[i]? = some p ∧ p ∈ L.dataqubits := by
  cases k with
  | tup l => simp [Lattice.checkData]
  | int i =>
    unfold Lattice.checkData
    dsimp only
    by_cases hi : i < 0 ∨ i ≥ L.equbits.length
    · rw [if_pos hi]
      constructor
      · intro h; cases h
      · rintro ⟨j, p, h1, h2, -⟩
        cases h1
        have := (List.getElem?_eq_some_iff.mp h2).1
        omega
    · rw [if_neg hi]
      obtain ⟨j, rfl⟩ : ∃ j : Nat, i = j := ⟨i.toNat, by omega⟩
      rw [Int.toNat_natCast]
      have hj : j < L.equbits.length := by omega
      rw [List.getElem?_eq_getElem hj]
      dsimp only
      constructor
      · intro h
        split at h
        · exact ⟨j, _, rfl, List.getElem?_eq_getElem hj, ‹_›⟩
        · cases h
      · rintro ⟨j', p, h1, h2, h3⟩
        cases h1
        rw [List.getElem?_eq_getElem hj] at h2
        cases h2
        rw [if_pos h3]

theorem Lattice.checkStab_ok {L : Lattice} {k : QKey} :
    L.checkStab k = .ok () ↔ ∃ (i : Nat) (p : Pos), k = .int i ∧ L.equbits[i]? = some p ∧ L.isStab p = true := by
  cases k with
  | tup l => simp [Lattice.checkStab]
  | int i =>
    unfold Lattice.checkStab
    dsimp only
    by_cases hi : i < 0 ∨ i ≥ L.equbits.length
    · rw [if_pos hi]
      constructor
      · intro h; cases h
      · rintro ⟨j, p, h1, h2, -⟩
        cases h1
        have := (List.getElem?_eq_some_iff.mp h2).1
        omega
    · rw [if_neg hi]
      obtain ⟨j, rfl⟩ : ∃ j : Nat, i = j := ⟨i.toNat, by omega⟩
      rw [Int.toNat_natCast]
      have hj : j < L.equbits.length := by omega
      rw [List.getElem?_eq_getElem hj]
      dsimp only
      constructor
      · intro h
        split at h
        · exact ⟨j, _, rfl, List.getElem?_eq_getElem hj, ‹_›⟩
        · cases h
      · rintro ⟨j', p, h1, h2, h3⟩
        cases h1
        rw [List.getElem?_eq_getElem hj] at h2
        cases h2
        rw [if_pos h3]

theorem checkKeys_ok {F : Type} {allowed : List (List Char)} {ps : Params F} : checkKeys allowed ps = .ok () ↔ ∀ e ∈ ps, e.1 ∈ allowed := by
  unfold checkKeys
  split
  · rename_i h
    rw [List.all_eq_true] at h
    exact iff_of_true rfl fun e he => of_decide_eq_true (h e he)
  · rename_i h
    constructor
    · intro h; cases h
    · intro h'
      exact absurd (List.all_eq_true.mpr fun e he => decide_eq_true (h' e he)) h

theorem checkPhysQubit_ok {F : Type} {L : Lattice} {allowed : List (List Char)} {d : ErrDict F} :
    checkPhysQubit L allowed d = .ok () ↔ ∀ e ∈ d, L.checkData e.1 = .ok () ∧ ∀ p ∈ e.2, p.1 ∈ allowed := by
  unfold checkPhysQubit
  rw [checkLoop_ok]
  refine forall₂_congr fun e _ => ?_
  rw [bind_ok]
  simp only [checkKeys_ok]
  constructor
  · rintro ⟨⟨⟩, a, b⟩; exact ⟨a, b⟩
  · rintro ⟨a, b⟩; exact ⟨(), a, b⟩

theorem checkStabQubit_ok {F : Type} {L : Lattice} {allowed : List (List Char)} {d : ErrDict F} :
    checkStabQubit L allowed d = .ok () ↔ ∀ e ∈ d, L.checkStab e.1 = .ok () ∧ ∀ p ∈ e.2, p.1 ∈ allowed := by
  unfold checkStabQubit
  rw [checkLoop_ok]
  refine forall₂_congr fun e _ => ?_
  rw [bind_ok]
  simp only [checkKeys_ok]
  constructor
  · rintro ⟨⟨⟩, a, b⟩; exact ⟨a, b⟩
  · rintro ⟨a, b⟩; exact ⟨(), a, b⟩

theorem checkIf_ok {F : Type} {errs : List (List Char × ErrDict F)} {name : List Char} {f : ErrDict F → Except Err Unit} :
    checkIf errs name f = .ok () ↔ ∀ d, dictGet errs name = some d → f d = .ok () := by
  unfold checkIf
  cases h : dictGet errs name with
  | none => simp
  | some d => simp

/-! ### The loops -/

theorem setAt_ok {l l' : List ℚ} {i : Nat} {v : ℚ} : setAt l i v = .ok l' ↔ i < l.length ∧ l' = l.set i v := by
  unfold setAt
  split
  · simp [*, eq_comm]
  · simp [*]

/-- What a loop that sets one entry for every element does. -/
theorem setLoop_spec {σ α : Type} {f : σ → α → Except Err σ} (get : σ → List ℚ) (idx : α → Nat) (val : α → ℚ) (d : List α)
    (hf : ∀ s s' a, a ∈ d → f s a = .ok s' → get s' = (get s).set (idx a) (val a)) (hn : (d.map idx).Nodup) :
    ∀ {s s' : σ}, loopE f s d = .ok s' → (get s').length = (get s).length ∧
      (∀ a ∈ d, idx a < (get s).length → (get s')[idx a]? = some (val a)) ∧
      ∀ i, i ∉ d.map idx → (get s')[i]? = (get s)[i]? := by
  induction d with
  | nil => rintro s s' h; cases h; simp
  | cons a d ih =>
    intro s s' h
    rw [List.map_cons, List.nodup_cons] at hn
    rw [loopE_cons] at h
    cases hfa : f s a with
    | error e => rw [hfa] at h; cases h
    | ok s1 =>
      rw [hfa] at h
      have h1 := hf s s1 a (by simp) hfa
      obtain ⟨i1, i2, i3⟩ := ih (fun s s' b hb => hf s s' b (by simp [hb])) hn.2 h
      have hl : (get s1).length = (get s).length := by rw [h1, List.length_set]
      refine ⟨i1.trans hl, ?_, ?_⟩
      · intro b hb hlt
        rcases List.mem_cons.mp hb with rfl | hb
        · rw [i3 _ hn.1, h1, List.getElem?_set_self hlt]
        · exact i2 b hb (by rw [hl]; exact hlt)
      · intro i hi
        rw [List.map_cons, List.mem_cons, not_or] at hi
        rw [i3 i hi.2, h1, List.getElem?_set_ne (fun h => hi.1 h.symm)]

/-- A loop whose steps succeed in every state of a certain kind. -/
theorem loopE_total {σ α : Type} {f : σ → α → Except Err σ} (P : σ → Prop) (d : List α)
    (hf : ∀ s, ∀ a ∈ d, P s → ∃ s', f s a = .ok s' ∧ P s') : ∀ {s : σ}, P s → ∃ s', loopE f s d = .ok s' ∧ P s' := by
  induction d with
  | nil => intro s hs; exact ⟨s, rfl, hs⟩
  | cons a d ih =>
    intro s hs
    obtain ⟨s1, h1, hs1⟩ := hf s a (by simp) hs
    obtain ⟨s2, h2, hs2⟩ := ih (fun s b hb => hf s b (by simp [hb])) hs1
    refine ⟨s2, ?_, hs2⟩
    rw [loopE_cons, h1]
    exact h2

/-- The number of a key. -/
def QKey.nat : QKey → Nat
  | .int i => i.toNat
  | .tup _ => 0

/-- The value of a parameter; 0 if it is missing. -/
def paramVal (ps : Params ℚ) (k : List Char) : ℚ :=
  match dictGet ps k with
  | some (.int i) => i
  | some (.flt f) => f
  | _ => 0

theorem getNum_val {ps : Params ℚ} {k : List Char} {v : ℚ} (h : getNum ps k = .ok v) : v = paramVal ps k := by
  unfold getNum at h
  unfold paramVal
  cases hd : dictGet ps k with
  | none => rw [hd] at h; cases h; rfl
  | some r =>
    rw [hd] at h
    cases r <;> cases h <;> rfl

/-- A dictionary of parameters without texts. -/
def Numeric (ps : Params ℚ) : Prop := ∀ e ∈ ps, ∀ s, e.2 ≠ .str s

theorem getNum_ok {ps : Params ℚ} (h : Numeric ps) (k : List Char) : getNum ps k = .ok (paramVal ps k) := by
  unfold getNum paramVal
  cases hd : dictGet ps k with
  | none => rfl
  | some r =>
    cases r with
    | int i => rfl
    | flt f => rfl
    | str s => exact absurd rfl (h _ (dictGet_some_mem hd) s)

theorem Lattice.equbit_int {L : Lattice} {i : Nat} {p : Pos} (h : L.equbits[i]? = some p) : L.equbit (.int i) = .ok p := by
  unfold Lattice.equbit
  dsimp only
  rw [if_neg (by omega), Int.toNat_natCast, h]

theorem pauliStep_ok {L : Lattice} (hL : L.Indexed) {q q' : List ℚ × List ℚ} {e : QKey × Params ℚ} (hc : L.checkData e.1 = .ok ())
    (h : pauliStep L q e = .ok q') :
    q'.1 = q.1.set e.1.nat (paramVal e.2 "x".toList + paramVal e.2 "y".toList) ∧
    q'.2 = q.2.set e.1.nat (paramVal e.2 "y".toList + paramVal e.2 "z".toList) := by
  obtain ⟨i, p, h1, h2, h3⟩ := Lattice.checkData_ok.mp hc
  unfold pauliStep at h
  rw [h1, Lattice.equbit_int h2] at h
  simp only [bind_ok] at h
  obtain ⟨p', e1, h⟩ := h
  cases e1
  rw [if_pos h3] at h
  simp only [bind_ok] at h
  obtain ⟨x, hx, y, hy, z, hz, qx, hqx, qz, hqz, h⟩ := h
  cases h
  rw [hL.idx h2, setAt_ok] at hqx hqz
  rw [h1, hqx.2, hqz.2, getNum_val hx, getNum_val hy, getNum_val hz]
  exact ⟨rfl, rfl⟩

theorem pauliStep_total {L : Lattice} (hL : L.Indexed) {n : Nat} (hn : L.dataqubits.length ≤ n) {q : List ℚ × List ℚ} {e : QKey × Params ℚ}
    (hc : L.checkData e.1 = .ok ()) (hnum : Numeric e.2) (hq : q.1.length = n ∧ q.2.length = n) :
    ∃ q', pauliStep L q e = .ok q' ∧ q'.1.length = n ∧ q'.2.length = n := by
  obtain ⟨i, p, h1, h2, h3⟩ := Lattice.checkData_ok.mp hc
  have hi : L.idx p < n := by
    refine lt_of_lt_of_le ?_ hn
    unfold Lattice.idx
    rw [hL.indexed, Lattice.occupied, List.append_assoc, List.idxOf_append_of_mem h3]
    exact List.idxOf_lt_length_of_mem h3
  refine ⟨(q.1.set (L.idx p) (paramVal e.2 "x".toList + paramVal e.2 "y".toList),
    q.2.set (L.idx p) (paramVal e.2 "y".toList + paramVal e.2 "z".toList)), ?_, by simpa using hq.1, by simpa using hq.2⟩
  · unfold pauliStep
    rw [h1, Lattice.equbit_int h2]
    simp only [bind_ok]
    refine ⟨p, rfl, ?_⟩
    rw [if_pos h3]
    simp only [bind_ok]
    exact ⟨_, getNum_ok hnum _, _, getNum_ok hnum _, _, getNum_ok hnum _, _, setAt_ok.mpr ⟨by rw [hq.1]; exact hi, rfl⟩, _,
      setAt_ok.mpr ⟨by rw [hq.2]; exact hi, rfl⟩, rfl⟩

theorem Lattice.isStab_iff {L : Lattice} {p : Pos} : L.isStab p = true ↔ p ∈ L.stabgens.map Prod.fst := by
  simp [Lattice.isStab]

/-- The number of a stabiliser generator. -/
theorem Lattice.Indexed.stab {L : Lattice} (hL : L.Indexed) {i : Nat} {p : Pos} (h : L.equbits[i]? = some p) (hs : L.isStab p = true) :
    L.dataqubits.length ≤ i ∧ i - L.dataqubits.length < L.stabgens.length ∧ L.stabIdx p = i - L.dataqubits.length := by
  have hidx := hL.idx h
  have hocc := hL.occ
  rw [hL.equbits] at h
  unfold Lattice.occupied at h hocc
  have hmem := Lattice.isStab_iff.mp hs
  rw [List.append_assoc, List.nodup_append] at hocc
  obtain ⟨h1, h2, h3⟩ := hocc
  have hge : L.dataqubits.length ≤ i := by
    by_contra hlt
    rw [List.append_assoc, List.getElem?_append_left (by omega)] at h
    exact h3 p (List.mem_of_getElem? h) p (by simp [hmem]) rfl
  refine ⟨hge, ?_, by unfold Lattice.stabIdx; rw [hidx]⟩
  rw [List.append_assoc, List.getElem?_append_right hge] at h
  rw [List.nodup_append] at h2
  by_contra hge2
  have hge2 : (L.stabgens.map Prod.fst).length ≤ i - L.dataqubits.length := by rw [List.length_map]; omega
  rw [List.getElem?_append_right hge2] at h
  exact h2.2.2 p hmem p (List.mem_of_getElem? h) rfl

theorem measStep_ok {L : Lattice} (hL : L.Indexed) {q q' : List ℚ} {e : QKey × Params ℚ} (hc : L.checkStab e.1 = .ok ())
    (h : measStep L q e = .ok q') : q' = q.set (e.1.nat - L.dataqubits.length) (paramVal e.2 "p".toList) := by
  obtain ⟨i, p, h1, h2, h3⟩ := Lattice.checkStab_ok.mp hc
  unfold measStep at h
  rw [h1, Lattice.equbit_int h2] at h
  simp only [bind_ok] at h
  obtain ⟨p', e1, h⟩ := h
  cases e1
  rw [if_pos h3] at h
  simp only [bind_ok] at h
  obtain ⟨x, hx, hq⟩ := h
  rw [(hL.stab h2 h3).2.2, setAt_ok] at hq
  rw [h1, hq.2, getNum_val hx]
  rfl

theorem measStep_total {L : Lattice} (hL : L.Indexed) {n : Nat} (hn : L.stabgens.length ≤ n) {q : List ℚ} {e : QKey × Params ℚ}
    (hc : L.checkStab e.1 = .ok ()) (hnum : Numeric e.2) (hq : q.length = n) :
    ∃ q', measStep L q e = .ok q' ∧ q'.length = n := by
  obtain ⟨i, p, h1, h2, h3⟩ := Lattice.checkStab_ok.mp hc
  obtain ⟨a1, a2, a3⟩ := hL.stab h2 h3
  refine ⟨q.set (L.stabIdx p) (paramVal e.2 "p".toList), ?_, by simpa using hq⟩
  unfold measStep
  rw [h1, Lattice.equbit_int h2]
  simp only [bind_ok]
  refine ⟨p, rfl, ?_⟩
  rw [if_pos h3]
  simp only [bind_ok]
  exact ⟨_, getNum_ok hnum _, setAt_ok.mpr ⟨by omega, rfl⟩⟩

theorem updateEff_zero {q : List ℚ} {n : Nat} (h : q.length = n) : updateEff q (List.replicate n 0) = q := by
  subst h
  unfold updateEff
  induction q with
  | nil => rfl
  | cons a q ih =>
    rw [List.length_cons, List.replicate_succ, List.zipWith_cons_cons, ih]
    congr 1
    ring

/-! ### The completion of the error data -/

/-- A probability, or `tiny` instead of zero. -/
def fill (tiny p : ℚ) : ℚ := if p = 0 then tiny else p

/-- One step of `completeParams`. -/
def fillStep (tiny : ℚ) (ps : Params ℚ) (k : List Char) : Params ℚ :=
  match dictGet ps k with
  | some v => if v.truthy then ps else dictSet ps k (.flt tiny)
  | none => dictSet ps k (.flt tiny)

theorem paramVal_set (ps : Params ℚ) (k k' : List Char) (v : ℚ) :
    paramVal (dictSet ps k (.flt v)) k' = if k' = k then v else paramVal ps k' := by
  unfold paramVal
  rw [dictGet_set]
  by_cases h : k' = k
  · simp [h]
  · simp [h]

theorem numeric_set {ps : Params ℚ} (h : Numeric ps) (k : List Char) (v : ℚ) : Numeric (dictSet ps k (.flt v)) := by
  intro e he s hs
  rcases mem_dictSet he with rfl | ⟨he, -⟩
  · cases hs
  · exact h e he s hs

theorem numeric_fillStep {tiny : ℚ} {ps : Params ℚ} (h : Numeric ps) (k : List Char) : Numeric (fillStep tiny ps k) := by
  unfold fillStep
  split
  · split
    · exact h
    · exact numeric_set h _ _
  · exact numeric_set h _ _

theorem paramVal_fillStep {tiny : ℚ} {ps : Params ℚ} (h : Numeric ps) (k k' : List Char) :
    paramVal (fillStep tiny ps k) k' = if k' = k then fill tiny (paramVal ps k) else paramVal ps k' := by
  unfold fillStep
  cases hd : dictGet ps k with
  | none =>
    dsimp only
    rw [paramVal_set, show paramVal ps k = 0 by simp [paramVal, hd]]
    rfl
  | some v =>
    dsimp only
    by_cases hv : v.truthy = true
    · rw [if_pos hv]
      by_cases hk : k' = k
      · subst hk
        rw [if_pos rfl]
        unfold fill
        rw [if_neg]
        unfold paramVal
        rw [hd]
        cases v with
        | int i => simpa [Raw.truthy] using hv
        | flt f => simpa [Raw.truthy] using hv
        | str s => exact absurd rfl (h _ (dictGet_some_mem hd) s)
      · rw [if_neg hk]
    · rw [if_neg hv, paramVal_set]
      have : paramVal ps k = 0 := by
        unfold paramVal
        rw [hd]
        cases v with
        | int i => simpa [Raw.truthy] using hv
        | flt f => simpa [Raw.truthy] using hv
        | str s => rfl
      rw [this]
      rfl

theorem completeParams_eq (tiny : ℚ) (ps : Params ℚ) :
    completeParams tiny ps = fillStep tiny (fillStep tiny (fillStep tiny ps ['x']) ['y']) ['z'] := rfl

theorem numeric_complete {tiny : ℚ} {ps : Params ℚ} (h : Numeric ps) : Numeric (completeParams tiny ps) := by
  rw [completeParams_eq]
  exact numeric_fillStep (numeric_fillStep (numeric_fillStep h _) _) _

theorem paramVal_complete {tiny : ℚ} {ps : Params ℚ} (h : Numeric ps) {k : List Char} (hk : k ∈ [['x'], ['y'], ['z']]) :
    paramVal (completeParams tiny ps) k = fill tiny (paramVal ps k) := by
  have h1 := numeric_fillStep (tiny := tiny) h ['x']
  have h2 := numeric_fillStep (tiny := tiny) h1 ['y']
  rw [completeParams_eq, paramVal_fillStep h2, paramVal_fillStep h1, paramVal_fillStep h1, paramVal_fillStep h, paramVal_fillStep h, paramVal_fillStep h]
  simp only [List.mem_cons, List.not_mem_nil, or_false] at hk
  rcases hk with rfl | rfl | rfl <;> simp

/-- The entry of a qubit after the completion. -/
def fillEntry (tiny : ℚ) (o : Option (Params ℚ)) : Params ℚ :=
  if (o.getD []).isEmpty then defaultPauli tiny else completeParams tiny (o.getD [])

theorem completePauli_eq (tiny : ℚ) (d : ErrDict ℚ) (q : Nat) : completePauli tiny d q = dictSet d (.int q) (fillEntry tiny (dictGet d (.int q))) := by
  unfold completePauli fillEntry entryEmpty
  split <;> rfl

theorem completeFold_get (tiny : ℚ) (d : ErrDict ℚ) (n : Nat) (k : QKey) :
    dictGet ((List.range n).foldl (completePauli tiny) d) k =
      if ∃ q < n, k = .int (q : Nat) then some (fillEntry tiny (dictGet d k)) else dictGet d k := by
  induction n with
  | zero => simp
  | succ n ih =>
    rw [List.range_succ, List.foldl_append]
    simp only [List.foldl_cons, List.foldl_nil]
    rw [completePauli_eq, dictGet_set]
    by_cases hk : k = .int (n : Nat)
    · rw [if_pos hk, if_pos ⟨n, by omega, hk⟩]
      subst hk
      rw [ih, if_neg]
      rintro ⟨q, hq, he⟩
      cases he
      omega
    · rw [if_neg hk, ih]
      have : (∃ q < n + 1, k = .int (q : Nat)) ↔ ∃ q < n, k = .int (q : Nat) := by
        constructor
        · rintro ⟨q, hq, rfl⟩
          refine ⟨q, ?_, rfl⟩
          by_contra hc
          exact hk (by rw [show q = n by omega])
        · rintro ⟨q, hq, rfl⟩
          exact ⟨q, by omega, rfl⟩
      simp only [this]

theorem completeFold_nodup (tiny : ℚ) {d : ErrDict ℚ} (hd : (d.map Prod.fst).Nodup) (l : List Nat) :
    ((l.foldl (completePauli tiny) d).map Prod.fst).Nodup := by
  induction l generalizing d with
  | nil => exact hd
  | cons q l ih =>
    refine ih ?_
    rw [completePauli_eq]
    exact dictSet_nodup hd _ _

theorem erasureFold_nodup {d : ErrDict ℚ} (hd : (d.map Prod.fst).Nodup) (l : List Nat) : ((l.foldl completeErasure d).map Prod.fst).Nodup := by
  induction l generalizing d with
  | nil => exact hd
  | cons q l ih =>
    refine ih ?_
    unfold completeErasure
    split
    · exact dictSet_nodup hd _ _
    · exact hd

theorem mem_completeFold {tiny : ℚ} {d : ErrDict ℚ} {n : Nat} {e : QKey × Params ℚ}
    (h : e ∈ (List.range n).foldl (completePauli tiny) d) : e ∈ d ∨ ∃ q < n, e.1 = .int (q : Nat) := by
  induction n with
  | zero => exact .inl h
  | succ n ih =>
    rw [List.range_succ, List.foldl_append] at h
    simp only [List.foldl_cons, List.foldl_nil] at h
    rw [completePauli_eq] at h
    rcases mem_dictSet h with rfl | ⟨h, -⟩
    · exact .inr ⟨n, by omega, rfl⟩
    · rcases ih h with h | ⟨q, hq, h⟩
      · exact .inl h
      · exact .inr ⟨q, by omega, h⟩

theorem mem_erasureFold {d : ErrDict ℚ} {n : Nat} {e : QKey × Params ℚ}
    (h : e ∈ (List.range n).foldl completeErasure d) : e ∈ d ∨ ∃ q < n, e = (.int (q : Nat), [("p".toList, .int 0)]) := by
  induction n with
  | zero => exact .inl h
  | succ n ih =>
    rw [List.range_succ, List.foldl_append] at h
    simp only [List.foldl_cons, List.foldl_nil] at h
    unfold completeErasure at h
    split at h
    · rcases mem_dictSet h with rfl | ⟨h, -⟩
      · exact .inr ⟨n, by omega, rfl⟩
      · rcases ih h with h | ⟨q, hq, h⟩
        · exact .inl h
        · exact .inr ⟨q, by omega, h⟩
    · rcases ih h with h | ⟨q, hq, h⟩
      · exact .inl h
      · exact .inr ⟨q, by omega, h⟩

/-- The dictionary of default values. -/
def defaultDict (tiny : ℚ) (n : Nat) : ErrDict ℚ := (List.range n).map fun q : Nat => (QKey.int (q : Int), defaultPauli tiny)

theorem defaultDict_nodup (tiny : ℚ) (n : Nat) : ((defaultDict tiny n).map Prod.fst).Nodup := by
  unfold defaultDict
  rw [List.map_map]
  refine List.Nodup.map ?_ List.nodup_range
  intro a b h
  simpa using h

theorem defaultDict_get (tiny : ℚ) (n : Nat) {q : Nat} (hq : q < n) : dictGet (defaultDict tiny n) (.int q) = some (defaultPauli tiny) :=
  dictGet_of_mem (defaultDict_nodup tiny n) (List.mem_map.mpr ⟨q, List.mem_range.mpr hq, rfl⟩)

/-! ### Error data that are accepted -/

/-- Error data with known names and keys. -/
structure DataOk (L : Lattice) (errs : ErrData) : Prop where
  names : ∀ e ∈ errs, e.1 ∈ supportedErrors
  pauli : ∀ d, dictGet errs "pauli".toList = some d → ∀ e ∈ d, L.checkData e.1 = .ok () ∧ ∀ p ∈ e.2, p.1 ∈ onePauliNames
  erasure : ∀ d, dictGet errs "erasure".toList = some d → ∀ e ∈ d, L.checkData e.1 = .ok () ∧ ∀ p ∈ e.2, p.1 ∈ ["p".toList]
  meas : ∀ d, dictGet errs "measurement".toList = some d → ∀ e ∈ d, L.checkStab e.1 = .ok () ∧ ∀ p ∈ e.2, p.1 ∈ ["p".toList]

theorem DataOk.other {L : Lattice} {errs : ErrData} (h : DataOk L errs) {name : List Char} (hn : name ∉ supportedErrors) :
    dictGet errs name = none := by
  cases hd : dictGet errs name with
  | none => rfl
  | some d => exact absurd (h.names _ (dictGet_some_mem hd)) hn

theorem DataOk.check {L : Lattice} {errs : ErrData} (h : DataOk L errs) : checkAgainstCode L errs = .ok () := by
  unfold checkAgainstCode
  rw [if_neg]
  · simp only [bind_ok]
    refine ⟨(), checkIf_ok.mpr fun d hd => checkPhysQubit_ok.mpr (h.pauli d hd), (), checkIf_ok.mpr fun d hd => checkPhysQubit_ok.mpr (h.erasure d hd),
      (), checkIf_ok.mpr fun d hd => checkStabQubit_ok.mpr (h.meas d hd), (), checkLoop_ok.mpr fun g hg => ?_, checkLoop_ok.mpr fun g hg => ?_⟩
    · refine checkIf_ok.mpr fun d hd => ?_
      rw [h.other (by clear hd; revert g; decide)] at hd
      cases hd
    · refine checkIf_ok.mpr fun d hd => ?_
      rw [h.other (by clear hd; revert g; decide)] at hd
      cases hd
  · intro hc
    obtain ⟨e, he, hc⟩ := List.any_eq_true.mp hc
    have h1 := h.names e he
    simp only [supportedErrors, List.mem_cons, List.not_mem_nil, or_false] at h1
    have h2 : e.1 ∈ qubitErrorNames := by
      rcases h1 with h1 | h1 | h1 <;> rw [h1] <;> decide
    simp [h2] at hc

theorem DataOk.probs {C : LatCode} (hL : C.lattice.Indexed) (hn : C.lattice.dataqubits.length ≤ C.n)
    (hs : C.lattice.stabgens.length ≤ C.code.stabilisers.length) {errs : ErrData} (h : DataOk C.lattice errs)
    (hnum : ∀ name d, dictGet errs name = some d → ∀ e ∈ d, Numeric e.2) : ∃ p, edgeProbs C errs = .ok p := by
  have h1 : ∃ q, pauliEff C.lattice C.n (dictGet errs "pauli".toList) = .ok q := by
    cases hd : dictGet errs "pauli".toList with
    | none => exact ⟨_, rfl⟩
    | some d =>
      obtain ⟨q, hq, -⟩ := loopE_total (f := pauliStep C.lattice) (fun q => q.1.length = C.n ∧ q.2.length = C.n) d
        (fun s a ha hs => by
          obtain ⟨q', a1, a2, a3⟩ := pauliStep_total hL hn (h.pauli d hd a ha).1 (hnum _ _ hd a ha) hs
          exact ⟨q', a1, a2, a3⟩) (s := (List.replicate C.n 0, List.replicate C.n 0)) (by simp)
      refine ⟨(updateEff q.1 (List.replicate C.n 0), updateEff q.2 (List.replicate C.n 0)), ?_⟩
      unfold pauliEff
      dsimp only
      rw [bind_ok]
      exact ⟨q, hq, rfl⟩
  have h2 : ∃ q, measEff C.lattice C.code.stabilisers.length (dictGet errs "measurement".toList) = .ok q := by
    cases hd : dictGet errs "measurement".toList with
    | none => exact ⟨_, rfl⟩
    | some d =>
      obtain ⟨q, hq, -⟩ := loopE_total (f := measStep C.lattice) (fun q => q.length = C.code.stabilisers.length) d
        (fun s a ha hs' => measStep_total hL hs (h.meas d hd a ha).1 (hnum _ _ hd a ha) hs') (s := List.replicate C.code.stabilisers.length 0) (by simp)
      exact ⟨q, hq⟩
  obtain ⟨q, hq⟩ := h1
  obtain ⟨pm, hpm⟩ := h2
  refine ⟨⟨q.1, q.2, pm⟩, ?_⟩
  unfold edgeProbs
  rw [bind_ok]
  refine ⟨(), h.check, ?_⟩
  rw [if_neg]
  · rw [bind_ok]
    refine ⟨q, hq, ?_⟩
    rw [bind_ok]
    exact ⟨pm, hpm, rfl⟩
  · intro hc
    obtain ⟨e, he, hc⟩ := List.any_eq_true.mp hc
    exact of_decide_eq_true hc (h.names e he)

end Plaquette
