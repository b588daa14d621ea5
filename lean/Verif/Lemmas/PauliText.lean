import Verif.Model.PauliText
import Verif.Spec.Stabiliser

/-! Helper lemmas about strings and dictionaries of operators. -/

namespace Plaquette
variable {n : Nat}

theorem write_other (l : List (Nat × Char)) (op : Op n) (q : Fin n) (h : ∀ e ∈ l, e.1 ≠ q.val) :
    (l.foldl writeEntry op).x q = op.x q ∧ (l.foldl writeEntry op).z q = op.z q := by
  induction l generalizing op with
  | nil => exact ⟨rfl, rfl⟩
  | cons e l ih =>
    have h1 := ih (writeEntry op e) (fun e' h' => h e' (List.mem_cons_of_mem _ h'))
    have h2 : ¬ q.val = e.1 := fun hh => h e (by simp) hh.symm
    rw [List.foldl_cons, h1.1, h1.2]
    simp [writeEntry, h2]

theorem write_mem (l : List (Nat × Char)) (op : Op n) (q : Fin n) (c : Char) (hnd : (l.map Prod.fst).Nodup)
    (h : (q.val, c) ∈ l) :
    (l.foldl writeEntry op).x q = (c = 'X' ∨ c = 'Y' : Bool) ∧ (l.foldl writeEntry op).z q = (c = 'Z' ∨ c = 'Y' : Bool) := by
  induction l generalizing op with
  | nil => simp at h
  | cons e l ih =>
    rw [List.map_cons, List.nodup_cons] at hnd
    rw [List.foldl_cons]
    rcases List.mem_cons.mp h with h | h
    · subst h
      have := write_other l (writeEntry op (q.val, c)) q (fun e he hq => hnd.1 (by
        have := List.mem_map_of_mem (f := Prod.fst) he
        rwa [hq] at this))
      rw [this.1, this.2]
      simp [writeEntry]
    · exact ih _ hnd.2 h

theorem write_r (l : List (Nat × Char)) (op : Op n) : (l.foldl writeEntry op).r = op.r := by
  induction l generalizing op with
  | nil => rfl
  | cons e l ih => rw [List.foldl_cons, ih]; rfl

theorem maxKey_lt (l : List (Nat × Char)) (m : Nat) (h : ∀ e ∈ l, e.1 < m) (h0 : l ≠ []) : maxKey l < m := by
  have key : ∀ (l : List (Nat × Char)) (a : Nat), a < m → (∀ e ∈ l, e.1 < m) → l.foldl (fun m e => max m e.1) a < m := by
    intro l
    induction l with
    | nil => intro a ha _; exact ha
    | cons e l ih =>
      intro a ha hl
      rw [List.foldl_cons]
      exact ih _ (max_lt ha (hl e (by simp))) (fun e' h' => hl e' (List.mem_cons_of_mem _ h'))
  refine key l 0 ?_ h
  cases l with
  | nil => exact absurd rfl h0
  | cons e l => exact Nat.lt_of_le_of_lt (Nat.zero_le _) (h e (by simp))

theorem le_maxKey (l : List (Nat × Char)) : ∀ e ∈ l, e.1 ≤ maxKey l := by
  have key : ∀ (l : List (Nat × Char)) (a : Nat), a ≤ l.foldl (fun m e => max m e.1) a ∧
      ∀ e ∈ l, e.1 ≤ l.foldl (fun m e => max m e.1) a := by
    intro l
    induction l with
    | nil => intro a; exact ⟨Nat.le_refl _, by simp⟩
    | cons e l ih =>
      intro a
      rw [List.foldl_cons]
      have := ih (max a e.1)
      refine ⟨le_trans (le_max_left _ _) this.1, fun e' h' => ?_⟩
      rcases List.mem_cons.mp h' with rfl | h'
      · exact le_trans (le_max_right _ _) this.1
      · exact this.2 e' h'
  exact (key l 0).2

theorem letterChar_I {x z : Bool} : letterChar x z = 'I' ↔ x = false ∧ z = false := by
  cases x <;> cases z <;> decide

theorem letterChar_x (x z : Bool) : (letterChar x z = 'X' ∨ letterChar x z = 'Y' : Bool) = x := by
  cases x <;> cases z <;> decide

theorem letterChar_z (x z : Bool) : (letterChar x z = 'Z' ∨ letterChar x z = 'Y' : Bool) = z := by
  cases x <;> cases z <;> decide

theorem letterChar_pauli (x z : Bool) : isPauliChar (letterChar x z) = true := by
  cases x <;> cases z <;> decide

theorem letterChar_plain (x z : Bool) :
    (letterChar x z).isDigit = false ∧ letterChar x z ≠ ' ' ∧ letterChar x z ≠ '_' ∧ letterChar x z ≠ '+' ∧
      letterChar x z ≠ '-' := by
  cases x <;> cases z <;> decide

theorem mem_pauliToDict (op : Op n) (e : Nat × Char) :
    e ∈ pauliToDict op ↔ ∃ q : Fin n, q.val = e.1 ∧ letterChar (op.x q) (op.z q) = e.2 ∧ e.2 ≠ 'I' := by
  unfold pauliToDict
  simp only [List.mem_filterMap, List.mem_finRange, true_and]
  constructor
  · rintro ⟨q, hq⟩
    split_ifs at hq with h
    simp only [Option.some.injEq] at hq
    subst hq
    exact ⟨q, rfl, rfl, h⟩
  · rintro ⟨q, h1, h2, h3⟩
    refine ⟨q, ?_⟩
    rw [if_pos (by rw [h2]; exact h3), h1, h2]

theorem pauliToDict_nodup (op : Op n) : ((pauliToDict op).map Prod.fst).Nodup := by
  unfold pauliToDict
  rw [List.map_filterMap]
  apply List.Nodup.filterMap _ (List.nodup_finRange n)
  intro a b c ha hb
  simp only [Option.mem_def, Option.map_eq_some_iff] at ha hb
  obtain ⟨x, hx, rfl⟩ := ha
  obtain ⟨y, hy, hxy⟩ := hb
  split_ifs at hx hy
  simp only [Option.some.injEq] at hx hy
  subst hx hy
  exact Fin.ext hxy.symm

theorem pauliToDict_ne_nil {op : Op n} (h : ¬ op.IsScalar) : pauliToDict op ≠ [] := by
  intro h0
  apply h
  have hI : ∀ q, letterChar (op.x q) (op.z q) = 'I' := by
    intro q
    by_contra hc
    have : (q.val, letterChar (op.x q) (op.z q)) ∈ pauliToDict op := (mem_pauliToDict _ _).mpr ⟨q, rfl, rfl, hc⟩
    rw [h0] at this
    simp at this
  exact ⟨fun q => (letterChar_I.mp (hI q)).1, fun q => (letterChar_I.mp (hI q)).2⟩

theorem dictToPauli_ok {l : List (Nat × Char)} (h : l ≠ []) (m : Nat) (hm : ∀ e ∈ l, e.1 < m) :
    dictToPauli l (some m) = .ok ⟨m, l.foldl writeEntry (idOp m)⟩ := by
  have h1 : ¬ m ≤ maxKey l := not_le.mpr (maxKey_lt l m hm h)
  cases l with
  | nil => exact absurd rfl h
  | cons e l =>
    simp only [dictToPauli, Option.getD_some]
    rw [if_neg h1]

theorem fold_pauliToDict (op : Op n) : (pauliToDict op).foldl writeEntry (idOp n) = { op with r := false } := by
  apply Op.ext
  · funext q
    by_cases hI : letterChar (op.x q) (op.z q) = 'I'
    · rw [(write_other _ _ q (fun e he hq => by
        obtain ⟨q', h1, h2, h3⟩ := (mem_pauliToDict _ _).mp he
        have : q' = q := Fin.ext (h1.trans hq)
        subst this
        exact h3 (h2 ▸ hI))).1]
      exact (letterChar_I.mp hI).1.symm
    · rw [(write_mem _ _ q _ (pauliToDict_nodup op) ((mem_pauliToDict _ _).mpr ⟨q, rfl, rfl, hI⟩)).1]
      exact letterChar_x _ _
  · funext q
    by_cases hI : letterChar (op.x q) (op.z q) = 'I'
    · rw [(write_other _ _ q (fun e he hq => by
        obtain ⟨q', h1, h2, h3⟩ := (mem_pauliToDict _ _).mp he
        have : q' = q := Fin.ext (h1.trans hq)
        subst this
        exact h3 (h2 ▸ hI))).2]
      exact (letterChar_I.mp hI).2.symm
    · rw [(write_mem _ _ q _ (pauliToDict_nodup op) ((mem_pauliToDict _ _).mpr ⟨q, rfl, rfl, hI⟩)).2]
      exact letterChar_z _ _
  · rw [write_r]; rfl

theorem dict_roundtrip {op : Op n} (h : ¬ op.IsScalar) :
    dictToPauli (pauliToDict op) (some n) = .ok ⟨n, { op with r := false }⟩ := by
  rw [dictToPauli_ok (pauliToDict_ne_nil h) n (fun e he => by
    obtain ⟨q, h1, _⟩ := (mem_pauliToDict _ _).mp he
    rw [← h1]; exact q.isLt), fold_pauliToDict]

theorem zipIdx_finRange (n : Nat) : (List.finRange n).zipIdx = (List.finRange n).map fun q => (q, q.val) := by
  apply List.ext_getElem
  · simp
  · intro i h1 h2
    simp

theorem canonical_dict (op : Op n) :
    ((mainChars op).zipIdx.filterMap fun e => if e.1 ≠ 'I' then some (e.2, e.1) else none) = pauliToDict op := by
  unfold mainChars pauliToDict
  rw [List.zipIdx_map, zipIdx_finRange, List.map_map, List.filterMap_map]
  rfl

theorem takeWhile_digits (ds rest : List Char) (hd : ∀ c ∈ ds, c.isDigit = true)
    (hr : ∀ c, rest.head? = some c → c.isDigit = false) :
    (ds ++ rest).takeWhile Char.isDigit = ds ∧ (ds ++ rest).dropWhile Char.isDigit = rest := by
  induction ds with
  | nil =>
    cases rest with
    | nil => simp
    | cons c rest =>
      have := hr c rfl
      simp [List.takeWhile, List.dropWhile, this]
  | cons d ds ih =>
    have h1 := hd d (by simp)
    have := ih (fun c hc => hd c (List.mem_cons_of_mem _ hc))
    simp [List.takeWhile, List.dropWhile, h1, this]

/-- The text of one term of the short form (spaces removed). -/
def termText (e : Nat × Char) : List Char := e.2 :: Nat.toDigits 10 e.1

theorem matchTerm_text (e : Nat × Char) (rest : List Char) (he : isPauliChar e.2 = true)
    (hr : ∀ c, rest.head? = some c → c.isDigit = false) :
    matchTerm (termText e ++ rest) = some (e.2, Nat.toDigits 10 e.1, rest) := by
  have hd := takeWhile_digits (Nat.toDigits 10 e.1) rest
    (fun c hc => Nat.isDigit_of_mem_toDigits (by decide) (by decide) hc) hr
  simp only [termText, List.cons_append, matchTerm, he, if_true, hd.1, hd.2]
  rw [if_neg Nat.toDigits_ne_nil]

theorem flat_head (l : List (Nat × Char)) (hl : ∀ e ∈ l, isPauliChar e.2 = true ∧ e.2.isDigit = false) :
    ∀ c, (l.flatMap termText).head? = some c → c.isDigit = false := by
  intro c hc
  cases l with
  | nil => simp at hc
  | cons e l =>
    simp [termText] at hc
    rw [← hc]; exact (hl e (by simp)).2

theorem pauliChar_not_sign {c : Char} (h : isPauliChar c = true) : ¬ (c = '-' ∨ c = '+') := by
  rintro (rfl | rfl) <;> revert h <;> decide

theorem findAll_flat (l : List (Nat × Char)) (hl : ∀ e ∈ l, isPauliChar e.2 = true ∧ e.2.isDigit = false) :
    findAll (l.flatMap termText) = l.map fun e => (none, e.2, Nat.toDigits 10 e.1) := by
  induction l with
  | nil => simp [findAll]
  | cons e l ih =>
    have hl' : ∀ e ∈ l, isPauliChar e.2 = true ∧ e.2.isDigit = false := fun e h => hl e (List.mem_cons_of_mem _ h)
    have he := hl e (by simp)
    have hm := matchTerm_text e (l.flatMap termText) he.1 (flat_head l hl')
    have hs : matchSigned ((e :: l).flatMap termText) = some (none, e.2, Nat.toDigits 10 e.1, l.flatMap termText) := by
      rw [List.flatMap_cons]
      have : termText e ++ l.flatMap termText = e.2 :: (Nat.toDigits 10 e.1 ++ l.flatMap termText) := rfl
      rw [this] at hm ⊢
      simp only [matchSigned]
      rw [if_neg (pauliChar_not_sign he.1), hm]
      rfl
    have hc : (e :: l).flatMap termText = e.2 :: (Nat.toDigits 10 e.1 ++ l.flatMap termText) := rfl
    rw [hc] at hs ⊢
    rw [findAll]
    split
    · rename_i sg l' ds rest' h'
      rw [hs] at h'
      simp only [Option.some.injEq, Prod.mk.injEq] at h'
      obtain ⟨rfl, rfl, rfl, rfl⟩ := h'
      rw [ih hl', List.map_cons]
    · rename_i h'
      rw [hs] at h'
      simp at h'

theorem findAll_signed (sg : Char) (hsg : sg = '-' ∨ sg = '+') (e : Nat × Char) (l : List (Nat × Char))
    (hl : ∀ e' ∈ e :: l, isPauliChar e'.2 = true ∧ e'.2.isDigit = false) :
    findAll (sg :: (e :: l).flatMap termText) =
      (some sg, e.2, Nat.toDigits 10 e.1) :: l.map fun e => (none, e.2, Nat.toDigits 10 e.1) := by
  have hl' : ∀ e ∈ l, isPauliChar e.2 = true ∧ e.2.isDigit = false := fun e h => hl e (List.mem_cons_of_mem _ h)
  have hm := matchTerm_text e (l.flatMap termText) (hl e (by simp)).1 (flat_head l hl')
  rw [← List.flatMap_cons] at hm
  have hs : matchSigned (sg :: (e :: l).flatMap termText) =
      some (some sg, e.2, Nat.toDigits 10 e.1, l.flatMap termText) := by
    simp only [matchSigned]
    rw [if_pos hsg, hm]
    rfl
  rw [findAll]
  split
  · rename_i sg l' ds rest' h'
    rw [hs] at h'
    simp only [Option.some.injEq, Prod.mk.injEq] at h'
    obtain ⟨rfl, rfl, rfl, rfl⟩ := h'
    rw [findAll_flat l hl']
  · rename_i h'
    rw [hs] at h'
    simp at h'

theorem short_text (op : Op n) :
    ((pauliToString op false).filter fun c => c ≠ ' ' ∧ c ≠ '_') =
      (if op.r then '-' else '+') :: (pauliToDict op).flatMap termText := by
  unfold pauliToString pauliToDict
  simp only [Bool.false_eq_true, if_false]
  rw [List.filter_cons_of_pos (by cases op.r <;> decide)]
  congr 1
  rw [List.filter_flatMap]
  induction List.finRange n with
  | nil => rfl
  | cons q l ih =>
    rw [List.flatMap_cons, ih, List.filterMap_cons]
    by_cases hI : letterChar (op.x q) (op.z q) = 'I'
    · simp [hI]
    · have hp := letterChar_plain (op.x q) (op.z q)
      have hd : (Nat.toDigits 10 q.val).filter (fun c => c ≠ ' ' ∧ c ≠ '_') = Nat.toDigits 10 q.val := by
        rw [List.filter_eq_self]
        intro c hc
        have := Nat.isDigit_of_mem_toDigits (b := 10) (by decide) (by decide) hc
        simp only [decide_eq_true_eq]
        constructor
        · rintro rfl; revert this; decide
        · rintro rfl; revert this; decide
      have hd' : (Nat.toDigits 10 q.val).filter (fun a => !decide (a = ' ') && !decide (a = '_')) =
          Nat.toDigits 10 q.val := by
        rw [← hd]; simp
      simp [hI, hp.2.1, hp.2.2.1, termText, List.filter_cons, hd']

end Plaquette
