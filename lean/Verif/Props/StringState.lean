import Verif.Lemmas.StringState
import Verif.Props.PauliText
import Verif.Props.Measure

/-!
# C99: states from stabilisers alone
-/

namespace Plaquette
variable {n : Nat}

/-- The stabilisers of a state as strings. -/
def stabStrings (T : Tab n) : List (List Char) := (List.ofFn T.s).map fun s => pauliToString s true

/-- **C99 (full statement)**: from the stabilisers of any state, `string_to_state` makes a tableau of this state. -/
def C99_statement (pinv : Pinv) (cast : ℚ → Nat) : Prop := ∀ (n : Nat) (T : Tab n), 1 ≤ n → T.Valid →
  ∃ d, stringToState' pinv cast n (stabStrings T) none = .ok (d, List.ofFn T.s) ∧ IsTableau T.s d

theorem parse_strings : ∀ (l : List (Op n)), (∀ s ∈ l, ¬ s.IsScalar) →
    parseAll none (l.map fun s => pauliToString s true) = .ok (l.map fun s => ⟨n, s⟩)
  | [], _ => rfl
  | s :: l, h => by
    rw [List.map_cons, parseAll, canonical_roundtrip s (h s (by simp)) none (by simp)]
    simp only
    rw [parse_strings l fun s hs => h s (by simp [hs])]
    rfl

theorem sameSize_self : ∀ l : List (Op n), sameSize n (l.map fun s => (⟨n, s⟩ : AnyOp)) = .ok l
  | [] => rfl
  | s :: l => by
    rw [List.map_cons, sameSize, dif_pos rfl, sameSize_self l]

theorem stab_not_scalar {T : Tab n} (hT : T.Valid) (i : Fin n) : ¬ (T.s i).IsScalar := by
  intro h
  have h1 := (anticommutes_iff _ _).1 (hT.destab_stab_same i)
  rw [anti_symm] at h1
  simp [anti, h.1, h.2, bit] at h1

/-- The strings of the stabilisers are parsed back to the stabilisers. -/
theorem stringToState_strings (pinv : Pinv) (cast : ℚ → Nat) {T : Tab n} (hT : T.Valid) :
    stringToState' pinv cast n (stabStrings T) none = stateFromStabs pinv cast (List.ofFn T.s) := by
  rw [stringToState', stabStrings, parse_strings _ (by
    intro s hs
    obtain ⟨i, rfl⟩ := List.mem_ofFn.1 hs
    exact stab_not_scalar hT i)]
  simp only
  rw [sameSize_self]

theorem stateFromStabs_full (pinv : Pinv) (cast : ℚ → Nat) {l : List (Op n)} (hn : 1 ≤ n) (hl : l.length = n) :
    stateFromStabs pinv cast l = match stateCheck l ((findDestabs pinv cast l.get).map ByteOp.parity) with
      | .error e => .error e
      | .ok _ => .ok (findDestabs pinv cast l.get, l) := by
  cases l with
  | nil => simp at hl; omega
  | cons a l => rw [stateFromStabs, if_pos hl]; rfl

theorem ofFn_get {α : Type} (f : Fin n → α) (i : Fin (List.ofFn f).length) : (List.ofFn f).get i = f (i.cast (by simp)) := by
  simp [Fin.cast]

theorem list_gram {T : Tab n} (hT : T.Valid) :
    IsUnit (bitMatrix (List.ofFn T.s).get * (bitMatrix (List.ofFn T.s).get).transpose).det := by
  refine gram_unit (D := fun i => T.d (i.cast (by simp))) ?_ ?_
  · intro i
    have := (anticommutes_iff _ _).1 (hT.destab_stab_same (i.cast (by simp)))
    rw [ofFn_get]; exact this
  · intro i j hij
    have := (commutes_iff _ _).1 (hT.destab_stab_ne (i.cast (by simp)) (j.cast (by simp)) (by simpa [Fin.ext_iff] using hij))
    rw [ofFn_get]; exact this

/-- **C99 fails whenever** some stabiliser has two or more bits (a letter Y counts as two) and shares no X and no Z with another
stabiliser: its row of the pseudo-inverse has entries of at most 1/2, which become 0, and `ValueError` is raised. -/
theorem C99_refused {pinv : Pinv} (hp : Accurate pinv) {cast : ℚ → Nat} (hc : Truncates cast) {T : Tab n} (hT : T.Valid) (i : Fin n)
    (hw : 2 ≤ overlap (T.s i) (T.s i)) (ho : ∀ j, j ≠ i → overlap (T.s i) (T.s j) = 0) :
    stringToState' pinv cast n (stabStrings T) none = .error .valueError := by
  have hl : (List.ofFn T.s).length = n := by simp
  rw [stringToState_strings _ _ hT, stateFromStabs_full _ _ (by have := i.2; omega) hl]
  have hi : i.1 < (List.ofFn T.s).length := lt_of_lt_of_eq i.2 hl.symm
  have hfl := findDestabs_length pinv cast (List.ofFn T.s).get
  have hrow : ∀ c, exactPinv n _ (bitMatrix (List.ofFn T.s).get).transpose ⟨i.1, hi⟩ c =
      bitMatrix (List.ofFn T.s).get ⟨i.1, hi⟩ c / overlap (T.s i) (T.s i) := by
    intro c
    have h1 := exactPinv_row (list_gram hT) ⟨i.1, hi⟩ (by
      intro j hj
      have := ho (j.cast hl) (by
        intro h
        apply hj
        rw [Fin.ext_iff] at h ⊢
        simpa using h)
      rw [ofFn_get, ofFn_get]; exact this) (by
      rw [ofFn_get]
      exact (lt_of_lt_of_le Nat.zero_lt_two hw).ne') c
    rw [h1, ofFn_get]; rfl
  have hb : ∀ c, 0 ≤ bitMatrix (List.ofFn T.s).get ⟨i.1, hi⟩ c ∧ bitMatrix (List.ofFn T.s).get ⟨i.1, hi⟩ c ≤ 1 := by
    rintro (q | q)
    · rw [bitMatrix_inl]; split_ifs <;> norm_num
    · rw [bitMatrix_inr]; split_ifs <;> norm_num
  have hz : ∀ c, cast (pinv n _ (bitMatrix (List.ofFn T.s).get).transpose ⟨i.1, hi⟩ c) = 0 := by
    intro c
    have h1 := hp n _ (bitMatrix (List.ofFn T.s).get).transpose (by rw [Matrix.transpose_transpose]; exact list_gram hT) ⟨i.1, hi⟩ c
    rw [hrow c, abs_lt] at h1
    have hw' : (2 : ℚ) ≤ overlap (T.s i) (T.s i) := by exact_mod_cast hw
    have h2 : bitMatrix (List.ofFn T.s).get ⟨i.1, hi⟩ c / overlap (T.s i) (T.s i) ≤ 1 / 2 := by
      rw [div_le_iff₀ (by linarith)]
      have := (hb c).2
      linarith
    have h3 : 0 ≤ bitMatrix (List.ofFn T.s).get ⟨i.1, hi⟩ c / overlap (T.s i) (T.s i) := div_nonneg (hb c).1 (by linarith)
    rw [hc _ (by linarith [h1.1]) (by linarith [h1.2]), Int.toNat_eq_zero]
    have h4 : pinv n _ (bitMatrix (List.ofFn T.s).get).transpose ⟨i.1, hi⟩ c < 1 := by linarith [h1.2]
    have : ⌊pinv n _ (bitMatrix (List.ofFn T.s).get).transpose ⟨i.1, hi⟩ c⌋ < 1 := Int.floor_lt.2 (by exact_mod_cast h4)
    omega
  rw [stateCheck_refuse (by simp [hfl]) i.1 hi]
  have hd : i.1 < (findDestabs pinv cast (List.ofFn T.s).get).length := lt_of_lt_of_eq hi hfl.symm
  simp only [List.getElem_map]
  have hx : ∀ q, ((findDestabs pinv cast (List.ofFn T.s).get)[i.1]).parity.x q = false := by
    intro q
    simp only [ByteOp.parity, findDestabs_x, hz]
    rfl
  have hz' : ∀ q, ((findDestabs pinv cast (List.ofFn T.s).get)[i.1]).parity.z q = false := by
    intro q
    simp only [ByteOp.parity, findDestabs_z, hz]
    rfl
  simp [anti, hx, hz', bit]

/-- The Bell state with stabilisers `XX` and `ZZ`. -/
def bellTab : Tab 2 := appAll [.h 0, .cx 0 1] (zeroState 2)

/-- `string_to_state(["XX", "ZZ"])` raises `ValueError`. -/
theorem C99_bell {pinv : Pinv} (hp : Accurate pinv) {cast : ℚ → Nat} (hc : Truncates cast) :
    stringToState' pinv cast 2 ["+XX".toList, "+ZZ".toList] none = .error .valueError := by
  have hv : bellTab.Valid := C05_reachable_valid [.gates [.h 0, .cx 0 1]] (by simp [Cmd.Ok, CGate.Ok]) _ rfl
  have h := C99_refused hp hc hv 0 (by decide) (by decide)
  rw [show stabStrings bellTab = ["+XX".toList, "+ZZ".toList] by decide] at h
  exact h

/-- `string_to_state(["Y"])` raises `ValueError`. -/
theorem C99_y {pinv : Pinv} (hp : Accurate pinv) {cast : ℚ → Nat} (hc : Truncates cast) :
    stringToState' pinv cast 1 ["+Y".toList] none = .error .valueError := by
  have hv : (appAll [.h 0, .s 0] (zeroState 1)).Valid := C05_reachable_valid [.gates [.h 0, .s 0]] (by simp [Cmd.Ok, CGate.Ok]) _ rfl
  have h := C99_refused hp hc hv 0 (by decide) (by decide)
  rw [show stabStrings (appAll [.h 0, .s 0] (zeroState 1)) = ["+Y".toList] by decide] at h
  exact h

theorem C99_counterexample {pinv : Pinv} (hp : Accurate pinv) {cast : ℚ → Nat} (hc : Truncates cast) : ¬ C99_statement pinv cast := by
  intro h
  have hv : bellTab.Valid := C05_reachable_valid [.gates [.h 0, .cx 0 1]] (by simp [Cmd.Ok, CGate.Ok]) _ rfl
  obtain ⟨d, h1, _⟩ := h 2 bellTab (by decide) hv
  rw [C99_refused hp hc hv 0 (by decide) (by decide)] at h1
  cases h1

/-! ### The part that holds: product states -/

/-- The letter whose operator anticommutes: X for Z, Z for X. -/
def Letter.other : Letter → Letter
  | .X => .Z
  | .Z => .X
  | .Y => .Y

theorem overlap_single (a b : Bool) (l l' : Letter) (hl : l ≠ .Y) (hl' : l' ≠ .Y) (p q : Fin n) :
    overlap (singleOp a l p) (singleOp b l' q) = if p = q ∧ l = l' then 1 else 0 := by
  unfold overlap singleOp
  have h1 : ∀ (u v : Bool), (Finset.univ.filter fun i : Fin n => ((decide (i = p) && u) && (decide (i = q) && v)) = true).card =
      if p = q ∧ u = true ∧ v = true then 1 else 0 := by
    intro u v
    by_cases h : p = q ∧ u = true ∧ v = true
    · obtain ⟨rfl, rfl, rfl⟩ := h
      rw [if_pos ⟨rfl, rfl, rfl⟩, Finset.card_eq_one]
      exact ⟨p, by ext i; simp⟩
    · rw [if_neg h, Finset.card_eq_zero]
      ext i
      simp only [Finset.mem_filter, Finset.mem_univ, true_and, Bool.and_eq_true, decide_eq_true_eq, Finset.notMem_empty, iff_false]
      rintro ⟨⟨rfl, k1⟩, rfl, k2⟩
      exact h ⟨rfl, k1, k2⟩
  simp only [h1]
  cases l <;> cases l' <;> simp_all

theorem anti_singles (a b : Bool) (l l' : Letter) (p q : Fin n) :
    anti (singleOp a l p) (singleOp b l' q) = decide (p = q ∧ l ≠ l') := by
  have h : ∀ i : Fin n, i ≠ p → (bit ((singleOp a l p).x i) * bit ((singleOp b l' q).z i) +
      bit ((singleOp a l p).z i) * bit ((singleOp b l' q).x i)) = 0 := by
    intro i hi
    simp [singleOp, hi, bit]
  rw [anti, Finset.sum_eq_single p (fun i _ hi => h i hi) (by simp)]
  by_cases hpq : p = q
  · subst hpq
    cases l <;> cases l' <;> simp [singleOp, bit]
  · simp [singleOp, bit, hpq]

/-- **C99 (partial)**: if every stabiliser is an X or Z (with any sign) of a qubit of its own, and `pinv` is exact for such rows,
the result is a tableau of the state. Missing: every other state; see `C99_refused` and `C99_minus`. -/
theorem C99_product_partial {pinv : Pinv} {cast : ℚ → Nat} (h0 : cast 0 = 0) (h1 : cast 1 = 1) (hn : 1 ≤ n) (neg : Fin n → Bool) (l : Fin n → Letter)
    (hl : ∀ i, l i ≠ .Y) (q : Fin n → Fin n) (hq : Function.Injective q)
    (hp : ∀ (n m : Nat) (A : Matrix (Fin n ⊕ Fin n) (Fin m) ℚ), A.transpose * A = 1 → pinv n m A = A.transpose) :
    ∃ d, stateFromStabs pinv cast (List.ofFn fun i => singleOp (neg i) (l i) (q i)) = .ok (d, List.ofFn fun i => singleOp (neg i) (l i) (q i)) ∧
      d.map ByteOp.parity = (List.ofFn fun i => singleOp false (l i).other (q i)) ∧
      IsTableau (fun i => singleOp (neg i) (l i) (q i)) d := by
  set f : Fin n → Op n := fun i => singleOp (neg i) (l i) (q i) with hf
  have hlen : (List.ofFn f).length = n := by simp
  have hg : (bitMatrix (List.ofFn f).get).transpose.transpose * (bitMatrix (List.ofFn f).get).transpose = 1 := by
    ext i j
    rw [Matrix.transpose_transpose, gram, ofFn_get, ofFn_get,
      show ∀ u v, overlap (f u) (f v) = if q u = q v ∧ l u = l v then 1 else 0 from fun u v => overlap_single _ _ _ _ (hl _) (hl _) _ _,
      Matrix.one_apply]
    by_cases hij : i = j
    · subst hij; simp
    · rw [if_neg hij, if_neg]
      · simp
      · rintro ⟨h, -⟩
        apply hij
        have := hq h
        rw [Fin.ext_iff] at this ⊢
        simpa using this
  have hP := hp n _ _ hg
  rw [Matrix.transpose_transpose] at hP
  set d := findDestabs pinv cast (List.ofFn f).get with hd
  have hdl : d.length = n := (findDestabs_length _ _ _).trans hlen
  have hc : ∀ b : Bool, cast (if b = true then 1 else 0) = if b = true then 1 else 0 := by
    intro b; cases b
    · exact h0
    · exact h1
  have hx : ∀ (i : Fin n) (p : Fin n), (d[i.1]'(lt_of_lt_of_eq i.2 hdl.symm)).x p = if (f i).z p then 1 else 0 := by
    intro i p
    simp only [hd, findDestabs_x, hP, bitMatrix_inr, hc]
    simp
  have hz : ∀ (i : Fin n) (p : Fin n), (d[i.1]'(lt_of_lt_of_eq i.2 hdl.symm)).z p = if (f i).x p then 1 else 0 := by
    intro i p
    simp only [hd, findDestabs_z, hP, bitMatrix_inl, hc]
    simp
  have hrow : ∀ i : Fin n, (d[i.1]'(lt_of_lt_of_eq i.2 hdl.symm)).parity = singleOp false (l i).other (q i) := by
    intro i
    ext p
    · simp only [ByteOp.parity, hx, hf, singleOp]
      have := hl i
      cases hh : l i <;> by_cases hpq : p = q i <;> simp_all [Letter.other]
    · simp only [ByteOp.parity, hz, hf, singleOp]
      have := hl i
      cases hh : l i <;> by_cases hpq : p = q i <;> simp_all [Letter.other]
    · rfl
  have hother : ∀ i, l i ≠ (l i).other := by
    intro i
    have := hl i
    cases hh : l i <;> simp_all [Letter.other]
  have hmap : d.map ByteOp.parity = List.ofFn fun i => singleOp false (l i).other (q i) := by
    refine List.ext_getElem (by simp [hdl]) fun i h1 h2 => ?_
    simp only [List.getElem_map, List.getElem_ofFn]
    exact hrow ⟨i, by simpa [hdl] using h1⟩
  refine ⟨d, ?_, hmap, ⟨hdl, ?_, ⟨?_, ?_, ?_, ?_⟩⟩⟩
  · rw [stateFromStabs_full _ _ hn hlen, ← hd, hmap, stateCheck_accept (by simp)]
    · intro i j hi hj
      simp only [List.getElem_ofFn, hf, anti_singles, decide_eq_false_iff_not]
      rintro ⟨h, h'⟩
      exact h' (by rw [hq h])
    · intro i j hi hj
      simp only [List.getElem_ofFn, anti_singles, decide_eq_false_iff_not]
      rintro ⟨h, h'⟩
      exact h' (by rw [hq h])
    · intro i hi hj
      simp only [List.getElem_ofFn, hf, anti_singles, decide_eq_true_eq]
      exact ⟨trivial, hother _⟩
  · intro b hb p
    obtain ⟨i, hi, rfl⟩ := List.getElem_of_mem hb
    have h1 := hx ⟨i, lt_of_lt_of_eq hi hdl⟩ p
    have h2 := hz ⟨i, lt_of_lt_of_eq hi hdl⟩ p
    simp only at h1 h2
    rw [h1, h2]
    constructor <;> split_ifs <;> simp
  · intro i j
    rw [commutes_iff]
    simp only [hf, anti_singles, decide_eq_false_iff_not]
    rintro ⟨h, h'⟩
    exact h' (by rw [hq h])
  · intro i j
    rw [commutes_iff]
    have h1 := hrow i
    have h2 := hrow j
    simp only [Fin.getElem_fin, h1, h2, anti_singles, decide_eq_false_iff_not]
    rintro ⟨h, h'⟩
    exact h' (by rw [hq h])
  · intro i
    rw [anticommutes_iff]
    have h1 := hrow i
    simp only [Fin.getElem_fin, h1, hf, anti_singles, decide_eq_true_eq]
    exact ⟨trivial, (hother i).symm⟩
  · intro i j hij
    rw [commutes_iff]
    have h1 := hrow i
    simp only [Fin.getElem_fin, h1, hf, anti_singles, decide_eq_false_iff_not]
    rintro ⟨h, -⟩
    exact hij (hq h)

/-- Non-vacuity: the exact inverse, with truncation, is accurate, and exact on independent rows of one bit. -/
example : Accurate exactPinv ∧ (∀ (n m : Nat) (A : Matrix (Fin n ⊕ Fin n) (Fin m) ℚ), A.transpose * A = 1 → exactPinv n m A = A.transpose) ∧
    Truncates (fun v => ⌊v⌋.toNat) := by
  refine ⟨fun n m A _ i j => by simp, fun n m A h => ?_, fun v _ _ => rfl⟩
  rw [exactPinv, h, inv_one, Matrix.one_mul]

/-! ### Negative entries -/

/-- The stabilisers `ZI` and `ZZ` (of the state `|00>`). -/
def zzTab : Tab 2 := appAll [.cx 0 1] (zeroState 2)

theorem exactPinv_eq {m : Nat} {A : Matrix (Fin n ⊕ Fin n) (Fin m) ℚ} (h : IsUnit (A.transpose * A).det) {P : Matrix (Fin m) (Fin n ⊕ Fin n) ℚ}
    (hP : A.transpose * A * P = A.transpose) : exactPinv n m A = P := by
  have h1 : (A.transpose * A)⁻¹ * (A.transpose * A * P) = P := by
    rw [← Matrix.mul_assoc, Matrix.nonsing_inv_mul _ h, Matrix.one_mul]
  rw [hP] at h1
  exact h1

/-- With the exact inverse, `string_to_state(["ZI", "ZZ"])` does not make a tableau unless -1 is converted to 1 (it becomes 255 where
negative numbers wrap): an even value leaves a destabiliser that anticommutes with the other stabiliser, which is not noticed, and an
odd value is kept in the array. -/
theorem C99_minus {cast : ℚ → Nat} (h0 : cast 0 = 0) (h1 : cast 1 = 1) (hm : cast (-1) ≠ 1) :
    ∃ d, stateFromStabs exactPinv cast (List.ofFn zzTab.s) = .ok (d, List.ofFn zzTab.s) ∧ ¬ IsTableau zzTab.s d ∧
      (d[0]?.map fun b => b.x 1) = some (cast (-1)) := by
  have hv : zzTab.Valid := C05_reachable_valid [.gates [.cx 0 1]] (by simp [Cmd.Ok, CGate.Ok]) _ rfl
  have hP : exactPinv 2 _ (bitMatrix (List.ofFn zzTab.s).get).transpose =
      Matrix.of fun i => Sum.elim (fun _ => 0) fun q => if i.1 = q.1 then 1 else if i.1 = 0 then -1 else 0 := by
    refine exactPinv_eq (by rw [Matrix.transpose_transpose]; exact list_gram hv) ?_
    rw [Matrix.transpose_transpose]
    ext i (j | j)
    · revert i j
      decide +kernel
    · revert i j
      decide +kernel
  set d := findDestabs exactPinv cast (List.ofFn zzTab.s).get with hd
  have hdl : d.length = 2 := (findDestabs_length _ _ _).trans (by simp)
  have hx : ∀ (i : Nat) (hi : i < d.length) (q : Fin 2), (d[i]).x q = if i = q.1 then 1 else if i = 0 then cast (-1) else 0 := by
    intro i hi q
    simp only [hd, findDestabs_x, hP, Matrix.of_apply, Sum.elim_inr]
    split_ifs <;> first | assumption | rfl
  have hz : ∀ (i : Nat) (hi : i < d.length) (q : Fin 2), (d[i]).z q = 0 := by
    intro i hi q
    simp only [hd, findDestabs_z, hP, Matrix.of_apply, Sum.elim_inl, h0]
  have hpz : ∀ (i : Nat) (hi : i < d.length) (q : Fin 2), (d[i]).parity.z q = false := by
    intro i hi q
    simp [ByteOp.parity, hz]
  have hs : ∀ (i : Fin 2) (q : Fin 2), (zzTab.s i).x q = false ∧ (zzTab.s i).z q = decide (q.1 ≤ i.1) := by decide
  refine ⟨d, ?_, ?_, ?_⟩
  · rw [stateFromStabs_full _ _ (by decide) (by simp), ← hd, stateCheck_accept (by simp [hdl])]
    · intro i j hi hj
      simp only [List.getElem_ofFn]
      exact (commutes_iff _ _).1 (hv.stab_stab _ _)
    · intro i j hi hj
      simp only [List.getElem_map]
      simp [anti, hpz, bit]
    · intro i hi hj
      simp only [List.getElem_map, List.getElem_ofFn]
      simp only [List.length_ofFn] at hi
      have : i = 0 ∨ i = 1 := by omega
      rcases this with rfl | rfl <;> simp [anti, hpz, hs, ByteOp.parity, hx, bit]
  · intro h
    have hc : cast (-1) = 0 := by
      have := (h.binary (d[0]) (List.getElem_mem _) 1).1
      rw [hx] at this
      simp at this
      omega
    have := (commutes_iff _ _).1 (h.valid.destab_stab_ne 0 1 (by decide))
    simp [anti, hpz, hs, ByteOp.parity, hx, bit, hc] at this
  · rw [List.getElem?_eq_getElem (by omega), Option.map_some, hx]
    simp

end Plaquette
