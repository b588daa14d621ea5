import Verif.Model.Generator
import Verif.Lemmas.Circuit

/-!
# Splitting the results of a run
-/

namespace Plaquette

theorem slice_eq {α : Type} (a b c : List α) (i j : Int) (hi : pyBound (a ++ b ++ c).length i = a.length)
    (hj : pyBound (a ++ b ++ c).length j = a.length + b.length) : pySlice (a ++ b ++ c) i j = b := by
  unfold pySlice
  rw [hi, hj]
  simp

theorem slice_first {α : Type} (a b : List α) : pySlice (a ++ b) 0 a.length = a := by
  have := slice_eq [] a b 0 a.length (by simp [pyBound]) (by
    unfold pyBound
    rw [if_neg (by omega)]
    simp only [List.length_append, List.length_nil]; omega)
  exact this

theorem slice_last {α : Type} (a b : List α) (hb : b ≠ []) : pySlice (a ++ b) (-(b.length : Int)) (a ++ b).length = b := by
  have : 0 < b.length := List.length_pos_iff.mpr hb
  have := slice_eq a b [] (-(b.length : Int)) (a ++ b).length (by
      unfold pyBound
      rw [if_pos (by omega)]
      simp only [List.length_append, List.length_nil]; omega) (by
      unfold pyBound
      rw [if_neg (by omega)]
      simp only [List.length_append, List.length_nil]; omega)
  rwa [List.append_nil] at this

theorem slice_mid {α : Type} (a b c : List α) (hc : c ≠ []) : pySlice (a ++ b ++ c) a.length (-(c.length : Int)) = b := by
  have : 0 < c.length := List.length_pos_iff.mpr hc
  refine slice_eq a b c _ _ ?_ ?_
  · unfold pyBound
    rw [if_neg (by omega)]
    simp only [List.length_append]; omega
  · unfold pyBound
    rw [if_pos (by omega)]
    simp only [List.length_append]; omega

theorem slice_block {α : Type} (a b c : List α) : pySlice (a ++ b ++ c) a.length ((a.length : Int) + b.length) = b := by
  refine slice_eq a b c _ _ ?_ ?_
  · unfold pyBound
    rw [if_neg (by omega)]
    simp only [List.length_append]; omega
  · unfold pyBound
    rw [if_neg (by omega)]
    simp only [List.length_append]; omega

theorem chunks_flatten {α : Type} (k : Nat) (rows : List (List α)) (h : ∀ r ∈ rows, r.length = k) :
    chunks k rows.length rows.flatten = rows := by
  induction rows with
  | nil => rfl
  | cons r rows ih =>
    have hr := h r (by simp)
    rw [List.length_cons, chunks, List.flatten_cons, List.take_left' hr, List.drop_left' hr, ih (fun s hs => h s (by simp [hs]))]

theorem flatten_split {α : Type} (l : List (List α)) (i : Nat) (h : i < l.length) :
    l.flatten = (l.take i).flatten ++ l[i] ++ (l.drop (i + 1)).flatten := by
  conv_lhs => rw [← List.take_append_drop i l, List.drop_eq_getElem_cons h]
  rw [List.flatten_append, List.flatten_cons, List.append_assoc]

theorem length_flatten {α : Type} (k : Nat) (rows : List (List α)) (h : ∀ r ∈ rows, r.length = k) :
    rows.flatten.length = rows.length * k := by
  induction rows with
  | nil => simp
  | cons r rows ih =>
    rw [List.flatten_cons, List.length_append, h r (by simp), ih (fun s hs => h s (by simp [hs])), List.length_cons]
    rw [Nat.add_mul, Nat.one_mul, Nat.add_comm]

theorem reshape_flatten {α : Type} (k : Nat) (rows : List (List α)) (h : ∀ r ∈ rows, r.length = k) :
    reshape rows.flatten rows.length k = .ok rows := by
  unfold reshape
  rw [if_pos (length_flatten k rows h), chunks_flatten k rows h]

/-- The sample of given results. -/
def sampleOf (init final : List Bool) (rounds : List (List Bool)) (erased : Option (List (List Bool))) : Sample where
  initial := init
  final := final
  toggle := xorL init final
  stabilizers := rounds
  syndrome := List.zipWith xorL rounds.tail rounds.dropLast
  erased := erased

theorem fromRaw_of_split (c : LatCode) (raw : List Bool) (anc : Bool) (init final : List Bool) (rounds : List (List Bool))
    (erased : Option (List (List Bool))) (h : splitResults c raw anc = .ok (init, final, rounds.flatten))
    (hr : rounds.length = c.nRounds + 1) (hs : ∀ r ∈ rounds, r.length = c.code.stabilisers.length)
    (he : ∀ e, erased = some e → e.length = c.nRounds ∧ ∀ r ∈ e, r.length = c.n) :
    Sample.fromRaw c raw (erased.map List.flatten) anc = .ok (sampleOf init final rounds erased) := by
  unfold Sample.fromRaw
  rw [h, ← hr]
  simp only [reshape_flatten _ rounds hs]
  cases erased with
  | none => rfl
  | some e =>
    obtain ⟨h1, h2⟩ := he e rfl
    simp only [Option.map_some]
    have := length_flatten _ e h2
    rw [h1] at this
    rw [if_neg (by simp [this]), ← h1, reshape_flatten _ e h2]
    rfl

/-- With ancillas for the logical operators. -/
theorem split_anc (c : LatCode) (init final anc : List Bool) (hi : init.length = c.code.nLogicalQubits)
    (hf : final.length = c.code.nLogicalQubits) (hk : 1 ≤ c.code.nLogicalQubits) :
    splitResults c (init ++ anc ++ final) true = .ok (init, final, anc) := by
  have hne : final ≠ [] := List.length_pos_iff.mp (by omega)
  unfold splitResults
  rw [if_neg (by simp)]
  simp only [Except.ok.injEq, Prod.mk.injEq]
  refine ⟨?_, ?_, ?_⟩
  · rw [← hi, List.append_assoc]; exact slice_first _ _
  · rw [← hf]; exact slice_last _ _ hne
  · have := slice_mid init anc final hne
    rw [hi, hf] at this
    exact this

/-- Without ancillas: `inits` and `finals` are the results of the qubits of each logical operator. -/
theorem split_direct (c : LatCode) (d : Nat) (hd : firstWeight c.code = .ok d) (hd1 : 1 ≤ d) (inits finals : List (List Bool))
    (anc : List Bool) (hi : inits.length = c.code.nLogicalQubits) (hf : finals.length = c.code.nLogicalQubits)
    (hi' : ∀ r ∈ inits, r.length = d) (hf' : ∀ r ∈ finals, r.length = d) (hk : 1 ≤ c.code.nLogicalQubits) :
    splitResults c (inits.flatten ++ anc ++ finals.flatten) false = .ok (inits.map parity, finals.map parity, anc) := by
  have li := length_flatten d inits hi'
  have lf := length_flatten d finals hf'
  have hne : finals.flatten ≠ [] := List.length_pos_iff.mp (by rw [lf, hf]; exact Nat.mul_pos hk hd1)
  unfold splitResults
  rw [hd]
  simp only [Bool.not_false, if_true]
  simp only [Except.ok.injEq, Prod.mk.injEq]
  refine ⟨?_, ?_, ?_⟩
  · apply List.ext_getElem (by simp [hi])
    intro i h1 h2
    simp only [List.getElem_map, List.getElem_range]
    simp only [List.length_map] at h2
    congr 1
    have hsplit : inits.flatten ++ anc ++ finals.flatten =
        (inits.take i).flatten ++ inits[i] ++ ((inits.drop (i + 1)).flatten ++ anc ++ finals.flatten) := by
      rw [flatten_split inits i h2]
      simp only [List.append_assoc]
    rw [hsplit]
    have l1 := length_flatten d (inits.take i) fun r hr => hi' r (List.mem_of_mem_take hr)
    rw [List.length_take, Nat.min_eq_left (by omega)] at l1
    have := slice_block (inits.take i).flatten inits[i] ((inits.drop (i + 1)).flatten ++ anc ++ finals.flatten)
    rw [l1, hi' _ (List.getElem_mem h2)] at this
    rw [show ((i : Int) * d) = ((i * d : Nat) : Int) by push_cast; rfl,
      show (((i : Int) + 1) * d) = ((i * d : Nat) : Int) + d by push_cast; rw [Int.add_mul, Int.one_mul]]
    exact this
  · apply List.ext_getElem (by simp [hf])
    intro i h1 h2
    rw [List.getElem_reverse]
    simp only [List.getElem_map, List.getElem_range, List.length_map, List.length_range]
    simp only [List.length_map] at h2
    rw [hf] at h2
    congr 1
    have hsplit : inits.flatten ++ anc ++ finals.flatten =
        (inits.flatten ++ anc ++ (finals.take i).flatten) ++ finals[i] ++ (finals.drop (i + 1)).flatten := by
      rw [flatten_split finals i (by omega)]
      simp only [List.append_assoc]
    have l1 := length_flatten d (finals.take i) fun r hr => hf' r (List.mem_of_mem_take hr)
    rw [List.length_take, Nat.min_eq_left (by omega)] at l1
    have l2 := hf' finals[i] (List.getElem_mem _)
    have := slice_block (inits.flatten ++ anc ++ (finals.take i).flatten) finals[i] (finals.drop (i + 1)).flatten
    rw [← hsplit] at this
    have e0 : (inits.flatten ++ anc ++ finals.flatten).length = inits.length * d + anc.length + c.code.nLogicalQubits * d := by
      rw [List.length_append, List.length_append, li, lf, hf]
    have e1 : ((inits.flatten ++ anc ++ (finals.take i).flatten).length : Int) =
        ((inits.flatten ++ anc ++ finals.flatten).length : Int) - ((c.code.nLogicalQubits - 1 - i : Nat) : Int) * d - d := by
      rw [e0, List.length_append, List.length_append, li, l1]
      have h3 : c.code.nLogicalQubits = i + 1 + (c.code.nLogicalQubits - 1 - i) := by omega
      generalize c.code.nLogicalQubits - 1 - i = m at h3 ⊢
      rw [h3]
      push_cast
      rw [Int.add_mul, Int.add_mul, Int.one_mul]
      omega
    rw [e1, l2] at this
    rw [show ((inits.flatten ++ anc ++ finals.flatten).length : Int) - ((c.code.nLogicalQubits - 1 - i : Nat) : Int) * d - d + d =
      ((inits.flatten ++ anc ++ finals.flatten).length : Int) - ((c.code.nLogicalQubits - 1 - i : Nat) : Int) * d by omega] at this
    exact this
  · have := slice_mid inits.flatten anc finals.flatten hne
    rw [li, lf, hi, hf] at this
    push_cast at this
    exact this

end Plaquette
