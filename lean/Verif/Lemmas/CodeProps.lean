import Verif.Lemmas.LatticeCode

/-!
# Weights, the check of a code, and the selection of logical operators
-/

namespace Plaquette
variable {n : Nat}

/-! ### Weights -/

theorem Letter.has (l : Letter) : (l.hasX || l.hasZ) = true := by cases l <;> rfl

theorem edgesOp_supp (idx : Pos → Nat) (es : List LEdge) (hn : (es.map fun e => idx e.data).Nodup) (q : Fin n) :
    ((edgesOp idx n es).x q || (edgesOp idx n es).z q) = decide (q.val ∈ es.map fun e => idx e.data) := by
  by_cases h : q.val ∈ es.map fun e => idx e.data
  · obtain ⟨e, he, heq⟩ := List.mem_map.mp h
    have hes : es.Nodup := List.Nodup.of_map _ hn
    have hu : ∀ (g : LEdge → Bool), (xorSum es fun e => decide (idx e.data = q.val) && g e) = g e := by
      intro g
      rw [xorSum_unique he hes, heq]
      · simp
      · intro b hb hbe
        have : idx b.data ≠ q.val := by
          intro hc
          exact hbe (List.inj_on_of_nodup_map hn hb he (hc.trans heq.symm))
        simp [this]
    simp only [edgesOp]
    rw [hu, hu, Letter.has, decide_eq_true h]
  · have hu : ∀ (g : LEdge → Bool), (xorSum es fun e => decide (idx e.data = q.val) && g e) = false := by
      intro g
      apply xorSum_false
      intro e he
      have : idx e.data ≠ q.val := fun hc => h (List.mem_map.mpr ⟨e, he, hc⟩)
      simp [this]
    simp only [edgesOp]
    rw [hu, hu, decide_eq_false h]; rfl

theorem weight_edgesOp (idx : Pos → Nat) (es : List LEdge) (hn : (es.map fun e => idx e.data).Nodup)
    (hl : ∀ e ∈ es, idx e.data < n) : (edgesOp idx n es).weight = es.length := by
  have h1 : (((List.finRange n).filter fun q => (edgesOp idx n es).x q || (edgesOp idx n es).z q).map Fin.val).Perm
      (es.map fun e => idx e.data) := by
    apply (List.perm_ext_iff_of_nodup _ hn).mpr
    · intro k
      simp only [List.mem_map, List.mem_filter, List.mem_finRange, true_and, edgesOp_supp idx es hn, decide_eq_true_eq]
      constructor
      · rintro ⟨q, ⟨e, he, h1⟩, h2⟩
        exact ⟨e, he, h1.trans h2⟩
      · rintro ⟨e, he, h1⟩
        exact ⟨⟨k, h1 ▸ hl e he⟩, ⟨e, he, h1⟩, rfl⟩
    · exact ((List.nodup_finRange n).filter _).map (fun a b h => Fin.ext h)
  have := h1.length_eq
  rw [List.length_map, List.length_map] at this
  rw [Op.weight, List.countP_eq_length_filter, this]

/-- The weight of the operator of a vertex is its number of edges. -/
theorem Lattice.Wf.weight {L : Lattice} (h : L.Wf) (v : Pos) : (L.vop v).weight = (L.opEdges v).length :=
  weight_edgesOp _ _ (h.op_idx_nodup v) (fun _ he => h.idx_lt (h.op_data he))

/-! ### `check` -/

theorem evensOf_get (l : List (Op n)) (i : Nat) : (StabCode.logicalX.evensOf l)[i]? = l[2 * i]? := by
  fun_induction StabCode.logicalX.evensOf l generalizing i with
  | case1 => simp
  | case2 a => cases i with
    | zero => simp
    | succ i => simp [show 2 * (i + 1) = (2 * i) + 1 + 1 by omega]
  | case3 a b l ih => cases i with
    | zero => simp
    | succ i => simp [show 2 * (i + 1) = (2 * i) + 1 + 1 by omega, ih]

theorem oddsOf_get (l : List (Op n)) (i : Nat) : (StabCode.logicalZ.oddsOf l)[i]? = l[2 * i + 1]? := by
  fun_induction StabCode.logicalZ.oddsOf l generalizing i with
  | case1 => simp
  | case2 a => simp
  | case3 a b l ih => cases i with
    | zero => simp
    | succ i => simp [show 2 * (i + 1) + 1 = (2 * i + 1) + 1 + 1 by omega, ih]

theorem evensOf_length (l : List (Op n)) (h : l.length % 2 = 0) : (StabCode.logicalX.evensOf l).length = l.length / 2 := by
  fun_induction StabCode.logicalX.evensOf l with
  | case1 => simp
  | case2 a => simp at h
  | case3 a b l ih => simp only [List.length_cons] at h ⊢; rw [ih (by omega)]; omega

theorem oddsOf_length (l : List (Op n)) (h : l.length % 2 = 0) : (StabCode.logicalZ.oddsOf l).length = l.length / 2 := by
  fun_induction StabCode.logicalZ.oddsOf l with
  | case1 => simp
  | case2 a => simp at h
  | case3 a b l ih => simp only [List.length_cons] at h ⊢; rw [ih (by omega)]; omega

theorem commTable_zero (as bs : List (Op n)) :
    (commTable as bs).any (fun r => r.any (· ≠ 0)) = false ↔ ∀ a ∈ as, ∀ b ∈ bs, commSign a b = 0 := by
  simp [commTable, List.any_eq_false]

theorem commTable_eye (as bs : List (Op n)) (k : Nat) (ha : as.length = k) (hb : bs.length = k) :
    commTable as bs = ((List.range k).map fun i => (List.range k).map fun j => if i = j then 1 else 0) ↔
      ∀ (i j : Nat) (a b : Op n), as[i]? = some a → bs[j]? = some b → commSign a b = if i = j then 1 else 0 := by
  constructor
  · intro h i j a b hi hj
    have h1 := congrArg (fun t => t[i]?) h
    have hi' := (List.getElem?_eq_some_iff.mp hi).1
    have hj' := (List.getElem?_eq_some_iff.mp hj).1
    simp only [commTable, List.getElem?_map, hi, Option.map_some] at h1
    rw [List.getElem?_range (by omega)] at h1
    simp only [Option.map_some, Option.some.injEq] at h1
    have h2 := congrArg (fun t => t[j]?) h1
    simp only [List.getElem?_map, hj, Option.map_some] at h2
    rw [List.getElem?_range (by omega)] at h2
    simpa using h2
  · intro h
    apply List.ext_getElem
    · simp [commTable, ha]
    · intro i h1 h2
      have hi : i < as.length := by simpa [commTable] using h1
      simp only [commTable, List.getElem_map, List.getElem_range]
      apply List.ext_getElem
      · simp [hb]
      · intro j h3 h4
        have hj : j < bs.length := by simpa using h3
        simp only [List.getElem_map, List.getElem_range]
        exact h i j _ _ (List.getElem?_eq_getElem hi) (List.getElem?_eq_getElem hj)

theorem commSign_zero_iff (a b : Op n) : commSign a b = 0 ↔ Commutes (opMat a) (opMat b) := by
  rw [commSign_eq, commutes_iff]
  cases anti a b <;> simp [bit]

theorem commSign_one_iff (a b : Op n) : commSign a b = 1 ↔ Anticommutes (opMat a) (opMat b) := by
  rw [commSign_eq, anticommutes_iff]
  cases anti a b <;> simp [bit]

theorem check_iff (c : StabCode n) (hs : c.stabilisers ≠ []) (hl : c.logicalOps ≠ []) (he : c.logicalOps.length % 2 = 0) :
    c.check = .ok () ↔ c.Valid := by
  have hlen : 2 ≤ c.logicalOps.length := by
    have := List.length_pos_iff.mpr hl
    omega
  have lx : c.logicalX.length = c.nLogicalQubits := evensOf_length _ he
  have lz : c.logicalZ.length = c.nLogicalQubits := oddsOf_length _ he
  have hk : 1 ≤ c.nLogicalQubits := by unfold StabCode.nLogicalQubits; omega
  have nx : c.logicalX ≠ [] := by rw [← List.length_pos_iff]; omega
  have nz : c.logicalZ ≠ [] := by rw [← List.length_pos_iff]; omega
  have gx : ∀ i, c.logicalX[i]? = c.logicalOps[2 * i]? := evensOf_get _
  have gz : ∀ i, c.logicalZ[i]? = c.logicalOps[2 * i + 1]? := oddsOf_get _
  have key : c.check = .ok () ↔
      (∀ (i j : Nat) (a b : Op n), c.logicalX[i]? = some a → c.logicalZ[j]? = some b → commSign a b = if i = j then 1 else 0) ∧
      (∀ a ∈ c.logicalX, ∀ b ∈ c.logicalX, commSign a b = 0) ∧
      (∀ a ∈ c.logicalZ, ∀ b ∈ c.logicalZ, commSign a b = 0) ∧
      (∀ a ∈ c.stabilisers, ∀ b ∈ c.logicalOps, commSign a b = 0) ∧
      (∀ a ∈ c.stabilisers, ∀ b ∈ c.stabilisers, commSign a b = 0) := by
    rw [← commTable_eye _ _ _ lx lz, ← commTable_zero, ← commTable_zero, ← commTable_zero, ← commTable_zero]
    unfold StabCode.check
    rw [if_neg (by simp [hs, nx, nz])]
    by_cases h1 : commTable c.logicalX c.logicalZ =
      (List.range c.nLogicalQubits).map (fun i => (List.range c.nLogicalQubits).map fun j => if i = j then 1 else 0)
    · rw [if_neg (by simpa using h1)]
      cases h2 : (commTable c.logicalX c.logicalX).any fun r => r.any (· ≠ 0) <;>
      cases h3 : (commTable c.logicalZ c.logicalZ).any fun r => r.any (· ≠ 0) <;>
      cases h4 : (commTable c.stabilisers c.logicalOps).any fun r => r.any (· ≠ 0) <;>
      cases h5 : (commTable c.stabilisers c.stabilisers).any fun r => r.any (· ≠ 0) <;>
      simp [h1]
    · rw [if_pos h1]
      simp [h1]
  rw [key]
  constructor
  · rintro ⟨h1, h2, h3, h4, h5⟩
    refine ⟨fun a ha b hb => (commSign_zero_iff a b).mp (h5 a ha b hb), fun a ha b hb => (commSign_zero_iff a b).mp (h4 a ha b hb), ?_⟩
    intro i j a b hi hj
    rcases Nat.even_or_odd' i with ⟨i', rfl | rfl⟩ <;> rcases Nat.even_or_odd' j with ⟨j', rfl | rfl⟩
    · rw [if_neg (by omega), ← commSign_zero_iff]
      exact h2 a (List.mem_of_getElem? ((gx _).trans hi)) b (List.mem_of_getElem? ((gx _).trans hj))
    · have := h1 i' j' a b ((gx _).trans hi) ((gz _).trans hj)
      by_cases hij : i' = j'
      · rw [if_pos (by omega), ← commSign_one_iff, this, if_pos hij]
      · rw [if_neg (by omega), ← commSign_zero_iff, this, if_neg hij]
    · have := h1 j' i' b a ((gx _).trans hj) ((gz _).trans hi)
      rw [commSign_eq, anti_symm, ← commSign_eq] at this
      by_cases hij : i' = j'
      · rw [if_pos (by omega), ← commSign_one_iff, this, if_pos hij.symm]
      · rw [if_neg (by omega), ← commSign_zero_iff, this, if_neg (Ne.symm hij)]
    · rw [if_neg (by omega), ← commSign_zero_iff]
      exact h3 a (List.mem_of_getElem? ((gz _).trans hi)) b (List.mem_of_getElem? ((gz _).trans hj))
  · intro hv
    refine ⟨?_, ?_, ?_, fun a ha b hb => (commSign_zero_iff a b).mpr (hv.stab_log a ha b hb),
      fun a ha b hb => (commSign_zero_iff a b).mpr (hv.stab_stab a ha b hb)⟩
    · intro i j a b hi hj
      rw [gx] at hi
      rw [gz] at hj
      have := hv.log_log _ _ a b hi hj
      by_cases hij : i = j
      · rw [if_pos (by omega)] at this
        rw [if_pos hij, commSign_one_iff]; exact this
      · rw [if_neg (by omega)] at this
        rw [if_neg hij, commSign_zero_iff]; exact this
    · intro a ha b hb
      obtain ⟨i, hi⟩ := List.mem_iff_getElem?.mp ha
      obtain ⟨j, hj⟩ := List.mem_iff_getElem?.mp hb
      rw [gx] at hi hj
      have := hv.log_log _ _ a b hi hj
      rw [if_neg (by omega)] at this
      exact (commSign_zero_iff a b).mpr this
    · intro a ha b hb
      obtain ⟨i, hi⟩ := List.mem_iff_getElem?.mp ha
      obtain ⟨j, hj⟩ := List.mem_iff_getElem?.mp hb
      rw [gz] at hi hj
      have := hv.log_log _ _ a b hi hj
      rw [if_neg (by omega)] at this
      exact (commSign_zero_iff a b).mpr this

theorem sameSize_length {n : Nat} (l : List AnyOp) {r : List (Op n)} (h : sameSize n l = .ok r) : r.length = l.length := by
  induction l generalizing r with
  | nil => simp only [sameSize, Except.ok.injEq] at h; subst h; rfl
  | cons a l ih =>
    obtain ⟨m, o⟩ := a
    unfold sameSize at h
    split at h
    · rename_i hm
      cases hr : sameSize n l with
      | error e => simp [hr] at h
      | ok r' =>
        simp only [hr, Except.ok.injEq] at h
        subst h
        simp [ih hr]
    · simp at h

theorem mkStabCode_shape {ss ls : List AnyOp} {c : StabCode n} (h : mkStabCode ss ls = .ok ⟨n, c⟩) :
    c.stabilisers ≠ [] ∧ c.logicalOps ≠ [] ∧ c.logicalOps.length % 2 = 0 := by
  unfold mkStabCode at h
  split at h
  · simp at h
  · rename_i m o ss'
    split at h
    · simp at h
    · rename_i hev
      split at h
      · simp at h
      · rename_i m' o' ls' 
        split at h
        · simp at h
        · split at h
          · rename_i a b h1 h2
            simp only [Except.ok.injEq, Sigma.mk.injEq] at h
            obtain ⟨rfl, h⟩ := h
            have h := eq_of_heq h
            subst h
            have l1 := sameSize_length _ h1
            have l2 := sameSize_length _ h2
            simp only [List.length_cons] at l1 l2 hev
            refine ⟨?_, ?_, ?_⟩
            · rw [← List.length_pos_iff]; dsimp only; omega
            · rw [← List.length_pos_iff]; dsimp only; omega
            · dsimp only; omega
          · simp at h
          · simp at h

/-! ### `logical_ops_to_indices` -/

theorem mapLoop_zipIdx (s : List Char) (k : Nat) (h : ∀ c ∈ s, c = 'X' ∨ c = 'Z') :
    mapLoop selIndex (s.zipIdx k) = .ok ((s.zipIdx k).map fun e => if e.1 = 'X' then 2 * (e.2 : Int) else 2 * e.2 + 1) := by
  induction s generalizing k with
  | nil => rfl
  | cons c s ih =>
    rw [List.zipIdx_cons, mapLoop, ih _ (fun d hd => h d (by simp [hd]))]
    rcases h c (by simp) with rfl | rfl <;> simp [selIndex]

theorem mapLoop_zipIdx_err (s : List Char) (k : Nat) (h : ¬ ∀ c ∈ s, c = 'X' ∨ c = 'Z') :
    mapLoop selIndex (s.zipIdx k) = .error .valueError := by
  induction s generalizing k with
  | nil => simp at h
  | cons c s ih =>
    rw [List.zipIdx_cons, mapLoop]
    by_cases hc : c = 'X' ∨ c = 'Z'
    · rw [ih (k + 1) (by intro hall; apply h; intro d hd; rcases List.mem_cons.mp hd with rfl | hd; exacts [hc, hall d hd])]
      rcases hc with rfl | rfl <;> simp [selIndex]
    · push Not at hc
      simp [selIndex, hc.1, hc.2]

end Plaquette
