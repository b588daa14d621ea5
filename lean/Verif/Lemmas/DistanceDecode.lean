import Verif.Spec.FaultLetters
import Verif.Lemmas.CorrectedCode
import Verif.Lemmas.FabricationDecode
import Verif.Lemmas.MatchingGood

/-!
# Fewer faults than half the distance: lemmas (C126)
-/

namespace Plaquette
variable {n : Nat} {W σ : Type} [LinearOrder W] {isInf : W → Bool} {r : Nat} {stabs : List (Op n)} {g : SynGraph W}

/-- The enabled edges that stand for the faults. -/
theorem rep_explain {f : Faults n} {syn : Option (List (List Bool))} (hf : f.Shows r stabs syn)
    (h : mkSynGraph isInf r stabs none = .ok g) (hsyn : ShapeOk r stabs.length syn) :
    EdgesExplain g r stabs.length ((Finset.range g.edges.length).filter fun i => repEdge g (f.edge g) i = true) syn := by
  obtain ⟨qs, es, k, hB⟩ := mkSynGraph_built h
  obtain ⟨sy, _, hbit⟩ := arrayOr_ok hsyn
  have hbd0 := hf.bd h hbit
  have hlen : g.verts.length = g.edges.length := by simp [SynGraph.verts]
  have hbdx : ∀ v, v < r * stabs.length → bd g.verts (repEdge g (f.edge g)) v = vertexSyndrome g sy v := by
    intro v hv
    rw [← hbd0 v hv]
    unfold bd
    rw [hlen]
    refine repEdge_sum h (fun j e _ hje hv => ?_) (fun j e _ hje hv i e' hie hv' _ => ?_)
    · rw [touches_some (verts_get hje), hv]; simp
    · rw [touches_some (verts_get hje), touches_some (verts_get hie), hv']
  refine ⟨?_, ?_⟩
  · intro i hi
    rw [Finset.mem_filter, Finset.mem_range] at hi
    obtain ⟨h1, h2, _⟩ := repEdge_true (List.getElem?_eq_getElem hi.1) hi.2
    exact ⟨_, List.getElem?_eq_getElem hi.1, h1, h2⟩
  · intro t ht s hs
    have hv : t * stabs.length + s < r * stabs.length := by
      have : (t + 1) * stabs.length ≤ r * stabs.length := Nat.mul_le_mul_right _ ht
      rw [Nat.add_mul] at this; omega
    rw [← hbit]
    have h1 := hbdx _ hv
    have h2 : vertexSyndrome g sy (t * stabs.length + s) = at2 sy t s := by
      unfold vertexSyndrome
      rw [hB.nStab]
      have hm : 0 < stabs.length := by omega
      rw [Nat.mul_comm, Nat.mul_add_div hm, Nat.div_eq_of_lt hs, Nat.mul_add_mod, Nat.mod_eq_of_lt hs, Nat.add_zero]
    rw [← h2, ← h1, bd_odd]
    have : ∀ (A B : Set Nat), A = B → (Odd A.ncard ↔ Odd B.ncard) := by rintro A _ rfl; rfl
    refine this _ _ ?_
    ext i
    simp only [Set.mem_ofPred_eq, hlen, List.getElem?_map, Finset.mem_filter, Finset.mem_range]
    constructor
    · rintro ⟨⟨hi, hx⟩, e, he, hm⟩
      exact ⟨by rw [List.getElem?_range hi]; simpa using hx, e.vertices, verts_get he, hm⟩
    · rintro ⟨hx, vs, hvs, hm⟩
      have hi : i < g.edges.length := by rw [← hlen]; exact (List.getElem?_eq_some_iff.1 hvs).1
      rw [List.getElem?_range hi] at hx
      have h3 := verts_get (List.getElem?_eq_getElem hi)
      rw [h3] at hvs
      cases hvs
      exact ⟨⟨hi, by simpa using hx⟩, _, List.getElem?_eq_getElem hi, hm⟩

/-- An edge is known by its kind. -/
theorem kind_unique (h : mkSynGraph isInf r stabs none = .ok g) {i j : Nat} {e e' : SEdge W} (hi : g.edges[i]? = some e) (hj : g.edges[j]? = some e')
    (hk : e.kind = e'.kind) : i = j := by
  rcases edge_cases h hi with ⟨t, o, l, _, _, hkd, _⟩ | ⟨t, s, _, _, hkd, _⟩
  · rw [(qubit_idx h hi hkd).1, (qubit_idx h hj (hk ▸ hkd)).1]
  · rw [(stab_idx h hi hkd).1, (stab_idx h hj (hk ▸ hkd)).1]

/-- There are not more edges that stand for the faults than letters. -/
theorem rep_card (f : Faults n) (h : mkSynGraph isInf r stabs none = .ok g) :
    ((Finset.range g.edges.length).filter fun i => repEdge g (f.edge g) i = true).card ≤ f.letters r stabs.length := by
  classical
  set sel := (Finset.range g.edges.length).filter fun i => repEdge g (f.edge g) i = true with hsel
  set A : Set (Nat × Fin n) := {p | p.1 < r ∧ (f.data p.1).x p.2 = true} with hA
  set B : Set (Nat × Fin n) := {p | p.1 < r ∧ (f.data p.1).z p.2 = true} with hB
  set C : Set (Nat × Nat) := {p | p.1 < r ∧ p.2 < stabs.length ∧ f.meas p.1 p.2} with hC
  have fA : A.Finite := pairs_finite _
  have fB : B.Finite := pairs_finite _
  have fC : C.Finite := pairs_finite' _
  let K : Set EdgeKind := (fun p : Nat × Fin n => EdgeKind.qubit p.1 p.2.val p.2.val true) '' A ∪
    (fun p : Nat × Fin n => EdgeKind.qubit p.1 (n + p.2.val) p.2.val false) '' B ∪ (fun p : Nat × Nat => EdgeKind.stab (p.1 + 1) p.2) '' C
  have fK : K.Finite := ((fA.image _).union (fB.image _)).union (fC.image _)
  have hK : K.ncard ≤ A.ncard + B.ncard + C.ncard :=
    (Set.ncard_union_le _ _).trans (Nat.add_le_add ((Set.ncard_union_le _ _).trans (Nat.add_le_add (Set.ncard_image_le fA) (Set.ncard_image_le fB)))
      (Set.ncard_image_le fC))
  have key : ∀ i ∈ (sel : Set Nat), ∃ k ∈ K, ∃ (j : Nat) (e e' : SEdge W), g.edges[i]? = some e ∧ e.enabled = true ∧ e.vertices ≠ [] ∧
      g.edges[j]? = some e' ∧ e'.kind = k ∧ e'.vertices = e.vertices := by
    intro i hi
    rw [Finset.mem_coe, hsel, Finset.mem_filter, Finset.mem_range] at hi
    have hie := List.getElem?_eq_getElem hi.1
    obtain ⟨h1, h2, j, e', h3, h4, h5⟩ := repEdge_true hie hi.2
    refine ⟨e'.kind, ?_, j, _, e', hie, h1, h2, h3, rfl, h5⟩
    rcases edge_cases h h3 with ⟨t, o, l, ht, hl, hkd, _⟩ | ⟨t, s, ht, hs, hkd, _⟩
    · rw [f.edge_qubit h3 hkd] at h4
      unfold opBit at h4
      simp only [hl] at h4
      have ho := (errorOps_idx hl).1
      rw [hkd]
      by_cases hx : (l.1 == .X) = true
      · rw [if_pos hx] at h4 ho
        exact .inl (.inl ⟨(t, l.2), ⟨ht, h4⟩, by simp only [ho, hx]⟩)
      · rw [if_neg hx] at h4 ho
        exact .inl (.inr ⟨(t, l.2), ⟨ht, h4⟩, by simp only [ho, Bool.not_eq_true _ |>.mp hx]⟩)
    · rw [f.edge_stab h3 hkd, decide_eq_true_eq, Nat.add_sub_cancel] at h4
      rw [hkd]
      exact .inr ⟨(t, s), ⟨by simp only; omega, hs, h4⟩, rfl⟩
  have : Nonempty EdgeKind := ⟨.stab 0 0⟩
  choose! k hk hk' using key
  rw [← Set.ncard_coe_finset]
  refine (Set.ncard_le_ncard_of_injOn k hk (fun i hi i' hi' heq => ?_) fK).trans hK
  obtain ⟨j, e, e', a1, a2, a3, a4, a5, a6⟩ := hk' i hi
  obtain ⟨j', c, c', b1, b2, b3, b4, b5, b6⟩ := hk' i' hi'
  have hj := kind_unique h a4 b4 (by rw [a5, b5, heq])
  subst hj
  rw [a4] at b4; cases b4
  exact enabled_unique h a1 b1 (by rw [← a6, b6]) a3 a2 b2

/-- The errors of all rounds together. -/
def Faults.total (f : Faults n) (r : Nat) : Op n := (List.range r).foldr (fun t a => mulOp (f.data t) a) (idOp n)

theorem foldr_anti (f : Faults n) (m : Op n) (l : List Nat) :
    anti (l.foldr (fun t a => mulOp (f.data t) a) (idOp n)) m = xsum l fun t => anti (f.data t) m := by
  induction l with
  | nil => simp
  | cons a l ih => rw [List.foldr_cons, anti_mul_left, ih, xsum_cons]

theorem foldr_acts (f : Faults n) (q : Fin n) (l : List Nat) (h : ((l.foldr (fun t a => mulOp (f.data t) a) (idOp n)).x q ||
    (l.foldr (fun t a => mulOp (f.data t) a) (idOp n)).z q) = true) : ∃ t ∈ l, ((f.data t).x q || (f.data t).z q) = true := by
  induction l with
  | nil => simp [idOp] at h
  | cons a l ih =>
    by_cases ha : ((f.data a).x q || (f.data a).z q) = true
    · exact ⟨a, List.mem_cons_self, ha⟩
    · rw [Bool.or_eq_true, not_or, Bool.not_eq_true, Bool.not_eq_true] at ha
      rw [List.foldr_cons] at h
      obtain ⟨t, ht, h2⟩ := ih (by simpa [mulOp, mul2, ha.1, ha.2] using h)
      exact ⟨t, List.mem_cons_of_mem _ ht, h2⟩

theorem weight_ncard (a : Op n) : a.weight = Set.ncard {q : Fin n | (a.x q || a.z q) = true} := by
  have : {q : Fin n | (a.x q || a.z q) = true} = (((List.finRange n).filter fun q => a.x q || a.z q).toFinset : Set (Fin n)) := by
    ext q; simp
  rw [this, Set.ncard_coe_finset, List.toFinset_card_of_nodup ((List.nodup_finRange n).filter _), Op.weight, List.countP_eq_length_filter]

omit [LinearOrder W] in
/-- The product of the errors of some edges acts on at most as many qubits. -/
theorem product_weight {sel : Finset Nat} {p : Op n} (hp : EdgesProduct g sel p) : Set.ncard {q : Fin n | (p.x q || p.z q) = true} ≤ sel.card := by
  have key : ∀ q ∈ {q : Fin n | (p.x q || p.z q) = true}, ∃ i ∈ sel, ∃ (e : SEdge W) (t o : Nat) (b : Bool), g.edges[i]? = some e ∧ e.kind = .qubit t o q.val b := by
    intro q hq
    rw [Set.mem_ofPred_eq, Bool.or_eq_true, (hp q).1, (hp q).2] at hq
    rcases hq with hq | hq
    · obtain ⟨i, hi, e, t, o, h1, h2⟩ := Set.nonempty_of_ncard_ne_zero (fun h => by rw [h] at hq; simp at hq)
      exact ⟨i, hi, e, t, o, true, h1, h2⟩
    · obtain ⟨i, hi, e, t, o, h1, h2⟩ := Set.nonempty_of_ncard_ne_zero (fun h => by rw [h] at hq; simp at hq)
      exact ⟨i, hi, e, t, o, false, h1, h2⟩
  choose! i hi hi' using key
  rw [← Set.ncard_coe_finset]
  refine Set.ncard_le_ncard_of_injOn i (fun q hq => hi q hq) (fun q hq q' hq' heq => ?_) (Finset.finite_toSet _)
  obtain ⟨e, t, o, b, h1, h2⟩ := hi' q hq
  obtain ⟨e', t', o', b', h1', h2'⟩ := hi' q' hq'
  rw [heq, h1'] at h1; cases h1
  rw [h2', EdgeKind.qubit.injEq] at h2
  exact Fin.ext h2.2.2.1.symm

theorem total_weight (f : Faults n) (r : Nat) : Set.ncard {q : Fin n | ((f.total r).x q || (f.total r).z q) = true} ≤ f.errors r := by
  have key : ∀ q ∈ {q : Fin n | ((f.total r).x q || (f.total r).z q) = true}, ∃ t, t < r ∧ ((f.data t).x q || (f.data t).z q) = true := by
    intro q hq
    obtain ⟨t, ht, h⟩ := foldr_acts f q _ hq
    exact ⟨t, List.mem_range.1 ht, h⟩
  choose! t ht using key
  exact Set.ncard_le_ncard_of_injOn (fun q => (t q, q)) (fun q hq => ht q hq) (fun q _ q' _ heq => (Prod.mk.inj heq).2) (pairs_finite _)

omit [LinearOrder W] in
/-- The correction together with the errors. -/
theorem residual_weight {f : Faults n} {sel : Finset Nat} {p : Op n} (hp : EdgesProduct g sel p) (r : Nat) :
    (mulOp p (f.total r)).weight ≤ sel.card + f.errors r := by
  rw [weight_ncard]
  refine (Set.ncard_le_ncard (t := {q : Fin n | (p.x q || p.z q) = true} ∪ {q : Fin n | ((f.total r).x q || (f.total r).z q) = true}) (fun q hq => ?_)
    (Set.toFinite _)).trans ((Set.ncard_union_le _ _).trans (Nat.add_le_add (product_weight hp) (total_weight f r)))
  simp only [Set.mem_ofPred_eq, Set.mem_union, mulOp, mul2, Bool.or_eq_true] at hq ⊢
  revert hq
  cases p.x q <;> cases p.z q <;> cases (f.total r).x q <;> cases (f.total r).z q <;> simp

/-- A correction with the right syndrome whose product with the errors is too light for a logical operator corrects the errors. -/
theorem light_corrected {code : StabCode n} {d : Nat} (hd : ∀ e, code.IsLogical e → d ≤ e.weight) {f : Faults n} {p : Op n}
    (hp : f.Corrected r code.stabilisers p) (hw : (mulOp p (f.total r)).weight < d) : f.Corrected r code.logicalOps p := by
  have key : ∀ l, anti p l = (xsum (List.range r) fun t => anti (f.data t) l) ↔ anti l (mulOp p (f.total r)) = false := by
    intro l
    rw [anti_mul_right, anti_symm l p, anti_symm l, Faults.total, foldr_anti]
    cases anti p l <;> cases (xsum (List.range r) fun t => anti (f.data t) l) <;> simp
  intro l hl
  rw [corrected_iff, key]
  by_contra hne
  refine absurd (hd (mulOp p (f.total r)) ⟨fun a ha => ?_, l, hl, ?_⟩) (by omega)
  · rw [commutes_iff, ← key, ← corrected_iff]
    exact hp a ha
  · rw [anticommutes_iff]
    simpa using hne

theorem errors_le_letters (f : Faults n) (r m : Nat) : f.errors r ≤ f.letters r m := by
  have h1 : {p : Nat × Fin n | p.1 < r ∧ ((f.data p.1).x p.2 || (f.data p.1).z p.2) = true} ⊆
      {p : Nat × Fin n | p.1 < r ∧ (f.data p.1).x p.2 = true} ∪ {p : Nat × Fin n | p.1 < r ∧ (f.data p.1).z p.2 = true} := by
    rintro p ⟨hp, h⟩
    rcases Bool.or_eq_true _ _ ▸ h with h | h
    · exact .inl ⟨hp, h⟩
    · exact .inr ⟨hp, h⟩
  exact ((Set.ncard_le_ncard h1 ((pairs_finite _).union (pairs_finite _))).trans (Set.ncard_union_le _ _)).trans (Nat.le_add_right _ _)

end Plaquette
