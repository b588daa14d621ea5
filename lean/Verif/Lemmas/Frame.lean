import Verif.Model.Decoder
import Verif.Lemmas.SynMain
import Verif.Lemmas.UFSpan
import Verif.Lemmas.Multiply

/-!
# The Pauli frame of a selection of edges
-/

namespace Plaquette
variable {W : Type} {n : Nat}

/-! ## Sums -/

theorem xsum_filter (l : List Nat) (p f : Nat → Bool) : xsum (l.filter p) f = xsum l fun i => p i && f i := by
  induction l with
  | nil => rfl
  | cons a l ih =>
    rw [List.filter_cons, xsum_cons]
    cases hp : p a
    · simp [ih]
    · simp [ih]

theorem xsum_map (l : List Nat) (g : Nat → Nat) (f : Nat → Bool) : xsum (l.map g) f = xsum l fun i => f (g i) := by
  induction l with
  | nil => rfl
  | cons a l ih => rw [List.map_cons, xsum_cons, xsum_cons, ih]

theorem xsum_perm {l k : List Nat} (h : l.Perm k) (f : Nat → Bool) : xsum l f = xsum k f := by
  induction h with
  | nil => rfl
  | cons a _ ih => rw [xsum_cons, xsum_cons, ih]
  | swap a b l => simp only [xsum_cons]; generalize f a = x; generalize f b = y; generalize xsum l f = z; revert x y z; decide
  | trans _ _ ih1 ih2 => rw [ih1, ih2]

/-- Only the members of `k` count. -/
theorem xsum_subset {l k : List Nat} (hl : l.Nodup) (hk : k.Nodup) (hsub : ∀ i ∈ k, i ∈ l) {f : Nat → Bool}
    (hf : ∀ i ∈ l, i ∉ k → f i = false) : xsum l f = xsum k f := by
  have hp : (l.filter (· ∈ k)).Perm k := by
    rw [List.perm_ext_iff_of_nodup (hl.filter _) hk]
    intro i
    rw [List.mem_filter]
    simp only [decide_eq_true_eq]
    exact ⟨fun h => h.2, fun h => ⟨hsub i h, h⟩⟩
  rw [← xsum_perm hp, xsum_filter]
  refine xsum_congr fun i hi => ?_
  by_cases hik : i ∈ k
  · simp [hik]
  · simp [hik, hf i hi hik]

theorem range_getD (l : List Nat) : (List.range l.length).map (fun j => l.getD j 0) = l := by
  refine List.ext_getElem (by simp) fun i h1 h2 => ?_
  simp [List.getD_eq_getElem?_getD, h2]

/-! ## Anticommutation -/

theorem sgn_injective {a b : Bool} (h : sgn a = sgn b) : a = b := by
  cases a <;> cases b <;> simp [sgn] at h ⊢ <;> norm_num at h

theorem anti_add {p a b m : Op n} (hx : ∀ q, p.x q = (a.x q ^^ b.x q)) (hz : ∀ q, p.z q = (a.z q ^^ b.z q)) :
    anti p m = (anti a m ^^ anti b m) := by
  refine sgn_injective ?_
  rw [sgn_xor, sgn_anti, sgn_anti, sgn_anti, ← Finset.prod_mul_distrib]
  refine Finset.prod_congr rfl fun q _ => ?_
  rw [← sgn_xor, hx, hz]
  congr 1
  unfold antiBit
  generalize a.x q = x1; generalize a.z q = x2; generalize b.x q = x3; generalize b.z q = x4; generalize m.x q = x5; generalize m.z q = x6
  revert x1 x2 x3 x4 x5 x6; decide

theorem anti_zero {p m : Op n} (hx : ∀ q, p.x q = false) (hz : ∀ q, p.z q = false) : anti p m = false := by
  refine sgn_injective ?_
  rw [sgn_anti]
  refine Finset.prod_eq_one fun q _ => ?_
  rw [hx, hz]; simp [antiBit]

theorem anti_foldr (m : Op n) : ∀ (ops : List (Op n)) (p : Op n), (∀ q, p.x q = ops.foldr (fun o acc => o.x q ^^ acc) false) →
    (∀ q, p.z q = ops.foldr (fun o acc => o.z q ^^ acc) false) → anti p m = ops.foldr (fun o acc => anti o m ^^ acc) false := by
  intro ops
  induction ops with
  | nil => intro p hx hz; exact anti_zero hx hz
  | cons o ops ih =>
    intro p hx hz
    have := ih ⟨fun q => ops.foldr (fun o acc => o.x q ^^ acc) false, fun q => ops.foldr (fun o acc => o.z q ^^ acc) false, false⟩
      (fun _ => rfl) (fun _ => rfl)
    rw [List.foldr_cons, ← this]
    exact anti_add hx hz

/-! ## The frame -/

/-- The index of the error operator of an edge. -/
def EdgeKind.op : EdgeKind → Option Nat
  | .qubit _ o _ _ => some o
  | .stab _ _ => none

/-- The edge with index `i` stands for the error operator with index `o`. -/
def opIs (es : List (SEdge W)) (i o : Nat) : Bool :=
  match es[i]? with
  | some e => decide (e.kind.op = some o)
  | none => false

theorem modify_getD (l : List Bool) (o o' : Nat) (b : Bool) (h : o < l.length) :
    (l.modify o fun x => x ^^ b).getD o' false = (l.getD o' false ^^ (decide (o = o') && b)) := by
  rw [List.getD_eq_getElem?_getD, List.getD_eq_getElem?_getD, List.getElem?_modify]
  by_cases ho : o = o'
  · subst ho
    rw [List.getElem?_eq_getElem h]
    simp
  · simp [ho]

theorem opSelection_aux (res : Nat → Bool) (N : Nat) : ∀ (l : List (SEdge W × Nat)) (sel : List Bool), sel.length = N →
    (∀ e ∈ l, ∀ o, e.1.kind.op = some o → o < N) →
    (l.foldl (selectOp res) sel).length = N ∧ ∀ o, (l.foldl (selectOp res) sel).getD o false =
      (sel.getD o false ^^ l.foldr (fun e b => (res e.2 && decide (e.1.kind.op = some o)) ^^ b) false) := by
  intro l
  induction l with
  | nil => intro sel h _; exact ⟨h, fun o => by simp⟩
  | cons e l ih =>
    intro sel h hl
    have hstep : (selectOp res sel e).length = N ∧ ∀ o, (selectOp res sel e).getD o false = (sel.getD o false ^^ (res e.2 && decide (e.1.kind.op = some o))) := by
      unfold selectOp
      have h2 := hl e (by simp)
      cases hk : e.1.kind with
      | qubit t o' q x =>
        rw [hk] at h2
        have h3 := h2 o' rfl
        refine ⟨by simp [h], fun o => ?_⟩
        dsimp only
        rw [modify_getD _ _ _ _ (by rw [h]; exact h3)]
        simp [EdgeKind.op, Bool.and_comm]
      | stab t s =>
        exact ⟨h, fun o => by simp [EdgeKind.op]⟩
    obtain ⟨h1, h2⟩ := ih (selectOp res sel e) hstep.1 (fun e' he' => hl e' (List.mem_cons_of_mem _ he'))
    refine ⟨h1, fun o => ?_⟩
    rw [List.foldl_cons, h2 o, hstep.2 o, List.foldr_cons, Bool.xor_assoc]

theorem foldr_zipIdx (es : List (SEdge W)) (res : Nat → Bool) (o : Nat) : ∀ k : Nat, ∀ (l : List (SEdge W)), (∀ i, es[k + i]? = l[i]?) →
    (l.zipIdx k).foldr (fun e b => (res e.2 && decide (e.1.kind.op = some o)) ^^ b) false =
      xsum (List.range' k l.length) fun i => res i && opIs es i o := by
  intro k l
  induction l generalizing k with
  | nil => intro _; rfl
  | cons e l ih =>
    intro h
    have h0 := h 0
    rw [Nat.add_zero, List.getElem?_cons_zero] at h0
    rw [List.zipIdx_cons, List.foldr_cons, ih (k + 1) (fun i => by
      have := h (i + 1)
      rw [List.getElem?_cons_succ] at this
      rw [← this]; congr 1; omega), List.length_cons, List.range'_succ, xsum_cons]
    simp only [opIs, h0]

/-- Which error operators are selected. -/
theorem opSelection_spec {g : SynGraph W} (hop : ∀ (e : SEdge W), e ∈ g.edges → ∀ o, e.kind.op = some o → o < 2 * n) (res : Nat → Bool) :
    (opSelection g n res).length = 2 * n ∧
    ∀ o, (opSelection g n res).getD o false = xsum (List.range g.edges.length) fun i => res i && opIs g.edges i o := by
  unfold opSelection
  have hN : (errorOps n).length = 2 * n := errorOps_len
  obtain ⟨h1, h2⟩ := opSelection_aux res (2 * n) g.edges.zipIdx (List.replicate (errorOps n).length false) (by simp [hN]) (by
    rintro ⟨e, i⟩ he o ho
    have := List.mem_zipIdx he
    exact hop e (by rw [this.2.2]; exact List.getElem_mem _) o ho)
  refine ⟨h1, fun o => ?_⟩
  rw [h2 o]
  have hr : (List.replicate (errorOps n).length false).getD o false = false := by
    rw [List.getD_eq_getElem?_getD, List.getElem?_replicate]
    split <;> rfl
  rw [hr, Bool.false_xor, foldr_zipIdx g.edges res o 0 g.edges (fun i => by rw [Nat.zero_add]), List.range_eq_range']

/-- Whether the error operator with that index anticommutes with an operator. -/
def opAnti (m : Op n) (o : Nat) : Bool :=
  match (errorOps n)[o]? with
  | some l => anti (singleOp false l.1 l.2) m
  | none => false

theorem foldr_ops (m : Op n) : ∀ l : List Nat,
    (l.filterMap fun i => ((errorOps n)[i]?).map fun o => singleOp false o.1 o.2).foldr (fun o acc => anti o m ^^ acc) false = xsum l (opAnti m) := by
  intro l
  induction l with
  | nil => rfl
  | cons a l ih =>
    rw [List.filterMap_cons, xsum_cons]
    unfold opAnti
    cases h : (errorOps n)[a]? with
    | none => simp only [Option.map_none]; rw [ih, Bool.false_xor]; rfl
    | some o => simp only [Option.map_some, List.foldr_cons]; rw [ih]; rfl

/-- The frame always exists; an operator anticommutes with it iff it does so with an odd number of the errors selected. -/
theorem pauliFrame_spec {g : SynGraph W} (hop : ∀ (e : SEdge W), e ∈ g.edges → ∀ o, e.kind.op = some o → o < 2 * n) (res : Nat → Bool) :
    ∃ p : Op n, pauliFrame g n res = .ok p ∧ ∀ m, anti p m = xsum (List.range g.edges.length) fun i =>
      res i && xsum (List.range (2 * n)) fun o => opIs g.edges i o && opAnti m o := by
  obtain ⟨h1, h2⟩ := opSelection_spec hop res
  have key : ∀ m : Op n, xsum (whereTrue (opSelection g n res)) (opAnti m) = xsum (List.range g.edges.length) fun i =>
      res i && xsum (List.range (2 * n)) fun o => opIs g.edges i o && opAnti m o := by
    intro m
    unfold whereTrue
    rw [xsum_filter, h1]
    have : xsum (List.range (2 * n)) (fun o => (opSelection g n res).getD o false && opAnti m o) =
        xsum (List.range (2 * n)) (fun o => xsum (List.range g.edges.length) fun i => res i && (opIs g.edges i o && opAnti m o)) := by
      refine xsum_congr fun o _ => ?_
      rw [h2 o, Bool.and_comm, ← xsum_and]
      refine xsum_congr fun i _ => ?_
      generalize opAnti m o = a; generalize res i = b; generalize opIs g.edges i o = c
      revert a b c; decide
    rw [this, xsum_comm]
    exact xsum_congr fun i _ => xsum_and _ _ _
  have hF := fun m : Op n => foldr_ops m (whereTrue (opSelection g n res))
  unfold pauliFrame
  generalize hops : ((whereTrue (opSelection g n res)).filterMap fun i => ((errorOps n)[i]?).map fun o => singleOp false o.1 o.2) = ops at hF ⊢
  cases ops with
  | nil =>
    refine ⟨idOp n, by simp only [hops], fun m => ?_⟩
    rw [← key, ← hF m]
    exact anti_zero (fun _ => rfl) (fun _ => rfl)
  | cons a ops =>
    have hm : ∃ p ph, multiply (a :: ops) = .ok (p, ph) := by
      cases ops with
      | nil => exact ⟨a, _, by simp [multiply, multiplyRev]; rfl⟩
      | cons b ops => exact multiply_total _ (by simp)
    obtain ⟨p, ph, hp⟩ := hm
    refine ⟨p, by simp only [hops, hp], fun m => ?_⟩
    rw [← key, ← hF m]
    exact anti_foldr m _ p (fun q => (multiply_bits_aux _ p ph hp q).1) (fun q => (multiply_bits_aux _ p ph hp q).2)

end Plaquette
