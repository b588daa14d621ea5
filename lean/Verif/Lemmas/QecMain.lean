import Verif.Lemmas.QecCircuit
import Verif.Lemmas.Sample
import Verif.Lemmas.CodeProps
import Verif.Lemmas.CircuitCount

/-!
# Runs of a generated circuit without errors
-/

namespace Plaquette
variable {F : Type} {n : Nat} {api : FloatApi F} {rng : Rng F} {L : Lattice}

/-- The gates of the direct measurement of logical operators. -/
def Lattice.directGates (L : Lattice) (as : List Pos) : List (Name × List (Val F)) :=
  as.flatMap fun a => (L.opEdges a).flatMap fun e =>
    if e.factor = .X then [g1 .H (L.idx e.data), g1 .M (L.idx e.data)] else [g1 .M (L.idx e.data)]

/-- The code object of a lattice. -/
abbrev Lattice.latCode (L : Lattice) (r : Nat) : LatCode := { lattice := L, nRounds := r, n := L.dataqubits.length, code := L.code }

/-- The position of a selected logical operator. -/
def Lattice.selPos (L : Lattice) (i : Int) : Pos := ((L.logicals[i.toNat]?).map Prod.fst).getD (0, 0)

theorem Gen.Quiet.logical {G : Gen F} (h : G.Quiet) (hY : ∀ e ∈ G.lat.edges, e.factor ≠ .Y) (i : Int)
    (hi : i.toNat < G.lat.logicals.length) :
    G.measureLogical api i = .ok ((if G.logicalAncilla then G.lat.logGates [G.lat.selPos i] else
      G.lat.directGates [G.lat.selPos i]).map toGate) := by
  unfold Gen.measureLogical Lattice.selPos
  rw [List.getElem?_eq_getElem hi]
  dsimp only [Option.map_some, Option.getD_some]
  cases G.logicalAncilla with
  | true =>
    rw [if_neg (by simp), h.op false _ hY, if_pos rfl]
    unfold Lattice.logGates
    simp only [List.flatMap_cons, List.flatMap_nil, List.append_nil]
  | false =>
    simp only [Bool.not_false, if_true, Bool.false_eq_true, if_false]
    rw [forE_ok _ (fun e => (if e.factor = .X then [g1 .H (G.lat.idx e.data), g1 .M (G.lat.idx e.data)] else
      [g1 .M (G.lat.idx e.data)]).map toGate)]
    · unfold Lattice.directGates
      simp only [List.flatMap_cons, List.flatMap_nil, List.append_nil, List.map_flatMap]
    · intro e he
      unfold Gen.measureFactor
      cases hf : e.factor with
      | X => simp only [h.one .H (by simp), h.one .M (by simp)]; rfl
      | Y => exact absurd hf (hY e (List.mem_filter.mp he).1)
      | Z => simp only [h.one .M (by simp)]; rfl

/-- The circuit of the selected logical operators without errors. -/
def Lattice.quietGates (L : Lattice) (anc : Bool) (r : Nat) (as : List Pos) : List (Name × List (Val F)) :=
  (if anc then L.logGates as else L.directGates as) ++ (List.replicate (r - 1 + 2) L.roundGates).flatten ++
    (if anc then L.logGates as else L.directGates as)

theorem indices_inv {m : Nat} {sel : LogicalSel} {is : List Int} (h : logicalOpsToIndices m sel = .ok is) :
    is.length = m / 2 ∧ ∀ i ∈ is, 0 ≤ i ∧ i < m := by
  have key : ∀ x : Except Err (List Int), (match x with
      | .error e => Except.error e
      | .ok l =>
        if l.length ≠ m / 2 then .error .valueError
        else if l.any fun i => i < 0 ∨ i ≥ m then .error .valueError
        else .ok l) = Except.ok is → is.length = m / 2 ∧ ∀ i ∈ is, 0 ≤ i ∧ i < m := by
    intro x hx
    cases x with
    | error e => simp at hx
    | ok l =>
      dsimp only at hx
      split at hx
      · simp at hx
      · split at hx
        · simp at hx
        · rename_i hl hr
          simp only [Except.ok.injEq] at hx
          subst hx
          simp only [List.any_eq_true, decide_eq_true_eq, not_exists, not_and, not_or, not_lt, ge_iff_le, not_le] at hr
          exact ⟨by simpa using hl, hr⟩
  exact key _ h

/-- The statements of `get_circuit` without errors. -/
theorem quiet_parts {qe ge : List (List Char × ErrDict F)} {anc : Bool} {r : Nat} (h : (⟨L.latCode r, qe, ge, anc⟩ : Gen F).Quiet)
    (hY : ∀ e ∈ L.edges, e.factor ≠ .Y) {is : List Int} (h2 : ∀ i ∈ is, 0 ≤ i ∧ i < L.logicals.length) :
    let G : Gen F := ⟨L.latCode r, qe, ge, anc⟩
    catE (G.measureLogicals api is)
      (catE (G.measureStabgens api false)
        (catE (repeatE (catE (G.applyDataErrors api) (G.measureStabgens api true)) (r - 1))
          (catE (G.applyDataErrors api)
            (catE (G.measureStabgens api false) (G.measureLogicals api is))))) =
      .ok ((L.quietGates anc r (is.map L.selPos)).map toGate) := by
  intro G
  have hlat : (⟨L.latCode r, qe, ge, anc⟩ : Gen F).lat = L := rfl
  have hlog : G.measureLogicals api is =
      .ok ((if anc then L.logGates (is.map L.selPos) else L.directGates (is.map L.selPos)).map toGate) := by
    unfold Gen.measureLogicals
    rw [forE_ok _ _ is fun i hi' => h.logical hY i (by rw [hlat]; have := h2 i hi'; omega)]
    cases anc with
    | true =>
      simp only [if_true, Lattice.logGates, List.flatMap_cons, List.flatMap_nil, List.append_nil, List.flatMap_map,
        List.map_flatMap]
      rfl
    | false =>
      simp only [Bool.false_eq_true, if_false, Lattice.directGates, List.flatMap_cons, List.flatMap_nil, List.append_nil,
        List.flatMap_map, List.map_flatMap]
      rfl
  have hst : ∀ w, G.measureStabgens api w = .ok ((L.roundGates).map toGate) :=
    fun w => h.stabgens w hY
  rw [hlog, hst, hst, h.data]
  simp only [catE_ok, repeatE_ok, List.nil_append]
  unfold Lattice.quietGates
  have e : List.replicate (r - 1 + 2) (L.roundGates : List (Name × List (Val F))) =
      L.roundGates :: (List.replicate (r - 1) L.roundGates ++ [L.roundGates]) := by
    rw [List.replicate_succ, List.replicate_succ']
  rw [e]
  simp only [List.map_append, List.map_flatten, List.flatten_cons, List.flatten_append, List.flatten_nil, List.map_cons,
    List.map_nil, List.map_replicate, List.append_nil, List.append_assoc]

theorem quiet_circuit {G : Gen F} (h : G.Quiet) {r : Nat} (hcode : G.code = L.latCode r) (hw : L.Wf)
    (hY : ∀ e ∈ L.edges, e.factor ≠ .Y) {sel : LogicalSel} {c : List (Gate F)} (hc : G.getCircuit api sel = .ok c) :
    ∃ is, logicalOpsToIndices L.logicals.length sel = .ok is ∧ is.length = L.logicals.length / 2 ∧
      (∀ i ∈ is, 0 ≤ i ∧ i < L.logicals.length) ∧
      (∀ i ∈ is, ∀ j ∈ is, antiE (L.opEdges (L.selPos i)) (L.opEdges (L.selPos j)) = false) ∧
      c = (L.quietGates G.logicalAncilla r (is.map L.selPos)).map toGate := by
  obtain ⟨code, qe, ge, anc⟩ := G
  obtain rfl : code = L.latCode r := hcode
  have hlat : (⟨L.latCode r, qe, ge, anc⟩ : Gen F).lat = L := rfl
  have hlen : (L.latCode r).code.logicalOps.length = L.logicals.length := by
    show (L.logicals.map _).length = _
    simp
  unfold Gen.getCircuit at hc
  dsimp only at hc
  rw [hlen] at hc
  cases hi : logicalOpsToIndices L.logicals.length sel with
  | error e => rw [hi] at hc; simp at hc
  | ok is =>
    rw [hi] at hc
    dsimp only at hc
    obtain ⟨h1, h2⟩ := indices_inv hi
    have hml : mapLoop (getItem L.code.logicalOps) is = .ok (is.map fun i => L.vop (L.selPos i)) := by
      refine mapLoop_ok is ?_
      intro i hi'
      obtain ⟨k1, k2⟩ := h2 i hi'
      have hlt : i.toNat < L.logicals.length := by omega
      unfold getItem Lattice.selPos Lattice.code
      dsimp only
      rw [List.getElem?_map, List.getElem?_eq_getElem hlt]
      rfl
    rw [hml] at hc
    dsimp only at hc
    cases hct : (commTable (is.map fun i => L.vop (L.selPos i)) (is.map fun i => L.vop (L.selPos i))).any fun r => r.any (· ≠ 0) with
    | true => rw [if_pos (by exact hct)] at hc; simp at hc
    | false =>
      rw [if_neg (by rw [Bool.not_eq_true]; exact hct)] at hc
      refine ⟨is, rfl, h1, h2, ?_, ?_⟩
      · intro i hi' j hj'
        rw [commTable_zero] at hct
        have := hct _ (List.mem_map_of_mem hi') _ (List.mem_map_of_mem hj')
        rw [commSign_zero_iff, commutes_iff, hw.anti_vop] at this
        exact this
      · have := quiet_parts (api := api) h hY h2
        dsimp only at this
        rw [this] at hc
        simp only [Except.ok.injEq] at hc
        exact hc.symm

/-- The selections for which there is a circuit. -/
theorem quiet_circuit_ok {G : Gen F} (h : G.Quiet) {r : Nat} (hcode : G.code = L.latCode r) (hw : L.Wf)
    (hY : ∀ e ∈ L.edges, e.factor ≠ .Y) {sel : LogicalSel} {is : List Int}
    (hi : logicalOpsToIndices L.logicals.length sel = .ok is)
    (hcom : ∀ i ∈ is, ∀ j ∈ is, antiE (L.opEdges (L.selPos i)) (L.opEdges (L.selPos j)) = false) :
    G.getCircuit api sel = .ok ((L.quietGates G.logicalAncilla r (is.map L.selPos)).map toGate) := by
  obtain ⟨code, qe, ge, anc⟩ := G
  obtain rfl : code = L.latCode r := hcode
  have hlen : (L.latCode r).code.logicalOps.length = L.logicals.length := by
    show (L.logicals.map _).length = _
    simp
  obtain ⟨h1, h2⟩ := indices_inv hi
  have hml : mapLoop (getItem L.code.logicalOps) is = .ok (is.map fun i => L.vop (L.selPos i)) := by
    refine mapLoop_ok is ?_
    intro i hi'
    obtain ⟨k1, k2⟩ := h2 i hi'
    have hlt : i.toNat < L.logicals.length := by omega
    unfold getItem Lattice.selPos Lattice.code
    dsimp only
    rw [List.getElem?_map, List.getElem?_eq_getElem hlt]
    rfl
  have hct : ((commTable (is.map fun i => L.vop (L.selPos i)) (is.map fun i => L.vop (L.selPos i))).any fun r => r.any (· ≠ 0)) = false := by
    rw [commTable_zero]
    intro a ha b hb
    obtain ⟨i, hi', rfl⟩ := List.mem_map.mp ha
    obtain ⟨j, hj', rfl⟩ := List.mem_map.mp hb
    rw [commSign_zero_iff, commutes_iff, hw.anti_vop]
    exact hcom i hi' j hj'
  unfold Gen.getCircuit
  dsimp only
  rw [hlen, hi]
  dsimp only
  rw [hml]
  dsimp only
  rw [if_neg (by rw [Bool.not_eq_true]; exact hct)]
  exact quiet_parts h hY h2

/-! ### Running the gates -/

/-- One of the gates of a circuit without errors. -/
def PlainGate (g : Name × List (Val F)) : Prop :=
  (∃ nm i, (nm = .H ∨ nm = .R ∨ nm = .M) ∧ g = g1 nm i) ∨ (∃ nm i j, (nm = .CX ∨ nm = .CZ) ∧ i ≠ j ∧ g = g2 nm i j)

theorem PlainGate.proper {g : Name × List (Val F)} (h : PlainGate g) : g.1.isError = false := by
  rcases h with ⟨nm, i, h, rfl⟩ | ⟨nm, i, j, h, _, rfl⟩
  · rcases h with rfl | rfl | rfl <;> rfl
  · rcases h with rfl | rfl <;> rfl

theorem PlainGate.two {g : Name × List (Val F)} (h : PlainGate g) : TwoOk g.1 g.2 := by
  rcases h with ⟨nm, i, h, rfl⟩ | ⟨nm, i, j, h, hij, rfl⟩
  · rcases h with rfl | rfl | rfl <;> simp [TwoOk, g1]
  · intro _
    simp only [g2, PairsDiffer, and_true]
    intro hc
    simp only [Val.int.injEq] at hc
    exact hij (by omega)

theorem PlainGate.runnable {g : Name × List (Val F)} (h : PlainGate g)
    (hf : ∀ i : Int, Val.int i ∈ (toGate g).qubits → i < n) : Runnable n api rng g.1 g.2 := by
  rcases h with ⟨nm, i, h, rfl⟩ | ⟨nm, i, j, h, hij, rfl⟩
  · have hi : i < n := by
      have := hf i (by rcases h with rfl | rfl | rfl <;> simp [toGate, g1, Gate.qubits, targetsOf])
      omega
    have e : ([.int (i : Int)] : List (Val F)) = qArgs [(⟨i, hi⟩ : Fin n)] := rfl
    unfold g1
    rw [e]
    rcases h with rfl | rfl | rfl
    · exact .h _
    · exact .r _
    · exact .m _
  · have hi : i < n := by
      have := hf i (by rcases h with rfl | rfl <;> simp [toGate, g2, Gate.qubits, targetsOf])
      omega
    have hj : j < n := by
      have := hf j (by rcases h with rfl | rfl <;> simp [toGate, g2, Gate.qubits, targetsOf])
      omega
    have e : ([.int (i : Int), .int (j : Int)] : List (Val F)) = pairArgs [((⟨i, hi⟩ : Fin n), (⟨j, hj⟩ : Fin n))] := rfl
    unfold g2
    rw [e]
    have hne : ∀ p ∈ [((⟨i, hi⟩ : Fin n), (⟨j, hj⟩ : Fin n))], p.1 ≠ p.2 := by
      simpa using hij
    rcases h with rfl | rfl
    · exact .cx _ hne
    · exact .cz _ hne

theorem vrun_plain {gs : List (Name × List (Val F))} {σ σ' : VState n}
    (h : VRun api rng (gs.map fun g => Block.gate g.1 g.2) σ σ') : VGates api rng gs σ σ' := by
  induction gs generalizing σ with
  | nil => cases h; exact .nil _
  | cons g gs ih => cases h with
    | gate h1 h2 => exact .cons h1 (ih h2)

/-- A circuit of plain gates runs, and its run is a run on vectors. -/
theorem plain_run {gs : List (Name × List (Val F))} (hp : ∀ g ∈ gs, PlainGate g) (hf : FitsIn (gs.map toGate) n) {S : Sim n}
    {σ : VState n} (hS : S.Is σ) :
    ∃ S' σ', S.runGates api rng (gs.map toGate) = .ok S' ∧ VGates api rng gs σ σ' ∧ S'.Is σ' := by
  have e : gs.map toGate = flatten (gs.map fun g => Block.gate g.1 g.2) := by
    unfold flatten
    rw [List.flatMap_map, List.map_eq_flatMap]
    rfl
  have hgates : ∀ b ∈ gs.map (fun g => Block.gate g.1 g.2), b.Proper ∧ ∀ g' ∈ b.gates, PlainGate g' ∧ g' ∈ gs := by
    intro b hb
    obtain ⟨g, hg, rfl⟩ := List.mem_map.mp hb
    refine ⟨(hp g hg).proper, fun g' hg' => ?_⟩
    have : g' = g := List.mem_singleton.mp hg'
    subst this
    exact ⟨hp g' hg, hg⟩
  obtain ⟨S', h1, _⟩ := run_total api rng hS.1 (gs.map fun g => Block.gate g.1 g.2) (fun b hb g hg => by
    obtain ⟨k1, k2⟩ := (hgates b hb).2 g hg
    exact k1.runnable (hf _ (List.mem_map_of_mem k2)))
  obtain ⟨σ', h2, h3⟩ := run_is api rng hS (fun b hb => (hgates b hb).1) (fun b hb g hg => ((hgates b hb).2 g hg).1.two) h1
  exact ⟨S', σ', by rw [e]; exact h1, vrun_plain h2, h3⟩

theorem block_plain {idx : Pos → Nat} {as : List Pos} {es : List LEdge} (h : BlockOk idx as es) :
    ∀ g ∈ (blockGates idx as es : List (Name × List (Val F))), PlainGate g := by
  intro g hg
  unfold blockGates at hg
  rcases List.mem_append.mp hg with hg | hg
  · obtain ⟨a, _, hg⟩ := List.mem_flatMap.mp hg
    simp only [List.mem_cons, List.not_mem_nil, or_false] at hg
    rcases hg with rfl | rfl
    · exact .inl ⟨.R, a, by simp, rfl⟩
    · exact .inl ⟨.H, a, by simp, rfl⟩
  · rcases List.mem_append.mp hg with hg | hg
    · obtain ⟨e, he, rfl⟩ := List.mem_map.mp hg
      refine .inr ?_
      unfold ctl
      split
      · exact ⟨.CX, _, _, by simp, h.apart _ (h.op e he) e he, rfl⟩
      · exact ⟨.CZ, _, _, by simp, h.apart _ (h.op e he) e he, rfl⟩
    · obtain ⟨a, _, hg⟩ := List.mem_flatMap.mp hg
      simp only [List.mem_cons, List.not_mem_nil, or_false] at hg
      rcases hg with rfl | rfl
      · exact .inl ⟨.H, a, by simp, rfl⟩
      · exact .inl ⟨.M, a, by simp, rfl⟩

theorem quiet_plain (hw : L.Wf) (hc : L.Comm) (hs : L.Sched) (anc : Bool) (r : Nat) (as : List Pos) (has : ∀ a ∈ as, a ∈ L.ancillas) :
    ∀ g ∈ (L.quietGates anc r as : List (Name × List (Val F))), PlainGate g := by
  have h1 : ∀ g ∈ (L.logGates as : List (Name × List (Val F))), PlainGate g := by
    intro g hg
    obtain ⟨a, ha, hg⟩ := List.mem_flatMap.mp hg
    exact block_plain (single_ok hw hs.noY (has a ha)) g hg
  have h2 : ∀ g ∈ (L.directGates as : List (Name × List (Val F))), PlainGate g := by
    intro g hg
    obtain ⟨a, ha, hg⟩ := List.mem_flatMap.mp hg
    obtain ⟨e, he, hg⟩ := List.mem_flatMap.mp hg
    split at hg
    · simp only [List.mem_cons, List.not_mem_nil, or_false] at hg
      rcases hg with rfl | rfl
      · exact .inl ⟨.H, _, by simp, rfl⟩
      · exact .inl ⟨.M, _, by simp, rfl⟩
    · rw [List.mem_singleton.mp hg]
      exact .inl ⟨.M, _, by simp, rfl⟩
  have h3 : ∀ g ∈ (L.roundGates : List (Name × List (Val F))), PlainGate g := by
    intro g hg
    obtain ⟨b, hb, hg⟩ := List.mem_flatMap.mp hg
    exact block_plain (stabBlocks_ok hw hc hs b hb) g hg
  have h4 : ∀ g ∈ (if anc then L.logGates as else L.directGates as : List (Name × List (Val F))), PlainGate g := by
    cases anc
    · simpa using h2
    · simpa using h1
  intro g hg
  unfold Lattice.quietGates at hg
  rcases List.mem_append.mp hg with hg | hg
  · rcases List.mem_append.mp hg with hg | hg
    · exact h4 g hg
    · obtain ⟨l, hl, hg⟩ := List.mem_flatten.mp hg
      rw [(List.mem_replicate.mp hl).2] at hg
      exact h3 g hg
  · exact h4 g hg

/-- With ancillas for the logical operators: every operator has the same result whenever it is measured. -/
theorem quiet_results_anc (hw : L.Wf) (hc : L.Comm) (hs : L.Sched) (hn : L.dataqubits.length ≤ n) (r : Nat) (as : List Pos)
    (has : ∀ a ∈ as, a ∈ L.logicals.map Prod.fst) (hcom : ∀ a ∈ as, ∀ b ∈ as, antiE (L.opEdges a) (L.opEdges b) = false)
    {σ σ' : VState n} (h : VGates api rng (L.quietGates true r as) σ σ') (h0 : σ.ψ ≠ 0) :
    σ'.erasure = σ.erasure ∧ ∃ f : Pos → Bool, σ'.meas = σ.meas ++ (as.map f ++
      (List.replicate (r - 1 + 2) ((L.stabgens.map Prod.fst).map f)).flatten ++ as.map f) := by
  have has' : ∀ a ∈ as, a ∈ L.ancillas := fun a ha => List.mem_append_right _ (has a ha)
  have hst : ∀ a ∈ (List.replicate (r - 1 + 2) (L.stabgens.map Prod.fst)).flatten, a ∈ L.stabgens.map Prod.fst := by
    intro a ha
    obtain ⟨l, hl, ha⟩ := List.mem_flatten.mp ha
    rwa [(List.mem_replicate.mp hl).2] at ha
  have hsl : ∀ a ∈ L.stabgens.map Prod.fst, ∀ b ∈ as, antiE (L.opEdges a) (L.opEdges b) = false := by
    intro a ha b hb
    obtain ⟨s, hs', rfl⟩ := List.mem_map.mp ha
    obtain ⟨t, ht, rfl⟩ := List.mem_map.mp (has b hb)
    exact hc.stab_log s hs' t ht
  have hl := logs_measures (api := api) (rng := rng) hw hs hn as has' hcom
  have hM : Measures api rng (L.quietGates true r as) ((as ++ (List.replicate (r - 1 + 2) (L.stabgens.map Prod.fst)).flatten ++ as).map (L.lop n))
      ((as ++ (List.replicate (r - 1 + 2) (L.stabgens.map Prod.fst)).flatten ++ as).map L.idx) := by
    unfold Lattice.quietGates
    simp only [if_true, List.map_append]
    have id' : ∀ (bs cs : List Pos), (∀ c ∈ cs, c ∈ L.ancillas) → ∀ p ∈ bs.map (L.lop n), ∀ i ∈ cs.map L.idx, p.IdAt i := by
      intro bs cs hcs p hp i hi
      obtain ⟨b, _, rfl⟩ := List.mem_map.mp hp
      obtain ⟨c, hc', rfl⟩ := List.mem_map.mp hi
      exact lop_idAt hw (hcs c hc')
    refine Measures.append (Measures.append hl (rounds_measures hw hc hs hn _) ?_ ?_) hl ?_ ?_
    · intro p hp q hq
      obtain ⟨a, ha, rfl⟩ := List.mem_map.mp hp
      obtain ⟨b, hb, rfl⟩ := List.mem_map.mp hq
      rw [anti_lop hw hn, antiE_symm]
      exact hsl b (hst b hb) a ha
    · exact id' _ _ fun c hc' => stab_anc (hst c hc')
    · intro p hp q hq
      obtain ⟨b, hb, rfl⟩ := List.mem_map.mp hq
      rcases List.mem_append.mp hp with hp | hp
      · obtain ⟨a, ha, rfl⟩ := List.mem_map.mp hp
        rw [anti_lop hw hn]
        exact hcom a ha b hb
      · obtain ⟨a, ha, rfl⟩ := List.mem_map.mp hp
        rw [anti_lop hw hn]
        exact hsl a (hst a ha) b hb
    · rw [← List.map_append]
      exact id' _ _ has'
  obtain ⟨h1, h2, ⟨ms, h3, h4⟩, _⟩ := hM σ σ' h h0
  obtain ⟨f, hf, _⟩ := values_of_labels _ h1 h4
  refine ⟨h2, f, ?_⟩
  rw [h3, hf, List.map_append, List.map_append, List.map_flatten, List.map_replicate]

end Plaquette
