import Verif.Lemmas.Layout

/-!
# The results of a generated circuit in blocks
-/

namespace Plaquette
variable {F : Type} {api : FloatApi F} {L : Lattice}

/-- The qubits measured for a logical operator. -/
def Lattice.logicalBlock (L : Lattice) (anc : Bool) (i : Int) : List Nat :=
  if anc then [L.idx (L.selPos i)] else (L.opEdges (L.selPos i)).map fun e => L.idx e.data

/-- The qubits measured in one round. -/
def Lattice.stabRow (L : Lattice) : List Nat := L.stabgens.map fun s => L.idx s.1

theorem make_inv {code : LatCode} {qe ge : List (List Char × ErrDict F)} {anc : Bool} {G : Gen F} (h : Gen.make code qe ge anc = .ok G) :
    G.code = code ∧ G.logicalAncilla = anc ∧ G.qubitErrors = setDefaults qubitErrorNames qe := by
  unfold Gen.make at h
  split at h
  · simp at h
  split at h
  · simp at h
  dsimp only at h
  split at h
  · simp at h
  simp only [Except.ok.injEq] at h
  subst h
  exact ⟨rfl, rfl, rfl⟩

theorem generate_inv {code : LatCode} {qe ge : List (List Char × ErrDict F)} {sel : LogicalSel} {anc : Bool} {circ : List (Gate F)}
    (h : generateCircuit api code qe ge sel anc = .ok circ) :
    ∃ G : Gen F, G.code = code ∧ G.logicalAncilla = anc ∧ G.qubitErrors = setDefaults qubitErrorNames qe ∧ G.getCircuit api sel = .ok circ := by
  unfold generateCircuit at h
  split at h
  · cases h
  · next G hG => exact ⟨G, (make_inv hG).1, (make_inv hG).2.1, (make_inv hG).2.2, h⟩

theorem replicate_around {α : Type} (row : List α) {r : Nat} (hr : 1 ≤ r) :
    row ++ ((List.replicate (r - 1) row).flatten ++ row) = (List.replicate (r + 1) row).flatten := by
  have h1 : r + 1 = (r - 1) + 1 + 1 := by omega
  rw [h1, List.replicate_succ, List.flatten_cons, List.replicate_succ', List.flatten_append]
  simp

theorem measured_layout {r : Nat} (hr : 1 ≤ r) {qe ge : List (List Char × ErrDict F)} {sel : LogicalSel} {anc : Bool} {circ : List (Gate F)}
    (h : generateCircuit api (L.latCode r) qe ge sel anc = .ok circ) :
    ∃ is, logicalOpsToIndices L.logicals.length sel = .ok is ∧ measuredQubits circ =
      (((is.map (L.logicalBlock anc)).flatten ++ (List.replicate (r + 1) L.stabRow).flatten ++ (is.map (L.logicalBlock anc)).flatten).map fun (a : Nat) => Val.int (a : Int)) := by
  obtain ⟨G, hG, hanc, _, hc⟩ := generate_inv h
  obtain ⟨is, his, hm⟩ := Gen.emits_circuit (f := fun g => if g.name = .M then g.args else []) (by intro n vs h1 _; simp [h1])
    (fun _ _ _ => rfl) (.int 0) hc
  have hlat : G.lat = L := by unfold Gen.lat; rw [hG]
  have hmI : ∀ l : List Nat, Gen.mImage (F := F) (fun g => if g.name = .M then g.args else []) l = l.map fun (a : Nat) => Val.int (a : Int) := by
    intro l
    unfold Gen.mImage
    induction l with
    | nil => rfl
    | cons a l ih => rw [List.flatMap_cons, ih]; rfl
  have heI : G.eImage (F := F) (fun g => if g.name = .M then g.args else []) (.int 0) = [] := by
    unfold Gen.eImage
    rw [List.flatMap_eq_nil_iff]
    intro v _
    split <;> rfl
  refine ⟨is, ?_, ?_⟩
  · rw [← his, hG]; simp [Lattice.latCode, Lattice.code]
  · unfold measuredQubits
    rw [hm, heI]
    simp only [hmI, List.nil_append]
    have hb : G.logicalBlock = L.logicalBlock anc := by
      funext i; unfold Gen.logicalBlock Lattice.logicalBlock; rw [hlat, hanc]
    rw [hb, hlat, show (L.stabgens.map fun s => L.idx s.1) = L.stabRow from rfl, show G.code.nRounds = r from by rw [hG], List.flatMap_def]
    rw [← replicate_around L.stabRow hr]
    simp only [List.map_append, List.append_assoc, List.map_flatten, List.map_replicate]

/-- A list can be cut like another list of the same total length. -/
theorem split_like {α β : Type} (ls : List (List α)) : ∀ raw : List β, raw.length = ls.flatten.length →
    ∃ bs : List (List β), bs.flatten = raw ∧ bs.map List.length = ls.map List.length := by
  induction ls with
  | nil => intro raw h; exact ⟨[], (List.length_eq_zero_iff.1 h).symm, rfl⟩
  | cons a ls ih =>
    intro raw h
    rw [List.flatten_cons, List.length_append] at h
    obtain ⟨bs, h1, h2⟩ := ih (raw.drop a.length) (by rw [List.length_drop]; omega)
    exact ⟨raw.take a.length :: bs, by rw [List.flatten_cons, h1, List.take_append_drop], by simp [h2, List.length_take]; omega⟩

theorem split_three {α β : Type} {as bs cs : List (List α)} {raw : List β} (h : raw.length = (as.flatten ++ bs.flatten ++ cs.flatten).length) :
    ∃ x y z : List (List β), raw = x.flatten ++ y.flatten ++ z.flatten ∧ x.map List.length = as.map List.length ∧ y.map List.length = bs.map List.length ∧
      z.map List.length = cs.map List.length := by
  obtain ⟨w, h1, h2⟩ := split_like (as ++ bs ++ cs) raw (by rw [h]; simp [List.flatten_append])
  rw [List.map_append, List.map_append, List.append_assoc] at h2
  obtain ⟨x, w', rfl, hx, hw'⟩ := List.map_eq_append_iff.1 h2
  obtain ⟨y, z, rfl, hy, hz⟩ := List.map_eq_append_iff.1 hw'
  exact ⟨x, y, z, by rw [← h1]; simp [List.flatten_append], hx, hy, hz⟩

theorem parity_single (b : Bool) : parity [b] = b := by cases b <;> rfl

/-- All flat lists of blocks of one entry. -/
theorem flatten_parity {bs : List (List Bool)} (h : ∀ b ∈ bs, b.length = 1) : bs.flatten = bs.map parity := by
  induction bs with
  | nil => rfl
  | cons b bs ih =>
    obtain ⟨a, rfl⟩ := List.length_eq_one_iff.1 (h b List.mem_cons_self)
    rw [List.flatten_cons, ih fun c hc => h c (List.mem_cons_of_mem _ hc), List.map_cons, parity_single]; rfl

theorem fromRaw_blocks (hw : L.Wf) (hf : L.Full) {r : Nat} {anc : Bool} {sel : LogicalSel} {is : List Int} (his : logicalOpsToIndices L.logicals.length sel = .ok is)
    (hwt : anc = true ∨ ∀ l, L.logicals[0]? = some l → ∀ i ∈ is, (L.opEdges (L.selPos i)).length = (L.opEdges l.1).length)
    {inits rounds finals : List (List Bool)} (hi : inits.map List.length = (is.map (L.logicalBlock anc)).map List.length)
    (hr : rounds.map List.length = (List.replicate (r + 1) L.stabRow).map List.length) (hfi : finals.map List.length = (is.map (L.logicalBlock anc)).map List.length)
    (erased : Option (List (List Bool))) (he : ∀ e, erased = some e → e.length = r ∧ ∀ row ∈ e, row.length = L.dataqubits.length) :
    Sample.fromRaw (L.latCode r) (inits.flatten ++ rounds.flatten ++ finals.flatten) (erased.map List.flatten) anc =
      .ok (sampleOf (inits.map parity) (finals.map parity) rounds erased) := by
  obtain ⟨hlen, hb⟩ := indices_inv his
  have hk : (L.latCode r).code.nLogicalQubits = L.logicals.length / 2 := by simp [StabCode.nLogicalQubits, Lattice.code]
  have hpos : 1 ≤ L.logicals.length / 2 := by
    have h1 := hf.log_even
    have h2 := List.length_pos_iff.mpr hf.log_ne
    omega
  have hil : inits.length = L.logicals.length / 2 := by have := congrArg List.length hi; simp only [List.length_map] at this; rw [this, hlen]
  have hfl : finals.length = L.logicals.length / 2 := by have := congrArg List.length hfi; simp only [List.length_map] at this; rw [this, hlen]
  have hrl : rounds.length = r + 1 := by have := congrArg List.length hr; simpa using this
  have hrow : ∀ row ∈ rounds, row.length = (L.latCode r).code.stabilisers.length := by
    intro row hrow
    have := List.mem_map_of_mem (f := List.length) hrow
    rw [hr, List.map_replicate] at this
    rw [List.eq_of_mem_replicate this]
    simp [Lattice.stabRow, Lattice.latCode, Lattice.code]
  refine fromRaw_of_split (L.latCode r) _ anc _ _ _ erased ?_ hrl hrow he
  have hblock : ∀ bs : List (List Bool), bs.map List.length = (is.map (L.logicalBlock anc)).map List.length → ∀ b ∈ bs, ∃ i ∈ is, b.length = (L.logicalBlock anc i).length := by
    intro bs hbs b hb
    have := List.mem_map_of_mem (f := List.length) hb
    rw [hbs, List.map_map] at this
    obtain ⟨i, hi, h⟩ := List.mem_map.1 this
    exact ⟨i, hi, h.symm⟩
  cases anc with
  | true =>
    have h1 : ∀ bs : List (List Bool), bs.map List.length = (is.map (L.logicalBlock true)).map List.length → bs.flatten = bs.map parity := by
      intro bs hbs
      refine flatten_parity fun b hb => ?_
      obtain ⟨i, _, h⟩ := hblock bs hbs b hb
      rw [h]; rfl
    rw [h1 _ hi, h1 _ hfi]
    exact split_anc _ _ _ _ (by rw [hk, List.length_map, hil]) (by rw [hk, List.length_map, hfl]) (by rw [hk]; exact hpos)
  | false =>
    have hwt := hwt.resolve_left (by simp)
    obtain ⟨l, ls, hls⟩ := List.exists_cons_of_ne_nil hf.log_ne
    have hfw : firstWeight (L.latCode r).code = .ok (L.opEdges l.1).length := by
      have := hw.weight l.1
      unfold Op.weight at this
      have e : (L.latCode r).code.logicalOps = L.vop l.1 :: ls.map fun s => L.vop s.1 := by simp [Lattice.code, hls]
      unfold firstWeight
      rw [e]
      dsimp only
      rw [this]
    have hl1 : 1 ≤ (L.opEdges l.1).length := List.length_pos_iff.mpr (hf.log l (by rw [hls]; simp))
    have h1 : ∀ bs : List (List Bool), bs.map List.length = (is.map (L.logicalBlock false)).map List.length → ∀ b ∈ bs, b.length = (L.opEdges l.1).length := by
      intro bs hbs b hb
      obtain ⟨i, hi, h⟩ := hblock bs hbs b hb
      rw [h, ← hwt l (by rw [hls]; rfl) i hi]
      simp [Lattice.logicalBlock]
    exact split_direct (L.latCode r) _ hfw hl1 inits finals _ (by rw [hk]; exact hil) (by rw [hk]; exact hfl) (h1 _ hi) (h1 _ hfi) (by rw [hk]; exact hpos)

/-! ### The statement in terms of the code -/

theorem idxOf_mid {α : Type} [BEq α] [LawfulBEq α] (a b c : List α) (h : (a ++ b ++ c).Nodup) (i : Nat) (hi : i < b.length) :
    (a ++ b ++ c).idxOf b[i] = a.length + i := by
  have h1 : (a ++ b ++ c)[a.length + i]'(by simp; omega) = b[i] := by
    simp [List.getElem_append, hi]
  rw [← h1]
  exact List.Nodup.idxOf_getElem h _ _

theorem stabRow_eq (hw : L.Wf) (r : Nat) : L.stabRow = stabBlock (L.latCode r) := by
  unfold Lattice.stabRow stabBlock
  refine List.ext_getElem (by simp [Lattice.code]) fun i h1 h2 => ?_
  have h3 : i < L.stabgens.length := by simpa using h1
  have := idxOf_mid _ _ _ hw.occ i (by simpa using h3)
  rw [List.getElem_map] at this
  have he : L.idx (L.stabgens[i]).1 = L.dataqubits.length + i := by
    unfold Lattice.idx
    rw [hw.indexed]
    exact this
  rw [List.getElem_map, List.getElem_map, List.getElem_range, he]

theorem logicalBlock_eq (hw : L.Wf) (r : Nat) (anc : Bool) {i : Int} (h0 : 0 ≤ i) (hi : i < L.logicals.length) :
    LogicalBlock (L.latCode r) anc i (L.logicalBlock anc i) := by
  have hn : i.toNat < L.logicals.length := by omega
  have hsel : L.selPos i = (L.logicals[i.toNat]).1 := by simp [Lattice.selPos, List.getElem?_eq_getElem hn]
  unfold LogicalBlock Lattice.logicalBlock
  cases anc with
  | true =>
    simp only [if_true, List.cons.injEq, and_true]
    rw [hsel]
    unfold Lattice.idx
    rw [hw.indexed]
    have := idxOf_mid (L.dataqubits ++ L.stabgens.map Prod.fst) (L.logicals.map Prod.fst) [] (by rw [List.append_nil]; exact hw.occ) i.toNat (by simpa using hn)
    rw [List.append_nil, List.getElem_map] at this
    unfold Lattice.occupied
    rw [this]
    simp [Lattice.code]
  | false =>
    simp only [Bool.false_eq_true, if_false]
    refine ⟨hw.op_idx_nodup _, fun q => ?_⟩
    have hop : (L.latCode r).code.logicalOps[i.toNat]? = some (L.vop (L.selPos i)) := by
      simp [Lattice.code, hsel, List.getElem?_eq_getElem hn]
    constructor
    · intro hq
      obtain ⟨e, he, rfl⟩ := List.mem_map.1 hq
      refine ⟨hw.idx_lt (hw.op_data he), _, hop, ?_⟩
      rw [Lattice.vop, edgesOp_supp _ _ (hw.op_idx_nodup _)]
      exact decide_eq_true hq
    · rintro ⟨hq, op, h1, h2⟩
      rw [hop, Option.some.injEq] at h1
      subst h1
      rw [Lattice.vop, edgesOp_supp _ _ (hw.op_idx_nodup _)] at h2
      exact of_decide_eq_true h2

theorem layout_of (hw : L.Wf) {r : Nat} (hr : 1 ≤ r) {qe ge : List (List Char × ErrDict F)} {sel : LogicalSel} {anc : Bool} {circ : List (Gate F)}
    (h : generateCircuit api (L.latCode r) qe ge sel anc = .ok circ) :
    ∃ is, logicalOpsToIndices L.logicals.length sel = .ok is ∧ MeasureLayout (L.latCode r) sel anc circ (is.map (L.logicalBlock anc)) := by
  obtain ⟨is, h1, h2⟩ := measured_layout hr h
  refine ⟨is, h1, ⟨is, by simpa [Lattice.code] using h1, ?_⟩, by rw [h2, stabRow_eq hw r]⟩
  rw [List.forall₂_map_right_iff]
  obtain ⟨_, hb⟩ := indices_inv h1
  rw [List.forall₂_same]
  exact fun i hi => logicalBlock_eq hw r anc (hb i hi).1 (hb i hi).2

theorem unpacked_of (hw : L.Wf) (r : Nat) {inits rounds finals : List (List Bool)} {lq : List (List Nat)} (hi : inits.map List.length = lq.map List.length)
    (hf : finals.map List.length = lq.map List.length) (hr : rounds.map List.length = (List.replicate (r + 1) L.stabRow).map List.length)
    (erased : Option (List (List Bool))) : Unpacked (L.latCode r) lq (inits.flatten ++ rounds.flatten ++ finals.flatten)
      (sampleOf (inits.map parity) (finals.map parity) rounds erased) := by
  have hrl : rounds.length = r + 1 := by have := congrArg List.length hr; simpa using this
  refine ⟨⟨inits, rounds, finals, rfl, hi, hf, ?_, rfl, rfl, rfl⟩, rfl, ?_, ?_⟩
  · rw [hr, List.map_replicate, stabRow_eq hw r]; simp [stabBlock]
  · simp [sampleOf, hrl]
  · intro t row row' h1 h2
    have h1 : rounds[t]? = some row := h1
    have h2 : rounds[t + 1]? = some row' := h2
    have h3 : t + 1 < rounds.length := by
      by_contra hc
      rw [List.getElem?_eq_none (by omega)] at h2
      cases h2
    show (List.zipWith xorL rounds.tail rounds.dropLast)[t]? = _
    rw [List.getElem?_zipWith, List.getElem?_tail, h2, List.getElem?_dropLast, if_pos (by omega), h1]
    rfl

theorem measured_number (c : List (Gate F)) : numberMeasured c = (measuredQubits c).length := by
  rw [numberMeasured_sum, measuredQubits, List.length_flatMap]
  congr 1
  refine List.map_congr_left fun g _ => ?_
  unfold nMeas
  split <;> rfl

/-! ### Erasures -/

theorem dictGet_append {K V : Type} [DecidableEq K] (a b : List (K × V)) (k : K) : dictGet (a ++ b) k = (dictGet a k).or (dictGet b k) := by
  unfold dictGet
  rw [List.find?_append]
  cases a.find? _ <;> simp

theorem erasable_iff {G : Gen F} {qe : List (List Char × ErrDict F)} (h : G.qubitErrors = setDefaults qubitErrorNames qe) (q : Nat) :
    G.erasable q = true ↔ ErasureEntry qe q := by
  unfold Gen.erasable Gen.qubitErr ErasureEntry
  rw [h, setDefaults, dictGet_append]
  cases hd : dictGet qe "erasure".toList with
  | some d =>
    rw [Option.some_or]
    cases hq : dictGet d (QKey.int (q : Int)) with
    | none => simp [hq]
    | some ps => cases ps <;> simp [hq]
  | none =>
    rw [Option.none_or]
    constructor
    · intro hx
      exfalso
      revert hx
      cases hx : dictGet (List.map (fun n => (n, [])) (List.filter (fun n => (dictGet qe n).isNone) qubitErrorNames) : List (List Char × ErrDict F)) "erasure".toList with
      | none => simp
      | some d =>
        have hm : ("erasure".toList, d) ∈ (List.map (fun n => (n, [])) (List.filter (fun n => (dictGet qe n).isNone) qubitErrorNames) : List (List Char × ErrDict F)) := by
          unfold dictGet at hx
          obtain ⟨e, he, rfl⟩ := Option.map_eq_some_iff.1 hx
          have := List.find?_some he
          rw [← of_decide_eq_true this]
          exact List.mem_of_find?_eq_some he
        obtain ⟨n, _, hn⟩ := List.mem_map.1 hm
        cases hn
        simp [dictGet]
    · rintro ⟨d, ps, h1, _⟩; cases h1

theorem erased_layout (hw : L.Wf) {r : Nat} (hr : 1 ≤ r) {qe ge : List (List Char × ErrDict F)} {sel : LogicalSel} {anc : Bool} {circ : List (Gate F)}
    (h : generateCircuit api (L.latCode r) qe ge sel anc = .ok circ) :
    ∃ row : List Nat, (∀ q, q ∈ row ↔ q < L.dataqubits.length ∧ ErasureEntry qe q) ∧ row.Sublist (List.range L.dataqubits.length) ∧
      erasableQubits circ = ((List.replicate r row).flatten.map fun (a : Nat) => Val.int (a : Int)) := by
  obtain ⟨G, hG, hanc, hq, hc⟩ := generate_inv h
  obtain ⟨is, his, hm⟩ := Gen.emits_circuit (f := fun g => if g.name = .E_ERASE then g.args.drop 1 else []) (by intro n vs _ h2; simp [h2])
    (fun _ _ _ => rfl) (.int 0) hc
  have hlat : G.lat = L := by unfold Gen.lat; rw [hG]
  have hmI : ∀ l : List Nat, Gen.mImage (F := F) (fun g => if g.name = .E_ERASE then g.args.drop 1 else []) l = [] := by
    intro l
    unfold Gen.mImage
    rw [List.flatMap_eq_nil_iff]
    intro a _
    rfl
  have hidx : L.dataqubits.map L.idx = List.range L.dataqubits.length := by
    refine List.ext_getElem (by simp) fun i h1 h2 => ?_
    have hn := h
    have hocc := hw.occ
    rw [Lattice.occupied, List.append_assoc] at hocc
    rw [List.getElem_map, List.getElem_range, hw.idx_data (List.getElem_mem _)]
    exact List.Nodup.idxOf_getElem (List.nodup_append.mp hocc).1 _ _
  refine ⟨(List.range L.dataqubits.length).filter G.erasable, fun q => ?_, List.filter_sublist, ?_⟩
  · rw [List.mem_filter, List.mem_range, erasable_iff hq]
  · have heI : G.eImage (F := F) (fun g => if g.name = .E_ERASE then g.args.drop 1 else []) (.int 0) =
        ((List.range L.dataqubits.length).filter G.erasable).map fun (a : Nat) => Val.int (a : Int) := by
      unfold Gen.eImage
      rw [hlat, ← hidx]
      induction L.dataqubits with
      | nil => rfl
      | cons v l ih =>
        rw [List.flatMap_cons, ih, List.map_cons, List.filter_cons]
        split <;> rfl
    unfold erasableQubits
    rw [hm, heI]
    simp only [hmI, List.nil_append, List.append_nil, show G.code.nRounds = r from by rw [hG]]
    obtain ⟨k, rfl⟩ : ∃ k, r = k + 1 := ⟨r - 1, by omega⟩
    simp only [Nat.add_sub_cancel, List.replicate_succ', List.flatten_append, List.map_append, List.map_flatten, List.map_replicate]
    simp

theorem erase_number (hw : L.Wf) {r : Nat} {qe ge : List (List Char × ErrDict F)} {sel : LogicalSel} {anc : Bool} {circ : List (Gate F)}
    (h : generateCircuit api (L.latCode r) qe ge sel anc = .ok circ) : numberErase circ = (erasableQubits circ).length := by
  obtain ⟨G, _, _, _, hc⟩ := generate_inv h
  obtain ⟨is, _, h1⟩ := Gen.emits_circuit (f := fun g => if g.name = .E_ERASE then g.args.drop 1 else []) (by intro n vs _ h2; simp [h2])
    (fun _ _ _ => rfl) (.int 0) hc
  obtain ⟨is', _, h2⟩ := Gen.emits_circuit (f := fun g => if g.name = .E_ERASE then [()] else []) (by intro n vs _ h2; simp [h2])
    (fun _ _ _ => rfl) (.int 0) hc
  have e1 : ∀ l : List Nat, Gen.mImage (F := F) (fun g => if g.name = .E_ERASE then g.args.drop 1 else []) l = [] := fun l => by
    unfold Gen.mImage; rw [List.flatMap_eq_nil_iff]; exact fun a _ => rfl
  have e2 : ∀ l : List Nat, Gen.mImage (F := F) (fun g => if g.name = .E_ERASE then [()] else []) l = [] := fun l => by
    unfold Gen.mImage; rw [List.flatMap_eq_nil_iff]; exact fun a _ => rfl
  have e3 : (G.eImage (fun g => if g.name = .E_ERASE then g.args.drop 1 else []) (.int 0)).length =
      (G.eImage (fun g => if g.name = .E_ERASE then [()] else []) (.int 0)).length := by
    unfold Gen.eImage
    rw [List.length_flatMap, List.length_flatMap]
    congr 1
    refine List.map_congr_left fun v _ => ?_
    split <;> rfl
  have e4 : numberErase circ = (circ.flatMap fun g => if g.name = .E_ERASE then [()] else []).length := by
    rw [numberErase_sum, List.length_flatMap]
    congr 1
    refine List.map_congr_left fun g _ => ?_
    unfold nErase
    split <;> rfl
  rw [e4, erasableQubits, h1, h2]
  simp only [e1, e2, List.append_nil, List.nil_append, List.length_append, List.length_flatten, List.map_replicate, e3]

/-- The number of results and of flags of every run of a generated circuit. -/
theorem run_lengths (hw : L.Wf) (hs : L.Sched) {r : Nat} {qe ge : List (List Char × ErrDict F)} {sel : LogicalSel} {anc : Bool} {circ : List (Gate F)}
    (h : generateCircuit api (L.latCode r) qe ge sel anc = .ok circ) :
    (∃ calls, appendAll api [] calls = .ok circ) ∧ (∀ g ∈ circ, g.TwoOk) ∧ ∀ g ∈ circ, g.QuietError := by
  obtain ⟨G, hG, _, _, hc⟩ := generate_inv h
  have hlat : G.lat = L := by unfold Gen.lat; rw [hG]
  have := Gen.fine_circuit (api := api) (G := G) (by rw [hlat]; exact hw) (by rw [hlat]; exact hs) sel circ hc
  exact ⟨appendAll_of fun g hg => (this g hg).made, fun g hg => (this g hg).two, fun g hg => (this g hg).quiet⟩

end Plaquette
