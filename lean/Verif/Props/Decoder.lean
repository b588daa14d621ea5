import Verif.Lemmas.DecoderTotal
import Verif.Lemmas.Stab

/-!
# Decoders (C38, C39)
-/

namespace Plaquette
variable {W σ : Type} {n : Nat} [LinearOrder W] {isInf : W → Bool} {r : Nat} {stabs : List (Op n)} {w : Option (Weights W)} {g : SynGraph W}

/-- Bit `[t, s]` of the syndrome is set; without a syndrome no bit is. -/
def SynBit (syn : Option (List (List Bool))) (t s : Nat) : Prop :=
  ∃ a row, syn = some a ∧ a[t]? = some row ∧ row[s]? = some true

/-- `None` or an array with `r` rows and `m` columns. -/
def ShapeOk (r m : Nat) (a : Option (List (List Bool))) : Prop :=
  ∀ l, a = some l → l.length = r ∧ ∀ row ∈ l, row.length = m

/-- The decoders of the components return an explanation, if they return anything. -/
def Sound (b : Backend W σ) (g : SynGraph W) (states : List σ) : Prop :=
  states.length = g.withEdges.length ∧ ∀ (k : Nat) (c : Component W) (s : σ), g.withEdges[k]? = some c → states[k]? = some s →
    ∀ er syn corr, er.length = c.edges.length → syn.length = c.nVertices → b.decode s er syn = .ok corr → Explains c.nVertices c.edges corr syn

/-- The decoders of the components return something for a correctable syndrome. -/
def Complete (b : Backend W σ) (g : SynGraph W) (states : List σ) : Prop :=
  ∀ (k : Nat) (c : Component W) (s : σ), g.withEdges[k]? = some c → states[k]? = some s →
    ∀ er syn, er.length = c.edges.length → syn.length = c.nVertices → Correctable c.nVertices c.edges (fun _ => True) syn →
      ∃ corr, b.decode s er syn = .ok corr

/-- Some of the enabled edges explain the syndrome: an odd number of them ends at vertex `[t, s]` exactly if the bit is set. -/
def Explainable (g : SynGraph W) (r m : Nat) (syn : Option (List (List Bool))) : Prop :=
  ∃ sel : Set Nat, (∀ i ∈ sel, ∃ e, g.edges[i]? = some e ∧ e.enabled = true) ∧ ∀ t < r, ∀ s < m,
    (Odd (Set.ncard {i | i ∈ sel ∧ ∃ e : SEdge W, g.edges[i]? = some e ∧ t * m + s ∈ e.vertices}) ↔ SynBit syn t s)

theorem arrayOr_ok {r m : Nat} {a : Option (List (List Bool))} (h : ShapeOk r m a) : ∃ l, arrayOr r m a = .ok l ∧ ∀ t s, at2 l t s = true ↔ SynBit a t s := by
  cases a with
  | none =>
    refine ⟨_, rfl, fun t s => ?_⟩
    have : at2 (List.replicate r (List.replicate m false)) t s = false := by
      unfold at2
      simp only [List.getD_eq_getElem?_getD, List.getElem?_replicate]
      split
      · simp only [Option.getD_some, List.getElem?_replicate]; split <;> rfl
      · rfl
    rw [this]
    simp [SynBit]
  | some l =>
    obtain ⟨h1, h2⟩ := h l rfl
    refine ⟨l, ?_, fun t s => ?_⟩
    · show (if hasShape r m l = true then _ else _) = _
      rw [if_pos]
      unfold hasShape
      simp only [Bool.and_eq_true, beq_iff_eq, List.all_eq_true]
      exact ⟨h1, h2⟩
    · unfold at2 SynBit
      simp only [List.getD_eq_getElem?_getD]
      cases ht : l[t]? with
      | none => simp [ht]
      | some row =>
        cases hs : row[s]? with
        | none => simp [ht, hs]
        | some b => simp [ht, hs]

theorem arrayOr_shape {r m : Nat} {a : Option (List (List Bool))} {l : List (List Bool)} (h : arrayOr r m a = .ok l) : ShapeOk r m a := by
  rintro l' rfl
  unfold arrayOr at h
  simp only at h
  split at h
  · rename_i hs
    unfold hasShape at hs
    simpa only [Bool.and_eq_true, beq_iff_eq, List.all_eq_true] using hs
  · cases h

/-- The parity of the number of rounds in which the bit of a stabiliser is set. -/
theorem xsum_ncard (r : Nat) (f : Nat → Bool) : xsum (List.range r) f = true ↔ Odd (Set.ncard {t | t < r ∧ f t = true}) := by
  have : {t | t < r ∧ f t = true} = (((List.range r).filter f).toFinset : Set Nat) := by ext t; simp
  rw [xsum_eq_odd, this, Set.ncard_coe_finset, List.toFinset_card_of_nodup (List.nodup_range.filter _), Nat.odd_iff]

omit [LinearOrder W] in
theorem mem_withEdges {c : Component W} {k : Nat} (h : g.withEdges[k]? = some c) : c ∈ g.components ∧ c.edges ≠ [] := by
  have := List.mem_filter.1 (List.mem_of_getElem? h)
  refine ⟨this.1, fun he => ?_⟩
  rw [he] at this; simp at this

/-- The core of C38 and C39. -/
theorem decode_core (h : mkSynGraph isInf r stabs w = .ok g) {b : Backend W σ} {states : List σ} (hb : Sound b g states)
    {er sy : List (List Bool)} {rs : List (List Nat × List Bool)} (hd : ∀ c ∈ g.components, Decodable c (vertexSyndrome g sy))
    (hrs : mapLoop (decodeOne b g er sy) (g.withEdges.zip states) = .ok rs) :
    ∀ v, v < r * stabs.length → bd g.verts (updateResults rs) v = vertexSyndrome g sy v := by
  obtain ⟨hl, hget⟩ := mapLoop_get hrs
  have hzl : (g.withEdges.zip states).length = g.withEdges.length := by rw [List.length_zip, hb.1, Nat.min_self]
  have hone : ∀ (k : Nat) (c : Component W) (p : List Nat × List Bool), g.withEdges[k]? = some c → rs[k]? = some p →
      p.1 = c.edgeIdx ∧ Explains c.nVertices c.edges p.2 (c.vertexIdx.map (vertexSyndrome g sy)) := by
    intro k c p hk hp
    have hkl := (List.getElem?_eq_some_iff.1 hk).1
    have hkl' : k < states.length := by rw [hb.1]; exact hkl
    have hs : states[k]? = some states[k] := List.getElem?_eq_getElem hkl'
    have hz : (g.withEdges.zip states)[k]? = some (c, states[k]) := by
      rw [List.getElem?_zip_eq_some]; exact ⟨hk, hs⟩
    obtain ⟨p', hp1, hp2⟩ := hget k _ hz
    rw [hp] at hp2
    obtain rfl := Option.some.inj hp2
    unfold decodeOne at hp1
    cases hdec : b.decode states[k] (c.edgeIdx.map (edgeErased g er)) (c.vertexIdx.map (vertexSyndrome g sy)) with
    | error e => simp only [hdec] at hp1; cases hp1
    | ok corr =>
      simp only [hdec] at hp1
      split at hp1
      · cases hp1
        have hok := compOk h (mem_withEdges hk).1
        exact ⟨rfl, hb.2 k c _ hk hs _ _ _ (by rw [List.length_map, hok.len]) (by rw [List.length_map]; rfl) hdec⟩
      · cases hp1
  refine results_bd h ?_ (fun k c p hk hp => (hone k c p hk hp).2) ?_
  · refine List.ext_getElem? fun k => ?_
    rw [List.getElem?_map, List.getElem?_map]
    cases hk : g.withEdges[k]? with
    | none =>
      have : rs[k]? = none := by
        rw [List.getElem?_eq_none_iff] at hk ⊢; omega
      rw [this]; rfl
    | some c =>
      have hkl := (List.getElem?_eq_some_iff.1 hk).1
      have hp : rs[k]? = some rs[k] := List.getElem?_eq_getElem (by omega)
      rw [hp, Option.map_some, Option.map_some, (hone k c _ hk hp).1]
  · intro c hc he v hv
    obtain ⟨v', hv'⟩ := single_vertex h hc he
    rw [hv', List.mem_singleton] at hv
    subst hv
    rcases hd c hc with ⟨u, hu⟩ | hev
    · rw [he] at hu; simp at hu
    · by_contra hcon
      rw [hv'] at hev
      have : {x | x ∈ [v] ∧ vertexSyndrome g sy x = true} = {v} := by
        ext x; simp only [List.mem_singleton, Set.mem_ofPred_eq, Set.mem_singleton_iff]
        exact ⟨fun h => h.1, by rintro rfl; exact ⟨rfl, by simpa using hcon⟩⟩
      rw [this] at hev; simp at hev

/-- **C38.** Whatever the backend is, if its answers for the components explain the syndromes of the components, then the operator that
`decode` returns anticommutes with exactly those stabilisers whose syndrome bit is set in an odd number of rounds. -/
theorem C38_correction (h : mkSynGraph isInf r stabs w = .ok g) {b : Backend W σ} {states : List σ} (hb : Sound b g states)
    {erased syn : Option (List (List Bool))} {p : Op n} (hp : decode b g n states erased syn = .ok p) :
    ∀ s gen, stabs[s]? = some gen →
      (Anticommutes (opMat p) (opMat gen) ↔ Odd (Set.ncard {t | t < r ∧ SynBit syn t s})) := by
  obtain ⟨qs, es, k, hB⟩ := mkSynGraph_built h
  unfold decode decodeAll at hp
  rw [hB.nRounds, hB.nQubits, hB.nStab] at hp
  cases he : arrayOr r n erased with
  | error e => simp only [he] at hp; cases hp
  | ok er =>
  cases hs : arrayOr r stabs.length syn with
  | error e => simp only [he, hs] at hp; cases hp
  | ok sy =>
  simp only [he, hs] at hp
  rcases checkAll_spec h (vertexSyndrome g sy) with ⟨h1, h2⟩ | ⟨h1, h2⟩
  · simp only [h2] at hp
    cases hm : mapLoop (decodeOne b g er sy) (g.withEdges.zip states) with
    | error e => simp only [hm] at hp; cases hp
    | ok rs =>
      simp only [hm] at hp
      obtain ⟨p', hp', hp2⟩ := frame_of_bd h (decode_core h hb h1 hm)
      rw [hp] at hp'
      obtain rfl := Except.ok.inj hp'
      intro s gen hsg
      have hsl := (List.getElem?_eq_some_iff.1 hsg).1
      obtain ⟨sy', hsy', hbit⟩ := arrayOr_ok (arrayOr_shape hs)
      rw [hs] at hsy'
      obtain rfl := Except.ok.inj hsy'
      rw [anticommutes_iff, hp2 s gen hsg, xsum_ncard]
      have : ∀ t, vertexSyndrome g sy (t * stabs.length + s) = true ↔ SynBit syn t s := by
        intro t
        rw [← hbit]
        unfold vertexSyndrome
        rw [hB.nStab, Nat.add_comm, Nat.add_mul_div_right _ _ (by omega), Nat.div_eq_of_lt hsl, Nat.zero_add, Nat.add_mul_mod_self_right,
          Nat.mod_eq_of_lt hsl]
      simp only [this]
  · simp only [h2] at hp; cases hp

/-- What is left of an error after a correction commutes with an operator exactly if both anticommute with it or none does. -/
theorem residual_iff {n : Nat} (correction e op : Op n) : (Anticommutes (opMat op) (opMat e) ↔ Anticommutes (opMat op) (opMat correction)) ↔
    Commutes (opMat correction * opMat e) (opMat op) := by
  rw [anticommutes_iff, anticommutes_iff, anti_symm op, anti_symm op]
  have hmul : opMat correction * opMat e * opMat op =
      (sgn (anti e op) * sgn (anti correction op)) • (opMat op * (opMat correction * opMat e)) := by
    rw [mul_assoc, opMat_comm e op, Matrix.mul_smul, ← mul_assoc, opMat_comm correction op, Matrix.smul_mul, smul_smul, mul_assoc]
  unfold Commutes
  rw [hmul]
  have hne : opMat op * (opMat correction * opMat e) ≠ 0 := by
    intro h0
    have := congrArg (opMat op * ·) h0
    simp only [← mul_assoc, opMat_sq, one_mul, mul_zero] at this
    exact opMat_mul_ne_zero _ _ this
  have hneg : ¬ -(opMat op * (opMat correction * opMat e)) = opMat op * (opMat correction * opMat e) := by
    intro h0
    have h2 : (2 : ℂ) • (opMat op * (opMat correction * opMat e)) = 0 := by
      rw [two_smul]; nth_rewrite 1 [← h0]; exact neg_add_cancel _
    rcases smul_eq_zero.1 h2 with h3 | h3
    · norm_num at h3
    · exact hne h3
  cases anti e op <;> cases anti correction op <;> simp [sgn, hneg]

/-- **C38.** In terms of errors: if the syndrome of every stabiliser, added up over the rounds, is that of an error `e`, then what is left
after the correction commutes with all stabilisers. -/
theorem C38_residual (h : mkSynGraph isInf r stabs w = .ok g) {b : Backend W σ} {states : List σ} (hb : Sound b g states)
    {erased syn : Option (List (List Bool))} {p : Op n} (hp : decode b g n states erased syn = .ok p) (e : Op n)
    (he : ∀ s gen, stabs[s]? = some gen → (Anticommutes (opMat gen) (opMat e) ↔ Odd (Set.ncard {t | t < r ∧ SynBit syn t s}))) :
    ∀ gen ∈ stabs, Commutes (opMat p * opMat e) (opMat gen) := by
  intro gen hg
  obtain ⟨s, hs⟩ := List.getElem?_of_mem hg
  rw [← residual_iff, he s gen hs, ← C38_correction h hb hp s gen hs, anticommutes_iff, anticommutes_iff, anti_symm]

/-- The syndrome of a vertex. -/
theorem vertexSyndrome_iff (h : mkSynGraph isInf r stabs w = .ok g) {syn : Option (List (List Bool))} {sy : List (List Bool)}
    (hbit : ∀ t s, at2 sy t s = true ↔ SynBit syn t s) {t s : Nat} (hs : s < stabs.length) :
    vertexSyndrome g sy (t * stabs.length + s) = true ↔ SynBit syn t s := by
  obtain ⟨qs, es, k, hB⟩ := mkSynGraph_built h
  rw [← hbit]
  unfold vertexSyndrome
  rw [hB.nStab, Nat.add_comm, Nat.add_mul_div_right _ _ (by omega), Nat.div_eq_of_lt hs, Nat.zero_add, Nat.add_mul_mod_self_right,
    Nat.mod_eq_of_lt hs]

omit [LinearOrder W] in
theorem bd_verts (x : Nat → Bool) (v : Nat) : bd g.verts x v = true ↔
    Odd (Set.ncard {i | i ∈ {i | x i = true} ∧ ∃ e : SEdge W, g.edges[i]? = some e ∧ v ∈ e.vertices}) := by
  rw [bd_odd]
  have hl : g.verts.length = g.edges.length := by simp [SynGraph.verts]
  have : {i : Nat | ((List.range g.verts.length).map x)[i]? = some true ∧ ∃ e : List Nat, g.verts[i]? = some e ∧ v ∈ e} =
      {i | i ∈ {i | x i = true} ∧ ∃ e : SEdge W, g.edges[i]? = some e ∧ v ∈ e.vertices} := by
    ext i
    simp only [Set.mem_ofPred_eq, SynGraph.verts, List.getElem?_map, Option.map_eq_some_iff]
    constructor
    · rintro ⟨⟨j, hj, hx⟩, l, ⟨e, he, rfl⟩, hv⟩
      have := List.getElem?_eq_some_iff.1 hj
      obtain ⟨_, hj2⟩ := this
      rw [List.getElem_range] at hj2
      subst hj2
      exact ⟨hx, e, he, hv⟩
    · rintro ⟨hx, e, he, hv⟩
      have hil := (List.getElem?_eq_some_iff.1 he).1
      exact ⟨⟨i, by rw [List.getElem?_range (by rw [List.length_map]; exact hil)], hx⟩, _, ⟨e, he, rfl⟩, hv⟩
  rw [this]

/-- **C39.** For arrays of the right shape and a backend that handles every correctable syndrome: `decode` returns an operator exactly if
the enabled edges of the syndrome graph can explain the syndrome, and raises a `ValueError` otherwise. -/
theorem C39_refused (h : mkSynGraph isInf r stabs w = .ok g) {b : Backend W σ} {states : List σ} (hb : Sound b g states)
    (hc : Complete b g states) {erased syn : Option (List (List Bool))} (her : ShapeOk r n erased) (hsyn : ShapeOk r stabs.length syn) :
    (Explainable g r stabs.length syn ∧ ∃ p, decode b g n states erased syn = .ok p) ∨
    (¬ Explainable g r stabs.length syn ∧ decode b g n states erased syn = .error .valueError) := by
  obtain ⟨qs, es, k, hB⟩ := mkSynGraph_built h
  obtain ⟨er, he, -⟩ := arrayOr_ok her
  obtain ⟨sy, hs, hbit⟩ := arrayOr_ok hsyn
  have hdec : decode b g n states erased syn = match loopE (fun (_ : Unit) c => checkDecodable (vertexSyndrome g sy) c) () g.components with
      | .error e => .error e
      | .ok () => match mapLoop (decodeOne b g er sy) (g.withEdges.zip states) with
        | .error e => .error e
        | .ok rs => pauliFrame g n (updateResults rs) := by
    unfold decode decodeAll
    rw [hB.nRounds, hB.nQubits, hB.nStab]
    simp only [he, hs]
    cases loopE (fun (_ : Unit) c => checkDecodable (vertexSyndrome g sy) c) () g.components <;> rfl
  rcases checkAll_spec h (vertexSyndrome g sy) with ⟨h1, h2⟩ | ⟨h1, h2⟩
  · left
    have hm : ∃ rs, mapLoop (decodeOne b g er sy) (g.withEdges.zip states) = .ok rs := by
      refine mapLoop_ok_iff.2 ?_
      rintro ⟨c, s⟩ hcs
      obtain ⟨k, hk⟩ := List.getElem?_of_mem hcs
      rw [List.getElem?_zip_eq_some] at hk
      have hcm := (mem_withEdges hk.1).1
      have hok := compOk h hcm
      have hl1 : (c.edgeIdx.map (edgeErased g er)).length = c.edges.length := by rw [List.length_map, hok.len]
      have hl2 : (c.vertexIdx.map (vertexSyndrome g sy)).length = c.nVertices := by rw [List.length_map]; rfl
      obtain ⟨corr, hcorr⟩ := hc k c s hk.1 hk.2 _ _ hl1 hl2 ((h1 c hcm).correctable h hcm)
      have hex := hb.2 k c s hk.1 hk.2 _ _ _ hl1 hl2 hcorr
      refine ⟨(c.edgeIdx, corr), ?_⟩
      unfold decodeOne
      simp only [hcorr, hex.1, if_true]
    obtain ⟨rs, hrs⟩ := hm
    have hbd := decode_core h hb h1 hrs
    obtain ⟨p, hp, -⟩ := frame_of_bd h hbd
    refine ⟨?_, p, by rw [hdec]; simp only [h2, hrs, hp]⟩
    refine ⟨{i | updateResults rs i = true}, fun i hi => ?_, fun t ht s hsl => ?_⟩
    · by_contra hcon
      have hoff : ∀ q ∈ rs, i ∉ q.1 := by
        intro q hq hiq
        obtain ⟨⟨c, st⟩, hcs, hone⟩ := mapLoop_src hrs hq
        obtain ⟨k, hk⟩ := List.getElem?_of_mem hcs
        rw [List.getElem?_zip_eq_some] at hk
        have hcm := (mem_withEdges hk.1).1
        have hq1 : q.1 = c.edgeIdx := by
          unfold decodeOne at hone
          cases hd : b.decode st (c.edgeIdx.map (edgeErased g er)) (c.vertexIdx.map (vertexSyndrome g sy)) with
          | error e => simp only [hd] at hone; cases hone
          | ok corr =>
            simp only [hd] at hone
            split at hone
            · cases hone; rfl
            · cases hone
        rw [hq1] at hiq
        obtain ⟨e, he, hen, -⟩ := ((compOk h hcm).mem i).1 hiq
        exact hcon ⟨e, he, hen⟩
      have hfalse : updateResults rs i = false := updateResults_other rs _ hoff
      rw [Set.mem_ofPred_eq, hfalse] at hi
      cases hi
    · have hv : t * stabs.length + s < r * stabs.length := by
        calc t * stabs.length + s < t * stabs.length + stabs.length := by omega
          _ = (t + 1) * stabs.length := by ring
          _ ≤ r * stabs.length := Nat.mul_le_mul_right _ ht
      rw [← bd_verts, hbd _ hv, vertexSyndrome_iff h hbit hsl]
  · right
    refine ⟨?_, by rw [hdec]; simp only [h2]⟩
    rintro ⟨sel, hen, hodd⟩
    classical
    refine h1 fun c hcm => decodable_of_bd h (x := fun i => decide (i ∈ sel)) (fun i hi => ?_) (fun v hv => ?_) hcm
    · obtain ⟨e, he, hee⟩ := hen i (of_decide_eq_true hi)
      rw [enabledAt_get he]; exact hee
    · have hm0 : 0 < stabs.length := by
        by_contra h0
        have : stabs.length = 0 := by omega
        rw [this] at hv; simp at hv
      have hdm := Nat.div_add_mod v stabs.length
      have hml := Nat.mod_lt v hm0
      have hvt : v / stabs.length < r := Nat.div_lt_of_lt_mul (by rw [Nat.mul_comm]; exact hv)
      have hve : v = v / stabs.length * stabs.length + v % stabs.length := by rw [Nat.mul_comm]; exact hdm.symm
      refine Bool.eq_iff_iff.2 ?_
      rw [hve, bd_verts, vertexSyndrome_iff h hbit hml, ← hodd _ hvt _ hml]
      simp only [Set.mem_ofPred_eq, decide_eq_true_eq]

/-- **C39**, by components: `decode` returns exactly if every component has a dangling edge or an even number of syndrome vertices. -/
theorem C39_components (h : mkSynGraph isInf r stabs w = .ok g) (sy : List (List Bool)) {c : Component W} (hc : c ∈ g.components) :
    let bit := fun v => SynBit (some sy) (v / stabs.length) (v % stabs.length)
    let good := (∃ v, [v] ∈ c.edges) ∨ Even (Set.ncard {v | v ∈ c.vertexIdx ∧ bit v})
    (good ∧ checkDecodable (vertexSyndrome g sy) c = .ok ()) ∨ (¬ good ∧ checkDecodable (vertexSyndrome g sy) c = .error .valueError) := by
  intro bit good
  obtain ⟨qs, es, k, hB⟩ := mkSynGraph_built h
  have hg : good ↔ Decodable c (vertexSyndrome g sy) := by
    have : ∀ v, bit v ↔ vertexSyndrome g sy v = true := by
      intro v
      unfold vertexSyndrome at2
      simp only [bit, SynBit, hB.nStab, List.getD_eq_getElem?_getD, Option.some.injEq, exists_eq_left']
      cases hy : sy[v / stabs.length]? with
      | none => simp [hy]
      | some row => cases hr : row[v % stabs.length]? with
        | none => simp [hr, hy]
        | some b => simp [hr, hy]
    simp only [good, Decodable, this]
  rw [hg]
  exact checkDecodable_spec h hc _

/-! ## Union find as the backend -/

theorem FW.rat_some {x : FW} {q : ℚ} (h : x.rat = some q) : x = ((q : WithTop ℚ) : FW) := by
  match x with
  | none => simp [FW.rat] at h
  | some none => simp [FW.rat] at h
  | some (some q') => simp only [FW.rat, Option.some.injEq] at h; subst h; rfl

/-- The weights that get through the checks of `set_syngraph` are accepted by union find. -/
theorem ufSetup_ok {support : Bool} {c : Component FW} {G : UGraph} (h : ufSetup support c = .ok G) :
    ∃ w p, ufWeights support c.edges.length 2 w = .ok p ∧ WeightsOk support c.edges.length w ∧ G = ⟨c.nVertices, c.edges, p.1, p.2⟩ := by
  unfold ufSetup at h
  cases h1 : loopE (fun (_ : Unit) e => checkUEdge c.nVertices e) () c.edges with
  | error e => simp only [h1] at h; cases h
  | ok u =>
  cases h2 : ufBackendWeights c.weights with
  | error e => simp only [h1, h2] at h; cases h
  | ok wts =>
  cases h3 : ufWeights support c.edges.length 2 wts with
  | error e => simp only [h1, h2, h3] at h; cases h
  | ok p =>
  simp only [h1, h2, h3] at h
  cases h
  refine ⟨wts, p, h3, ?_, rfl⟩
  cases wts with
  | none => trivial
  | some l =>
    unfold ufWeights at h3
    simp only at h3
    cases hm : (l.filter fun w => decide (w ≠ 0)).min? with
    | none => simp only [hm] at h3; cases h3
    | some lo =>
      simp only [hm] at h3
      split at h3
      · rename_i hs
        split at h3
        · rename_i hl
          refine ⟨hs, hl, fun q hq => ?_, lo, ?_⟩
          · unfold ufBackendWeights at h2
            cases h4 : isWeighted c.weights with
            | error e => simp only [h4] at h2; cases h2
            | ok t =>
              cases t
              · simp only [h4] at h2; cases h2
              · cases h5 : checkWeightsSane c.weights with
                | error e => simp only [h4, h5] at h2; cases h2
                | ok u =>
                  cases h6 : finiteWeights c.weights with
                  | error e => simp only [h4, h5, h6] at h2; cases h2
                  | ok l' =>
                    simp only [h4, h5, h6] at h2
                    cases h2
                    obtain ⟨wt, hwt, hq'⟩ := mapLoop_src h6 hq
                    cases hb : wt.bind FW.rat with
                    | none => simp only [hb] at hq'; cases hq'
                    | some q' =>
                      simp only [hb] at hq'
                      cases hq'
                      obtain ⟨x, rfl, hx⟩ := Option.bind_eq_some_iff.1 hb
                      have hxq := FW.rat_some hx
                      unfold checkWeightsSane at h5
                      split at h5
                      · cases h5
                      · split at h5
                        · cases h5
                        · rename_i hneg
                          by_contra hlt
                          refine hneg (List.any_eq_true.2 ⟨_, hwt, ?_⟩)
                          simp only [decide_eq_true_eq]
                          rw [hxq]
                          exact WithBot.coe_lt_coe.2 (WithTop.coe_lt_coe.2 (not_le.1 hlt))
          · have := List.mem_filter.1 (List.min?_mem hm)
            exact ⟨this.1, of_decide_eq_true this.2⟩
        · cases h3
      · cases h3

theorem uf_good {isInf : FW → Bool} {w : Option (Weights FW)} {g : SynGraph FW} (h : mkSynGraph isInf r stabs w = .ok g) {support : Bool}
    {states : List UGraph} (hst : setupAll (ufBackend support) g = .ok states) :
    Sound (ufBackend support) g states ∧ Complete (ufBackend support) g states := by
  obtain ⟨hl, hget⟩ := mapLoop_get hst
  have key : ∀ (k : Nat) (c : Component FW) (s : UGraph), g.withEdges[k]? = some c → states[k]? = some s →
      ∀ er syn, er.length = c.edges.length → syn.length = c.nVertices →
      (Correctable c.nVertices c.edges (fun _ => True) syn ∧ ∃ corr, ufDecode s er syn = .ok corr ∧ Explains c.nVertices c.edges corr syn) ∨
      (¬ Correctable c.nVertices c.edges (fun _ => True) syn ∧ ufDecode s er syn = .error .assertionError) := by
    intro k c s hk hs er syn her hsyn
    obtain ⟨G, hG, hG2⟩ := hget k c hk
    rw [hs] at hG2
    obtain rfl := Option.some.inj hG2
    obtain ⟨wt, p, h1, h2, rfl⟩ := ufSetup_ok hG
    have hgr := compGraph h (mem_withEdges hk).1
    obtain ⟨p', hp', hpos⟩ := ufWeights_ok (c := 2) (by norm_num) h2
    rw [h1] at hp'
    obtain rfl := Except.ok.inj hp'
    have hv : UGraph.Valid ⟨c.nVertices, c.edges, p.1, p.2⟩ := ⟨hgr, fun i hi => (hpos i hi).1, fun i hi => (hpos i hi).2⟩
    have hw : ∀ i ∈ whereTrue er, i < c.edges.length := by
      intro i hi
      have := (List.mem_filter.1 hi).1
      rw [List.mem_range] at this; omega
    by_cases hcor : Correctable c.nVertices c.edges (fun _ => True) syn
    · left
      obtain ⟨sel, h3, _, h4, h5⟩ := C36_growth hv hw hsyn hcor
      obtain ⟨corr, h6, _, h7⟩ := C35_peeling hgr h4 hsyn h5
      exact ⟨hcor, corr, by unfold ufDecode; simp only [h3]; exact h6, h7⟩
    · right
      exact ⟨hcor, by unfold ufDecode; simp only [(C36_refused hv hw hsyn).2 hcor]⟩
  refine ⟨⟨hl, fun k c s hk hs er syn corr her hsyn hd => ?_⟩, fun k c s hk hs er syn her hsyn hcor => ?_⟩
  · rcases key k c s hk hs er syn her hsyn with ⟨_, corr', h1, h2⟩ | ⟨_, h1⟩
    · have : ufDecode s er syn = .ok corr := hd
      rw [h1] at this
      cases this
      exact h2
    · have : ufDecode s er syn = .ok corr := hd
      rw [h1] at this; cases this
  · rcases key k c s hk hs er syn her hsyn with ⟨_, corr', h1, _⟩ | ⟨h0, _⟩
    · exact ⟨corr', h1⟩
    · exact absurd hcor h0

/-- **C38, C39** for the union find decoders: if the enabled edges of the syndrome graph can explain the syndrome, then `decode` returns
an operator that anticommutes with exactly those stabilisers whose syndrome bit is set in an odd number of rounds; otherwise it raises a
`ValueError`. This holds for every erasure and all weights with which the decoder can be set up. -/
theorem C38_unionFind {isInf : FW → Bool} {w : Option (Weights FW)} {g : SynGraph FW} (h : mkSynGraph isInf r stabs w = .ok g)
    {support : Bool} {states : List UGraph} (hst : setupAll (ufBackend support) g = .ok states) {erased syn : Option (List (List Bool))}
    (her : ShapeOk r n erased) (hsyn : ShapeOk r stabs.length syn) :
    (Explainable g r stabs.length syn ∧ ∃ p : Op n, decode (ufBackend support) g n states erased syn = .ok p ∧ ∀ s gen, stabs[s]? = some gen →
      (Anticommutes (opMat p) (opMat gen) ↔ Odd (Set.ncard {t | t < r ∧ SynBit syn t s}))) ∨
    (¬ Explainable g r stabs.length syn ∧ decode (ufBackend support) g n states erased syn = .error .valueError) := by
  obtain ⟨h1, h2⟩ := uf_good h hst
  rcases C39_refused h h1 h2 her hsyn with ⟨h3, p, h4⟩ | h3
  · exact .inl ⟨h3, p, h4, C38_correction h h1 h4⟩
  · exact .inr h3

/-! ## C40 -/

theorem commSign_bit {n : Nat} (a b : Op n) (t : Bool) : (commSign a b == (if t then 1 else 0)) = true ↔ (t = true ↔ Anticommutes (opMat a) (opMat b)) := by
  rw [beq_iff_eq]
  cases t
  · simp only [Bool.false_eq_true, if_false, false_iff]
    rw [commSign_zero_iff, commutes_iff, anticommutes_iff]; simp
  · simp only [if_true, true_iff]; exact commSign_one_iff a b

/-- The measured operators: all of them, or those that were chosen. -/
theorem C40_measured {n : Nat} {code : StabCode n} {sel : Option LogicalSel} {ops : List (Op n)} (h : measuredOps code sel = .ok ops) :
    (sel = none ∧ ops = code.logicalOps) ∨ ∃ c idx, sel = some c ∧ logicalOpsToIndices code.logicalOps.length c = .ok idx ∧
      ops.map some = idx.map fun i => code.logicalOps[i.toNat]? := by
  cases sel with
  | none => cases h; exact .inl ⟨rfl, rfl⟩
  | some c =>
    right
    unfold measuredOps at h
    cases hi : logicalOpsToIndices code.logicalOps.length c with
    | error e => simp only [hi] at h; cases h
    | ok idx =>
      simp only [hi] at h
      obtain ⟨h1, h2⟩ := mapLoop_get h
      refine ⟨c, idx, rfl, hi, List.ext_getElem? fun k => ?_⟩
      rw [List.getElem?_map, List.getElem?_map]
      cases hk : idx[k]? with
      | none =>
        have : ops[k]? = none := by rw [List.getElem?_eq_none_iff] at hk ⊢; omega
        rw [this]; rfl
      | some i =>
        obtain ⟨o, ho, hok⟩ := h2 k i hk
        rw [hok]
        cases hl : code.logicalOps[i.toNat]? with
        | none => simp only [hl] at ho; cases ho
        | some o' => simp only [hl] at ho; cases ho; simp [hl]

/-- **C40.** For a correction on the qubits of the code and one toggle for each measured operator (at least one), the check does not fail,
and it succeeds exactly if every toggle tells whether the correction anticommutes with the measured operator. -/
theorem C40_success {n : Nat} {code : StabCode n} {sel : Option LogicalSel} {ops : List (Op n)} (h : measuredOps code sel = .ok ops)
    (hne : ops ≠ []) (correction : Op n) {toggle : List Bool} (hl : ops.length = toggle.length) :
    ∃ b, checkSuccess code correction toggle sel = .ok b ∧
      (b = true ↔ ∀ (j : Nat) op t, ops[j]? = some op → toggle[j]? = some t → (t = true ↔ Anticommutes (opMat op) (opMat correction))) := by
  unfold checkSuccess
  simp only [h, ne_eq, hl, not_true_eq_false, if_false, dif_pos, if_neg hne]
  refine ⟨_, rfl, ?_⟩
  rw [List.all_eq_true]
  constructor
  · intro hh j op t ho ht
    have := hh (op, t) (List.mem_of_getElem? (i := j) (by rw [List.getElem?_zip_eq_some]; exact ⟨ho, ht⟩))
    exact (commSign_bit op correction t).1 this
  · rintro hh ⟨op, t⟩ hm
    obtain ⟨j, hj⟩ := List.getElem?_of_mem hm
    rw [List.getElem?_zip_eq_some] at hj
    exact (commSign_bit op correction t).2 (hh j op t hj.1 hj.2)

/-- **C40.** In terms of errors: if the toggles are those of an error `e`, then the check succeeds exactly if what is left after the
correction, `correction * e`, commutes with every measured logical operator. -/
theorem C40_residual {n : Nat} {code : StabCode n} {sel : Option LogicalSel} {ops : List (Op n)} (h : measuredOps code sel = .ok ops)
    (hne : ops ≠ []) (correction e : Op n) {toggle : List Bool} (hl : ops.length = toggle.length)
    (ht : ∀ (j : Nat) op t, ops[j]? = some op → toggle[j]? = some t → (t = true ↔ Anticommutes (opMat op) (opMat e))) :
    ∃ b, checkSuccess code correction toggle sel = .ok b ∧
      (b = true ↔ ∀ op ∈ ops, Commutes (opMat correction * opMat e) (opMat op)) := by
  obtain ⟨b, h1, h2⟩ := C40_success h hne correction hl
  refine ⟨b, h1, h2.trans ?_⟩
  have key := fun op : Op n => residual_iff correction e op
  constructor
  · intro hh op hop
    obtain ⟨j, hj⟩ := List.getElem?_of_mem hop
    have hjl := (List.getElem?_eq_some_iff.1 hj).1
    have htj : toggle[j]? = some toggle[j] := List.getElem?_eq_getElem (by omega)
    exact (key op).1 ((ht j op _ hj htj).symm.trans (hh j op _ hj htj))
  · intro hh j op t ho htj
    exact (ht j op t ho htj).trans ((key op).2 (hh op (List.mem_of_getElem? ho)))

/-! ## Examples -/

/-- Two rounds of the repetition code of size 3, without weights: the middle qubit is wrong in the first round. -/
def rep3Decode (syn : List (List Bool)) : Except Err (Option (List Bool × List Bool)) :=
  match mkSynGraph FW.isInf 2 rep3Stabs none with
  | .error e => .error e
  | .ok g =>
    match setupAll (ufBackend false) g with
    | .error e => .error e
    | .ok states =>
      match decode (ufBackend false) g 3 states none (some syn) with
      | .error e => .error e
      | .ok p => .ok (some (List.ofFn p.x, List.ofFn p.z))

example : rep3Decode [[true, true], [false, false]] = .ok (some ([false, true, false], [false, false, false])) := by decide +kernel

/-- A measurement error: the syndrome bit of the first stabiliser is set in both rounds, and no qubit is corrected. -/
example : rep3Decode [[true, false], [true, false]] = .ok (some ([false, false, false], [false, false, false])) := by decide +kernel

example : rep3Decode [[true, false], [false, true]] = .ok (some ([true, false, true], [false, false, false])) := by decide +kernel

/-- Two qubits that are checked against each other twice: there is no dangling edge, and a single syndrome bit cannot be explained. -/
example : (match mkSynGraph FW.isInf 1 [mulOp (singleOp false .Z 0) (singleOp (n := 2) false .Z 1), mulOp (singleOp false .Z 0) (singleOp false .Z 1)] none with
  | .error e => .error e
  | .ok g => match setupAll (ufBackend true) g with
    | .error e => .error e
    | .ok states => match decode (ufBackend true) g 2 states none (some [[true, false]]) with
      | .error e => .error e
      | .ok _ => .ok ()) = (.error .valueError : Except Err Unit) := by decide +kernel

/-- The repetition code of size 3 with its logical operators. -/
def rep3Code : StabCode 3 :=
  ⟨rep3Stabs, [mulOp (mulOp (singleOp false .X 0) (singleOp false .X 1)) (singleOp false .X 2), singleOp false .Z 0]⟩

/-- A correction of the first qubit toggles the logical `Z`. -/
example : checkSuccess rep3Code (singleOp (n := 3) false .X 0) [true] (some (.str "Z".toList)) = .ok true := by decide +kernel
example : checkSuccess rep3Code (singleOp (n := 3) false .X 1) [true] (some (.str "Z".toList)) = .ok false := by decide +kernel
example : checkSuccess rep3Code (singleOp (n := 3) false .X 0) [false, true] none = .ok true := by decide +kernel
example : checkSuccess rep3Code (singleOp (n := 4) false .X 0) [true] (some (.str "Z".toList)) = .error .assertionError := by decide +kernel
example : measuredOps rep3Code (some (.str "Z".toList)) = .ok [singleOp false .Z 0] := by decide +kernel

example : ShapeOk 2 2 (some [[true, false], [false, true]]) := by
  rintro l h; cases h; simp

end Plaquette
