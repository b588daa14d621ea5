import Verif.Lemmas.DecoderState
import Verif.Lemmas.MatchingBackend
import Verif.Props.Decoder

/-!
# Properties of decoders that are used again (C109)
-/

namespace Plaquette

variable {W σ τ : Type} [LinearOrder W]

/-- What may be in the fields of a decoder. -/
def DecOk (R : σ → τ → Prop) (g : SynGraph W) (states : List σ) (d : DecState τ) : Prop :=
  DecHolds R g.components states d.comps ∧ ∀ i, (∀ c ∈ g.withEdges, i ∉ c.edgeIdx) → d.edgeResult i = false

theorem results_idx {b : Backend W σ} {g : SynGraph W} {er sy : List (List Bool)} : ∀ {l : List (Component W × σ)}
    {rs : List (List Nat × List Bool)}, mapLoop (decodeOne b g er sy) l = .ok rs →
    List.Forall₂ (fun (p : Component W × σ) r => r.1 = p.1.edgeIdx ∧ r.2.length = p.1.edges.length) l rs
  | [], rs, h => by
    simp only [mapLoop, Except.ok.injEq] at h
    subst h
    exact .nil
  | p :: l, rs, h => by
    rw [mapLoop] at h
    cases h1 : decodeOne b g er sy p with
    | error e => rw [h1] at h; cases h
    | ok r =>
      rw [h1] at h
      cases h2 : mapLoop (decodeOne b g er sy) l with
      | error e => rw [h2] at h; cases h
      | ok rs' =>
        rw [h2] at h
        cases h
        refine .cons ?_ (results_idx h2)
        unfold decodeOne at h1
        split at h1
        · cases h1
        · split at h1
          · rename_i hl
            cases h1
            exact ⟨rfl, hl⟩
          · cases h1

theorem seen_not_new (cs : List (Component W)) (ts : List (CompState τ)) :
    ((cs.zip (List.zipWith CompState.seen cs ts)).any fun p => !p.1.edges.isEmpty && p.2.new) = false := by
  induction cs generalizing ts with
  | nil => rfl
  | cons c cs ih =>
    cases ts with
    | nil => rfl
    | cons t ts =>
      rw [List.zipWith_cons_cons, List.zip_cons_cons, List.any_cons, ih, Bool.or_false]
      unfold CompState.seen
      by_cases hc : c.edges.isEmpty
      · simp [hc]
      · rw [if_neg hc]
        simp

theorem decode_again {n r : Nat} {isInf : W → Bool} {stabs : List (Op n)} {w : Option (Weights W)} {g : SynGraph W}
    (hg : mkSynGraph isInf r stabs w = .ok g) {b : Backend W σ} {ob : ObjBackend τ} {R : σ → τ → Prop} (ha : Agrees b ob R)
    {states : List σ} (hs : states.length = g.withEdges.length) {d : DecState τ} (hd : DecOk R g states d)
    (erased syn : Option (List (List Bool))) (k : Nat) :
    (d.decode ob g k erased syn).2 = decode b g k states erased syn ∧ DecOk R g states (d.decode ob g k erased syn).1 := by
  obtain ⟨hd1, hd2⟩ := hd
  unfold DecState.decode DecState.decodeAll decode decodeAll
  cases he : arrayOr g.nRounds g.nQubits erased with
  | error e => exact ⟨rfl, hd1, hd2⟩
  | ok er =>
    have h1 : DecHolds R g.components states (List.zipWith (CompState.setErasure g er) g.components d.comps) :=
      hd1.map _ fun c s => by unfold CompState.setErasure; split <;> rfl
    cases hy : arrayOr g.nRounds g.nStab syn with
    | error e => exact ⟨rfl, h1, hd2⟩
    | ok sy =>
      have h2 : DecHolds R g.components states (List.zipWith (CompState.setSyndrome g sy) g.components
          (List.zipWith (CompState.setErasure g er) g.components d.comps)) := h1.map (CompState.setSyndrome g sy) fun c s => rfl
      have h3 := isSet_zipWith g er sy g.components d.comps hd1.length
      have h4 := check_loop g er sy h3
      simp only [h4]
      cases hc : loopE (fun (_ : Unit) c => checkDecodable (vertexSyndrome g sy) c) () g.components with
      | error e => exact ⟨rfl, h2, hd2⟩
      | ok u =>
        have h5 := decodeComps_spec b ob ha g er sy h2 h3
        cases hm : mapLoop (decodeOne b g er sy) (g.withEdges.zip states) with
        | error e =>
          rw [show (g.components.filter fun c => !c.edges.isEmpty) = g.withEdges from rfl, hm] at h5
          simp only [h5.2]
          exact ⟨trivial, h5.1, hd2⟩
        | ok rs =>
          rw [show (g.components.filter fun c => !c.edges.isEmpty) = g.withEdges from rfl, hm] at h5
          obtain ⟨h6, h7, h8⟩ := h5
          simp only [h7]
          have h9 := results_idx hm
          have hres : (DecState.update g { d with comps := (decodeComps ob g.components (List.zipWith (CompState.setSyndrome g sy) g.components
              (List.zipWith (CompState.setErasure g er) g.components d.comps))).1 }).edgeResult = updateResults rs := by
            funext i
            unfold DecState.update updateResults
            dsimp only
            rw [foldl_updateComp_eq, h8]
            apply foldl_results
            by_cases hi : ∀ c ∈ g.withEdges, i ∉ c.edgeIdx
            · exact .inl (hd2 i hi)
            · push Not at hi
              obtain ⟨c, hcm, hic⟩ := hi
              obtain ⟨x, hx⟩ := List.mem_iff_getElem?.mp hcm
              have hxl := (List.getElem?_eq_some_iff.mp hx).1
              have hzl : x < (g.withEdges.zip states).length := by simp; omega
              have hl := h9.length_eq
              have h10 := List.forall₂_iff_get.mp h9
              obtain ⟨e1, e2⟩ := h10.2 x hzl (by omega)
              have e3 : ((g.withEdges.zip states).get ⟨x, hzl⟩).1 = c := by
                rw [List.get_eq_getElem, List.getElem_zip]
                exact (List.getElem?_eq_some_iff.mp hx).2
              rw [e3] at e1 e2
              obtain ⟨qs, es, m, hB⟩ := mkSynGraph_built hg
              obtain ⟨y, hy1, hy2, hy3, hy4, hy5, hy6, hy7, hy8⟩ := hB.mem_component (List.mem_filter.mp hcm).1
              refine .inr ⟨rs.get ⟨x, by omega⟩, List.get_mem _ _, ?_, ?_⟩
              · rw [e1, e2, hy7, List.length_map]
              · rw [e1]; exact hic
          refine ⟨?_, h6.map _ fun c s => by unfold CompState.seen; split <;> rfl, ?_⟩
          · unfold DecState.frame
            rw [hres]
            unfold DecState.update
            dsimp only
            rw [seen_not_new]
            rfl
          · intro i hi
            rw [hres]
            unfold updateResults
            rw [foldl_results_out rs fun p hp hip => ?_]
            obtain ⟨x, hx⟩ := List.mem_iff_get.mp hp
            have hl := h9.length_eq
            obtain ⟨e1, -⟩ := (List.forall₂_iff_get.mp h9).2 x (by omega) x.2
            rw [← hx] at hip
            rw [show rs.get ⟨x, x.2⟩ = rs.get x from rfl] at e1
            rw [e1] at hip
            exact hi _ (List.of_mem_zip (List.get_mem _ _)).1 hip

theorem setupAll_length {b : Backend W σ} {g : SynGraph W} {states : List σ} (h : setupAll b g = .ok states) :
    states.length = g.withEdges.length := (mapLoop_get h).1

/-- **C109** A decoder can be used again and again: every call of `decode` returns (or raises) what a new decoder would, whatever the
calls before were and even if they ended with an exception. For every backend whose `decode` does not depend on what earlier calls
left in its fields. -/
theorem C109_reuse {n r : Nat} {isInf : W → Bool} {stabs : List (Op n)} {w : Option (Weights W)} {g : SynGraph W}
    (hg : mkSynGraph isInf r stabs w = .ok g) {b : Backend W σ} {ob : ObjBackend τ} {R : σ → τ → Prop} (ha : Agrees b ob R)
    {states : List σ} (hs : setupAll b g = .ok states) {os : List τ} (ho : List.Forall₂ R states os) (k : Nat)
    (ps : List (Option (List (List Bool)) × Option (List (List Bool)))) :
    (DecState.start g os).decodeMany ob g k ps = ps.map fun p => decode b g k states p.1 p.2 := by
  have hl := setupAll_length hs
  have h0 : DecOk R g states (DecState.start g os) := ⟨newComps_holds ho hl, fun _ _ => rfl⟩
  suffices H : ∀ d : DecState τ, DecOk R g states d → d.decodeMany ob g k ps = ps.map fun p => decode b g k states p.1 p.2 from H _ h0
  induction ps with
  | nil => intro d _; rfl
  | cons p ps ih =>
    intro d hd
    obtain ⟨h1, h2⟩ := decode_again hg ha hl hd p.1 p.2 k
    rw [DecState.decodeMany, List.map_cons, h1, ih _ h2]

/-- A new union find decoder for a component, `unionfind_interfaces.py:43-58`. -/
def UfObj.new (g : UGraph) : UfObj := { graph := g, uf := UState.fresh fun _ => false, er := EGraph.fresh g.n g.edges }

theorem UfObj.new_ok (g : UGraph) : (UfObj.new g).Ok :=
  ⟨⟨fun _ _ => ⟨rfl, rfl, rfl, rfl⟩, fun _ _ => rfl⟩, rfl, rfl, rfl⟩

/-- **C109** for both union find decoders: `union_find` and the erasure decoder set every field before they read it, so that nothing that
a run leaves behind (`left`, any values for the vertices and edges of the graph) has an effect on the next. -/
theorem C109_unionFind {n r : Nat} {isInf : FW → Bool} {stabs : List (Op n)} {w : Option (Weights FW)} {g : SynGraph FW}
    (hg : mkSynGraph isInf r stabs w = .ok g) {support : Bool} {states : List UGraph} (hs : setupAll (ufBackend support) g = .ok states)
    {left : UfObj → List Bool → List Bool → UState × EGraph}
    (hl : ∀ (o : UfObj) er sy, UfObj.Ok { o with uf := (left o er sy).1, er := (left o er sy).2 }) (k : Nat)
    (ps : List (Option (List (List Bool)) × Option (List (List Bool)))) :
    (DecState.start g (states.map UfObj.new)).decodeMany (ufObjBackend left) g k ps =
      ps.map fun p => decode (ufBackend support) g k states p.1 p.2 := by
  refine C109_reuse hg (agrees_uf support hl) hs ?_ k ps
  rw [List.forall₂_map_right_iff]
  exact List.forall₂_same.mpr fun s _ => ⟨rfl, UfObj.new_ok s⟩

/-- **C109** (new weights) as documented: `update_weights` gives the decoder the weights of the graph, like making a new decoder. -/
def C109_statement : Prop :=
  ∀ (support : Bool) (ws : List (Option FW)) (l : Option (List ℚ)) (p : (Nat → ℚ) × (Nat → ℚ)), ws ≠ [] → ufBackendWeights ws = .ok l →
    ufWeights support ws.length 2 l = .ok p → ufUpdateWeights support ws = .ok ((List.range ws.length).map fun i => some (p.2 i))

/-- **C109** For a graph without weights, `update_weights` of `UnionFindDecoder` makes all growth increments NaN, and that of
`UnionFindNoWeights` raises a `ValueError`. -/
theorem C109_unweighted (ws : List (Option FW)) (h : ∀ x ∈ ws, x = none) :
    ufUpdateWeights true ws = .ok (List.replicate ws.length none) ∧ ufUpdateWeights false ws = .error .valueError := by
  unfold ufUpdateWeights
  have : ws.all (·.isNone) = true := by
    rw [List.all_eq_true]
    intro x hx
    rw [h x hx]
    rfl
  rw [if_pos this, if_pos this]
  exact ⟨rfl, rfl⟩

/-- **C109** (new weights) is false. -/
theorem C109_update_counterexample : ¬ C109_statement := by
  intro h
  have := h false [none] none _ (by simp) (by decide +kernel) rfl
  rw [(C109_unweighted [none] (by simp)).2] at this
  cases this

/-- **C109** (new weights) for graphs with weights (missing: graphs without, see `C109_unweighted`). -/
theorem C109_update_partial {support : Bool} {ws : List (Option FW)} {l : List ℚ} {p : (Nat → ℚ) × (Nat → ℚ)}
    (h : ufBackendWeights ws = .ok (some l)) (hp : ufWeights support ws.length 2 (some l) = .ok p) :
    ufUpdateWeights support ws = .ok ((List.range ws.length).map fun i => some (p.2 i)) := by
  unfold ufBackendWeights at h
  split at h
  · cases h
  · cases h
  · rename_i hw
    split at h
    · cases h
    · split at h
      · cases h
      · rename_i hf
        cases h
        unfold ufUpdateWeights
        have : ¬ (ws.all (·.isNone) = true) := by
          intro ha
          unfold isWeighted at hw
          rw [if_pos ha] at hw
          cases hw
        rw [if_neg this, hf]
        dsimp only
        rw [hp]

/-! ## Examples -/

/-- Fields full of remains: all vertices in the boundary of a cluster that does not exist, all edges grown, all syndrome bits set, and
neighbour lists with wrong entries. -/
def remains (o : UfObj) (_ _ : List Bool) : UState × EGraph :=
  ({ growth := fun i => if i < o.graph.edges.length then 7 else 0
     syn := fun v => decide (v < o.graph.n)
     state := fun v => if v < o.graph.n then .boundary else .unused
     parent := fun v => if v < o.graph.n then some 0 else none
     cluster := fun v => if v < o.graph.n then some 3 else none
     nClusters := 9, clusters := fun _ => ⟨some 1, some [0, 0], 4, 1, true⟩, openList := [5, 5] },
    { n := o.graph.n, edges := o.graph.edges, vOn := fun _ => true, eOn := fun _ => true, nbr := some fun _ => [(0, none), (0, none)]
      leaves := none })

/-- The hypothesis of `C109_unionFind`. -/
theorem remains_ok (o : UfObj) (er sy : List Bool) : UfObj.Ok { o with uf := (remains o er sy).1, er := (remains o er sy).2 } := by
  refine ⟨⟨fun v hv => ?_, fun i hi => ?_⟩, rfl, rfl, rfl⟩
  · simp [remains, Nat.not_lt.mpr hv]
  · simp [remains, Nat.not_lt.mpr hi]

/-- Two rounds of the repetition code of size 3, several syndromes one after the other. -/
def rep3Many (ps : List (Option (List (List Bool)))) : Except Err (List (Except Err (List Bool))) :=
  match mkSynGraph FW.isInf 2 rep3Stabs none with
  | .error e => .error e
  | .ok g =>
    match setupAll (ufBackend true) g with
    | .error e => .error e
    | .ok states => .ok (((DecState.start g (states.map UfObj.new)).decodeMany (ufObjBackend remains) g 3 (ps.map fun s => (none, s))).map
        fun x => match x with
          | .error e => .error e
          | .ok p => .ok (List.ofFn p.x))

example : rep3Many [some [[true, true], [false, false]], none, some [[true]], some [[true, true], [false, false]]] =
    .ok [.ok [false, true, false], .ok [false, false, false], .error .assertionError, .ok [false, true, false]] := by decide +kernel

example : ufBackendWeights [some (((2 : ℚ) : WithTop ℚ) : FW), some (((3 : ℚ) : WithTop ℚ) : FW)] = .ok (some [2, 3]) := by decide +kernel

end Plaquette
