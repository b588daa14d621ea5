import Verif.Model.DecoderState
import Verif.Lemmas.SynMain

/-!
# Lemmas on the fields of decoders
-/

namespace Plaquette

/-- Vertices and edges that do not exist have the values of new objects. -/
def UState.InRange (n m : Nat) (s : UState) : Prop :=
  (∀ v, n ≤ v → s.state v = .unused ∧ s.parent v = none ∧ s.cluster v = none ∧ s.syn v = false) ∧ ∀ i, m ≤ i → s.growth i = 0

theorem foldl_resetVertex (l : List Nat) : ∀ s : UState, l.foldl UState.resetVertex s =
    { s with
      state := fun v => if v ∈ l then .unused else s.state v
      parent := fun v => if v ∈ l then none else s.parent v
      cluster := fun v => if v ∈ l then none else s.cluster v } := by
  induction l with
  | nil => intro s; simp
  | cons a l ih =>
    intro s
    rw [List.foldl_cons, ih]
    unfold UState.resetVertex
    simp only [List.mem_cons, UState.mk.injEq, true_and, and_true]
    refine ⟨?_, ?_, ?_⟩ <;> funext v <;> by_cases h : v = a <;> by_cases h' : v ∈ l <;> simp [h, h', Function.update_apply]

theorem foldl_resetEdge (l : List Nat) : ∀ s : UState, l.foldl UState.resetEdge s =
    { s with growth := fun v => if v ∈ l then 0 else s.growth v } := by
  induction l with
  | nil => intro s; simp
  | cons a l ih =>
    intro s
    rw [List.foldl_cons, ih]
    unfold UState.resetEdge
    simp only [List.mem_cons, UState.mk.injEq, and_true]
    funext v
    by_cases h : v = a <;> by_cases h' : v ∈ l <;> simp [h, h', Function.update_apply]

theorem foldl_setSyn (l : List (Nat × Bool)) : ∀ s : UState, l.foldl UState.setSyn s =
    { s with syn := l.foldl (fun f p => Function.update f p.1 p.2) s.syn } := by
  induction l with
  | nil => intro s; simp
  | cons a l ih =>
    intro s
    rw [List.foldl_cons, ih]
    rfl

theorem foldl_update_zip (f : Nat → Bool) (syn : List Bool) : ∀ (k : Nat) (v : Nat),
    ((List.range' k syn.length).zip syn).foldl (fun (f : Nat → Bool) p => Function.update f p.1 p.2) f v =
      if k ≤ v ∧ v < k + syn.length then syn.getD (v - k) false else f v := by
  induction syn generalizing f with
  | nil => intro k v; simp; intro _; omega
  | cons b l ih =>
    intro k v
    simp only [List.length_cons, List.range'_succ, List.zip_cons_cons, List.foldl_cons]
    rw [ih]
    by_cases h : v = k
    · subst h
      simp
    · rw [Function.update_apply, if_neg h]
      by_cases h2 : k + 1 ≤ v ∧ v < k + 1 + l.length
      · rw [if_pos h2, if_pos (by omega)]
        obtain ⟨d, rfl⟩ : ∃ d, v = k + 1 + d := ⟨v - (k + 1), by omega⟩
        rw [show k + 1 + d - k = d + 1 by omega, show k + 1 + d - (k + 1) = d by omega]
        rfl
      · rw [if_neg h2, if_neg (by omega)]

/-- After the reset nothing is left of the run before. -/
theorem reset_fresh {n m : Nat} {s : UState} (h : s.InRange n m) (syn : List Bool) :
    (s.reset n m).setSyndrome n syn = if syn.length = n then .ok (UState.fresh fun v => syn.getD v false) else .error .assertionError := by
  unfold UState.setSyndrome
  split
  · rename_i hn
    subst hn
    congr 1
    rw [foldl_setSyn, UState.reset, foldl_resetEdge, foldl_resetVertex]
    unfold UState.fresh
    simp only [List.mem_range, UState.mk.injEq, and_true, true_and]
    refine ⟨?_, ?_, ?_, ?_, ?_⟩
    · funext i
      split
      · rfl
      · exact h.2 i (by omega)
    · funext v
      rw [List.range_eq_range', foldl_update_zip]
      split
      · rw [Nat.sub_zero]
      · rename_i hv
        rw [(h.1 v (by omega)).2.2.2, List.getD_eq_getElem?_getD, List.getElem?_eq_none (by omega)]; rfl
    · funext v
      split
      · rfl
      · exact (h.1 v (by omega)).1
    · funext v
      split
      · rfl
      · exact (h.1 v (by omega)).2.1
    · funext v
      split
      · rfl
      · exact (h.1 v (by omega)).2.2.1
  · rfl

theorem unionFindFrom_eq (g : UGraph) {s : UState} (h : s.InRange g.n g.edges.length) (er : List Nat) (syn : List Bool) :
    g.unionFindFrom s er syn = g.unionFind er syn := by
  unfold UGraph.unionFindFrom UGraph.unionFind UGraph.initFrom UGraph.init
  rw [reset_fresh h]
  by_cases hn : syn.length = g.n
  · rw [if_pos hn, if_pos hn]
    rfl
  · rw [if_neg hn, if_neg hn]

theorem erasureDecodeFrom_eq {g : EGraph} (h : g.leaves = none) (sel : List Nat) (syn : Nat → Bool) :
    erasureDecodeFrom g sel syn = erasureDecode g.n g.edges sel syn := by
  unfold erasureDecodeFrom erasureDecode
  have : g.clearNeighbours.resetSubgraph = EGraph.fresh g.n g.edges := by
    cases g
    simp only at h
    subst h
    rfl
  rw [this]
  rfl

/-- What may be left in the fields of a union find decoder. -/
structure UfObj.Ok (o : UfObj) : Prop where
  range : o.uf.InRange o.graph.n o.graph.edges.length
  n : o.er.n = o.graph.n
  edges : o.er.edges = o.graph.edges
  leaves : o.er.leaves = none

theorem UfObj.decode_eq {o : UfObj} (h : o.Ok) (er syn : List Bool) : o.decode er syn = ufDecode o.graph er syn := by
  unfold UfObj.decode ufDecode
  rw [unionFindFrom_eq _ h.range]
  simp only [erasureDecodeFrom_eq h.leaves, h.n, h.edges]
  cases o.graph.unionFind (whereTrue er) syn <;> rfl

variable {W σ τ : Type}

/-! ### The fields of the components -/

/-- The components with edges have decoders that agree with `states`, the others have none. -/
def DecHolds (R : σ → τ → Prop) : List (Component W) → List σ → List (CompState τ) → Prop
  | [], _, [] => True
  | c :: cs, ss, t :: ts =>
    if c.edges.isEmpty then t.obj = none ∧ DecHolds R cs ss ts
    else ∃ s ss', ss = s :: ss' ∧ (∃ o, t.obj = some o ∧ R s o) ∧ DecHolds R cs ss' ts
  | _, _, _ => False

theorem decHolds_cons {R : σ → τ → Prop} {c : Component W} {cs : List (Component W)} {ss : List σ} {t : CompState τ} {ts : List (CompState τ)} :
    DecHolds R (c :: cs) ss (t :: ts) ↔ if c.edges.isEmpty then t.obj = none ∧ DecHolds R cs ss ts
      else ∃ s ss', ss = s :: ss' ∧ (∃ o, t.obj = some o ∧ R s o) ∧ DecHolds R cs ss' ts := by
  rw [DecHolds]

theorem DecHolds.map {R : σ → τ → Prop} (f : Component W → CompState τ → CompState τ) (hf : ∀ c s, (f c s).obj = s.obj) :
    ∀ {cs : List (Component W)} {ss : List σ} {ts : List (CompState τ)}, DecHolds R cs ss ts → DecHolds R cs ss (List.zipWith f cs ts)
  | [], _, [], _ => by simp [DecHolds]
  | [], _, _ :: _, h => by simp [DecHolds] at h
  | _ :: _, _, [], h => by simp [DecHolds] at h
  | c :: cs, ss, t :: ts, h => by
    rw [List.zipWith_cons_cons]
    rw [decHolds_cons] at h ⊢
    by_cases hc : c.edges.isEmpty
    · rw [if_pos hc] at h ⊢
      exact ⟨(hf c t).trans h.1, DecHolds.map f hf h.2⟩
    · rw [if_neg hc] at h ⊢
      obtain ⟨s, ss', rfl, ⟨o, ho, hr⟩, h2⟩ := h
      exact ⟨s, ss', rfl, ⟨o, (hf c t).trans ho, hr⟩, DecHolds.map f hf h2⟩

theorem DecHolds.length {R : σ → τ → Prop} : ∀ {cs : List (Component W)} {ss : List σ} {ts : List (CompState τ)}, DecHolds R cs ss ts →
    ts.length = cs.length
  | [], _, [], _ => rfl
  | [], _, _ :: _, h => by simp [DecHolds] at h
  | _ :: _, _, [], h => by simp [DecHolds] at h
  | c :: cs, ss, t :: ts, h => by
    rw [decHolds_cons] at h
    by_cases hc : c.edges.isEmpty
    · rw [if_pos hc] at h
      simp [DecHolds.length h.2]
    · rw [if_neg hc] at h
      obtain ⟨s, ss', rfl, -, h2⟩ := h
      simp [DecHolds.length h2]

theorem newComps_holds {R : σ → τ → Prop} : ∀ {cs : List (Component W)} {ss : List σ} {os : List τ}, List.Forall₂ R ss os →
    ss.length = (cs.filter fun c => !c.edges.isEmpty).length → DecHolds R cs ss (newComps cs os)
  | [], _, _, _, _ => by simp [newComps, DecHolds]
  | c :: cs, ss, os, h, hl => by
    rw [newComps]
    by_cases hc : c.edges.isEmpty
    · rw [if_pos hc, decHolds_cons, if_pos hc]
      refine ⟨rfl, newComps_holds h ?_⟩
      rw [hl, List.filter_cons_of_neg (by simp [hc])]
    · rw [if_neg hc, decHolds_cons, if_neg hc]
      rw [List.filter_cons_of_pos (by simp [hc])] at hl
      cases h with
      | nil => simp at hl
      | cons hr hrs =>
        refine ⟨_, _, rfl, ⟨_, rfl, hr⟩, newComps_holds hrs ?_⟩
        simpa using hl

/-- The fields for a run are set. -/
def IsSet (g : SynGraph W) (er sy : List (List Bool)) (c : Component W) (t : CompState τ) : Prop :=
  t.syn = c.vertexIdx.map (vertexSyndrome g sy) ∧ (c.edges.isEmpty = false → t.erased = c.edgeIdx.map (edgeErased g er))

theorem isSet_zipWith (g : SynGraph W) (er sy : List (List Bool)) : ∀ (cs : List (Component W)) (ts : List (CompState τ)),
    ts.length = cs.length → List.Forall₂ (IsSet g er sy) cs
      (List.zipWith (CompState.setSyndrome g sy) cs (List.zipWith (CompState.setErasure g er) cs ts))
  | [], [], _ => .nil
  | [], _ :: _, h => by simp at h
  | _ :: _, [], h => by simp at h
  | c :: cs, t :: ts, h => by
    simp only [List.zipWith_cons_cons]
    refine .cons ⟨rfl, fun hc => ?_⟩ (isSet_zipWith g er sy cs ts (by simpa using h))
    unfold CompState.setSyndrome CompState.setErasure
    rw [if_neg (by simp [hc])]

theorem check_loop (g : SynGraph W) (er sy : List (List Bool)) : ∀ {cs : List (Component W)} {ts : List (CompState τ)},
    List.Forall₂ (IsSet g er sy) cs ts →
    loopE (fun (_ : Unit) (p : Component W × CompState τ) => CompState.check p.1 p.2) () (cs.zip ts) =
      loopE (fun (_ : Unit) c => checkDecodable (vertexSyndrome g sy) c) () cs
  | _, _, .nil => rfl
  | c :: cs, t :: ts, .cons h hs => by
    have h1 : CompState.check c t = checkDecodable (vertexSyndrome g sy) c := by
      unfold CompState.check checkDecodable
      rw [h.1]
      rfl
    rw [List.zip_cons_cons, loopE, loopE, h1]
    split
    · rfl
    · exact check_loop g er sy hs

/-- A backend with fields that does what the backend without does. -/
def Agrees (b : Backend W σ) (ob : ObjBackend τ) (R : σ → τ → Prop) : Prop :=
  ∀ s o er sy, R s o → (ob.decode o er sy).2 = b.decode s er sy ∧ R s (ob.decode o er sy).1

theorem agrees_uf (support : Bool) {left : UfObj → List Bool → List Bool → UState × EGraph}
    (hl : ∀ (o : UfObj) er sy, UfObj.Ok { o with uf := (left o er sy).1, er := (left o er sy).2 }) :
    Agrees (ufBackend support) (ufObjBackend left) (fun s o => o.graph = s ∧ o.Ok) := by
  rintro s o er sy ⟨rfl, ho⟩
  exact ⟨o.decode_eq ho er sy, rfl, hl o er sy⟩

/-- The results of the components with edges. -/
def resultsOf : List (Component W) → List (CompState τ) → List (List Nat × List Bool)
  | c :: cs, t :: ts => if c.edges.isEmpty then resultsOf cs ts else (c.edgeIdx, t.result) :: resultsOf cs ts
  | _, _ => []

theorem decodeComps_spec (b : Backend W σ) (ob : ObjBackend τ) {R : σ → τ → Prop} (ha : Agrees b ob R) (g : SynGraph W)
    (er sy : List (List Bool)) : ∀ {cs : List (Component W)} {ss : List σ} {ts : List (CompState τ)}, DecHolds R cs ss ts →
    List.Forall₂ (IsSet g er sy) cs ts → DecHolds R cs ss (decodeComps ob cs ts).1 ∧
      match mapLoop (decodeOne b g er sy) ((cs.filter fun c => !c.edges.isEmpty).zip ss) with
      | .error e => (decodeComps ob cs ts).2 = .error e
      | .ok rs => (decodeComps ob cs ts).2 = .ok () ∧ resultsOf cs (decodeComps ob cs ts).1 = rs
  | [], _, [], _, _ => by simp [decodeComps, mapLoop, DecHolds, resultsOf]
  | [], _, _ :: _, h, _ => by simp [DecHolds] at h
  | _ :: _, _, [], h, _ => by simp [DecHolds] at h
  | c :: cs, ss, t :: ts, h, .cons hset hsets => by
    rw [decHolds_cons] at h
    by_cases hc : c.edges.isEmpty
    · rw [if_pos hc] at h
      have ih := decodeComps_spec b ob ha g er sy h.2 hsets
      rw [decodeComps]
      simp only [h.1]
      rw [List.filter_cons_of_neg (by simp [hc]), decHolds_cons, if_pos hc, resultsOf, if_pos hc]
      exact ⟨⟨h.1, ih.1⟩, ih.2⟩
    · rw [if_neg hc] at h
      · obtain ⟨s, ss, rfl, ⟨o, ho, hr⟩, h2⟩ := h
        have ih := decodeComps_spec b ob ha g er sy h2 hsets
        obtain ⟨h3, h4⟩ := ha s o t.erased t.syn hr
        rw [decodeComps]
        simp only [ho]
        rw [List.filter_cons_of_pos (by simp [hc]), List.zip_cons_cons, mapLoop]
        have h5 : decodeOne b g er sy (c, s) = match (ob.decode o t.erased t.syn).2 with
            | .error e => .error e
            | .ok corr => if corr.length = c.edges.length then .ok (c.edgeIdx, corr) else .error .assertionError := by
          rw [h3, hset.1, hset.2 (by simpa using hc)]
          rfl
        rw [h5]
        cases hd : (ob.decode o t.erased t.syn).2 with
        | error x =>
          refine ⟨?_, by simp⟩
          rw [decHolds_cons, if_neg hc]
          exact ⟨_, _, rfl, ⟨_, rfl, h4⟩, h2⟩
        | ok corr =>
          by_cases hl : corr.length = c.edges.length
          · simp only [if_pos hl]
            refine ⟨?_, ?_⟩
            · rw [decHolds_cons, if_neg hc]
              exact ⟨_, _, rfl, ⟨_, rfl, h4⟩, ih.1⟩
            · cases hm : mapLoop (decodeOne b g er sy) ((cs.filter fun c => !c.edges.isEmpty).zip ss) with
              | error e =>
                rw [hm] at ih
                exact ih.2
              | ok rs =>
                rw [hm] at ih
                refine ⟨ih.2.1, ?_⟩
                rw [resultsOf, if_neg hc, ih.2.2]
          · simp only [if_neg hl]
            refine ⟨?_, by simp⟩
            rw [decHolds_cons, if_neg hc]
            exact ⟨_, _, rfl, ⟨_, rfl, h4⟩, h2⟩

/-! ### The results of the edges -/

theorem foldl_setResult_ne (l : List (Nat × Bool)) : ∀ {r : Nat → Bool} {i : Nat}, (∀ p ∈ l, p.1 ≠ i) → l.foldl setResult r i = r i := by
  induction l with
  | nil => intro r i _; rfl
  | cons p l ih =>
    intro r i h
    rw [List.foldl_cons, ih fun q hq => h q (List.mem_cons_of_mem _ hq), setResult, Function.update_of_ne (h p (List.mem_cons_self)).symm]

theorem foldl_setResult_mem (l : List (Nat × Bool)) : ∀ {r r' : Nat → Bool} {i : Nat}, (∃ p ∈ l, p.1 = i) →
    l.foldl setResult r i = l.foldl setResult r' i := by
  induction l with
  | nil => rintro r r' i ⟨p, hp, _⟩; cases hp
  | cons p l ih =>
    rintro r r' i ⟨q, hq, hi⟩
    rw [List.foldl_cons, List.foldl_cons]
    by_cases h : ∃ p ∈ l, p.1 = i
    · exact ih h
    · have h' : ∀ p ∈ l, p.1 ≠ i := fun p hp hpi => h ⟨p, hp, hpi⟩
      rw [foldl_setResult_ne l h', foldl_setResult_ne l h']
      rcases List.mem_cons.mp hq with rfl | hq
      · subst hi
        simp [setResult]
      · exact absurd hi (h' q hq)

theorem foldl_setResult_congr (l : List (Nat × Bool)) {r r' : Nat → Bool} {i : Nat} (h : r i = r' i) :
    l.foldl setResult r i = l.foldl setResult r' i := by
  by_cases hi : ∃ p ∈ l, p.1 = i
  · exact foldl_setResult_mem l hi
  · have h' : ∀ p ∈ l, p.1 ≠ i := fun p hp hpi => hi ⟨p, hp, hpi⟩
    rw [foldl_setResult_ne l h', foldl_setResult_ne l h', h]

theorem foldl_updateComp_eq : ∀ (cs : List (Component W)) (ts : List (CompState τ)) (r : Nat → Bool),
    (cs.zip ts).foldl updateComp r = (resultsOf cs ts).foldl (fun res p => (p.1.zip p.2).foldl setResult res) r
  | [], _, r => by simp [resultsOf]
  | _ :: _, [], r => by simp [resultsOf]
  | c :: cs, t :: ts, r => by
    rw [List.zip_cons_cons, List.foldl_cons, updateComp, resultsOf]
    simp only
    split
    · exact foldl_updateComp_eq cs ts r
    · rw [List.foldl_cons]
      exact foldl_updateComp_eq cs ts _

/-- The results of a run for the edges do not depend on the results before. -/
theorem foldl_results (rs : List (List Nat × List Bool)) : ∀ {r r' : Nat → Bool} {i : Nat},
    (r i = r' i ∨ ∃ p ∈ rs, p.1.length = p.2.length ∧ i ∈ p.1) →
    rs.foldl (fun res p => (p.1.zip p.2).foldl setResult res) r i = rs.foldl (fun res p => (p.1.zip p.2).foldl setResult res) r' i := by
  induction rs with
  | nil => rintro r r' i (h | ⟨p, hp, _⟩) <;> [exact h; cases hp]
  | cons p rs ih =>
    intro r r' i h
    rw [List.foldl_cons, List.foldl_cons]
    apply ih
    rcases h with h | ⟨q, hq, hl, hi⟩
    · exact .inl (foldl_setResult_congr _ h)
    · rcases List.mem_cons.mp hq with rfl | hq
      · left
        apply foldl_setResult_mem
        obtain ⟨k, hk, rfl⟩ := List.getElem_of_mem hi
        exact ⟨(q.1[k], q.2[k]'(by omega)), List.mem_iff_getElem.mpr ⟨k, by simp; omega, by simp⟩, rfl⟩
      · exact .inr ⟨q, hq, hl, hi⟩

theorem foldl_results_out (rs : List (List Nat × List Bool)) : ∀ {r : Nat → Bool} {i : Nat}, (∀ p ∈ rs, i ∉ p.1) →
    rs.foldl (fun res p => (p.1.zip p.2).foldl setResult res) r i = r i := by
  induction rs with
  | nil => intros; rfl
  | cons p rs ih =>
    intro r i h
    rw [List.foldl_cons, ih fun q hq => h q (List.mem_cons_of_mem _ hq)]
    exact foldl_setResult_ne _ fun q hq hqi => h p List.mem_cons_self (hqi ▸ (List.of_mem_zip hq).1)

end Plaquette
