import Verif.Lemmas.UFStart
import Mathlib.Algebra.Order.Floor.Ring
import Mathlib.Algebra.BigOperators.Ring.Finset
import Mathlib.Algebra.Order.Field.Basic

/-!
# Union find: the steps, and that they end
-/

namespace Plaquette

variable {g : UGraph} {L : Nat → Prop} {s : UState} {κ : Nat → Option Nat} {dp : Nat → Nat}

/-! ## The result -/

theorem UInv.joined (h : UInv g L s κ dp) {v u c : Nat} (hv : κ v = some c) (hj : JoinedBy g.edges L v u) : κ u = some c := by
  induction hj with
  | refl => exact hv
  | tail _ hs ih =>
    obtain ⟨i, e, hi, he, hx, hy⟩ := hs
    obtain ⟨_, d, hd⟩ := h.link i hi
    have h1 := hd e he _ hx
    have h2 := hd e he _ hy
    rw [h2, ← h1, ih]

theorem UInv.joined_none (h : UInv g L s κ dp) {v u : Nat} (hv : κ v = none) (hj : JoinedBy g.edges L v u) : u = v := by
  induction hj with
  | refl => rfl
  | tail _ hs ih =>
    obtain ⟨i, e, hi, he, hx, hy⟩ := hs
    obtain ⟨_, d, hd⟩ := h.link i hi
    have h1 := hd e he _ hx
    rw [ih, hv] at h1
    simp at h1

theorem psum_card (n : Nat) (syn : Nat → Bool) (κ : Nat → Option Nat) (c : Nat) :
    psum n syn κ c = true ↔ (Set.ncard {u | u < n ∧ κ u = some c ∧ syn u = true}) % 2 = 1 := by
  unfold psum
  rw [xsum_eq_odd]
  have : {u | u < n ∧ κ u = some c ∧ syn u = true} = (((List.range n).filter fun v => syn v && decide (κ v = some c)).toFinset : Set Nat) := by
    ext u
    simp only [Set.mem_ofPred_eq, List.coe_toFinset, List.mem_filter, List.mem_range, Bool.and_eq_true, decide_eq_true_eq]
    tauto
  rw [this, Set.ncard_coe_finset, List.toFinset_card_of_nodup (List.nodup_range.filter _)]

/-- When no cluster is open, every cluster of complete edges is even or has a dangling edge. -/
theorem StepInv.even {syn : Nat → Bool} (h : StepInv g syn s κ dp) (ho : s.openList = []) :
    EvenClusters g.n g.edges (Comp g s) syn := by
  intro v _
  cases hv : κ v with
  | none =>
    right
    have : {u | u < g.n ∧ JoinedBy g.edges (Comp g s) v u ∧ syn u = true} = ∅ := by
      ext u
      simp only [Set.mem_ofPred_eq, Set.mem_empty_iff_false, iff_false]
      rintro ⟨_, hj, hs⟩
      rw [h.inv.joined_none hv hj] at hs
      exact h.used v hs hv
    rw [this, Set.ncard_empty]
    exact ⟨0, rfl⟩
  | some c =>
    obtain ⟨r, B, hl⟩ := h.inv.live hv
    rcases hl.par with ⟨_, u, i, h1, h2, h3⟩ | ⟨h1, _⟩
    · exact .inl ⟨u, i, h.inv.conn v u c hv h1, h2, h3⟩
    · right
      have hset : {u | u < g.n ∧ JoinedBy g.edges (Comp g s) v u ∧ syn u = true} = {u | u < g.n ∧ κ u = some c ∧ syn u = true} := by
        ext u
        simp only [Set.mem_ofPred_eq]
        constructor
        · exact fun ⟨a, b, d⟩ => ⟨a, h.inv.joined hv b, d⟩
        · exact fun ⟨a, b, d⟩ => ⟨a, h.inv.conn v u c hv b, d⟩
      rw [hset]
      have hp : psum g.n syn κ c = false := by
        by_contra hcon
        have hcon : psum g.n syn κ c = true := by simpa using hcon
        rw [h.syn_eq, hcon] at h1
        have h4 := h.inv.par1 c (h.inv.kc v c hv) (by rw [h1]; rfl)
        have := (h.inv.opens c).2 ⟨h.inv.kc v c hv, h4⟩
        rw [ho] at this; simp at this
      have := mt (psum_card g.n syn κ c).2 (by rw [hp]; simp)
      exact Nat.even_iff.2 (by omega)

/-- An open cluster with an empty boundary cannot be corrected. -/
theorem StepInv.stuck (hwf : EdgesWf g.n g.edges) {syn : Nat → Bool} (h : StepInv g syn s κ dp) {c r : Nat} (hl : LiveC g (Comp g s) s κ dp c r [])
    (hp : (s.clusters c).parity = 1) : ¬ EvenClusters g.n g.edges (fun _ => True) syn := by
  intro hE
  have hint : ∀ v, κ v = some c → s.state v = .interior := by
    intro v hv
    cases hs : s.state v with
    | unused => rw [h.inv.unused, hv] at hs; simp at hs
    | boundary => have := (hl.mem v).2 ⟨hv, hs⟩; simp at this
    | interior => rfl
  have hclosed : ∀ u, JoinedBy g.edges (fun _ => True) r u → κ u = some c := by
    intro u hj
    induction hj with
    | refl => exact hl.kr
    | tail _ hs ih =>
      obtain ⟨i, e, _, he, hx, hy⟩ := hs
      have hLi := h.inv.inter _ (hint _ ih) i e he hx
      obtain ⟨_, d, hd⟩ := h.inv.link i hLi
      have h1 := hd e he _ hx
      have h2 := hd e he _ hy
      rw [h2, ← h1, ih]
  rcases hl.par with ⟨h1, _⟩ | ⟨h1, h2⟩
  · rw [hp] at h1; simp at h1
  · rcases hE r (h.inv.lt r (by rw [hl.kr]; simp)) with ⟨u, i, hj, _, hi⟩ | heven
    · have hu := hclosed u hj
      exact h2 u i hu (h.inv.inter u (hint u hu) i _ hi (by simp)) hi
    · have hset : {u | u < g.n ∧ JoinedBy g.edges (fun _ => True) r u ∧ syn u = true} = {u | u < g.n ∧ κ u = some c ∧ syn u = true} := by
        ext u
        simp only [Set.mem_ofPred_eq]
        constructor
        · exact fun ⟨a, b, d⟩ => ⟨a, hclosed u b, d⟩
        · exact fun ⟨a, b, d⟩ => ⟨a, (h.inv.conn r u c hl.kr b).mono fun _ _ => trivial, d⟩
      rw [hset, Nat.even_iff] at heven
      have : psum g.n syn κ c = true := by
        rw [hp, h.syn_eq] at h1
        cases hps : psum g.n syn κ c
        · rw [hps] at h1; simp at h1
        · rfl
      have := (psum_card g.n syn κ c).1 this
      omega

/-! ## Growing -/

/-- How often edge `i` can still be grown. -/
def remain (g : UGraph) (G : Nat → ℚ) (i : Nat) : Nat := ⌈(g.maxGrowth i - G i) / g.increment i⌉₊

/-- How often the edges can still be grown altogether. -/
def remainAll (g : UGraph) (G : Nat → ℚ) : Nat := ∑ i ∈ Finset.range g.edges.length, remain g G i

theorem ceil_sub_one {x : ℚ} (hx : 0 < x) : ⌈x - 1⌉₊ + 1 ≤ ⌈x⌉₊ := by
  have h1 : 1 ≤ ⌈x⌉₊ := Nat.one_le_ceil_iff.2 hx
  have h2 : ⌈x - 1⌉₊ ≤ ⌈x⌉₊ - 1 := by
    rw [Nat.ceil_le]
    push_cast [Nat.cast_sub h1]
    have := Nat.le_ceil x
    linarith
  omega

theorem remain_grow {G : Nat → ℚ} {i : Nat} (hi : i < g.edges.length) (hpos : 0 < g.increment i) (hlt : G i < g.maxGrowth i) :
    remainAll g (Function.update G i (G i + g.increment i)) + 1 ≤ remainAll g G := by
  unfold remainAll
  have hm : i ∈ Finset.range g.edges.length := Finset.mem_range.2 hi
  rw [← Finset.add_sum_erase _ _ hm, ← Finset.add_sum_erase _ (remain g G) hm]
  have h1 : ∑ j ∈ (Finset.range g.edges.length).erase i, remain g (Function.update G i (G i + g.increment i)) j =
      ∑ j ∈ (Finset.range g.edges.length).erase i, remain g G j := by
    refine Finset.sum_congr rfl fun j hj => ?_
    unfold remain
    rw [Function.update_of_ne (Finset.ne_of_mem_erase hj)]
  have h2 : remain g (Function.update G i (G i + g.increment i)) i + 1 ≤ remain g G i := by
    unfold remain
    rw [Function.update_self]
    have : (g.maxGrowth i - (G i + g.increment i)) / g.increment i = (g.maxGrowth i - G i) / g.increment i - 1 := by
      field_simp
      ring
    rw [this]
    exact ceil_sub_one (div_pos (by linarith) hpos)
  omega

/-- What growing the edges of the list `pre` has done. -/
structure EdgesGrown (g : UGraph) (s : UState) (pre : List Nat) (t : GrowthState) : Prop where
  same : t.s = { s with growth := t.s.growth }
  keep : ∀ i, g.complete s i = true → t.s.growth i = s.growth i
  nodup : t.new.Nodup
  new : ∀ i, i ∈ t.new ↔ g.complete t.s i = true ∧ g.complete s i = false
  sub : ∀ i ∈ t.new, i ∈ pre
  len : t.new.length ≤ t.grown
  some : (∃ i ∈ pre, g.complete s i = false) → 0 < t.grown
  rem : t.grown + remainAll g t.s.growth ≤ remainAll g s.growth

theorem EdgesGrown.edge {pre : List Nat} {t : GrowthState} (h : EdgesGrown g s pre t) {i : Nat} (hi : i < g.edges.length) (hpos : 0 < g.increment i) :
    EdgesGrown g s (pre ++ [i]) (g.growEdge t i) := by
  unfold UGraph.growEdge
  by_cases hc : g.complete t.s i = true
  · simp only [hc, if_true]
    refine ⟨h.same, h.keep, h.nodup, h.new, fun j hj => List.mem_append_left _ (h.sub j hj), h.len, ?_, h.rem⟩
    rintro ⟨j, hj, hcj⟩
    rw [List.mem_append, List.mem_singleton] at hj
    rcases hj with hj | rfl
    · exact h.some ⟨j, hj, hcj⟩
    · have : j ∈ t.new := (h.new j).2 ⟨hc, hcj⟩
      have := List.length_pos_of_mem this
      have := h.len
      omega
  · simp only [if_neg hc]
    have hcf : g.complete t.s i = false := by simpa using hc
    have hlt : t.s.growth i < g.maxGrowth i := by
      have := of_decide_eq_false hcf
      exact not_le.1 this
    have hcs : g.complete s i = false := by
      by_contra hcon
      have hcon : g.complete s i = true := by simpa using hcon
      have h1 := h.keep i hcon
      have : g.complete t.s i = g.complete s i := by simp only [UGraph.complete, h1]
      rw [this, hcon] at hcf; simp at hcf
    set s' : UState := { t.s with growth := Function.update t.s.growth i (t.s.growth i + g.increment i) } with hs'
    have hgi : ∀ j, j ≠ i → s'.growth j = t.s.growth j := fun j hj => Function.update_of_ne hj _ _
    have hcj : ∀ j, j ≠ i → g.complete s' j = g.complete t.s j := fun j hj => by simp only [UGraph.complete, hgi j hj]
    have hin : i ∉ t.new := fun hm => by have := ((h.new i).1 hm).1; rw [hcf] at this; simp at this
    refine ⟨?_, ?_, ?_, ?_, ?_, ?_, ?_, ?_⟩
    · show s' = _
      rw [hs', h.same]
    · intro j hj
      have hji : j ≠ i := by rintro rfl; rw [hcs] at hj; simp at hj
      exact (hgi j hji).trans (h.keep j hj)
    · dsimp only
      split
      · refine List.nodup_append.2 ⟨h.nodup, by simp, ?_⟩
        rintro x hx y hy rfl
        obtain rfl : x = i := by simpa using hy
        exact hin hx
      · exact h.nodup
    · intro j
      show j ∈ (if g.complete s' i = true then t.new ++ [i] else t.new) ↔ g.complete s' j = true ∧ _
      by_cases hji : j = i
      · subst hji
        by_cases hc' : g.complete s' j = true
        · simp [hc', hcs]
        · simp [hc', hin]
      · rw [hcj j hji, ← h.new]
        split
        · simp [hji]
        · rfl
    · intro j hj
      have hj : j ∈ (if g.complete s' i = true then t.new ++ [i] else t.new) := hj
      rw [List.mem_append, List.mem_singleton]
      split at hj
      · rw [List.mem_append, List.mem_singleton] at hj
        rcases hj with hj | hj
        · exact .inl (h.sub j hj)
        · exact .inr hj
      · exact .inl (h.sub j hj)
    · have := h.len
      show (if g.complete s' i = true then t.new ++ [i] else t.new).length ≤ t.grown + 1
      split
      · rw [List.length_append]; simp; omega
      · omega
    · intro _; exact Nat.succ_pos _
    · have h1 := remain_grow hi hpos hlt
      have h2 := h.rem
      show t.grown + 1 + remainAll g s'.growth ≤ _
      have h3 : remainAll g s'.growth = remainAll g (Function.update t.s.growth i (t.s.growth i + g.increment i)) := rfl
      omega

theorem EdgesGrown.loop : ∀ (l pre : List Nat) (t : GrowthState), EdgesGrown g s pre t → (∀ i ∈ l, i < g.edges.length ∧ 0 < g.increment i) →
    EdgesGrown g s (pre ++ l) (l.foldl g.growEdge t) := by
  intro l
  induction l with
  | nil => intro pre t h _; simpa using h
  | cons a l ih =>
    intro pre t h hl
    have h1 := h.edge (hl a (by simp)).1 (hl a (by simp)).2
    have h2 := ih _ _ h1 (fun i hi => hl i (List.mem_cons_of_mem _ hi))
    rwa [List.append_assoc] at h2

theorem EdgesGrown.start : EdgesGrown g s [] { s := s, grown := 0, new := [] } :=
  ⟨rfl, fun _ _ => rfl, List.nodup_nil, fun i => by simp, by simp, by simp, by simp, by simp⟩

/-- Growing edges leaves the clusters as they are. -/
theorem UInv.grow (h : UInv g L s κ dp) {G : Nat → ℚ} (hL : ∀ i, L i → g.complete { s with growth := G } i = true) :
    UInv g L { s with growth := G } κ dp := by
  refine ⟨h.lt, h.unused, h.free, h.top, h.up, h.depth, h.kc, ?_, h.onodup, h.opens, h.par1, fun i hi => ⟨hL i hi, (h.link i hi).2⟩, h.conn, h.inter⟩
  intro c hc
  rcases h.cl c hc with hx | ⟨r, B, hx⟩
  · exact .inl ⟨hx.bnd, hx.par, hx.none⟩
  · exact .inr ⟨r, B, hx.root, hx.bnd, hx.kr, hx.pr, hx.dr, hx.nodup, hx.mem, hx.par⟩

theorem openBoundaries_spec (s : UState) : ∀ (cs : List Nat), (∀ c ∈ cs, ∃ B, (s.clusters c).boundary = some B) →
    ∃ Bs, s.openBoundaries cs = .ok Bs ∧ (∀ B ∈ Bs, ∃ c ∈ cs, (s.clusters c).boundary = some B) ∧ (cs ≠ [] → Bs ≠ []) ∧
      Bs = cs.map fun c => (s.clusters c).boundary.getD [] := by
  intro cs
  induction cs with
  | nil => intro _; exact ⟨[], rfl, by simp, by simp, rfl⟩
  | cons c cs ih =>
    intro h
    obtain ⟨B, hB⟩ := h c (by simp)
    obtain ⟨Bs, e1, h1, _, h3⟩ := ih (fun d hd => h d (List.mem_cons_of_mem _ hd))
    refine ⟨B :: Bs, by simp only [UState.openBoundaries, hB, e1], ?_, by simp, by rw [List.map_cons, hB, ← h3]; rfl⟩
    intro B' hB'
    rcases List.mem_cons.1 hB' with rfl | hB'
    · exact ⟨c, by simp, hB⟩
    · obtain ⟨d, hd, hb⟩ := h1 B' hB'
      exact ⟨d, List.mem_cons_of_mem _ hd, hb⟩

theorem mem_toGrow {Bs : List (List Nat)} {i : Nat} (h : i ∈ g.toGrow Bs) : ∃ B ∈ Bs, ∃ v ∈ B, i ∈ g.edgesAt v := by
  unfold UGraph.toGrow at h
  rw [List.mem_flatMap] at h
  obtain ⟨v, hv, hi⟩ := h
  rw [List.mem_flatten] at hv
  obtain ⟨B, hB, hv⟩ := hv
  exact ⟨B, (List.mem_filter.1 hB).1, v, hv, hi⟩

theorem toGrow_min {Bs : List (List Nat)} (h : Bs ≠ []) : ∃ B ∈ Bs, ∀ v ∈ B, ∀ i ∈ g.edgesAt v, i ∈ g.toGrow Bs := by
  have hne : Bs.map List.length ≠ [] := by simpa using h
  obtain ⟨m, hm⟩ : ∃ m, (Bs.map List.length).min? = some m := by
    cases hm : (Bs.map List.length).min? with
    | some m => exact ⟨m, rfl⟩
    | none => exact absurd (List.min?_eq_none_iff.1 hm) hne
  obtain ⟨B, hB, hlen⟩ := List.mem_map.1 (List.min?_mem hm)
  refine ⟨B, hB, fun v hv i hi => ?_⟩
  unfold UGraph.toGrow
  rw [List.mem_flatMap]
  refine ⟨v, List.mem_flatten.2 ⟨B, List.mem_filter.2 ⟨hB, ?_⟩, hv⟩, hi⟩
  rw [hm]
  simp [hlen]

/-! ## A step -/

/-- Growing one edge, `unionfind_decoder.py:668-673`, as far as the growth of the edges goes. -/
def growOne (g : UGraph) (G : Nat → ℚ) (i : Nat) : Nat → ℚ := if g.maxGrowth i ≤ G i then G else Function.update G i (G i + g.increment i)

theorem growEdge_growth (l : List Nat) : ∀ t : GrowthState, (l.foldl g.growEdge t).s.growth = l.foldl (growOne g) t.s.growth := by
  induction l with
  | nil => intro t; rfl
  | cons a l ih =>
    intro t
    rw [List.foldl_cons, List.foldl_cons, ih]
    congr 1
    unfold UGraph.growEdge growOne UGraph.complete
    by_cases h : g.maxGrowth a ≤ t.s.growth a
    · simp only [h, decide_true, if_true]
    · simp only [h, decide_false, if_false]
      rfl

/-- The complete edges for a given growth. -/
def DoneG (g : UGraph) (G : Nat → ℚ) (i : Nat) : Prop := i < g.edges.length ∧ g.maxGrowth i ≤ G i

theorem comp_doneG (s : UState) : Comp g s = DoneG g s.growth := by
  funext i
  simp [Comp, DoneG, UGraph.complete]

/-- What a step does to the growth: all edges at the vertices of `W` are grown. These vertices are in odd clusters without dangling
edge, and with a vertex of such a cluster all vertices of the cluster with incomplete edges are in `W`. -/
structure Grew (g : UGraph) (syn : Nat → Bool) (G G' : Nat → ℚ) (W : List Nat) : Prop where
  nodup : W.Nodup
  growth : G' = (W.flatMap g.edgesAt).foldl (growOne g) G
  lt : ∀ v ∈ W, v < g.n
  odd : ∀ v ∈ W, (Set.ncard {u | u < g.n ∧ JoinedBy g.edges (DoneG g G) v u ∧ syn u = true}) % 2 = 1
  nodang : ∀ v ∈ W, ∀ u i, JoinedBy g.edges (DoneG g G) v u → DoneG g G i → g.edges[i]? ≠ some [u]
  all : ∀ v ∈ W, ∀ u i e, JoinedBy g.edges (DoneG g G) v u → g.edges[i]? = some e → u ∈ e → ¬ DoneG g G i → u ∈ W

theorem Grew.refl {syn : Nat → Bool} (G : Nat → ℚ) : Grew g syn G G [] :=
  ⟨List.nodup_nil, rfl, by simp, by simp, by simp, by simp⟩

/-- The vertices whose edges are grown in a step. -/
theorem StepInv.grew {syn : Nat → Bool} (h : StepInv g syn s κ dp) (hp : ∀ c ∈ s.openList, (s.clusters c).parity = 1) (Bs : List (List Nat))
    (hBs : Bs = s.openList.map fun c => (s.clusters c).boundary.getD []) :
    ∃ W, Grew g syn s.growth ((g.toGrow Bs).foldl (growOne g) s.growth) W := by
  set m := ((Bs.map List.length).min?).getD 0 with hm
  have hlive : ∀ c ∈ s.openList, ∃ r B, LiveC g (Comp g s) s κ dp c r B := by
    intro c hc
    rcases h.inv.cl c ((h.inv.opens c).1 hc).1 with hx | hx
    · have := hx.par; rw [hp c hc] at this; simp at this
    · exact hx
  have hB : ∀ c ∈ s.openList, ∀ v, v ∈ (s.clusters c).boundary.getD [] ↔ κ v = some c ∧ s.state v = .boundary := by
    intro c hc v
    obtain ⟨r, B, hl⟩ := hlive c hc
    rw [hl.bnd]
    exact hl.mem v
  set cs := s.openList.filter fun c => decide (((s.clusters c).boundary.getD []).length ≤ m) with hcs
  have hW : (Bs.filter fun B => decide (B.length ≤ m)).flatten = cs.flatMap fun c => (s.clusters c).boundary.getD [] := by
    rw [hBs, List.filter_map, List.flatMap_def]
    rfl
  have hmem : ∀ c ∈ cs, c ∈ s.openList := fun c hc => (List.mem_filter.1 hc).1
  refine ⟨cs.flatMap fun c => (s.clusters c).boundary.getD [], ?_, ?_, ?_, ?_, ?_, ?_⟩
  · rw [List.nodup_flatMap]
    refine ⟨fun c hc => ?_, ?_⟩
    · obtain ⟨r, B, hl⟩ := hlive c (hmem c hc)
      rw [hl.bnd]
      exact hl.nodup
    · refine (h.inv.onodup.filter _).imp_of_mem ?_
      intro c d hc hd hcd v hv hv'
      rw [hB c (hmem c hc)] at hv
      rw [hB d (hmem d hd)] at hv'
      have := hv.1.symm.trans hv'.1
      exact hcd (by simpa using this)
  · rw [← hW]; rfl
  all_goals
    intro v hv
    obtain ⟨c, hc, hvc⟩ := List.mem_flatMap.1 hv
    have hco := hmem c hc
    obtain ⟨hk, hb⟩ := (hB c hco v).1 hvc
    obtain ⟨r, B, hl⟩ := hlive c hco
    try rw [← comp_doneG]
  · exact h.inv.lt v (by rw [hk]; simp)
  · have hset : {u | u < g.n ∧ JoinedBy g.edges (Comp g s) v u ∧ syn u = true} = {u | u < g.n ∧ κ u = some c ∧ syn u = true} := by
      ext u
      simp only [Set.mem_ofPred_eq]
      constructor
      · exact fun ⟨a, b, d⟩ => ⟨a, h.inv.joined hk b, d⟩
      · exact fun ⟨a, b, d⟩ => ⟨a, h.inv.conn v u c hk b, d⟩
    rw [hset, ← psum_card]
    rcases hl.par with ⟨h1, _⟩ | ⟨h1, _⟩
    · rw [hp c hco] at h1; simp at h1
    · rw [hp c hco, h.syn_eq] at h1
      cases hps : psum g.n syn κ c
      · rw [hps] at h1; simp at h1
      · rfl
  · intro u i hj hi
    rcases hl.par with ⟨h1, _⟩ | ⟨_, h2⟩
    · rw [hp c hco] at h1; simp at h1
    · exact h2 u i (h.inv.joined hk hj) hi
  · intro u i e hj he hu hn
    have hku := h.inv.joined hk hj
    refine List.mem_flatMap.2 ⟨c, hc, (hB c hco u).2 ⟨hku, ?_⟩⟩
    cases hs : s.state u with
    | unused => rw [h.inv.unused, hku] at hs; simp at hs
    | boundary => rfl
    | interior => exact absurd (h.inv.inter u hs i e he hu) hn

theorem Comp.congr {s s' : UState} (h : s'.growth = s.growth) (i : Nat) : Comp g s i ↔ Comp g s' i := by
  unfold Comp; rw [complete_congr h]

theorem handleLoop (hwf : EdgesWf g.n g.edges) {syn : Nat → Bool} (h : UInv g L s κ dp) (hsyn : s.syn = syn)
    (hused : ∀ v, syn v = true → κ v ≠ none) {new : List Nat} (hnd : new.Nodup)
    (hnew : ∀ i ∈ new, ¬ L i ∧ g.complete s i = true ∧ ∃ e, g.edges[i]? = some e ∧ ∃ v ∈ e, s.state v = .boundary) :
    ∃ s' κ' dp', loopE g.handleEdge s new = .ok s' ∧ UInv g (fun j => L j ∨ j ∈ new) s' κ' dp' ∧ SameBase s s' ∧
      (∀ v, syn v = true → κ' v ≠ none) := by
  obtain ⟨s', e1, κ', dp', h1, h2, _, h4⟩ := loopE_inv (f := g.handleEdge)
    (fun k s1 => ∃ κ1 dp1, UInv g (fun j => L j ∨ j ∈ new.take k) s1 κ1 dp1 ∧ SameBase s s1 ∧
      (∀ v, s.state v = .boundary → s1.state v = .boundary) ∧ ∀ v, syn v = true → κ1 v ≠ none)
    new 0 s ⟨κ, dp, by simpa using h, ⟨rfl, rfl⟩, fun _ hv => hv, hused⟩ (by
      rintro j i s1 hj ⟨κ1, dp1, h1, h2, h3, h4⟩
      rw [Nat.zero_add] at h1 ⊢
      obtain ⟨hLi, hci, e, he, v, hv, hb⟩ := hnew i (List.mem_of_getElem? hj)
      obtain ⟨hjl, hji⟩ := List.getElem?_eq_some_iff.1 hj
      have hni : ¬ (L i ∨ i ∈ new.take j) := by
        rintro (hi | hi)
        · exact hLi hi
        · obtain ⟨k, hk⟩ := List.getElem?_of_mem hi
          rw [List.getElem?_take] at hk
          split at hk
          · rename_i hkj
            obtain ⟨hkl, hki⟩ := List.getElem?_eq_some_iff.1 hk
            have := (hnd.getElem_inj_iff (hi := hkl) (hj := hjl)).1 (hki.trans hji.symm)
            omega
          · simp at hk
      obtain ⟨s2, κ2, dp2, e2, h5, h6, h7⟩ := h1.handleEdge hwf he hni (by rw [complete_congr h2.growth]; exact hci)
        ⟨v, hv, h3 v hb⟩ (fun w hw => by rw [Ne, h1.unused]; exact h4 w (by rw [← hsyn, ← h2.syn]; exact hw))
      refine ⟨s2, e2, κ2, dp2, h5.congrL fun k => ?_, h2.trans h6, fun w hw => ?_, fun w hw => ?_⟩
      · rw [List.take_add_one, hj]
        simp only [Option.toList_some, List.mem_append, List.mem_singleton]
        tauto
      · rcases h7 w with h8 | h8
        · rw [h8]; exact h3 w hw
        · exact h8.2
      · rw [Ne, ← h5.unused]
        rcases h7 w with h8 | h8
        · rw [h8, h1.unused]; exact h4 w hw
        · rw [h8.2]; simp)
  rw [Nat.zero_add, List.take_length] at h1
  exact ⟨s', κ', dp', e1, h1, h2, h4⟩

theorem updateAll (hwf : EdgesWf g.n g.edges) (h : UInv g (Comp g s) s κ dp) :
    ∃ s', loopE g.updateAfterGrowth s (List.range s.nClusters) = .ok s' ∧ UInv g (Comp g s') s' κ dp ∧ SameBase s s' ∧
      (∀ v, s'.state v = .boundary → g.allComplete s' v = false) := by
  obtain ⟨s', e1, h1, h2, _, h4⟩ := loopE_inv (f := g.updateAfterGrowth)
    (fun k s1 => UInv g (Comp g s) s1 κ dp ∧ SameBase s s1 ∧ s1.nClusters = s.nClusters ∧
      ∀ v c, κ v = some c → c < k → s1.state v = .boundary → g.allComplete s v = false)
    (List.range s.nClusters) 0 s ⟨h, ⟨rfl, rfl⟩, rfl, by omega⟩ (by
      rintro j a s1 hj ⟨h1, h2, h3, h4⟩
      obtain ⟨hj1, rfl⟩ : j < s.nClusters ∧ a = j := by
        have hjl := (List.getElem?_eq_some_iff.1 hj).1
        rw [List.length_range] at hjl
        rw [List.getElem?_range hjl] at hj
        exact ⟨hjl, by simpa using hj.symm⟩
      rw [Nat.zero_add] at h4 ⊢
      obtain ⟨s2, e2, h5, h6, h7, h8, h9⟩ := h1.update hwf (c := a) (by rw [h3]; exact hj1)
        (fun w hw i e he hm hcomp => ⟨(List.getElem?_eq_some_iff.1 he).1, by rw [← complete_congr h2.growth]; exact hcomp⟩)
      refine ⟨s2, e2, h5, h2.trans h6, h7.trans h3, fun v c hv hc hb => ?_⟩
      by_cases hca : c = a
      · subst hca
        rw [← allComplete_congr h2.growth]
        exact h9 v hv hb
      · refine h4 v c hv (by omega) ?_
        rw [← h8 v (by rw [hv]; simpa using hca)]
        exact hb)
  refine ⟨s', e1, h1.congrL (Comp.congr h2.growth), h2, fun v hv => ?_⟩
  rw [allComplete_congr h2.growth]
  have hk : κ v ≠ none := by rw [Ne, ← h1.unused, hv]; simp
  obtain ⟨c, hc⟩ := Option.ne_none_iff_exists'.1 hk
  rw [Nat.zero_add, List.length_range] at h4
  exact h4 v c hc (h.kc v c hc) hv

theorem step_spec (hwf : EdgesWf g.n g.edges) (hinc : ∀ i, i < g.edges.length → 0 < g.increment i) {syn : Nat → Bool}
    (h : StepInv g syn s κ dp) :
    (∃ s' κ' dp', g.step s = .ok s' ∧ StepInv g syn s' κ' dp' ∧ (s'.openList = [] ∨ remainAll g s'.growth < remainAll g s.growth) ∧
      (∀ i, g.complete s i = true → g.complete s' i = true) ∧ ∃ W, Grew g syn s.growth s'.growth W) ∨
    (g.step s = .error .assertionError ∧ ¬ EvenClusters g.n g.edges (fun _ => True) syn) := by
  obtain ⟨s1, e1, h1, h2, h3, h4⟩ := h.inv.refresh
  have hI : StepInv g syn s1 κ dp := ⟨h1.congrL (Comp.congr h2.growth), h2.syn.trans h.syn_eq, h.used, fun v hv => by
    rw [allComplete_congr h2.growth]; rw [h3] at hv; exact h.bnd v hv⟩
  unfold UGraph.step
  simp only [e1]
  by_cases ho : s1.openList = []
  · left
    simp only [ho, if_true]
    exact ⟨s1, κ, dp, rfl, hI, .inl ho, fun i hi => by rw [complete_congr h2.growth]; exact hi, [], by rw [h2.growth]; exact Grew.refl _⟩
  simp only [if_neg ho]
  have hlive : ∀ c ∈ s1.openList, ∃ r B, LiveC g (Comp g s1) s1 κ dp c r B := by
    intro c hc
    rcases hI.inv.cl c ((hI.inv.opens c).1 hc).1 with hx | hx
    · have := hx.par; rw [h4 c hc] at this; simp at this
    · exact hx
  obtain ⟨Bs, e2, hBs, hne, hBs'⟩ := openBoundaries_spec s1 s1.openList (fun c hc => by
    obtain ⟨r, B, hl⟩ := hlive c hc; exact ⟨B, hl.bnd⟩)
  simp only [e2]
  have hvb : ∀ B ∈ Bs, ∀ v ∈ B, s1.state v = .boundary := by
    intro B hB v hv
    obtain ⟨c, hc, hb⟩ := hBs B hB
    obtain ⟨r, B', hl⟩ := hlive c hc
    obtain rfl : B' = B := by have := hl.bnd.symm.trans hb; simpa using this
    exact ((hl.mem v).1 hv).2
  have hG := EdgesGrown.loop (g := g) (g.toGrow Bs) [] { s := s1, grown := 0, new := [] } EdgesGrown.start (fun i hi => by
    obtain ⟨B, _, v, _, hiv⟩ := mem_toGrow hi
    obtain ⟨e, he, _⟩ := (UGraph.mem_edgesAt hwf).1 hiv
    have := (List.getElem?_eq_some_iff.1 he).1
    exact ⟨this, hinc i this⟩)
  rw [List.nil_append] at hG
  have hgw : ∃ W, Grew g syn s.growth ((g.toGrow Bs).foldl g.growEdge { s := s1, grown := 0, new := [] }).s.growth W := by
    rw [growEdge_growth, ← h2.growth]
    exact hI.grew h4 Bs hBs'
  generalize (g.toGrow Bs).foldl g.growEdge { s := s1, grown := 0, new := [] } = t at hG hgw
  obtain ⟨B, hB, hmin⟩ := toGrow_min (g := g) (hne ho)
  obtain ⟨c, hc, hb⟩ := hBs B hB
  obtain ⟨r, B', hl⟩ := hlive c hc
  obtain rfl : B' = B := by have := hl.bnd.symm.trans hb; simpa using this
  by_cases hz : t.grown = 0
  · right
    simp only [hz, if_true]
    refine ⟨trivial, ?_⟩
    have hnil : B' = [] := by
      by_contra hcon
      obtain ⟨v, hv⟩ := List.exists_mem_of_ne_nil _ hcon
      have h5 := hI.bnd v (hvb B' hB v hv)
      have : ∃ i ∈ g.edgesAt v, g.complete s1 i = false := by
        unfold UGraph.allComplete at h5
        rw [List.all_eq_false] at h5
        obtain ⟨i, hi, hi2⟩ := h5
        exact ⟨i, hi, by simpa using hi2⟩
      obtain ⟨i, hi, hi2⟩ := this
      have := hG.some ⟨i, hmin v hv i hi, hi2⟩
      omega
    subst hnil
    exact hI.stuck hwf hl (h4 c hc)
  left
  simp only [if_neg hz]
  have hcm : ∀ i, g.complete s1 i = true → g.complete t.s i = true := by
    intro i hi
    have : g.complete t.s i = g.complete s1 i := by simp only [UGraph.complete, hG.keep i hi]
    rw [this]; exact hi
  have hcs : ∀ i, g.complete s i = true → g.complete t.s i = true := fun i hi => hcm i (by rw [complete_congr h2.growth]; exact hi)
  have hmu : remainAll g t.s.growth < remainAll g s.growth := by
    have := hG.rem; rw [h2.growth] at this; omega
  have hU : UInv g (Comp g s1) t.s κ dp := by
    have := hI.inv.grow (G := t.s.growth) (fun i hi => by
      have h5 := hcm i hi.2
      rw [← h5]
      exact complete_congr rfl i)
    rwa [← hG.same] at this
  have hst : t.s.state = s1.state := by rw [hG.same]
  have hsy : t.s.syn = syn := by rw [hG.same]; exact hI.syn_eq
  by_cases hnew : t.new = []
  · simp only [hnew, if_true]
    have hiff : ∀ i, g.complete t.s i = g.complete s1 i := by
      intro i
      cases h5 : g.complete s1 i
      · by_contra hcon
        have : i ∈ t.new := (hG.new i).2 ⟨by simpa using hcon, h5⟩
        rw [hnew] at this; simp at this
      · exact hcm i h5
    refine ⟨t.s, κ, dp, rfl, ⟨hU.congrL fun i => by unfold Comp; rw [hiff i], hsy, h.used, fun v hv => ?_⟩, .inr hmu, hcs, hgw⟩
    rw [hst] at hv
    have h6 := hI.bnd v hv
    unfold UGraph.allComplete at h6 ⊢
    rw [← h6]
    congr 1
    funext i
    exact hiff i
  · simp only [if_neg hnew]
    obtain ⟨s2, κ2, dp2, e3, h5, h6, h7⟩ := handleLoop hwf hU hsy h.used hG.nodup (fun i hi => by
      obtain ⟨h8, h9⟩ := (hG.new i).1 hi
      refine ⟨fun hc => by rw [hc.2] at h9; simp at h9, h8, ?_⟩
      obtain ⟨B, hB, v, hv, hiv⟩ := mem_toGrow (hG.sub i hi)
      obtain ⟨e, he, hm⟩ := (UGraph.mem_edgesAt hwf).1 hiv
      exact ⟨e, he, v, hm, by rw [hst]; exact hvb B hB v hv⟩)
    have h8 : UInv g (Comp g s2) s2 κ2 dp2 := by
      refine h5.congrL fun i => ?_
      unfold Comp
      rw [complete_congr h6.growth, hG.new]
      constructor
      · rintro (⟨h9, h10⟩ | ⟨h9, h10⟩)
        · exact ⟨h9, hcm i h10⟩
        · have hi := hG.sub i ((hG.new i).2 ⟨h9, h10⟩)
          obtain ⟨B, hB, v, hv, hiv⟩ := mem_toGrow hi
          obtain ⟨e, he, hm⟩ := (UGraph.mem_edgesAt hwf).1 hiv
          exact ⟨(List.getElem?_eq_some_iff.1 he).1, h9⟩
      · rintro ⟨h9, h10⟩
        cases h11 : g.complete s1 i
        · exact .inr ⟨h10, rfl⟩
        · exact .inl ⟨h9, rfl⟩
    obtain ⟨s3, e4, h9, h10, h11⟩ := updateAll hwf h8
    simp only [e3, e4]
    have hgr : s3.growth = t.s.growth := h10.growth.trans h6.growth
    exact ⟨s3, κ2, dp2, rfl, ⟨h9, h10.syn.trans (h6.syn.trans hsy), h7, h11⟩, .inr (by rw [hgr]; exact hmu),
      fun i hi => by rw [complete_congr hgr]; exact hcs i hi, by rw [hgr]; exact hgw⟩

/-! ## All steps -/

theorem run_spec (hwf : EdgesWf g.n g.edges) (hinc : ∀ i, i < g.edges.length → 0 < g.increment i) {syn : Nat → Bool} :
    ∀ (k : Nat) {s : UState} {κ : Nat → Option Nat} {dp : Nat → Nat}, StepInv g syn s κ dp →
    (s.openList = [] ∨ remainAll g s.growth + 1 ≤ k) →
    (∃ s' κ' dp', g.run k s = .ok s' ∧ StepInv g syn s' κ' dp' ∧ s'.openList = [] ∧ (∀ i, g.complete s i = true → g.complete s' i = true) ∧
      ∀ Q : (Nat → ℚ) → Prop, (∀ G G' W, Q G → Grew g syn G G' W → Q G') → Q s.growth → Q s'.growth) ∨
    (g.run k s = .error .assertionError ∧ ¬ EvenClusters g.n g.edges (fun _ => True) syn) := by
  intro k
  induction k with
  | zero =>
    intro s κ dp h hk
    have ho : s.openList = [] := by rcases hk with hk | hk; exact hk; omega
    exact .inl ⟨s, κ, dp, by simp [UGraph.run, ho], h, ho, fun _ hi => hi, fun _ _ hQ => hQ⟩
  | succ k ih =>
    intro s κ dp h hk
    unfold UGraph.run
    by_cases ho : s.openList = []
    · exact .inl ⟨s, κ, dp, by simp only [ho, if_true], h, ho, fun _ hi => hi, fun _ _ hQ => hQ⟩
    simp only [if_neg ho]
    have hk' : remainAll g s.growth + 1 ≤ k + 1 := by rcases hk with hk | hk; exact absurd hk ho; exact hk
    rcases step_spec hwf hinc h with ⟨s1, κ1, dp1, e1, h1, h2, h3, W, hW⟩ | ⟨e1, h1⟩
    · simp only [e1]
      rcases ih h1 (by rcases h2 with h2 | h2; exact .inl h2; exact .inr (by omega)) with ⟨s2, κ2, dp2, e2, h4, h5, h6, h7⟩ | h4
      · exact .inl ⟨s2, κ2, dp2, e2, h4, h5, fun i hi => h6 i (h3 i hi), fun Q hQ h8 => h7 Q hQ (hQ _ _ W h8 hW)⟩
      · exact .inr h4
    · simp only [e1]
      exact .inr ⟨trivial, h1⟩

theorem sum_range_eq (f : Nat → Nat) : ∀ n, ((List.range n).map f).sum = ∑ i ∈ Finset.range n, f i
  | 0 => rfl
  | n + 1 => by rw [List.range_succ, List.map_append, List.sum_append, Finset.sum_range_succ, sum_range_eq f n]; simp

/-- Union find ends. It gives complete edges whose clusters are even or have a dangling edge, or it raises an `AssertionError`, and the
latter only if the syndrome cannot be corrected at all. -/
theorem unionFind_spec (hwf : EdgesWf g.n g.edges) (hmax : ∀ i, i < g.edges.length → 0 < g.maxGrowth i)
    (hinc : ∀ i, i < g.edges.length → 0 < g.increment i) {erasure : List Nat} (her : ∀ i ∈ erasure, i < g.edges.length) {syn : List Bool}
    (hsyn : syn.length = g.n) :
    (∃ sel, g.unionFind erasure syn = .ok sel ∧ (∀ i ∈ erasure, i ∈ sel) ∧ (∀ i ∈ sel, i < g.edges.length) ∧
      EvenClusters g.n g.edges (fun i => i ∈ sel) (fun v => syn.getD v false) ∧
      ∀ Q : (Nat → ℚ) → Prop, (∀ G G' W, Q G → Grew g (fun v => syn.getD v false) G G' W → Q G') →
        (∀ G, (∀ i, i < g.edges.length → (G i = 0 ∧ i ∉ erasure) ∨ (G i = g.maxGrowth i ∧ i ∈ erasure)) → Q G) →
        ∃ G, Q G ∧ ∀ i, i ∈ sel ↔ DoneG g G i) ∨
    (g.unionFind erasure syn = .error .assertionError ∧ ¬ EvenClusters g.n g.edges (fun _ => True) (fun v => syn.getD v false)) := by
  obtain ⟨s, κ, dp, e1, h1, h2⟩ := init_spec hwf hmax her hsyn
  have hb : remainAll g s.growth + 1 ≤ g.budget := by
    unfold UGraph.budget remainAll
    rw [sum_range_eq]
    refine Nat.succ_le_succ (Finset.sum_le_sum fun i hi => ?_)
    have hi := Finset.mem_range.1 hi
    unfold remain
    refine Nat.ceil_mono ?_
    rcases h2 i hi with ⟨h3, _⟩ | ⟨h3, _⟩
    · rw [h3, sub_zero]
    · rw [h3, sub_self, zero_div]
      exact (div_pos (hmax i hi) (hinc i hi)).le
  unfold UGraph.unionFind
  simp only [e1]
  rcases run_spec hwf hinc g.budget h1 (.inr hb) with ⟨s', κ', dp', e2, h3, h4, h5, hQ⟩ | ⟨e2, h3⟩
  · left
    simp only [e2]
    refine ⟨_, rfl, fun i hi => ?_, fun i hi => List.mem_range.1 (List.mem_filter.1 hi).1, ?_, fun Q h6 h7 => ⟨s'.growth, hQ Q h6 (h7 _ h2), fun i => ?_⟩⟩
    · have hil := her i hi
      refine List.mem_filter.2 ⟨List.mem_range.2 hil, h5 i ?_⟩
      rcases h2 i hil with ⟨_, h6⟩ | ⟨h6, _⟩
      · exact absurd hi h6
      · exact decide_eq_true (by rw [h6])
    · have h6 := h3.even h4
      have : Comp g s' = fun i => i ∈ (List.range g.edges.length).filter (g.complete s') := by
        funext i
        rw [List.mem_filter, List.mem_range]
        rfl
      rwa [this] at h6
    · rw [← comp_doneG, List.mem_filter, List.mem_range]
      rfl
  · right
    simp only [e2]
    exact ⟨trivial, h3⟩

/-! ## Erasures alone -/

/-- If the clusters of complete edges are even or have a dangling edge, no cluster is open after the parities have been looked at. -/
theorem StepInv.closed {syn : Nat → Bool} (h : StepInv g syn s κ dp) (hp : ∀ c ∈ s.openList, (s.clusters c).parity = 1)
    (hE : EvenClusters g.n g.edges (Comp g s) syn) : s.openList = [] := by
  refine List.eq_nil_iff_forall_not_mem.2 fun c hc => ?_
  have hp1 := hp c hc
  rcases h.inv.cl c ((h.inv.opens c).1 hc).1 with hx | ⟨r, B, hl⟩
  · have := hx.par
    rw [hp1] at this; simp at this
  rcases hl.par with ⟨h1, _⟩ | ⟨h1, h2⟩
  · rw [hp1] at h1; simp at h1
  · rcases hE r (h.inv.lt r (by rw [hl.kr]; simp)) with ⟨u, i, hj, hi, he⟩ | heven
    · exact h2 u i (h.inv.joined hl.kr hj) hi he
    · have hset : {u | u < g.n ∧ JoinedBy g.edges (Comp g s) r u ∧ syn u = true} = {u | u < g.n ∧ κ u = some c ∧ syn u = true} := by
        ext u
        simp only [Set.mem_ofPred_eq]
        constructor
        · exact fun ⟨a, b, d⟩ => ⟨a, h.inv.joined hl.kr b, d⟩
        · exact fun ⟨a, b, d⟩ => ⟨a, h.inv.conn r u c hl.kr b, d⟩
      rw [hset, Nat.even_iff] at heven
      have : psum g.n syn κ c = true := by
        rw [hp1, h.syn_eq] at h1
        cases hps : psum g.n syn κ c
        · rw [hps] at h1; simp at h1
        · rfl
      have := (psum_card g.n syn κ c).1 this
      omega

/-- If the erased edges form clusters which are even or have a dangling edge, nothing grows: union find gives the erased edges. -/
theorem unionFind_erasure (hwf : EdgesWf g.n g.edges) (hmax : ∀ i, i < g.edges.length → 0 < g.maxGrowth i) {erasure : List Nat}
    (her : ∀ i ∈ erasure, i < g.edges.length) {syn : List Bool} (hsyn : syn.length = g.n)
    (hE : EvenClusters g.n g.edges (fun i => i ∈ erasure) (fun v => syn.getD v false)) :
    ∃ sel, g.unionFind erasure syn = .ok sel ∧ ∀ i, i ∈ sel ↔ i ∈ erasure := by
  obtain ⟨s, κ, dp, e1, h1, h2⟩ := init_spec hwf hmax her hsyn
  have hC : ∀ i, Comp g s i ↔ i ∈ erasure := by
    intro i
    constructor
    · rintro ⟨hi, hc⟩
      rcases h2 i hi with ⟨h3, _⟩ | ⟨_, h3⟩
      · have := of_decide_eq_true hc
        rw [h3] at this
        have := hmax i hi
        linarith
      · exact h3
    · intro hi
      refine ⟨her i hi, ?_⟩
      rcases h2 i (her i hi) with ⟨_, h3⟩ | ⟨h3, _⟩
      · exact absurd hi h3
      · exact decide_eq_true (by rw [h3])
  have hrun : ∃ s', g.run g.budget s = .ok s' ∧ s'.growth = s.growth := by
    by_cases ho : s.openList = []
    · refine ⟨s, ?_, rfl⟩
      cases g.budget <;> simp only [UGraph.run, ho, if_true]
    · obtain ⟨s1, e2, h3, h4, h5, h6⟩ := h1.inv.refresh
      have hI : StepInv g (fun v => syn.getD v false) s1 κ dp := ⟨h3.congrL (Comp.congr h4.growth), h4.syn.trans h1.syn_eq, h1.used, fun v hv => by
        rw [allComplete_congr h4.growth]; rw [h5] at hv; exact h1.bnd v hv⟩
      have hs1 : s1.openList = [] := hI.closed h6 (by
        convert hE using 1
        funext i
        exact propext ((Comp.congr h4.growth i).symm.trans (hC i)))
      refine ⟨s1, ?_, h4.growth⟩
      obtain ⟨k, hk⟩ : ∃ k, g.budget = k + 1 := ⟨_, rfl⟩
      rw [hk]
      have e3 : g.step s = .ok s1 := by unfold UGraph.step; simp only [e2, hs1, if_true]
      simp only [UGraph.run, if_neg ho, e3]
      cases k <;> simp only [UGraph.run, hs1, if_true]
  obtain ⟨s', e2, h3⟩ := hrun
  refine ⟨(List.range g.edges.length).filter (g.complete s'), by simp only [UGraph.unionFind, e1, e2], fun i => ?_⟩
  rw [List.mem_filter, List.mem_range, ← hC i, complete_congr h3]
  rfl

end Plaquette
