import Verif.Lemmas.Matching

/-!
# The graphs handed to Fusion Blossom, and what the libraries make of them
-/

namespace Plaquette

/-! ## PyMatching -/

theorem numFaults_eq {G : PmGraph} (h : ∀ (i : Nat) (m : MEdge), G.edges[i]? = some m → m.fault = i) : G.numFaults = G.edges.length := by
  unfold PmGraph.numFaults
  have hmap : (G.edges.map fun e => e.fault + 1) = (List.range G.edges.length).map (· + 1) := by
    refine List.ext_getElem? fun i => ?_
    rw [List.getElem?_map, List.getElem?_map]
    cases hi : G.edges[i]? with
    | none => rw [List.getElem?_eq_none (by simpa using hi)]; rfl
    | some m =>
      rw [List.getElem?_range (List.getElem?_eq_some_iff.1 hi).1, Option.map_some, Option.map_some, h i m hi]
  rw [hmap]
  generalize G.edges.length = k
  induction k with
  | zero => rfl
  | succ k ih =>
    rw [List.range_succ, List.map_append, List.foldl_append, ih]
    simp

/-- The edges that match are those that explain the syndrome. -/
theorem PmGraph.Shows.matches {G : PmGraph} {c : Component FW} (h : G.Shows c) {syn : List Bool} {x : Nat → Bool} {y : List Bool}
    (hl : y.length = c.edges.length) (hxy : ∀ i < c.edges.length, y[i]? = some (x i)) :
    G.Matches c.nVertices syn x ↔ Explains c.nVertices c.edges y syn := by
  have hset : ∀ v < c.nVertices, {i : Nat | x i = true ∧ ∃ e, G.edges[i]? = some e ∧ (e.u = v ∨ e.v = v)} =
      {i : Nat | y[i]? = some true ∧ ∃ e : List Nat, c.edges[i]? = some e ∧ v ∈ e} := by
    intro v hv
    ext i
    simp only [Set.mem_ofPred_eq]
    by_cases hi : i < c.edges.length
    · rw [hxy i hi, Option.some.injEq]
      refine and_congr_right fun _ => ?_
      have hc := List.getElem?_eq_getElem hi
      obtain ⟨m, h1, _, _, h2⟩ := h.get i _ hc
      rw [h1, hc]
      simp only [Option.some.injEq, exists_eq_left']
      rcases h2 with h2 | ⟨h2, h3⟩
      · rw [h2]
        simp only [List.mem_cons, List.not_mem_nil, or_false]
        exact or_congr eq_comm eq_comm
      · rw [h2]
        simp only [List.mem_cons, List.not_mem_nil, or_false]
        constructor
        · rintro (h4 | h4)
          · exact h4.symm
          · omega
        · exact fun h4 => .inl h4.symm
    · rw [List.getElem?_eq_none (by rw [h.len]; omega), List.getElem?_eq_none (by omega)]
      simp
  unfold PmGraph.Matches Explains
  rw [and_iff_right hl]
  exact forall₂_congr fun v hv => by rw [hset v hv]

theorem PmGraph.Shows.cost {G : PmGraph} {c : Component FW} (h : G.Shows c) {x : Nat → Bool} {y : List Bool}
    (hl : y.length = c.edges.length) (hxy : ∀ i < c.edges.length, y[i]? = some (x i)) :
    G.cost x = totalWeight (fun i => FW.weight (c.weights.getD i none)) y := by
  unfold PmGraph.cost totalWeight
  rw [h.len, hl]
  refine Finset.sum_congr rfl fun i hi => ?_
  rw [Finset.mem_range] at hi
  obtain ⟨m, h1, _, h2, _⟩ := h.get i _ (List.getElem?_eq_getElem hi)
  rw [hxy i hi, h1, Option.map_some, Option.getD_some, h2]
  simp only [Option.some.injEq]

/-- PyMatching finds a lightest explanation. -/
theorem pm_lightest {solve : PmGraph → List Bool → Except Err (List Bool)} (hS : IsPyMatching solve) {G : PmGraph} {c : Component FW} (h : G.Shows c)
    {syn : List Bool} (hsyn : syn.length = c.nVertices) :
    (∀ res, solve G syn = .ok res → IsLightest c.nVertices c.edges (fun i => FW.weight (c.weights.getD i none)) res syn) ∧
    ((∃ y, Explains c.nVertices c.edges y syn) → ∃ res, solve G syn = .ok res) := by
  obtain ⟨h1, h2⟩ := hS _ G syn h.wf hsyn
  have hfault : ∀ (i : Nat) (m : MEdge), G.edges[i]? = some m → m.fault = i := by
    intro i m hm
    have hi : i < c.edges.length := by rw [← h.len]; exact (List.getElem?_eq_some_iff.1 hm).1
    obtain ⟨m', e1, e2, _⟩ := h.get i _ (List.getElem?_eq_getElem hi)
    rw [hm] at e1; cases e1
    exact e2
  refine ⟨fun res hres => ?_, ?_⟩
  · obtain ⟨x, f1, f2, f3, f4⟩ := h1 res hres
    rw [numFaults_eq hfault, h.len] at f3 f4
    have hxy : ∀ i < c.edges.length, res[i]? = some (x i) := by
      intro i hi
      have hri := List.getElem?_eq_getElem (l := res) (by rw [f3]; exact hi)
      obtain ⟨m, e1, e2, _⟩ := h.get i _ (List.getElem?_eq_getElem hi)
      have hset : {j : Nat | x j = true ∧ ∃ e, G.edges[j]? = some e ∧ e.fault = i} = if x i = true then {i} else ∅ := by
        ext j
        constructor
        · rintro ⟨g1, e, g2, g3⟩
          obtain rfl : j = i := (hfault j e g2).symm.trans g3
          rw [if_pos g1]; rfl
        · intro hj
          split at hj
          · next g1 =>
            obtain rfl : j = i := hj
            exact ⟨g1, m, e1, e2⟩
          · exact hj.elim
      have := f4 i hi
      rw [hset, hri] at this
      rw [hri]
      congr 1
      cases hx : x i <;> cases hr : res[i] <;> simp_all
    refine ⟨(h.matches f3 hxy).1 f1, fun y hy => ?_⟩
    have hy2 : ∀ i < c.edges.length, y[i]? = some (y.getD i false) := by
      intro i hi
      rw [List.getD_eq_getElem?_getD, List.getElem?_eq_getElem (by rw [hy.1]; exact hi)]; rfl
    rw [← h.cost f3 hxy, ← h.cost hy.1 hy2]
    exact f2 _ ((h.matches hy.1 hy2).2 hy)
  · rintro ⟨y, hy⟩
    refine h2 ⟨fun i => y.getD i false, (h.matches hy.1 fun i hi => ?_).2 hy⟩
    rw [List.getD_eq_getElem?_getD, List.getElem?_eq_getElem (by rw [hy.1]; exact hi)]; rfl

/-! ## The graph for Fusion Blossom -/

theorem fbLoop_spec {n : Nat} {ws : List Int} (l : List (List Nat)) (k : Nat) {s : List (Nat × Nat × Int) × List Nat} (hg : IsDecodingGraph n l)
    (hw : k + l.length ≤ ws.length) (hin : ∀ f ∈ s.1, f.1 < n ∧ f.2.1 < n + s.2.length)
    (hold : ∀ f ∈ s.1, ∀ e ∈ l, e ≠ [f.1, f.2.1] ∧ e ≠ [f.2.1, f.1]) (hvirt : ∀ v, v ∈ s.2 ↔ n ≤ v ∧ v < n + s.2.length)
    (hs : s.1.Pairwise fun e f => ¬ (e.1 = f.1 ∧ e.2.1 = f.2.1) ∧ ¬ (e.1 = f.2.1 ∧ e.2.1 = f.1)) (hp : SimpleEdges l) :
    ∃ new virt, loopE (fbStep n ws) s (l.zipIdx k) = .ok (s.1 ++ new, virt) ∧ new.length = l.length ∧
      (∀ (j : Nat) (e : List Nat), l[j]? = some e → ∃ m, new[j]? = some m ∧ m.2.2 = 2 * ws.getD (k + j) 0 ∧
        (e = [m.1, m.2.1] ∨ e = [m.1] ∧ n ≤ m.2.1 ∧ m.2.1 ∈ virt)) ∧ (∀ v ∈ s.2, v ∈ virt) ∧ s.2.length ≤ virt.length ∧
      (∀ v, v ∈ virt ↔ n ≤ v ∧ v < n + virt.length) ∧
      ((s.1 ++ new).Pairwise fun e f => ¬ (e.1 = f.1 ∧ e.2.1 = f.2.1) ∧ ¬ (e.1 = f.2.1 ∧ e.2.1 = f.1)) := by
  induction l generalizing k s with
  | nil => exact ⟨[], s.2, by simp [loopE], rfl, by simp, fun v hv => hv, le_rfl, hvirt, by simpa using hs⟩
  | cons e l ih =>
    have hkw : k < ws.length := by rw [List.length_cons] at hw; omega
    have hp' := hp
    unfold SimpleEdges at hp'
    rw [List.pairwise_cons] at hp'
    have hstep : ∃ m virt, fbStep n ws s (e, k) = .ok (s.1 ++ [m], virt) ∧ m.2.2 = 2 * ws.getD k 0 ∧
        (e = [m.1, m.2.1] ∧ virt = s.2 ∨ e = [m.1] ∧ m.2.1 = n + s.2.length ∧ virt = s.2 ++ [n + s.2.length]) := by
      rcases hg e (by simp) with ⟨a, rfl, ha⟩ | ⟨a, b, rfl, hab, ha, hb⟩
      · refine ⟨(a, n + s.2.length, 2 * ws[k]), s.2 ++ [n + s.2.length], ?_, ?_, .inr ⟨rfl, rfl, rfl⟩⟩
        · simp only [fbStep, List.getElem?_eq_getElem hkw]
        · simp [List.getD_eq_getElem?_getD, hkw]
      · refine ⟨(a, b, 2 * ws[k]), s.2, ?_, ?_, .inl ⟨rfl, rfl⟩⟩
        · simp only [fbStep, List.getElem?_eq_getElem hkw]
        · simp [List.getD_eq_getElem?_getD, hkw]
    obtain ⟨m, virt, h1, h2, h3⟩ := hstep
    have hlv : s.2.length ≤ virt.length := by rcases h3 with ⟨_, rfl⟩ | ⟨_, _, rfl⟩ <;> simp
    have hsv : ∀ v ∈ s.2, v ∈ virt := by rcases h3 with ⟨_, rfl⟩ | ⟨_, _, rfl⟩ <;> simp +contextual
    have hm : m.1 < n ∧ m.2.1 < n + virt.length := by
      rcases h3 with ⟨h3, rfl⟩ | ⟨h3, h4, rfl⟩
      · rcases hg e (by simp) with ⟨a, he, ha⟩ | ⟨a, b, he, hab, ha, hb⟩
        · rw [h3] at he; cases he
        · rw [h3] at he
          injection he with he1 he
          injection he with he2 he
          omega
      · rcases hg e (by simp) with ⟨a, he, ha⟩ | ⟨a, b, he, hab, ha, hb⟩
        · rw [h3] at he
          injection he with he1 he
          rw [List.length_append, List.length_singleton]
          omega
        · rw [h3] at he; cases he
    obtain ⟨new, virt', g1, g2, g3, g4, g5, g6, g7⟩ := ih (k + 1) (s := (s.1 ++ [m], virt)) (fun e he => hg e (by simp [he]))
      (by rw [List.length_cons] at hw; omega) (by
        intro f hf
        rcases List.mem_append.1 hf with hf | hf
        · have := hin f hf
          dsimp only; omega
        · rw [List.mem_singleton] at hf
          subst hf
          exact hm) (by
        intro f hf e' he'
        rcases List.mem_append.1 hf with hf | hf
        · exact hold f hf e' (by simp [he'])
        · rw [List.mem_singleton] at hf
          subst hf
          rcases h3 with ⟨h3, _⟩ | ⟨_, h3, _⟩
          · exact hp'.1 e' he' _ _ h3
          · have : ∀ a b, a = n + s.2.length ∨ b = n + s.2.length → e' ≠ [a, b] := by
              rintro a b hor rfl
              rcases hg [a, b] (by simp [he']) with ⟨a', he, _⟩ | ⟨a', b', he, _, ha, hb⟩
              · cases he
              · cases he; omega
            exact ⟨this _ _ (.inr h3), this _ _ (.inl h3)⟩) (by
        intro v
        dsimp only
        rcases h3 with ⟨_, rfl⟩ | ⟨_, _, rfl⟩
        · exact hvirt v
        · rw [List.length_append, List.length_singleton, List.mem_append, List.mem_singleton, hvirt v]
          omega) (by
        rw [List.pairwise_append]
        refine ⟨hs, by simp, fun f hf m' hm' => ?_⟩
        rw [List.mem_singleton] at hm'
        subst hm'
        rcases h3 with ⟨h3, _⟩ | ⟨_, h3, _⟩
        · obtain ⟨o1, o2⟩ := hold f hf e (by simp)
          rw [h3] at o1 o2
          refine ⟨?_, ?_⟩
          · rintro ⟨p1, p2⟩; exact o1 (by rw [p1, p2])
          · rintro ⟨p1, p2⟩; exact o2 (by rw [p1, p2])
        · have := hin f hf
          refine ⟨?_, ?_⟩
          · rintro ⟨p1, p2⟩; omega
          · rintro ⟨p1, p2⟩; omega) hp'.2
    refine ⟨m :: new, virt', ?_, by simp [g2], ?_, fun v hv => g4 v (hsv v hv), hlv.trans g5, g6, by simpa using g7⟩
    · rw [List.zipIdx_cons]
      unfold loopE
      rw [h1]
      dsimp only
      rw [g1]
      simp
    · intro j e' hj
      cases j with
      | zero =>
        rw [List.getElem?_cons_zero, Option.some.injEq] at hj
        subst hj
        refine ⟨m, rfl, by simpa using h2, ?_⟩
        rcases h3 with ⟨h3, _⟩ | ⟨h3, h4, rfl⟩
        · exact .inl h3
        · exact .inr ⟨h3, by omega, g4 _ (by rw [h4]; simp)⟩
      | succ j =>
        rw [List.getElem?_cons_succ] at hj
        obtain ⟨m', f1, f2, f3⟩ := g3 j e' hj
        exact ⟨m', by simpa using f1, by rw [f2]; congr 2; omega, f3⟩

/-- The graph that Fusion Blossom gets: the edges of the component, in the same order, where each dangling edge ends at a virtual vertex of its own. -/
structure FbGraph.Shows (G : FbGraph) (c : Component FW) (ws : List Int) : Prop where
  wf : G.Wf
  real : ∀ v < c.nVertices, v < G.n ∧ v ∉ G.virt
  virt : ∀ v < G.n, v ∉ G.virt → v < c.nVertices
  len : G.edges.length = c.edges.length
  get : ∀ (i : Nat) (l : List Nat), c.edges[i]? = some l → ∃ m, G.edges[i]? = some m ∧
    m.2.2 = 2 * ws.getD i 0 ∧ (l = [m.1, m.2.1] ∨ l = [m.1] ∧ c.nVertices ≤ m.2.1)


theorem fbSetup_shows {c : Component FW} {ws : List Int} (hw : fbWeights c.edges.length c.weights = .ok ws) (hl : ws.length = c.edges.length)
    (hnn : ∀ w ∈ ws, 0 ≤ w) (hg : IsDecodingGraph c.nVertices c.edges) (hs : SimpleEdges c.edges) :
    ∃ G, fbSetup c = .ok G ∧ G.Shows c ws := by
  obtain ⟨new, virt, h1, h2, h3, _, _, h6, h7⟩ := fbLoop_spec (ws := ws) c.edges 0 (s := ([], [])) hg (by omega) (by simp) (by simp)
    (by simp) List.Pairwise.nil hs
  rw [List.nil_append] at h1 h7
  have hget : ∀ (i : Nat) (m : Nat × Nat × Int), new[i]? = some m → ∃ l ∈ c.edges, m.2.2 = 2 * ws.getD i 0 ∧
      (l = [m.1, m.2.1] ∨ l = [m.1] ∧ c.nVertices ≤ m.2.1 ∧ m.2.1 ∈ virt) := by
    intro i m hm
    have hi : i < c.edges.length := by rw [← h2]; exact (List.getElem?_eq_some_iff.1 hm).1
    obtain ⟨m', e1, e2, e3⟩ := h3 i _ (List.getElem?_eq_getElem hi)
    rw [hm] at e1; cases e1
    exact ⟨_, List.getElem_mem hi, by rw [e2, Nat.zero_add], e3⟩
  refine ⟨⟨c.nVertices + virt.length, new, virt⟩, ?_, ⟨?_, ?_, ?_, h7⟩, ?_, ?_, h2, ?_⟩
  · unfold fbSetup
    simp only [hw, h1]
  · intro m hm
    obtain ⟨i, hi⟩ := List.getElem?_of_mem hm
    obtain ⟨l, hl, _, e3⟩ := hget i m hi
    dsimp only
    rcases e3 with rfl | ⟨rfl, e4, e5⟩
    · rcases hg _ hl with ⟨a, f1, f2⟩ | ⟨a, b, f1, f2, f3, f4⟩
      · cases f1
      · injection f1 with f1 f5
        injection f5 with f5
        omega
    · rcases hg _ hl with ⟨a, f1, f2⟩ | ⟨a, b, f1, f2, f3, f4⟩
      · injection f1 with f1
        have := (h6 _).1 e5
        omega
      · cases f1
  · intro v hv
    exact ((h6 v).1 hv).2
  · intro m hm
    obtain ⟨i, hi⟩ := List.getElem?_of_mem hm
    obtain ⟨l, _, e2, _⟩ := hget i m hi
    have : 0 ≤ ws.getD i 0 := by
      rw [List.getD_eq_getElem?_getD]
      cases hwi : ws[i]? with
      | none => simp
      | some w => exact hnn w (List.mem_of_getElem? hwi)
    rw [e2]
    exact ⟨by omega, even_two_mul _⟩
  · intro v hv
    refine ⟨by dsimp only; omega, fun hm => ?_⟩
    have := (h6 v).1 hm
    omega
  · intro v hv hn
    by_contra hge
    exact hn ((h6 v).2 ⟨by omega, hv⟩)
  · intro i l hi
    obtain ⟨m, e1, e2, e3⟩ := h3 i l hi
    exact ⟨m, e1, by rw [e2, Nat.zero_add], e3.imp id fun h => ⟨h.1, h.2.1⟩⟩

/-- The edges that match are those that explain the syndrome. -/
theorem FbGraph.Shows.matches {G : FbGraph} {c : Component FW} {ws : List Int} (h : G.Shows c ws) {syn : List Bool} (hsyn : syn.length = c.nVertices)
    {x : Nat → Bool} {y : List Bool} (hl : y.length = c.edges.length) (hxy : ∀ i < c.edges.length, y[i]? = some (x i)) :
    G.Matches (whereTrue syn) x ↔ Explains c.nVertices c.edges y syn := by
  have hset : ∀ v < c.nVertices, {i : Nat | x i = true ∧ ∃ e, G.edges[i]? = some e ∧ (e.1 = v ∨ e.2.1 = v)} =
      {i : Nat | y[i]? = some true ∧ ∃ e : List Nat, c.edges[i]? = some e ∧ v ∈ e} := by
    intro v hv
    ext i
    simp only [Set.mem_ofPred_eq]
    by_cases hi : i < c.edges.length
    · rw [hxy i hi, Option.some.injEq]
      refine and_congr_right fun _ => ?_
      have hc := List.getElem?_eq_getElem hi
      obtain ⟨m, h1, _, h2⟩ := h.get i _ hc
      rw [h1, hc]
      simp only [Option.some.injEq, exists_eq_left']
      rcases h2 with h2 | ⟨h2, h3⟩
      · rw [h2]
        simp only [List.mem_cons, List.not_mem_nil, or_false]
        exact or_congr eq_comm eq_comm
      · rw [h2]
        simp only [List.mem_cons, List.not_mem_nil, or_false]
        constructor
        · rintro (h4 | h4)
          · exact h4.symm
          · omega
        · exact fun h4 => .inl h4.symm
    · rw [List.getElem?_eq_none (by rw [h.len]; omega), List.getElem?_eq_none (by omega)]
      simp
  have hmem : ∀ v < c.nVertices, (v ∈ whereTrue syn ↔ syn[v]? = some true) := by
    intro v hv
    unfold whereTrue
    rw [List.mem_filter, List.mem_range, List.getD_eq_getElem?_getD, List.getElem?_eq_getElem (by omega)]
    simp; omega
  unfold FbGraph.Matches Explains
  rw [and_iff_right hl]
  constructor
  · intro hm v hv
    obtain ⟨h1, h2⟩ := h.real v hv
    rw [← hset v hv, ← hmem v hv]
    exact hm v h1 h2
  · intro hm v h1 h2
    have hv := h.virt v h1 h2
    rw [hset v hv, hmem v hv]
    exact hm v hv

theorem FbGraph.Shows.cost {G : FbGraph} {c : Component FW} {ws : List Int} (h : G.Shows c ws) {er : List Bool} (her : er.length = c.edges.length)
    {x : Nat → Bool} {y : List Bool} (hl : y.length = c.edges.length) (hxy : ∀ i < c.edges.length, y[i]? = some (x i)) :
    (G.cost (whereTrue er) x : ℚ) = 2 * totalWeight (fun i => if er[i]? = some true then 0 else (ws.getD i 0 : ℚ)) y := by
  unfold FbGraph.cost totalWeight
  rw [h.len, hl, Int.cast_sum, Finset.mul_sum]
  refine Finset.sum_congr rfl fun i hi => ?_
  rw [Finset.mem_range] at hi
  obtain ⟨m, h1, h2, _⟩ := h.get i _ (List.getElem?_eq_getElem hi)
  have hmem : i ∈ whereTrue er ↔ er[i]? = some true := by
    unfold whereTrue
    rw [List.mem_filter, List.mem_range, List.getD_eq_getElem?_getD, List.getElem?_eq_getElem (by omega)]
    simp; omega
  rw [hxy i hi, h1, Option.map_some, Option.getD_some, h2]
  simp only [Option.some.injEq, hmem]
  by_cases hx : x i = true <;> by_cases he : er[i]? = some true <;> simp [hx, he]

/-- Fusion Blossom finds a lightest explanation, for its own weights. -/
theorem fb_lightest {solve : FbGraph → List Nat → List Nat → Except Err (List Nat)} (hS : IsFusionBlossom solve) {G : FbGraph} {c : Component FW}
    {ws : List Int} (h : G.Shows c ws) {er syn : List Bool} (her : er.length = c.edges.length) (hsyn : syn.length = c.nVertices) :
    (∀ res, fbDecode solve G er syn = .ok res →
      IsLightest c.nVertices c.edges (fun i => if er[i]? = some true then 0 else (ws.getD i 0 : ℚ)) res syn) ∧
    ((∃ y, Explains c.nVertices c.edges y syn) → ∃ res, fbDecode solve G er syn = .ok res) := by
  have hmem : ∀ (l : List Bool) (i : Nat), i ∈ whereTrue l → i < l.length := by
    intro l i hi
    exact List.mem_range.1 (List.mem_filter.1 hi).1
  obtain ⟨h1, h2⟩ := hS G (whereTrue syn) (whereTrue er) h.wf (fun v hv => h.real v (by rw [← hsyn]; exact hmem _ _ hv))
    (fun i hi => by rw [h.len, ← her]; exact hmem _ _ hi)
  have hgetD : ∀ y : List Bool, y.length = c.edges.length → ∀ i < c.edges.length, y[i]? = some (y.getD i false) := by
    intro y hy i hi
    rw [List.getD_eq_getElem?_getD, List.getElem?_eq_getElem (by rw [hy]; exact hi)]; rfl
  refine ⟨fun res hres => ?_, ?_⟩
  · unfold fbDecode at hres
    cases hd : solve G (whereTrue syn) (whereTrue er) with
    | error e => simp only [hd] at hres; cases hres
    | ok sel =>
      simp only [hd] at hres
      cases hres
      obtain ⟨f1, f2⟩ := h1 sel hd
      have hl : ((List.range G.edges.length).map fun i => decide (i ∈ sel)).length = c.edges.length := by simp [h.len]
      have hxy : ∀ i < c.edges.length, ((List.range G.edges.length).map fun i => decide (i ∈ sel))[i]? = some (decide (i ∈ sel)) := by
        intro i hi
        rw [List.getElem?_map, List.getElem?_range (by rw [h.len]; exact hi)]; rfl
      refine ⟨(h.matches hsyn hl hxy).1 f1, fun y hy => ?_⟩
      have := f2 _ ((h.matches hsyn hy.1 (hgetD y hy.1)).2 hy)
      have h3 : (G.cost (whereTrue er) (fun i => decide (i ∈ sel)) : ℚ) ≤ (G.cost (whereTrue er) (fun i => y.getD i false) : ℚ) := by exact_mod_cast this
      rw [h.cost her hl hxy, h.cost her hy.1 (hgetD y hy.1)] at h3
      linarith
  · rintro ⟨y, hy⟩
    obtain ⟨sel, hsel⟩ := h2 ⟨fun i => y.getD i false, (h.matches hsyn hy.1 (hgetD y hy.1)).2 hy⟩
    exact ⟨(List.range G.edges.length).map fun i => decide (i ∈ sel), by unfold fbDecode; simp only [hsel]⟩

end Plaquette
