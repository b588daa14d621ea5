import Verif.Spec.Matching
import Verif.Props.Decoder

/-!
# The graphs handed to the matching libraries
-/

namespace Plaquette

/-! ## Loops -/

theorem addEdge_ok {G G' : PmGraph} {e : MEdge} (h : G.addEdge e = .ok G') : G' = { G with edges := G.edges ++ [e] } ∧
    ∀ f ∈ G.edges, ¬ (f.u = e.u ∧ f.v = e.v) ∧ ¬ (f.u = e.v ∧ f.v = e.u) := by
  unfold PmGraph.addEdge at h
  split at h
  · cases h
  · next hn =>
    refine ⟨(Except.ok.inj h).symm, fun f hf => ?_⟩
    simp only [List.any_eq_true, not_exists, not_and, Bool.or_eq_true, Bool.and_eq_true, beq_iff_eq] at hn
    have := hn f hf
    tauto

theorem addEdge_new {G : PmGraph} {e : MEdge} (h : ∀ f ∈ G.edges, ¬ (f.u = e.u ∧ f.v = e.v) ∧ ¬ (f.u = e.v ∧ f.v = e.u)) :
    G.addEdge e = .ok { G with edges := G.edges ++ [e] } := by
  unfold PmGraph.addEdge
  rw [if_neg]
  simp only [List.any_eq_true, not_exists, not_and, Bool.or_eq_true, Bool.and_eq_true, beq_iff_eq]
  intro f hf
  have := h f hf
  tauto

/-- One edge more. -/
theorem pmStep_spec {n : Nat} {wt : Nat → ℚ} {s s' : PmGraph × List Nat} {e : List Nat} {k : Nat} (h : pmStep n wt s (e, k) = .ok s') :
    ∃ m : MEdge, s'.1 = { s.1 with edges := s.1.edges ++ [m] } ∧ m.fault = k ∧ m.weight = wt k ∧
      (∀ f ∈ s.1.edges, ¬ (f.u = m.u ∧ f.v = m.v) ∧ ¬ (f.u = m.v ∧ f.v = m.u)) ∧
      (e = [m.u, m.v] ∧ s'.2 = s.2 ∨ e = [m.u] ∧ ∃ c, s.2[m.u]? = some c ∧ m.v = n + c ∧ s'.2 = s.2.set m.u (c + 1)) := by
  unfold pmStep at h
  split at h
  · next a b he =>
    dsimp only at he
    split at h
    · cases h
    · next G hG =>
      cases h
      obtain ⟨h1, h2⟩ := addEdge_ok hG
      exact ⟨_, h1, rfl, rfl, h2, .inl ⟨he, rfl⟩⟩
  · next a he =>
    dsimp only at he
    split at h
    · cases h
    · next c hc =>
      split at h
      · cases h
      · next G hG =>
        cases h
        obtain ⟨h1, h2⟩ := addEdge_ok hG
        exact ⟨_, h1, rfl, rfl, h2, .inr ⟨he, c, hc, rfl, rfl⟩⟩
  · cases h

/-- What the loop over the edges builds. -/
theorem pmLoop_spec {n : Nat} {wt : Nat → ℚ} (l : List (List Nat)) (k : Nat) {s s' : PmGraph × List Nat}
    (h : loopE (pmStep n wt) s (l.zipIdx k) = .ok s') :
    ∃ new : List MEdge, s'.1 = { s.1 with edges := s.1.edges ++ new } ∧ new.length = l.length ∧
      (∀ (j : Nat) (e : List Nat), l[j]? = some e → ∃ m, new[j]? = some m ∧ m.fault = k + j ∧ m.weight = wt (k + j) ∧
        (e = [m.u, m.v] ∨ e = [m.u] ∧ ∃ q c, m.v = n + q ∧ s'.2[m.u]? = some c ∧ q < c)) ∧
      s'.2.length = s.2.length ∧ (∀ a c : Nat, s.2[a]? = some c → ∃ c', s'.2[a]? = some c' ∧ c ≤ c') ∧
      ((s.1.edges.Pairwise fun e f => ¬ (e.u = f.u ∧ e.v = f.v) ∧ ¬ (e.u = f.v ∧ e.v = f.u)) →
        s'.1.edges.Pairwise fun e f => ¬ (e.u = f.u ∧ e.v = f.v) ∧ ¬ (e.u = f.v ∧ e.v = f.u)) := by
  induction l generalizing k s with
  | nil =>
    cases h
    exact ⟨[], by simp, rfl, by simp, rfl, fun a c hc => ⟨c, hc, le_rfl⟩, id⟩
  | cons e l ih =>
    rw [List.zipIdx_cons, loopE_cons] at h
    cases hs : pmStep n wt s (e, k) with
    | error x => rw [hs] at h; cases h
    | ok s1 =>
      rw [hs] at h
      obtain ⟨m, h1, h2, h3, h4, h5⟩ := pmStep_spec hs
      obtain ⟨new, g1, g2, g3, g4, g5, g6⟩ := ih (k + 1) h
      have hlen : s1.2.length = s.2.length := by
        rcases h5 with ⟨_, h5⟩ | ⟨_, c, _, _, h5⟩ <;> rw [h5]
        rw [List.length_set]
      refine ⟨m :: new, ?_, by simp [g2], ?_, g4.trans hlen, ?_, fun hp => g6 ?_⟩
      · rw [g1, h1]; simp
      · intro j e' hj
        cases j with
        | zero =>
          rw [List.getElem?_cons_zero, Option.some.injEq] at hj
          subst hj
          refine ⟨m, rfl, by simpa using h2, by simpa using h3, ?_⟩
          rcases h5 with ⟨h5, _⟩ | ⟨h5, c, hc, hv, hset⟩
          · exact .inl h5
          · have hml : m.u < s.2.length := (List.getElem?_eq_some_iff.1 hc).1
            obtain ⟨c', hc', hle⟩ := g5 m.u (c + 1) (by rw [hset, List.getElem?_set_self hml])
            exact .inr ⟨h5, c, c', hv, hc', by omega⟩
        | succ j =>
          rw [List.getElem?_cons_succ] at hj
          obtain ⟨m', f1, f2, f3, f4⟩ := g3 j e' hj
          exact ⟨m', by simpa using f1, by omega, by rw [f3]; congr 1; omega, f4⟩
      · intro a c hc
        rcases h5 with ⟨_, h5⟩ | ⟨_, c1, hc1, _, h5⟩
        · exact g5 a c (by rw [h5]; exact hc)
        · by_cases ha : m.u = a
          · subst ha
            rw [hc] at hc1; cases hc1
            obtain ⟨c', hc', hle⟩ := g5 m.u (c + 1) (by rw [h5, List.getElem?_set_self (List.getElem?_eq_some_iff.1 hc).1])
            exact ⟨c', hc', by omega⟩
          · exact g5 a c (by rw [h5, List.getElem?_set_ne ha]; exact hc)
      · rw [h1]
        dsimp only
        rw [List.pairwise_append]
        refine ⟨hp, by simp, fun f hf m' hm' => ?_⟩
        rw [List.mem_singleton] at hm'
        subst hm'
        exact h4 f hf

/-- The loop does not fail if no two edges join the same vertices. -/
theorem pmLoop_ok {n : Nat} {wt : Nat → ℚ} (l : List (List Nat)) (k : Nat) {s : PmGraph × List Nat} (hg : IsDecodingGraph n l)
    (hs : s.2.length = n) (hin : ∀ f ∈ s.1.edges, f.u < n ∧ (f.v < n ∨ ∃ q c, f.v = n + q ∧ s.2[f.u]? = some c ∧ q < c))
    (hold : ∀ f ∈ s.1.edges, ∀ e ∈ l, e ≠ [f.u, f.v] ∧ e ≠ [f.v, f.u])
    (hp : l.Pairwise fun e f => ∀ a b, e = [a, b] → f ≠ [a, b] ∧ f ≠ [b, a]) : ∃ s', loopE (pmStep n wt) s (l.zipIdx k) = .ok s' := by
  induction l generalizing k s with
  | nil => exact ⟨s, rfl⟩
  | cons e l ih =>
    have hstep : ∃ s1, pmStep n wt s (e, k) = .ok s1 := by
      rcases hg e (by simp) with ⟨a, rfl, ha⟩ | ⟨a, b, rfl, hab, ha, hb⟩
      · obtain ⟨c, hc⟩ : ∃ c, s.2[a]? = some c := ⟨_, List.getElem?_eq_getElem (by omega)⟩
        refine ⟨(⟨s.1.edges ++ [⟨a, n + c, k, wt k⟩], s.1.boundary⟩, s.2.set a (c + 1)), ?_⟩
        simp only [pmStep, hc]
        rw [addEdge_new]
        intro f hf
        obtain ⟨h1, h2⟩ := hin f hf
        refine ⟨?_, ?_⟩
        · rintro ⟨h3, h4⟩
          dsimp only at h3 h4
          subst h3
          rcases h2 with h2 | ⟨q, c', h5, h6, h7⟩
          · omega
          · rw [hc] at h6; cases h6; omega
        · rintro ⟨h3, h4⟩
          dsimp only at h3 h4
          omega
      · refine ⟨(⟨s.1.edges ++ [⟨a, b, k, wt k⟩], s.1.boundary⟩, s.2), ?_⟩
        simp only [pmStep]
        rw [addEdge_new]
        intro f hf
        obtain ⟨h1, h2⟩ := hold f hf [a, b] (by simp)
        refine ⟨?_, ?_⟩
        · rintro ⟨rfl, rfl⟩; exact h1 rfl
        · rintro ⟨rfl, rfl⟩; exact h2 rfl
    obtain ⟨s1, hs1⟩ := hstep
    rw [List.zipIdx_cons, loopE_cons, hs1]
    obtain ⟨m, h1, h2, h3, h4, h5⟩ := pmStep_spec hs1
    rw [List.pairwise_cons] at hp
    refine ih (k + 1) (fun e he => hg e (by simp [he])) ?_ ?_ ?_ hp.2
    · rcases h5 with ⟨_, h5⟩ | ⟨_, c, _, _, h5⟩ <;> rw [h5]
      · exact hs
      · rw [List.length_set]; exact hs
    · intro f hf
      rw [h1] at hf
      rcases List.mem_append.1 hf with hf | hf
      · obtain ⟨f1, f2⟩ := hin f hf
        refine ⟨f1, f2.imp id ?_⟩
        rintro ⟨q, c, f3, f4, f5⟩
        rcases h5 with ⟨_, h5⟩ | ⟨_, c1, hc1, _, h5⟩
        · exact ⟨q, c, f3, by rw [h5]; exact f4, f5⟩
        · by_cases ha : m.u = f.u
          · rw [ha, f4] at hc1; cases hc1
            exact ⟨q, c + 1, f3, by rw [h5, ha, List.getElem?_set_self (by omega)], by omega⟩
          · exact ⟨q, c, f3, by rw [h5, List.getElem?_set_ne ha]; exact f4, f5⟩
      · rw [List.mem_singleton] at hf
        subst hf
        rcases h5 with ⟨h5, _⟩ | ⟨h5, c, hc, hv, hset⟩
        · rcases hg e (by simp) with ⟨a, he, ha⟩ | ⟨a, b, he, hab, ha, hb⟩
          · rw [h5] at he; cases he
          · rw [h5] at he
            injection he with he1 he
            injection he with he2 he
            exact ⟨by omega, .inl (by omega)⟩
        · have hml := (List.getElem?_eq_some_iff.1 hc).1
          exact ⟨by omega, .inr ⟨c, c + 1, hv, by rw [hset, List.getElem?_set_self hml], by omega⟩⟩
    · intro f hf e' he'
      rw [h1] at hf
      rcases List.mem_append.1 hf with hf | hf
      · exact hold f hf e' (by simp [he'])
      · rw [List.mem_singleton] at hf
        subst hf
        rcases h5 with ⟨h5, _⟩ | ⟨h5, c, hc, hv, hset⟩
        · exact hp.1 e' he' _ _ h5
        · have : ∀ a b, a = n + c ∨ b = n + c → e' ≠ [a, b] := by
            rintro a b hor rfl
            rcases hg [a, b] (by simp [he']) with ⟨a', he, _⟩ | ⟨a', b', he, _, ha, hb⟩
            · cases he
            · cases he; omega
          exact ⟨this _ _ (.inr hv), this _ _ (.inl hv)⟩

/-! ## Weights -/

theorem isWeighted_none {ws : List (Option FW)} (h : ∀ x ∈ ws, x = none) : isWeighted ws = .ok false := by
  unfold isWeighted
  rw [if_pos]
  rw [List.all_eq_true]
  intro x hx
  rw [h x hx]; rfl

theorem isWeighted_some {ws : List (Option FW)} (hne : ws ≠ []) (h : ∀ x ∈ ws, ∃ q : ℚ, 0 ≤ q ∧ x = some ((q : WithTop ℚ) : FW)) :
    isWeighted ws = .ok true ∧ checkWeightsSane ws = .ok () ∧ finiteWeights ws = .ok (ws.map FW.weight) := by
  have hany : ¬ (ws.any fun x => x.isNone) = true := by
    intro hx
    obtain ⟨x, hx, hn⟩ := List.any_eq_true.mp hx
    obtain ⟨q, -, rfl⟩ := h x hx
    cases hn
  refine ⟨?_, ?_, ?_⟩
  · unfold isWeighted
    rw [if_neg, if_neg hany]
    intro hall
    obtain ⟨x, hx⟩ := List.exists_mem_of_ne_nil _ hne
    have := List.all_eq_true.mp hall x hx
    obtain ⟨q, -, rfl⟩ := h x hx
    cases this
  · unfold checkWeightsSane
    rw [if_neg hany, if_neg]
    intro hx
    obtain ⟨x, hx, hn⟩ := List.any_eq_true.mp hx
    obtain ⟨q, hq, rfl⟩ := h x hx
    have hn := of_decide_eq_true hn
    have := WithTop.coe_lt_coe.mp (WithBot.coe_lt_coe.mp hn)
    linarith
  · unfold finiteWeights
    clear hany hne
    induction ws with
    | nil => rfl
    | cons x ws ih =>
      unfold mapLoop
      obtain ⟨q, hq, rfl⟩ := h x (by simp)
      rw [ih fun y hy => h y (by simp [hy])]
      rfl

/-- The weights that are found, or the reason why there are none. -/
theorem weighted_inv {ws : List (Option FW)} (h : isWeighted ws = .ok true) (h2 : checkWeightsSane ws = .ok ()) {l : List ℚ}
    (h3 : finiteWeights ws = .ok l) : ws ≠ [] ∧ (∀ x ∈ ws, ∃ q : ℚ, 0 ≤ q ∧ x = some ((q : WithTop ℚ) : FW)) ∧ l = ws.map FW.weight := by
  have hne : ws ≠ [] := by
    rintro rfl
    simp [isWeighted] at h
  have hall : ∀ x ∈ ws, ∃ q : ℚ, 0 ≤ q ∧ x = some ((q : WithTop ℚ) : FW) := by
    intro x hx
    obtain ⟨i, hi⟩ := List.getElem?_of_mem hx
    obtain ⟨q, hq, _⟩ := (mapLoop_get h3).2 i x hi
    cases hb : x.bind FW.rat with
    | none => simp only [hb] at hq; cases hq
    | some q' =>
      obtain ⟨y, rfl, hy⟩ := Option.bind_eq_some_iff.1 hb
      have hyq := FW.rat_some hy
      refine ⟨q', ?_, by rw [hyq]⟩
      unfold checkWeightsSane at h2
      split at h2
      · cases h2
      · split at h2
        · cases h2
        · rename_i hneg
          by_contra hlt
          refine hneg (List.any_eq_true.2 ⟨_, hx, ?_⟩)
          simp only [decide_eq_true_eq]
          rw [hyq]
          exact WithBot.coe_lt_coe.2 (WithTop.coe_lt_coe.2 (not_le.1 hlt))
  refine ⟨hne, hall, ?_⟩
  have := (isWeighted_some hne hall).2.2
  rw [h3] at this
  exact Except.ok.inj this

theorem isWeighted_inv {ws : List (Option FW)} (h : isWeighted ws = .ok false) : ∀ x ∈ ws, x = none := by
  unfold isWeighted at h
  split at h
  · next hall =>
    intro x hx
    have := List.all_eq_true.1 hall x hx
    simpa using this
  · split at h <;> cases h

theorem pmWeights_ok {ws : List (Option FW)} {w : Option (List ℚ)} (h : pmWeights ws = .ok w) : SaneWeights ws ∧
    (w = none ∧ (∀ x ∈ ws, x = none) ∨ w = some (ws.map FW.weight)) := by
  unfold pmWeights at h
  split at h
  · cases h
  · next h1 => cases h; exact ⟨.inl (isWeighted_inv h1), .inl ⟨rfl, isWeighted_inv h1⟩⟩
  · next h1 =>
    split at h
    · cases h
    · next h2 =>
      split at h
      · cases h
      · next l h3 =>
        cases h
        obtain ⟨_, h4, h5⟩ := weighted_inv h1 h2 h3
        exact ⟨.inr h4, .inr (by rw [h5])⟩

theorem pmWeights_total {ws : List (Option FW)} (h : SaneWeights ws) : ∃ w, pmWeights ws = .ok w := by
  rcases h with h | h
  · exact ⟨none, by simp only [pmWeights, isWeighted_none h]⟩
  · by_cases hne : ws = []
    · subst hne
      exact ⟨none, by simp [pmWeights, isWeighted]⟩
    · obtain ⟨h1, h2, h3⟩ := isWeighted_some hne h
      exact ⟨some (ws.map FW.weight), by simp only [pmWeights, h1, h2, h3]⟩

theorem SaneWeights.nonneg {ws : List (Option FW)} (h : SaneWeights ws) (i : Nat) : 0 ≤ FW.weight (ws.getD i none) := by
  rw [List.getD_eq_getElem?_getD]
  cases hi : ws[i]? with
  | none => simp [FW.weight]
  | some x =>
    rcases h with h | h
    · rw [h x (List.mem_of_getElem? hi)]; simp [FW.weight]
    · obtain ⟨q, hq, rfl⟩ := h x (List.mem_of_getElem? hi)
      exact hq

/-! ## The graph for PyMatching -/

/-- No two edges between the same vertices. -/
def SimpleEdges (edges : List (List Nat)) : Prop := edges.Pairwise fun e f => ∀ a b, e = [a, b] → f ≠ [a, b] ∧ f ≠ [b, a]

theorem foldl_max_ge {l : List Nat} {b : Nat} : b ≤ l.foldl max b ∧ ∀ x ∈ l, x ≤ l.foldl max b := by
  induction l generalizing b with
  | nil => simp
  | cons a l ih =>
    obtain ⟨h1, h2⟩ := ih (b := max b a)
    refine ⟨(le_max_left _ _).trans h1, fun x hx => ?_⟩
    rcases List.mem_cons.1 hx with rfl | hx
    · exact (le_max_right _ _).trans h1
    · exact h2 x hx

/-- The graph that PyMatching gets: the edges of the component, in the same order, where dangling edges end at boundary nodes. -/
structure PmGraph.Shows (G : PmGraph) (c : Component FW) : Prop where
  wf : G.Wf c.nVertices
  len : G.edges.length = c.edges.length
  get : ∀ (i : Nat) (l : List Nat), c.edges[i]? = some l → ∃ m, G.edges[i]? = some m ∧ m.fault = i ∧
    m.weight = FW.weight (c.weights.getD i none) ∧ (l = [m.u, m.v] ∨ l = [m.u] ∧ c.nVertices ≤ m.v)

theorem pmSetup_shows {c : Component FW} {G : PmGraph} (h : pmSetup c = .ok G) (hg : IsDecodingGraph c.nVertices c.edges)
    (hl : c.weights.length = c.edges.length) : G.Shows c ∧ SaneWeights c.weights := by
  unfold pmSetup at h
  cases hw : pmWeights c.weights with
  | error e => simp only [hw] at h; cases h
  | ok w =>
  simp only [hw] at h
  obtain ⟨hok, hwt⟩ := pmWeights_ok hw
  cases hs : loopE (pmStep c.nVertices (pmWeight w)) (⟨[], []⟩, List.replicate c.nVertices 0) c.edges.zipIdx with
  | error e => simp only [hs] at h; cases h
  | ok s =>
  obtain ⟨G0, counts⟩ := s
  simp only [hs] at h
  obtain ⟨new, h1, h2, h3, h4, h5, h6⟩ := pmLoop_spec c.edges 0 hs
  dsimp only at h1 h4 h6
  rw [List.nil_append] at h1
  subst h1
  have hsimple := h6 List.Pairwise.nil
  dsimp only at hsimple h3 h5
  obtain ⟨B, rfl, hB1, hB2⟩ : ∃ B : List Nat, G = ⟨new, B⟩ ∧ (∀ b ∈ B, c.nVertices ≤ b) ∧ ∀ (a q k : Nat), counts[a]? = some k → q < k → c.nVertices + q ∈ B := by
    split at h
    · next hany =>
      refine ⟨_, (Except.ok.inj h).symm, ?_, ?_⟩
      · intro b hb
        obtain ⟨i, _, rfl⟩ := List.mem_map.1 hb
        exact Nat.le_add_right _ _
      · intro a q k ha hq
        refine List.mem_map.2 ⟨q, List.mem_range.2 ?_, rfl⟩
        exact lt_of_lt_of_le hq (foldl_max_ge.2 k (List.mem_of_getElem? ha))
    · next hany =>
      refine ⟨_, (Except.ok.inj h).symm, by simp, ?_⟩
      intro a q k ha hq
      exfalso
      refine hany (List.any_eq_true.2 ⟨k, List.mem_of_getElem? ha, ?_⟩)
      simp; omega
  have hget : ∀ (i : Nat) (l : List Nat), c.edges[i]? = some l → ∃ m, new[i]? = some m ∧ m.fault = i ∧
      m.weight = FW.weight (c.weights.getD i none) ∧ (l = [m.u, m.v] ∨ l = [m.u] ∧ c.nVertices ≤ m.v ∧ m.v ∈ B) := by
    intro i l hi
    obtain ⟨m, e1, e2, e3, e4⟩ := h3 i l hi
    have hil : i < c.weights.length := by rw [hl]; exact (List.getElem?_eq_some_iff.1 hi).1
    refine ⟨m, e1, by omega, ?_, e4.imp id ?_⟩
    · rw [e3, Nat.zero_add]
      rcases hwt with ⟨rfl, hn⟩ | rfl
      · rw [List.getD_eq_getElem?_getD, List.getElem?_eq_getElem hil, Option.getD_some, hn _ (List.getElem_mem hil)]; rfl
      · simp [pmWeight, List.getD_eq_getElem?_getD, hil]
    · rintro ⟨f1, q, k, f2, f3, f4⟩
      exact ⟨f1, by omega, by rw [f2]; exact hB2 _ _ _ f3 f4⟩
  refine ⟨⟨⟨?_, hB1, ?_, hsimple⟩, h2, fun i l hi => ?_⟩, hok⟩
  · intro m hm
    obtain ⟨i, hi⟩ := List.getElem?_of_mem hm
    have hil : i < c.edges.length := by rw [← h2]; exact (List.getElem?_eq_some_iff.1 hi).1
    obtain ⟨m', e1, _, _, e4⟩ := hget i _ (List.getElem?_eq_getElem hil)
    have hi : new[i]? = some m := hi
    rw [hi] at e1; cases e1
    rcases e4 with e4 | ⟨e4, e5, e6⟩
    · rcases hg _ (List.getElem_mem hil) with ⟨a, f1, f2⟩ | ⟨a, b, f1, f2, f3, f4⟩
      · rw [f1] at e4; cases e4
      · rw [f1] at e4
        injection e4 with e4 e5
        injection e5 with e5
        subst e4 e5
        exact ⟨f3, f2, .inl f4⟩
    · rcases hg _ (List.getElem_mem hil) with ⟨a, f1, f2⟩ | ⟨a, b, f1, f2, f3, f4⟩
      · rw [f1] at e4
        injection e4 with e4
        subst e4
        exact ⟨f2, by omega, .inr e6⟩
      · rw [f1] at e4; cases e4
  · intro m hm
    obtain ⟨i, hi⟩ := List.getElem?_of_mem hm
    have hil : i < c.edges.length := by rw [← h2]; exact (List.getElem?_eq_some_iff.1 hi).1
    obtain ⟨m', e1, _, e3, _⟩ := hget i _ (List.getElem?_eq_getElem hil)
    have hi : new[i]? = some m := hi
    rw [hi] at e1; cases e1
    rw [e3]
    exact hok.nonneg i
  · obtain ⟨m, e1, e2, e3, e4⟩ := hget i l hi
    exact ⟨m, e1, e2, e3, e4.imp id fun ⟨f1, f2, _⟩ => ⟨f1, f2⟩⟩

theorem pmSetup_total {c : Component FW} (hg : IsDecodingGraph c.nVertices c.edges) (hs : SimpleEdges c.edges) (hw : SaneWeights c.weights) :
    ∃ G, pmSetup c = .ok G := by
  obtain ⟨w, h1⟩ := pmWeights_total hw
  obtain ⟨s, h2⟩ := pmLoop_ok (wt := pmWeight w) c.edges 0
    (s := (⟨[], []⟩, List.replicate c.nVertices 0)) hg (by simp) (by simp) (by simp) hs
  unfold pmSetup
  simp only [h1, h2]
  split
  · exact ⟨_, rfl⟩
  · exact ⟨_, rfl⟩

end Plaquette
