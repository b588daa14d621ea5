import Verif.Lemmas.UFInit

/-!
# Union find: the state after `init`
-/

namespace Plaquette

variable {g : UGraph} {s : UState} {κ : Nat → Option Nat} {dp : Nat → Nat}

/-- What holds between the steps of union find. -/
structure StepInv (g : UGraph) (syn : Nat → Bool) (s : UState) (κ : Nat → Option Nat) (dp : Nat → Nat) : Prop where
  inv : UInv g (Comp g s) s κ dp
  syn_eq : s.syn = syn
  used : ∀ v, syn v = true → κ v ≠ none
  bnd : ∀ v, s.state v = .boundary → g.allComplete s v = false

theorem eraseLoop : ∀ (erasure : List Nat) (s : UState), (∀ i ∈ erasure, i < g.edges.length) →
    (∀ i, i < g.edges.length → s.growth i = 0 ∨ s.growth i = g.maxGrowth i) →
    ∃ G : Nat → ℚ, loopE g.eraseStep s erasure = .ok { s with growth := G } ∧
      (∀ i, i < g.edges.length → (G i = s.growth i ∧ i ∉ erasure) ∨ (G i = g.maxGrowth i ∧ i ∈ erasure) ∨
        (g.complete s i = true ∧ G i = s.growth i)) := by
  intro erasure
  induction erasure with
  | nil => intro s _ _; exact ⟨s.growth, rfl, fun i _ => .inl ⟨rfl, by simp⟩⟩
  | cons j erasure ih =>
    intro s hlt hs
    have hj := hlt j (by simp)
    by_cases hc : g.complete s j = true
    · obtain ⟨G, e1, h1⟩ := ih s (fun i hi => hlt i (List.mem_cons_of_mem _ hi)) hs
      refine ⟨G, (loopE_step (by simp [UGraph.eraseStep, hj, hc])).trans e1, fun i hi => ?_⟩
      rcases h1 i hi with h2 | h2 | h2
      · by_cases hij : i = j
        · subst hij; exact .inr (.inr ⟨hc, h2.1⟩)
        · exact .inl ⟨h2.1, by simp [hij, h2.2]⟩
      · exact .inr (.inl ⟨h2.1, List.mem_cons_of_mem _ h2.2⟩)
      · exact .inr (.inr h2)
    · obtain ⟨G, e1, h1⟩ := ih { s with growth := Function.update s.growth j (g.maxGrowth j) }
        (fun i hi => hlt i (List.mem_cons_of_mem _ hi)) (fun i hi => by
          by_cases hij : i = j
          · subst hij; right; exact Function.update_self _ _ _
          · show Function.update s.growth j _ i = 0 ∨ Function.update s.growth j _ i = _
            rw [Function.update_of_ne hij]; exact hs i hi)
      refine ⟨G, (loopE_step (by simp [UGraph.eraseStep, hj, hc])).trans e1, fun i hi => ?_⟩
      by_cases hij : i = j
      · subst hij
        rcases h1 i hi with h2 | h2 | h2
        · exact .inr (.inl ⟨h2.1.trans (Function.update_self _ _ _), by simp⟩)
        · exact .inr (.inl ⟨h2.1, by simp⟩)
        · exact .inr (.inl ⟨h2.2.trans (Function.update_self _ _ _), by simp⟩)
      · have hG : ({ s with growth := Function.update s.growth j (g.maxGrowth j) } : UState).growth i = s.growth i := Function.update_of_ne hij _ _
        rcases h1 i hi with h2 | h2 | h2
        · exact .inl ⟨h2.1.trans hG, by simp [hij, h2.2]⟩
        · exact .inr (.inl ⟨h2.1, List.mem_cons_of_mem _ h2.2⟩)
        · refine .inr (.inr ⟨?_, h2.2.trans hG⟩)
          have := of_decide_eq_true h2.1
          rw [hG] at this
          exact decide_eq_true this

theorem syndromeLoop_step (hwf : EdgesWf g.n g.edges) {syn : Nat → Bool} (h : UInv g (Comp g s) s κ dp) (hs : s.syn = syn)
    (hb : ∀ v, s.state v = .boundary → g.allComplete s v = false) {v : Nat} (hv : v < g.n) :
    ∃ s' κ' dp', g.syndromeVertex s v = .ok s' ∧ UInv g (Comp g s') s' κ' dp' ∧ SameBase s s' ∧
      (∀ w, s'.state w = .boundary → g.allComplete s' w = false) ∧ (syn v = true → κ' v ≠ none) ∧ (∀ w, κ w ≠ none → κ' w ≠ none) := by
  unfold UGraph.syndromeVertex
  by_cases hc : s.syn v = true ∧ s.state v = .unused
  · simp only [hc, and_self, if_true]
    have hkv := (h.unused v).1 hc.2
    obtain ⟨e1, h1⟩ := h.newCluster hkv hv
    have hk3 : Function.update κ v (some s.nClusters) v = some s.nClusters := Function.update_self _ _ _
    obtain ⟨s', e2, h2, h3, h4, h5, h6⟩ := h1.update hwf (c := s.nClusters) (Nat.lt_succ_self _)
      (fun w hw i e he hm hcomp => ⟨(List.getElem?_eq_some_iff.1 he).1, hcomp⟩)
    simp only [e1, e2]
    refine ⟨s', _, _, rfl, h2.congrL fun i => ?_, ⟨h3.growth, h3.syn⟩, ?_, fun _ => by rw [hk3]; simp, fun w hw => ?_⟩
    · unfold Comp; rw [complete_congr h3.growth]; exact Iff.rfl
    · intro w hw
      rw [allComplete_congr h3.growth]
      by_cases hwc : Function.update κ v (some s.nClusters) w = some s.nClusters
      · exact h6 w hwc hw
      · have hwv : w ≠ v := by rintro rfl; exact hwc hk3
        have : (s.withCluster v).state w = s.state w := Function.update_of_ne hwv _ _
        show g.allComplete s w = false
        exact hb w (by rw [← this, ← h5 w hwc]; exact hw)
    · have hwv : w ≠ v := by rintro rfl; exact hw hkv
      rw [Function.update_of_ne hwv]; exact hw
  · refine ⟨s, κ, dp, by simp only [if_neg hc], h, ⟨rfl, rfl⟩, hb, fun hsv => ?_, fun _ hw => hw⟩
    rw [Ne, ← h.unused]
    exact fun hu => hc ⟨by rw [hs]; exact hsv, hu⟩

theorem init_spec (hwf : EdgesWf g.n g.edges) (hmax : ∀ i, i < g.edges.length → 0 < g.maxGrowth i) {erasure : List Nat}
    (her : ∀ i ∈ erasure, i < g.edges.length) {syn : List Bool} (hsyn : syn.length = g.n) :
    ∃ s κ dp, g.init erasure syn = .ok s ∧ StepInv g (fun v => syn.getD v false) s κ dp ∧
      (∀ i, i < g.edges.length → (s.growth i = 0 ∧ i ∉ erasure) ∨ (s.growth i = g.maxGrowth i ∧ i ∈ erasure)) := by
  obtain ⟨G, e1, h1⟩ := eraseLoop (g := g) erasure (UState.fresh fun v => syn.getD v false) her (fun i _ => .inl rfl)
  have hG : ∀ i, i < g.edges.length → (G i = 0 ∧ i ∉ erasure) ∨ (G i = g.maxGrowth i ∧ i ∈ erasure) := by
    intro i hi
    rcases h1 i hi with h2 | h2 | h2
    · exact .inl h2
    · exact .inr h2
    · exfalso
      have := of_decide_eq_true h2.1
      have h3 : g.maxGrowth i ≤ 0 := this
      have := hmax i hi
      linarith
  set s0 : UState := { UState.fresh fun v => syn.getD v false with growth := G } with hs0
  have hU : UInv g (Seen g s0 fun _ => false) s0 (fun _ => none) (fun _ => 0) := by
    refine ⟨by simp, fun v => by simp [s0, UState.fresh], fun v _ => ⟨rfl, rfl⟩, by simp, by simp, by simp, by simp, ?_, ?_, ?_, ?_, ?_, by simp, ?_⟩
    · intro c hc; exact absurd hc (Nat.not_lt_zero c)
    · exact List.nodup_nil
    · intro c
      constructor
      · intro hc; have hc : c ∈ ([] : List Nat) := hc; simp at hc
      · rintro ⟨hc, _⟩; exact absurd hc (Nat.not_lt_zero c)
    · intro c hc; exact absurd hc (Nat.not_lt_zero c)
    · rintro i ⟨hi, _⟩; simp at hi
    · intro v hv; have hv : UVState.unused = UVState.interior := hv; simp at hv
  obtain ⟨t, e2, κ2, dp2, h2⟩ := loopE_inv (f := g.erasureEdge)
    (fun k t => ∃ κ dp, OuterInv g s0 k t κ dp) (List.range g.edges.length) 0 (s0, fun _ => false)
    ⟨_, _, hU, ⟨rfl, rfl⟩, by simp, by simp, by omega, fun v hv => by have hv : UVState.unused = UVState.boundary := hv; simp at hv⟩ (by
      rintro j a t hj ⟨κ, dp, ht⟩
      obtain ⟨hj1, rfl⟩ : j < g.edges.length ∧ a = j := by
        have hjl := (List.getElem?_eq_some_iff.1 hj).1
        rw [List.length_range] at hjl
        rw [List.getElem?_range hjl] at hj
        exact ⟨hjl, by simpa using hj.symm⟩
      rw [Nat.zero_add] at ht ⊢
      obtain ⟨t', κ', dp', e3, h3⟩ := ht.step hwf hj1
      exact ⟨t', e3, κ', dp', h3⟩)
  rw [List.length_range, Nat.zero_add] at h2
  have hcomp : UInv g (Comp g t.1) t.1 κ2 dp2 := h2.inv.congrL fun i =>
    ⟨fun hi => ⟨h2.vlt i hi.1, hi.2⟩, fun hi => ⟨h2.seen i hi.1 hi.2, hi.2⟩⟩
  obtain ⟨s, e4, κ4, dp4, h4, h5, h6, h7⟩ := loopE_inv (f := g.syndromeVertex)
    (fun k s => ∃ κ dp, UInv g (Comp g s) s κ dp ∧ SameBase s0 s ∧ (∀ v, s.state v = .boundary → g.allComplete s v = false) ∧
      ∀ v, v < k → s0.syn v = true → κ v ≠ none) (List.range g.n) 0 t.1
    ⟨κ2, dp2, hcomp, h2.base, h2.bnd, by omega⟩ (by
      rintro j a s hj ⟨κ, dp, h4, h5, h6, h7⟩
      obtain ⟨hj1, rfl⟩ : j < g.n ∧ a = j := by
        have hjl := (List.getElem?_eq_some_iff.1 hj).1
        rw [List.length_range] at hjl
        rw [List.getElem?_range hjl] at hj
        exact ⟨hjl, by simpa using hj.symm⟩
      rw [Nat.zero_add] at h7 ⊢
      obtain ⟨s', κ', dp', e5, h8, h9, h10, h11, h12⟩ := syndromeLoop_step hwf h4 (syn := s0.syn) h5.syn h6 hj1
      refine ⟨s', e5, κ', dp', h8, h5.trans h9, h10, fun v hv hsv => ?_⟩
      by_cases hva : v = a
      · subst hva; exact h11 hsv
      · exact h12 v (h7 v (by omega) hsv))
  rw [List.length_range, Nat.zero_add] at h7
  refine ⟨s, κ4, dp4, ?_, ⟨h4, h5.syn, fun v hv => h7 v ?_ hv, h6⟩, fun i hi => by rw [h5.growth]; exact hG i hi⟩
  · simp only [UGraph.init, hsyn, if_true, e1]
    simp only [e2]
    exact e4
  · by_contra hcon
    rw [List.getD_eq_getElem?_getD, List.getElem?_eq_none (by omega)] at hv
    simp at hv

end Plaquette
