import Verif.Lemmas.UFUpdate

/-!
# Union find: the clusters at the beginning
-/

namespace Plaquette

variable {g : UGraph} {s : UState} {κ : Nat → Option Nat} {dp : Nat → Nat}

/-- Edge `i` is complete. -/
def Comp (g : UGraph) (s : UState) (i : Nat) : Prop := i < g.edges.length ∧ g.complete s i = true

theorem complete_congr {s s' : UState} (h : s'.growth = s.growth) (i : Nat) : g.complete s' i = g.complete s i := by
  simp only [UGraph.complete, h]

theorem allComplete_congr {s s' : UState} (h : s'.growth = s.growth) (v : Nat) : g.allComplete s' v = g.allComplete s v := by
  simp only [UGraph.allComplete]
  congr 1
  funext i
  exact complete_congr h i

/-- The edges which the search has taken into account. -/
def Seen (g : UGraph) (s : UState) (vis : Nat → Bool) (i : Nat) : Prop := vis i = true ∧ g.complete s i = true

/-- Number of unused vertices. -/
def nFree (n : Nat) (κ : Nat → Option Nat) : Nat := ((Finset.range n).filter fun v => κ v = none).card

theorem nFree_update {n v c : Nat} (hv : κ v = none) (hlt : v < n) : nFree n (Function.update κ v (some c)) + 1 = nFree n κ := by
  unfold nFree
  have : ((Finset.range n).filter fun w => Function.update κ v (some c) w = none) = ((Finset.range n).filter fun w => κ w = none).erase v := by
    ext w
    simp only [Finset.mem_filter, Finset.mem_range, Finset.mem_erase]
    by_cases hw : w = v
    · subst hw; simp
    · rw [Function.update_of_ne hw]; tauto
  rw [this]
  exact Finset.card_erase_add_one (by simp [hv, hlt])

/-- What holds during the search for cluster `c`; `x` says which vertices need not have been expanded although they are not in `todo`;
`s0` is the state before. -/
structure DInv (g : UGraph) (c : Nat) (s0 : UState) (x : Nat → Prop) (t : DfsState) (κ : Nat → Option Nat) (dp : Nat → Nat) : Prop where
  inv : UInv g (Seen g t.s t.visited) t.s κ dp
  base : SameBase s0 t.s
  ncl : t.s.nClusters = s0.nClusters
  hist : ∀ w, t.s.state w = s0.state w ∨ κ w = some c
  opened : (t.s.clusters c).opened = true
  vlt : ∀ i, t.visited i = true → i < g.edges.length
  todo : ∀ v ∈ t.todo, κ v = some c
  here : ∀ v, κ v = some c → t.s.state v = .boundary
  exp : ∀ w, κ w ≠ none → w ∉ t.todo → ¬ x w → ∀ i e, g.edges[i]? = some e → w ∈ e → t.visited i = true

theorem seen_update {vis : Nat → Bool} {i : Nat} (j : Nat) (hc : g.complete s i = true) :
    (Seen g s vis j ∨ j = i) ↔ Seen g s (Function.update vis i true) j := by
  unfold Seen
  by_cases hj : j = i
  · subst hj; simp [hc]
  · rw [Function.update_of_ne hj]; simp [hj]

theorem vis_update {vis : Nat → Bool} {i j : Nat} (h : vis j = true) : Function.update vis i true j = true := by
  by_cases hj : j = i
  · subst hj; simp
  · rw [Function.update_of_ne hj]; exact h

theorem DInv.edge (hwf : EdgesWf g.n g.edges) {c : Nat} {s0 : UState} {v : Nat} {t : DfsState} (h : DInv g c s0 (· = v) t κ dp)
    (hv : κ v = some c) {i : Nat} {o : Option Nat} {e : List Nat} (he : g.edges[i]? = some e) (hinc : Inc e v o) :
    ∃ t' κ' dp', g.dfsEdge c t (i, o) = .ok t' ∧ DInv g c s0 (· = v) t' κ' dp' ∧ κ' v = some c ∧ t'.visited i = true ∧
      (∀ j, t.visited j = true → t'.visited j = true) ∧ t'.todo.length + nFree g.n κ' = t.todo.length + nFree g.n κ ∧
      (∀ w, κ w ≠ none → κ' w = κ w) := by
  have hil := (List.getElem?_eq_some_iff.1 he).1
  unfold UGraph.dfsEdge
  by_cases hvis : t.visited i = true
  · exact ⟨t, κ, dp, by simp only [hvis, if_true], h, hv, hvis, fun _ hj => hj, rfl, fun _ _ => rfl⟩
  have hvf : t.visited i = false := by simpa using hvis
  have hvl : ∀ j, Function.update t.visited i true j = true → j < g.edges.length := by
    intro j hj
    by_cases hji : j = i
    · subst hji; exact hil
    · rw [Function.update_of_ne hji] at hj; exact h.vlt j hj
  simp only [hvf, Bool.false_eq_true, if_false]
  by_cases hc : g.complete t.s i = true
  · simp only [hc, if_true]
    cases o with
    | none =>
      have hes : e = [v] := by cases hinc; rfl
      subst hes
      refine ⟨_, κ, dp, rfl, ⟨?_, ⟨h.base.growth, h.base.syn⟩, h.ncl, h.hist, ?_, hvl, h.todo, h.here, ?_⟩, hv, Function.update_self _ _ _,
        fun j hj => vis_update hj, rfl, fun _ _ => rfl⟩
      · exact (h.inv.dangling hv he hc).congrL fun j => seen_update j hc
      · show (Function.update t.s.clusters c _ c).opened = true
        rw [Function.update_self]; exact h.opened
      · exact fun w hw hwt hx j e' he' hm => vis_update (h.exp w hw hwt hx j e' he' hm)
    | some u =>
      by_cases hu : t.s.state u = .unused
      · have hku := (h.inv.unused u).1 hu
        have hult := hwf.lt (List.mem_of_getElem? he) hinc.other_mem
        obtain ⟨r, B, e1, h1⟩ := h.inv.addVertex hv (h.here v hv) hku hult he hinc hc (.inl h.opened)
        simp only [hu, if_true, e1]
        have hvu : v ≠ u := by rintro rfl; rw [hv] at hku; simp at hku
        refine ⟨_, Function.update κ u (some c), Function.update dp u 1, rfl, ⟨?_, ⟨h.base.growth, h.base.syn⟩, h.ncl, ?_, ?_, hvl, ?_, ?_, ?_⟩, ?_, Function.update_self _ _ _,
          fun j hj => vis_update hj, ?_, fun w hw => by
            by_cases hwu : w = u
            · subst hwu; exact absurd hku hw
            · rw [Function.update_of_ne hwu]⟩
        · exact h1.congrL fun j => seen_update j hc
        · intro w
          by_cases hw : w = u
          · subst hw; right; exact Function.update_self _ _ _
          · rw [Function.update_of_ne hw]
            rcases h.hist w with h2 | h2
            · left; exact (Function.update_of_ne hw _ _).trans h2
            · exact .inr h2
        · show (Function.update t.s.clusters c _ c).opened = true
          rw [Function.update_self]; exact h.opened
        · intro w hw
          rcases List.mem_cons.1 hw with rfl | hw1
          · exact Function.update_self _ _ _
          · have : w ≠ u := by rintro rfl; rw [h.todo w hw1] at hku; simp at hku
            rw [Function.update_of_ne this]; exact h.todo w hw1
        · intro w hw
          by_cases hwu : w = u
          · subst hwu; exact Function.update_self _ _ _
          · rw [Function.update_of_ne hwu] at hw
            exact (Function.update_of_ne hwu _ _).trans (h.here w hw)
        · intro w hw hwt hx j e' he' hm
          have hwt : w ∉ u :: t.todo := hwt
          rw [List.mem_cons, not_or] at hwt
          rw [Function.update_of_ne hwt.1] at hw
          exact vis_update (h.exp w hw hwt.2 hx j e' he' hm)
        · rw [Function.update_of_ne hvu]; exact hv
        · show (u :: t.todo).length + _ = _
          rw [List.length_cons]
          have := nFree_update (c := c) hku hult
          omega
      · simp only [if_neg hu]
        have hku : κ u ≠ none := by rwa [Ne, ← h.inv.unused]
        have huv : u ≠ v := by cases hinc <;> (first | assumption | exact Ne.symm ‹_›)
        have hkc : κ u = some c := by
          by_contra hcon
          have hnt : u ∉ t.todo := fun hm => hcon (h.todo u hm)
          have := h.exp u hku hnt huv i e he hinc.other_mem
          rw [hvf] at this; simp at this
        have hmem : ∀ w ∈ e, κ w = some c := by
          intro w hw
          have : w = v ∨ w = u := by cases hinc <;> simp at hw <;> tauto
          rcases this with rfl | rfl <;> assumption
        refine ⟨_, κ, dp, rfl, ⟨?_, h.base, h.ncl, h.hist, h.opened, hvl, h.todo, h.here, ?_⟩, hv, Function.update_self _ _ _,
          fun j hj => vis_update hj, rfl, fun _ _ => rfl⟩
        · exact (h.inv.inside he hmem hc (by rintro w rfl; cases hinc)).congrL fun j => seen_update j hc
        · exact fun w hw hwt hx j e' he' hm => vis_update (h.exp w hw hwt hx j e' he' hm)
  · simp only [if_neg hc]
    refine ⟨_, κ, dp, rfl, ⟨?_, h.base, h.ncl, h.hist, h.opened, hvl, h.todo, h.here, ?_⟩, hv, Function.update_self _ _ _,
      fun j hj => vis_update hj, rfl, fun _ _ => rfl⟩
    · refine h.inv.congrL fun j => ?_
      unfold Seen
      by_cases hj : j = i
      · subst hj; simp [hc]
      · show _ ↔ Function.update t.visited i true j = true ∧ _
        rw [Function.update_of_ne hj]
    · exact fun w hw hwt hx j e' he' hm => vis_update (h.exp w hw hwt hx j e' he' hm)

theorem DInv.vertex (hwf : EdgesWf g.n g.edges) {c : Nat} {s0 : UState} {v : Nat} {t : DfsState} (h : DInv g c s0 (· = v) t κ dp)
    (hv : κ v = some c) :
    ∃ t' κ' dp', loopE (g.dfsEdge c) t (g.nbrs v) = .ok t' ∧ DInv g c s0 (fun _ => False) t' κ' dp' ∧
      t'.todo.length + nFree g.n κ' = t.todo.length + nFree g.n κ ∧ (∀ j, t.visited j = true → t'.visited j = true) ∧
      (∀ w, κ w ≠ none → κ' w = κ w) := by
  obtain ⟨t', e1, κ', dp', h1, h2, h3, h4, h10, h11⟩ := loopE_inv (f := g.dfsEdge c)
    (fun k t1 => ∃ κ1 dp1, DInv g c s0 (· = v) t1 κ1 dp1 ∧ κ1 v = some c ∧
      (∀ j i o, j < k → (g.nbrs v)[j]? = some (i, o) → t1.visited i = true) ∧
      t1.todo.length + nFree g.n κ1 = t.todo.length + nFree g.n κ ∧ (∀ j, t.visited j = true → t1.visited j = true) ∧
      (∀ w, κ w ≠ none → κ1 w = κ w))
    (g.nbrs v) 0 t ⟨κ, dp, h, hv, by omega, rfl, fun _ hj => hj, fun _ _ => rfl⟩ (by
      rintro j ⟨i, o⟩ t1 hj ⟨κ1, dp1, h1, h2, h3, h4, h10, h11⟩
      obtain ⟨e, he, hinc⟩ := (UGraph.mem_nbrs hwf).1 (List.mem_of_getElem? hj)
      obtain ⟨t2, κ2, dp2, e2, h5, h6, h7, h8, h9, h12⟩ := h1.edge hwf h2 he hinc
      refine ⟨t2, e2, κ2, dp2, h5, h6, ?_, h9.trans h4, fun j hj => h8 j (h10 j hj), fun w hw => (h12 w (by rw [h11 w hw]; exact hw)).trans (h11 w hw)⟩
      intro j' i' o' hj' hg
      by_cases hjj : j' = j
      · subst hjj
        rw [hj] at hg
        obtain ⟨rfl, rfl⟩ : i = i' ∧ o = o' := by simpa using hg
        exact h7
      · exact h8 i' (h3 j' i' o' (by omega) hg))
  refine ⟨t', κ', dp', e1, ⟨h1.inv, h1.base, h1.ncl, h1.hist, h1.opened, h1.vlt, h1.todo, h1.here, ?_⟩, h4, h10, h11⟩
  intro w hw hwt _ i e he hm
  by_cases hwv : w = v
  · subst hwv
    obtain ⟨o, ho⟩ := hwf.inc (List.mem_of_getElem? he) hm
    obtain ⟨j, hj⟩ := List.getElem?_of_mem ((UGraph.mem_nbrs hwf).2 ⟨e, he, ho⟩)
    exact h3 j i o (by have := (List.getElem?_eq_some_iff.1 hj).1; omega) hj
  · exact h1.exp w hw hwt hwv i e he hm

theorem DInv.dfs (hwf : EdgesWf g.n g.edges) {c : Nat} {s0 : UState} : ∀ (k : Nat) {t : DfsState} {κ : Nat → Option Nat} {dp : Nat → Nat},
    DInv g c s0 (fun _ => False) t κ dp → t.todo.length + nFree g.n κ ≤ k →
    ∃ t' κ' dp', g.dfs c k t = .ok t' ∧ DInv g c s0 (fun _ => False) t' κ' dp' ∧ t'.todo = [] ∧
      (∀ j, t.visited j = true → t'.visited j = true) ∧ (∀ w, κ w ≠ none → κ' w = κ w) := by
  intro k
  induction k with
  | zero =>
    intro t κ dp h hk
    have : t.todo = [] := List.length_eq_zero_iff.1 (by omega)
    exact ⟨t, κ, dp, by simp [UGraph.dfs, this], h, this, fun _ hj => hj, fun _ _ => rfl⟩
  | succ k ih =>
    intro t κ dp h hk
    unfold UGraph.dfs
    cases ht : t.todo with
    | nil => exact ⟨t, κ, dp, rfl, h, ht, fun _ hj => hj, fun _ _ => rfl⟩
    | cons v rest =>
      have hv := h.todo v (by rw [ht]; simp)
      have h0 : DInv g c s0 (· = v) { t with todo := rest } κ dp := by
        refine ⟨h.inv, h.base, h.ncl, h.hist, h.opened, h.vlt, fun w hw => h.todo w (by rw [ht]; exact List.mem_cons_of_mem _ hw), h.here, ?_⟩
        intro w hw hwt hwv i e he hm
        refine h.exp w hw ?_ id i e he hm
        rw [ht, List.mem_cons, not_or]
        exact ⟨hwv, hwt⟩
      obtain ⟨t1, κ1, dp1, e1, h1, h2, h3, h4⟩ := h0.vertex hwf hv
      have h2 : t1.todo.length + nFree g.n κ1 = rest.length + nFree g.n κ := h2
      obtain ⟨t2, κ2, dp2, e2, h5, h6, h7, h8⟩ := ih h1 (by rw [ht, List.length_cons] at hk; omega)
      refine ⟨t2, κ2, dp2, ?_, h5, h6, fun j hj => h7 j (h3 j hj), fun w hw => (h8 w (by rw [h4 w hw]; exact hw)).trans (h4 w hw)⟩
      simp only [e1]
      exact e2

/-- What holds between the searches; the edges before `k` have been looked at. -/
structure OuterInv (g : UGraph) (s0 : UState) (k : Nat) (t : UState × (Nat → Bool)) (κ : Nat → Option Nat) (dp : Nat → Nat) : Prop where
  inv : UInv g (Seen g t.1 t.2) t.1 κ dp
  base : SameBase s0 t.1
  vlt : ∀ i, t.2 i = true → i < g.edges.length
  exp : ∀ w, κ w ≠ none → ∀ i e, g.edges[i]? = some e → w ∈ e → t.2 i = true
  seen : ∀ i, i < k → g.complete t.1 i = true → t.2 i = true
  bnd : ∀ v, t.1.state v = .boundary → g.allComplete t.1 v = false

theorem OuterInv.step (hwf : EdgesWf g.n g.edges) {s0 : UState} {k : Nat} (hk : k < g.edges.length) {t : UState × (Nat → Bool)}
    (h : OuterInv g s0 k t κ dp) : ∃ t' κ' dp', g.erasureEdge t k = .ok t' ∧ OuterInv g s0 (k + 1) t' κ' dp' := by
  obtain ⟨s, vis⟩ := t
  unfold UGraph.erasureEdge
  by_cases hc : vis k = true ∨ g.complete s k = false
  · refine ⟨(s, vis), κ, dp, by simp only [hc, if_true], h.inv, h.base, h.vlt, h.exp, ?_, h.bnd⟩
    intro i hi hcomp
    by_cases hik : i = k
    · subst hik
      rcases hc with hc | hc
      · exact hc
      · rw [hc] at hcomp; simp at hcomp
    · exact h.seen i (by omega) hcomp
  simp only [if_neg hc]
  rw [not_or] at hc
  have hvk : vis k = false := by simpa using hc.1
  have hck : g.complete s k = true := by simpa using hc.2
  have he : g.edges[k]? = some g.edges[k] := List.getElem?_eq_getElem hk
  generalize g.edges[k] = e at he
  obtain ⟨v, tl, rfl⟩ : ∃ v tl, e = v :: tl := by
    rcases hwf.cases he with ⟨a, rfl⟩ | ⟨a, b, rfl, _⟩
    · exact ⟨a, [], rfl⟩
    · exact ⟨a, [b], rfl⟩
  have hvlt : v < g.n := hwf.lt (List.mem_of_getElem? he) (by simp)
  have hkv : κ v = none := by
    by_contra hcon
    have : vis k = true := h.exp v hcon k _ he (by simp)
    rw [hvk] at this; simp at this
  obtain ⟨e1, h1⟩ := h.inv.newCluster hkv hvlt
  simp only [he, e1]
  have hk2 : ∀ w, w ≠ v → Function.update κ v (some s.nClusters) w = κ w := fun w hw => Function.update_of_ne hw _ _
  have hk3 : Function.update κ v (some s.nClusters) v = some s.nClusters := Function.update_self _ _ _
  have hknew : ∀ w, κ w ≠ some s.nClusters := fun w hw => absurd (h.inv.kc w _ hw) (lt_irrefl s.nClusters)
  have hD : DInv g s.nClusters (s.withCluster v) (fun _ => False) ⟨s.withCluster v, vis, [v]⟩ (Function.update κ v (some s.nClusters)) (Function.update dp v 0) := by
    refine ⟨h1, ⟨rfl, rfl⟩, rfl, fun w => .inl rfl, ?_, h.vlt, ?_, ?_, ?_⟩
    · show (Function.update s.clusters s.nClusters _ s.nClusters).opened = true
      rw [Function.update_self]
    · intro w hw
      obtain rfl : w = v := by simpa using hw
      exact hk3
    · intro w hw
      by_cases hwv : w = v
      · subst hwv; exact Function.update_self _ _ _
      · rw [hk2 w hwv] at hw; exact absurd hw (hknew w)
    · intro w hw hwt _ i e' he' hm
      have hwv : w ≠ v := by simpa using hwt
      rw [hk2 w hwv] at hw
      exact h.exp w hw i e' he' hm
  have hfree : ([v] : List Nat).length + nFree g.n (Function.update κ v (some s.nClusters)) ≤ g.n := by
    have h2 := nFree_update (c := s.nClusters) hkv hvlt
    have h3 : nFree g.n κ ≤ g.n := (Finset.card_filter_le _ _).trans (by simp)
    simp only [List.length_cons, List.length_nil]
    omega
  obtain ⟨d, κ2, dp2, e2, h2, h3, h4, h5⟩ := hD.dfs hwf g.n hfree
  simp only [e2]
  have hall : ∀ w, κ2 w ≠ none → ∀ i e, g.edges[i]? = some e → w ∈ e → d.visited i = true :=
    fun w hw => h2.exp w hw (by rw [h3]; simp) id
  have hdn : d.s.nClusters = s.nClusters + 1 := h2.ncl
  obtain ⟨s', e3, h6, h7, h8, h9, h10⟩ := h2.inv.update hwf (c := s.nClusters) (by rw [hdn]; omega)
    (fun w hw i e' he' hm hcomp => ⟨hall w (by rw [hw]; simp) i e' he' hm, hcomp⟩)
  simp only [e3]
  have hsg : s'.growth = s.growth := h7.growth.trans h2.base.growth
  have hss : s'.syn = s.syn := h7.syn.trans h2.base.syn
  refine ⟨(s', d.visited), κ2, dp2, rfl, ⟨?_, ⟨hsg.trans h.base.growth, hss.trans h.base.syn⟩, h2.vlt, hall, ?_, ?_⟩⟩
  · refine h6.congrL fun j => ?_
    unfold Seen
    rw [complete_congr h7.growth]
  · intro i hi hcomp
    have hcomp : g.complete s' i = true := hcomp
    rw [complete_congr hsg] at hcomp
    by_cases hik : i = k
    · subst hik
      exact hall v (by rw [h5 v (by rw [hk3]; simp), hk3]; simp) i _ he (by simp)
    · exact h4 i (h.seen i (by omega) hcomp)
  · intro w hw
    show g.allComplete s' w = false
    rw [allComplete_congr h7.growth]
    by_cases hwc : κ2 w = some s.nClusters
    · exact h10 w hwc hw
    · have h11 : d.s.state w = .boundary := by rw [← h9 w hwc]; exact hw
      rw [allComplete_congr h2.base.growth]
      show g.allComplete s w = false
      rcases h2.hist w with h12 | h12
      · have h13 : (s.withCluster v).state w = .boundary := h12.symm.trans h11
        have hwv : w ≠ v := by
          rintro rfl
          exact hwc ((h5 w (by rw [hk3]; simp)).trans hk3)
        refine h.bnd w ?_
        have : (s.withCluster v).state w = s.state w := Function.update_of_ne hwv _ _
        exact this.symm.trans h13
      · exact absurd h12 hwc

end Plaquette
