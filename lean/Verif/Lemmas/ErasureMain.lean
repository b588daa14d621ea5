import Verif.Lemmas.ErasureForest
import Mathlib.Logic.Relation
import Mathlib.Algebra.Group.Nat.Even

/-!
# The erasure decoder as a whole
-/

namespace Plaquette

/-- The subgraph of selected edges. -/
structure Selected (n : Nat) (edges : List (List Nat)) (sel : List Nat) (g : EGraph) : Prop where
  n_eq : g.n = n
  edges_eq : g.edges = edges
  nbr : g.nbr = none
  eon : ∀ i, g.eOn i = true ↔ i ∈ sel
  von : ∀ v, g.vOn v = true ↔ ∃ i ∈ sel, ∃ e, edges[i]? = some e ∧ v ∈ e

theorem Selected.graphOk {n : Nat} {edges : List (List Nat)} {sel : List Nat} {g : EGraph} (h : Selected n edges sel g)
    (hwf : EdgesWf n edges) (hsel : ∀ i ∈ sel, i < edges.length) : GraphOk g := by
  refine ⟨by rw [h.n_eq, h.edges_eq]; exact hwf, fun i e hi he v hv => (h.von v).2 ⟨i, (h.eon i).1 hi, e, by rw [← h.edges_eq]; exact he, hv⟩, fun v hv => ?_,
    fun i hi => by rw [h.edges_eq]; exact hsel i ((h.eon i).1 hi)⟩
  obtain ⟨i, _, e, he, hm⟩ := (h.von v).1 hv
  rw [h.n_eq]
  exact hwf.lt (List.mem_of_getElem? he) hm

theorem enableVertices_spec : ∀ (e : List Nat) (g : EGraph), (∀ v ∈ e, v < g.n) →
    ∃ W : Nat → Bool, loopE (fun (g : EGraph) v => g.enableVertex v true) g e = .ok { g with vOn := W } ∧
      ∀ v, W v = true ↔ v ∈ e ∨ g.vOn v = true := by
  intro e
  induction e with
  | nil => intro g _; exact ⟨g.vOn, rfl, by simp⟩
  | cons a e ih =>
    intro g hlt
    obtain ⟨W, h1, h2⟩ := ih { g with vOn := Function.update g.vOn a true } (fun v hv => hlt v (List.mem_cons_of_mem _ hv))
    refine ⟨W, (loopE_step (enableVertex_true (hlt a (by simp)))).trans h1, fun v => ?_⟩
    rw [h2]
    show v ∈ e ∨ Function.update g.vOn a true v = true ↔ _
    rw [update_true, List.mem_cons]
    tauto

theorem enableEdges_spec {n : Nat} {edges : List (List Nat)} (hwf : EdgesWf n edges) : ∀ (sel done : List Nat) (g : EGraph),
    Selected n edges done g → (∀ i ∈ done, i < edges.length) → (∀ i ∈ sel, i < edges.length) →
    ∃ g', g.enableEdges sel = .ok g' ∧ Selected n edges (done ++ sel) g' := by
  intro sel
  induction sel with
  | nil => intro done g h _ _; exact ⟨g, rfl, by simpa using h⟩
  | cons i sel ih =>
    intro done g h hd hs
    have hi := hs i (by simp)
    have he : edges[i]? = some edges[i] := List.getElem?_eq_getElem hi
    generalize edges[i] = e at he
    obtain ⟨W, e1, hW⟩ := enableVertices_spec e g (fun v hv => by rw [h.n_eq]; exact hwf.lt (List.mem_of_getElem? he) hv)
    have hok := h.graphOk hwf hd
    have hok1 : GraphOk { g with vOn := W } := by
      refine ⟨hok.wf, fun j e' hj he' v hv => (hW v).2 (.inr (hok.ends j e' hj he' v hv)), fun v hv => ?_, hok.elt⟩
      rcases (hW v).1 hv with hv | hv
      · show v < g.n; rw [h.n_eq]; exact hwf.lt (List.mem_of_getElem? he) hv
      · exact hok.vlt v hv
    have e2 := enableEdge_true hok1 h.nbr (i := i) (e := e) (by show g.edges[i]? = _; rw [h.edges_eq]; exact he) (fun v hv => (hW v).2 (.inl hv))
    obtain ⟨g', e3, h3⟩ := ih (done ++ [i]) { g with vOn := W, eOn := Function.update g.eOn i true }
      ⟨h.n_eq, h.edges_eq, h.nbr, fun j => by
        show Function.update g.eOn i true j = true ↔ _
        rw [update_true, h.eon j, List.mem_append, List.mem_singleton]; tauto, fun v => by
        show W v = true ↔ _
        rw [hW, h.von v]
        constructor
        · rintro (hv | ⟨j, hj, e', he', hv⟩)
          · exact ⟨i, by simp, e, he, hv⟩
          · exact ⟨j, by simp [hj], e', he', hv⟩
        · rintro ⟨j, hj, e', he', hv⟩
          rcases List.mem_append.1 hj with hj | hj
          · exact .inr ⟨j, hj, e', he', hv⟩
          · rw [List.mem_singleton] at hj; subst hj
            rw [he] at he'; cases he'
            exact .inl hv⟩
      (fun j hj => by
        rcases List.mem_append.1 hj with hj | hj
        · exact hd j hj
        · rw [List.mem_singleton.1 hj]; exact hi)
      (fun j hj => hs j (List.mem_cons_of_mem _ hj))
    refine ⟨g', ?_, by simpa using h3⟩
    refine (loopE_step ?_).trans e3
    simp only [show g.edges[i]? = some e by rw [h.edges_eq]; exact he, e1]
    exact e2

/-- The decoder returns some of the selected edges, and they explain the syndrome if any selected edges do. -/
theorem erasureDecode_spec {n : Nat} {edges : List (List Nat)} (hwf : EdgesWf n edges) {sel : List Nat}
    (hsel : ∀ i ∈ sel, i < edges.length) (syn : Nat → Bool) :
    ∃ x : Nat → Bool, erasureDecode n edges sel syn = .ok ((List.range edges.length).map x) ∧ (∀ i, x i = true → i ∈ sel) ∧
      (InSpan edges (fun i => decide (i ∈ sel)) syn → bd edges x = syn) := by
  obtain ⟨g, e1, h1⟩ := enableEdges_spec hwf sel [] (EGraph.fresh n edges)
    ⟨rfl, rfl, rfl, by simp [EGraph.fresh], by simp [EGraph.fresh]⟩ (by simp) hsel
  rw [List.nil_append] at h1
  have hok := h1.graphOk hwf hsel
  obtain ⟨N, e2, hN⟩ := updateNeighbours_spec hok
  obtain ⟨f, e3, hf, hedge, hspan⟩ := constructForest_spec (g := { g with nbr := some N }) (hok.congr rfl rfl rfl rfl) rfl hN
    (fun v hv => by
      obtain ⟨i, hi, e, he, hm⟩ := (h1.von v).1 hv
      exact ⟨i, e, (h1.eon i).2 hi, by show g.edges[i]? = _; rw [h1.edges_eq]; exact he, hm⟩)
  obtain ⟨x, e4, hx, hb⟩ := peelForest_spec hf.ok hf.forest hedge syn
  have hfe : f.edges = edges := hf.edges_eq.trans h1.edges_eq
  rw [hfe] at e4 hb
  refine ⟨x, by simp only [erasureDecode, e1, e2, e3, e4], fun i hi => (h1.eon i).1 (hf.sub i (hx i hi)), fun hs => hb ?_⟩
  refine hs.trans (fun i hi hin => ?_)
  have := hspan i (by show i < g.edges.length; rw [h1.edges_eq]; exact hi) ((h1.eon i).2 (of_decide_eq_true hin))
  have h2 : InSpan g.edges f.eOn (touches g.edges i) := this
  rwa [h1.edges_eq] at h2

/-! ## Clusters -/

/-- Two vertices are joined by selected edges. -/
def JoinedBy (edges : List (List Nat)) (S : Nat → Prop) : Nat → Nat → Prop :=
  Relation.ReflTransGen fun a b => ∃ i e, S i ∧ edges[i]? = some e ∧ a ∈ e ∧ b ∈ e

theorem JoinedBy.symm {edges : List (List Nat)} {S : Nat → Prop} {a b : Nat} (h : JoinedBy edges S a b) : JoinedBy edges S b a := by
  induction h with
  | refl => exact .refl
  | tail _ hs ih =>
    obtain ⟨i, e, hi, he, hx, hy⟩ := hs
    exact .head ⟨i, e, hi, he, hy, hx⟩ ih

theorem JoinedBy.span {n : Nat} {edges : List (List Nat)} (hwf : EdgesWf n edges) {S : Nat → Bool} {a b : Nat}
    (h : JoinedBy edges (fun i => S i = true) a b) : InSpan edges S (dots a b) := by
  induction h with
  | refl => exact InSpan.dots_refl a
  | tail _ hs ih =>
    rename_i b c _
    obtain ⟨i, e, hi, he, hb, hc⟩ := hs
    by_cases hbc : b = c
    · rw [← hbc]; exact ih
    · refine ih.dots_trans ?_
      have hinc : Inc e b (some c) := by
        rcases hwf e (List.mem_of_getElem? he) with ⟨x, rfl, _⟩ | ⟨x, y, rfl, hxy, _, _⟩
        · simp at hb hc; exact absurd (hb.trans hc.symm) hbc
        · simp at hb hc
          rcases hb with rfl | rfl <;> rcases hc with rfl | rfl
          · exact absurd rfl hbc
          · exact .left _ _ hxy
          · exact .right _ _ hxy.symm
          · exact absurd rfl hbc
      rw [← touches_inc he hinc]
      exact InSpan.edge (List.getElem?_eq_some_iff.1 he).1 hi

/-- Every cluster is even or has a dangling edge. -/
def EvenClusters (n : Nat) (edges : List (List Nat)) (S : Nat → Prop) (syn : Nat → Bool) : Prop :=
  ∀ v, v < n → (∃ u i, JoinedBy edges S v u ∧ S i ∧ edges[i]? = some [u]) ∨
    Even (Set.ncard {u | u < n ∧ JoinedBy edges S v u ∧ syn u = true})

theorem EvenClusters.span {n : Nat} {edges : List (List Nat)} (hwf : EdgesWf n edges) {S : Nat → Bool} :
    ∀ (k : Nat) (syn : Nat → Bool), (∀ v, syn v = true → v < n) → ((Finset.range n).filter fun v => syn v = true).card ≤ k →
    EvenClusters n edges (fun i => S i = true) syn → InSpan edges S syn := by
  classical
  have hfin : ∀ (syn : Nat → Bool) v, Set.ncard {u | u < n ∧ JoinedBy edges (fun i => S i = true) v u ∧ syn u = true} =
      ((Finset.range n).filter fun u => JoinedBy edges (fun i => S i = true) v u ∧ syn u = true).card := by
    intro syn v
    rw [← Set.ncard_coe_finset]
    congr 1
    ext u
    simp
  intro k
  induction k with
  | zero =>
    intro syn hlt hk _
    have : syn = fun _ => false := by
      funext v
      cases hv : syn v
      · rfl
      · have : v ∈ (Finset.range n).filter fun v => syn v = true := Finset.mem_filter.2 ⟨Finset.mem_range.2 (hlt v hv), hv⟩
        rw [Finset.card_eq_zero.1 (Nat.le_zero.1 hk)] at this
        simp at this
    rw [this]; exact InSpan.zero
  | succ k ih =>
    intro syn hlt hk h
    by_cases hall : ∀ v, syn v = false
    · rw [show syn = fun _ => false from funext hall]; exact InSpan.zero
    · push Not at hall
      obtain ⟨v, hv⟩ := hall
      have hv : syn v = true := by simpa using hv
      rcases h v (hlt v hv) with ⟨u, i, hvu, hi, he⟩ | heven
      · -- a dangling edge
        have hdot : InSpan edges S (dot v) := by
          have h1 := hvu.span hwf
          have h2 : InSpan edges S (dot u) := by rw [← touches_single he]; exact InSpan.edge (List.getElem?_eq_some_iff.1 he).1 hi
          have := h1.xor h2
          convert this using 1
          funext w
          simp only [dot, dots]
          cases decide (w = v) <;> cases decide (w = u) <;> rfl
        have hrest : InSpan edges S (Function.update syn v false) := by
          refine ih _ (fun w hw => ?_) ?_ (fun w hw => ?_)
          · by_cases hwv : w = v
            · subst hwv; exact hlt w hv
            · rw [Function.update_of_ne hwv] at hw; exact hlt w hw
          · refine Nat.le_of_lt_succ (lt_of_lt_of_le (Finset.card_lt_card ?_) hk)
            rw [Finset.ssubset_iff_of_subset]
            · exact ⟨v, Finset.mem_filter.2 ⟨Finset.mem_range.2 (hlt v hv), hv⟩, by simp⟩
            · intro w hw
              rw [Finset.mem_filter] at hw ⊢
              refine ⟨hw.1, ?_⟩
              by_cases hwv : w = v
              · subst hwv; exact hv
              · rw [Function.update_of_ne hwv] at hw; exact hw.2
          · by_cases hj : JoinedBy edges (fun i => S i = true) w v
            · exact .inl ⟨u, i, hj.trans hvu, hi, he⟩
            · rcases h w hw with h1 | h1
              · exact .inl h1
              · right
                convert h1 using 2
                ext z
                constructor
                · rintro ⟨hz, hz1, hz2⟩
                  refine ⟨hz, hz1, ?_⟩
                  rw [Function.update_of_ne (by rintro rfl; exact hj hz1)] at hz2; exact hz2
                · rintro ⟨hz, hz1, hz2⟩
                  refine ⟨hz, hz1, ?_⟩
                  rw [Function.update_of_ne (by rintro rfl; exact hj hz1)]; exact hz2
        have := hrest.xor hdot
        convert this using 1
        funext w
        by_cases hwv : w = v
        · subst hwv; simp [dot, hv]
        · simp [dot, hwv]
      · -- another vertex of the syndrome in the cluster
        rw [hfin] at heven
        obtain ⟨u, hu, huv⟩ : ∃ u ∈ (Finset.range n).filter fun u => JoinedBy edges (fun i => S i = true) v u ∧ syn u = true, u ≠ v := by
          refine Finset.exists_mem_ne ?_ v
          have hpos : 0 < ((Finset.range n).filter fun u => JoinedBy edges (fun i => S i = true) v u ∧ syn u = true).card :=
            Finset.card_pos.2 ⟨v, Finset.mem_filter.2 ⟨Finset.mem_range.2 (hlt v hv), .refl, hv⟩⟩
          obtain ⟨m, hm⟩ := heven
          omega
        rw [Finset.mem_filter, Finset.mem_range] at hu
        obtain ⟨hun, hvu, hsu⟩ := hu
        have hdots : InSpan edges S (dots v u) := hvu.span hwf
        have hval : ∀ w, Function.update (Function.update syn v false) u false w = true ↔ w ≠ v ∧ w ≠ u ∧ syn w = true := by
          intro w
          by_cases hwu : w = u
          · subst hwu; simp
          · rw [Function.update_of_ne hwu]
            by_cases hwv : w = v
            · subst hwv; simp
            · rw [Function.update_of_ne hwv]; simp [hwu, hwv]
        have hrest : InSpan edges S (Function.update (Function.update syn v false) u false) := by
          refine ih _ (fun w hw => hlt w ((hval w).1 hw).2.2) ?_ (fun w hw => ?_)
          · refine Nat.le_of_lt_succ (lt_of_lt_of_le (Finset.card_lt_card ?_) hk)
            rw [Finset.ssubset_iff_of_subset]
            · exact ⟨v, Finset.mem_filter.2 ⟨Finset.mem_range.2 (hlt v hv), hv⟩, fun hx => ((hval v).1 (Finset.mem_filter.1 hx).2).1 rfl⟩
            · intro w hw
              rw [Finset.mem_filter] at hw ⊢
              exact ⟨hw.1, ((hval w).1 hw.2).2.2⟩
          · rcases h w hw with h1 | h1
            · exact .inl h1
            · right
              rw [hfin] at h1 ⊢
              by_cases hj : JoinedBy edges (fun i => S i = true) w v
              · have hset : ((Finset.range n).filter fun z => JoinedBy edges (fun i => S i = true) w z ∧ Function.update (Function.update syn v false) u false z = true)
                    = (((Finset.range n).filter fun z => JoinedBy edges (fun i => S i = true) w z ∧ syn z = true).erase v).erase u := by
                  ext z
                  simp only [Finset.mem_erase, Finset.mem_filter, Finset.mem_range, hval]
                  tauto
                have hmv : v ∈ (Finset.range n).filter fun z => JoinedBy edges (fun i => S i = true) w z ∧ syn z = true :=
                  Finset.mem_filter.2 ⟨Finset.mem_range.2 (hlt v hv), hj, hv⟩
                have hmu : u ∈ ((Finset.range n).filter fun z => JoinedBy edges (fun i => S i = true) w z ∧ syn z = true).erase v :=
                  Finset.mem_erase.2 ⟨huv, Finset.mem_filter.2 ⟨Finset.mem_range.2 hun, hj.trans hvu, hsu⟩⟩
                rw [hset, Finset.card_erase_of_mem hmu, Finset.card_erase_of_mem hmv]
                have hpos := Finset.card_pos.2 ⟨u, hmu⟩
                rw [Finset.card_erase_of_mem hmv] at hpos
                obtain ⟨m, hm⟩ := h1
                exact ⟨m - 1, by omega⟩
              · convert h1 using 2
                ext z
                simp only [Finset.mem_filter, Finset.mem_range, hval]
                constructor
                · rintro ⟨hz, hz1, _, _, hz2⟩; exact ⟨hz, hz1, hz2⟩
                · rintro ⟨hz, hz1, hz2⟩
                  refine ⟨hz, hz1, ?_, ?_, hz2⟩
                  · rintro rfl; exact hj hz1
                  · rintro rfl; exact hj (hz1.trans hvu.symm)
        have := hrest.xor hdots
        convert this using 1
        funext w
        by_cases hwu : w = u
        · subst hwu; simp [dots, hsu, huv]
        · rw [Function.update_of_ne hwu]
          by_cases hwv : w = v
          · subst hwv; simp [dots, hv, hwu]
          · simp [dots, hwv, hwu]

end Plaquette
