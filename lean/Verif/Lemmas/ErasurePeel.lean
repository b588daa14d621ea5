import Verif.Lemmas.Erasure
import Mathlib.Data.Finset.Card
import Mathlib.Data.Finset.Max

/-!
# Peeling a forest
-/

namespace Plaquette

theorem bd_update_true {edges : List (List Nat)} {x : Nat → Bool} {i : Nat} (hi : i < edges.length) (hx : x i = false) (v : Nat) :
    bd edges (Function.update x i true) v = (bd edges x v ^^ touches edges i v) := by
  rw [← bd_single hi v, ← bd_xor]
  congr 1
  funext j
  by_cases hj : j = i
  · subst hj; simp [hx]
  · simp [hj]

/-- What holds while the forest with the edges `F` is peeled. -/
structure PeelInv (F syn0 : Nat → Bool) (s : Peel) (N : Nat → List (Nat × Option Nat)) (L : List Nat) : Prop where
  ok : GraphOk s.forest
  nbr : s.forest.nbr = some N
  nbrOk : NbrFor s.forest.edges s.forest.eOn N
  leaves : s.forest.leaves = some L
  nodup : L.Nodup
  leaf : ∀ v, v ∈ L ↔ s.forest.vOn v = true ∧ (N v).length ≤ 1
  endv : ∀ v, s.endV v = true ↔ s.forest.vOn v = true ∧ N v = []
  corr : ∀ i, s.corr i = true → F i = true ∧ s.forest.eOn i = false
  sub : ∀ i, s.forest.eOn i = true → F i = true
  sum : ∀ v, (bd s.forest.edges s.corr v ^^ s.syn v) = syn0 v
  sol : InSpan s.forest.edges F syn0 → InSpan s.forest.edges s.forest.eOn s.syn

/-- Without edges at `v` the vertex can be disabled. -/
theorem GraphOk.disableVertex {g : EGraph} (h : GraphOk g) {N : Nat → List (Nat × Option Nat)} (hN : NbrFor g.edges g.eOn N)
    {v : Nat} (h0 : N v = []) : GraphOk { g with vOn := Function.update g.vOn v false } := by
  refine ⟨h.wf, fun i e hon he u hu => ?_, fun u hu => ?_, h.elt⟩
  · have huv : u ≠ v := by
      rintro rfl
      obtain ⟨o, ho⟩ := h.wf.inc (List.mem_of_getElem? he) hu
      have := (hN.mem u i o).2 ⟨hon, e, he, ho⟩
      rw [h0] at this; simp at this
    show Function.update g.vOn v false u = true
    rw [Function.update_of_ne huv]; exact h.ends i e hon he u hu
  · have hu : Function.update g.vOn v false u = true := hu
    by_cases huv : u = v
    · subst huv; simp at hu
    · rw [Function.update_of_ne huv] at hu; exact h.vlt u hu

theorem GraphOk.disableEdge {g : EGraph} (h : GraphOk g) (i : Nat) : GraphOk { g with eOn := Function.update g.eOn i false } := by
  have key : ∀ j, Function.update g.eOn i false j = true → g.eOn j = true := fun j hj => by
    by_cases hji : j = i
    · subst hji; simp at hj
    · rwa [Function.update_of_ne hji] at hj
  exact ⟨h.wf, fun j e hon he v hv => h.ends j e (key j hon) he v hv, h.vlt, fun j hj => h.elt j (key j hj)⟩

theorem GraphOk.congr {g g' : EGraph} (h : GraphOk g) (h1 : g'.n = g.n) (h2 : g'.edges = g.edges) (h3 : g'.vOn = g.vOn)
    (h4 : g'.eOn = g.eOn) : GraphOk g' :=
  ⟨by rw [h1, h2]; exact h.wf, by rw [h2, h3, h4]; exact h.ends, by rw [h1, h3]; exact h.vlt, by rw [h2, h4]; exact h.elt⟩

/-- Removing a vertex that has no edge left. -/
theorem peelStep_end {F syn0 : Nat → Bool} {s : Peel} {N : Nat → List (Nat × Option Nat)} {leaf : Nat} {rest : List Nat}
    (h : PeelInv F syn0 s N (leaf :: rest)) (h0 : N leaf = []) :
    ∃ s', peelStep s leaf rest = .ok s' ∧ PeelInv F syn0 s' N rest ∧ s'.forest.edges = s.forest.edges ∧
      s'.forest.n = s.forest.n ∧ s'.forest.vOn = Function.update s.forest.vOn leaf false := by
  have hon : s.forest.vOn leaf = true := ((h.leaf leaf).1 (by simp)).1
  have hend : s.endV leaf = true := (h.endv leaf).2 ⟨hon, h0⟩
  have hnd := List.nodup_cons.1 h.nodup
  refine ⟨{ s with forest := { s.forest with leaves := some rest, vOn := Function.update s.forest.vOn leaf false }, endV := Function.update s.endV leaf false },
    ?_, ⟨?_, h.nbr, h.nbrOk, rfl, hnd.2, fun v => ?_, fun v => ?_, h.corr, h.sub, h.sum, h.sol⟩, rfl, rfl, rfl⟩
  · have e1 := enableVertex_false (g := { s.forest with leaves := some rest }) h.nbr (h.ok.vlt leaf hon) h0
    simp only [h.nbr] at e1
    simp only [peelStep, EGraph.popLeaf, EGraph.getNeighbours, hon, h.nbr, h0, e1, hend, if_true]
  · exact (h.ok.disableVertex h.nbrOk h0).congr rfl rfl rfl rfl
  · show v ∈ rest ↔ Function.update s.forest.vOn leaf false v = true ∧ _
    by_cases hv : v = leaf
    · subst hv; simp [hnd.1]
    · rw [Function.update_of_ne hv, ← h.leaf v]; simp [hv]
  · show Function.update s.endV leaf false v = true ↔ Function.update s.forest.vOn leaf false v = true ∧ _
    by_cases hv : v = leaf
    · subst hv; simp
    · rw [Function.update_of_ne hv, Function.update_of_ne hv]; exact h.endv v

/-- Removing a vertex with one edge. -/
theorem peelStep_edge {F syn0 : Nat → Bool} {s : Peel} {N : Nat → List (Nat × Option Nat)} {leaf : Nat} {rest : List Nat}
    (h : PeelInv F syn0 s N (leaf :: rest)) (h0 : N leaf ≠ []) :
    ∃ s' N' L', peelStep s leaf rest = .ok s' ∧ PeelInv F syn0 s' N' L' ∧ s'.forest.edges = s.forest.edges ∧
      s'.forest.n = s.forest.n ∧ s'.forest.vOn = Function.update s.forest.vOn leaf false := by
  obtain ⟨hon, hle⟩ := (h.leaf leaf).1 (by simp)
  have hend : s.endV leaf = false := by
    cases hE : s.endV leaf
    · rfl
    · exact absurd ((h.endv leaf).1 hE).2 h0
  have hnd := List.nodup_cons.1 h.nodup
  obtain ⟨i, o, hio⟩ : ∃ i o, N leaf = [(i, o)] := by
    match hl : N leaf with
    | [] => exact absurd hl h0
    | [(i, o)] => exact ⟨i, o, rfl⟩
    | _ :: _ :: _ => rw [hl] at hle; simp at hle
  obtain ⟨hei, e, he, hinc⟩ := (h.nbrOk.mem leaf i o).1 (by rw [hio]; simp)
  have hilt := h.ok.elt i hei
  obtain ⟨N', L', e1, hN', hlen, hsame, _, hL⟩ := enableEdge_false (g := { s.forest with leaves := some rest })
    (h.ok.congr rfl rfl rfl rfl) h.nbr h.nbrOk he hei
  obtain ⟨l', rfl, hl'nd, hl'⟩ := hL rest rfl (fun v _ h2 hv => by
    have := ((h.leaf v).1 (List.mem_cons_of_mem _ hv)).2; omega) hnd.2
  have hleaf0 : N' leaf = [] := by
    have := hlen leaf hinc.mem
    rw [hio] at this
    exact List.length_eq_zero_iff.1 (by simpa using this)
  have e2 := enableVertex_false (g := { s.forest with eOn := Function.update s.forest.eOn i false, nbr := some N', leaves := some l' })
    rfl (h.ok.vlt leaf hon) hleaf0
  obtain ⟨f', hf'⟩ : ∃ f', f' = { s.forest with vOn := Function.update s.forest.vOn leaf false, eOn := Function.update s.forest.eOn i false, nbr := some N', leaves := some l' } := ⟨_, rfl⟩
  have hpop : s.forest.popLeaf leaf rest = .ok (f', some (i, o)) := by
    subst hf'
    simp only [h.nbr] at e1 e2
    simp only [EGraph.popLeaf, EGraph.getNeighbours, hon, h.nbr, hio, e1, if_true, e2]
  have hci : s.corr i = false := by
    cases hc : s.corr i
    · rfl
    · have := (h.corr i hc).2; rw [hei] at this; simp at this
  have hFi : F i = true := h.sub i hei
  -- the graph
  have hok : GraphOk f' := by
    subst hf'
    refine (GraphOk.disableVertex (g := { s.forest with eOn := Function.update s.forest.eOn i false }) (h.ok.disableEdge i) hN' hleaf0).congr rfl rfl rfl rfl
  have hvOn : ∀ v, v ≠ leaf → f'.vOn v = s.forest.vOn v := fun v hv => by subst hf'; exact Function.update_of_ne hv _ _
  have hvl : f'.vOn leaf = false := by subst hf'; exact Function.update_self _ _ _
  have hleafnew : ∀ v, v ∈ l' ↔ f'.vOn v = true ∧ (N' v).length ≤ 1 := by
    intro v
    rw [hl']
    by_cases hv : v = leaf
    · subst hv
      rw [hvl, hio]
      simp [hnd.1]
    · rw [hvOn v hv]
      have hr : v ∈ rest ↔ s.forest.vOn v = true ∧ (N v).length ≤ 1 := by rw [← h.leaf v]; simp [hv]
      rw [hr]
      by_cases hve : v ∈ e
      · have h1 := hlen v hve
        have h2 := h.ok.ends i e hei he v hve
        simp only [h2, hve, true_and]
        omega
      · rw [hsame v hve]; simp [hve]
  -- the new end vertices
  obtain ⟨endV', hE1, hE2⟩ : ∃ endV' : Nat → Bool,
      markEnd f' s.endV o = .ok endV' ∧
      ∀ v, endV' v = true ↔ f'.vOn v = true ∧ N' v = [] := by
    cases ho : o with
    | none =>
      refine ⟨s.endV, rfl, fun v => ?_⟩
      subst ho
      by_cases hv : v = leaf
      · subst hv; simp [hend, hvl]
      · rw [hvOn v hv, hsame v (by cases hinc; simpa using hv)]; exact h.endv v
    | some u =>
      subst ho
      have hue : u ∈ e := hinc.other_mem
      have hul : u ≠ leaf := by cases hinc <;> (rename_i hne; exact hne.symm)
      have huon := h.ok.ends i e hei he u hue
      have hnb : f'.getNeighbours u = .ok (N' u) := by
        simp only [EGraph.getNeighbours, hvOn u hul, huon, if_true]; subst hf'; rfl
      refine ⟨if (N' u).length = 0 then Function.update s.endV u true else s.endV, by simp only [markEnd, hnb], fun v => ?_⟩
      have hNu : N u ≠ [] := by
        intro hn; have := hlen u hue; rw [hn] at this; simp at this
      by_cases hv : v = leaf
      · subst hv
        rw [hvl]
        split
        · rw [Function.update_of_ne (Ne.symm hul)]; simp [hend]
        · simp [hend]
      · rw [hvOn v hv]
        by_cases hvu : v = u
        · subst hvu
          rw [huon]
          by_cases hz : (N' v).length = 0
          · rw [if_pos hz, Function.update_self]; simp [List.length_eq_zero_iff.1 hz]
          · rw [if_neg hz]
            constructor
            · intro hb; exact absurd ((h.endv v).1 hb).2 hNu
            · rintro ⟨_, hb⟩; rw [hb] at hz; simp at hz
        · have : v ∉ e := by
            cases hinc <;> simp [hv, hvu]
          rw [hsame v this, ← h.endv v]
          split
          · rw [Function.update_of_ne hvu]
          · rfl
  -- the step
  have hsub : ∀ j, f'.eOn j = true → s.forest.eOn j = true ∧ j ≠ i := by
    intro j hj
    subst hf'
    have hj : Function.update s.forest.eOn i false j = true := hj
    by_cases hji : j = i
    · subst hji; simp at hj
    · rw [Function.update_of_ne hji] at hj; exact ⟨hj, hji⟩
  have hsub' : ∀ j, s.forest.eOn j = true → j ≠ i → f'.eOn j = true := by
    intro j hj hji; subst hf'; show Function.update s.forest.eOn i false j = true; rwa [Function.update_of_ne hji]
  have hfedges : f'.edges = s.forest.edges := by subst hf'; rfl
  have hfeoi : f'.eOn i = false := by subst hf'; exact Function.update_self _ _ _
  have hcorrect : ∀ (x : Nat → Bool), (∀ j, x j = true → s.forest.eOn j = true) → bd s.forest.edges x leaf = x i := by
    intro x hx
    unfold bd
    rw [xsum_single List.nodup_range (List.mem_range.2 hilt) (fun j _ hj => by
      cases hxj : x j
      · rfl
      · cases ht : touches s.forest.edges j leaf
        · rfl
        · exfalso
          unfold touches at ht
          cases hej : s.forest.edges[j]? with
          | none => rw [hej] at ht; simp at ht
          | some e' =>
            rw [hej] at ht
            obtain ⟨o', ho'⟩ := h.ok.wf.inc (List.mem_of_getElem? hej) (of_decide_eq_true ht)
            have := (h.nbrOk.mem leaf j o').2 ⟨hx j hxj, e', hej, ho'⟩
            rw [hio] at this
            simp at this
            exact hj this.1), touches_some he]
    simp [hinc.mem]
  cases hsyn : s.syn leaf
  · refine ⟨{ s with forest := f', endV := endV' }, N', l', ?_, ⟨hok, by subst hf'; rfl, by subst hf'; exact hN', by subst hf'; rfl, hl'nd, hleafnew, hE2,
      fun j hj => ?_, fun j hj => h.sub j (hsub j hj).1, by show ∀ v, (bd f'.edges s.corr v ^^ s.syn v) = syn0 v; rw [hfedges]; exact h.sum, fun hsp => ?_⟩, hfedges, by subst hf'; rfl, by subst hf'; rfl⟩
    · have : peelEdge { s with forest := f' } leaf i o = .ok { s with forest := f', endV := endV' } := by
        unfold peelEdge
        rw [hE1]
        simp only [hsyn]
        rfl
      simp only [peelStep, hpop, hend]
      exact this
    · refine ⟨(h.corr j hj).1, ?_⟩
      cases hf : f'.eOn j
      · rfl
      · have h1 := (hsub j hf).1; rw [(h.corr j hj).2] at h1; simp at h1
    · show InSpan f'.edges f'.eOn s.syn
      rw [hfedges]
      have hsp : InSpan f'.edges F syn0 := hsp
      rw [hfedges] at hsp
      obtain ⟨x, hx, hbx⟩ := h.sol hsp
      have hxi := hcorrect x hx
      rw [hbx, hsyn] at hxi
      exact ⟨x, fun j hj => hsub' j (hx j hj) (by rintro rfl; rw [hj] at hxi; simp at hxi), hbx⟩
  · obtain ⟨syn', hs1, hs2⟩ : ∃ syn' : Nat → Bool, syn' = moveSyndrome s.syn leaf o ∧
          ∀ v, syn' v = (s.syn v ^^ touches s.forest.edges i v) := by
      refine ⟨_, rfl, fun v => ?_⟩
      cases ho : o with
      | none =>
        subst ho
        have : e = [leaf] := by cases hinc; rfl
        subst this
        rw [touches_single he]
        simp only [moveSyndrome]
        by_cases hv : v = leaf
        · subst hv; simp [dot, hsyn]
        · simp [dot, hv]
      | some u =>
        subst ho
        have hul : u ≠ leaf := by cases hinc <;> (rename_i hne; exact hne.symm)
        rw [touches_inc he hinc]
        simp only [moveSyndrome]
        by_cases hvu : v = u
        · subst hvu
          rw [Function.update_self, Function.update_of_ne hul]
          simp [dots, hul]
        · rw [Function.update_of_ne hvu]
          by_cases hv : v = leaf
          · subst hv; simp [dots, hsyn, hvu]
          · simp [dots, hv, hvu]
    refine ⟨{ forest := f', endV := endV', corr := Function.update s.corr i true, syn := syn' }, N', l', ?_, ⟨hok, by subst hf'; rfl, by subst hf'; exact hN', by subst hf'; rfl, hl'nd, hleafnew, hE2,
      fun j hj => ?_, fun j hj => h.sub j (hsub j hj).1, fun v => ?_, fun hsp => ?_⟩, hfedges, by subst hf'; rfl, by subst hf'; rfl⟩
    · have : peelEdge { s with forest := f' } leaf i o = .ok { forest := f', endV := endV', corr := Function.update s.corr i true, syn := syn' } := by
        unfold peelEdge
        rw [hE1, hs1]
        simp only [hsyn, hci, if_true]
        rfl
      simp only [peelStep, hpop, hend]
      exact this
    · have hj : Function.update s.corr i true j = true := hj
      show _ ∧ f'.eOn j = false
      by_cases hji : j = i
      · subst hji; exact ⟨hFi, hfeoi⟩
      · rw [Function.update_of_ne hji] at hj
        refine ⟨(h.corr j hj).1, ?_⟩
        cases hf : f'.eOn j
        · rfl
        · have h1 := (hsub j hf).1; rw [(h.corr j hj).2] at h1; simp at h1
    · show (bd f'.edges (Function.update s.corr i true) v ^^ syn' v) = syn0 v
      rw [hfedges, bd_update_true hilt hci, hs2, ← h.sum v]
      cases bd s.forest.edges s.corr v <;> cases touches s.forest.edges i v <;> cases s.syn v <;> rfl
    · show InSpan f'.edges f'.eOn syn'
      rw [hfedges]
      have hsp : InSpan f'.edges F syn0 := hsp
      rw [hfedges] at hsp
      obtain ⟨x, hx, hbx⟩ := h.sol hsp
      have hxi := hcorrect x hx
      rw [hbx, hsyn] at hxi
      refine ⟨Function.update x i false, fun j hj => ?_, ?_⟩
      · by_cases hji : j = i
        · subst hji; simp at hj
        · rw [Function.update_of_ne hji] at hj; exact hsub' j (hx j hj) hji
      · funext v
        have hb := bd_update_true (x := Function.update x i false) hilt (by simp) v
        rw [Function.update_idem, show Function.update x i true = x by rw [hxi]; exact Function.update_eq_self i x, hbx] at hb
        rw [hs2, hb]
        cases bd s.forest.edges (Function.update x i false) v <;> cases touches s.forest.edges i v <;> rfl

theorem peelStep_spec {F syn0 : Nat → Bool} {s : Peel} {N : Nat → List (Nat × Option Nat)} {leaf : Nat} {rest : List Nat}
    (h : PeelInv F syn0 s N (leaf :: rest)) :
    ∃ s' N' L', peelStep s leaf rest = .ok s' ∧ PeelInv F syn0 s' N' L' ∧ s'.forest.edges = s.forest.edges ∧
      s'.forest.n = s.forest.n ∧ s'.forest.vOn = Function.update s.forest.vOn leaf false := by
  by_cases h0 : N leaf = []
  · obtain ⟨s', a⟩ := peelStep_end h h0
    exact ⟨s', N, rest, a⟩
  · exact peelStep_edge h h0

/-- The loop ends with no leaves left. -/
theorem peelLoop_spec {F syn0 : Nat → Bool} : ∀ (k : Nat) (s : Peel) (N : Nat → List (Nat × Option Nat)) (L : List Nat),
    PeelInv F syn0 s N L → ((Finset.range s.forest.n).filter fun v => s.forest.vOn v = true).card ≤ k →
    ∃ s' N', peelLoop k s = .ok s' ∧ PeelInv F syn0 s' N' [] ∧ s'.forest.edges = s.forest.edges := by
  intro k
  induction k with
  | zero =>
    intro s N L h hk
    cases L with
    | nil => exact ⟨s, N, by simp only [peelLoop, h.leaves], h, rfl⟩
    | cons leaf rest =>
      have hon := ((h.leaf leaf).1 (by simp)).1
      have : leaf ∈ (Finset.range s.forest.n).filter fun v => s.forest.vOn v = true :=
        Finset.mem_filter.2 ⟨Finset.mem_range.2 (h.ok.vlt _ hon), hon⟩
      rw [Finset.card_eq_zero.1 (Nat.le_zero.1 hk)] at this
      simp at this
  | succ k ih =>
    intro s N L h hk
    cases L with
    | nil => exact ⟨s, N, by simp only [peelLoop, h.leaves], h, rfl⟩
    | cons leaf rest =>
      obtain ⟨s', N', L', e1, h', e2, e3, e4⟩ := peelStep_spec h
      have hon := ((h.leaf leaf).1 (by simp)).1
      obtain ⟨s2, N2, e5, h2, e6⟩ := ih s' N' L' h' (by
        refine Nat.le_of_lt_succ (lt_of_lt_of_le (Finset.card_lt_card ?_) hk)
        rw [Finset.ssubset_iff_of_subset]
        · refine ⟨leaf, Finset.mem_filter.2 ⟨Finset.mem_range.2 (h.ok.vlt _ hon), hon⟩, ?_⟩
          rw [Finset.mem_filter, e4]; simp
        · intro v hv
          rw [Finset.mem_filter, e3, e4] at hv
          refine Finset.mem_filter.2 ⟨hv.1, ?_⟩
          by_cases hvl : v = leaf
          · subst hvl; exact hon
          · rw [Function.update_of_ne hvl] at hv; exact hv.2)
      exact ⟨s2, N2, by simp only [peelLoop, h.leaves, e1, e5], h2, e6.trans e2⟩

/-- Every edge has a vertex of its own, and the other end of the edge comes earlier. -/
def Forest (edges : List (List Nat)) (F : Nat → Bool) : Prop :=
  ∃ child rank : Nat → Nat, (∀ i e, F i = true → edges[i]? = some e → child i ∈ e ∧ ∀ v ∈ e, v ≠ child i → rank v < rank (child i)) ∧
    ∀ i j, F i = true → F j = true → child i = child j → i = j

/-- A forest with an edge has a leaf with an edge. -/
theorem Forest.leaf {g : EGraph} (hg : GraphOk g) {F : Nat → Bool} (hF : Forest g.edges F) (hsub : ∀ i, g.eOn i = true → F i = true)
    {N : Nat → List (Nat × Option Nat)} (hN : NbrFor g.edges g.eOn N) {i : Nat} (hi : g.eOn i = true) :
    ∃ v, g.vOn v = true ∧ (N v).length ≤ 1 := by
  obtain ⟨child, rank, h1, h2⟩ := hF
  have hne : ((Finset.range g.edges.length).filter fun i => g.eOn i = true).Nonempty :=
    ⟨i, Finset.mem_filter.2 ⟨Finset.mem_range.2 (hg.elt i hi), hi⟩⟩
  obtain ⟨m, hm, hmax⟩ := Finset.exists_max_image _ (fun i => rank (child i)) hne
  rw [Finset.mem_filter, Finset.mem_range] at hm
  have hget : ∀ j, g.eOn j = true → ∃ e, g.edges[j]? = some e := fun j hj => ⟨_, List.getElem?_eq_getElem (hg.elt j hj)⟩
  obtain ⟨e, he⟩ := hget m hm.2
  have hmem := (h1 m e (hsub m hm.2) he).1
  refine ⟨child m, hg.ends m e hm.2 he _ hmem, ?_⟩
  have hall : ∀ p ∈ N (child m), ∀ q ∈ N (child m), p = q := by
    have key : ∀ j o, (j, o) ∈ N (child m) → j = m ∧ Inc e (child m) o := by
      intro j o hj
      obtain ⟨hon, e', he', hinc⟩ := (hN.mem _ _ _).1 hj
      have hc : child j = child m := by
        by_contra hne
        have := (h1 j e' (hsub j hon) he').2 (child m) hinc.mem (Ne.symm hne)
        have := hmax j (Finset.mem_filter.2 ⟨Finset.mem_range.2 (hg.elt j hon), hon⟩)
        omega
      have hjm := h2 j m (hsub j hon) (hsub m hm.2) hc
      subst hjm
      rw [he] at he'; cases he'
      exact ⟨rfl, hinc⟩
    rintro ⟨j, o⟩ hj ⟨j', o'⟩ hj'
    obtain ⟨rfl, ho⟩ := key j o hj
    obtain ⟨rfl, ho'⟩ := key j' o' hj'
    rw [ho.unique ho']
  match hl : N (child m) with
  | [] => simp
  | [_] => simp
  | a :: b :: l =>
    have hnd := hN.nodup (child m)
    rw [hl] at hall hnd
    have := hall a (by simp) b (by simp)
    simp [this] at hnd

/-- Peeling a forest in which every vertex has an edge. -/
theorem peelForest_spec {f : EGraph} (h : GraphOk f) (hF : Forest f.edges f.eOn)
    (hedge : ∀ v, f.vOn v = true → ∃ i e, f.eOn i = true ∧ f.edges[i]? = some e ∧ v ∈ e) (syn : Nat → Bool) :
    ∃ x : Nat → Bool, peelForest f syn = .ok ((List.range f.edges.length).map x) ∧ (∀ i, x i = true → f.eOn i = true) ∧
      (InSpan f.edges f.eOn syn → bd f.edges x = syn) := by
  obtain ⟨N, e1, hN⟩ := updateNeighbours_spec h
  obtain ⟨L, hL⟩ : ∃ L, L = ((List.range f.n).filter fun v => f.vOn v && decide ((N v).length ≤ 1)).reverse := ⟨_, rfl⟩
  have hinv : PeelInv f.eOn syn { forest := { f with nbr := some N, leaves := some L }, endV := fun _ => false, corr := fun _ => false, syn := syn } N L := by
    refine ⟨h.congr rfl rfl rfl rfl, rfl, hN, rfl, ?_, fun v => ?_, fun v => ?_, fun i hi => by simp at hi, fun i hi => hi, fun v => ?_, fun hs => hs⟩
    · rw [hL]; exact List.nodup_reverse.2 (List.nodup_range.filter _)
    · rw [hL, List.mem_reverse, List.mem_filter, List.mem_range, Bool.and_eq_true, decide_eq_true_eq]
      exact ⟨fun hx => hx.2, fun hx => ⟨h.vlt v hx.1, hx⟩⟩
    · constructor
      · intro hf; simp at hf
      · rintro ⟨hv, hn⟩
        obtain ⟨i, e, hi, he, hve⟩ := hedge v hv
        obtain ⟨o, ho⟩ := h.wf.inc (List.mem_of_getElem? he) hve
        have := (hN.mem v i o).2 ⟨hi, e, he, ho⟩
        rw [hn] at this; simp at this
    · show (bd f.edges _ v ^^ syn v) = _
      rw [bd_zero]; simp
  obtain ⟨s', N', e2, h', e3⟩ := peelLoop_spec f.n _ N L hinv (by
    refine (Finset.card_filter_le _ _).trans ?_
    simp)
  have hnone : ∀ i, s'.forest.eOn i = false := by
    intro i
    cases hi : s'.forest.eOn i
    · rfl
    · obtain ⟨v, hv, hv'⟩ := Forest.leaf h'.ok (F := f.eOn) (by rw [e3]; exact hF) h'.sub h'.nbrOk hi
      exact absurd ((h'.leaf v).2 ⟨hv, hv'⟩) (by simp)
  have hend : ∀ v, s'.endV v = false := by
    intro v
    cases hv : s'.endV v
    · rfl
    · obtain ⟨ha, hb⟩ := (h'.endv v).1 hv
      exact absurd ((h'.leaf v).2 ⟨ha, by simp [hb]⟩) (by simp)
  refine ⟨s'.corr, ?_, fun i hi => (h'.corr i hi).1, fun hs => ?_⟩
  · have hany : (List.range f.n).any s'.endV = false := by simp [hend]
    subst hL
    simp only [peelForest, e1, EGraph.updateLeaves, e2, hany]
    rfl
  · obtain ⟨x, hx, hbx⟩ := h'.sol (by rw [e3]; exact hs)
    have hx0 : x = fun _ => false := by
      funext i
      cases hxi : x i
      · rfl
      · have := hx i hxi; rw [hnone i] at this; simp at this
    funext v
    have hv := h'.sum v
    rw [← hbx, hx0, bd_zero, Bool.xor_false, e3] at hv
    exact hv

end Plaquette
