import Verif.Lemmas.UnionFind

/-!
# Union find: adding vertices to clusters
-/

namespace Plaquette

variable {g : UGraph} {L : Nat → Prop} {s : UState} {κ : Nat → Option Nat} {dp : Nat → Nat}

theorem parityWith_neg (b : Bool) : parityWith (-1) b = -1 := by cases b <;> rfl

theorem parityWith_toNat (a b : Bool) : parityWith (a.toNat : Int) b = ((a ^^ b).toNat : Int) := by
  cases a <;> cases b <;> rfl

theorem psum_update_self {n : Nat} {syn : Nat → Bool} {v c : Nat} (hv : κ v = none) (hlt : v < n) :
    psum n syn (Function.update κ v (some c)) c = (psum n syn κ c ^^ syn v) := by
  have h1 : xsum (List.range n) (fun u => syn u && decide (u = v)) = syn v := by
    rw [xsum_single List.nodup_range (List.mem_range.2 hlt) (fun j _ hj => by simp [hj])]
    simp
  unfold psum
  rw [← h1, ← xsum_xor]
  refine xsum_congr fun u _ => ?_
  by_cases hu : u = v
  · subst hu; simp [hv]
  · simp [Function.update_of_ne hu, hu]

theorem psum_update_ne {n : Nat} {syn : Nat → Bool} {v c d : Nat} (hv : κ v = none) (hd : d ≠ c) :
    psum n syn (Function.update κ v (some c)) d = psum n syn κ d := by
  unfold psum
  refine xsum_congr fun u _ => ?_
  by_cases hu : u = v
  · subst hu; simp [hv, Ne.symm hd]
  · simp [Function.update_of_ne hu]

theorem members_update_le {n v c d : Nat} (hv : κ v = none) : (members n κ d).card ≤ (members n (Function.update κ v (some c)) d).card := by
  refine Finset.card_le_card fun u hu => ?_
  simp only [members, Finset.mem_filter] at hu ⊢
  refine ⟨hu.1, ?_⟩
  rw [Function.update_of_ne]
  · exact hu.2
  · rintro rfl; rw [hv] at hu; simp at hu

/-- A cluster with another vertex in its tree, below the root. -/
def UState.withChild (s : UState) (c v r : Nat) (B : List Nat) : UState :=
  { s with
    parent := Function.update s.parent v (some r)
    state := Function.update s.state v .boundary
    clusters := Function.update s.clusters c { s.clusters c with
      boundary := some (B ++ [v]), nVertices := (s.clusters c).nVertices + 1
      parity := parityWith (s.clusters c).parity (s.syn v) } }

theorem UInv.addVertex (h : UInv g L s κ dp) {c v u i : Nat} {e : List Nat} (hv : κ v = some c) (hb : s.state v = .boundary)
    (hu : κ u = none) (hlt : u < g.n) (he : g.edges[i]? = some e) (hinc : Inc e v (some u)) (hcomp : g.complete s i = true)
    (hok : (s.clusters c).opened = true ∨ s.syn u = false) :
    ∃ r B, s.addVertex c u = .ok (s.withChild c u r B) ∧
      UInv g (fun j => L j ∨ j = i) (s.withChild c u r B) (Function.update κ u (some c)) (Function.update dp u 1) := by
  obtain ⟨r, B, hl⟩ := h.live hv
  refine ⟨r, B, ?_, ?_⟩
  · have hB := (hl.mem v).2 ⟨hv, hb⟩
    have hst := (h.unused u).2 hu
    cases B with
    | nil => simp at hB
    | cons b B =>
      unfold UState.addVertex
      simp only [hl.bnd, hl.root, UState.toBoundaryChild, hst]
      rfl
  have hk : ∀ w, w ≠ u → Function.update κ u (some c) w = κ w := fun w hw => Function.update_of_ne hw _ _
  have hku : Function.update κ u (some c) u = some c := Function.update_self _ _ _
  have hd : ∀ w, w ≠ u → Function.update dp u 1 w = dp w := fun w hw => Function.update_of_ne hw _ _
  have hdu : Function.update dp u 1 u = 1 := Function.update_self _ _ _
  have hne : ∀ {w d}, κ w = some d → w ≠ u := by rintro w d hw rfl; rw [hu] at hw; simp at hw
  have hpar : ∀ w, w ≠ u → (s.withChild c u r B).parent w = s.parent w := fun w hw => Function.update_of_ne hw _ _
  have hparu : (s.withChild c u r B).parent u = some r := Function.update_self _ _ _
  have hst : ∀ w, w ≠ u → (s.withChild c u r B).state w = s.state w := fun w hw => Function.update_of_ne hw _ _
  have hstu : (s.withChild c u r B).state u = .boundary := Function.update_self _ _ _
  have hcl : ∀ d, d ≠ c → (s.withChild c u r B).clusters d = s.clusters d := fun d hd => Function.update_of_ne hd _ _
  have hcc : (s.withChild c u r B).clusters c = { s.clusters c with
      boundary := some (B ++ [u]), nVertices := (s.clusters c).nVertices + 1
      parity := parityWith (s.clusters c).parity (s.syn u) } := Function.update_self _ _ _
  have hnolink : ∀ j e', L j → g.edges[j]? = some e' → u ∉ e' := by
    intro j e' hj he' hm
    obtain ⟨_, d, hd'⟩ := h.link j hj
    rw [hd' e' he' u hm] at hu; simp at hu
  have hnoi : ∀ w, g.edges[i]? ≠ some [w] := by
    intro w hw
    rw [he] at hw
    obtain rfl : e = [w] := by simpa using hw
    cases hinc
  refine ⟨?_, ?_, ?_, ?_, ?_, ?_, ?_, ?_, h.onodup, ?_, ?_, ?_, ?_, ?_⟩
  · intro w hw
    by_cases hwu : w = u
    · rw [hwu]; exact hlt
    · rw [hk w hwu] at hw; exact h.lt w hw
  · intro w
    by_cases hwu : w = u
    · subst hwu; rw [hstu, hku]; simp
    · rw [hst w hwu, hk w hwu]; exact h.unused w
  · intro w hw
    have hwu : w ≠ u := by rintro rfl; rw [hku] at hw; simp at hw
    rw [hk w hwu] at hw
    rw [hpar w hwu]
    exact h.free w hw
  · intro w d hw hp
    have hwu : w ≠ u := by rintro rfl; rw [hparu] at hp; simp at hp
    rw [hk w hwu] at hw
    rw [hpar w hwu] at hp
    refine ⟨(h.top w d hw hp).1, ?_⟩
    by_cases hdc : d = c
    · subst hdc; rw [hcc]; exact (h.top w d hw hp).2
    · rw [hcl d hdc]; exact (h.top w d hw hp).2
  · intro w d p hw hp
    by_cases hwu : w = u
    · subst hwu
      rw [hparu] at hp; rw [hku] at hw
      obtain rfl : r = p := by simpa using hp
      obtain rfl : c = d := by simpa using hw
      refine ⟨(h.free w hu).2, by rw [hk r (hne hl.kr)]; exact hl.kr, ?_⟩
      rw [hdu, hd r (hne hl.kr), hl.dr]; omega
    · rw [hk w hwu] at hw; rw [hpar w hwu] at hp
      obtain ⟨h1, h2, h3⟩ := h.up w d p hw hp
      exact ⟨h1, by rw [hk p (hne h2)]; exact h2, by rw [hd p (hne h2), hd w hwu]; exact h3⟩
  · intro w d hw
    by_cases hwu : w = u
    · subst hwu
      rw [hku] at hw
      obtain rfl : c = d := by simpa using hw
      rw [hdu]
      have hsub : ({r, w} : Finset Nat) ⊆ members g.n (Function.update κ w (some c)) c := by
        intro x hx
        simp only [Finset.mem_insert, Finset.mem_singleton] at hx
        simp only [members, Finset.mem_filter, Finset.mem_range]
        rcases hx with rfl | rfl
        · exact ⟨h.lt x (by rw [hl.kr]; simp), by rw [hk x (hne hl.kr)]; exact hl.kr⟩
        · exact ⟨hlt, hku⟩
      have := Finset.card_le_card hsub
      rw [Finset.card_pair (hne hl.kr)] at this
      omega
    · rw [hk w hwu] at hw; rw [hd w hwu]
      exact (h.depth w d hw).trans_le (members_update_le hu)
  · intro w d hw
    by_cases hwu : w = u
    · subst hwu
      rw [hku] at hw
      obtain rfl : c = d := by simpa using hw
      exact h.kc v c hv
    · rw [hk w hwu] at hw; exact h.kc w d hw
  · intro d hdl
    by_cases hdc : d = c
    · subst hdc
      refine .inr ⟨r, B ++ [u], by rw [hcc]; exact hl.root, by rw [hcc], by rw [hk r (hne hl.kr)]; exact hl.kr,
        by rw [hpar r (hne hl.kr)]; exact hl.pr, by rw [hd r (hne hl.kr)]; exact hl.dr, ?_, ?_, ?_⟩
      · refine List.nodup_append.2 ⟨hl.nodup, by simp, ?_⟩
        rintro x hx y hy rfl
        obtain rfl : x = u := by simpa using hy
        have := ((hl.mem x).1 hx).1
        rw [hu] at this; simp at this
      · intro w
        rw [List.mem_append, List.mem_singleton]
        by_cases hwu : w = u
        · subst hwu; rw [hku, hstu]; simp
        · rw [hk w hwu, hst w hwu, hl.mem]; simp [hwu]
      · rcases hl.par with ⟨h1, w, j, h2, h3, h4⟩ | ⟨h1, h2⟩
        · exact .inl ⟨by rw [hcc]; show parityWith (s.clusters d).parity (s.syn u) = -1; rw [h1]; exact parityWith_neg _, w, j, by rw [hk w (hne h2)]; exact h2, .inl h3, h4⟩
        · refine .inr ⟨?_, ?_⟩
          · rw [hcc]
            show parityWith (s.clusters d).parity (s.syn u) = ((psum g.n s.syn _ _).toNat : Int)
            rw [h1, parityWith_toNat, psum_update_self hu hlt]
          · rintro w j hw (hj | rfl)
            · by_cases hwu : w = u
              · subst hwu
                intro hc
                exact hnolink j _ hj hc (by simp)
              · rw [hk w hwu] at hw; exact h2 w j hw hj
            · exact hnoi w
    · rcases h.cl d hdl with hx | ⟨r2, B2, hx⟩
      · refine .inl ⟨by rw [hcl d hdc]; exact hx.bnd, by rw [hcl d hdc]; exact hx.par, fun w hw => ?_⟩
        by_cases hwu : w = u
        · subst hwu; rw [hku] at hw; exact hdc (by simpa using hw.symm)
        · rw [hk w hwu] at hw; exact hx.none w hw
      · refine .inr ⟨r2, B2, by rw [hcl d hdc]; exact hx.root, by rw [hcl d hdc]; exact hx.bnd, by rw [hk r2 (hne hx.kr)]; exact hx.kr,
          by rw [hpar r2 (hne hx.kr)]; exact hx.pr, by rw [hd r2 (hne hx.kr)]; exact hx.dr, hx.nodup, ?_, ?_⟩
        · intro w
          rw [hx.mem]
          by_cases hwu : w = u
          · subst hwu; rw [hku, hu]
            simp [Ne.symm hdc]
          · rw [hk w hwu, hst w hwu]
        · rcases hx.par with ⟨h1, w, j, h2, h3, h4⟩ | ⟨h1, h2⟩
          · exact .inl ⟨by rw [hcl d hdc]; exact h1, w, j, by rw [hk w (hne h2)]; exact h2, .inl h3, h4⟩
          · refine .inr ⟨?_, ?_⟩
            · rw [hcl d hdc, h1]
              show _ = ((psum g.n s.syn _ _).toNat : Int)
              rw [psum_update_ne hu hdc]
            · rintro w j hw (hj | rfl)
              · by_cases hwu : w = u
                · subst hwu
                  intro hc
                  exact hnolink j _ hj hc (by simp)
                · rw [hk w hwu] at hw; exact h2 w j hw hj
              · exact hnoi w
  · intro d
    by_cases hdc : d = c
    · subst hdc; rw [hcc]; exact h.opens d
    · rw [hcl d hdc]; exact h.opens d
  · intro d hdl hp
    by_cases hdc : d = c
    · subst hdc
      rw [hcc] at hp ⊢
      show (s.clusters d).opened = true
      have hp : parityWith (s.clusters d).parity (s.syn u) = 1 := hp
      rcases hok with ho | ho
      · exact ho
      · refine h.par1 d hdl ?_
        rw [ho] at hp
        rcases hl.par with ⟨h1, _⟩ | ⟨h1, _⟩
        · rw [h1, parityWith_neg] at hp; simp at hp
        · rw [h1, parityWith_toNat, Bool.xor_false] at hp; rw [h1]; exact hp
    · rw [hcl d hdc] at hp ⊢; exact h.par1 d hdl hp
  · rintro j (hj | rfl)
    · obtain ⟨h1, d, h2⟩ := h.link j hj
      exact ⟨h1, d, fun e' he' w hw => by rw [hk w (hne (h2 e' he' w hw))]; exact h2 e' he' w hw⟩
    · refine ⟨hcomp, c, fun e' he' w hw => ?_⟩
      rw [he] at he'
      obtain rfl : e = e' := by simpa using he'
      have : w = v ∨ w = u := by cases hinc <;> simp at hw <;> tauto
      rcases this with rfl | rfl
      · rw [hk w (hne hv)]; exact hv
      · exact hku
  · intro w x d hw hx
    have hvu : JoinedBy g.edges (fun j => L j ∨ j = i) v u :=
      Relation.ReflTransGen.single ⟨i, e, .inr rfl, he, hinc.mem, hinc.other_mem⟩
    have hto : ∀ y, Function.update κ u (some c) y = some c → JoinedBy g.edges (fun j => L j ∨ j = i) y u := by
      intro y hy
      by_cases hyu : y = u
      · subst hyu; exact .refl
      · rw [hk y hyu] at hy
        exact Relation.ReflTransGen.trans ((h.conn y v c hy hv).mono fun _ => .inl) hvu
    by_cases hdc : d = c
    · subst hdc
      exact Relation.ReflTransGen.trans (hto w hw) (hto x hx).symm
    · have hwu : w ≠ u := by rintro rfl; rw [hku] at hw; exact hdc (by simpa using hw.symm)
      have hxu : x ≠ u := by rintro rfl; rw [hku] at hx; exact hdc (by simpa using hx.symm)
      rw [hk w hwu] at hw; rw [hk x hxu] at hx
      exact (h.conn w x d hw hx).mono fun _ => .inl
  · intro w hw j e' he' hm
    have hwu : w ≠ u := by rintro rfl; rw [hstu] at hw; simp at hw
    rw [hst w hwu] at hw
    exact .inl (h.inter w hw j e' he' hm)

/-- A new cluster of one vertex. -/
def UState.withCluster (s : UState) (v : Nat) : UState :=
  { s with
    cluster := Function.update s.cluster v (some s.nClusters)
    state := Function.update s.state v .boundary
    nClusters := s.nClusters + 1
    clusters := Function.update s.clusters s.nClusters
      { root := some v, boundary := some [v], nVertices := 1, parity := ((s.syn v).toNat : Int), opened := true }
    openList := s.openList ++ [s.nClusters] }

theorem UInv.newCluster (h : UInv g L s κ dp) {v : Nat} (hv : κ v = none) (hlt : v < g.n) :
    s.addCluster.addVertex s.nClusters v = .ok (s.withCluster v) ∧
      UInv g L (s.withCluster v) (Function.update κ v (some s.nClusters)) (Function.update dp v 0) := by
  have hs0 := (h.unused v).2 hv
  refine ⟨?_, ?_⟩
  · have h1 : (s.addCluster.clusters s.nClusters) =
        { root := none, boundary := some [], nVertices := 0, parity := 0, opened := true } := Function.update_self _ _ _
    have h2 : s.addCluster.state v = .unused := hs0
    unfold UState.addVertex
    simp only [h1, UState.toBoundaryRoot, h2, if_true]
    simp only [UState.setCluster, UState.withCluster, UState.addCluster, Function.update_self, Function.update_idem]
    cases s.syn v <;> rfl
  have hk : ∀ w, w ≠ v → Function.update κ v (some s.nClusters) w = κ w := fun w hw => Function.update_of_ne hw _ _
  have hku : Function.update κ v (some s.nClusters) v = some s.nClusters := Function.update_self _ _ _
  have hd : ∀ w, w ≠ v → Function.update dp v 0 w = dp w := fun w hw => Function.update_of_ne hw _ _
  have hdu : Function.update dp v 0 v = 0 := Function.update_self _ _ _
  have hne : ∀ {w d}, κ w = some d → w ≠ v := by rintro w d hw rfl; rw [hv] at hw; simp at hw
  have hcu : (s.withCluster v).cluster v = some s.nClusters := Function.update_self _ _ _
  have hcn : ∀ w, w ≠ v → (s.withCluster v).cluster w = s.cluster w := fun w hw => Function.update_of_ne hw _ _
  have hst : ∀ w, w ≠ v → (s.withCluster v).state w = s.state w := fun w hw => Function.update_of_ne hw _ _
  have hstu : (s.withCluster v).state v = .boundary := Function.update_self _ _ _
  have hcl : ∀ d, d ≠ s.nClusters → (s.withCluster v).clusters d = s.clusters d := fun d hd => Function.update_of_ne hd _ _
  have hcc : (s.withCluster v).clusters s.nClusters =
    { root := some v, boundary := some [v], nVertices := 1, parity := ((s.syn v).toNat : Int), opened := true } := Function.update_self _ _ _
  have hknew : ∀ w, κ w ≠ some s.nClusters := fun w hw => absurd (h.kc w _ hw) (by omega)
  have hnl : ∀ j e', L j → g.edges[j]? = some e' → v ∉ e' := by
    intro j e' hj he' hm
    obtain ⟨_, d, hd'⟩ := h.link j hj
    rw [hd' e' he' v hm] at hv; simp at hv
  have hown : ∀ w, Function.update κ v (some s.nClusters) w = some s.nClusters → w = v := by
    intro w hw
    by_contra hwv
    rw [hk w hwv] at hw
    exact hknew w hw
  refine ⟨?_, ?_, ?_, ?_, ?_, ?_, ?_, ?_, ?_, ?_, ?_, ?_, ?_, ?_⟩
  · intro w hw
    by_cases hwv : w = v
    · rw [hwv]; exact hlt
    · rw [hk w hwv] at hw; exact h.lt w hw
  · intro w
    by_cases hwv : w = v
    · subst hwv; rw [hstu, hku]; simp
    · rw [hst w hwv, hk w hwv]; exact h.unused w
  · intro w hw
    have hwv : w ≠ v := by rintro rfl; rw [hku] at hw; simp at hw
    rw [hk w hwv] at hw
    rw [hcn w hwv]
    exact h.free w hw
  · intro w d hw hp
    by_cases hwv : w = v
    · subst hwv
      rw [hku] at hw
      obtain rfl : s.nClusters = d := by simpa using hw
      exact ⟨hcu, by rw [hcc]⟩
    · rw [hk w hwv] at hw
      rw [hcn w hwv, hcl d (by rintro rfl; exact hknew w hw)]
      exact h.top w d hw hp
  · intro w d p hw hp
    by_cases hwv : w = v
    · subst hwv
      have : s.parent w = some p := hp
      rw [(h.free w hv).1] at this; simp at this
    · rw [hk w hwv] at hw
      obtain ⟨h1, h2, h3⟩ := h.up w d p hw hp
      exact ⟨by rw [hcn w hwv]; exact h1, by rw [hk p (hne h2)]; exact h2, by rw [hd p (hne h2), hd w hwv]; exact h3⟩
  · intro w d hw
    by_cases hwv : w = v
    · subst hwv
      rw [hdu]
      exact Finset.card_pos.2 ⟨w, by simp only [members, Finset.mem_filter, Finset.mem_range]; exact ⟨hlt, hw⟩⟩
    · rw [hk w hwv] at hw; rw [hd w hwv]
      exact (h.depth w d hw).trans_le (members_update_le hv)
  · intro w d hw
    show d < s.nClusters + 1
    by_cases hwv : w = v
    · subst hwv
      rw [hku] at hw
      obtain rfl : s.nClusters = d := by simpa using hw
      omega
    · rw [hk w hwv] at hw; have := h.kc w d hw; omega
  · intro d hdl
    by_cases hdc : d = s.nClusters
    · subst hdc
      refine .inr ⟨v, [v], by rw [hcc], by rw [hcc], hku, (h.free v hv).1, hdu, by simp, ?_, ?_⟩
      · intro w
        rw [List.mem_singleton]
        constructor
        · rintro rfl; exact ⟨hku, hstu⟩
        · rintro ⟨hw, _⟩; exact hown w hw
      · refine .inr ⟨?_, ?_⟩
        · rw [hcc]
          show ((s.syn v).toNat : Int) = ((psum g.n s.syn _ _).toNat : Int)
          rw [psum_update_self hv hlt]
          have : psum g.n s.syn κ s.nClusters = false := xsum_zero fun w _ => by simp [hknew w]
          rw [this, Bool.false_xor]
        · intro w j hw hj hc
          rw [hown w hw] at hc
          exact hnl j _ hj hc (by simp)
    · have hdl' : d < s.nClusters := by have : d < s.nClusters + 1 := hdl; omega
      rcases h.cl d hdl' with hx | ⟨r2, B2, hx⟩
      · refine .inl ⟨by rw [hcl d hdc]; exact hx.bnd, by rw [hcl d hdc]; exact hx.par, fun w hw => ?_⟩
        by_cases hwv : w = v
        · subst hwv; rw [hku] at hw; exact hdc (by simpa using hw.symm)
        · rw [hk w hwv] at hw; exact hx.none w hw
      · refine .inr ⟨r2, B2, by rw [hcl d hdc]; exact hx.root, by rw [hcl d hdc]; exact hx.bnd, by rw [hk r2 (hne hx.kr)]; exact hx.kr,
          hx.pr, by rw [hd r2 (hne hx.kr)]; exact hx.dr, hx.nodup, ?_, ?_⟩
        · intro w
          rw [hx.mem]
          by_cases hwv : w = v
          · subst hwv; rw [hku, hv]
            simp [Ne.symm hdc]
          · rw [hk w hwv, hst w hwv]
        · rcases hx.par with ⟨h1, w, j, h2, h3, h4⟩ | ⟨h1, h2⟩
          · exact .inl ⟨by rw [hcl d hdc]; exact h1, w, j, by rw [hk w (hne h2)]; exact h2, h3, h4⟩
          · refine .inr ⟨?_, ?_⟩
            · rw [hcl d hdc, h1]
              show _ = ((psum g.n s.syn _ _).toNat : Int)
              rw [psum_update_ne hv hdc]
            · intro w j hw hj
              by_cases hwv : w = v
              · subst hwv
                intro hc
                exact hnl j _ hj hc (by simp)
              · rw [hk w hwv] at hw; exact h2 w j hw hj
  · refine List.nodup_append.2 ⟨h.onodup, by simp, ?_⟩
    rintro x hx y hy rfl
    obtain rfl : x = s.nClusters := by simpa using hy
    have := ((h.opens _).1 hx).1
    omega
  · intro d
    show d ∈ s.openList ++ [s.nClusters] ↔ d < s.nClusters + 1 ∧ _
    rw [List.mem_append, List.mem_singleton, h.opens]
    by_cases hdc : d = s.nClusters
    · subst hdc; rw [hcc]; simp
    · rw [hcl d hdc]
      have : d < s.nClusters ↔ d < s.nClusters + 1 := by omega
      rw [this]; simp [hdc]
  · intro d hdl hp
    by_cases hdc : d = s.nClusters
    · subst hdc; rw [hcc]
    · rw [hcl d hdc] at hp ⊢
      exact h.par1 d (by have : d < s.nClusters + 1 := hdl; omega) hp
  · intro j hj
    obtain ⟨h1, d, h2⟩ := h.link j hj
    exact ⟨h1, d, fun e' he' w hw => by rw [hk w (hne (h2 e' he' w hw))]; exact h2 e' he' w hw⟩
  · intro w x d hw hx
    by_cases hdc : d = s.nClusters
    · subst hdc
      rw [hown w hw, hown x hx]; exact .refl
    · have hwu : w ≠ v := by rintro rfl; rw [hku] at hw; exact hdc (by simpa using hw.symm)
      have hxu : x ≠ v := by rintro rfl; rw [hku] at hx; exact hdc (by simpa using hx.symm)
      rw [hk w hwu] at hw; rw [hk x hxu] at hx
      exact h.conn w x d hw hx
  · intro w hw j e' he' hm
    have hwu : w ≠ v := by rintro rfl; rw [hstu] at hw; simp at hw
    rw [hst w hwu] at hw
    exact h.inter w hw j e' he' hm

end Plaquette
