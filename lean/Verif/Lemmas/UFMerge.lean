import Verif.Lemmas.UFAdd

/-!
# Union find: merging clusters
-/

namespace Plaquette

variable {g : UGraph} {L : Nat → Prop} {s : UState} {κ : Nat → Option Nat} {dp : Nat → Nat}

/-- The clusters of the vertices after merging `b` into `a`. -/
def kMerge (κ : Nat → Option Nat) (a b : Nat) : Nat → Option Nat := fun w => if κ w = some b then some a else κ w

/-- The depths after merging `b` into `a`. -/
def dMerge (κ : Nat → Option Nat) (dp : Nat → Nat) (b : Nat) : Nat → Nat := fun w => if κ w = some b then dp w + 1 else dp w

/-- The state after merging `b` into `a`. -/
def UState.withMerge (s : UState) (a b ra rb : Nat) (A B : List Nat) : UState :=
  { s with
    cluster := Function.update s.cluster rb none
    parent := Function.update s.parent rb (some ra)
    clusters := fun c =>
      if c = b then { s.clusters b with root := none, boundary := none, nVertices := 0, parity := 0 }
      else if c = a then
        { root := (s.clusters a).root, boundary := some (A ++ B)
          nVertices := (s.clusters a).nVertices + (s.clusters b).nVertices
          parity := parityMerge (s.clusters a).parity (s.clusters b).parity
          opened := (s.clusters a).opened || decide (parityMerge (s.clusters a).parity (s.clusters b).parity = 1) }
      else s.clusters c
    openList := if (s.clusters a).opened = false ∧ parityMerge (s.clusters a).parity (s.clusters b).parity = 1 then s.openList ++ [a]
      else s.openList }

theorem mergeInto_eq {a b ra rb : Nat} {A B : List Nat} (hab : a ≠ b) (hra : (s.clusters a).root = some ra)
    (hrb : (s.clusters b).root = some rb) (hpb : s.parent rb = none) (hcb : s.cluster rb = some b) :
    s.mergeInto a b A B = .ok (s.withMerge a b ra rb A B) := by
  have hba : b ≠ a := hab.symm
  unfold UState.mergeInto
  simp only [hra, hrb, UState.setParent, hpb, hcb]
  rw [if_neg (by simp)]
  simp only [UState.setCluster, Function.update_self, Function.update_of_ne hab, Function.update_of_ne hba]
  by_cases hc : (s.clusters a).opened = false ∧ parityMerge (s.clusters a).parity (s.clusters b).parity = 1
  · rw [if_pos hc]
    simp only [UState.reopen, UState.setCluster, Function.update_self, Function.update_of_ne hab, hc.1, UState.withMerge, hc]
    simp only [Bool.false_eq_true, if_false, hc.2, and_self, if_true, decide_true, Bool.or_true]
    congr 2
    funext c
    by_cases h1 : c = a
    · subst h1; rw [Function.update_self, if_neg hab, if_pos rfl]
    · rw [Function.update_of_ne h1, if_neg h1]
      by_cases h2 : c = b
      · subst h2; rw [Function.update_self, if_pos rfl]
      · rw [Function.update_of_ne h2, Function.update_of_ne h1, if_neg h2]
  · rw [if_neg hc]
    simp only [UState.withMerge, if_neg hc]
    congr 2
    funext c
    by_cases h2 : c = b
    · subst h2; rw [Function.update_self, if_pos rfl]
    · rw [Function.update_of_ne h2, if_neg h2]
      by_cases h1 : c = a
      · subst h1
        rw [Function.update_self, if_pos rfl]
        have : ((s.clusters c).opened || decide (parityMerge (s.clusters c).parity (s.clusters b).parity = 1)) = (s.clusters c).opened := by
          cases ho : (s.clusters c).opened
          · simp only [ho, true_and] at hc; simp [hc]
          · rfl
        rw [this]
      · rw [Function.update_of_ne h1, if_neg h1]

theorem psum_merge {n : Nat} {syn : Nat → Bool} {a b : Nat} (hab : a ≠ b) :
    psum n syn (kMerge κ a b) a = (psum n syn κ a ^^ psum n syn κ b) := by
  unfold psum
  rw [← xsum_xor]
  refine xsum_congr fun u _ => ?_
  unfold kMerge
  by_cases h1 : κ u = some b
  · have : κ u ≠ some a := by rw [h1]; simpa using hab.symm
    simp [h1, hab.symm]
  · simp [h1]

theorem psum_merge_ne {n : Nat} {syn : Nat → Bool} {a b d : Nat} (hda : d ≠ a) (hdb : d ≠ b) :
    psum n syn (kMerge κ a b) d = psum n syn κ d := by
  unfold psum
  refine xsum_congr fun u _ => ?_
  unfold kMerge
  by_cases h1 : κ u = some b
  · simp [h1, hda.symm, hdb.symm]
  · simp [h1]

theorem parityMerge_left (q : Int) : parityMerge (-1) q = -1 := by simp [parityMerge]
theorem parityMerge_right (p : Int) : parityMerge p (-1) = -1 := by simp [parityMerge]
theorem parityMerge_toNat (a b : Bool) : parityMerge (a.toNat : Int) (b.toNat : Int) = ((a ^^ b).toNat : Int) := by
  cases a <;> cases b <;> rfl

theorem kMerge_eq_a {a b w : Nat} (hab : a ≠ b) : kMerge κ a b w = some a ↔ κ w = some a ∨ κ w = some b := by
  unfold kMerge
  by_cases h1 : κ w = some b <;> simp [h1]

theorem kMerge_ne_b {a b w : Nat} (hab : a ≠ b) : kMerge κ a b w ≠ some b := by
  unfold kMerge
  by_cases h1 : κ w = some b <;> simp [h1, hab]

theorem kMerge_eq {a b d w : Nat} (hda : d ≠ a) (hdb : d ≠ b) : kMerge κ a b w = some d ↔ κ w = some d := by
  unfold kMerge
  by_cases h1 : κ w = some b <;> simp [h1, hda.symm, hdb.symm]

theorem kMerge_none {a b w : Nat} : kMerge κ a b w = none ↔ κ w = none := by
  unfold kMerge
  by_cases h1 : κ w = some b <;> simp [h1]

theorem UInv.mergeInto (h : UInv g L s κ dp) {a b i v u ra rb : Nat} {e A B : List Nat} (hab : a ≠ b) (ha : LiveC g L s κ dp a ra A)
    (hb : LiveC g L s κ dp b rb B) (hv : κ v = some a) (hu : κ u = some b) (he : g.edges[i]? = some e)
    (hmem : ∀ w ∈ e, w = v ∨ w = u) (hve : v ∈ e) (hue : u ∈ e) (hcomp : g.complete s i = true)
    (hnd : ∀ w, e ≠ [w]) :
    s.mergeInto a b A B = .ok (s.withMerge a b ra rb A B) ∧
      UInv g (fun j => L j ∨ j = i) (s.withMerge a b ra rb A B) (kMerge κ a b) (dMerge κ dp b) := by
  have hrb := h.top rb b hb.kr hb.pr
  have hra := h.top ra a ha.kr ha.pr
  refine ⟨mergeInto_eq hab ha.root hb.root hb.pr hrb.1, ?_⟩
  have hrab : ra ≠ rb := by rintro rfl; have := ha.kr.symm.trans hb.kr; exact hab (by simpa using this)
  have hpar : ∀ w, w ≠ rb → (s.withMerge a b ra rb A B).parent w = s.parent w := fun w hw => Function.update_of_ne hw _ _
  have hparb : (s.withMerge a b ra rb A B).parent rb = some ra := Function.update_self _ _ _
  have hcw : ∀ w, w ≠ rb → (s.withMerge a b ra rb A B).cluster w = s.cluster w := fun w hw => Function.update_of_ne hw _ _
  have hcrb : (s.withMerge a b ra rb A B).cluster rb = none := Function.update_self _ _ _
  have hca : (s.withMerge a b ra rb A B).clusters a =
        { root := (s.clusters a).root, boundary := some (A ++ B)
          nVertices := (s.clusters a).nVertices + (s.clusters b).nVertices
          parity := parityMerge (s.clusters a).parity (s.clusters b).parity
          opened := (s.clusters a).opened || decide (parityMerge (s.clusters a).parity (s.clusters b).parity = 1) } := by
    show (if a = b then _ else if a = a then _ else _) = _
    rw [if_neg hab, if_pos rfl]
  have hcb : (s.withMerge a b ra rb A B).clusters b = { s.clusters b with root := none, boundary := none, nVertices := 0, parity := 0 } := by
    show (if b = b then _ else _) = _
    rw [if_pos rfl]
  have hcl : ∀ d, d ≠ a → d ≠ b → (s.withMerge a b ra rb A B).clusters d = s.clusters d := by
    intro d h1 h2
    show (if d = b then _ else if d = a then _ else _) = _
    rw [if_neg h2, if_neg h1]
  have hst : (s.withMerge a b ra rb A B).state = s.state := rfl
  have hsyn : (s.withMerge a b ra rb A B).syn = s.syn := rfl
  have hal := h.kc v a hv
  have hbl := h.kc u b hu
  have hdi : ∀ w, g.edges[i]? ≠ some [w] := by
    intro w hw
    rw [he] at hw
    exact hnd w (by simpa using hw)
  refine ⟨?_, ?_, ?_, ?_, ?_, ?_, ?_, ?_, ?_, ?_, ?_, ?_, ?_, ?_⟩
  · intro w hw
    exact h.lt w (by rwa [Ne, kMerge_none] at hw)
  · intro w; rw [kMerge_none]; exact h.unused w
  · intro w hw
    rw [kMerge_none] at hw
    have hne : w ≠ rb := by rintro rfl; rw [hb.kr] at hw; simp at hw
    rw [hpar w hne, hcw w hne]
    exact h.free w hw
  · intro w d hw hp
    have hne : w ≠ rb := by rintro rfl; rw [hparb] at hp; simp at hp
    rw [hpar w hne] at hp
    rw [hcw w hne]
    by_cases hda : d = a
    · subst hda
      rcases (kMerge_eq_a hab).1 hw with hw | hw
      · rw [hca]; exact h.top w d hw hp
      · have := (h.top w b hw hp).2
        rw [hb.root] at this
        exact absurd (by simpa using this.symm) hne
    · by_cases hdb : d = b
      · subst hdb; exact absurd hw (kMerge_ne_b hab)
      · rw [kMerge_eq hda hdb] at hw
        rw [hcl d hda hdb]; exact h.top w d hw hp
  · intro w d p hw hp
    by_cases hwr : w = rb
    · subst hwr
      rw [hparb] at hp
      obtain rfl : ra = p := by simpa using hp
      have h1 : kMerge κ a b w = some a := (kMerge_eq_a hab).2 (.inr hb.kr)
      obtain rfl : d = a := by have := hw.symm.trans h1; simpa using this
      refine ⟨hcrb, (kMerge_eq_a hab).2 (.inl ha.kr), ?_⟩
      have h2 : κ ra ≠ some b := by rw [ha.kr]; simpa using hab
      simp only [dMerge, if_neg h2, if_pos hb.kr, ha.dr]
      omega
    · rw [hpar w hwr] at hp
      rw [hcw w hwr]
      by_cases hwb : κ w = some b
      · obtain ⟨h1, h2, h3⟩ := h.up w b p hwb hp
        have h4 : kMerge κ a b w = some a := (kMerge_eq_a hab).2 (.inr hwb)
        obtain rfl : d = a := by have := hw.symm.trans h4; simpa using this
        refine ⟨h1, (kMerge_eq_a hab).2 (.inr h2), ?_⟩
        simp only [dMerge, if_pos h2, if_pos hwb]
        omega
      · have h4 : kMerge κ a b w = κ w := if_neg hwb
        rw [h4] at hw
        obtain ⟨h1, h2, h3⟩ := h.up w d p hw hp
        have h5 : κ p ≠ some b := by rw [h2, ← hw]; exact hwb
        refine ⟨h1, ?_, ?_⟩
        · show (if κ p = some b then _ else _) = _
          rw [if_neg h5]; exact h2
        · simp only [dMerge, if_neg h5, if_neg hwb]; exact h3
  · intro w d hw
    by_cases hda : d = a
    · subst hda
      have hun : members g.n (kMerge κ d b) d = members g.n κ d ∪ members g.n κ b := by
        ext x
        simp only [members, Finset.mem_filter, Finset.mem_union, kMerge_eq_a hab]
        tauto
      have hdisj : Disjoint (members g.n κ d) (members g.n κ b) := by
        rw [Finset.disjoint_left]
        intro x hx hy
        simp only [members, Finset.mem_filter] at hx hy
        have := hx.2.symm.trans hy.2
        exact hab (by simpa using this)
      rw [hun, Finset.card_union_of_disjoint hdisj]
      have hpos : 0 < (members g.n κ d).card :=
        Finset.card_pos.2 ⟨ra, by simp only [members, Finset.mem_filter, Finset.mem_range]; exact ⟨h.lt ra (by rw [ha.kr]; simp), ha.kr⟩⟩
      rcases (kMerge_eq_a hab).1 hw with hw | hw
      · have h2 : κ w ≠ some b := by rw [hw]; simpa using hab
        have := h.depth w d hw
        simp only [dMerge, if_neg h2]
        omega
      · have := h.depth w b hw
        simp only [dMerge, if_pos hw]
        omega
    · by_cases hdb : d = b
      · subst hdb; exact absurd hw (kMerge_ne_b hab)
      · have hm : members g.n (kMerge κ a b) d = members g.n κ d := by
          ext x; simp only [members, Finset.mem_filter, kMerge_eq hda hdb]
        rw [kMerge_eq hda hdb] at hw
        have h2 : κ w ≠ some b := by rw [hw]; simpa using hdb
        rw [hm]
        simp only [dMerge, if_neg h2]
        exact h.depth w d hw
  · intro w d hw
    by_cases hda : d = a
    · subst hda; exact hal
    · by_cases hdb : d = b
      · subst hdb; exact hbl
      · rw [kMerge_eq hda hdb] at hw; exact h.kc w d hw
  · intro d hdl
    by_cases hdb : d = b
    · subst hdb
      exact .inl ⟨by rw [hcb], by rw [hcb], fun w => kMerge_ne_b hab⟩
    by_cases hda : d = a
    · subst hda
      have hrk : κ ra ≠ some b := by rw [ha.kr]; simpa using hab
      refine .inr ⟨ra, A ++ B, by rw [hca]; exact ha.root, by rw [hca], (kMerge_eq_a hab).2 (.inl ha.kr), by rw [hpar ra hrab]; exact ha.pr,
        by simp only [dMerge, if_neg hrk]; exact ha.dr, ?_, ?_, ?_⟩
      · refine List.nodup_append.2 ⟨ha.nodup, hb.nodup, ?_⟩
        rintro x hx y hy rfl
        have := ((ha.mem x).1 hx).1.symm.trans ((hb.mem x).1 hy).1
        exact hab (by simpa using this)
      · intro w
        rw [List.mem_append, ha.mem, hb.mem, kMerge_eq_a hab, hst]
        tauto
      · unfold ParC
        rw [hca, hsyn, psum_merge hab]
        show (parityMerge _ _ = _ ∧ _) ∨ (parityMerge _ _ = _ ∧ _)
        rcases ha.par with ⟨h1, w, j, h2, h3, h4⟩ | ⟨h1, h2⟩
        · left
          rw [h1, parityMerge_left]
          exact ⟨rfl, w, j, (kMerge_eq_a hab).2 (.inl h2), .inl h3, h4⟩
        · rcases hb.par with ⟨h1', w, j, h2', h3, h4⟩ | ⟨h1', h2'⟩
          · left
            rw [h1', parityMerge_right]
            exact ⟨rfl, w, j, (kMerge_eq_a hab).2 (.inr h2'), .inl h3, h4⟩
          · right
            rw [h1, h1', parityMerge_toNat]
            refine ⟨rfl, ?_⟩
            rintro w j hw (hj | rfl)
            · rcases (kMerge_eq_a hab).1 hw with hw | hw
              · exact h2 w j hw hj
              · exact h2' w j hw hj
            · exact hdi w
    · rcases h.cl d hdl with hx | ⟨r2, B2, hx⟩
      · refine .inl ⟨by rw [hcl d hda hdb]; exact hx.bnd, by rw [hcl d hda hdb]; exact hx.par, fun w hw => ?_⟩
        rw [kMerge_eq hda hdb] at hw; exact hx.none w hw
      · have hr2 : r2 ≠ rb := by rintro rfl; have := hx.kr.symm.trans hb.kr; exact hdb (by simpa using this)
        have hrk : κ r2 ≠ some b := by rw [hx.kr]; simpa using hdb
        refine .inr ⟨r2, B2, by rw [hcl d hda hdb]; exact hx.root, by rw [hcl d hda hdb]; exact hx.bnd, (kMerge_eq hda hdb).2 hx.kr,
          by rw [hpar r2 hr2]; exact hx.pr, by simp only [dMerge, if_neg hrk]; exact hx.dr, hx.nodup, ?_, ?_⟩
        · intro w
          rw [hx.mem, kMerge_eq hda hdb, hst]
        · unfold ParC
          rw [hcl d hda hdb, hsyn, psum_merge_ne hda hdb]
          rcases hx.par with ⟨h1, w, j, h2, h3, h4⟩ | ⟨h1, h2⟩
          · exact .inl ⟨h1, w, j, (kMerge_eq hda hdb).2 h2, .inl h3, h4⟩
          · refine .inr ⟨h1, ?_⟩
            rintro w j hw (hj | rfl)
            · rw [kMerge_eq hda hdb] at hw; exact h2 w j hw hj
            · exact hdi w
  · show (if _ then _ else _ : List Nat).Nodup
    split
    · rename_i hc
      refine List.nodup_append.2 ⟨h.onodup, by simp, ?_⟩
      rintro x hx y hy rfl
      obtain rfl : x = a := by simpa using hy
      have := ((h.opens x).1 hx).2
      rw [hc.1] at this; simp at this
    · exact h.onodup
  · intro d
    show d ∈ (if _ then _ else _ : List Nat) ↔ d < s.nClusters ∧ _
    by_cases hdb : d = b
    · subst hdb
      rw [hcb]
      show _ ↔ _ ∧ (s.clusters d).opened = true
      rw [← h.opens]
      split
      · rw [List.mem_append, List.mem_singleton]; simp [hab.symm]
      · rfl
    by_cases hda : d = a
    · subst hda
      rw [hca]
      show _ ↔ _ ∧ ((s.clusters d).opened || _) = true
      split
      · rename_i hc
        simp [hc.2, hal]
      · rename_i hc
        rw [h.opens]
        cases ho : (s.clusters d).opened
        · simp only [ho, true_and] at hc
          simp [hc]
        · simp
    · rw [hcl d hda hdb, ← h.opens]
      split
      · rw [List.mem_append, List.mem_singleton]; simp [hda]
      · rfl
  · intro d hdl hp
    by_cases hdb : d = b
    · subst hdb; rw [hcb] at hp; simp at hp
    by_cases hda : d = a
    · subst hda
      rw [hca] at hp ⊢
      have hp : parityMerge (s.clusters d).parity (s.clusters b).parity = 1 := hp
      simp [hp]
    · rw [hcl d hda hdb] at hp ⊢; exact h.par1 d hdl hp
  · rintro j (hj | rfl)
    · obtain ⟨h1, d, h2⟩ := h.link j hj
      refine ⟨h1, (if d = b then a else d), fun e' he' w hw => ?_⟩
      have h3 := h2 e' he' w hw
      by_cases hdb : d = b
      · rw [if_pos hdb]
        exact (kMerge_eq_a hab).2 (.inr (by rw [← hdb]; exact h3))
      · rw [if_neg hdb]
        unfold kMerge
        rw [if_neg (by rw [h3]; simpa using hdb)]
        exact h3
    · refine ⟨hcomp, a, fun e' he' w hw => ?_⟩
      rw [he] at he'
      obtain rfl : e = e' := by simpa using he'
      rcases hmem w hw with rfl | rfl
      · exact (kMerge_eq_a hab).2 (.inl hv)
      · exact (kMerge_eq_a hab).2 (.inr hu)
  · intro w x d hw hx
    have hvu : JoinedBy g.edges (fun j => L j ∨ j = i) v u :=
      Relation.ReflTransGen.single ⟨i, e, .inr rfl, he, hve, hue⟩
    by_cases hda : d = a
    · subst hda
      have hto : ∀ y, kMerge κ d b y = some d → JoinedBy g.edges (fun j => L j ∨ j = i) y u := by
        intro y hy
        rcases (kMerge_eq_a hab).1 hy with hy | hy
        · exact Relation.ReflTransGen.trans ((h.conn y v d hy hv).mono fun _ => .inl) hvu
        · exact (h.conn y u b hy hu).mono fun _ => .inl
      exact Relation.ReflTransGen.trans (hto w hw) (hto x hx).symm
    · by_cases hdb : d = b
      · subst hdb; exact absurd hw (kMerge_ne_b hab)
      · rw [kMerge_eq hda hdb] at hw hx
        exact (h.conn w x d hw hx).mono fun _ => .inl
  · exact fun w hw j e' he' hm => .inl (h.inter w hw j e' he' hm)

/-- An edge inside a cluster. -/
theorem UInv.inside (h : UInv g L s κ dp) {a i : Nat} {e : List Nat} (he : g.edges[i]? = some e) (hmem : ∀ w ∈ e, κ w = some a)
    (hcomp : g.complete s i = true) (hnd : ∀ w, e ≠ [w]) : UInv g (fun j => L j ∨ j = i) s κ dp := by
  have hdi : ∀ w, g.edges[i]? ≠ some [w] := by
    intro w hw
    rw [he] at hw
    exact hnd w (by simpa using hw)
  refine ⟨h.lt, h.unused, h.free, h.top, h.up, h.depth, h.kc, ?_, h.onodup, h.opens, h.par1, ?_, ?_, ?_⟩
  · intro d hdl
    rcases h.cl d hdl with hx | ⟨r2, B2, hx⟩
    · exact .inl hx
    · refine .inr ⟨r2, B2, hx.root, hx.bnd, hx.kr, hx.pr, hx.dr, hx.nodup, hx.mem, ?_⟩
      rcases hx.par with ⟨h1, w, j, h2, h3, h4⟩ | ⟨h1, h2⟩
      · exact .inl ⟨h1, w, j, h2, .inl h3, h4⟩
      · refine .inr ⟨h1, ?_⟩
        rintro w j hw (hj | rfl)
        · exact h2 w j hw hj
        · exact hdi w
  · rintro j (hj | rfl)
    · exact h.link j hj
    · refine ⟨hcomp, a, fun e' he' w hw => ?_⟩
      rw [he] at he'
      obtain rfl : e = e' := by simpa using he'
      exact hmem w hw
  · exact fun w x d hw hx => (h.conn w x d hw hx).mono fun _ => .inl
  · exact fun w hw j e' he' hm => .inl (h.inter w hw j e' he' hm)

/-- What merging and adding do not touch. -/
structure SameBase (s s' : UState) : Prop where
  growth : s'.growth = s.growth
  syn : s'.syn = s.syn

theorem SameBase.trans {s s' s'' : UState} (h : SameBase s s') (h' : SameBase s' s'') : SameBase s s'' :=
  ⟨h'.growth.trans h.growth, h'.syn.trans h.syn⟩

theorem UInv.merge (h : UInv g L s κ dp) {a b i v u : Nat} {e : List Nat} (hv : κ v = some a) (hu : κ u = some b)
    (he : g.edges[i]? = some e) (hinc : Inc e v (some u)) (hcomp : g.complete s i = true) :
    ∃ s' κ' dp', s.merge a b = .ok s' ∧ UInv g (fun j => L j ∨ j = i) s' κ' dp' ∧ SameBase s s' ∧ s'.state = s.state := by
  have hnd : ∀ w, e ≠ [w] := by rintro w rfl; cases hinc
  have hmem : ∀ w ∈ e, w = v ∨ w = u := by intro w hw; cases hinc <;> simp at hw <;> tauto
  by_cases hab : a = b
  · subst hab
    refine ⟨s, κ, dp, by simp [UState.merge], h.inside he (a := a) ?_ hcomp hnd, ⟨rfl, rfl⟩, rfl⟩
    intro w hw
    rcases hmem w hw with rfl | rfl <;> assumption
  · obtain ⟨ra, A, ha⟩ := h.live hv
    obtain ⟨rb, B, hb⟩ := h.live hu
    unfold UState.merge
    rw [if_neg hab, ha.bnd, hb.bnd]
    by_cases hlen : A.length < B.length
    · obtain ⟨h1, h2⟩ := h.mergeInto (Ne.symm hab) hb ha hu hv he (fun w hw => (hmem w hw).symm) hinc.other_mem hinc.mem hcomp hnd
      exact ⟨_, _, _, by simp only [if_pos hlen]; exact h1, h2, ⟨rfl, rfl⟩, rfl⟩
    · obtain ⟨h1, h2⟩ := h.mergeInto hab ha hb hv hu he hmem hinc.mem hinc.other_mem hcomp hnd
      exact ⟨_, _, _, by simp only [if_neg hlen]; exact h1, h2, ⟨rfl, rfl⟩, rfl⟩

end Plaquette
