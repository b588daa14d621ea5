import Verif.Lemmas.UFArc
import Verif.Lemmas.UFSpan
import Mathlib.Tactic.IntervalCases

/-!
# Union find without weights: the clusters and the errors do not cross more lines than three times the number of errors
-/

namespace Plaquette

/-! ## Unit growth -/

theorem countP_swap {l k : List Nat} (hl : l.Nodup) (hk : k.Nodup) : (l.countP fun a => decide (a ∈ k)) = k.countP fun a => decide (a ∈ l) := by
  rw [List.countP_eq_length_filter, List.countP_eq_length_filter, ← List.toFinset_card_of_nodup (hl.filter _),
    ← List.toFinset_card_of_nodup (hk.filter _)]
  congr 1
  ext a
  simp [and_comm]

theorem UGraph.edgesAt_nodup {g : UGraph} (v : Nat) : (g.edgesAt v).Nodup := by
  unfold UGraph.edgesAt UGraph.nbrs
  rw [List.map_filterMap]
  refine List.Nodup.filterMap (fun a a' b h h' => ?_) List.nodup_range
  simp only [Option.map_map, Option.mem_def, Option.map_eq_some_iff] at h h'
  obtain ⟨o, _, rfl⟩ := h
  obtain ⟨o', _, h2⟩ := h'
  exact h2.symm

/-- How many of the ends of an edge are grown. -/
theorem count_grown {g : UGraph} (hwf : EdgesWf g.n g.edges) {W : List Nat} (hW : W.Nodup) {i : Nat} {e : List Nat} (he : g.edges[i]? = some e) :
    (W.flatMap g.edgesAt).count i = e.countP fun v => decide (v ∈ W) := by
  have he' : e.Nodup := by
    rcases hwf.cases he with ⟨a, rfl⟩ | ⟨a, b, rfl, h⟩
    · simp
    · simpa using h
  rw [← countP_swap hW he']
  clear hW
  induction W with
  | nil => rfl
  | cons v W ih =>
    rw [List.flatMap_cons, List.count_append, ih, List.countP_cons, Nat.add_comm]
    congr 1
    have hm : i ∈ g.edgesAt v ↔ v ∈ e := by
      rw [UGraph.mem_edgesAt hwf]
      constructor
      · rintro ⟨e', h1, h2⟩
        rw [he] at h1; cases h1; exact h2
      · exact fun h => ⟨e, he, h⟩
    by_cases hv : v ∈ e
    · rw [List.count_eq_one_of_mem (UGraph.edgesAt_nodup v) (hm.2 hv)]; simp [hv]
    · rw [List.count_eq_zero_of_not_mem (fun h => hv (hm.1 h))]; simp [hv]

/-- Unit growth adds up, up to two. -/
theorem grow_unit {g : UGraph} (hm : ∀ i, g.maxGrowth i = 2) (hi : ∀ i, g.increment i = 1) (i : Nat) : ∀ (l : List Nat) (G : Nat → ℚ) (m : Nat),
    G i = m → m ≤ 2 → l.foldl (growOne g) G i = ((min 2 (m + l.count i) : Nat) : ℚ) := by
  intro l
  induction l with
  | nil => intro G m h hm; rw [List.foldl_nil, h, List.count_nil, Nat.add_zero, Nat.min_eq_right hm]
  | cons a l ih =>
    intro G m h h2
    rw [List.foldl_cons]
    by_cases ha : a = i
    · subst ha
      rw [List.count_cons_self]
      by_cases hm2 : m = 2
      · subst hm2
        rw [ih _ 2 (by simp [growOne, hm, h]) le_rfl]
        congr 1; omega
      · have : ¬ (2 : ℚ) ≤ m := by
          have : m < 2 := by omega
          exact_mod_cast Nat.not_le.2 this
        rw [ih _ (m + 1) (by simp [growOne, hm, hi, h, this]) (by omega)]
        congr 2; omega
    · have h3 : growOne g G a i = G i := by
        unfold growOne
        split
        · rfl
        · rw [Function.update_of_ne (Ne.symm ha)]
      rw [ih _ m (h3.trans h) h2, List.count_cons_of_ne ha]

/-! ## Errors at a growing cluster -/

theorem xsum_true {l : List Nat} {f : Nat → Bool} (h : xsum l f = true) : ∃ i ∈ l, f i = true := by
  by_contra hc
  push Not at hc
  rw [xsum_zero (fun i hi => by simpa using hc i hi)] at h
  cases h

theorem Grew.error {g : UGraph} (hwf : EdgesWf g.n g.edges) {syn x : Nat → Bool} (hx : ∀ v < g.n, bd g.edges x v = syn v) {G G' : Nat → ℚ}
    {W : List Nat} (h : Grew g syn G G' W) {v : Nat} (hv : v ∈ W) :
    ∃ i e u, g.edges[i]? = some e ∧ x i = true ∧ ¬ DoneG g G i ∧ u ∈ e ∧ u ∈ W ∧ JoinedBy g.edges (DoneG g G) v u := by
  classical
  set C : Nat → Bool := fun u => decide (JoinedBy g.edges (DoneG g G) v u) with hC
  have h1 : xsum (List.range g.n) (fun u => C u && syn u) = true := by
    rw [xsum_eq_odd, ← h.odd v hv]
    congr 1
    rw [← List.toFinset_card_of_nodup (List.nodup_range.filter _), ← Set.ncard_coe_finset]
    congr 1
    ext u
    simp [hC]
  have h2 : xsum (List.range g.n) (fun u => C u && syn u) =
      xsum (List.range g.edges.length) fun i => x i && xsum (List.range g.n) fun u => C u && touches g.edges i u := by
    have : ∀ u ∈ List.range g.n, (C u && syn u) = xsum (List.range g.edges.length) fun i => x i && (C u && touches g.edges i u) := by
      intro u hu
      rw [← hx u (List.mem_range.1 hu)]
      unfold bd
      rw [← xsum_and]
      refine xsum_congr fun i _ => ?_
      cases C u <;> cases x i <;> rfl
    rw [xsum_congr this, xsum_comm]
    refine xsum_congr fun i _ => ?_
    rw [xsum_and]
  rw [h2] at h1
  obtain ⟨i, hi, h3⟩ := xsum_true h1
  rw [Bool.and_eq_true] at h3
  have hi := List.mem_range.1 hi
  have he := List.getElem?_eq_getElem hi
  generalize g.edges[i] = e at he
  have hl := fun u hu => hwf.lt (v := u) (List.mem_of_getElem? he) hu
  have one : ∀ a < g.n, xsum (List.range g.n) (fun u => C u && decide (u = a)) = C a := by
    intro a ha
    rw [xsum_single List.nodup_range (List.mem_range.2 ha) (fun j _ hj => by simp [hj])]
    simp
  have fin : ∀ u ∈ e, C u = true → ¬ DoneG g G i → ∃ i e u, g.edges[i]? = some e ∧ x i = true ∧ ¬ DoneG g G i ∧ u ∈ e ∧ u ∈ W ∧ JoinedBy g.edges (DoneG g G) v u := by
    intro u hu hc hn
    have hj := of_decide_eq_true hc
    exact ⟨i, e, u, he, h3.1, hn, hu, h.all v hv u i e hj he hu hn, hj⟩
  rcases hwf.cases he with ⟨a, rfl⟩ | ⟨a, b, rfl, hab⟩
  · have h4 : C a = true := by
      rw [← one a (hl a (by simp)), ← h3.2]
      refine xsum_congr fun u _ => ?_
      rw [touches_some he]; simp
    exact fin a (by simp) h4 fun hd => h.nodang v hv a i (of_decide_eq_true h4) hd he
  · have h4 : (C a ^^ C b) = true := by
      rw [← one a (hl a (by simp)), ← one b (hl b (by simp)), ← xsum_xor, ← h3.2]
      refine xsum_congr fun u _ => ?_
      rw [touches_some he]
      by_cases h1 : u = a
      · subst h1; simp [hab]
      · by_cases h2 : u = b
        · subst h2; simp [h1]
        · simp [h1, h2]
    have hstep : DoneG g G i → (C a = C b) := by
      intro hd
      refine Bool.eq_iff_iff.2 ?_
      simp only [hC, decide_eq_true_eq]
      exact ⟨fun hj => hj.tail ⟨i, _, hd, he, by simp, by simp⟩, fun hj => hj.tail ⟨i, _, hd, he, by simp, by simp⟩⟩
    have hn : ¬ DoneG g G i := by
      intro hd
      rw [hstep hd] at h4; simp at h4
    cases ha : C a
    · rw [ha] at h4
      exact fin b (by simp) (by simpa using h4) hn
    · exact fin a (by simp) ha hn

/-! ## The invariant -/

/-- What an error edge has paid for. -/
def paid : Nat → Nat
  | 0 => 0
  | 1 => 2
  | _ => 6

variable {P : Type} [CommRing P] {g : UGraph} (Y : Layout P g.n g.edges) (x : Nat → Bool) (er : List Nat)

/-- The errors that are not erased. -/
def errEdges (g : UGraph) (x : Nat → Bool) (er : List Nat) : Finset Nat := (Finset.range g.edges.length).filter fun i => x i = true ∧ i ∉ er

structure Reach (G : Nat → ℚ) (N : Nat → Nat) (S : Labels P) : Prop where
  val : ∀ i < g.edges.length, G i = N i ∧ N i ≤ 2
  placed : Placed Y S
  done : ∀ i < g.edges.length, N i = 2 → EdgeIn Y S i
  half : ∀ i e p, g.edges[i]? = some e → N i = 1 → Y.seg i = some p →
    ∃ u ∈ e, (Y.pos u = p ∧ (S.at u).Seg p) ∨ (Y.pos u = p + 2 ∧ (S.at u).Seg (p + 1))
  ers : ∀ i ∈ er, N i = 2
  bound : S.total g.n ≤ 2 * er.length + ∑ i ∈ errEdges g x er, paid (N i)

theorem Reach.doneG {G : Nat → ℚ} {N : Nat → Nat} {S : Labels P} (hm : ∀ i, g.maxGrowth i = 2) (h : Reach Y x er G N S) {i : Nat}
    (hi : i < g.edges.length) : DoneG g G i ↔ N i = 2 := by
  unfold DoneG
  rw [hm, (h.val i hi).1]
  have := (h.val i hi).2
  constructor
  · rintro ⟨_, h2⟩
    have : 2 ≤ N i := by exact_mod_cast h2
    omega
  · intro h2; exact ⟨hi, by rw [h2]; norm_num⟩

/-- Vertices of a cluster have the same label. -/
theorem Reach.joined {G : Nat → ℚ} {N : Nat → Nat} {S : Labels P} (hwf : EdgesWf g.n g.edges) (hm : ∀ i, g.maxGrowth i = 2) (h : Reach Y x er G N S) {v u : Nat}
    (hj : JoinedBy g.edges (DoneG g G) v u) : S.lab v = S.lab u := by
  induction hj with
  | refl => rfl
  | tail _ hs ih =>
    obtain ⟨i, e, hd, he, ha, hb⟩ := hs
    have hin := h.done i hd.1 ((h.doneG Y x er hm hd.1).1 hd)
    rw [ih]
    rcases hwf.cases he with ⟨c, rfl⟩ | ⟨c, d, rfl, _⟩
    · simp only [List.mem_singleton] at ha hb; rw [ha, hb]
    · have := hin.lab c d he
      simp only [List.mem_cons, List.not_mem_nil, or_false] at ha hb
      rcases ha with rfl | rfl <;> rcases hb with rfl | rfl <;> simp [this]

theorem Reach.step {G G' : Nat → ℚ} {N : Nat → Nat} {S : Labels P} {W : List Nat} {syn : Nat → Bool} (hwf : EdgesWf g.n g.edges)
    (hm : ∀ i, g.maxGrowth i = 2) (hinc : ∀ i, g.increment i = 1) (hx : ∀ v < g.n, bd g.edges x v = syn v) (h : Reach Y x er G N S)
    (hG : Grew g syn G G' W) : ∃ N' S', Reach Y x er G' N' S' := by
  classical
  set cnt : Nat → Nat := fun i => (W.flatMap g.edgesAt).count i with hcnt
  set N' : Nat → Nat := fun i => min 2 (N i + cnt i) with hN'
  have hval : ∀ i < g.edges.length, G' i = N' i ∧ N' i ≤ 2 := by
    intro i hi
    refine ⟨?_, by simp only [hN']; omega⟩
    rw [hG.growth]
    exact grow_unit hm hinc i _ G (N i) (h.val i hi).1 (h.val i hi).2
  set grown : Finset Nat := (W.map S.lab).toFinset with hgrown
  set S1 : Labels P := ⟨S.lab, fun l => if l ∈ grown then (S.arc l).grow else S.arc l⟩ with hS1
  have hgr : ∀ v ∈ W, S1.at v = (S.at v).grow := by
    intro v hv
    show (if S.lab v ∈ grown then (S.arc (S.lab v)).grow else S.arc (S.lab v)) = (S.arc (S.lab v)).grow
    rw [if_pos (by simp only [hgrown, List.mem_toFinset, List.mem_map]; exact ⟨v, hv, rfl⟩)]
  have hle : S.Le g.n S1 := by
    refine ⟨h.placed.lt, fun _ _ _ _ e => e, fun v _ => ?_⟩
    show (S.arc (S.lab v)).Sub (if S.lab v ∈ grown then (S.arc (S.lab v)).grow else S.arc (S.lab v))
    split
    · exact Arc.sub_grow _
    · exact Arc.Sub.refl _
  have hsegs : ∀ v ∈ W, ∀ q, (S.at v).Pt q → (S1.at v).Seg q ∧ (S1.at v).Seg (q - 1) := by
    intro v hv q hq
    rw [hgr v hv]
    exact Arc.grow_seg hq
  have hown : ∀ v ∈ W, (S1.at v).Seg (Y.pos v) ∧ (S1.at v).Seg (Y.pos v - 1) := fun v hv => hsegs v hv _ (h.placed.on v (hG.lt v hv))
  have hP1 : Placed Y S1 := h.placed.mono Y hle
  -- edges that are complete after the step
  have hready : ∀ i < g.edges.length, N' i = 2 → EdgeReady Y S1 i := by
    intro i hi hn e p he hp
    have hl := fun u hu => hwf.lt (v := u) (List.mem_of_getElem? he) hu
    have hc : cnt i = e.countP fun v => decide (v ∈ W) := count_grown hwf hG.nodup he
    have hne : ∃ u, u ∈ e := by
      rcases hwf.cases he with ⟨a, rfl⟩ | ⟨a, b, rfl, _⟩
      · exact ⟨a, by simp⟩
      · exact ⟨a, by simp⟩
    have h2 := (h.val i hi).2
    have hn' : 2 ≤ N i + cnt i := by simp only [hN'] at hn; omega
    by_cases hd : N i = 2
    · obtain ⟨u, hu⟩ := hne
      have := ((h.done i hi hd).mono Y hwf hle).seg e p he hp u hu
      exact .inl ⟨u, hu, this⟩
    -- the near segments of the ends
    by_cases h1 : N i = 1
    · obtain ⟨u0, hu0, hnear⟩ := h.half i e p he h1 hp
      have hpos : 0 < e.countP fun v => decide (v ∈ W) := by omega
      obtain ⟨u1, hu1, hw1⟩ := List.countP_pos_iff.1 hpos
      have hw1 := of_decide_eq_true hw1
      have hmono := (hle.sub u0 (hl u0 hu0)).seg
      by_cases heq : u0 = u1
      · subst heq
        left
        refine ⟨u0, hu0, ?_⟩
        rcases hnear with ⟨_, hs⟩ | ⟨_, hs⟩
        · exact ⟨hmono _ hs, (hsegs u0 hw1 _ hs.right).1⟩
        · exact ⟨by simpa using (hsegs u0 hw1 _ hs.left).2, hmono _ hs⟩
      · right
        obtain ⟨o1, o2⟩ := hown u1 hw1
        have key : (((S1.at u0).Seg p ∧ (S1.at u1).Seg (p + 1)) ∨ ((S1.at u1).Seg p ∧ (S1.at u0).Seg (p + 1))) := by
          have hcr : (Y.pos u0 = p ∧ Y.pos u1 = p + 2) ∨ (Y.pos u1 = p ∧ Y.pos u0 = p + 2) := by
            rcases hwf.cases he with ⟨a, rfl⟩ | ⟨a, b, rfl, _⟩
            · simp only [List.mem_singleton] at hu0 hu1; exact absurd (hu0.trans hu1.symm) heq
            · simp only [List.mem_cons, List.not_mem_nil, or_false] at hu0 hu1
              rcases hu0 with rfl | rfl <;> rcases hu1 with rfl | rfl
              · exact absurd rfl heq
              · exact Y.cross i _ _ p he hp
              · exact (Y.cross i _ _ p he hp).symm
              · exact absurd rfl heq
          have e2 : p + 2 - 1 = p + 1 := by ring
          rcases hnear with ⟨hq, hs⟩ | ⟨hq, hs⟩ <;> rcases hcr with ⟨c1, c2⟩ | ⟨c1, c2⟩
          · rw [c2, e2] at o2; exact .inl ⟨hmono _ hs, o2⟩
          · have : Y.pos u1 = p + 2 := by rw [c1, ← c2, hq]
            rw [this, e2] at o2; exact .inl ⟨hmono _ hs, o2⟩
          · have : Y.pos u1 = p := by rw [c2, ← hq, c1]
            rw [this] at o1; exact .inr ⟨o1, hmono _ hs⟩
          · rw [c1] at o1; exact .inr ⟨o1, hmono _ hs⟩
        rcases hwf.cases he with ⟨a, rfl⟩ | ⟨a, b, rfl, _⟩
        · simp only [List.mem_singleton] at hu0 hu1; exact absurd (hu0.trans hu1.symm) heq
        · simp only [List.mem_cons, List.not_mem_nil, or_false] at hu0 hu1
          rcases hu0 with rfl | rfl <;> rcases hu1 with rfl | rfl
          · exact absurd rfl heq
          · exact ⟨_, _, rfl, key⟩
          · exact ⟨_, _, rfl, key.symm⟩
          · exact absurd rfl heq
    · have hc2 : 2 ≤ e.countP fun v => decide (v ∈ W) := by omega
      right
      rcases hwf.cases he with ⟨a, rfl⟩ | ⟨a, b, rfl, _⟩
      · have := List.countP_le_length (p := fun v => decide (v ∈ W)) (l := [a])
        simp only [List.length_singleton] at this; omega
      · have hab : a ∈ W ∧ b ∈ W := by
          simp only [List.countP_cons, List.countP_nil, decide_eq_true_eq] at hc2
          split at hc2 <;> split at hc2 <;> first | omega | exact ⟨‹_›, ‹_›⟩
        refine ⟨a, b, rfl, ?_⟩
        have e2 : p + 2 - 1 = p + 1 := by ring
        rcases Y.cross i a b p he hp with ⟨c1, c2⟩ | ⟨c1, c2⟩
        · have o1 := (hown a hab.1).1
          have o2 := (hown b hab.2).2
          rw [c1] at o1; rw [c2, e2] at o2; exact .inl ⟨o1, o2⟩
        · have o1 := (hown b hab.2).1
          have o2 := (hown a hab.1).2
          rw [c1] at o1; rw [c2, e2] at o2; exact .inr ⟨o1, o2⟩
  obtain ⟨S2, hle2, hin, htot⟩ := joinAll Y hwf ((List.range g.edges.length).filter fun i => N' i = 2) S1 hP1 (fun i hi => by
    rw [List.mem_filter, List.mem_range] at hi
    exact hready i hi.1 (by simpa using hi.2))
  refine ⟨N', S2, hval, hP1.mono Y hle2, fun i hi hn => hin i (List.mem_filter.2 ⟨List.mem_range.2 hi, by simpa using hn⟩), ?_, ?_, ?_⟩
  · intro i e p he hn hp
    have hi := (List.getElem?_eq_some_iff.1 he).1
    have hl := fun u hu => hwf.lt (v := u) (List.mem_of_getElem? he) hu
    have hc : cnt i = e.countP fun v => decide (v ∈ W) := count_grown hwf hG.nodup he
    have hn' : N i + cnt i = 1 := by simp only [hN'] at hn; omega
    by_cases h1 : N i = 1
    · obtain ⟨u, hu, hq⟩ := h.half i e p he h1 hp
      have hmono := ((hle.trans hle2).sub u (hl u hu)).seg
      exact ⟨u, hu, hq.imp (fun a => ⟨a.1, hmono _ a.2⟩) (fun a => ⟨a.1, hmono _ a.2⟩)⟩
    · have hpos : 0 < e.countP fun v => decide (v ∈ W) := by omega
      obtain ⟨u, hu, hw⟩ := List.countP_pos_iff.1 hpos
      have hw := of_decide_eq_true hw
      obtain ⟨o1, o2⟩ := hown u hw
      have hmono := (hle2.sub u (hl u hu)).seg
      refine ⟨u, hu, ?_⟩
      rcases Y.ends hwf he hp hu with c | c
      · rw [c] at o1; exact .inl ⟨c, hmono _ o1⟩
      · rw [c, show p + 2 - 1 = p + 1 by ring] at o2; exact .inr ⟨c, hmono _ o2⟩
  · intro i hi
    have := h.ers i hi
    simp only [hN']; omega
  · -- the bound
    have hsum1 : S1.total g.n ≤ S.total g.n + 2 * grown.card := by
      have hsub : grown ⊆ Finset.range g.n := by
        intro l hl
        simp only [hgrown, List.mem_toFinset, List.mem_map] at hl
        obtain ⟨v, hv, rfl⟩ := hl
        exact Finset.mem_range.2 (h.placed.lt v (hG.lt v hv))
      have : ∀ l ∈ Finset.range g.n, (S1.arc l).len = (S.arc l).len + if l ∈ grown then 2 else 0 := by
        intro l _
        show (if l ∈ grown then (S.arc l).grow else S.arc l).len = _
        split <;> rfl
      unfold Labels.total
      rw [Finset.sum_congr rfl this, Finset.sum_add_distrib, ← Finset.sum_filter, Finset.sum_const, smul_eq_mul, Finset.filter_mem_eq_inter,
        Finset.inter_eq_right.2 hsub]
      omega
    -- the grown labels have errors
    set T : Finset (Nat × Nat) := ((errEdges g x er).filter fun i => N i ≠ 2).sigma (fun i => ((g.edges.getD i []).filter fun v => decide (v ∈ W)).toFinset)
      |>.map ⟨fun a => (a.1, a.2), fun a b hab => by cases a; cases b; simp only [Prod.mk.injEq] at hab; obtain ⟨rfl, rfl⟩ := hab; rfl⟩ with hT
    have hmemT : ∀ i u e, g.edges[i]? = some e → x i = true → N i ≠ 2 → u ∈ e → u ∈ W → (i, u) ∈ T := by
      intro i u e he hxi hn hu hw
      have hi := (List.getElem?_eq_some_iff.1 he).1
      simp only [hT, Finset.mem_map, Finset.mem_sigma, Finset.mem_filter, errEdges, Finset.mem_range, List.mem_toFinset, List.mem_filter,
        decide_eq_true_eq]
      refine ⟨⟨i, u⟩, ⟨⟨⟨hi, hxi, fun hier => hn (h.ers i hier)⟩, hn⟩, ?_, hw⟩, rfl⟩
      rw [List.getD_eq_getElem?_getD, he]; exact hu
    have hcard : grown.card ≤ T.card := by
      have : grown ⊆ T.image fun a => S.lab a.2 := by
        intro l hl
        simp only [hgrown, List.mem_toFinset, List.mem_map] at hl
        obtain ⟨v, hv, rfl⟩ := hl
        obtain ⟨i, e, u, he, hxi, hn, hu, hw, hj⟩ := hG.error hwf hx hv
        have hi := (List.getElem?_eq_some_iff.1 he).1
        refine Finset.mem_image.2 ⟨(i, u), hmemT i u e he hxi (fun hc => hn ((h.doneG Y x er hm hi).2 hc)) hu hw, ?_⟩
        exact (h.joined Y x er hwf hm hj).symm
      exact (Finset.card_le_card this).trans Finset.card_image_le
    have hTc : T.card ≤ ∑ i ∈ (errEdges g x er).filter (fun i => N i ≠ 2), cnt i := by
      rw [hT, Finset.card_map, Finset.card_sigma]
      refine Finset.sum_le_sum fun i hi => ?_
      have hil := Finset.mem_range.1 (Finset.mem_filter.1 (Finset.mem_filter.1 hi).1).1
      have he := List.getElem?_eq_getElem hil
      have hc : cnt i = (g.edges[i]).countP fun v => decide (v ∈ W) := count_grown hwf hG.nodup he
      rw [hc, List.countP_eq_length_filter, List.getD_eq_getElem?_getD, he]
      exact List.toFinset_card_le _
    have hpay : ∑ i ∈ errEdges g x er, paid (N i) + 2 * ∑ i ∈ (errEdges g x er).filter (fun i => N i ≠ 2), cnt i ≤ ∑ i ∈ errEdges g x er, paid (N' i) := by
      rw [Finset.sum_filter, Finset.mul_sum, ← Finset.sum_add_distrib]
      refine Finset.sum_le_sum fun i hi => ?_
      have hil := Finset.mem_range.1 (Finset.mem_filter.1 hi).1
      have he := List.getElem?_eq_getElem hil
      have hc : cnt i = (g.edges[i]).countP fun v => decide (v ∈ W) := count_grown hwf hG.nodup he
      have hc2 : cnt i ≤ 2 := by
        rw [hc]
        refine List.countP_le_length.trans ?_
        rcases hwf.cases he with ⟨a, h0⟩ | ⟨a, b, h0, _⟩ <;> simp [h0]
      have h2 := (h.val i hil).2
      show paid (N i) + 2 * (if N i ≠ 2 then cnt i else 0) ≤ paid (min 2 (N i + cnt i))
      generalize cnt i = c at hc2
      generalize N i = k at h2
      clear hc he hil hi
      interval_cases k <;> interval_cases c <;> decide
    have hb := h.bound
    omega

/-! ## The result -/

/-- The lines that are crossed by selected edges or by errors. -/
def crossed (sel : Nat → Prop) : Set P := {p | ∃ i < g.edges.length, (sel i ∨ x i = true) ∧ Y.seg i = some p}

theorem Reach.start (hwf : EdgesWf g.n g.edges) (hm : ∀ i, g.maxGrowth i = 2) {G : Nat → ℚ}
    (h : ∀ i, i < g.edges.length → (G i = 0 ∧ i ∉ er) ∨ (G i = g.maxGrowth i ∧ i ∈ er)) : ∃ N S, Reach Y x er G N S := by
  classical
  have hP : Placed Y (⟨fun v => v, fun v => ⟨Y.pos v, 0⟩⟩ : Labels P) := ⟨fun _ hv => hv, fun v _ => ⟨0, le_rfl, by simp [Labels.at]⟩⟩
  obtain ⟨S, h1, h2, h3⟩ := eraseAll Y hwf er _ hP
  refine ⟨fun i => if i ∈ er then 2 else 0, S, fun i hi => ?_, hP.mono Y h1, fun i _ hn => h2 i ?_, fun i e p _ hn => ?_, fun i hi => if_pos hi, ?_⟩
  · rcases h i hi with ⟨h4, h5⟩ | ⟨h4, h5⟩
    · simp [h4, h5]
    · simp [h4, h5, hm]
  · by_contra hc
    simp [hc] at hn
  · exfalso
    by_cases hc : i ∈ er <;> simp [hc] at hn
  · have : (⟨fun v => v, fun v => ⟨Y.pos v, 0⟩⟩ : Labels P).total g.n = 0 := by simp [Labels.total]
    omega

/-- The segments of all arcs. -/
theorem Labels.segs (S : Labels P) (n : Nat) : ∃ F : Finset P, F.card ≤ S.total n ∧ ∀ l < n, ∀ p, (S.arc l).Seg p → p ∈ F := by
  classical
  refine ⟨(Finset.range n).biUnion fun l => (Finset.range (S.arc l).len).image fun k : Nat => (S.arc l).a + (k : P), ?_, ?_⟩
  · refine Finset.card_biUnion_le.trans (Finset.sum_le_sum fun l _ => ?_)
    exact Finset.card_image_le.trans (by rw [Finset.card_range])
  · rintro l hl p ⟨k, hk, rfl⟩
    exact Finset.mem_biUnion.2 ⟨l, Finset.mem_range.2 hl, Finset.mem_image.2 ⟨k, Finset.mem_range.2 hk, rfl⟩⟩

/-- The complete edges and the errors together do not cross more lines than three times the number of errors and the number of erased
edges. -/
theorem Reach.lines {G : Nat → ℚ} {N : Nat → Nat} {S : Labels P} (hwf : EdgesWf g.n g.edges) (hm : ∀ i, g.maxGrowth i = 2)
    (hodd : ∀ i j p q, Y.seg i = some p → Y.seg j = some q → p ≠ q + 1) (h : Reach Y x er G N S) :
    (crossed Y x (DoneG g G)).Finite ∧ (crossed Y x (DoneG g G)).ncard ≤ 3 * (errEdges g x er).card + er.length := by
  classical
  obtain ⟨F, hF, hFm⟩ := S.segs g.n
  set A : Finset P := ((Finset.range g.edges.length).filter fun i => N i = 2).biUnion fun i => (Y.seg i).toFinset with hA
  set B : Finset P := ((errEdges g x er).filter fun i => N i ≠ 2).biUnion fun i => (Y.seg i).toFinset with hB
  have hsub : crossed Y x (DoneG g G) ⊆ ((A ∪ B : Finset P) : Set P) := by
    rintro p ⟨i, hi, hs, hp⟩
    by_cases hn : N i = 2
    · exact Finset.mem_coe.2 (Finset.mem_union_left _ (Finset.mem_biUnion.2 ⟨i, Finset.mem_filter.2 ⟨Finset.mem_range.2 hi, hn⟩, by simp [hp]⟩))
    · rcases hs with hs | hs
      · exact absurd ((h.doneG Y x er hm hi).1 hs) hn
      · refine Finset.mem_coe.2 (Finset.mem_union_right _ (Finset.mem_biUnion.2 ⟨i, Finset.mem_filter.2 ⟨Finset.mem_filter.2 ⟨Finset.mem_range.2 hi, hs, fun hc => hn (h.ers i hc)⟩, hn⟩, by simp [hp]⟩))
  have hAF : 2 * A.card ≤ F.card := by
    have hAmem : ∀ p ∈ A, ∃ i, i < g.edges.length ∧ Y.seg i = some p ∧ p ∈ F ∧ p + 1 ∈ F := by
      intro p hp
      obtain ⟨i, hi, hip⟩ := Finset.mem_biUnion.1 hp
      rw [Finset.mem_filter, Finset.mem_range] at hi
      have hip : Y.seg i = some p := by simpa using hip
      have he := List.getElem?_eq_getElem hi.1
      generalize g.edges[i] = e at he
      obtain ⟨u, hu⟩ : ∃ u, u ∈ e := by
        rcases hwf.cases he with ⟨a, rfl⟩ | ⟨a, b, rfl, _⟩
        · exact ⟨a, by simp⟩
        · exact ⟨a, by simp⟩
      have hul := h.placed.lt u (hwf.lt (List.mem_of_getElem? he) hu)
      obtain ⟨h1, h2⟩ := (h.done i hi.1 hi.2).seg e p he hip u hu
      exact ⟨i, hi.1, hip, hFm _ hul _ h1, hFm _ hul _ h2⟩
    have hinj : (A.image fun p => p + 1).card = A.card := Finset.card_image_of_injective _ (add_left_injective 1)
    have hdis : Disjoint A (A.image fun p => p + 1) := by
      rw [Finset.disjoint_left]
      intro p hp hp'
      obtain ⟨q, hq, rfl⟩ := Finset.mem_image.1 hp'
      obtain ⟨i, _, h1, _⟩ := hAmem _ hp
      obtain ⟨j, _, h2, _⟩ := hAmem _ hq
      exact hodd i j _ _ h1 h2 rfl
    have : (A ∪ A.image fun p => p + 1) ⊆ F := by
      intro p hp
      rcases Finset.mem_union.1 hp with hp | hp
      · exact (hAmem p hp).choose_spec.2.2.1
      · obtain ⟨q, hq, rfl⟩ := Finset.mem_image.1 hp
        exact (hAmem q hq).choose_spec.2.2.2
    have := Finset.card_le_card this
    rw [Finset.card_union_of_disjoint hdis, hinj] at this
    omega
  have hBc : B.card ≤ ((errEdges g x er).filter fun i => N i ≠ 2).card := by
    refine Finset.card_biUnion_le.trans ?_
    rw [Finset.card_eq_sum_ones]
    exact Finset.sum_le_sum fun i _ => by cases Y.seg i <;> simp
  have hpay : ∑ i ∈ errEdges g x er, paid (N i) + 2 * ((errEdges g x er).filter fun i => N i ≠ 2).card ≤ 6 * (errEdges g x er).card := by
    rw [Finset.card_filter, Finset.mul_sum, ← Finset.sum_add_distrib, Finset.card_eq_sum_ones, Finset.mul_sum]
    refine Finset.sum_le_sum fun i hi => ?_
    have h2 := (h.val i (Finset.mem_range.1 (Finset.mem_filter.1 hi).1)).2
    generalize N i = k at h2
    clear hi
    interval_cases k <;> decide
  refine ⟨(Finset.finite_toSet _).subset hsub, ?_⟩
  have h1 := Set.ncard_le_ncard hsub (Finset.finite_toSet _)
  rw [Set.ncard_coe_finset] at h1
  have h2 := Finset.card_union_le A B
  have h3 := h.bound
  omega

/-- Union find without weights: what it selects, together with the errors, does not cross more lines than three times the number of errors and
the number of erased edges. -/
theorem unionFind_lines (hwf : EdgesWf g.n g.edges) (hm : ∀ i, g.maxGrowth i = 2) (hinc : ∀ i, g.increment i = 1)
    (her : ∀ i ∈ er, i < g.edges.length) {syn : List Bool} (hlen : syn.length = g.n) (hx : ∀ v < g.n, bd g.edges x v = syn.getD v false)
    (hodd : ∀ i j p q, Y.seg i = some p → Y.seg j = some q → p ≠ q + 1) {sel : List Nat} (hs : g.unionFind er syn = .ok sel) :
    (crossed Y x (· ∈ sel)).Finite ∧ (crossed Y x (· ∈ sel)).ncard ≤ 3 * (errEdges g x er).card + er.length := by
  rcases unionFind_spec hwf (fun i _ => by rw [hm]; norm_num) (fun i _ => by rw [hinc]; norm_num) her hlen with ⟨sel', h1, _, _, _, h2⟩ | ⟨h1, _⟩
  · rw [hs] at h1
    cases h1
    obtain ⟨G, ⟨N, S, hR⟩, h3⟩ := h2 (fun G => ∃ N S, Reach Y x er G N S) (fun G G' W ⟨N, S, h⟩ hG => h.step Y x er hwf hm hinc hx hG)
      (fun G hG => Reach.start Y x er hwf hm hG)
    have : (fun i => i ∈ sel) = DoneG g G := funext fun i => propext (h3 i)
    rw [this]
    exact hR.lines Y x er hwf hm hodd
  · rw [hs] at h1; cases h1

end Plaquette
