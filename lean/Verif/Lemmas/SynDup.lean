import Verif.Lemmas.Syngraph

/-!
# Lemmas on the disabling of edges
-/

namespace Plaquette
variable {W : Type}

/-- Some edges have been disabled. -/
structure Weaker (es es' : List (SEdge W)) : Prop where
  shape : shape es' = shape es
  weight : ∀ i, weightAt es' i = weightAt es i
  enabled : ∀ i, enabledAt es' i = true → enabledAt es i = true

theorem Weaker.refl (es : List (SEdge W)) : Weaker es es := ⟨rfl, fun _ => rfl, fun _ h => h⟩

theorem Weaker.trans {a b c : List (SEdge W)} (h : Weaker a b) (h' : Weaker b c) : Weaker a c :=
  ⟨h'.shape.trans h.shape, fun i => (h'.weight i).trans (h.weight i), fun i hi => h.enabled i (h'.enabled i hi)⟩

theorem Weaker.verts {es es' : List (SEdge W)} (h : Weaker es es') (i : Nat) : vertsAt es' i = vertsAt es i :=
  shape_vertsAt h.shape i

theorem Weaker.len {es es' : List (SEdge W)} (h : Weaker es es') : es'.length = es.length := by
  rw [← shape_len, h.shape, shape_len]

theorem enabledAt_disable (es : List (SEdge W)) (i j : Nat) :
    enabledAt (disableEdge es i) j = (enabledAt es j && decide (j ≠ i)) := by
  simp only [enabledAt, disableEdge, List.getElem?_modify]
  cases es[j]? with
  | none => rfl
  | some e =>
    by_cases h : i = j
    · simp [h]
    · simp [h, Ne.symm h]

theorem weightAt_disable (es : List (SEdge W)) (i j : Nat) : weightAt (disableEdge es i) j = weightAt es j := by
  simp only [weightAt, disableEdge, List.getElem?_modify]
  cases es[j]? with
  | none => rfl
  | some e => by_cases h : i = j <;> simp [h]

theorem weaker_disable (es : List (SEdge W)) (i : Nat) : Weaker es (disableEdge es i) :=
  ⟨disableEdge_shape es i, weightAt_disable es i, fun j h => by rw [enabledAt_disable] at h; simp at h; exact h.1⟩

theorem weaker_foldl (l : List Nat) (es : List (SEdge W)) : Weaker es (l.foldl disableEdge es) := by
  induction l generalizing es with
  | nil => exact .refl es
  | cons i l ih => exact (weaker_disable es i).trans (ih _)

theorem enabledAt_foldl (l : List Nat) (es : List (SEdge W)) (j : Nat) :
    enabledAt (l.foldl disableEdge es) j = (enabledAt es j && decide (j ∉ l)) := by
  induction l generalizing es with
  | nil => simp
  | cons i l ih =>
    rw [List.foldl_cons, ih, enabledAt_disable]
    simp only [List.mem_cons, not_or, Bool.decide_and, Bool.and_assoc]

section
variable [LinearOrder W]

/-- Edge `i` is preferred to edge `j`: lighter, or of the same weight (or both without weight) and earlier. -/
def Prec (es : List (SEdge W)) (i j : Nat) : Prop :=
  match weightAt es i, weightAt es j with
  | some a, some b => a < b ∨ (a = b ∧ i < j)
  | none, none => i < j
  | _, _ => False

theorem Prec.asymm {es : List (SEdge W)} {i j : Nat} (h : Prec es i j) : ¬ Prec es j i := by
  unfold Prec at *
  cases hi : weightAt es i <;> cases hj : weightAt es j <;> rw [hi, hj] at h <;> simp only at h ⊢
  · omega
  · rintro (h' | h')
    · rcases h with h | h
      · exact absurd h' (lt_asymm h)
      · rw [h.1] at h'; exact lt_irrefl _ h'
    · rcases h with h | h
      · rw [h'.1] at h; exact lt_irrefl _ h
      · omega
  
theorem prec_congr {es es' : List (SEdge W)} (h : ∀ i, weightAt es' i = weightAt es i) (i j : Nat) : Prec es' i j ↔ Prec es i j := by
  unfold Prec
  rw [h, h]

theorem prec_trans {es : List (SEdge W)} {i j k : Nat} (h : Prec es i j) (h' : Prec es j k) : Prec es i k := by
  unfold Prec at *
  cases hi : weightAt es i <;> cases hj : weightAt es j <;> cases hk : weightAt es k <;> rw [hi, hj] at h <;> rw [hj, hk] at h' <;>
    simp only at h h' ⊢
  · omega
  · rcases h with h | h <;> rcases h' with h' | h'
    · exact .inl (h.trans h')
    · exact .inl (h'.1 ▸ h)
    · exact .inl (h.1 ▸ h')
    · exact .inr ⟨h.1.trans h'.1, by omega⟩

theorem lightest_spec {es : List (SEdge W)} {i : Nat} {l : List Nat} (hs : (i :: l).Pairwise (· < ·))
    (hw : ∀ j ∈ i :: l, (weightAt es j).isSome) :
    lightest es i l ∈ i :: l ∧ ∀ j ∈ i :: l, j ≠ lightest es i l → Prec es (lightest es i l) j := by
  induction l generalizing i with
  | nil => simp [lightest]
  | cons j l ih =>
    obtain ⟨a, ha⟩ := Option.isSome_iff_exists.mp (hw i (.head _))
    obtain ⟨b, hb⟩ := Option.isSome_iff_exists.mp (hw j (.tail _ (.head _)))
    rw [List.pairwise_cons, List.pairwise_cons] at hs
    have hij := hs.1 j (.head _)
    unfold lightest
    rw [ha, hb]
    dsimp only
    by_cases hba : b < a
    · rw [if_pos hba]
      obtain ⟨h1, h2⟩ := ih (i := j) (List.pairwise_cons.mpr hs.2) fun k hk => hw k (.tail _ hk)
      refine ⟨.tail _ h1, fun k hk hne => ?_⟩
      have hji : Prec es j i := by unfold Prec; rw [ha, hb]; exact .inl hba
      rcases List.mem_cons.mp hk with rfl | hk
      · by_cases hj : j = lightest es j l
        · rw [← hj]; exact hji
        · exact prec_trans (h2 j (.head _) hj) hji
      · exact h2 k hk hne
    · rw [if_neg hba]
      obtain ⟨h1, h2⟩ := ih (i := i) (List.pairwise_cons.mpr ⟨fun k hk => hs.1 k (.tail _ hk), hs.2.2⟩) fun k hk =>
        hw k (by rcases List.mem_cons.mp hk with rfl | hk; exacts [.head _, .tail _ (.tail _ hk)])
      refine ⟨by rcases List.mem_cons.mp h1 with h | h; exacts [by rw [h]; exact .head _, .tail _ (.tail _ h)], fun k hk hne => ?_⟩
      have hpij : Prec es i j := by
        unfold Prec; rw [ha, hb]
        rcases lt_or_eq_of_le (not_lt.mp hba) with h | h
        · exact .inl h
        · exact .inr ⟨h, hij⟩
      rcases List.mem_cons.mp hk with rfl | hk
      · exact h2 k (.head _) hne
      · rcases List.mem_cons.mp hk with rfl | hk
        · by_cases hi : i = lightest es i l
          · rw [← hi]; exact hpij
          · exact prec_trans (h2 i (.head _) hi) hpij
        · exact h2 k (.tail _ hk) hne

theorem selectLightest_spec {es es' : List (SEdge W)} {G : List Nat} (hs : G.Pairwise (· < ·)) (h : selectLightest es G = .ok es') :
    ∃ b ∈ G, (∀ j ∈ G, j ≠ b → Prec es b j) ∧ (∀ i ∈ G, ∀ j ∈ G, i ≠ j → Prec es i j ∨ Prec es j i) ∧
      es' = (G.filter (· ≠ b)).foldl disableEdge es := by
  unfold selectLightest at h
  match G with
  | [] => cases h
  | i :: l =>
    dsimp only at h
    split at h
    · rename_i hany
      split at h
      · rename_i hall
        simp only [Except.ok.injEq] at h
        have hN : ∀ j ∈ i :: l, weightAt es j = none := fun j hj => by simpa using List.all_eq_true.mp hall j hj
        refine ⟨i, .head _, fun j hj hne => ?_, fun a ha b hb hab => ?_, h.symm⟩
        rotate_left
        · unfold Prec
          rw [hN a ha, hN b hb]
          exact Nat.lt_or_gt_of_ne hab
        unfold Prec
        rw [hN i (.head _), hN j hj]
        rcases List.mem_cons.mp hj with rfl | hj
        · exact absurd rfl hne
        · exact (List.pairwise_cons.mp hs).1 j hj
      · cases h
    · rename_i hany
      simp only [Except.ok.injEq] at h
      have hS : ∀ j ∈ i :: l, (weightAt es j).isSome := fun j hj => by
        by_contra hc
        exact hany (List.any_eq_true.mpr ⟨j, hj, by simpa using hc⟩)
      obtain ⟨h1, h2⟩ := lightest_spec hs hS
      refine ⟨_, h1, h2, fun a ha b hb hab => ?_, h.symm⟩
      obtain ⟨x, hx⟩ := Option.isSome_iff_exists.mp (hS a ha)
      obtain ⟨y, hy⟩ := Option.isSome_iff_exists.mp (hS b hb)
      unfold Prec
      rw [hx, hy]
      rcases lt_trichotomy x y with h | h | h
      · exact .inl (.inl h)
      · rcases Nat.lt_or_gt_of_ne hab with h' | h'
        · exact .inl (.inr ⟨h, h'⟩)
        · exact .inr (.inr ⟨h.symm, h'⟩)
      · exact .inr (.inl h)

end

/-! ### The dictionary of parallel edges -/

/-- The dictionary after the edges of the list. -/
structure DictOk (key : Nat → List Nat) (l : List Nat) (d : List (List Nat × List Nat)) : Prop where
  group : ∀ g ∈ d, g.2 = l.filter fun i => key i = g.1
  cover : ∀ i ∈ l, ∃ g ∈ d, g.1 = key i
  ne : ∀ g ∈ d, g.2 ≠ []

theorem dictAppend_ok {key : Nat → List Nat} {l : List Nat} {d : List (List Nat × List Nat)} (h : DictOk key l d) (i : Nat) :
    DictOk key (l ++ [i]) (dictAppend d (key i) i) := by
  unfold dictAppend
  by_cases hk : (d.any fun g => g.1 = key i) = true
  · rw [if_pos hk]
    obtain ⟨g0, hg0, hk0⟩ := List.any_eq_true.mp hk
    simp only [decide_eq_true_eq] at hk0
    constructor
    · intro g hg
      obtain ⟨g', hg', rfl⟩ := List.mem_map.mp hg
      by_cases hgk : g'.1 = key i
      · rw [if_pos hgk, List.filter_append, ← h.group g' hg']
        simp [hgk]
      · rw [if_neg hgk, List.filter_append, ← h.group g' hg']
        simp [Ne.symm hgk]
    · intro j hj
      have hex : ∃ g ∈ d, g.1 = key j := by
        rcases List.mem_append.mp hj with hj | hj
        · exact h.cover j hj
        · rw [List.mem_singleton.mp hj]; exact ⟨g0, hg0, hk0⟩
      obtain ⟨g, hg, hgk⟩ := hex
      refine ⟨_, List.mem_map.mpr ⟨g, hg, rfl⟩, ?_⟩
      split <;> exact hgk
    · intro g hg
      obtain ⟨g', hg', rfl⟩ := List.mem_map.mp hg
      split
      · simp
      · exact h.ne g' hg'
  · rw [if_neg hk]
    have hno : ∀ g ∈ d, g.1 ≠ key i := fun g hg hc => hk (List.any_eq_true.mpr ⟨g, hg, by simpa using hc⟩)
    constructor
    · intro g hg
      rcases List.mem_append.mp hg with hg | hg
      · rw [List.filter_append, ← h.group g hg]
        simp [Ne.symm (hno g hg)]
      · rw [List.mem_singleton.mp hg, List.filter_append]
        have : (l.filter fun j => key j = key i) = [] := by
          rw [List.filter_eq_nil_iff]
          intro j hj hc
          obtain ⟨g, hg, hgk⟩ := h.cover j hj
          exact hno g hg (hgk.trans (by simpa using hc))
        rw [this]
        simp
    · intro j hj
      rcases List.mem_append.mp hj with hj | hj
      · obtain ⟨g, hg, hgk⟩ := h.cover j hj
        exact ⟨g, List.mem_append_left _ hg, hgk⟩
      · rw [List.mem_singleton.mp hj]
        exact ⟨_, List.mem_append_right _ (.head _), rfl⟩
    · intro g hg
      rcases List.mem_append.mp hg with hg | hg
      · exact h.ne g hg
      · rw [List.mem_singleton.mp hg]; simp

/-! ### Duplicates -/

theorem edgesAt_eq (es : List (SEdge W)) (v : Nat) :
    edgesAt es v = (List.range es.length).filter fun i => decide (v ∈ vertsAt es i) := by
  unfold edgesAt vertsAt
  apply List.filter_congr
  intro i hi
  rw [List.getElem?_eq_getElem (List.mem_range.mp hi)]
  simp

theorem mem_edgesAt {es : List (SEdge W)} {v i : Nat} : i ∈ edgesAt es v ↔ v ∈ vertsAt es i := by
  unfold edgesAt vertsAt
  rw [List.mem_filter, List.mem_range]
  cases h : es[i]? with
  | none => simp
  | some e =>
    have := (List.getElem?_eq_some_iff.mp h).1
    simp [this]

theorem edgesAt_sorted (es : List (SEdge W)) (v : Nat) : (edgesAt es v).Pairwise (· < ·) :=
  List.Pairwise.filter _ List.pairwise_lt_range

theorem vertsAt_lt {es : List (SEdge W)} {v i : Nat} (h : v ∈ vertsAt es i) : i < es.length := by
  unfold vertsAt at h
  cases hi : es[i]? with
  | none => rw [hi] at h; simp at h
  | some e => exact (List.getElem?_eq_some_iff.mp hi).1

variable [LinearOrder W]

/-- No parallel edge is preferred. -/
def Best (es : List (SEdge W)) (i : Nat) : Prop := ∀ j, vertsAt es j = vertsAt es i → j ≠ i → Prec es i j

/-- One of the parallel edges is preferred, and the other one disabled. -/
def DupDone (es0 es : List (SEdge W)) (i j : Nat) : Prop :=
  (Prec es0 i j ∨ Prec es0 j i) ∧ (¬ Prec es0 i j → enabledAt es i = false)

theorem DupDone.mono {es0 es es' : List (SEdge W)} {i j : Nat} (h : DupDone es0 es i j)
    (hm : ∀ i, enabledAt es' i = true → enabledAt es i = true) : DupDone es0 es' i j := by
  refine ⟨h.1, fun hn => ?_⟩
  by_contra hc
  have := h.2 hn
  rw [hm i (by simpa using hc)] at this
  cases this

/-- Nothing but parallel edges has been disabled. -/
structure DupInv (es0 es : List (SEdge W)) : Prop where
  weaker : Weaker es0 es
  keeps : ∀ i, enabledAt es0 i = true → (Best es0 i ∨ vertsAt es0 i = []) → enabledAt es i = true

/-- Parallel edges: increasing indices, the same vertices (at least one). -/
structure IsGroup (es : List (SEdge W)) (key : List Nat) (G : List Nat) : Prop where
  sorted : G.Pairwise (· < ·)
  verts : ∀ i ∈ G, vertsAt es i = key
  ne : key ≠ []

theorem select_inv {es0 es es' : List (SEdge W)} {key G : List Nat} (hI : DupInv es0 es) (hG : IsGroup es0 key G)
    (h : selectLightest es G = .ok es') : DupInv es0 es' ∧ (∀ i, enabledAt es' i = true → enabledAt es i = true) ∧
      ∀ i ∈ G, ∀ j ∈ G, j ≠ i → DupDone es0 es' i j := by
  obtain ⟨b, hb, hbest, htot, rfl⟩ := selectLightest_spec hG.sorted h
  have hbest' : ∀ j ∈ G, j ≠ b → Prec es0 b j := fun j hj hne => (prec_congr hI.weaker.weight b j).mp (hbest j hj hne)
  refine ⟨⟨hI.weaker.trans (weaker_foldl _ _), fun i hi hor => ?_⟩, (weaker_foldl _ _).enabled, fun i hi j hj hne =>
    ⟨by rw [← prec_congr hI.weaker.weight, ← prec_congr hI.weaker.weight]; exact htot i hi j hj hne.symm, fun hnp => ?_⟩⟩
  · rw [enabledAt_foldl, hI.keeps i hi hor]
    simp only [Bool.true_and, decide_eq_true_eq, List.mem_filter, not_and]
    intro hiG hib
    rcases hor with hB | hE
    · exact (hbest' i hiG hib).asymm (hB b (by rw [hG.verts b hb, hG.verts i hiG]) (Ne.symm hib))
    · rw [hG.verts i hiG] at hE; exact hG.ne hE
  · rw [enabledAt_foldl]
    have hib : i ≠ b := by rintro rfl; exact hnp (hbest' j hj hne)
    have : i ∈ G.filter (· ≠ b) := List.mem_filter.mpr ⟨hi, by simpa using hib⟩
    rw [decide_eq_false (not_not.mpr this), Bool.and_false]

/-- The loop over the groups of the dictionary. -/
theorem groups_inv {es0 : List (SEdge W)} (d : List (List Nat × List Nat)) : ∀ {es es' : List (SEdge W)}, DupInv es0 es →
    (∀ g ∈ d, IsGroup es0 g.1 g.2) →
    loopE (fun es (g : List Nat × List Nat) => if g.2.length > 1 then selectLightest es g.2 else .ok es) es d = .ok es' →
    DupInv es0 es' ∧ (∀ i, enabledAt es' i = true → enabledAt es i = true) ∧
      ∀ g ∈ d, ∀ i ∈ g.2, ∀ j ∈ g.2, j ≠ i → DupDone es0 es' i j := by
  induction d with
  | nil => intro es es' hI _ h; cases h; exact ⟨hI, fun _ h => h, by simp⟩
  | cons g d ih =>
    intro es es' hI hd h
    rw [loopE_cons] at h
    by_cases hlen : g.2.length > 1
    · rw [if_pos hlen] at h
      cases hs : selectLightest es g.2 with
      | error e => rw [hs] at h; cases h
      | ok es1 =>
        rw [hs] at h
        obtain ⟨a1, a2, a3⟩ := select_inv hI (hd g (.head _)) hs
        obtain ⟨b1, b2, b3⟩ := ih a1 (fun g' hg' => hd g' (.tail _ hg')) h
        refine ⟨b1, fun i hi => a2 i (b2 i hi), fun g' hg' i hi j hj hne => ?_⟩
        rcases List.mem_cons.mp hg' with rfl | hg'
        · exact (a3 i hi j hj hne).mono b2
        · exact b3 g' hg' i hi j hj hne
    · rw [if_neg hlen] at h
      obtain ⟨b1, b2, b3⟩ := ih hI (fun g' hg' => hd g' (.tail _ hg')) h
      refine ⟨b1, b2, fun g' hg' i hi j hj hne => ?_⟩
      rcases List.mem_cons.mp hg' with rfl | hg'
      · match hg : g'.2 with
        | [] => rw [hg] at hi; cases hi
        | [a] =>
          rw [hg] at hi hj
          exact absurd ((List.mem_singleton.mp hj).trans (List.mem_singleton.mp hi).symm) hne
        | a :: b :: l => rw [hg] at hlen; simp at hlen
      · exact b3 g' hg' i hi j hj hne

theorem dict_groups {es0 : List (SEdge W)} {v : Nat} {pre post : List Nat} {d : List (List Nat × List Nat)}
    (hD' : DictOk (vertsAt es0) pre d) (hp' : pre ++ post = edgesAt es0 v) : ∀ g ∈ d, IsGroup es0 g.1 g.2 := by
  intro g hg
  have hne := hD'.ne g hg
  have hsub : g.2.Sublist (edgesAt es0 v) := by
    rw [hD'.group g hg, ← hp']
    exact List.filter_sublist.trans (List.sublist_append_left _ _)
  have hv : ∀ j ∈ g.2, vertsAt es0 j = g.1 := by
    intro j hj
    rw [hD'.group g hg] at hj
    simpa using (List.mem_filter.mp hj).2
  refine ⟨List.Pairwise.sublist hsub (edgesAt_sorted es0 v), hv, ?_⟩
  obtain ⟨j, hj⟩ := List.exists_mem_of_ne_nil _ hne
  intro hc
  have := mem_edgesAt.mp (hsub.subset hj)
  rw [hv j hj, hc] at this
  cases this

/-- The loop over the edges of a vertex. -/
theorem vertex_inv {es0 : List (SEdge W)} {v : Nat} (post : List Nat) : ∀ (pre : List Nat) {es es' : List (SEdge W)}
    {d d' : List (List Nat × List Nat)}, pre ++ post = edgesAt es0 v → DupInv es0 es → DictOk (vertsAt es0) pre d →
    (∀ i ∈ pre, ∀ j ∈ pre, vertsAt es0 j = vertsAt es0 i → j ≠ i → DupDone es0 es i j) →
    loopE dupStep (es, d) post = .ok (es', d') →
    DupInv es0 es' ∧ (∀ i, enabledAt es' i = true → enabledAt es i = true) ∧
    ∀ i ∈ edgesAt es0 v, ∀ j ∈ edgesAt es0 v, vertsAt es0 j = vertsAt es0 i → j ≠ i → DupDone es0 es' i j := by
  induction post with
  | nil =>
    intro pre es es' d d' hp hI _ hdone h
    cases h
    rw [List.append_nil] at hp
    subst hp
    exact ⟨hI, fun _ h => h, hdone⟩
  | cons i post ih =>
    intro pre es es' d d' hp hI hD _ h
    rw [loopE_cons] at h
    have hp' : (pre ++ [i]) ++ post = edgesAt es0 v := by rw [← hp]; simp
    unfold dupStep at h
    dsimp only at h
    rw [hI.weaker.verts] at h
    have hD' := dictAppend_ok hD i
    have hgr := dict_groups hD' hp'
    cases hl : loopE (fun es (g : List Nat × List Nat) => if g.2.length > 1 then selectLightest es g.2 else .ok es) es
        (dictAppend d (vertsAt es0 i) i) with
    | error e => rw [hl] at h; cases h
    | ok es1 =>
      rw [hl] at h
      obtain ⟨a1, a2, a3⟩ := groups_inv _ hI hgr hl
      obtain ⟨b1, b2, b3⟩ := ih (pre ++ [i]) hp' a1 hD' (fun k hk j hj hv hne => by
        obtain ⟨g, hg, hgk⟩ := hD'.cover k hk
        refine a3 g hg k ?_ j ?_ hne
        · rw [hD'.group g hg]; exact List.mem_filter.mpr ⟨hk, by simp [hgk]⟩
        · rw [hD'.group g hg]; exact List.mem_filter.mpr ⟨hj, by simp [hgk, hv]⟩) h
      exact ⟨b1, fun k hk => a2 k (b2 k hk), b3⟩

/-- The loop over the vertices. -/
theorem vertices_inv {es0 : List (SEdge W)} (vs : List Nat) : ∀ {es es' : List (SEdge W)}, DupInv es0 es →
    loopE (fun es v =>
      match loopE dupStep (es, []) (edgesAt es v) with
      | .error e => .error e
      | .ok st => .ok st.1) es vs = .ok es' →
    DupInv es0 es' ∧ (∀ i, enabledAt es' i = true → enabledAt es i = true) ∧
    ∀ v ∈ vs, ∀ i ∈ edgesAt es0 v, ∀ j ∈ edgesAt es0 v, vertsAt es0 j = vertsAt es0 i → j ≠ i → DupDone es0 es' i j := by
  induction vs with
  | nil => intro es es' hI h; cases h; exact ⟨hI, fun _ h => h, by simp⟩
  | cons v vs ih =>
    intro es es' hI h
    rw [loopE_cons] at h
    have he : edgesAt es v = edgesAt es0 v := by
      rw [edgesAt_eq, edgesAt_eq, hI.weaker.len]
      exact List.filter_congr fun i _ => by rw [hI.weaker.verts i]
    rw [he] at h
    cases hl : loopE dupStep (es, []) (edgesAt es0 v) with
    | error e => rw [hl] at h; cases h
    | ok st =>
      rw [hl] at h
      obtain ⟨a1, a2, a3⟩ := vertex_inv (edgesAt es0 v) [] rfl hI ⟨by simp, by simp, by simp⟩ (by simp) hl
      obtain ⟨b1, b2, b3⟩ := ih a1 h
      refine ⟨b1, fun i hi => a2 i (b2 i hi), fun w hw i hi j hj hv hne => ?_⟩
      rcases List.mem_cons.mp hw with rfl | hw
      · exact (a3 i hi j hj hv hne).mono b2
      · exact b3 w hw i hi j hj hv hne

theorem exists_prec_min {es : List (SEdge W)} (l : List Nat) (hne : l ≠ []) (ht : ∀ i ∈ l, ∀ j ∈ l, j ≠ i → Prec es i j ∨ Prec es j i) :
    ∃ b ∈ l, ∀ j ∈ l, j ≠ b → Prec es b j := by
  induction l with
  | nil => exact absurd rfl hne
  | cons i l ih =>
    by_cases hl : l = []
    · subst hl
      exact ⟨i, .head _, fun j hj h => absurd (List.mem_singleton.mp hj) h⟩
    · obtain ⟨b, hb, hb'⟩ := ih hl fun a ha c hc => ht a (.tail _ ha) c (.tail _ hc)
      by_cases hib : i = b
      · subst hib
        refine ⟨i, .head _, fun j hj hji => ?_⟩
        rcases List.mem_cons.mp hj with h | h
        · exact absurd h hji
        · exact hb' j h hji
      · rcases ht b (.tail _ hb) i (.head _) hib with h | h
        · refine ⟨b, .tail _ hb, fun j hj hjb => ?_⟩
          rcases List.mem_cons.mp hj with rfl | hj
          · exact h
          · exact hb' j hj hjb
        · refine ⟨i, .head _, fun j hj hji => ?_⟩
          rcases List.mem_cons.mp hj with hj | hj
          · exact absurd hj hji
          · by_cases hjb : j = b
            · subst hjb; exact h
            · exact prec_trans h (hb' j hj hjb)

/-- An edge that touches a vertex stays enabled exactly if no parallel edge is preferred; the other edges are not changed. -/
theorem disableDuplicates_spec {es es' : List (SEdge W)} {nV : Nat} (hv : ∀ i, ∀ v ∈ vertsAt es i, v < nV)
    (h : disableDuplicates nV es = .ok es') : Weaker es es' ∧
      (∀ i, vertsAt es i = [] → enabledAt es' i = enabledAt es i) ∧
      (∀ i, vertsAt es i ≠ [] → (enabledAt es' i = true ↔ enabledAt es i = true ∧ Best es i)) ∧
      ∀ i, vertsAt es i ≠ [] → ∃ b, vertsAt es b = vertsAt es i ∧ Best es b := by
  obtain ⟨a1, -, a3⟩ := vertices_inv _ (es0 := es) ⟨.refl es, fun _ h _ => h⟩ h
  refine ⟨a1.weaker, fun i hi => ?_, fun i hi => ⟨fun he => ⟨a1.weaker.enabled i he, fun j hj hne => ?_⟩, fun he => a1.keeps i he.1 (.inl he.2)⟩,
    fun i hi => ?_⟩
  · cases he : enabledAt es i with
    | true => exact a1.keeps i he (.inr hi)
    | false =>
      by_contra hc
      rw [a1.weaker.enabled i (by simpa using hc)] at he
      cases he
  · by_contra hnp
    obtain ⟨v, hvi⟩ := List.exists_mem_of_ne_nil _ hi
    have := (a3 v (List.mem_range.mpr (hv i v hvi)) i (mem_edgesAt.mpr hvi) j (mem_edgesAt.mpr (hj ▸ hvi)) hj hne).2 hnp
    rw [he] at this
    cases this
  · obtain ⟨v, hvi⟩ := List.exists_mem_of_ne_nil _ hi
    obtain ⟨b, hb, hb'⟩ := exists_prec_min (es := es) ((edgesAt es v).filter fun j => vertsAt es j = vertsAt es i)
      (List.ne_nil_of_mem (List.mem_filter.mpr ⟨mem_edgesAt.mpr hvi, by simp⟩)) (fun a ha c hc hne => by
        obtain ⟨a1', a2'⟩ := List.mem_filter.mp ha
        obtain ⟨c1, c2⟩ := List.mem_filter.mp hc
        simp only [decide_eq_true_eq] at a2' c2
        exact (a3 v (List.mem_range.mpr (hv i v hvi)) a a1' c c1 (c2.trans a2'.symm) hne).1)
    have hbk : vertsAt es b = vertsAt es i := by simpa using (List.mem_filter.mp hb).2
    refine ⟨b, hbk, fun j hj hjb => hb' j (List.mem_filter.mpr ⟨mem_edgesAt.mpr ?_, ?_⟩) hjb⟩
    · rw [hj, hbk]; exact hvi
    · simp [hj, hbk]

/-! ### When it does not fail -/

theorem selectLightest_total {es : List (SEdge W)} {G : List Nat} (hne : G ≠ [])
    (hu : ∀ i ∈ G, ∀ j ∈ G, (weightAt es i).isSome = (weightAt es j).isSome) : ∃ es', selectLightest es G = .ok es' := by
  unfold selectLightest
  match G with
  | [] => exact absurd rfl hne
  | i :: l =>
    dsimp only
    split
    · rename_i hany
      obtain ⟨j, hj, hjn⟩ := List.any_eq_true.mp hany
      rw [if_pos]
      · exact ⟨_, rfl⟩
      · rw [List.all_eq_true]
        intro k hk
        have := hu k hk j hj
        cases h1 : weightAt es k <;> cases h2 : weightAt es j <;> rw [h1, h2] at this <;> simp_all
    · exact ⟨_, rfl⟩

/-- Parallel edges (with a vertex) all have a weight or all have none. -/
def Unmixed (es : List (SEdge W)) : Prop :=
  ∀ i j, vertsAt es i ≠ [] → vertsAt es i = vertsAt es j → (weightAt es i).isSome = (weightAt es j).isSome

theorem groups_total {es0 : List (SEdge W)} (hu : Unmixed es0) (d : List (List Nat × List Nat)) : ∀ {es : List (SEdge W)}, DupInv es0 es →
    (∀ g ∈ d, IsGroup es0 g.1 g.2) → ∃ es',
    loopE (fun es (g : List Nat × List Nat) => if g.2.length > 1 then selectLightest es g.2 else .ok es) es d = .ok es' := by
  induction d with
  | nil => intro es _ _; exact ⟨es, rfl⟩
  | cons g d ih =>
    intro es hI hd
    rw [loopE_cons]
    by_cases hlen : g.2.length > 1
    · rw [if_pos hlen]
      obtain ⟨es1, h1⟩ := selectLightest_total (es := es) (G := g.2) (fun h => by rw [h] at hlen; simp at hlen) (fun i hi j hj => by
        rw [hI.weaker.weight, hI.weaker.weight]
        exact hu i j (by rw [(hd g (.head _)).verts i hi]; exact (hd g (.head _)).ne) (by rw [(hd g (.head _)).verts i hi, (hd g (.head _)).verts j hj]))
      rw [h1]
      exact ih (select_inv hI (hd g (.head _)) h1).1 fun g' hg' => hd g' (.tail _ hg')
    · rw [if_neg hlen]
      exact ih hI fun g' hg' => hd g' (.tail _ hg')

theorem vertex_total {es0 : List (SEdge W)} (hu : Unmixed es0) {v : Nat} (post : List Nat) : ∀ (pre : List Nat) {es : List (SEdge W)}
    {d : List (List Nat × List Nat)}, pre ++ post = edgesAt es0 v → DupInv es0 es → DictOk (vertsAt es0) pre d →
    ∃ st, loopE dupStep (es, d) post = .ok st := by
  induction post with
  | nil => intro pre es d _ _ _; exact ⟨_, rfl⟩
  | cons i post ih =>
    intro pre es d hp hI hD
    rw [loopE_cons]
    have hp' : (pre ++ [i]) ++ post = edgesAt es0 v := by rw [← hp]; simp
    unfold dupStep
    dsimp only
    rw [hI.weaker.verts]
    have hD' := dictAppend_ok hD i
    have hgr := dict_groups hD' hp'
    obtain ⟨es1, hl⟩ := groups_total hu _ hI hgr
    rw [hl]
    exact ih (pre ++ [i]) hp' (groups_inv _ hI hgr hl).1 hD'

theorem edgesAt_weaker {es es' : List (SEdge W)} (h : Weaker es es') (v : Nat) : edgesAt es' v = edgesAt es v := by
  rw [edgesAt_eq, edgesAt_eq, h.len]
  exact List.filter_congr fun i _ => by rw [h.verts i]

theorem disableDuplicates_total {es : List (SEdge W)} (hu : Unmixed es) (nV : Nat) : ∃ es', disableDuplicates nV es = .ok es' := by
  have main : ∀ (vs : List Nat) {es1 : List (SEdge W)}, DupInv es es1 → ∃ es', loopE (fun es v =>
      match loopE dupStep (es, []) (edgesAt es v) with
      | .error e => .error e
      | .ok st => .ok st.1) es1 vs = .ok es' := by
    intro vs
    induction vs with
    | nil => intro es1 _; exact ⟨_, rfl⟩
    | cons v vs ih =>
      intro es1 hI
      rw [loopE_cons, edgesAt_weaker hI.weaker]
      obtain ⟨st, hl⟩ := vertex_total hu (d := []) (edgesAt es v) [] rfl hI ⟨by simp, by simp, by simp⟩
      rw [hl]
      exact ih (vertex_inv (d' := st.2) (edgesAt es v) [] rfl hI ⟨by simp, by simp, by simp⟩ (by simp) hl).1
  exact main _ ⟨.refl es, fun _ h _ => h⟩

end Plaquette
