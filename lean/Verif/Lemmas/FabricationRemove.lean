import Verif.Spec.CssLattice
import Verif.Lemmas.FabricationTotal

/-!
# `remove_dataqubit` in lattices with one letter per operator
-/

namespace Plaquette

variable {φ : Pos → Letter → Letter}

/-! ### Moving the logical operators away -/

/-- `multiply_logical_with_stab` for a stabiliser with the letter of the operator. -/
theorem multiplyLogical_total {L : Lattice} (h : L.Css φ) {k s : Pos} (hk : L.isStab k = false) (hs : L.isStab s = true) {c0 : Letter}
    (hck : ∀ d c, L.At k d c = true → φ d c = c0) (hcs : ∀ d c, L.At s d c = true → φ d c = c0) (hkl : k ∈ L.logicals.map Prod.fst) :
    ∃ L', L.multiplyLogical k s = .ok L' ∧ L'.Css φ ∧ SameVertices L L' ∧ (∀ v, v ≠ k → ∀ d c, L'.At v d c = L.At v d c) ∧
      ∀ d c, L'.At k d c = (L.At k d c ^^ L.At s d c) := by
  have hkey := h.pre.keys
  obtain ⟨L', h1⟩ := mul_loop h.inj (k := k) (c0 := c0) (L.opEdges s) (fun e he => hcs _ _ (by
    have := at_mem hkey (mem_opEdges.1 he).1
    rwa [(mem_opEdges.1 he).2] at this)) L hkey hck
  have st := multiplyLogical_step hkey (stab := s) h1
  have atv : ∀ v, v ≠ k → ∀ d c, L'.At v d c = L.At v d c := fun v hv d c => st.at_other hv id d c
  have atk : ∀ d c, L'.At k d c = (L.At k d c ^^ L.At s d c) := fun d c => st.at d c
  have letter : ∀ d c, L'.At k d c = true → φ d c = c0 := by
    intro d c hh
    rw [atk] at hh
    cases hx : L.At k d c with
    | true => exact hck d c hx
    | false =>
      rw [hx] at hh
      exact hcs d c (by simpa using hh)
  refine ⟨L', h1, ⟨st.pre h.pre fun e he => (mem_opEdges.1 he).1, h.inj, ?_, ?_, ?_⟩, st.same, atv, atk⟩
  · intro v d d' c c' hc hc'
    by_cases hv : v = k
    · subst hv
      exact (letter d c hc).trans (letter d' c' hc').symm
    · rw [atv v hv] at hc hc'
      exact h.one v d d' c c' hc hc'
  · intro d c k1 k2 k3 s1 s2 s3 t1 t2 t3
    have ne : ∀ v, L'.isStab v = true → v ≠ k := by
      rintro v hv rfl
      rw [isStab_same st.same, hk] at hv
      cases hv
    rw [atv _ (ne _ s1)] at t1
    rw [atv _ (ne _ s2)] at t2
    rw [atv _ (ne _ s3)] at t3
    rw [isStab_same st.same] at s1 s2 s3
    exact h.two d c k1 k2 k3 s1 s2 s3 t1 t2 t3
  · intro v d c hc
    rw [isStab_same st.same, st.same.logs]
    by_cases hv : v = k
    · exact .inr (hv ▸ hkl)
    · rw [atv v hv] at hc
      exact h.ops v d c hc

/-- The group of a letter, if there is one. -/
theorem find_group {L : Lattice} {q : Pos} (c : Letter) :
    (∃ s, L.isStab s.op = true ∧ s ∈ L.edges ∧ s.data = q ∧ s.factor = c ∧ ∃ es, (L.stabGroups q).find? (fun g => g.1 = c) = some (c, s :: es)) ∨
    ((L.stabGroups q).find? (fun g => g.1 = c) = none ∧ ∀ s ∈ L.edges, s.data = q → L.isStab s.op = true → s.factor ≠ c) := by
  have hspec := stabGroups_spec L q
  cases hf : (L.stabGroups q).find? (fun g => g.1 = c) with
  | none =>
    refine .inr ⟨rfl, fun s hs hd hst hc => ?_⟩
    obtain ⟨g, hg, hsg⟩ := group_of hs hd hst
    rw [List.find?_eq_none] at hf
    exact hf g hg (by simpa using ((mem_group hg hsg).2.2.2).symm.trans hc)
  | some g =>
    left
    have hg := List.mem_of_find?_eq_some hf
    have hgc : g.1 = c := by simpa using List.find?_some hf
    obtain ⟨l, es⟩ := g
    cases es with
    | nil => exact absurd rfl (hspec.ne _ hg)
    | cons s es =>
      obtain ⟨h1, h2, h3, h4⟩ := mem_group hg (e := s) (by simp)
      simp only at hgc h4
      exact ⟨s, h3, h1, h2, h4.trans hgc, es, by rw [hgc]⟩

/-- The state while the logical operators are moved away from `q`: only the logical operators `es` are left to do. -/
structure Moving (φ : Pos → Letter → Letter) (q : Pos) (L M : Lattice) (es : List LEdge) : Prop where
  css : M.Css φ
  same : SameVertices L M
  stab : ∀ v, L.isStab v = true → ∀ d c, M.At v d c = L.At v d c
  todo : ∀ e ∈ es, e.data = q ∧ L.isStab e.op = false ∧ M.At e.op q e.factor = true
  done : ∀ v c, L.isStab v = false → M.At v q c = true → ∃ e ∈ es, e.op = v
  nodup : (es.map LEdge.op).Nodup

theorem Moving.step {q : Pos} {L M : Lattice} (hL : L.Css φ) {e : LEdge} {es : List LEdge} (h : Moving φ q L M (e :: es)) :
    (∃ s ∈ L.edges, s.data = q ∧ L.isStab s.op = true ∧ s.factor = e.factor) ∧
      (∃ M', M.clearLogical (L.stabGroups q) e = .ok M' ∧ Moving φ q L M' es) ∨
    (¬ ∃ s ∈ L.edges, s.data = q ∧ L.isStab s.op = true ∧ s.factor = e.factor) ∧
      M.clearLogical (L.stabGroups q) e = .error .valueError := by
  obtain ⟨hed, hes, hea⟩ := h.todo e (List.mem_cons_self ..)
  rcases find_group (L := L) (q := q) e.factor with ⟨s, s1, s2, s3, s4, rest, hf⟩ | ⟨hf, hno⟩
  · left
    refine ⟨⟨s, s2, s3, s1, s4⟩, ?_⟩
    have hsL : L.At s.op q e.factor = true := by
      have := at_mem hL.pre.keys s2
      rwa [s3, s4] at this
    have hsM : M.At s.op q e.factor = true := by rw [h.stab _ s1]; exact hsL
    have hkM : M.isStab e.op = false := by rw [isStab_same h.same]; exact hes
    have hkl : e.op ∈ M.logicals.map Prod.fst := by
      rcases h.css.ops e.op q e.factor hea with hx | hx
      · rw [hkM] at hx; cases hx
      · exact hx
    obtain ⟨M', h1, h2, h3, h4, h5⟩ := multiplyLogical_total h.css (k := e.op) (s := s.op) hkM (by rw [isStab_same h.same]; exact s1)
      (c0 := φ q e.factor) (fun d c hc => h.css.one _ _ _ _ _ hc hea) (fun d c hc => h.css.one _ _ _ _ _ hc hsM) hkl
    refine ⟨M', ?_, ?_⟩
    · unfold Lattice.clearLogical
      rw [hf]
      exact h1
    · have hn := h.nodup
      rw [List.map_cons, List.nodup_cons] at hn
      refine ⟨h2, h.same.trans h3, ?_, ?_, ?_, hn.2⟩
      · intro v hv d c
        rw [h4 v (by rintro rfl; rw [hes] at hv; cases hv), h.stab v hv]
      · intro x hx
        obtain ⟨x1, x2, x3⟩ := h.todo x (List.mem_cons_of_mem _ hx)
        refine ⟨x1, x2, ?_⟩
        rw [h4 x.op (fun hh => hn.1 (hh ▸ List.mem_map_of_mem hx))]
        exact x3
      · intro v c hv hat
        by_cases hve : v = e.op
        · exfalso
          subst hve
          have hc : c = e.factor := by
            rw [h5] at hat
            cases hx : M.At e.op q c with
            | true => exact h.css.inj q (h.css.one _ _ _ _ _ hx hea)
            | false =>
              rw [hx] at hat
              exact h.css.inj q (h.css.one _ _ _ _ _ (by simpa using hat) hsM)
          subst hc
          rw [h5, hea, hsM] at hat
          cases hat
        · rw [h4 v hve] at hat
          obtain ⟨x, hx, hxv⟩ := h.done v c hv hat
          rcases List.mem_cons.1 hx with rfl | hx
          · exact absurd hxv.symm hve
          · exact ⟨x, hx, hxv⟩
  · right
    refine ⟨?_, ?_⟩
    · rintro ⟨s, t1, t2, t3, t4⟩
      exact hno s t1 t2 t3 t4
    · unfold Lattice.clearLogical
      rw [hf]

theorem Moving.loop {q : Pos} {L : Lattice} (hL : L.Css φ) (es : List LEdge) : ∀ M, Moving φ q L M es →
    (∀ e ∈ es, ∃ s ∈ L.edges, s.data = q ∧ L.isStab s.op = true ∧ s.factor = e.factor) ∧
      (∃ M', loopE (Lattice.clearLogical (L.stabGroups q)) M es = .ok M' ∧ Moving φ q L M' []) ∨
    (¬ ∀ e ∈ es, ∃ s ∈ L.edges, s.data = q ∧ L.isStab s.op = true ∧ s.factor = e.factor) ∧
      loopE (Lattice.clearLogical (L.stabGroups q)) M es = .error .valueError := by
  induction es with
  | nil => exact fun M h => .inl ⟨by simp, M, rfl, h⟩
  | cons e es ih =>
    intro M h
    rcases h.step hL with ⟨h1, M1, h2, h3⟩ | ⟨h1, h2⟩
    · rcases ih M1 h3 with ⟨h4, M', h5, h6⟩ | ⟨h4, h5⟩
      · refine .inl ⟨?_, M', by rw [loopE, h2]; exact h5, h6⟩
        intro x hx
        rcases List.mem_cons.1 hx with rfl | hx
        · exact h1
        · exact h4 x hx
      · exact .inr ⟨fun hh => h4 fun x hx => hh x (List.mem_cons_of_mem _ hx), by rw [loopE, h2]; exact h5⟩
    · exact .inr ⟨fun hh => h1 (hh e (List.mem_cons_self ..)), by rw [loopE, h2]⟩

/-! ### The groups of edges -/

/-- The state while the groups of edges at `q` are handled: the groups `gs` are left. -/
structure Around (φ : Pos → Letter → Letter) (q : Pos) (M : Lattice) (gs : List (List LEdge)) : Prop where
  css : M.Css φ
  only : ∀ v c, M.At v q c = true → ∃ g ∈ gs, ∃ e ∈ g, e.op = v
  there : ∀ g ∈ gs, ∀ e ∈ g, M.At e.op q e.factor = true ∧ M.isStab e.op = true ∧ e.data = q
  letter : ∀ g ∈ gs, ∀ e ∈ g, ∀ e' ∈ g, e.factor = e'.factor
  nodup : (gs.flatten.map LEdge.op).Nodup
  small : ∀ g ∈ gs, (∃ a, g = [a]) ∨ ∃ a b, g = [a, b]

theorem Around.next {q : Pos} {M M' : Lattice} {g : List LEdge} {gs : List (List LEdge)} (h : Around φ q M (g :: gs)) (hc : M'.Css φ)
    (hst : ∀ v, v ∉ g.map LEdge.op → M.isStab v = true → M'.isStab v = true)
    (hat : ∀ v c, v ∉ g.map LEdge.op → M'.At v q c = M.At v q c) (hoff : ∀ v c, v ∈ g.map LEdge.op → M'.At v q c = false) :
    Around φ q M' gs := by
  have hn := h.nodup
  rw [List.flatten_cons, List.map_append, List.nodup_append] at hn
  have away : ∀ g' ∈ gs, ∀ e ∈ g', e.op ∉ g.map LEdge.op := fun g' hg' e he hm =>
    hn.2.2 _ hm _ (List.mem_map_of_mem (List.mem_flatten.2 ⟨g', hg', he⟩)) rfl
  refine ⟨hc, ?_, ?_, fun g' hg' => h.letter g' (List.mem_cons_of_mem _ hg'), hn.2.1, fun g' hg' => h.small g' (List.mem_cons_of_mem _ hg')⟩
  · intro v c hv
    by_cases hvg : v ∈ g.map LEdge.op
    · rw [hoff v c hvg] at hv
      cases hv
    · rw [hat v c hvg] at hv
      obtain ⟨g', hg', e, he, hev⟩ := h.only v c hv
      rcases List.mem_cons.1 hg' with rfl | hg'
      · exact absurd (hev ▸ List.mem_map_of_mem he) hvg
      · exact ⟨g', hg', e, he, hev⟩
  · intro g' hg' e he
    obtain ⟨h1, h2, h3⟩ := h.there g' (List.mem_cons_of_mem _ hg') e he
    exact ⟨by rw [hat _ _ (away g' hg' e he)]; exact h1, hst _ (away g' hg' e he) h2, h3⟩

theorem Around.superstab {q : Pos} {M : Lattice} {a b : LEdge} {gs : List (List LEdge)} (h : Around φ q M ([a, b] :: gs)) :
    ∃ M', M.superstabFromEdges [a, b] = .ok M' ∧ Frame M M' ∧ Around φ q M' gs := by
  obtain ⟨a1, a2, a3⟩ := h.there [a, b] (List.mem_cons_self ..) a (by simp)
  obtain ⟨b1, b2, b3⟩ := h.there [a, b] (List.mem_cons_self ..) b (by simp)
  have hl := h.letter [a, b] (List.mem_cons_self ..) a (by simp) b (by simp)
  have hab : a.op ≠ b.op := by
    have := h.nodup
    simp only [List.flatten_cons, List.cons_append, List.nil_append, List.map_cons, List.nodup_cons, List.mem_cons, not_or] at this
    exact this.1.1
  obtain ⟨M', h1, h2, h3, h4, h5, h6, h7⟩ := createSuperstab_total h.css hab a2 b2 (c0 := φ q a.factor)
    (fun d c hc => h.css.one _ _ _ _ _ hc a1) (fun d c hc => (h.css.one _ _ _ _ _ hc b1).trans (congrArg (φ q) hl.symm))
  refine ⟨M', h1, h3, h.next h2 ?_ ?_ ?_⟩
  · intro v hv hs
    simp only [List.map_cons, List.map_nil, List.mem_cons, List.not_mem_nil, or_false, not_or] at hv
    exact (h7 v).2 ⟨hs, hv.2⟩
  · intro v c hv
    simp only [List.map_cons, List.map_nil, List.mem_cons, List.not_mem_nil, or_false, not_or] at hv
    exact h4 v hv.1 hv.2 q c
  · intro v c hv
    simp only [List.map_cons, List.map_nil, List.mem_cons, List.not_mem_nil, or_false] at hv
    rcases hv with rfl | rfl
    · rw [Bool.eq_false_iff]
      intro hh
      have hc : c = a.factor := by
        rw [h5] at hh
        cases hx : M.At a.op q c with
        | true => exact h.css.inj q (h.css.one _ _ _ _ _ hx a1)
        | false =>
          rw [hx] at hh
          exact (h.css.inj q (h.css.one _ _ _ _ _ (by simpa using hh) b1)).trans hl.symm
      subst hc
      rw [h5, a1, hl, b1] at hh
      cases hh
    · exact h6 q c

theorem Around.edge {q : Pos} {M : Lattice} {a : LEdge} {gs : List (List LEdge)} (h : Around φ q M ([a] :: gs)) :
    ∃ M', M.removeEdge a = .ok M' ∧ Frame M M' ∧ Around φ q M' gs := by
  obtain ⟨a1, a2, a3⟩ := h.there [a] (List.mem_cons_self ..) a (by simp)
  obtain ⟨M', h1, h2, h3, h4, h5⟩ := removeEdge_css h.css a1 a rfl a3
  refine ⟨M', h1, h3.frame, h.next h2 (fun v _ hs => by rw [isStab_same h3]; exact hs) ?_ ?_⟩
  · intro v c hv
    exact h4 v q c (.inl (by simpa using hv))
  · intro v c hv
    simp only [List.map_cons, List.map_nil, List.mem_singleton] at hv
    rw [hv]
    exact h5 c

theorem Around.pair {q : Pos} {M : Lattice} {a b : LEdge} {gs : List (List LEdge)} (h : Around φ q M ([a, b] :: gs)) :
    ∃ M', M.removePair [a, b] = .ok M' ∧ Frame M M' ∧ Around φ q M' gs := by
  have h' : Around φ q M ([a] :: [b] :: gs) := by
    refine ⟨h.css, ?_, ?_, ?_, by simpa using h.nodup, ?_⟩
    · intro v c hv
      obtain ⟨g, hg, e, he, hev⟩ := h.only v c hv
      rcases List.mem_cons.1 hg with rfl | hg
      · rcases List.mem_pair.1 he with rfl | rfl
        · exact ⟨[e], by simp, e, by simp, hev⟩
        · exact ⟨[e], by simp, e, by simp, hev⟩
      · exact ⟨g, by simp [hg], e, he, hev⟩
    · intro g hg e he
      rcases List.mem_cons.1 hg with rfl | hg
      · exact h.there [a, b] (by simp) e (by simp at he; simp [he])
      · rcases List.mem_cons.1 hg with rfl | hg
        · exact h.there [a, b] (by simp) e (by simp at he; simp [he])
        · exact h.there g (by simp [hg]) e he
    · intro g hg e he e' he'
      rcases List.mem_cons.1 hg with rfl | hg
      · simp at he he'; rw [he, he']
      · rcases List.mem_cons.1 hg with rfl | hg
        · simp at he he'; rw [he, he']
        · exact h.letter g (by simp [hg]) e he e' he'
    · intro g hg
      rcases List.mem_cons.1 hg with rfl | hg
      · exact .inl ⟨_, rfl⟩
      · rcases List.mem_cons.1 hg with rfl | hg
        · exact .inl ⟨_, rfl⟩
        · exact h.small g (by simp [hg])
  obtain ⟨M1, h1, f1, A1⟩ := h'.edge
  obtain ⟨M2, h2, f2, A2⟩ := A1.edge
  refine ⟨M2, ?_, f1.trans f2, A2⟩
  unfold Lattice.removePair
  simp only [h1, h2]

theorem Around.stabilizer {q : Pos} {M : Lattice} {a : LEdge} {gs : List (List LEdge)} (h : Around φ q M ([a] :: gs)) :
    ∃ M', M.removeStabilizer a.op = .ok M' ∧ Frame M M' ∧ Around φ q M' gs := by
  obtain ⟨a1, a2, a3⟩ := h.there [a] (List.mem_cons_self ..) a (by simp)
  obtain ⟨M', h1, h2, h3, h4, h5, h6⟩ := removeStabilizer_total h.css a2
  refine ⟨M', h1, h3, h.next h2 ?_ ?_ ?_⟩
  · intro v hv hs
    exact (h6 v).2 ⟨hs, by simpa using hv⟩
  · intro v c hv
    exact h4 v (by simpa using hv) q c
  · intro v c hv
    simp only [List.map_cons, List.map_nil, List.mem_singleton] at hv
    rw [hv]
    exact h5 q c

theorem Around.loop {q : Pos} (F : Lattice → List LEdge → Except Err Lattice) (P : List LEdge → Prop)
    (hF : ∀ M g gs, P g → Around φ q M (g :: gs) → ∃ M', F M g = .ok M' ∧ Frame M M' ∧ Around φ q M' gs) (gs : List (List LEdge))
    (hP : ∀ g ∈ gs, P g) : ∀ M, Around φ q M gs → ∃ M', loopE F M gs = .ok M' ∧ Frame M M' ∧ Around φ q M' [] := by
  induction gs with
  | nil => exact fun M h => ⟨M, rfl, Frame.refl M, h⟩
  | cons g gs ih =>
    intro M h
    obtain ⟨M1, h1, f1, A1⟩ := hF M g gs (hP g (List.mem_cons_self ..)) h
    obtain ⟨M', h2, f2, A2⟩ := ih (fun g hg => hP g (List.mem_cons_of_mem _ hg)) M1 A1
    exact ⟨M', by rw [loopE, h1]; exact h2, f1.trans f2, A2⟩

theorem Around.handle {q : Pos} {M : Lattice} {gs : List (List LEdge)} (h : Around φ q M gs)
    (hg : M.keepGauge = "none".toList ∨ M.keepGauge = "half".toList ∧ gs ≠ [] ∨ M.keepGauge = "all".toList) :
    ∃ M', M.handleGroups gs = .ok M' ∧ Frame M M' ∧ Around φ q M' [] := by
  unfold Lattice.handleGroups
  have two : (gs.all fun es => es.length = 2) = true → ∀ g ∈ gs, ∃ a b, g = [a, b] := by
    intro hall g hgm
    rw [List.all_eq_true] at hall
    have := of_decide_eq_true (hall g hgm)
    exact List.length_eq_two.1 this
  split
  · rename_i hall
    have h2 := two hall
    have pairs : ∀ (l : List (List LEdge)), (∀ g ∈ l, ∃ a b, g = [a, b]) → ∀ M, Around φ q M l →
        ∃ M', loopE Lattice.removePair M l = .ok M' ∧ Frame M M' ∧ Around φ q M' [] := by
      intro l hl
      refine Around.loop _ (fun g => ∃ a b, g = [a, b]) ?_ l hl
      rintro M _ gs ⟨a, b, rfl⟩ hA
      exact hA.pair
    rcases hg with hg | ⟨hg, hne⟩ | hg
    · rw [hg, if_pos rfl]
      refine Around.loop _ (fun g => ∃ a b, g = [a, b]) ?_ gs h2 M h
      rintro M _ gs ⟨a, b, rfl⟩ hA
      exact hA.superstab
    · rw [hg, if_neg (by decide), if_pos rfl]
      cases gs with
      | nil => exact absurd rfl hne
      | cons g gs =>
        obtain ⟨a, b, rfl⟩ := h2 g (List.mem_cons_self ..)
        obtain ⟨M1, h1, f1, A1⟩ := h.superstab
        obtain ⟨M', h3, f2, A2⟩ := pairs gs (fun g hg => h2 g (List.mem_cons_of_mem _ hg)) M1 A1
        exact ⟨M', by simp only [h1]; exact h3, f1.trans f2, A2⟩
    · rw [hg, if_neg (by decide), if_neg (by decide), if_pos rfl]
      exact pairs gs h2 M h
  · split
    · refine Around.loop _ (fun g => (∃ a, g = [a]) ∨ ∃ a b, g = [a, b]) ?_ gs h.small M h
      rintro M _ gs (⟨a, rfl⟩ | ⟨a, b, rfl⟩) hA
      · exact hA.edge
      · exact hA.superstab
    · refine Around.loop _ (fun g => (∃ a, g = [a]) ∨ ∃ a b, g = [a, b]) ?_ gs h.small M h
      rintro M _ gs (⟨a, rfl⟩ | ⟨a, b, rfl⟩) hA
      · exact hA.stabilizer
      · exact hA.pair

/-! ### `remove_dataqubit` -/

theorem Lattice.Pre.log_not_data {L : Lattice} (h : L.Pre) {p : Pos} (hs : p ∈ L.logicals.map Prod.fst) : p ∉ L.dataqubits :=
  fun hd => h.data_not_log hd hs

/-- The setting for gauge operators is one of the three known ones; `half` needs a stabiliser at `q`. -/
def Lattice.GaugeKnown (L : Lattice) (q : Pos) : Prop :=
  L.keepGauge = "none".toList ∨ L.keepGauge = "half".toList ∧ L.Checked q ∨ L.keepGauge = "all".toList

theorem group_small {L : Lattice} (h : L.Css φ) {q : Pos} {g : Letter × List LEdge} (hg : g ∈ L.stabGroups q) :
    (∃ a, g.2 = [a]) ∨ ∃ a b, g.2 = [a, b] := by
  have hspec := stabGroups_spec L q
  have hn : ((L.stabGroups q).flatMap Prod.snd).Nodup :=
    hspec.perm.nodup_iff.mpr (List.Nodup.sublist ((List.filter_sublist).trans List.filter_sublist) (List.Nodup.of_map _ h.pre.keys))
  rw [List.nodup_flatMap] at hn
  have hgn := hn.1 g hg
  have hmem : ∀ e ∈ g.2, L.At e.op q g.1 = true ∧ L.isStab e.op = true ∧ e ∈ L.edges ∧ e.data = q := by
    intro e he
    obtain ⟨h1, h2, h3, h4⟩ := mem_group hg he
    have := at_mem h.pre.keys h1
    rw [h2, h4] at this
    exact ⟨this, h3, h1, h2⟩
  have inj : ∀ e ∈ g.2, ∀ e' ∈ g.2, e.op = e'.op → e = e' := fun e he e' he' ho =>
    List.inj_on_of_nodup_map h.pre.keys (hmem e he).2.2.1 (hmem e' he').2.2.1
      (by simp [LEdge.key, ho, (hmem e he).2.2.2, (hmem e' he').2.2.2])
  match hgs : g.2 with
  | [] => exact absurd hgs (hspec.ne g hg)
  | [a] => exact .inl ⟨a, rfl⟩
  | [a, b] => exact .inr ⟨a, b, rfl⟩
  | a :: b :: c :: l =>
    exfalso
    rw [hgs] at hmem hgn inj
    have ha := hmem a (by simp)
    have hb := hmem b (by simp)
    have hc := hmem c (by simp)
    simp only [List.nodup_cons, List.mem_cons, not_or] at hgn
    rcases h.two q g.1 a.op b.op c.op ha.2.1 hb.2.1 hc.2.1 ha.1 hb.1 hc.1 with hh | hh | hh
    · exact hgn.1.1 (inj a (by simp) b (by simp) hh)
    · exact hgn.1.2.1 (inj a (by simp) c (by simp) hh)
    · exact hgn.2.1.1 (inj b (by simp) c (by simp) hh)

theorem moving_start {L : Lattice} (h : L.Css φ) (q : Pos) : Moving φ q L L ((L.dataEdges q).filter fun e => !L.isStab e.op) := by
  have mem : ∀ e, e ∈ ((L.dataEdges q).filter fun e => !L.isStab e.op) ↔ e ∈ L.edges ∧ e.data = q ∧ L.isStab e.op = false := by
    intro e
    simp only [Lattice.dataEdges, List.mem_filter, decide_eq_true_eq, Bool.not_eq_true', and_assoc]
  refine ⟨h, SameVertices.refl L, fun _ _ _ _ => rfl, ?_, ?_, ?_⟩
  · intro e he
    obtain ⟨h1, h2, h3⟩ := (mem e).1 he
    refine ⟨h2, h3, ?_⟩
    have := at_mem h.pre.keys h1
    rwa [h2] at this
  · intro v c hv hat
    obtain ⟨e, he, h1, h2, _⟩ := (at_iff h.pre.keys).1 hat
    exact ⟨e, (mem e).2 ⟨he, h2, by rw [h1]; exact hv⟩, h1⟩
  · have hn : (((L.dataEdges q).filter fun e => !L.isStab e.op).map LEdge.key).Nodup :=
      List.Nodup.sublist ((List.filter_sublist.trans List.filter_sublist).map _) h.pre.keys
    have he : ((L.dataEdges q).filter fun e => !L.isStab e.op).map LEdge.key =
        (((L.dataEdges q).filter fun e => !L.isStab e.op).map LEdge.op).map fun p => (p, q) := by
      rw [List.map_map]
      refine List.map_congr_left fun e hm => ?_
      simp only [LEdge.key, Function.comp, ((mem e).1 hm).2.1]
    rw [he] at hn
    exact List.Nodup.of_map _ hn

theorem Moving.around {q : Pos} {L M : Lattice} (hL : L.Css φ) (h : Moving φ q L M []) : Around φ q M ((L.stabGroups q).map Prod.snd) := by
  have hspec := stabGroups_spec L q
  refine ⟨h.css, ?_, ?_, ?_, ?_, ?_⟩
  · intro v c hat
    cases hv : L.isStab v with
    | false =>
      obtain ⟨e, he, _⟩ := h.done v c hv hat
      cases he
    | true =>
      rw [h.stab v hv] at hat
      obtain ⟨e, he, h1, h2, _⟩ := (at_iff hL.pre.keys).1 hat
      obtain ⟨g, hg, heg⟩ := group_of he h2 (by rw [h1]; exact hv)
      exact ⟨g.2, List.mem_map_of_mem hg, e, heg, h1⟩
  · intro g hg e he
    obtain ⟨g, hg', rfl⟩ := List.mem_map.1 hg
    obtain ⟨h1, h2, h3, h4⟩ := mem_group hg' he
    refine ⟨?_, by rw [isStab_same h.same]; exact h3, h2⟩
    rw [h.stab _ h3]
    have := at_mem hL.pre.keys h1
    rwa [h2] at this
  · intro g hg e he e' he'
    obtain ⟨g, hg', rfl⟩ := List.mem_map.1 hg
    exact (hspec.letter g hg' e he).trans (hspec.letter g hg' e' he').symm
  · rw [← List.flatMap_def]
    have hp := hspec.perm.map LEdge.op
    rw [hp.nodup_iff]
    have mem : ∀ e, e ∈ ((L.dataEdges q).filter fun e => L.isStab e.op) → e.data = q := by
      intro e he
      simp only [Lattice.dataEdges, List.mem_filter, decide_eq_true_eq] at he
      exact he.1.2
    have hn : (((L.dataEdges q).filter fun e => L.isStab e.op).map LEdge.key).Nodup :=
      List.Nodup.sublist ((List.filter_sublist.trans List.filter_sublist).map _) hL.pre.keys
    have he : ((L.dataEdges q).filter fun e => L.isStab e.op).map LEdge.key =
        (((L.dataEdges q).filter fun e => L.isStab e.op).map LEdge.op).map fun p => (p, q) := by
      rw [List.map_map]
      refine List.map_congr_left fun e hm => ?_
      simp only [LEdge.key, Function.comp, mem e hm]
    rw [he] at hn
    exact List.Nodup.of_map _ hn
  · intro g hg
    obtain ⟨g, hg', rfl⟩ := List.mem_map.1 hg
    exact group_small hL hg'

/-- A data qubit can be removed exactly if the logical operators can be moved away from it. -/
theorem removeDataqubit_total {L : Lattice} (h : L.Css φ) {q : Pos} (hq : q ∈ L.dataqubits) :
    (L.Movable q → L.GaugeKnown q → ∃ L', L.removeDataqubit q = .ok L' ∧ L'.Css φ ∧ L'.dataqubits = L.dataqubits.filter (· ≠ q) ∧
      L'.logicals = L.logicals ∧ L'.keepGauge = L.keepGauge ∧ L'.boundaryJoin = L.boundaryJoin) ∧
    (¬ L.Movable q → L.removeDataqubit q = .error .valueError) := by
  have hmem : ∀ e, e ∈ ((L.dataEdges q).filter fun e => !L.isStab e.op) ↔ e ∈ L.edges ∧ e.data = q ∧ L.isStab e.op = false := by
    intro e
    simp only [Lattice.dataEdges, List.mem_filter, decide_eq_true_eq, Bool.not_eq_true', and_assoc]
  have hmov : L.Movable q ↔ ∀ e ∈ ((L.dataEdges q).filter fun e => !L.isStab e.op),
      ∃ s ∈ L.edges, s.data = q ∧ L.isStab s.op = true ∧ s.factor = e.factor := by
    unfold Lattice.Movable
    constructor
    · intro hh e he
      obtain ⟨h1, h2, h3⟩ := (hmem e).1 he
      exact hh e h1 h2 h3
    · intro hh e h1 h2 h3
      exact hh e ((hmem e).2 ⟨h1, h2, h3⟩)
  rcases Moving.loop h _ L (moving_start h q) with ⟨h1, M, h2, h3⟩ | ⟨h1, h2⟩
  · refine ⟨fun _ hg => ?_, fun hn => absurd (hmov.2 h1) hn⟩
    obtain ⟨M', h4, fr, A⟩ := (h3.around h).handle (by
      rw [h3.same.gauge]
      rcases hg with hg | ⟨hg, e, he1, he2, he3⟩ | hg
      · exact .inl hg
      · refine .inr (.inl ⟨hg, ?_⟩)
        obtain ⟨g, hgm, _⟩ := group_of he1 he2 he3
        exact List.ne_nil_of_mem (List.mem_map_of_mem hgm)
      · exact .inr (.inr hg))
    have fr' : Frame L M' := h3.same.frame.trans fr
    have hq' : q ∈ M'.dataqubits := by rw [fr'.data]; exact hq
    obtain ⟨L', h5⟩ := removeVertex_total (L := M') (p := q) (List.mem_append_left _ (List.mem_append_left _ hq')) (by
      intro e he
      have hat := at_mem A.css.pre.keys he
      constructor
      · intro ho
        rcases A.css.ops _ _ _ hat with hx | hx
        · exact A.css.pre.stab_not_data hx (ho ▸ hq')
        · exact A.css.pre.log_not_data hx (ho ▸ hq')
      · intro hd
        rw [hd] at hat
        obtain ⟨g, hgm, _⟩ := A.only _ _ hat
        cases hgm)
    have hp' := removeVertex_pre A.css.pre h5
    obtain ⟨_, _, hL'⟩ := removeVertex_spec h5
    have hlogs : L'.logicals = M'.logicals := by
      rw [hL']
      exact filter_of_not_mem (A.css.pre.data_not_log hq')
    have hstabs : L'.stabgens = M'.stabgens := by
      rw [hL']
      exact filter_of_not_mem fun hm => A.css.pre.stab_not_data (isStab_iff.2 hm) hq'
    have hedges : L'.edges = M'.edges := by rw [hL']
    have hisStab : ∀ v, L'.isStab v = M'.isStab v := fun v => by unfold Lattice.isStab; rw [hstabs]
    refine ⟨L', ?_, ?_, ?_, hlogs.trans fr'.logs, ?_, ?_⟩
    · unfold Lattice.removeDataqubit
      simp only [h2, h4, h5]
    · refine A.css.shrink hp' (fun k d c hc => by rwa [at_edges hedges] at hc) (fun k hk => by rwa [hisStab] at hk) ?_
      intro k d c hc
      rw [hisStab, hlogs]
      rw [at_edges hedges] at hc
      exact A.css.ops k d c hc
    · rw [hL', ← fr'.data]
    · rw [hL', ← fr'.gauge]
    · rw [hL', ← fr'.join]
  · refine ⟨fun hm _ => absurd (hmov.1 hm) h1, fun _ => ?_⟩
    unfold Lattice.removeDataqubit
    simp only [h2]

/-- With the treatment `half` of gauge operators, a data qubit without stabilisers and logical operators. -/
theorem removeDataqubit_half {L : Lattice} {q : Pos} (hm : L.Movable q) (hg : L.keepGauge = "half".toList) (hc : ¬ L.Checked q) :
    L.removeDataqubit q = .error .indexError := by
  have h0 : (L.dataEdges q).filter (fun e => L.isStab e.op) = [] := by
    rw [List.filter_eq_nil_iff]
    intro e he hs
    simp only [Lattice.dataEdges, List.mem_filter, decide_eq_true_eq] at he
    exact hc ⟨e, he.1, he.2, hs⟩
  have h1 : L.stabGroups q = [] := by unfold Lattice.stabGroups; rw [h0]; rfl
  have h2 : (L.dataEdges q).filter (fun e => !L.isStab e.op) = [] := by
    rw [List.filter_eq_nil_iff]
    intro e he hs
    simp only [Lattice.dataEdges, List.mem_filter, decide_eq_true_eq] at he
    obtain ⟨s, hs1, hs2, hs3, _⟩ := hm e he.1 he.2 (by simpa using hs)
    exact hc ⟨s, hs1, hs2, hs3⟩
  unfold Lattice.removeDataqubit
  simp only [h1, h2, loopE, List.map_nil, Lattice.handleGroups, List.all_nil, if_true, hg]
  rw [if_neg (by decide)]

end Plaquette
