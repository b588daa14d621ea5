import Verif.Lemmas.DecoderMain

/-!
# When the components can be decoded
-/

namespace Plaquette
variable {W σ : Type} {n : Nat} [LinearOrder W] {isInf : W → Bool} {r : Nat} {stabs : List (Op n)} {w : Option (Weights W)} {g : SynGraph W}

/-- A component has a dangling edge or an even number of vertices with a syndrome. -/
def Decodable (c : Component W) (syn : Nat → Bool) : Prop :=
  (∃ v, [v] ∈ c.edges) ∨ Even (Set.ncard {v | v ∈ c.vertexIdx ∧ syn v = true})

omit [LinearOrder W] in
theorem hasDangling_iff (c : Component W) : c.hasDangling = true ↔ ∃ v, [v] ∈ c.edges := by
  unfold Component.hasDangling
  rw [List.any_eq_true]
  constructor
  · rintro ⟨e, he, hl⟩
    obtain ⟨v, rfl⟩ := List.length_eq_one_iff.1 (of_decide_eq_true hl)
    exact ⟨v, he⟩
  · rintro ⟨v, hv⟩
    exact ⟨_, hv, rfl⟩

theorem countP_map_id (l : List Nat) (hl : l.Nodup) (f : Nat → Bool) : (l.map f).countP id = Set.ncard {v | v ∈ l ∧ f v = true} := by
  rw [List.countP_map, List.countP_eq_length_filter]
  have : {v | v ∈ l ∧ f v = true} = ((l.filter f).toFinset : Set Nat) := by
    ext v; simp
  rw [this, Set.ncard_coe_finset, List.toFinset_card_of_nodup (hl.filter _)]
  rfl

/-- The copy of a component is connected. -/
theorem comp_connected (h : mkSynGraph isInf r stabs w = .ok g) {c : Component W} (hc : c ∈ g.components) {u v : Nat} (hu : u < c.nVertices)
    (hv : v < c.nVertices) : SameCluster c.edges (fun _ => True) u v := by
  have hok := compOk h hc
  obtain ⟨-, -, hj⟩ := C34_vertices h
  have hu' : u < c.vertexIdx.length := hu
  have hv' : v < c.vertexIdx.length := hv
  have key : ∀ y, Joined g.edges c.vertexIdx[u] y → y ∈ c.vertexIdx ∧ SameCluster c.edges (fun _ => True) u (c.vertexIdx.idxOf y) := by
    intro y hy
    induction hy with
    | refl => exact ⟨List.getElem_mem _, by rw [hok.vnodup.idxOf_getElem]; exact .refl u⟩
    | tail _ hs ih =>
      obtain ⟨e, he, hen, hx, hy⟩ := hs
      obtain ⟨i, hi⟩ := List.getElem?_of_mem he
      have hic : i ∈ c.edgeIdx := (hok.mem i).2 ⟨e, hi, hen, _, hx, ih.1⟩
      obtain ⟨j, hj⟩ := List.getElem?_of_mem hic
      obtain ⟨h1, h2⟩ := hok.get j i e hj hi
      exact ⟨h2 _ hy, .step ih.2 trivial h1 (List.mem_map_of_mem hx) (List.mem_map_of_mem hy)⟩
  have := (key c.vertexIdx[v] ((hj c hc _ (List.getElem_mem hu') _).1 (List.getElem_mem hv'))).2
  rwa [hok.vnodup.idxOf_getElem] at this

omit [LinearOrder W] in
theorem synAt_map (c : Component W) (syn : Nat → Bool) {u : Nat} (hu : u < c.nVertices) : (c.vertexIdx.map syn)[u]? = some (syn (c.vertexIdx[u]'hu)) := by
  rw [List.getElem?_map, List.getElem?_eq_getElem hu]; rfl

/-- The vertices of the copy with a syndrome. -/
theorem ncard_copy {c : Component W} (hn : c.vertexIdx.Nodup) (syn : Nat → Bool) :
    Set.ncard {u : Nat | (c.vertexIdx.map syn)[u]? = some true} = Set.ncard {v | v ∈ c.vertexIdx ∧ syn v = true} := by
  have himg : {v | v ∈ c.vertexIdx ∧ syn v = true} = (fun u => c.vertexIdx.getD u 0) '' {u : Nat | (c.vertexIdx.map syn)[u]? = some true} := by
    ext v
    simp only [Set.mem_ofPred_eq, Set.mem_image, List.getElem?_map, Option.map_eq_some_iff]
    constructor
    · rintro ⟨hv, hs⟩
      obtain ⟨u, hu⟩ := List.getElem?_of_mem hv
      exact ⟨u, ⟨v, hu, hs⟩, by rw [List.getD_eq_getElem?_getD, hu]; rfl⟩
    · rintro ⟨u, ⟨v', hu, hs⟩, rfl⟩
      rw [List.getD_eq_getElem?_getD, hu]
      exact ⟨List.mem_of_getElem? hu, hs⟩
  rw [himg, Set.ncard_image_of_injOn]
  intro u hu u' hu' heq
  simp only [Set.mem_ofPred_eq, List.getElem?_map, Option.map_eq_some_iff] at hu hu'
  obtain ⟨v, hv, _⟩ := hu
  obtain ⟨v', hv', _⟩ := hu'
  simp only [List.getD_eq_getElem?_getD, hv, hv', Option.getD_some] at heq
  obtain ⟨h1, h2⟩ := List.getElem?_eq_some_iff.1 hv
  obtain ⟨h3, h4⟩ := List.getElem?_eq_some_iff.1 hv'
  exact (hn.getElem_inj_iff (hi := h1) (hj := h3)).1 (by rw [h2, h4, heq])

theorem Decodable.correctable (h : mkSynGraph isInf r stabs w = .ok g) {c : Component W} (hc : c ∈ g.components) {syn : Nat → Bool}
    (hd : Decodable c syn) : Correctable c.nVertices c.edges (fun _ => True) (c.vertexIdx.map syn) := by
  intro v hv
  rcases hd with ⟨u, hu⟩ | hd
  · left
    obtain ⟨i, hi⟩ := List.getElem?_of_mem hu
    have hun : u < c.nVertices := by
      rcases compGraph h hc _ hu with ⟨a, ha, hlt⟩ | ⟨a, b, ha, _⟩
      · obtain rfl : u = a := by simpa using ha
        exact hlt
      · simp at ha
    exact ⟨u, i, comp_connected h hc hv hun, trivial, hi⟩
  · right
    rw [← ncard_copy (compOk h hc).vnodup] at hd
    convert hd using 2
    ext u
    simp only [Set.mem_ofPred_eq]
    refine ⟨fun h => h.2.2, fun hs => ?_⟩
    have hu : u < c.nVertices := by
      have := (List.getElem?_eq_some_iff.1 hs).1
      rwa [List.length_map] at this
    exact ⟨hu, comp_connected h hc hv hu, hs⟩

/-- A component without edges is a single vertex. -/
theorem single_vertex (h : mkSynGraph isInf r stabs w = .ok g) {c : Component W} (hc : c ∈ g.components) (he : c.edges = []) :
    ∃ v, c.vertexIdx = [v] := by
  obtain ⟨hne, -, -⟩ := (C34_vertices h).1 c hc
  match hv : c.vertexIdx with
  | [] => exact absurd hv hne
  | [v] => exact ⟨v, rfl⟩
  | a :: b :: l =>
    have h2 : c.nVertices = l.length + 2 := by unfold Component.nVertices; rw [hv]; rfl
    have h01 : ∀ x, SameCluster c.edges (fun _ => True) 0 x → x = 0 := by
      intro x hx
      induction hx with
      | refl => rfl
      | step _ _ hi _ _ _ => rw [he] at hi; simp at hi
    have := h01 1 (comp_connected h hc (by omega) (by omega))
    omega

/-- The check lets exactly the components through that can be decoded, and raises a `ValueError` for the other ones. -/
theorem checkDecodable_spec (h : mkSynGraph isInf r stabs w = .ok g) {c : Component W} (hc : c ∈ g.components) (syn : Nat → Bool) :
    (Decodable c syn ∧ checkDecodable syn c = .ok ()) ∨ (¬ Decodable c syn ∧ checkDecodable syn c = .error .valueError) := by
  cases he : c.edges with
  | nil =>
    obtain ⟨v, hv⟩ := single_vertex h hc he
    have hd : Decodable c syn ↔ syn v = false := by
      unfold Decodable
      rw [he, hv]
      cases hs : syn v
      · have : {x | x ∈ [v] ∧ syn x = true} = ∅ := by
          ext x; simp only [List.mem_singleton, Set.mem_ofPred_eq, Set.mem_empty_iff_false, iff_false]; rintro ⟨rfl, hx⟩; rw [hs] at hx; simp at hx
        rw [this]; simp
      · have : {x | x ∈ [v] ∧ syn x = true} = {v} := by
          ext x; simp only [List.mem_singleton, Set.mem_ofPred_eq, Set.mem_singleton_iff]
          exact ⟨fun h => h.1, by rintro rfl; exact ⟨rfl, hs⟩⟩
        rw [this]; simp
    rw [hd]
    unfold checkDecodable
    simp only [he, hv, List.map_cons, List.map_nil]
    cases syn v <;> simp
  | cons e es =>
    unfold checkDecodable
    simp only [he]
    rw [countP_map_id _ (compOk h hc).vnodup]
    have hd : Decodable c syn ↔ c.hasDangling = true ∨ Even (Set.ncard {v | v ∈ c.vertexIdx ∧ syn v = true}) := by
      rw [hasDangling_iff]; rfl
    rw [hd]
    cases hh : c.hasDangling
    · simp only [Bool.false_eq_true, false_or, Bool.not_false, Bool.true_and, beq_iff_eq]
      by_cases hev : Even (Set.ncard {v | v ∈ c.vertexIdx ∧ syn v = true})
      · have := Nat.even_iff.1 hev
        exact .inl ⟨hev, by rw [if_neg (by omega)]⟩
      · have := Nat.not_even_iff.1 hev
        exact .inr ⟨hev, by rw [if_pos (by omega)]⟩
    · simp

theorem checkAll_spec (h : mkSynGraph isInf r stabs w = .ok g) (syn : Nat → Bool) :
    ((∀ c ∈ g.components, Decodable c syn) ∧ loopE (fun (_ : Unit) c => checkDecodable syn c) () g.components = .ok ()) ∨
    ((¬ ∀ c ∈ g.components, Decodable c syn) ∧ loopE (fun (_ : Unit) c => checkDecodable syn c) () g.components = .error .valueError) := by
  suffices H : ∀ l : List (Component W), (∀ c ∈ l, c ∈ g.components) →
      ((∀ c ∈ l, Decodable c syn) ∧ loopE (fun (_ : Unit) c => checkDecodable syn c) () l = .ok ()) ∨
      ((¬ ∀ c ∈ l, Decodable c syn) ∧ loopE (fun (_ : Unit) c => checkDecodable syn c) () l = .error .valueError) from
    H g.components fun _ h => h
  intro l
  induction l with
  | nil => intro _; exact .inl ⟨by simp, rfl⟩
  | cons c l ih =>
    intro hl
    rcases checkDecodable_spec h (hl c (by simp)) syn with ⟨h1, h2⟩ | ⟨h1, h2⟩
    · rcases ih (fun d hd => hl d (List.mem_cons_of_mem _ hd)) with ⟨h3, h4⟩ | ⟨h3, h4⟩
      · exact .inl ⟨by simp only [List.mem_cons, forall_eq_or_imp]; exact ⟨h1, h3⟩, by rw [loopE_step h2]; exact h4⟩
      · exact .inr ⟨by simp only [List.mem_cons, forall_eq_or_imp]; exact fun hh => h3 hh.2, by rw [loopE_step h2]; exact h4⟩
    · refine .inr ⟨by simp only [List.mem_cons, forall_eq_or_imp]; exact fun hh => h1 hh.1, ?_⟩
      unfold loopE; rw [h2]

/-- A syndrome that enabled edges explain can be decoded. -/
theorem decodable_of_bd (h : mkSynGraph isInf r stabs w = .ok g) {x syn : Nat → Bool} (hx : ∀ i, x i = true → enabledAt g.edges i = true)
    (hb : ∀ v, v < r * stabs.length → bd g.verts x v = syn v) {c : Component W} (hc : c ∈ g.components) : Decodable c syn := by
  have hok := compOk h hc
  have hlt : ∀ (i : Nat) (e : SEdge W), g.edges[i]? = some e → ∀ v ∈ e.vertices, v < r * stabs.length := by
    obtain ⟨qs, es, k, hB⟩ := mkSynGraph_built h
    intro i e he v hv
    exact hB.lt i v (by rw [vertsAt_get he]; exact hv)
  have hE := InSpan.even' (n := r * stabs.length) (edges := g.verts) (S := fun i => enabledAt g.edges i = true) (x := x) (syn := syn) (by
      intro vs hvs
      unfold SynGraph.verts at hvs
      obtain ⟨e, he, rfl⟩ := List.mem_map.1 hvs
      obtain ⟨i, hi⟩ := List.getElem?_of_mem he
      obtain ⟨h1, h2⟩ := edge_vertices h hi
      have h3 := hlt i e hi
      generalize e.vertices = l at h1 h2 h3
      match l, h2 with
      | [], _ => exact .inl rfl
      | [a], _ => exact .inr (.inl ⟨a, rfl, h3 a (by simp)⟩)
      | [a, b], _ => exact .inr (.inr ⟨a, b, rfl, by simpa using h1, h3 a (by simp), h3 b (by simp)⟩)) (fun i _ => hx i) hb
  obtain ⟨hne, -, hvl⟩ := (C34_vertices h).1 c hc
  obtain ⟨v, hv⟩ := List.exists_mem_of_ne_nil _ hne
  have hJ : ∀ a b, JoinedBy g.verts (fun i => enabledAt g.edges i = true) a b ↔ Joined g.edges a b := by
    intro a b
    have : (fun a b => ∃ i e, enabledAt g.edges i = true ∧ g.verts[i]? = some e ∧ a ∈ e ∧ b ∈ e) =
        fun u v => ∃ e ∈ g.edges, e.enabled = true ∧ u ∈ e.vertices ∧ v ∈ e.vertices := by
      funext a b
      refine propext ⟨?_, ?_⟩
      · rintro ⟨i, l, hen, hl, ha, hb⟩
        unfold SynGraph.verts at hl
        rw [List.getElem?_map, Option.map_eq_some_iff] at hl
        obtain ⟨e, he, rfl⟩ := hl
        rw [enabledAt_get he] at hen
        exact ⟨e, List.mem_of_getElem? he, hen, ha, hb⟩
      · rintro ⟨e, he, hen, ha, hb⟩
        obtain ⟨i, hi⟩ := List.getElem?_of_mem he
        exact ⟨i, _, by rw [enabledAt_get hi]; exact hen, verts_get hi, ha, hb⟩
    unfold JoinedBy Joined
    rw [this]
  have hcl := (C34_vertices h).2.2 c hc v hv
  rcases hE v (hvl v hv) with ⟨u, i, hju, hen, hi⟩ | hE
  · left
    rw [hJ] at hju
    have huc := (hcl u).2 hju
    unfold SynGraph.verts at hi
    rw [List.getElem?_map, Option.map_eq_some_iff] at hi
    obtain ⟨e, he, hev⟩ := hi
    rw [enabledAt_get he] at hen
    have hic : i ∈ c.edgeIdx := (hok.mem i).2 ⟨e, he, hen, u, by rw [hev]; simp, huc⟩
    obtain ⟨j, hj⟩ := List.getElem?_of_mem hic
    have := (hok.get j i e hj he).1
    rw [hev] at this
    exact ⟨_, List.mem_of_getElem? this⟩
  · right
    convert hE using 2
    ext u
    simp only [Set.mem_ofPred_eq, hJ]
    rw [hcl u]
    refine ⟨fun ⟨a, b⟩ => ⟨hvl u ((hcl u).2 a), a, b⟩, fun ⟨_, a, b⟩ => ⟨a, b⟩⟩

end Plaquette
