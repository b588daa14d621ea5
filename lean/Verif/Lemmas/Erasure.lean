import Verif.Model.Erasure
import Verif.Lemmas.Lattice
import Mathlib.Data.List.Nodup
import Mathlib.Data.Bool.Basic
import Mathlib.Tactic.Linarith

/-!
# Subgraphs of a graph: what enabling, disabling and the neighbour lists do; sums of edges modulo two
-/

namespace Plaquette

/-! ## Loops with an invariant -/

theorem loopE_step {σ α : Type} {f : σ → α → Except Err σ} {s s' : σ} {a : α} {as : List α} (h : f s a = .ok s') :
    loopE f s (a :: as) = loopE f s' as := by
  simp only [loopE, h]

theorem loopE_inv {σ α : Type} {f : σ → α → Except Err σ} (P : Nat → σ → Prop) :
    ∀ (l : List α) (k : Nat) (s : σ), P k s →
      (∀ j a s, l[j]? = some a → P (k + j) s → ∃ s', f s a = .ok s' ∧ P (k + j + 1) s') →
      ∃ s', loopE f s l = .ok s' ∧ P (k + l.length) s'
  | [], k, s, h, _ => ⟨s, rfl, h⟩
  | a :: l, k, s, h, hstep => by
    obtain ⟨s1, e1, h1⟩ := hstep 0 a s rfl h
    obtain ⟨s2, e2, h2⟩ := loopE_inv P l (k + 1) s1 h1 (fun j a s hj hP => by
      have := hstep (j + 1) a s (by simpa using hj) (by rwa [show k + (j + 1) = k + 1 + j by omega])
      rwa [show k + (j + 1) + 1 = k + 1 + j + 1 by omega] at this)
    refine ⟨s2, (loopE_step e1).trans e2, ?_⟩
    rw [List.length_cons, show k + (l.length + 1) = k + 1 + l.length by omega]
    exact h2

/-! ## Sums modulo two -/

/-- The sum modulo two. -/
def xsum (l : List Nat) (f : Nat → Bool) : Bool := l.foldr (fun i b => f i ^^ b) false

@[simp] theorem xsum_nil (f : Nat → Bool) : xsum [] f = false := rfl
@[simp] theorem xsum_cons (a : Nat) (l : List Nat) (f : Nat → Bool) : xsum (a :: l) f = (f a ^^ xsum l f) := rfl

theorem xsum_xor (l : List Nat) (f g : Nat → Bool) : xsum l (fun i => f i ^^ g i) = (xsum l f ^^ xsum l g) := by
  induction l with
  | nil => rfl
  | cons a l ih =>
    simp only [xsum_cons, ih]
    cases f a <;> cases g a <;> cases xsum l f <;> cases xsum l g <;> rfl

theorem xsum_congr {l : List Nat} {f g : Nat → Bool} (h : ∀ i ∈ l, f i = g i) : xsum l f = xsum l g := by
  induction l with
  | nil => rfl
  | cons a l ih =>
    rw [xsum_cons, xsum_cons, h a (by simp), ih (fun i hi => h i (List.mem_cons_of_mem _ hi))]

theorem xsum_zero {l : List Nat} {f : Nat → Bool} (h : ∀ i ∈ l, f i = false) : xsum l f = false := by
  induction l with
  | nil => rfl
  | cons a l ih =>
    rw [xsum_cons, h a (by simp), ih (fun i hi => h i (List.mem_cons_of_mem _ hi))]; rfl

theorem xsum_single {l : List Nat} (hl : l.Nodup) {f : Nat → Bool} {i : Nat} (hi : i ∈ l) (h : ∀ j ∈ l, j ≠ i → f j = false) :
    xsum l f = f i := by
  induction l with
  | nil => simp at hi
  | cons a l ih =>
    rw [List.nodup_cons] at hl
    rw [xsum_cons]
    rcases List.mem_cons.1 hi with rfl | hi
    · rw [xsum_zero (fun j hj => h j (List.mem_cons_of_mem _ hj) (by rintro rfl; exact hl.1 hj))]
      simp
    · rw [ih hl.2 hi (fun j hj => h j (List.mem_cons_of_mem _ hj)), h a (by simp) (by rintro rfl; exact hl.1 hi)]
      simp

theorem xsum_eq_odd (l : List Nat) (f : Nat → Bool) : xsum l f = true ↔ (l.filter f).length % 2 = 1 := by
  induction l with
  | nil => simp
  | cons a l ih =>
    rw [xsum_cons, List.filter_cons]
    cases hf : f a
    · simpa using ih
    · rw [if_pos rfl, List.length_cons]
      cases hx : xsum l f
      · rw [hx] at ih
        have : (l.filter f).length % 2 ≠ 1 := fun h => by simpa using ih.2 h
        simp only [Bool.xor_false, true_iff]
        omega
      · have := ih.1 hx
        simp only [Bool.xor_true, Bool.not_true, Bool.false_eq_true, false_iff]
        omega

/-- Vertex `v` is an end of edge `i`. -/
def touches (edges : List (List Nat)) (i v : Nat) : Bool :=
  match edges[i]? with
  | some e => decide (v ∈ e)
  | none => false

theorem touches_some {edges : List (List Nat)} {i : Nat} {e : List Nat} (h : edges[i]? = some e) (v : Nat) :
    touches edges i v = decide (v ∈ e) := by
  simp [touches, h]

/-- The sum of the ends of the edges in `x`. -/
def bd (edges : List (List Nat)) (x : Nat → Bool) (v : Nat) : Bool :=
  xsum (List.range edges.length) fun i => x i && touches edges i v

theorem bd_xor (edges : List (List Nat)) (x y : Nat → Bool) (v : Nat) :
    bd edges (fun i => x i ^^ y i) v = (bd edges x v ^^ bd edges y v) := by
  unfold bd
  rw [← xsum_xor]
  exact xsum_congr (fun i _ => by show ((x i ^^ y i) && _) = _; generalize x i = a; generalize y i = b; generalize touches edges i v = c; revert a b c; decide)

theorem bd_single {edges : List (List Nat)} {i : Nat} (hi : i < edges.length) (v : Nat) :
    bd edges (fun j => decide (j = i)) v = touches edges i v := by
  unfold bd
  rw [xsum_single List.nodup_range (List.mem_range.2 hi) (fun j _ hj => by simp [hj])]
  simp

theorem bd_zero (edges : List (List Nat)) (v : Nat) : bd edges (fun _ => false) v = false :=
  xsum_zero (fun _ _ => rfl)

/-- `σ` is the sum of the ends of some edges in `S`. -/
def InSpan (edges : List (List Nat)) (S : Nat → Bool) (σ : Nat → Bool) : Prop :=
  ∃ x : Nat → Bool, (∀ i, x i = true → S i = true) ∧ bd edges x = σ

namespace InSpan
variable {edges : List (List Nat)} {S T : Nat → Bool} {σ τ : Nat → Bool}

theorem zero : InSpan edges S (fun _ => false) := ⟨fun _ => false, by simp, by funext v; exact bd_zero _ _⟩

theorem xor (h : InSpan edges S σ) (h' : InSpan edges S τ) : InSpan edges S (fun v => σ v ^^ τ v) := by
  obtain ⟨x, hx, rfl⟩ := h
  obtain ⟨y, hy, rfl⟩ := h'
  refine ⟨fun i => x i ^^ y i, fun i hi => ?_, by funext v; exact bd_xor _ _ _ _⟩
  cases hxi : x i
  · simp only [hxi] at hi; exact hy i (by simpa using hi)
  · exact hx i hxi

theorem mono (h : InSpan edges S σ) (hST : ∀ i, S i = true → T i = true) : InSpan edges T σ := by
  obtain ⟨x, hx, rfl⟩ := h
  exact ⟨x, fun i hi => hST i (hx i hi), rfl⟩

theorem edge {i : Nat} (hi : i < edges.length) (hS : S i = true) : InSpan edges S (touches edges i) :=
  ⟨fun j => decide (j = i), fun j hj => by rw [of_decide_eq_true hj]; exact hS, by funext v; exact bd_single hi v⟩

/-- Replacing the edges of `S` by sums of edges of `T`. -/
theorem trans (h : InSpan edges S σ) (hST : ∀ i, i < edges.length → S i = true → InSpan edges T (touches edges i)) :
    InSpan edges T σ := by
  obtain ⟨x, hx, rfl⟩ := h
  have key : ∀ l : List Nat, (∀ i ∈ l, i < edges.length) →
      InSpan edges T (fun v => xsum l fun i => x i && touches edges i v) := by
    intro l
    induction l with
    | nil => intro _; exact zero
    | cons a l ih =>
      intro hl
      have h1 := ih (fun i hi => hl i (List.mem_cons_of_mem _ hi))
      cases hxa : x a
      · simpa [hxa] using h1
      · have h2 := (hST a (hl a (by simp)) (hx a hxa)).xor h1
        simpa [hxa] using h2
  exact key _ (fun i hi => List.mem_range.1 hi)

end InSpan

/-- The single vertex `a`. -/
def dot (a : Nat) : Nat → Bool := fun v => decide (v = a)

/-- Two vertices. -/
def dots (a b : Nat) : Nat → Bool := fun v => decide (v = a) ^^ decide (v = b)

theorem dots_comm (a b : Nat) : dots a b = dots b a := by funext v; exact Bool.xor_comm _ _

theorem InSpan.dots_symm {edges : List (List Nat)} {S : Nat → Bool} {a b : Nat} (h : InSpan edges S (dots a b)) :
    InSpan edges S (dots b a) := dots_comm a b ▸ h

theorem InSpan.dots_trans {edges : List (List Nat)} {S : Nat → Bool} {a b c : Nat} (h : InSpan edges S (dots a b))
    (h' : InSpan edges S (dots b c)) : InSpan edges S (dots a c) := by
  have := h.xor h'
  convert this using 1
  funext v
  simp only [dots]
  cases decide (v = a) <;> cases decide (v = b) <;> cases decide (v = c) <;> rfl

theorem InSpan.dots_refl {edges : List (List Nat)} {S : Nat → Bool} (a : Nat) : InSpan edges S (dots a a) := by
  convert InSpan.zero (edges := edges) (S := S) using 1
  funext v
  simp [dots]

theorem InSpan.dots_of {edges : List (List Nat)} {S : Nat → Bool} {a b : Nat} (h : InSpan edges S (dot a))
    (h' : InSpan edges S (dot b)) : InSpan edges S (dots a b) := h.xor h'

/-! ## Graphs -/

/-- Edges have one vertex or two different ones, all of them among the first `n`. -/
def EdgesWf (n : Nat) (edges : List (List Nat)) : Prop :=
  ∀ e ∈ edges, (∃ a, e = [a] ∧ a < n) ∨ ∃ a b, e = [a, b] ∧ a ≠ b ∧ a < n ∧ b < n

/-- Vertex `v` is an end of the edge and `o` is the other one. -/
inductive Inc : List Nat → Nat → Option Nat → Prop
  | single (v : Nat) : Inc [v] v none
  | left (v u : Nat) : v ≠ u → Inc [v, u] v (some u)
  | right (u v : Nat) : v ≠ u → Inc [u, v] v (some u)

theorem Inc.mem {e : List Nat} {v : Nat} {o : Option Nat} (h : Inc e v o) : v ∈ e := by
  cases h <;> simp

theorem Inc.other_mem {e : List Nat} {v u : Nat} (h : Inc e v (some u)) : u ∈ e := by
  cases h <;> simp

theorem Inc.symm {e : List Nat} {v u : Nat} (h : Inc e v (some u)) : Inc e u (some v) := by
  cases h with
  | left _ _ h => exact .right _ _ (Ne.symm h)
  | right _ _ h => exact .left _ _ (Ne.symm h)

theorem Inc.unique {e : List Nat} {v : Nat} {o o' : Option Nat} (h : Inc e v o) (h' : Inc e v o') : o = o' := by
  cases h with
  | single => cases h'; rfl
  | left _ u hne =>
    generalize he : [v, u] = e at h'
    cases h' with
    | single => simp at he
    | left => simp at he; rw [he]
    | right _ _ hne' => simp at he; exact absurd he.1 hne'
  | right u _ hne =>
    generalize he : [u, v] = e at h'
    cases h' with
    | single => simp at he
    | left _ _ hne' => simp at he; exact absurd he.1.symm hne
    | right => simp at he; rw [he]

theorem EdgesWf.inc {n : Nat} {edges : List (List Nat)} (h : EdgesWf n edges) {e : List Nat} (he : e ∈ edges) {v : Nat}
    (hv : v ∈ e) : ∃ o, Inc e v o := by
  rcases h e he with ⟨a, rfl, _⟩ | ⟨a, b, rfl, hab, _, _⟩
  · rw [List.mem_singleton] at hv; subst hv; exact ⟨none, .single _⟩
  · rcases List.mem_cons.1 hv with rfl | hv
    · exact ⟨some b, .left _ _ hab⟩
    · rw [List.mem_singleton] at hv; subst hv; exact ⟨some a, .right _ _ hab.symm⟩

theorem EdgesWf.lt {n : Nat} {edges : List (List Nat)} (h : EdgesWf n edges) {e : List Nat} (he : e ∈ edges) {v : Nat}
    (hv : v ∈ e) : v < n := by
  rcases h e he with ⟨a, rfl, ha⟩ | ⟨a, b, rfl, hab, ha, hb⟩ <;> simp at hv
  · omega
  · rcases hv with rfl | rfl <;> assumption

theorem touches_single {edges : List (List Nat)} {i a : Nat} (h : edges[i]? = some [a]) : touches edges i = dot a := by
  funext v; rw [touches_some h]; simp [dot]

theorem touches_inc {edges : List (List Nat)} {i a b : Nat} {e : List Nat} (h : edges[i]? = some e) (hi : Inc e a (some b)) :
    touches edges i = dots a b := by
  funext v; rw [touches_some h]
  cases hi with
  | left _ _ hne =>
    by_cases h1 : v = a <;> by_cases h2 : v = b <;> simp_all [dots]
  | right _ _ hne =>
    by_cases h1 : v = a <;> by_cases h2 : v = b <;> simp_all [dots]

/-- The graph itself, and its enabled edges have enabled ends. -/
structure GraphOk (g : EGraph) : Prop where
  wf : EdgesWf g.n g.edges
  ends : ∀ i e, g.eOn i = true → g.edges[i]? = some e → ∀ v ∈ e, g.vOn v = true
  vlt : ∀ v, g.vOn v = true → v < g.n
  elt : ∀ i, g.eOn i = true → i < g.edges.length

/-- `N` are the neighbour lists for the edges in `S`. -/
structure NbrFor (edges : List (List Nat)) (S : Nat → Bool) (N : Nat → List (Nat × Option Nat)) : Prop where
  nodup : ∀ v, (N v).Nodup
  mem : ∀ v i o, (i, o) ∈ N v ↔ S i = true ∧ ∃ e, edges[i]? = some e ∧ Inc e v o

theorem edgePairs_spec {n : Nat} {edges : List (List Nat)} (h : EdgesWf n edges) {e : List Nat} (he : e ∈ edges) :
    ∃ ps, edgePairs e = .ok ps ∧ (ps.map Prod.fst).Nodup ∧ ∀ v o, (v, o) ∈ ps ↔ Inc e v o := by
  rcases h e he with ⟨a, rfl, _⟩ | ⟨a, b, rfl, hab, _, _⟩
  · refine ⟨[(a, none)], rfl, by simp, fun v o => ⟨fun hm => ?_, fun hi => ?_⟩⟩
    · simp at hm; obtain ⟨rfl, rfl⟩ := hm; exact .single _
    · cases hi; simp
  · refine ⟨[(a, some b), (b, some a)], rfl, by simpa using hab, fun v o => ⟨fun hm => ?_, fun hi => ?_⟩⟩
    · simp at hm
      rcases hm with ⟨rfl, rfl⟩ | ⟨rfl, rfl⟩
      · exact .left _ _ hab
      · exact .right _ _ hab.symm
    · cases hi <;> simp

/-- Adding the entries of an edge to the lists. -/
theorem addNeighbours_spec {n : Nat} {edges : List (List Nat)} (h : EdgesWf n edges) {e : List Nat} (he : e ∈ edges) (k : Nat)
    (N : Nat → List (Nat × Option Nat)) (hnd : ∀ v, (N v).Nodup) (hk : ∀ v o, (k, o) ∉ N v) :
    ∃ N', addNeighbours N k e = .ok N' ∧ (∀ v, (N' v).Nodup) ∧
      ∀ v i o, (i, o) ∈ N' v ↔ (i, o) ∈ N v ∨ (i = k ∧ Inc e v o) := by
  obtain ⟨ps, hps, hndp, hm⟩ := edgePairs_spec h he
  have key : ∀ (ps : List (Nat × Option Nat)) (N : Nat → List (Nat × Option Nat)), (ps.map Prod.fst).Nodup →
      (∀ v, (N v).Nodup) → (∀ v o, v ∈ ps.map Prod.fst → (k, o) ∉ N v) →
      ∃ N', loopE (fun (N : Nat → List (Nat × Option Nat)) (p : Nat × Option Nat) =>
        if (k, p.2) ∈ N p.1 then .error .assertionError else .ok (Function.update N p.1 (N p.1 ++ [(k, p.2)]))) N ps = .ok N' ∧
        (∀ v, (N' v).Nodup) ∧ ∀ v i o, (i, o) ∈ N' v ↔ (i, o) ∈ N v ∨ (i = k ∧ (v, o) ∈ ps) := by
    intro ps
    induction ps with
    | nil => intro N _ hnd _; exact ⟨N, rfl, hnd, by simp⟩
    | cons p ps ih =>
      obtain ⟨a, oa⟩ := p
      intro N hps hnd hk
      rw [List.map_cons, List.nodup_cons] at hps
      have hka : ∀ o, (k, o) ∉ N a := fun o => hk a o (by simp)
      obtain ⟨N', e', hnd', hm'⟩ := ih (Function.update N a (N a ++ [(k, oa)])) hps.2
        (fun v => by
          by_cases hv : v = a
          · subst hv
            rw [Function.update_self]
            exact List.nodup_append.2 ⟨hnd _, by simp, by
              intro x hx y hy; rw [List.mem_singleton] at hy; subst hy; rintro rfl; exact hka _ hx⟩
          · rw [Function.update_of_ne hv]; exact hnd v)
        (fun v o hv => by
          have hva : v ≠ a := by rintro rfl; exact hps.1 hv
          rw [Function.update_of_ne hva]
          exact hk v o (List.mem_cons_of_mem _ hv))
      refine ⟨N', (loopE_step (by simp only; rw [if_neg (hka oa)])).trans e', hnd', fun v i o => ?_⟩
      rw [hm']
      by_cases hv : v = a
      · subst hv
        rw [Function.update_self, List.mem_append, List.mem_singleton, List.mem_cons]
        constructor
        · rintro ((hx | hx) | hx)
          · exact .inl hx
          · rw [Prod.mk.injEq] at hx; exact .inr ⟨hx.1, .inl (by rw [hx.2])⟩
          · exact .inr ⟨hx.1, .inr hx.2⟩
        · rintro (hx | ⟨rfl, hx | hx⟩)
          · exact .inl (.inl hx)
          · rw [Prod.mk.injEq] at hx; exact .inl (.inr (by rw [hx.2]))
          · exact .inr ⟨rfl, hx⟩
      · rw [Function.update_of_ne hv, List.mem_cons]
        constructor
        · rintro (hx | hx)
          · exact .inl hx
          · exact .inr ⟨hx.1, .inr hx.2⟩
        · rintro (hx | ⟨rfl, hx | hx⟩)
          · exact .inl hx
          · rw [Prod.mk.injEq] at hx; exact absurd hx.1 hv
          · exact .inr ⟨rfl, hx⟩
  obtain ⟨N', e', h1, h2⟩ := key ps N hndp hnd (fun v o _ => hk v o)
  refine ⟨N', ?_, h1, fun v i o => by rw [h2, hm]⟩
  simp only [addNeighbours, hps]
  exact e'

theorem assertOn_ok {g : EGraph} : ∀ {e : List Nat}, (∀ v ∈ e, v < g.n ∧ g.vOn v = true) → g.assertOn e = .ok ()
  | [], _ => rfl
  | v :: vs, h => by
    have hv := h v (by simp)
    simp only [EGraph.assertOn, hv.1, hv.2, if_true]
    exact assertOn_ok (fun u hu => h u (List.mem_cons_of_mem _ hu))

theorem GraphOk.assertOn {g : EGraph} (h : GraphOk g) {e : List Nat} (hv : ∀ v ∈ e, g.vOn v = true) : g.assertOn e = .ok () :=
  assertOn_ok (fun v hm => ⟨h.vlt v (hv v hm), hv v hm⟩)

theorem updateNeighbours_spec {g : EGraph} (h : GraphOk g) :
    ∃ N, g.updateNeighbours = .ok { g with nbr := some N } ∧ NbrFor g.edges g.eOn N := by
  obtain ⟨s, e, h1, h2, h3, h4⟩ := loopE_inv (f := g.nbrStep)
    (fun k (s : (Nat → List (Nat × Option Nat)) × (Nat → List (Nat × Option Nat))) =>
      (∀ v, (s.1 v).Nodup) ∧ (∀ v, (s.2 v).Nodup) ∧
      (∀ v i o, (i, o) ∈ s.1 v ↔ i < k ∧ g.eOn i = true ∧ ∃ e, g.edges[i]? = some e ∧ Inc e v o) ∧
      ∀ v i o, (i, o) ∈ s.2 v → i < k)
    g.edges.zipIdx 0 (fun _ => [], fun _ => []) ⟨by simp, by simp, by simp, by simp⟩ (by
      rintro j ⟨e, i⟩ ⟨N, M⟩ hj ⟨h1, h2, h3, h4⟩
      rw [List.getElem?_zipIdx] at hj
      cases hej : g.edges[j]? with
      | none => rw [hej] at hj; simp at hj
      | some e' =>
        rw [hej] at hj
        simp at hj
        obtain ⟨rfl, rfl⟩ := hj
        have hmem : e' ∈ g.edges := List.mem_of_getElem? hej
        simp only [EGraph.nbrStep]
        cases hon : g.eOn j
        · obtain ⟨M', e1, h5, h6⟩ := addNeighbours_spec h.wf hmem j M h2 (fun v o hm => by have := h4 v j o hm; omega)
          refine ⟨(N, M'), ?_, h1, h5, fun v i o => ?_, fun v i o hm => ?_⟩
          · simp only [e1]; rfl
          · rw [h3]
            constructor
            · rintro ⟨a, b⟩; exact ⟨by omega, b⟩
            · rintro ⟨a, b⟩
              refine ⟨?_, b⟩
              rcases Nat.lt_succ_iff_lt_or_eq.1 a with a | a
              · exact a
              · rw [Nat.zero_add] at a; subst a; rw [hon] at b; simp at b
          · rcases (h6 v i o).1 hm with hm | hm
            · have := h4 v i o hm; omega
            · omega
        · obtain ⟨N', e1, h5, h6⟩ := addNeighbours_spec h.wf hmem j N h1 (fun v o hm => by
            have := ((h3 v j o).1 hm).1; omega)
          refine ⟨(N', M), ?_, h5, h2, fun v i o => ?_, fun v i o hm => ?_⟩
          · simp only [if_true, h.assertOn (h.ends j e' hon hej), e1]
          · rw [h6, h3]
            constructor
            · rintro (⟨a, b⟩ | ⟨rfl, b⟩)
              · exact ⟨by omega, b⟩
              · exact ⟨by omega, hon, e', hej, b⟩
            · rintro ⟨a, b, e'', he'', hi⟩
              rcases Nat.lt_succ_iff_lt_or_eq.1 a with a | a
              · exact .inl ⟨a, b, e'', he'', hi⟩
              · rw [Nat.zero_add] at a; subst a
                rw [hej] at he''
                cases he''
                exact .inr ⟨rfl, hi⟩
          · have := h4 v i o hm; simp only at *; omega)
  refine ⟨s.1, ?_, ⟨h1, fun v i o => ?_⟩⟩
  · simp only [EGraph.updateNeighbours, e]
  · rw [h3]
    constructor
    · rintro ⟨_, b⟩; exact b
    · rintro ⟨a, b⟩
      exact ⟨by have := h.elt i a; simpa using this, a, b⟩

/-! ## Disabling an edge -/

theorem loop_disable (i : Nat) : ∀ (ps : List (Nat × Option Nat)) (N : Nat → List (Nat × Option Nat)) (L : Option (List Nat)),
    (ps.map Prod.fst).Nodup → (∀ p ∈ ps, (i, p.2) ∈ N p.1) →
    ∃ N' L', loopE (EGraph.pairStep i false) (N, L) ps = .ok (N', L') ∧
      (∀ v o, (v, o) ∈ ps → N' v = (N v).erase (i, o)) ∧ (∀ v, v ∉ ps.map Prod.fst → N' v = N v) ∧
      (L = none → L' = none) ∧
      ∀ l, L = some l → (∀ v ∈ ps.map Prod.fst, 2 ≤ (N v).length → v ∉ l) → l.Nodup →
        ∃ l', L' = some l' ∧ l'.Nodup ∧ ∀ v, v ∈ l' ↔ v ∈ l ∨ (v ∈ ps.map Prod.fst ∧ (N v).length = 2) := by
  intro ps
  induction ps with
  | nil => intro N L _ _; exact ⟨N, L, rfl, by simp, by simp, by simp, fun l hl _ hnd => ⟨l, hl, hnd, by simp⟩⟩
  | cons p ps ih =>
    obtain ⟨a, o⟩ := p
    intro N L hps hm
    rw [List.map_cons, List.nodup_cons] at hps
    have hma : (i, o) ∈ N a := hm (a, o) (by simp)
    have hlen : ((N a).erase (i, o)).length = (N a).length - 1 := List.length_erase_of_mem hma
    have hpos : 0 < (N a).length := List.length_pos_of_mem hma
    obtain ⟨L1, hL1⟩ : ∃ L1, L1 = L.map fun l =>
        if ((N a).erase (i, o)).length ≤ 1 ∧ ¬ (N a).length ≤ 1 then a :: l else l := ⟨_, rfl⟩
    have hstep : EGraph.pairStep i false (N, L) (a, o) = .ok (Function.update N a ((N a).erase (i, o)), L1) := by
      subst hL1
      simp only [EGraph.pairStep]
      rw [if_neg (by simp), if_neg (by simpa using hma)]
      cases L <;> simp
    have hother : ∀ v, v ∈ ps.map Prod.fst → Function.update N a ((N a).erase (i, o)) v = N v := fun v hv => by
      rw [Function.update_of_ne]; rintro rfl; exact hps.1 hv
    obtain ⟨N', L', e, h1, h2, h3, h4⟩ := ih (Function.update N a ((N a).erase (i, o))) L1 hps.2 (fun p hp => by
      rw [hother p.1 (List.mem_map_of_mem hp)]
      exact hm p (List.mem_cons_of_mem _ hp))
    refine ⟨N', L', (loopE_step hstep).trans e, fun v o' hv => ?_, fun v hv => ?_, fun hn => h3 (by rw [hL1, hn]; rfl),
      fun l hl hb hnd => ?_⟩
    · rcases List.mem_cons.1 hv with hv | hv
      · rw [Prod.mk.injEq] at hv
        obtain ⟨rfl, rfl⟩ := hv
        rw [h2 v hps.1, Function.update_self]
      · rw [h1 v o' hv, hother v (List.mem_map_of_mem (f := Prod.fst) hv)]
    · rw [List.map_cons, List.mem_cons, not_or] at hv
      rw [h2 v hv.2, Function.update_of_ne hv.1]
    · subst hl
      obtain ⟨l', e', hnd', hl'⟩ := h4 _ hL1 (fun v hv hge => by
          rw [hother v hv] at hge
          have hva : v ≠ a := by rintro rfl; exact hps.1 hv
          have := hb v (List.mem_cons_of_mem _ hv) hge
          split
          · simp [hva, this]
          · exact this) (by
          split
          · rename_i hc
            exact List.nodup_cons.2 ⟨hb a (by simp) (by omega), hnd⟩
          · exact hnd)
      refine ⟨l', e', hnd', fun v => ?_⟩
      rw [hl', List.map_cons, List.mem_cons]
      by_cases hva : v = a
      · subst hva
        have : ¬ v ∈ ps.map Prod.fst := hps.1
        constructor
        · rintro (hx | hx)
          · split at hx
            · rename_i hc
              exact .inr ⟨.inl rfl, by omega⟩
            · exact .inl hx
          · exact absurd hx.1 this
        · rintro (hx | ⟨_, hx⟩)
          · left; split
            · exact List.mem_cons_of_mem _ hx
            · exact hx
          · left; show v ∈ (if _ then _ else _); rw [if_pos (by omega)]; simp
      · constructor
        · rintro (hx | ⟨hx, hy⟩)
          · split at hx
            · exact .inl ((List.mem_cons.1 hx).resolve_left hva)
            · exact .inl hx
          · rw [hother v hx] at hy; exact .inr ⟨.inr hx, hy⟩
        · rintro (hx | ⟨hx | hx, hy⟩)
          · left; split
            · exact List.mem_cons_of_mem _ hx
            · exact hx
          · exact absurd hx hva
          · exact .inr ⟨hx, by rw [hother v hx]; exact hy⟩

/-- Disabling an enabled edge. -/
theorem enableEdge_false {g : EGraph} (h : GraphOk g) {N : Nat → List (Nat × Option Nat)} (hn : g.nbr = some N)
    (hN : NbrFor g.edges g.eOn N) {i : Nat} {e : List Nat} (he : g.edges[i]? = some e) (hon : g.eOn i = true) :
    ∃ N' L', g.enableEdge i false = .ok { g with eOn := Function.update g.eOn i false, nbr := some N', leaves := L' } ∧
      NbrFor g.edges (Function.update g.eOn i false) N' ∧
      (∀ v, v ∈ e → (N' v).length + 1 = (N v).length) ∧ (∀ v, v ∉ e → N' v = N v) ∧ (g.leaves = none → L' = none) ∧
      ∀ l, g.leaves = some l → (∀ v ∈ e, 2 ≤ (N v).length → v ∉ l) → l.Nodup →
        ∃ l', L' = some l' ∧ l'.Nodup ∧ ∀ v, v ∈ l' ↔ v ∈ l ∨ (v ∈ e ∧ (N v).length = 2) := by
  have hmem : e ∈ g.edges := List.mem_of_getElem? he
  obtain ⟨ps, hps, hndp, hm⟩ := edgePairs_spec h.wf hmem
  have hfst : ∀ v, v ∈ ps.map Prod.fst ↔ v ∈ e := fun v => by
    constructor
    · intro hv
      obtain ⟨⟨a, o⟩, hp, rfl⟩ := List.mem_map.1 hv
      exact ((hm a o).1 hp).mem
    · intro hv
      obtain ⟨o, ho⟩ := h.wf.inc hmem hv
      exact List.mem_map.2 ⟨(v, o), (hm v o).2 ho, rfl⟩
  have hin : ∀ p ∈ ps, (i, p.2) ∈ N p.1 := fun p hp => (hN.mem _ _ _).2 ⟨hon, e, he, (hm p.1 p.2).1 hp⟩
  obtain ⟨N', L', e1, h1, h2, h3, h4⟩ := loop_disable i ps N g.leaves hndp hin
  refine ⟨N', L', ?_, ⟨fun v => ?_, fun v j o => ?_⟩, fun v hv => ?_, fun v hv => ?_, h3, fun l hl hb hnd => ?_⟩
  · simp only [EGraph.enableEdge, he, h.assertOn (h.ends i e hon he), hn, hon, hps, e1]
    rfl
  · by_cases hv : v ∈ e
    · obtain ⟨o, ho⟩ := h.wf.inc hmem hv
      rw [h1 v o ((hm v o).2 ho)]
      exact (hN.nodup v).erase _
    · rw [h2 v (by rwa [hfst])]; exact hN.nodup v
  · by_cases hv : v ∈ e
    · obtain ⟨o', ho⟩ := h.wf.inc hmem hv
      rw [h1 v o' ((hm v o').2 ho), (hN.nodup v).mem_erase_iff, hN.mem]
      by_cases hj : j = i
      · subst hj
        rw [Function.update_self]
        constructor
        · rintro ⟨hne, _, e'', he'', hi⟩
          rw [he] at he''; cases he''
          exact absurd (by rw [hi.unique ho]) hne
        · rintro ⟨hf, _⟩; simp at hf
      · rw [Function.update_of_ne hj]
        constructor
        · rintro ⟨_, hx⟩; exact hx
        · intro hx; exact ⟨by simp [hj], hx⟩
    · rw [h2 v (by rwa [hfst]), hN.mem]
      by_cases hj : j = i
      · subst hj
        rw [Function.update_self]
        constructor
        · rintro ⟨_, e'', he'', hi⟩
          rw [he] at he''; cases he''
          exact absurd hi.mem hv
        · rintro ⟨hf, _⟩; simp at hf
      · rw [Function.update_of_ne hj]
  · obtain ⟨o, ho⟩ := h.wf.inc hmem hv
    have hmem' := hin (v, o) ((hm v o).2 ho)
    rw [h1 v o ((hm v o).2 ho), List.length_erase_of_mem hmem']
    have := List.length_pos_of_mem hmem'
    simp only at *
    omega
  · exact h2 v (by rwa [hfst])
  · obtain ⟨l', e', hnd', hl'⟩ := h4 l hl (fun v hv => hb v ((hfst v).1 hv)) hnd
    exact ⟨l', e', hnd', fun v => by rw [hl', hfst]⟩

/-- Enabling an edge while there are no neighbour lists. -/
theorem enableEdge_true {g : EGraph} (h : GraphOk g) (hn : g.nbr = none) {i : Nat} {e : List Nat} (he : g.edges[i]? = some e)
    (hv : ∀ v ∈ e, g.vOn v = true) : g.enableEdge i true = .ok { g with eOn := Function.update g.eOn i true } := by
  simp only [EGraph.enableEdge, he, h.assertOn hv, hn]

theorem enableVertex_true {g : EGraph} {v : Nat} (hv : v < g.n) :
    g.enableVertex v true = .ok { g with vOn := Function.update g.vOn v true } := by
  simp only [EGraph.enableVertex, hv, if_true]

theorem enableVertex_false {g : EGraph} {N : Nat → List (Nat × Option Nat)} (hn : g.nbr = some N) {v : Nat} (hv : v < g.n)
    (h0 : N v = []) : g.enableVertex v false = .ok { g with vOn := Function.update g.vOn v false } := by
  simp [EGraph.enableVertex, hv, hn, h0]

end Plaquette
