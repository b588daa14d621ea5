import Verif.Lemmas.UFStep
import Mathlib.Data.Set.Card
import Mathlib.Data.Nat.Cast.Basic
import Mathlib.Tactic.Ring
import Mathlib.Tactic.LinearCombination
import Mathlib.Algebra.BigOperators.Intervals

/-!
# Union find: how far the clusters reach

The vertices of the graph have positions on a line or on a circle, and an edge joins vertices of the same position or crosses one of
several lines. A cluster reaches over an arc. The lengths of all arcs together are bounded by the number of errors.
-/

namespace Plaquette

variable {P : Type} [CommRing P]

/-- A part of the line or circle: it starts at `a` and has the length `len`. -/
structure Arc (P : Type) where
  a : P
  len : Nat

/-- The points of an arc. -/
def Arc.Pt (A : Arc P) (p : P) : Prop := ∃ k : Nat, k ≤ A.len ∧ p = A.a + k

/-- The segments of an arc, given by where they start. -/
def Arc.Seg (A : Arc P) (p : P) : Prop := ∃ k : Nat, k < A.len ∧ p = A.a + k

theorem Arc.Seg.left {A : Arc P} {p : P} (h : A.Seg p) : A.Pt p := let ⟨k, hk, e⟩ := h; ⟨k, hk.le, e⟩

theorem Arc.Seg.right {A : Arc P} {p : P} (h : A.Seg p) : A.Pt (p + 1) := by
  obtain ⟨k, hk, rfl⟩ := h
  exact ⟨k + 1, hk, by push_cast; ring⟩

/-- One arc contains another. -/
structure Arc.Sub (A B : Arc P) : Prop where
  pt : ∀ p, A.Pt p → B.Pt p
  seg : ∀ p, A.Seg p → B.Seg p

theorem Arc.Sub.refl (A : Arc P) : A.Sub A := ⟨fun _ h => h, fun _ h => h⟩

theorem Arc.Sub.trans {A B C : Arc P} (h : A.Sub B) (h' : B.Sub C) : A.Sub C := ⟨fun p hp => h'.pt p (h.pt p hp), fun p hp => h'.seg p (h.seg p hp)⟩

theorem Arc.sub_of {A B : Arc P} (k : Nat) (ha : A.a = B.a + k) (hl : k + A.len ≤ B.len) : A.Sub B := by
  constructor
  · rintro p ⟨m, hm, rfl⟩
    exact ⟨k + m, by omega, by rw [ha]; push_cast; ring⟩
  · rintro p ⟨m, hm, rfl⟩
    exact ⟨k + m, by omega, by rw [ha]; push_cast; ring⟩

/-- Two arcs with a point in common are in an arc that is not longer than both together. -/
theorem Arc.join {A B : Arc P} {p : P} (hA : A.Pt p) (hB : B.Pt p) : ∃ C : Arc P, A.Sub C ∧ B.Sub C ∧ C.len ≤ A.len + B.len := by
  have key : ∀ {A B : Arc P} {k m : Nat}, k ≤ A.len → m ≤ B.len → A.a + k = B.a + m → m ≤ k →
      ∃ C : Arc P, A.Sub C ∧ B.Sub C ∧ C.len ≤ A.len + B.len := by
    intro A B k m hk hm h hmk
    refine ⟨⟨A.a, A.len + B.len⟩, Arc.sub_of 0 (by simp) (by show 0 + A.len ≤ A.len + B.len; omega),
      Arc.sub_of (k - m) ?_ (by show k - m + B.len ≤ A.len + B.len; omega), le_rfl⟩
    show B.a = A.a + ((k - m : Nat) : P)
    rw [Nat.cast_sub hmk]
    linear_combination -h
  obtain ⟨k, hk, e1⟩ := hA
  obtain ⟨m, hm, e2⟩ := hB
  rcases le_total m k with h | h
  · exact key hk hm (e1.symm.trans e2) h
  · obtain ⟨C, h1, h2, h3⟩ := key hm hk (e2.symm.trans e1) h
    exact ⟨C, h2, h1, by omega⟩

/-- The arc with one more segment on both sides. -/
def Arc.grow (A : Arc P) : Arc P := ⟨A.a - 1, A.len + 2⟩

theorem Arc.sub_grow (A : Arc P) : A.Sub A.grow := Arc.sub_of 1 (by simp [Arc.grow]) (by show 1 + A.len ≤ A.len + 2; omega)

theorem Arc.grow_seg {A : Arc P} {p : P} (h : A.Pt p) : A.grow.Seg p ∧ A.grow.Seg (p - 1) := by
  obtain ⟨k, hk, rfl⟩ := h
  exact ⟨⟨k + 1, by show k + 1 < A.len + 2; omega, by show A.a + k = A.a - 1 + ((k + 1 : Nat) : P); push_cast; ring⟩,
    ⟨k, by show k < A.len + 2; omega, by show A.a + k - 1 = A.a - 1 + (k : P); ring⟩⟩

/-! ## Labels -/

/-- Each vertex has a label and each label an arc. -/
structure Labels (P : Type) where
  lab : Nat → Nat
  arc : Nat → Arc P

/-- The arc of a vertex. -/
def Labels.at (S : Labels P) (v : Nat) : Arc P := S.arc (S.lab v)

/-- The length of all arcs. -/
def Labels.total (S : Labels P) (n : Nat) : Nat := ∑ l ∈ Finset.range n, (S.arc l).len

/-- Arcs have grown and labels have been joined. -/
structure Labels.Le (n : Nat) (S S' : Labels P) : Prop where
  lt : ∀ v < n, S'.lab v < n
  same : ∀ u < n, ∀ v < n, S.lab u = S.lab v → S'.lab u = S'.lab v
  sub : ∀ v < n, (S.at v).Sub (S'.at v)

theorem Labels.Le.trans {n : Nat} {S S' S'' : Labels P} (h : S.Le n S') (h' : S'.Le n S'') : S.Le n S'' :=
  ⟨h'.lt, fun u hu v hv e => h'.same u hu v hv (h.same u hu v hv e), fun v hv => (h.sub v hv).trans (h'.sub v hv)⟩

theorem Labels.Le.refl {n : Nat} {S : Labels P} (h : ∀ v < n, S.lab v < n) : S.Le n S := ⟨h, fun _ _ _ _ e => e, fun _ _ => Arc.Sub.refl _⟩

/-- The labels of two vertices are joined. -/
theorem Labels.join {n : Nat} {S : Labels P} (hlt : ∀ v < n, S.lab v < n) {u v : Nat} (hu : u < n) (hv : v < n) {p : P}
    (h1 : (S.at u).Pt p) (h2 : (S.at v).Pt p) : ∃ S' : Labels P, S.Le n S' ∧ S'.lab u = S'.lab v ∧ S'.total n ≤ S.total n := by
  by_cases he : S.lab u = S.lab v
  · exact ⟨S, Labels.Le.refl hlt, he, le_rfl⟩
  obtain ⟨C, h3, h4, h5⟩ := Arc.join h1 h2
  set f : Nat → Nat := fun l => if l = S.lab v then S.lab u else l with hf
  set ar : Nat → Arc P := fun l => if l = S.lab u then C else if l = S.lab v then ⟨0, 0⟩ else S.arc l with har
  refine ⟨⟨fun w => f (S.lab w), ar⟩, ⟨fun w hw => ?_, fun w hw w' hw' e => congrArg f e, fun w hw => ?_⟩, ?_, ?_⟩
  · show f (S.lab w) < n
    simp only [hf]
    split
    · exact hlt u hu
    · exact hlt w hw
  · show (S.arc (S.lab w)).Sub (ar (f (S.lab w)))
    simp only [hf, har]
    by_cases hw1 : S.lab w = S.lab v
    · rw [if_pos hw1, if_pos rfl, hw1]; exact h4
    · rw [if_neg hw1]
      by_cases hw2 : S.lab w = S.lab u
      · rw [if_pos hw2, hw2]; exact h3
      · rw [if_neg hw2, if_neg hw1]; exact Arc.Sub.refl _
  · show f (S.lab u) = f (S.lab v)
    simp [hf]
  · show ∑ l ∈ Finset.range n, (ar l).len ≤ ∑ l ∈ Finset.range n, (S.arc l).len
    have hu' := Finset.mem_range.2 (hlt u hu)
    have hv' : S.lab v ∈ (Finset.range n).erase (S.lab u) := Finset.mem_erase.2 ⟨Ne.symm he, Finset.mem_range.2 (hlt v hv)⟩
    rw [← Finset.add_sum_erase _ _ hu', ← Finset.add_sum_erase _ _ hv', ← Finset.add_sum_erase _ (fun l => (S.arc l).len) hu',
      ← Finset.add_sum_erase _ (fun l => (S.arc l).len) hv']
    have e1 : ar (S.lab u) = C := by simp [har]
    have e2 : ar (S.lab v) = ⟨0, 0⟩ := by simp [har, Ne.symm he]
    have e3 : ∀ l ∈ ((Finset.range n).erase (S.lab u)).erase (S.lab v), (ar l).len = (S.arc l).len := by
      intro l hl
      simp only [Finset.mem_erase] at hl
      simp [har, hl.1, hl.2.1]
    rw [Finset.sum_congr rfl e3, e1, e2]
    show C.len + (0 + _) ≤ _
    have : C.len ≤ (S.arc (S.lab u)).len + (S.arc (S.lab v)).len := h5
    omega

/-- The arc of a vertex gets two more segments. -/
theorem Labels.extend {n : Nat} {S : Labels P} (hlt : ∀ v < n, S.lab v < n) {u : Nat} (hu : u < n) {p : P}
    (h : (S.at u).Pt p ∨ (S.at u).Pt (p + 2)) :
    ∃ S' : Labels P, S.Le n S' ∧ S'.lab = S.lab ∧ (S'.at u).Seg p ∧ (S'.at u).Seg (p + 1) ∧ S'.total n ≤ S.total n + 2 := by
  have hB1 : (⟨p, 2⟩ : Arc P).Pt p := ⟨0, by simp, by simp⟩
  have hB2 : (⟨p, 2⟩ : Arc P).Pt (p + 2) := ⟨2, le_rfl, by simp⟩
  obtain ⟨C, h3, h4, h5⟩ : ∃ C : Arc P, (S.at u).Sub C ∧ (⟨p, 2⟩ : Arc P).Sub C ∧ C.len ≤ (S.at u).len + 2 := by
    rcases h with h | h
    · exact Arc.join h hB1
    · exact Arc.join h hB2
  refine ⟨⟨S.lab, Function.update S.arc (S.lab u) C⟩, ⟨hlt, fun _ _ _ _ e => e, fun w hw => ?_⟩, rfl, ?_, ?_, ?_⟩
  · show (S.arc (S.lab w)).Sub (Function.update S.arc (S.lab u) C (S.lab w))
    by_cases hw1 : S.lab w = S.lab u
    · rw [hw1, Function.update_self]; exact h3
    · rw [Function.update_of_ne hw1]; exact Arc.Sub.refl _
  · show (Function.update S.arc (S.lab u) C (S.lab u)).Seg p
    rw [Function.update_self]
    exact h4.seg _ ⟨0, by simp, by simp⟩
  · show (Function.update S.arc (S.lab u) C (S.lab u)).Seg (p + 1)
    rw [Function.update_self]
    exact h4.seg _ ⟨1, by simp, by simp⟩
  · show ∑ l ∈ Finset.range n, (Function.update S.arc (S.lab u) C l).len ≤ ∑ l ∈ Finset.range n, (S.arc l).len + 2
    have hu' := Finset.mem_range.2 (hlt u hu)
    rw [← Finset.add_sum_erase _ _ hu', ← Finset.add_sum_erase _ (fun l => (S.arc l).len) hu', Function.update_self]
    rw [Finset.sum_congr rfl (g := fun l => (S.arc l).len) (fun l hl => by rw [Function.update_of_ne (Finset.mem_erase.1 hl).1])]
    have : C.len ≤ (S.arc (S.lab u)).len + 2 := h5
    omega

/-! ## Edges -/

/-- Positions of the vertices, and the line that an edge crosses (given by the position on its left side). -/
structure Layout (P : Type) [CommRing P] (n : Nat) (edges : List (List Nat)) where
  pos : Nat → P
  seg : Nat → Option P
  same : ∀ i a b, edges[i]? = some [a, b] → seg i = none → pos a = pos b
  cross : ∀ i a b p, edges[i]? = some [a, b] → seg i = some p → (pos a = p ∧ pos b = p + 2) ∨ (pos b = p ∧ pos a = p + 2)
  dangle : ∀ i a p, edges[i]? = some [a] → seg i = some p → pos a = p ∨ pos a = p + 2

variable {n : Nat} {edges : List (List Nat)} (Y : Layout P n edges)

/-- The position of a vertex of a crossing edge. -/
theorem Layout.ends (hwf : EdgesWf n edges) {i : Nat} {e : List Nat} (he : edges[i]? = some e) {p : P} (hp : Y.seg i = some p) {u : Nat} (hu : u ∈ e) :
    Y.pos u = p ∨ Y.pos u = p + 2 := by
  rcases hwf.cases he with ⟨a, rfl⟩ | ⟨a, b, rfl, _⟩
  · rw [List.mem_singleton] at hu; subst hu
    exact Y.dangle i _ p he hp
  · simp only [List.mem_cons, List.not_mem_nil, or_false] at hu
    rcases Y.cross i a b p he hp with ⟨h1, h2⟩ | ⟨h1, h2⟩ <;> rcases hu with rfl | rfl <;> tauto

/-- The vertices are on the arcs of their labels. -/
structure Placed (S : Labels P) : Prop where
  lt : ∀ v < n, S.lab v < n
  on : ∀ v < n, (S.at v).Pt (Y.pos v)

theorem Placed.mono {S S' : Labels P} (h : Placed Y S) (hs : S.Le n S') : Placed Y S' :=
  ⟨hs.lt, fun v hv => (hs.sub v hv).pt _ (h.on v hv)⟩

/-- A complete edge: it is in one cluster, with the line that it crosses. -/
structure EdgeIn (S : Labels P) (i : Nat) : Prop where
  lab : ∀ a b, edges[i]? = some [a, b] → S.lab a = S.lab b
  seg : ∀ e p, edges[i]? = some e → Y.seg i = some p → ∀ u ∈ e, (S.at u).Seg p ∧ (S.at u).Seg (p + 1)

theorem EdgeIn.mono (hwf : EdgesWf n edges) {S S' : Labels P} {i : Nat} (h : EdgeIn Y S i) (hs : S.Le n S') : EdgeIn Y S' i := by
  refine ⟨fun a b he => ?_, fun e p he hp u hu => ?_⟩
  · have hl := fun v hv => hwf.lt (v := v) (List.mem_of_getElem? he) hv
    exact hs.same a (hl a (by simp)) b (hl b (by simp)) (h.lab a b he)
  · have := hs.sub u (hwf.lt (List.mem_of_getElem? he) hu)
    exact ⟨this.seg _ (h.seg e p he hp u hu).1, this.seg _ (h.seg e p he hp u hu).2⟩

/-- The line that an edge crosses is on the arcs of its ends: on that of one end, or one half on that of each end. -/
def EdgeReady (S : Labels P) (i : Nat) : Prop :=
  ∀ e p, edges[i]? = some e → Y.seg i = some p →
    (∃ u ∈ e, (S.at u).Seg p ∧ (S.at u).Seg (p + 1)) ∨ ∃ a b, e = [a, b] ∧ (((S.at a).Seg p ∧ (S.at b).Seg (p + 1)) ∨ ((S.at b).Seg p ∧ (S.at a).Seg (p + 1)))

theorem EdgeReady.mono (hwf : EdgesWf n edges) {S S' : Labels P} {i : Nat} (h : EdgeReady Y S i) (hs : S.Le n S') : EdgeReady Y S' i := by
  intro e p he hp
  have hl := fun v hv => hs.sub v (hwf.lt (v := v) (List.mem_of_getElem? he) hv)
  rcases h e p he hp with ⟨u, hu, h1, h2⟩ | ⟨a, b, rfl, h1⟩
  · exact .inl ⟨u, hu, (hl u hu).seg _ h1, (hl u hu).seg _ h2⟩
  · refine .inr ⟨a, b, rfl, ?_⟩
    rcases h1 with ⟨h1, h2⟩ | ⟨h1, h2⟩
    · exact .inl ⟨(hl a (by simp)).seg _ h1, (hl b (by simp)).seg _ h2⟩
    · exact .inr ⟨(hl b (by simp)).seg _ h1, (hl a (by simp)).seg _ h2⟩

/-- Joining the ends of an edge. -/
theorem EdgeReady.join (hwf : EdgesWf n edges) {S : Labels P} (hS : Placed Y S) {i : Nat} (h : EdgeReady Y S i) :
    ∃ S' : Labels P, S.Le n S' ∧ EdgeIn Y S' i ∧ S'.total n ≤ S.total n := by
  cases he : edges[i]? with
  | none => exact ⟨S, Labels.Le.refl hS.lt, ⟨(fun a b h => by rw [he] at h; cases h), fun e p h => by rw [he] at h; cases h⟩, le_rfl⟩
  | some e =>
  have hl := fun v hv => hwf.lt (v := v) (List.mem_of_getElem? he) hv
  rcases hwf.cases he with ⟨a, rfl⟩ | ⟨a, b, rfl, hab⟩
  · refine ⟨S, Labels.Le.refl hS.lt, ⟨fun a' b' h' => by rw [he] at h'; simp at h', fun e' p h' hp u hu => ?_⟩, le_rfl⟩
    rw [he] at h'; cases h'
    rw [List.mem_singleton] at hu; subst hu
    rcases h _ p he hp with ⟨u', hu', h1⟩ | ⟨a', b', h1, _⟩
    · rw [List.mem_singleton] at hu'; subst hu'; exact h1
    · simp at h1
  have ha := hl a (by simp)
  have hb := hl b (by simp)
  have fin : ∀ q, (S.at a).Pt q → (S.at b).Pt q → (∀ p, Y.seg i = some p → (((S.at a).Seg p ∨ (S.at b).Seg p) ∧ ((S.at a).Seg (p + 1) ∨ (S.at b).Seg (p + 1)))) →
      ∃ S' : Labels P, S.Le n S' ∧ EdgeIn Y S' i ∧ S'.total n ≤ S.total n := by
    intro q h1 h2 h3
    obtain ⟨S', h4, h5, h6⟩ := Labels.join hS.lt ha hb h1 h2
    have hat : S'.at a = S'.at b := by unfold Labels.at; rw [h5]
    refine ⟨S', h4, ⟨fun a' b' h' => ?_, fun e' p h' hp u hu => ?_⟩, h6⟩
    · rw [he] at h'
      simp only [Option.some.injEq, List.cons.injEq, and_true] at h'
      rw [← h'.1, ← h'.2, h5]
    · rw [he] at h'; cases h'
      have hu' : S'.at u = S'.at a := by
        simp only [List.mem_cons, List.not_mem_nil, or_false] at hu
        rcases hu with rfl | rfl
        · rfl
        · exact hat.symm
      rw [hu']
      have sa := h4.sub a ha
      have sb := h4.sub b hb
      rw [← hat] at sb
      obtain ⟨h7, h8⟩ := h3 p hp
      exact ⟨h7.elim (sa.seg _) (sb.seg _), h8.elim (sa.seg _) (sb.seg _)⟩
  cases hp : Y.seg i with
  | none =>
    refine fin (Y.pos a) (hS.on a ha) (by rw [Y.same i a b he hp]; exact hS.on b hb) ?_
    intro p h'; rw [hp] at h'; cases h'
  | some p =>
    rcases h _ p he hp with ⟨u, hu, h1, h2⟩ | ⟨a', b', h0, h1⟩
    · have hpt : ∀ v ∈ [a, b], (S.at u).Pt (Y.pos v) := by
        intro v hv
        rcases Y.ends hwf he hp hv with h' | h'
        · rw [h']; exact h1.left
        · rw [h', show p + 2 = p + 1 + 1 by ring]; exact h2.right
      have hs : ∀ p', some p = some p' → (S.at u).Seg p' ∧ (S.at u).Seg (p' + 1) := by rintro p' h'; cases h'; exact ⟨h1, h2⟩
      simp only [List.mem_cons, List.not_mem_nil, or_false] at hu
      rcases hu with rfl | rfl
      · exact fin (Y.pos b) (hpt b (by simp)) (hS.on b hb) fun p' h' => by rw [hp] at h'; exact ⟨.inl (hs p' h').1, .inl (hs p' h').2⟩
      · exact fin (Y.pos a) (hS.on a ha) (hpt a (by simp)) fun p' h' => by rw [hp] at h'; exact ⟨.inr (hs p' h').1, .inr (hs p' h').2⟩
    · simp only [List.cons.injEq, and_true] at h0
      obtain ⟨rfl, rfl⟩ := h0
      rcases h1 with ⟨h1, h2⟩ | ⟨h1, h2⟩
      · exact fin (p + 1) h1.right h2.left fun p' h' => by rw [hp] at h'; cases h'; exact ⟨.inl h1, .inr h2⟩
      · exact fin (p + 1) h2.left h1.right fun p' h' => by rw [hp] at h'; cases h'; exact ⟨.inr h1, .inl h2⟩

/-- Joining the ends of several edges. -/
theorem joinAll (hwf : EdgesWf n edges) : ∀ (l : List Nat) (S : Labels P), Placed Y S → (∀ i ∈ l, EdgeReady Y S i) →
    ∃ S' : Labels P, S.Le n S' ∧ (∀ i ∈ l, EdgeIn Y S' i) ∧ S'.total n ≤ S.total n := by
  intro l
  induction l with
  | nil => intro S hS _; exact ⟨S, Labels.Le.refl hS.lt, by simp, le_rfl⟩
  | cons i l ih =>
    intro S hS h
    obtain ⟨S1, h1, h2, h3⟩ := (h i (by simp)).join Y hwf hS
    obtain ⟨S2, h4, h5, h6⟩ := ih S1 (hS.mono Y h1) (fun j hj => (h j (List.mem_cons_of_mem _ hj)).mono Y hwf h1)
    refine ⟨S2, h1.trans h4, fun j hj => ?_, h6.trans h3⟩
    rcases List.mem_cons.1 hj with rfl | hj
    · exact h2.mono Y hwf h4
    · exact h5 j hj

/-- Erased edges: two segments for each. -/
theorem eraseAll (hwf : EdgesWf n edges) : ∀ (l : List Nat) (S : Labels P), Placed Y S →
    ∃ S' : Labels P, S.Le n S' ∧ (∀ i ∈ l, EdgeIn Y S' i) ∧ S'.total n ≤ S.total n + 2 * l.length := by
  intro l
  induction l with
  | nil => intro S hS; exact ⟨S, Labels.Le.refl hS.lt, by simp, le_rfl⟩
  | cons i l ih =>
    intro S hS
    have h0 : ∃ S0 : Labels P, S.Le n S0 ∧ EdgeReady Y S0 i ∧ S0.total n ≤ S.total n + 2 := by
      cases he : edges[i]? with
      | none => exact ⟨S, Labels.Le.refl hS.lt, (fun e p h => by rw [he] at h; cases h), by omega⟩
      | some e =>
      cases hp : Y.seg i with
      | none => exact ⟨S, Labels.Le.refl hS.lt, (fun e p _ h => by rw [hp] at h; cases h), by omega⟩
      | some p =>
        obtain ⟨u, hu⟩ : ∃ u, u ∈ e := by
          rcases hwf.cases he with ⟨a, rfl⟩ | ⟨a, b, rfl, _⟩
          · exact ⟨a, by simp⟩
          · exact ⟨a, by simp⟩
        have hul := hwf.lt (List.mem_of_getElem? he) hu
        obtain ⟨S0, h1, _, h2, h3, h4⟩ := Labels.extend hS.lt hul (p := p) (by
          have := hS.on u hul
          rcases Y.ends hwf he hp hu with h' | h' <;> rw [h'] at this
          · exact .inl this
          · exact .inr this)
        refine ⟨S0, h1, fun e' p' he' hp' => ?_, h4⟩
        rw [he] at he'; cases he'
        rw [hp] at hp'; cases hp'
        exact .inl ⟨u, hu, h2, h3⟩
    obtain ⟨S0, g1, g2, g3⟩ := h0
    obtain ⟨S1, h1, h2, h3⟩ := g2.join Y hwf (hS.mono Y g1)
    obtain ⟨S2, h4, h5, h6⟩ := ih S1 ((hS.mono Y g1).mono Y h1)
    refine ⟨S2, (g1.trans h1).trans h4, fun j hj => ?_, by rw [List.length_cons]; omega⟩
    rcases List.mem_cons.1 hj with rfl | hj
    · exact h2.mono Y hwf h4
    · exact h5 j hj

end Plaquette
