import Verif.Lemmas.Frame
import Verif.Lemmas.UFReach
import Verif.Lemmas.FaultEdges
import Mathlib.Data.Finset.Card

/-!
# Trails in a graph with dangling edges

An edge has one or two vertices. A trail goes from vertex to vertex along different edges; it may begin and end where a dangling edge
leaves the graph (`none`). A set of edges that has an even number of edges at each vertex is made of closed trails.
-/

namespace Plaquette

theorem xsum_diff {Z L : List Nat} (hZ : Z.Nodup) (hL : L.Nodup) (hs : ∀ i ∈ L, i ∈ Z) (f : Nat → Bool) :
    xsum (Z.filter fun i => decide (i ∉ L)) f = (xsum Z f ^^ xsum L f) := by
  have hp : Z.Perm (L ++ Z.filter fun i => decide (i ∉ L)) := by
    refine (List.perm_ext_iff_of_nodup hZ (hL.append (hZ.filter _) fun a h1 h2 => ?_)).2 fun a => ?_
    · simpa [h1] using (List.mem_filter.1 h2).2
    · simp only [List.mem_append, List.mem_filter, decide_eq_true_eq]
      constructor
      · intro h
        by_cases h1 : a ∈ L
        · exact .inl h1
        · exact .inr ⟨h, h1⟩
      · rintro (h | h)
        · exact hs a h
        · exact h.1
  rw [xsum_perm hp, xsum_append]
  cases xsum L f <;> simp

/-- Edge `i` leads from one end to the other. -/
inductive Goes (E : Nat → List Nat) (i : Nat) : Option Nat → Option Nat → Prop
  | along {a b : Nat} : E i = [a, b] → Goes E i (some a) (some b)
  | back {a b : Nat} : E i = [a, b] → Goes E i (some b) (some a)
  | enter {a : Nat} : E i = [a] → Goes E i none (some a)
  | leave {a : Nat} : E i = [a] → Goes E i (some a) none

/-- A trail from the first end to the second, the last edge first. -/
inductive Trail (E : Nat → List Nat) : Option Nat → List Nat → Option Nat → Prop
  | one {o c : Option Nat} {i : Nat} : Goes E i o c → Trail E o [i] c
  | cons {o c : Option Nat} {u i : Nat} {L : List Nat} : Trail E o L (some u) → i ∉ L → Goes E i (some u) c → Trail E o (i :: L) c

/-- The edge is dangling or has two different ends. -/
def Sound2 (E : Nat → List Nat) (i : Nat) : Prop := (∃ a, E i = [a]) ∨ ∃ a b, E i = [a, b] ∧ a ≠ b

variable {E : Nat → List Nat}

theorem Goes.touch {i : Nat} {o c : Option Nat} (h : Goes E i o c) (hE : Sound2 E i) (v : Nat) :
    decide (v ∈ E i) = (decide (o = some v) ^^ decide (c = some v)) := by
  have pair : ∀ a b : Nat, a ≠ b → decide (v ∈ [a, b]) = (decide (some a = some v) ^^ decide (some b = some v)) := by
    intro a b hne
    by_cases h1 : a = v
    · subst h1
      have : b ≠ a := Ne.symm hne
      simp [this]
    · have h1' : v ≠ a := Ne.symm h1
      by_cases h2 : b = v
      · subst h2; simp [h1]
      · have h2' : v ≠ b := Ne.symm h2
        simp [h1, h2, h1', h2']
  have hne : ∀ a b, E i = [a, b] → a ≠ b := by
    intro a b h
    rcases hE with ⟨a', ha⟩ | ⟨a', b', ha, hne⟩
    · rw [ha] at h; cases h
    · rw [ha] at h; cases h; exact hne
  have single : ∀ a : Nat, decide (v ∈ [a]) = decide (some a = some v) := by
    intro a
    by_cases h1 : a = v
    · subst h1; simp
    · have h1' : v ≠ a := Ne.symm h1
      simp [h1, h1']
  cases h with
  | along h => rw [h]; exact pair _ _ (hne _ _ h)
  | back h => rw [h, Bool.xor_comm]; exact pair _ _ (hne _ _ h)
  | enter h => rw [h, single]; simp
  | leave h => rw [h, single]; simp

theorem Goes.of_mem {i v : Nat} (hE : Sound2 E i) (hv : v ∈ E i) : ∃ c, Goes E i (some v) c := by
  rcases hE with ⟨a, ha⟩ | ⟨a, b, ha, -⟩
  · rw [ha] at hv
    obtain rfl : v = a := by simpa using hv
    exact ⟨_, .leave ha⟩
  · rw [ha] at hv
    have : v = a ∨ v = b := by simpa using hv
    rcases this with rfl | rfl
    · exact ⟨_, .along ha⟩
    · exact ⟨_, .back ha⟩

theorem Trail.nodup {o c : Option Nat} {L : List Nat} (h : Trail E o L c) : L.Nodup := by
  induction h with
  | one _ => simp
  | cons _ hi _ ih => exact List.nodup_cons.2 ⟨hi, ih⟩

theorem Trail.ne_nil {o c : Option Nat} {L : List Nat} (h : Trail E o L c) : L ≠ [] := by
  cases h <;> simp

theorem Trail.touch {o c : Option Nat} {L : List Nat} (h : Trail E o L c) (hE : ∀ i ∈ L, Sound2 E i) (v : Nat) :
    xsum L (fun i => decide (v ∈ E i)) = (decide (o = some v) ^^ decide (c = some v)) := by
  induction h with
  | one h => rw [xsum_cons, xsum_nil, h.touch (hE _ (by simp)), Bool.xor_false]
  | cons _ _ h ih =>
    rw [xsum_cons, h.touch (hE _ (by simp)), ih fun i hi => hE i (List.mem_cons_of_mem _ hi)]
    rw [Bool.xor_comm, Bool.xor_assoc, ← Bool.xor_assoc (decide _) (decide _) (decide _), Bool.xor_self, Bool.false_xor]

/-- All edges of a trail have the property of one of them, if edges with a common vertex have. -/
theorem Trail.all {o c : Option Nat} {L : List Nat} (h : Trail E o L c) {P : Nat → Bool} (hP : ∀ i j v, v ∈ E i → v ∈ E j → P i = P j) :
    ∀ i ∈ L, ∀ j ∈ L, P i = P j := by
  have key : (∀ i ∈ L, ∀ j ∈ L, P i = P j) ∧ ∀ u, c = some u → ∃ i ∈ L, u ∈ E i := by
    induction h with
    | one h =>
      refine ⟨by simp, fun u hu => ⟨_, List.mem_singleton.2 rfl, ?_⟩⟩
      subst hu
      cases h with
      | along h => rw [h]; simp
      | back h => rw [h]; simp
      | enter h => rw [h]; simp
    | @cons c u i L _ _ h ih =>
      obtain ⟨j, hj, huj⟩ := ih.2 u rfl
      have hui : u ∈ E i := by cases h with
        | along h => rw [h]; simp
        | back h => rw [h]; simp
        | leave h => rw [h]; simp
      have hij : ∀ k ∈ L, P k = P i := fun k hk => (ih.1 k hk j hj).trans (hP j i u huj hui)
      refine ⟨fun a ha b hb => ?_, fun w hw => ⟨i, by simp, ?_⟩⟩
      · have key : ∀ k ∈ i :: L, P k = P i := by
          intro k hk
          rcases List.mem_cons.1 hk with rfl | hk
          · rfl
          · exact hij k hk
        rw [key a ha, key b hb]
      · subst hw
        cases h with
        | along h => rw [h]; simp
        | back h => rw [h]; simp
  exact key.1

/-- A trail in a set that is even at each vertex can be closed. -/
theorem Trail.close {Z : List Nat} (hZ : Z.Nodup) (hE : ∀ i ∈ Z, Sound2 E i) (hev : ∀ v, xsum Z (fun i => decide (v ∈ E i)) = false) {o : Option Nat}
    (ho : o ≠ none → ∀ i ∈ Z, ∀ a, E i ≠ [a]) : ∀ (k : Nat) (L : List Nat) (c : Option Nat), Trail E o L c → (∀ i ∈ L, i ∈ Z) → L.length + k = Z.length →
    ∃ L', Trail E o L' o ∧ ∀ i ∈ L', i ∈ Z := by
  intro k
  induction k with
  | zero =>
    intro L c h hs hk
    by_cases hc : c = o
    · exact ⟨L, hc ▸ h, hs⟩
    exfalso
    have hp : L.Perm Z := (List.subperm_of_subset h.nodup hs).perm_of_length_le (by omega)
    have h1 : ∀ v, (decide (o = some v) ^^ decide (c = some v)) = false := fun v => by
      rw [← h.touch (fun i hi => hE i (hs i hi)), xsum_perm hp]; exact hev v
    cases o with
    | some v =>
      have := h1 v
      cases c with
      | none => simp at this
      | some u => by_cases huv : u = v <;> simp_all
    | none =>
      cases c with
      | none => exact hc rfl
      | some u => simpa using h1 u
  | succ k ih =>
    intro L c h hs hk
    by_cases hc : c = o
    · exact ⟨L, hc ▸ h, hs⟩
    cases c with
    | none =>
      exfalso
      obtain ⟨i, hi, a, ha⟩ : ∃ i ∈ L, ∃ a, E i = [a] := by
        cases h with
        | one h => cases h with | leave h => exact ⟨_, by simp, _, h⟩
        | cons _ _ h => cases h with | leave h => exact ⟨_, by simp, _, h⟩
      exact ho (fun h0 => hc h0.symm) i (hs i hi) a ha
    | some u =>
      have h1 : xsum (Z.filter fun i => decide (i ∉ L)) (fun i => decide (u ∈ E i)) = true := by
        rw [xsum_diff hZ h.nodup hs, hev, h.touch fun i hi => hE i (hs i hi)]
        have : o ≠ some u := fun h0 => hc h0.symm
        simp [this]
      obtain ⟨i, hi, hu⟩ := xsum_true h1
      rw [List.mem_filter, decide_eq_true_eq] at hi
      obtain ⟨c', hc'⟩ := Goes.of_mem (hE i hi.1) (of_decide_eq_true hu)
      refine ih (i :: L) c' (.cons h hi.2 hc') (fun j hj => ?_) (by rw [List.length_cons]; omega)
      rcases List.mem_cons.1 hj with rfl | hj
      · exact hi.1
      · exact hs j hj

/-- A set that is even at each vertex contains a closed trail. -/
theorem exists_closed {Z : List Nat} (hZ : Z.Nodup) (hne : Z ≠ []) (hE : ∀ i ∈ Z, Sound2 E i) (hev : ∀ v, xsum Z (fun i => decide (v ∈ E i)) = false) :
    ∃ o L, Trail E o L o ∧ ∀ i ∈ L, i ∈ Z := by
  by_cases hd : ∃ i ∈ Z, ∃ a, E i = [a]
  · obtain ⟨i, hi, a, ha⟩ := hd
    have hl : 0 < Z.length := List.length_pos_of_ne_nil hne
    obtain ⟨L, h1, h2⟩ := Trail.close hZ hE hev (o := none) (fun h => absurd rfl h) (Z.length - 1) [i] (some a) (.one (.enter ha))
      (by simpa using hi) (by simp; omega)
    exact ⟨none, L, h1, h2⟩
  · obtain ⟨i, hi⟩ := List.exists_mem_of_ne_nil _ hne
    have hl : 0 < Z.length := List.length_pos_of_ne_nil hne
    rcases hE i hi with ⟨a, ha⟩ | ⟨a, b, ha, -⟩
    · exact absurd ⟨i, hi, a, ha⟩ hd
    · obtain ⟨L, h1, h2⟩ := Trail.close hZ hE hev (o := some a) (fun _ j hj c hc => hd ⟨j, hj, c, hc⟩) (Z.length - 1) [i] (some b) (.one (.along ha))
        (by simpa using hi) (by simp; omega)
      exact ⟨some a, L, h1, h2⟩

/-- If the sum of a function over a set that is even at each vertex is odd, then it is odd over a closed trail in the set. -/
theorem odd_trail {φ : Nat → Bool} : ∀ (k : Nat) (Z : List Nat), Z.length ≤ k → Z.Nodup → (∀ i ∈ Z, Sound2 E i) →
    (∀ v, xsum Z (fun i => decide (v ∈ E i)) = false) → xsum Z φ = true → ∃ o L, Trail E o L o ∧ (∀ i ∈ L, i ∈ Z) ∧ xsum L φ = true := by
  intro k
  induction k with
  | zero =>
    intro Z hk _ _ _ hφ
    obtain rfl : Z = [] := List.length_eq_zero_iff.1 (by omega)
    cases hφ
  | succ k ih =>
    intro Z hk hZ hE hev hφ
    obtain ⟨o, L, hL, hs⟩ := exists_closed hZ (by rintro rfl; cases hφ) hE hev
    by_cases h1 : xsum L φ = true
    · exact ⟨o, L, hL, hs, h1⟩
    have hl : (Z.filter fun i => decide (i ∉ L)).length < Z.length := by
      obtain ⟨i, hi⟩ := List.exists_mem_of_ne_nil _ hL.ne_nil
      rcases Nat.lt_or_ge (Z.filter fun i => decide (i ∉ L)).length Z.length with h | h
      · exact h
      · have := (List.length_filter_eq_length_iff.1 (Nat.le_antisymm (List.length_filter_le _ _) h)) i (hs i hi)
        simp [hi] at this
    obtain ⟨o', L', h2, h3, h4⟩ := ih (Z.filter fun i => decide (i ∉ L)) (by omega) (hZ.filter _) (fun i hi => hE i (List.mem_filter.1 hi).1)
      (fun v => by
        rw [xsum_diff hZ hL.nodup hs, hev, hL.touch fun i hi => hE i (hs i hi)]
        simp) (by
        rw [xsum_diff hZ hL.nodup hs, hφ]
        simp [h1])
    exact ⟨o', L', h2, fun i hi => (List.mem_filter.1 (h3 i hi)).1, h4⟩

/-! ## The number of trails -/

/-- The other end of an edge. -/
def farEnd (E : Nat → List Nat) (i u : Nat) : Option Nat :=
  match E i with
  | [a, b] => if u = a then some b else some a
  | _ => none

theorem Goes.farEnd {i u : Nat} {c : Option Nat} (h : Goes E i (some u) c) (hE : Sound2 E i) : c = farEnd E i u ∧ u ∈ E i := by
  cases h with
  | along h => unfold Plaquette.farEnd; rw [h]; simp
  | back h =>
    rcases hE with ⟨a', ha⟩ | ⟨a', b', ha, hne⟩
    · rw [ha] at h; cases h
    · rw [ha] at h; cases h
      unfold Plaquette.farEnd; rw [ha]; simp [Ne.symm hne]
  | leave h => unfold Plaquette.farEnd; rw [h]; simp

/-- The trails of a given length along edges of a set, with their last ends (and some more: those that use an edge twice are left out, but not
all of the rest are trails). -/
def trails (E : Nat → List Nat) (R : Finset Nat) : Nat → Finset (List Nat × Option Nat)
  | 0 => R.image (fun i => ([i], (E i).head?)) ∪ R.image (fun i => ([i], match E i with | [_, b] => some b | _ => none))
  | m + 1 => (trails E R m).biUnion fun p =>
    match p.2 with
    | some u => (R.filter fun i => u ∈ E i ∧ i ∉ p.1).image fun i => (i :: p.1, farEnd E i u)
    | none => ∅

theorem Trail.mem_trails {R : Finset Nat} (hE : ∀ i ∈ R, Sound2 E i) {o c : Option Nat} {L : List Nat} (h : Trail E o L c) (hR : ∀ i ∈ L, i ∈ R) :
    (L, c) ∈ trails E R (L.length - 1) := by
  induction h with
  | @one c i h =>
    have hi := hR i (by simp)
    show _ ∈ trails E R 0
    unfold trails
    rw [Finset.mem_union, Finset.mem_image, Finset.mem_image]
    cases h with
    | along h => exact .inr ⟨i, hi, by rw [h]⟩
    | back h => exact .inl ⟨i, hi, by rw [h]; rfl⟩
    | enter h => exact .inl ⟨i, hi, by rw [h]; rfl⟩
    | leave h => exact .inr ⟨i, hi, by rw [h]⟩
  | @cons c u i L hL hi h ih =>
    have hl : 0 < L.length := List.length_pos_of_ne_nil hL.ne_nil
    rw [List.length_cons, show L.length + 1 - 1 = L.length - 1 + 1 by omega]
    unfold trails
    rw [Finset.mem_biUnion]
    refine ⟨(L, some u), ih fun j hj => hR j (List.mem_cons_of_mem _ hj), ?_⟩
    obtain ⟨h1, h2⟩ := h.farEnd (hE i (hR i (by simp)))
    rw [h1]
    exact Finset.mem_image.2 ⟨i, Finset.mem_filter.2 ⟨hR i (by simp), h2, hi⟩, rfl⟩

theorem trails_spec {R : Finset Nat} {m : Nat} {p : List Nat × Option Nat} (h : p ∈ trails E R m) (hE : ∀ i ∈ R, Sound2 E i) :
    p.1.length = m + 1 ∧ p.1.Nodup ∧ (∀ i ∈ p.1, i ∈ R) ∧ ∀ u, p.2 = some u → ∃ i ∈ p.1, u ∈ E i := by
  induction m generalizing p with
  | zero =>
    unfold trails at h
    rw [Finset.mem_union, Finset.mem_image, Finset.mem_image] at h
    rcases h with ⟨i, hi, rfl⟩ | ⟨i, hi, rfl⟩
    · refine ⟨rfl, by simp, by simpa using hi, fun u hu => ⟨i, by simp, List.mem_of_head? hu⟩⟩
    · refine ⟨rfl, by simp, by simpa using hi, fun u hu => ⟨i, by simp, ?_⟩⟩
      rcases hE i hi with ⟨a, ha⟩ | ⟨a, b, ha, -⟩
      · simp [ha] at hu
      · simp only [ha, Option.some.injEq] at hu
        rw [ha, ← hu]; simp
  | succ m ih =>
    unfold trails at h
    rw [Finset.mem_biUnion] at h
    obtain ⟨q, hq, h⟩ := h
    obtain ⟨h1, h2, h3, -⟩ := ih hq
    cases hc : q.2 with
    | none => rw [hc] at h; simp at h
    | some u =>
      rw [hc] at h
      obtain ⟨i, hi, rfl⟩ := Finset.mem_image.1 h
      obtain ⟨hi1, hi2, hi3⟩ := Finset.mem_filter.1 hi
      refine ⟨by rw [List.length_cons, h1], List.nodup_cons.2 ⟨hi3, h2⟩, fun j hj => ?_, fun v hv => ⟨i, by simp, ?_⟩⟩
      · rcases List.mem_cons.1 hj with rfl | hj
        · exact hi1
        · exact h3 j hj
      · rcases hE i hi1 with ⟨a, ha⟩ | ⟨a, b, ha, -⟩
        · simp [farEnd, ha] at hv
        · simp only [farEnd, ha] at hv
          rw [ha]
          split at hv <;> (cases hv; simp)

/-- If at most `Δ + 1` edges end at each vertex, the number of trails grows at most by the factor `Δ` with each edge. -/
theorem card_trails {R : Finset Nat} (hE : ∀ i ∈ R, Sound2 E i) {Δ : Nat} (hΔ : ∀ v, (R.filter fun i => v ∈ E i).card ≤ Δ + 1) (m : Nat) :
    (trails E R m).card ≤ 2 * R.card * Δ ^ m := by
  induction m with
  | zero =>
    unfold trails
    refine (Finset.card_union_le _ _).trans ((Nat.add_le_add Finset.card_image_le Finset.card_image_le).trans ?_)
    rw [pow_zero]
    omega
  | succ m ih =>
    unfold trails
    refine Finset.card_biUnion_le.trans ((Finset.sum_le_card_nsmul _ _ Δ fun p hp => ?_).trans ?_)
    · cases hc : p.2 with
      | none => simp
      | some u =>
        refine Finset.card_image_le.trans ?_
        obtain ⟨h1, h2, h3, h4⟩ := trails_spec hp hE
        obtain ⟨i, hi, hu⟩ := h4 u hc
        have : (R.filter fun i => u ∈ E i ∧ i ∉ p.1) ⊂ R.filter fun i => u ∈ E i := by
          refine Finset.ssubset_iff_of_subset (fun j hj => ?_) |>.2 ⟨i, Finset.mem_filter.2 ⟨h3 i hi, hu⟩, fun h => (Finset.mem_filter.1 h).2.2 hi⟩
          obtain ⟨a, b, -⟩ := Finset.mem_filter.1 hj
          exact Finset.mem_filter.2 ⟨a, b⟩
        have := Finset.card_lt_card this
        have := hΔ u
        omega
    · rw [smul_eq_mul, pow_succ, ← Nat.mul_assoc]
      exact Nat.mul_le_mul_right _ ih

end Plaquette
