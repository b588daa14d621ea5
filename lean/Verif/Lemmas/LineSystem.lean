import Verif.Lemmas.LinesMain
import Mathlib.Data.ZMod.Basic
import Mathlib.Tactic.LinearCombination

/-!
# Parallel logical operators and the positions of the stabilisers between them
-/

namespace Plaquette
variable {n : Nat}

/-- Representatives `T 0, …, T (d - 1)` of a logical operator, which no single-qubit error crosses twice, and the stabilisers between
two consecutive ones (those of column `k + 1` between `T k` and `T (k + 1)`). The stabilisers are of two kinds, and each error flips
stabilisers of one kind only, X and Z on the same qubit different ones; errors that cross a line flip those of kind `true`. -/
structure LineSystem (stabs : List (Op n)) (d : Nat) where
  T : Nat → Op n
  col : Nat → Nat
  kd : Nat → Bool
  side : Fin n → Bool
  pos : 0 < d
  col_lt : ∀ s, col s < d
  sum : ∀ k, k + 1 < d → ∀ o : Op n, (anti (T k) o ^^ anti (T (k + 1)) o) = xsum (flipped stabs o) fun s => decide (col s = k + 1)
  disj : ∀ k < d, ∀ l < d, ∀ a (q : Fin n), anti (T k) (singleOp false a q) = true → anti (T l) (singleOp false a q) = true → k = l
  kind : ∀ (b : Bool) (q : Fin n), ∀ s ∈ flipped stabs (singleOp false (if b then .X else .Z) q), kd s = (b == side q)
  rel : ∀ k < d, ∀ (b : Bool) (q : Fin n), anti (T k) (singleOp false (if b then .X else .Z) q) = true → b = side q

variable {W : Type} [LinearOrder W] {isInf : W → Bool} {r : Nat} {stabs : List (Op n)} {w : Option (Weights W)} {g : SynGraph W} {d : Nat}

namespace LineSystem
variable (D : LineSystem stabs d)

/-- The line that an error crosses. -/
def line (o : Nat) : Option Nat := (List.range d).find? fun k => opAnti (D.T k) o

theorem line_none {o : Nat} : D.line o = none ↔ ∀ k < d, opAnti (D.T k) o = false := by
  unfold line
  rw [List.find?_eq_none]
  simp

theorem line_lt {o k : Nat} (h : D.line o = some k) : k < d ∧ opAnti (D.T k) o = true := by
  unfold line at h
  have h1 := List.find?_some h
  have h2 := List.mem_of_find?_eq_some h
  exact ⟨List.mem_range.1 h2, h1⟩

theorem unique {o k l : Nat} (hk : k < d) (hl : l < d) (h1 : opAnti (D.T k) o = true) (h2 : opAnti (D.T l) o = true) : k = l := by
  unfold opAnti at h1 h2
  cases ho : (errorOps n)[o]? with
  | none => rw [ho] at h1; cases h1
  | some a =>
    rw [ho] at h1 h2
    simp only at h1 h2
    rw [anti_symm] at h1 h2
    exact D.disj k hk l hl _ _ h1 h2

theorem line_some {o k : Nat} : D.line o = some k ↔ k < d ∧ opAnti (D.T k) o = true := by
  refine ⟨D.line_lt, fun ⟨h1, h2⟩ => ?_⟩
  cases h : D.line o with
  | none => rw [line_none] at h; rw [h k h1] at h2; cases h2
  | some l =>
    obtain ⟨h3, h4⟩ := D.line_lt h
    rw [D.unique h1 h3 h2 h4]

/-- How an error changes the columns. -/
theorem parity {o : Nat} {l : Letter × Fin n} (ho : (errorOps n)[o]? = some l) {k : Nat} (hk : k + 1 < d) :
    (opAnti (D.T k) o ^^ opAnti (D.T (k + 1)) o) = xsum (flipped stabs (singleOp false l.1 l.2)) fun s => decide (D.col s = k + 1) := by
  unfold opAnti
  simp only [ho]
  rw [anti_symm _ (D.T k), anti_symm _ (D.T (k + 1))]
  exact D.sum k hk _

/-- The same for an error that crosses line `k`. -/
theorem parity_some {o : Nat} {l : Letter × Fin n} (ho : (errorOps n)[o]? = some l) {k : Nat} (hl : D.line o = some k) {j : Nat} (hj : j + 1 < d) :
    xsum (flipped stabs (singleOp false l.1 l.2)) (fun s => decide (D.col s = j + 1)) = true ↔ (j = k ∨ j + 1 = k) := by
  obtain ⟨hk, h1⟩ := D.line_lt hl
  rw [← D.parity ho hj]
  have key : ∀ i < d, opAnti (D.T i) o = decide (i = k) := by
    intro i hi
    by_cases hik : i = k
    · rw [hik, h1]; simp
    · rw [decide_eq_false hik]
      by_contra hc
      exact hik (D.unique hi hk (by simpa using hc) h1)
  rw [key j (by omega), key (j + 1) hj]
  by_cases h2 : j = k
  · have : j + 1 ≠ k := by omega
    simp [h2]
  · by_cases h3 : j + 1 = k <;> simp [h2, h3]

theorem parity_none {o : Nat} {l : Letter × Fin n} (ho : (errorOps n)[o]? = some l) (hl : D.line o = none) {j : Nat} (hj : j + 1 < d) :
    xsum (flipped stabs (singleOp false l.1 l.2)) (fun s => decide (D.col s = j + 1)) = false := by
  rw [line_none] at hl
  rw [← D.parity ho hj, hl j (by omega), hl (j + 1) hj]; rfl

/-- The position of a stabiliser. -/
def at_ (s : Nat) : ZMod (2 * d) := ((2 * D.col s : Nat) : ZMod (2 * d))

omit [LinearOrder W] in
theorem cast_end : ((2 * d : Nat) : ZMod (2 * d)) = 0 := ZMod.natCast_self _

/-- The line that an edge crosses. -/
def seg (g : SynGraph W) (i : Nat) : Option (ZMod (2 * d)) :=
  match (g.edges[i]?).map SEdge.kind with
  | some (.qubit _ o _ _) => (D.line o).map fun k => ((2 * k : Nat) : ZMod (2 * d))
  | _ => none

omit [LinearOrder W] in
theorem seg_qubit {i : Nat} {e : SEdge W} (he : g.edges[i]? = some e) {t o q : Nat} {b : Bool} (hk : e.kind = .qubit t o q b) :
    D.seg g i = (D.line o).map fun k => ((2 * k : Nat) : ZMod (2 * d)) := by
  unfold seg; rw [he]; simp only [Option.map_some, hk]

omit [LinearOrder W] in
theorem seg_stab {i : Nat} {e : SEdge W} (he : g.edges[i]? = some e) {t s : Nat} (hk : e.kind = .stab t s) : D.seg g i = none := by
  unfold seg; rw [he]; simp only [Option.map_some, hk]

theorem flipped_lt {o : Op n} {s : Nat} (h : s ∈ flipped stabs o) : s < stabs.length := by
  unfold flipped at h
  exact List.mem_range.1 (List.mem_filter.1 h).1

theorem vertex_mod {m t s : Nat} (hs : s < m) : vertexIdx m t s % m = s := by
  unfold vertexIdx
  rw [Nat.add_comm, Nat.add_mul_mod_self_right, Nat.mod_eq_of_lt hs]

/-- The positions of the stabilisers make a layout of the syndrome graph. -/
def layout (h : mkSynGraph isInf r stabs w = .ok g) : Layout (ZMod (2 * d)) (r * stabs.length) g.verts where
  pos v := D.at_ (v % stabs.length)
  seg := D.seg g
  same := by
    intro i a b hv hs
    unfold SynGraph.verts at hv
    rw [List.getElem?_map, Option.map_eq_some_iff] at hv
    obtain ⟨e, he, hv⟩ := hv
    rcases edge_cases h he with ⟨t, o, l, ht, hl, hk, hvs, _⟩ | ⟨t, s, ht, hs', hk, hvs⟩
    · rw [D.seg_qubit he hk, Option.map_eq_none_iff] at hs
      have hp := fun j (hj : j + 1 < d) => D.parity_none hl hs hj
      have hlt : ∀ s ∈ flipped stabs (singleOp false l.1 l.2), s < stabs.length := fun s => flipped_lt
      rw [hv] at hvs
      generalize flipped stabs (singleOp false l.1 l.2) = F at *
      match F, hvs, hlt, hp with
      | [s1, s2], hvs, hlt, hp =>
        obtain ⟨rfl, rfl⟩ : a = vertexIdx stabs.length t s1 ∧ b = vertexIdx stabs.length t s2 := by simpa using hvs
        rw [vertex_mod (hlt s1 (by simp)), vertex_mod (hlt s2 (by simp))]
        have h1 := D.col_lt s1
        have h2 := D.col_lt s2
        have h3 : ∀ j, j + 1 < d → (D.col s1 = j + 1 ↔ D.col s2 = j + 1) := by
          intro j hj
          have := hp j hj
          simp only [xsum_cons, xsum_nil, Bool.xor_false] at this
          revert this
          by_cases a1 : D.col s1 = j + 1 <;> by_cases a2 : D.col s2 = j + 1 <;> simp [a1, a2]
        have h4 := h3 (D.col s1 - 1)
        have h5 := h3 (D.col s2 - 1)
        have : D.col s1 = D.col s2 := by omega
        unfold at_; rw [this]
    · rw [hvs] at hv
      obtain ⟨rfl, rfl⟩ : t * stabs.length + s = a ∧ (t + 1) * stabs.length + s = b := by simpa using hv
      congr 1
      exact (vertex_mod (t := t) hs').trans (vertex_mod (t := t + 1) hs').symm
  cross := by
    intro i a b p hv hs
    unfold SynGraph.verts at hv
    rw [List.getElem?_map, Option.map_eq_some_iff] at hv
    obtain ⟨e, he, hv⟩ := hv
    rcases edge_cases h he with ⟨t, o, l, ht, hl, hk, hvs, _⟩ | ⟨t, s, ht, hs', hk, hvs⟩
    · rw [D.seg_qubit he hk, Option.map_eq_some_iff] at hs
      obtain ⟨k, hs, rfl⟩ := hs
      have hp := fun j (hj : j + 1 < d) => D.parity_some hl hs hj
      have hkd := (D.line_lt hs).1
      have hlt : ∀ s ∈ flipped stabs (singleOp false l.1 l.2), s < stabs.length := fun s => flipped_lt
      rw [hv] at hvs
      generalize flipped stabs (singleOp false l.1 l.2) = F at *
      match F, hvs, hlt, hp with
      | [s1, s2], hvs, hlt, hp =>
        obtain ⟨rfl, rfl⟩ : a = vertexIdx stabs.length t s1 ∧ b = vertexIdx stabs.length t s2 := by simpa using hvs
        rw [vertex_mod (hlt s1 (by simp)), vertex_mod (hlt s2 (by simp))]
        have h1 := D.col_lt s1
        have h2 := D.col_lt s2
        have h3 : ∀ j, j + 1 < d → (¬ (D.col s1 = j + 1 ↔ D.col s2 = j + 1) ↔ (j = k ∨ j + 1 = k)) := by
          intro j hj
          have := hp j hj
          simp only [xsum_cons, xsum_nil, Bool.xor_false] at this
          rw [← this]
          by_cases a1 : D.col s1 = j + 1 <;> by_cases a2 : D.col s2 = j + 1 <;> simp [a1, a2]
        have h4 := h3 (D.col s1 - 1)
        have h5 := h3 (D.col s2 - 1)
        have h6 := h3 k
        have h7 := h3 (k - 1)
        have h8 : ∀ c, c = k + 1 ∨ (k + 1 = d ∧ c = 0) → ((2 * c : Nat) : ZMod (2 * d)) = ((2 * k : Nat) : ZMod (2 * d)) + 2 := by
          rintro c (rfl | ⟨hk, rfl⟩)
          · push_cast; ring
          · have := cast_end (d := d)
            rw [← hk] at this ⊢
            push_cast at this ⊢
            linear_combination -this
        unfold at_
        have : (D.col s1 = k ∧ (D.col s2 = k + 1 ∨ (k + 1 = d ∧ D.col s2 = 0))) ∨ (D.col s2 = k ∧ (D.col s1 = k + 1 ∨ (k + 1 = d ∧ D.col s1 = 0))) := by
          omega
        rcases this with ⟨a1, a2⟩ | ⟨a1, a2⟩
        · exact .inl ⟨by rw [a1], h8 _ a2⟩
        · exact .inr ⟨by rw [a1], h8 _ a2⟩
    · rw [D.seg_stab he hk] at hs; cases hs
  dangle := by
    intro i a p hv hs
    unfold SynGraph.verts at hv
    rw [List.getElem?_map, Option.map_eq_some_iff] at hv
    obtain ⟨e, he, hv⟩ := hv
    rcases edge_cases h he with ⟨t, o, l, ht, hl, hk, hvs, _⟩ | ⟨t, s, ht, hs', hk, hvs⟩
    · rw [D.seg_qubit he hk, Option.map_eq_some_iff] at hs
      obtain ⟨k, hs, rfl⟩ := hs
      have hp := fun j (hj : j + 1 < d) => D.parity_some hl hs hj
      have hkd := (D.line_lt hs).1
      have hlt : ∀ s ∈ flipped stabs (singleOp false l.1 l.2), s < stabs.length := fun s => flipped_lt
      rw [hv] at hvs
      generalize flipped stabs (singleOp false l.1 l.2) = F at *
      match F, hvs, hlt, hp with
      | [s1], hvs, hlt, hp =>
        obtain rfl : a = vertexIdx stabs.length t s1 := by simpa using hvs
        rw [vertex_mod (hlt s1 (by simp))]
        have h1 := D.col_lt s1
        have h3 : ∀ j, j + 1 < d → (D.col s1 = j + 1 ↔ (j = k ∨ j + 1 = k)) := by
          intro j hj
          have := hp j hj
          simpa only [xsum_cons, xsum_nil, Bool.xor_false, decide_eq_true_eq] using this
        have h4 := h3 (D.col s1 - 1)
        have h6 := h3 k
        have h7 := h3 (k - 1)
        unfold at_
        have : D.col s1 = k ∨ D.col s1 = k + 1 := by omega
        rcases this with a1 | a1
        · exact .inl (by rw [a1])
        · exact .inr (by rw [a1]; push_cast; ring)
    · rw [D.seg_stab he hk] at hs; cases hs

omit [LinearOrder W] in
/-- Lines are at even positions. -/
theorem seg_odd {i j : Nat} {p q : ZMod (2 * d)} (hi : D.seg g i = some p) (hj : D.seg g j = some q) : p ≠ q + 1 := by
  have key : ∀ i p, D.seg g i = some p → ∃ k : Nat, p = ((2 * k : Nat) : ZMod (2 * d)) := by
    intro i p hi
    unfold seg at hi
    split at hi
    · obtain ⟨k, _, rfl⟩ := Option.map_eq_some_iff.1 hi
      exact ⟨k, rfl⟩
    · cases hi
  obtain ⟨k, rfl⟩ := key i p hi
  obtain ⟨l, rfl⟩ := key j q hj
  intro h
  have h1 : ((2 * k : Nat) : ZMod (2 * d)) = ((2 * l + 1 : Nat) : ZMod (2 * d)) := by rw [h]; push_cast; ring
  rw [ZMod.natCast_eq_natCast_iff] at h1
  have h2 : 2 * k ≡ 2 * l + 1 [MOD 2] := h1.of_mul_right d
  unfold Nat.ModEq at h2
  omega

/-- Different lines are at different positions. -/
theorem cast_inj {k l : Nat} (hk : k < d) (hl : l < d) (h : ((2 * k : Nat) : ZMod (2 * d)) = ((2 * l : Nat) : ZMod (2 * d))) : k = l := by
  rw [ZMod.natCast_eq_natCast_iff] at h
  unfold Nat.ModEq at h
  rw [Nat.mod_eq_of_lt (by omega), Nat.mod_eq_of_lt (by omega)] at h
  omega

/-- A set of fewer than `d` positions leaves out a line. -/
theorem exists_line {S : Set (ZMod (2 * d))} (hf : S.Finite) (hS : S.ncard < d) : ∃ k < d, ((2 * k : Nat) : ZMod (2 * d)) ∉ S := by
  by_contra hc
  push Not at hc
  have h1 : ((Finset.range d).image fun k => ((2 * k : Nat) : ZMod (2 * d))).card = d := by
    rw [Finset.card_image_of_injOn, Finset.card_range]
    intro a ha b hb hab
    exact cast_inj (by simpa using ha) (by simpa using hb) hab
  have h2 : (((Finset.range d).image fun k => ((2 * k : Nat) : ZMod (2 * d)) : Finset (ZMod (2 * d))) : Set (ZMod (2 * d))) ⊆ S := by
    intro p hp
    rw [Finset.mem_coe, Finset.mem_image] at hp
    obtain ⟨k, hk, rfl⟩ := hp
    exact hc k (Finset.mem_range.1 hk)
  have h3 := Set.ncard_le_ncard h2 hf
  rw [Set.ncard_coe_finset, h1] at h3
  omega

/-- Operators that anticommute with the same stabilisers differ by the same amount on all lines. -/
theorem const {p p' : Op n} (hp : ∀ gen ∈ stabs, anti p gen = anti p' gen) {k l : Nat} (hk : k < d) (hl : l < d)
    (h : anti p (D.T k) = anti p' (D.T k)) : anti p (D.T l) = anti p' (D.T l) := by
  have hfl : flipped stabs p = flipped stabs p' := by
    unfold flipped
    refine List.filter_congr fun s _ => ?_
    cases hs : stabs[s]? with
    | none => rfl
    | some gen => simp only [commSign_eq, hp gen (List.mem_of_getElem? hs)]
  have key : ∀ l < d, (anti (D.T l) p ^^ anti (D.T l) p') = (anti (D.T 0) p ^^ anti (D.T 0) p') := by
    intro l
    induction l with
    | zero => intro _; rfl
    | succ l ih =>
      intro hl
      rw [← ih (by omega)]
      have h1 := D.sum l hl p
      have h2 := D.sum l hl p'
      rw [hfl, ← h2] at h1
      revert h1
      cases anti (D.T l) p <;> cases anti (D.T (l + 1)) p <;> cases anti (D.T l) p' <;> cases anti (D.T (l + 1)) p' <;> simp
  have h1 := key k hk
  have h2 := key l hl
  rw [anti_symm, anti_symm p'] at h ⊢
  rw [h, Bool.xor_self] at h1
  rw [← h1] at h2
  simpa using h2

/-- Errors that flip the same stabilisers cross the same line, if there are at least three. -/
theorem same_line (hd : 3 ≤ d) {o o' : Nat} {l l' : Letter × Fin n} (ho : (errorOps n)[o]? = some l) (ho' : (errorOps n)[o']? = some l')
    (hf : flipped stabs (singleOp false l.1 l.2) = flipped stabs (singleOp false l'.1 l'.2)) {k : Nat} (hk : k < d) :
    opAnti (D.T k) o = opAnti (D.T k) o' := by
  have key : ∀ l < d, (opAnti (D.T l) o ^^ opAnti (D.T l) o') = (opAnti (D.T 0) o ^^ opAnti (D.T 0) o') := by
    intro l
    induction l with
    | zero => intro _; rfl
    | succ l ih =>
      intro hl
      rw [← ih (by omega)]
      have h1 := D.parity ho hl
      have h2 := D.parity ho' hl
      rw [hf, ← h2] at h1
      revert h1
      cases opAnti (D.T l) o <;> cases opAnti (D.T (l + 1)) o <;> cases opAnti (D.T l) o' <;> cases opAnti (D.T (l + 1)) o' <;> simp
  cases h0 : (opAnti (D.T 0) o ^^ opAnti (D.T 0) o') with
  | false => have := key k hk; rw [h0] at this; simpa using this
  | true =>
    have h1 := key 1 (by omega)
    have h2 := key 2 (by omega)
    rw [h0] at h1 h2
    have u01 := fun a => D.unique (o := a) (k := 0) (l := 1) (by omega) (by omega)
    have u02 := fun a => D.unique (o := a) (k := 0) (l := 2) (by omega) (by omega)
    have u12 := fun a => D.unique (o := a) (k := 1) (l := 2) (by omega) (by omega)
    have v1 := u01 o
    have v2 := u02 o
    have v3 := u12 o
    have v4 := u01 o'
    have v5 := u02 o'
    have v6 := u12 o'
    revert h0 h1 h2 v1 v2 v3 v4 v5 v6
    cases opAnti (D.T 0) o <;> cases opAnti (D.T 1) o <;> cases opAnti (D.T 2) o <;> cases opAnti (D.T 0) o' <;> cases opAnti (D.T 1) o' <;>
      cases opAnti (D.T 2) o' <;> simp

/-- An error that flips nothing crosses no line, if there are at least two. -/
theorem no_line (hd : 2 ≤ d) {o : Nat} {l : Letter × Fin n} (ho : (errorOps n)[o]? = some l)
    (hf : flipped stabs (singleOp false l.1 l.2) = []) {k : Nat} (hk : k < d) : opAnti (D.T k) o = false := by
  have key : ∀ l < d, opAnti (D.T l) o = opAnti (D.T 0) o := by
    intro l
    induction l with
    | zero => intro _; rfl
    | succ l ih =>
      intro hl
      rw [← ih (by omega)]
      have h1 := D.parity ho hl
      rw [hf] at h1
      exact (by simpa using h1 : opAnti (D.T l) o = opAnti (D.T (l + 1)) o).symm
  by_contra hc
  rw [key k hk] at hc
  have h0 : opAnti (D.T 0) o = true := by simpa using hc
  have h1 := key 1 (by omega)
  rw [h0] at h1
  have := D.unique (by omega) (by omega) h0 h1
  omega

end LineSystem
end Plaquette
