import Verif.Lemmas.Family

/-!
# The rotated planar code lattice of every size, with its XZZX variant
-/

namespace Plaquette

namespace Rotated

def odds (s : Int) : List Int := pyRange 1 (2 * s) 2
def evens (s : Int) : List Int := pyRange 2 (2 * s) 2
def grp (p : Pos) : StabGroup := if p.1 / 2 % 2 = p.2 / 2 % 2 then .A else .B
def c1 (s : Int) : List (Pos × Option StabGroup) := (pairs (odds s) (odds s)).map fun p => (p, none)
def c2 (s : Int) : List (Pos × Option StabGroup) := (pairs (evens s) (evens s)).map fun p => (p, some (grp p))
def c3 (s : Int) : List (Pos × Option StabGroup) :=
  (pyRange 4 (2 * s) 4).flatMap fun i => [((0, i), some .A), ((2 * s, i - s % 2 * 2), some .A)]
def c4 (s : Int) : List (Pos × Option StabGroup) :=
  (pyRange 2 (2 * s) 4).flatMap fun i => [((i, 0), some .B), ((i + s % 2 * 2, 2 * s), some .B)]
def cells (s : Int) : List (Pos × Option StabGroup) := c1 s ++ c2 s ++ c3 s ++ c4 s

def inside (s : Int) (p : Pos) : Prop := 1 ≤ p.1 ∧ p.1 ≤ 2 * s - 1 ∧ 1 ≤ p.2 ∧ p.2 ≤ 2 * s - 1
instance (s : Int) (p : Pos) : Decidable (inside s p) := by unfold inside; infer_instance
def nb (p : Pos) (d : Letter × Int × Int) : Pos := (p.1 + d.2.1, p.2 + d.2.2)
def letter (xzzx : Bool) (g : StabGroup) (d : Letter × Int × Int) : Letter := if xzzx then d.1 else groupLetter g
def xLetter (xzzx : Bool) (k : Int) : Letter := if !xzzx || k % 2 == 0 then .X else .Z
def zLetter (xzzx : Bool) (k : Int) : Letter := if !xzzx || k % 2 == 0 then .Z else .X
def xPos (s : Int) : Pos := (s + s % 2 - 1, 0)
def zPos (s : Int) : Pos := (0, s + s % 2 - 1)

def fam (size : Nat) (xzzx : Bool) : Fam where
  rows := 2 * size + 1
  cols := 2 * size + 1
  data := cellData (cells size)
  stabs := cellStabs (cells size)
  E st := dirEdges diagDirs (fun d => ¬ inside size (nb st.1 d)) fun d => mkEdge (nb st.1 d) st.1 (letter xzzx st.2 d)
  logs := [(xPos size, ['X']), (zPos size, ['Z'])]
  logE := (pyRange 0 size 1).flatMap fun i =>
    [mkEdge (2 * i + 1, 1) (xPos size) (xLetter xzzx i), mkEdge (1, 2 * i + 1) (zPos size) (zLetter xzzx i)]

/-- The exchange of two time steps in `inverted_order`. -/
def invE (isStab : Pos → Bool) (e : LEdge) : LEdge :=
  if !isStab e.op then e
  else if (e.op.1 + e.op.2) % 4 ≠ 0 then e
  else if e.step = some 1 then { e with step := some 2 }
  else if e.step = some 2 then { e with step := some 1 }
  else e

def lat (size : Nat) (xzzx : Bool) (order : List (Int × Int)) : Lattice :=
  (fam size xzzx).lat (some order.length)
    (fun e => invE (fam size xzzx).raw.isStab (stepEdge (fam size xzzx).raw.isStab order e))

theorem invE_keeps (i : Pos → Bool) : Fam.Keeps (invE i) := by
  constructor
  · intro e; unfold invE; split
    · rfl
    · split
      · rfl
      · split
        · rfl
        · split <;> rfl
  · intro e; unfold invE; split
    · exact ⟨rfl, rfl⟩
    · split
      · exact ⟨rfl, rfl⟩
      · split
        · exact ⟨rfl, rfl⟩
        · split <;> exact ⟨rfl, rfl⟩

theorem keeps (size : Nat) (xzzx : Bool) (order : List (Int × Int)) :
    Fam.Keeps (fun e => invE (fam size xzzx).raw.isStab (stepEdge (fam size xzzx).raw.isStab order e)) :=
  ⟨fun e => by rw [(invE_keeps _).op, stepEdge_op], fun e => by
    rw [((invE_keeps _).df _).1, ((invE_keeps _).df _).2]; exact stepEdge_df _ _ _⟩

variable {s : Int}

theorem mem_odds {x : Int} : x ∈ odds s ↔ 1 ≤ x ∧ x ≤ 2 * s - 1 ∧ x % 2 = 1 := by
  rw [odds, mem_pyRange (by omega)]; omega

theorem mem_evens {x : Int} : x ∈ evens s ↔ 2 ≤ x ∧ x ≤ 2 * s - 2 ∧ x % 2 = 0 := by
  rw [evens, mem_pyRange (by omega)]; omega

/-- Where the stabilisers are. -/
def isS (s : Int) (p : Pos) (g : StabGroup) : Prop :=
  0 ≤ p.1 ∧ p.1 ≤ 2 * s ∧ 0 ≤ p.2 ∧ p.2 ≤ 2 * s ∧ p.1 % 2 = 0 ∧ p.2 % 2 = 0 ∧
    ((g = .A ∧ (p.1 + p.2) % 4 = 0 ∧ 2 ≤ p.2 ∧ p.2 ≤ 2 * s - 2) ∨ (g = .B ∧ (p.1 + p.2) % 4 = 2 ∧ 2 ≤ p.1 ∧ p.1 ≤ 2 * s - 2))

theorem mem_c1 {c : Pos × Option StabGroup} (h : c ∈ c1 s) :
    c.2 = none ∧ inside s c.1 ∧ c.1.1 % 2 = 1 ∧ c.1.2 % 2 = 1 := by
  obtain ⟨p, hp, rfl⟩ := List.mem_map.mp h
  rw [mem_pairs, mem_odds, mem_odds] at hp
  simp only [inside]
  exact ⟨trivial, by omega⟩

theorem mem_c2 {c : Pos × Option StabGroup} (h : c ∈ c2 s) :
    c.2 = some (grp c.1) ∧ 2 ≤ c.1.1 ∧ c.1.1 ≤ 2 * s - 2 ∧ 2 ≤ c.1.2 ∧ c.1.2 ≤ 2 * s - 2 ∧ c.1.1 % 2 = 0 ∧ c.1.2 % 2 = 0 := by
  obtain ⟨p, hp, rfl⟩ := List.mem_map.mp h
  rw [mem_pairs, mem_evens, mem_evens] at hp
  exact ⟨rfl, by simp only; omega⟩

theorem mem_c3 {c : Pos × Option StabGroup} (h : c ∈ c3 s) :
    c.2 = some .A ∧ (c.1.1 = 0 ∨ c.1.1 = 2 * s) ∧ 2 ≤ c.1.2 ∧ c.1.2 ≤ 2 * s - 2 ∧ (c.1.1 + c.1.2) % 4 = 0 ∧ c.1.2 % 2 = 0 := by
  obtain ⟨i, hi, h⟩ := List.mem_flatMap.mp h
  rw [mem_pyRange (by omega)] at hi
  simp only [List.mem_cons, List.not_mem_nil, or_false] at h
  rcases h with rfl | rfl <;> refine ⟨rfl, ?_⟩ <;> dsimp only
  · omega
  · omega

theorem mem_c4 {c : Pos × Option StabGroup} (h : c ∈ c4 s) :
    c.2 = some .B ∧ (c.1.2 = 0 ∨ c.1.2 = 2 * s) ∧ 2 ≤ c.1.1 ∧ c.1.1 ≤ 2 * s - 2 ∧ (c.1.1 + c.1.2) % 4 = 2 ∧ c.1.1 % 2 = 0 := by
  obtain ⟨i, hi, h⟩ := List.mem_flatMap.mp h
  rw [mem_pyRange (by omega)] at hi
  simp only [List.mem_cons, List.not_mem_nil, or_false] at h
  rcases h with rfl | rfl <;> refine ⟨rfl, ?_⟩ <;> dsimp only
  · omega
  · omega

theorem mem_cells {c : Pos × Option StabGroup} (h : c ∈ cells s) :
    (c.2 = none ∧ inside s c.1 ∧ c.1.1 % 2 = 1 ∧ c.1.2 % 2 = 1) ∨ ∃ g, c.2 = some g ∧ isS s c.1 g := by
  rcases List.mem_append.mp h with h | h
  · rcases List.mem_append.mp h with h | h
    · rcases List.mem_append.mp h with h | h
      · exact Or.inl (mem_c1 h)
      · have := mem_c2 h
        refine Or.inr ⟨_, this.1, ?_⟩
        simp only [isS, grp]
        by_cases hg : c.1.1 / 2 % 2 = c.1.2 / 2 % 2
        · rw [if_pos hg]; simp only [true_and, reduceCtorEq, false_and, or_false]; omega
        · rw [if_neg hg]; simp only [true_and, reduceCtorEq, false_and, false_or]; omega
    · have := mem_c3 h
      refine Or.inr ⟨_, this.1, ?_⟩
      simp only [isS, true_and, reduceCtorEq, false_and, or_false]; omega
  · have := mem_c4 h
    refine Or.inr ⟨_, this.1, ?_⟩
    simp only [isS, true_and, reduceCtorEq, false_and, false_or]; omega

theorem nodup_c (s : Int) : ((cells s).map Prod.fst).Nodup := by
  have n1 : ((c1 s).map Prod.fst).Nodup := by
    rw [c1, List.map_map]
    exact (pairs_nodup (pyRange_nodup (by omega)) (pyRange_nodup (by omega))).map (fun a b h => h)
  have n2 : ((c2 s).map Prod.fst).Nodup := by
    rw [c2, List.map_map]
    exact (pairs_nodup (pyRange_nodup (by omega)) (pyRange_nodup (by omega))).map (fun a b h => h)
  have n3 : 1 ≤ s → ((c3 s).map Prod.fst).Nodup := by
    intro hs
    rw [c3, List.map_flatMap, List.nodup_flatMap]
    constructor
    · intro i _; simp; omega
    · refine (pyRange_nodup (by omega)).imp ?_
      intro a b hab
      rw [Function.onFun, List.disjoint_left]
      intro k h1 h2
      simp only [List.map_cons, List.map_nil, List.mem_cons, List.not_mem_nil, or_false] at h1 h2
      rcases h1 with rfl | rfl <;> rcases h2 with h2 | h2 <;> simp at h2 <;> omega
  have n4 : 1 ≤ s → ((c4 s).map Prod.fst).Nodup := by
    intro hs
    rw [c4, List.map_flatMap, List.nodup_flatMap]
    constructor
    · intro i _; simp; omega
    · refine (pyRange_nodup (by omega)).imp ?_
      intro a b hab
      rw [Function.onFun, List.disjoint_left]
      intro k h1 h2
      simp only [List.map_cons, List.map_nil, List.mem_cons, List.not_mem_nil, or_false] at h1 h2
      rcases h1 with rfl | rfl <;> rcases h2 with h2 | h2 <;> simp at h2 <;> omega
  by_cases hs : 1 ≤ s
  · rw [cells, List.map_append, List.nodup_append, List.map_append, List.nodup_append, List.map_append, List.nodup_append]
    refine ⟨⟨⟨n1, n2, ?_⟩, n3 hs, ?_⟩, n4 hs, ?_⟩
    · rintro p hp q hq rfl
      obtain ⟨a, ha, rfl⟩ := List.mem_map.mp hp
      obtain ⟨b, hb, he⟩ := List.mem_map.mp hq
      have h1 := mem_c1 ha
      have h2 := mem_c2 hb
      rw [he] at h2
      omega
    · rintro p hp q hq rfl
      obtain ⟨b, hb, he⟩ := List.mem_map.mp hq
      have h2 := mem_c3 hb
      rw [he] at h2
      rcases List.mem_append.mp hp with hp | hp
      · obtain ⟨a, ha, rfl⟩ := List.mem_map.mp hp
        have h1 := mem_c1 ha
        omega
      · obtain ⟨a, ha, rfl⟩ := List.mem_map.mp hp
        have h1 := mem_c2 ha
        omega
    · rintro p hp q hq rfl
      obtain ⟨b, hb, he⟩ := List.mem_map.mp hq
      have h2 := mem_c4 hb
      rw [he] at h2
      rcases List.mem_append.mp hp with hp | hp
      · rcases List.mem_append.mp hp with hp | hp
        · obtain ⟨a, ha, rfl⟩ := List.mem_map.mp hp
          have h1 := mem_c1 ha
          omega
        · obtain ⟨a, ha, rfl⟩ := List.mem_map.mp hp
          have h1 := mem_c2 ha
          omega
      · obtain ⟨a, ha, rfl⟩ := List.mem_map.mp hp
        have h1 := mem_c3 ha
        omega
  · have e : cells s = [] := by
      have a1 : odds s = [] := by
        rw [List.eq_nil_iff_forall_not_mem]; intro x hx; rw [mem_odds] at hx; omega
      have a2 : evens s = [] := by
        rw [List.eq_nil_iff_forall_not_mem]; intro x hx; rw [mem_evens] at hx; omega
      have a3 : pyRange 4 (2 * s) 4 = [] := by
        rw [List.eq_nil_iff_forall_not_mem]; intro x hx; rw [mem_pyRange (by omega)] at hx; omega
      have a4 : pyRange 2 (2 * s) 4 = [] := by
        rw [List.eq_nil_iff_forall_not_mem]; intro x hx; rw [mem_pyRange (by omega)] at hx; omega
      simp [cells, c1, c2, c3, c4, a1, a2, a3, a4, pairs]
    rw [e]; simp

/-! Data qubits and stabilisers -/

theorem data_eq (s : Int) : cellData (cells s) = pairs (odds s) (odds s) := by
  unfold cellData cells
  rw [List.filterMap_append, List.filterMap_append, List.filterMap_append]
  have e1 : (c1 s).filterMap (fun c => if c.2 = none then some c.1 else none) = pairs (odds s) (odds s) := by
    rw [c1, List.filterMap_map]
    simp
  have e : ∀ cs : List (Pos × Option StabGroup), (∀ c ∈ cs, c.2 ≠ none) → cs.filterMap (fun c => if c.2 = none then some c.1 else none) = [] := by
    intro cs h
    rw [List.filterMap_eq_nil_iff]
    intro c hc
    rw [if_neg (h c hc)]
  rw [e1, e (c2 s) (fun c hc => by rw [(mem_c2 hc).1]; simp), e (c3 s) (fun c hc => by rw [(mem_c3 hc).1]; simp),
    e (c4 s) (fun c hc => by rw [(mem_c4 hc).1]; simp)]
  simp

theorem mem_cellStabs {cs : List (Pos × Option StabGroup)} {st : Pos × StabGroup} :
    st ∈ cellStabs cs ↔ (st.1, some st.2) ∈ cs := by
  obtain ⟨p, g⟩ := st
  simp only [cellStabs, List.mem_filterMap, Option.map_eq_some_iff, Prod.mk.injEq]
  constructor
  · rintro ⟨⟨q, o⟩, hc, g', h1, h2, h3⟩
    simp only at h1 h2
    subst h1 h2 h3
    exact hc
  · intro h; exact ⟨(p, some g), h, g, rfl, rfl, rfl⟩

theorem cellStabs_nodup {cs : List (Pos × Option StabGroup)} (h : (cs.map Prod.fst).Nodup) : ((cellStabs cs).map Prod.fst).Nodup := by
  induction cs with
  | nil => simp [cellStabs]
  | cons c cs ih =>
    rw [List.map_cons, List.nodup_cons] at h
    obtain ⟨p, o⟩ := c
    cases o with
    | none => simpa [cellStabs] using ih h.2
    | some g =>
      have : cellStabs ((p, some g) :: cs) = (p, g) :: cellStabs cs := by simp [cellStabs]
      rw [this, List.map_cons, List.nodup_cons]
      refine ⟨?_, ih h.2⟩
      intro hm
      obtain ⟨st, hst, he⟩ := List.mem_map.mp hm
      have h4 : (st.1, some st.2) ∈ cs := mem_cellStabs.mp hst
      have h5 := List.mem_map_of_mem (f := Prod.fst) h4
      simp only at he h5
      rw [he] at h5
      exact h.1 h5

variable {size : Nat} {xzzx : Bool}

theorem mem_data {p : Pos} : p ∈ (fam size xzzx).data ↔ inside size p ∧ p.1 % 2 = 1 ∧ p.2 % 2 = 1 := by
  show p ∈ cellData (cells size) ↔ _
  rw [data_eq, mem_pairs, mem_odds, mem_odds]
  simp only [inside]
  omega

theorem mem_stabs {st : Pos × StabGroup} (h : st ∈ (fam size xzzx).stabs) : isS size st.1 st.2 := by
  have h : st ∈ cellStabs (cells size) := h
  rcases mem_cells (mem_cellStabs.mp h) with ⟨h, _⟩ | ⟨g, h, h'⟩
  · simp at h
  · simp only [Option.some.injEq] at h
    subst h
    exact h'

theorem dirs {d : Letter × Int × Int} (h : d ∈ diagDirs) : (d.2.1 = 1 ∨ d.2.1 = -1) ∧ (d.2.2 = 1 ∨ d.2.2 = -1) ∧
    ((d.1 = .X ∧ d.2.1 = d.2.2) ∨ (d.1 = .Z ∧ d.2.1 ≠ d.2.2)) := by
  simp only [diagDirs, List.mem_cons, List.not_mem_nil, or_false] at h
  rcases h with rfl | rfl | rfl | rfl <;> simp

theorem mem_E {st : Pos × StabGroup} {e : LEdge} : e ∈ (fam size xzzx).E st ↔
    ∃ d ∈ diagDirs, inside size (nb st.1 d) ∧ e = mkEdge (nb st.1 d) st.1 (letter xzzx st.2 d) := by
  show e ∈ dirEdges _ _ _ ↔ _
  rw [mem_dirEdges]
  simp

theorem mem_logE {e : LEdge} : e ∈ (fam size xzzx).logE ↔ ∃ i : Int, 0 ≤ i ∧ i < size ∧
    (e = mkEdge (2 * i + 1, 1) (xPos size) (xLetter xzzx i) ∨ e = mkEdge (1, 2 * i + 1) (zPos size) (zLetter xzzx i)) := by
  show e ∈ (pyRange 0 size 1).flatMap _ ↔ _
  simp only [List.mem_flatMap, mem_range, List.mem_cons, List.not_mem_nil, or_false]
  constructor
  · rintro ⟨i, hi, h⟩; exact ⟨i, hi.1, hi.2, h⟩
  · rintro ⟨i, h1, h2, h⟩; exact ⟨i, ⟨h1, h2⟩, h⟩

theorem nb_inj {p : Pos} {a b : Letter × Int × Int} (ha : a ∈ diagDirs) (hb : b ∈ diagDirs) (h : nb p a = nb p b) : a = b := by
  have h1 := congrArg Prod.fst h
  have h2 := congrArg Prod.snd h
  simp only [nb] at h1 h2
  have e1 : a.2.1 = b.2.1 := by omega
  have e2 : a.2.2 = b.2.2 := by omega
  obtain ⟨_, _, ka⟩ := dirs ha
  obtain ⟨_, _, kb⟩ := dirs hb
  rw [e1, e2] at ka
  have e0 : a.1 = b.1 := by
    rcases ka with ⟨k1, k2⟩ | ⟨k1, k2⟩ <;> rcases kb with ⟨k3, k4⟩ | ⟨k3, k4⟩
    · rw [k1, k3]
    · exact absurd k2 k4
    · exact absurd k4 k2
    · rw [k1, k3]
  ext <;> first | exact e0 | exact e1 | exact e2

theorem ok (h2 : 2 ≤ size) : (fam size xzzx).Ok where
  occ := by
    rw [List.nodup_append, List.nodup_append]
    refine ⟨⟨?_, cellStabs_nodup (nodup_c _), ?_⟩, ?_, ?_⟩
    · show (cellData (cells size)).Nodup
      rw [data_eq]
      exact pairs_nodup (pyRange_nodup (by omega)) (pyRange_nodup (by omega))
    · rintro p hp q hq rfl
      obtain ⟨st, hst, rfl⟩ := List.mem_map.mp hq
      have := mem_stabs hst
      rw [mem_data] at hp
      simp only [isS] at this
      omega
    · simp [fam, xPos, zPos]; omega
    · rintro p hp q hq rfl
      simp only [fam, List.map_cons, List.map_nil, List.mem_cons, List.not_mem_nil, or_false, xPos, zPos] at hq
      rcases List.mem_append.mp hp with hp | hp
      · rw [mem_data] at hp
        rcases hq with rfl | rfl <;> simp only at hp <;> omega
      · obtain ⟨st, hst, rfl⟩ := List.mem_map.mp hp
        have := mem_stabs hst
        simp only [isS] at this
        rcases hq with h | h <;> rw [h] at this <;> simp only at this <;> omega
  inB := by
    intro p hp
    rw [mem_data] at hp
    simp only [fam, inside] at hp ⊢
    push_cast
    omega
  Eop := by
    intro st _ e he
    obtain ⟨d, _, _, rfl⟩ := mem_E.mp he
    rfl
  Edata := by
    intro st hst e he
    obtain ⟨d, hd, hin, rfl⟩ := mem_E.mp he
    have := mem_stabs hst
    have hd := dirs hd
    rw [mem_data]
    refine ⟨hin, ?_⟩
    simp only [isS] at this
    simp only [mkEdge, nb]
    omega
  Enew := by
    intro st _ e he
    obtain ⟨d, _, _, rfl⟩ := mem_E.mp he
    rfl
  Enodup := by
    intro st hst
    exact dirEdges_nodup (by decide) (fun a ha b hb _ _ h => nb_inj ha hb h)
  Lop := by
    intro e he
    obtain ⟨i, _, _, rfl | rfl⟩ := mem_logE.mp he <;> simp [fam, mkEdge]
  Ldata := by
    intro e he
    obtain ⟨i, _, _, rfl | rfl⟩ := mem_logE.mp he <;> rw [mem_data] <;> simp only [mkEdge, inside] <;> omega
  Lnew := by
    intro e he
    obtain ⟨i, _, _, rfl | rfl⟩ := mem_logE.mp he <;> rfl
  Lnodup := by
    show (((pyRange 0 size 1).flatMap _).map LEdge.key).Nodup
    rw [List.map_flatMap, List.nodup_flatMap]
    constructor
    · intro i _
      simp [LEdge.key, mkEdge, xPos, zPos]
      omega
    · refine (pyRange_nodup (by omega)).imp ?_
      intro a b hab
      rw [Function.onFun, List.disjoint_left]
      intro k h1 h2
      simp only [List.map_cons, List.map_nil, List.mem_cons, List.not_mem_nil, or_false, LEdge.key, mkEdge, xPos, zPos] at h1 h2
      rcases h1 with rfl | rfl <;> rcases h2 with h2 | h2 <;> simp at h2 <;> omega

theorem odds_eq (size : Nat) : pyRange 1 (2 * (size : Int)) 2 = (pyRange 0 size 1).map fun i => 2 * i + 1 := by
  unfold pyRange
  rw [List.map_map, show ((2 * (size : Int) - 1 + 2 - 1) / 2).toNat = size by omega,
    show (((size : Int) - 0 + 1 - 1) / 1).toNat = size by omega]
  apply List.map_congr_left
  intro k _
  simp only [Function.comp]
  omega

theorem invertEdge_eq (L : Lattice) : L.invertEdge = invE L.isStab := rfl

theorem fin_lat (order : List (Int × Int)) :
    (.ok (Lattice.invertedOrder { (fam size xzzx).raw with timeSteps := some order.length, edges := (fam size xzzx).raw.edges.map (stepEdge (fam size xzzx).raw.isStab order) }).assignIndices :
      Except Err Lattice) = .ok (lat size xzzx order) := by
  unfold lat Fam.lat Lattice.invertedOrder
  rw [invertEdge_eq]
  simp only [List.map_map]
  rfl

theorem make (h2 : 2 ≤ size) (order : List (Int × Int)) (hord : ∀ d ∈ diagDirs, d.2 ∈ order) :
    rotatedLattice size xzzx order = .ok (lat size xzzx order) := by
  have hok := ok (xzzx := xzzx) h2
  unfold rotatedLattice
  dsimp only
  have l1 : ∀ L, loop2 (fun L i j => Lattice.addData L (i, j)) L (pyRange 1 (2 * (size : Int)) 2) (pyRange 1 (2 * (size : Int)) 2) =
      loopE addCell L (c1 size) := by
    intro L; rw [loop2_eq, c1, loopE_map]; rfl
  have l2 : ∀ L, loop2 (fun L i j => if i / 2 % 2 = j / 2 % 2 then Lattice.addStabgen L (i, j) .A else L.addStabgen (i, j) .B) L
      (pyRange 2 (2 * (size : Int)) 2) (pyRange 2 (2 * (size : Int)) 2) = loopE addCell L (c2 size) := by
    intro L; rw [loop2_eq, c2, loopE_map]
    apply loopE_congr
    intro L p _
    simp only [addCell, grp]
    split <;> rfl
  have hb : ∀ x : Except Err Lattice, (x >>= fun L => loopE addCell L []) = x := by intro x; cases x <;> rfl
  have l3 : ∀ L, loopE (fun L i => do
      let L ← Lattice.addStabgen L (0, i) .A
      L.addStabgen (2 * (size : Int), i - (size : Int) % 2 * 2) .A) L (pyRange 4 (2 * (size : Int)) 4) = loopE addCell L (c3 size) := by
    intro L; rw [c3, loopE_flatMap]
    apply loopE_congr
    intro L p _
    simp only [loopE_cons, hb]
    rfl
  have l4 : ∀ L, loopE (fun L i => do
      let L ← Lattice.addStabgen L (i, 0) .B
      L.addStabgen (i + (size : Int) % 2 * 2, 2 * (size : Int)) .B) L (pyRange 2 (2 * (size : Int)) 4) = loopE addCell L (c4 size) := by
    intro L; rw [c4, loopE_flatMap]
    apply loopE_congr
    intro L p _
    simp only [loopE_cons, hb]
    rfl
  have hall := loop_cells (cells size) (Lattice.empty (2 * size + 1) (2 * size + 1)) (by
      intro c hc
      refine inB_of (2 * size + 1) (2 * size + 1) rfl rfl ?_
      rcases mem_cells hc with ⟨_, h, _⟩ | ⟨g, _, h⟩
      · simp only [inside] at h; push_cast; omega
      · simp only [isS] at h; push_cast; omega) (nodup_c _) (by simp [Lattice.empty, Lattice.occupied])
  simp only [l1, l2, l3, l4]
  have hcomb : ∀ (k : Lattice → Except Err Lattice) (L : Lattice),
      (loopE addCell L (c1 size) >>= fun L => loopE addCell L (c2 size) >>= fun L => loopE addCell L (c3 size) >>= fun L =>
        loopE addCell L (c4 size) >>= k) = (loopE addCell L (cells size) >>= k) := by
    intro k L
    rw [cells, loopE_append, loopE_append, loopE_append]
    simp only [bind_assoc]
  rw [hcomb, hall, ok_bind]
  have hst : ∀ L : Lattice, loopE (fun L (st : Pos × StabGroup) => loopE (fun L (d : Letter × Int × Int) =>
      if 1 ≤ st.1.1 + d.2.1 ∧ st.1.1 + d.2.1 ≤ 2 * (size : Int) - 1 ∧ 1 ≤ st.1.2 + d.2.2 ∧ st.1.2 + d.2.2 ≤ 2 * (size : Int) - 1 then
        Lattice.addEdgeAt L (st.1.1 + d.2.1, st.1.2 + d.2.2) st.1 (if xzzx then d.1 else groupLetter st.2)
      else .ok L) L diagDirs) L ([] ++ cellStabs (cells size)) =
      loopE addE L ((fam size xzzx).stabs.flatMap (fam size xzzx).E) := by
    intro L
    rw [loopE_flatMap]
    apply loopE_congr
    intro L st _
    show _ = loopE addE L (dirEdges _ _ _)
    rw [dirEdges, loopE_filterMap]
    apply loopE_congr
    intro L d _
    by_cases ho : inside size (nb st.1 d)
    · rw [if_neg (not_not.mpr ho)]; exact if_pos ho
    · rw [if_pos ho]; exact if_neg ho
  have hst' := hst { Lattice.empty (2 * size + 1) (2 * size + 1) with
    dataqubits := [] ++ cellData (cells size), stabgens := [] ++ cellStabs (cells size) }
  simp only [Lattice.empty] at hst' ⊢
  rw [hst', hok.add_stabEdges _ rfl rfl rfl rfl, ok_bind]
  have hfree : ∀ p : Pos, p ∈ (fam size xzzx).logs.map Prod.fst → p ∉ (fam size xzzx).data ∧ p ∉ (fam size xzzx).stabs.map Prod.fst := by
    intro p hp
    have := (List.nodup_append.mp hok.occ).2.2
    constructor
    · intro hc; exact this p (List.mem_append_left _ hc) p hp rfl
    · intro hc; exact this p (List.mem_append_right _ hc) p hp rfl
  rw [show (((size : Int) + (size : Int) % 2 - 1, 0) : Pos) = xPos size from rfl,
    show ((0, (size : Int) + (size : Int) % 2 - 1) : Pos) = zPos size from rfl]
  rw [addLogical_ok (p := xPos size) _ (inB_of (2 * size + 1) (2 * size + 1) rfl rfl (by simp [xPos]; omega)) (by
      have := hfree (xPos size) (by simp [fam])
      simp only [Lattice.occupied, List.map_nil, List.append_nil, List.nil_append, List.mem_append, not_or]
      exact this), ok_bind]
  rw [addLogical_ok (p := zPos size) _ (inB_of (2 * size + 1) (2 * size + 1) rfl rfl (by simp [zPos]; omega)) (by
      have := hfree (zPos size) (by simp [fam])
      simp only [Lattice.occupied, List.nil_append, List.map_cons, List.map_nil, List.mem_append, not_or]
      refine ⟨this, by simp [xPos, zPos]; omega⟩), ok_bind]
  have hlog : ∀ L : Lattice, loopE (fun L i => do
      let L ← Lattice.addEdgeAt L (i, 1) (xPos size) (if (!xzzx || i / 2 % 2 == 0) = true then .X else .Z)
      L.addEdgeAt (1, i) (zPos size) (if (!xzzx || i / 2 % 2 == 0) = true then .Z else .X)) L (pyRange 1 (2 * (size : Int)) 2) =
        loopE addE L (fam size xzzx).logE := by
    intro L
    show _ = loopE addE L ((pyRange 0 size 1).flatMap _)
    rw [loopE_flatMap, odds_eq, loopE_map]
    apply loopE_congr
    intro L i _
    have : ∀ x : Except Err Lattice, (x >>= fun L => loopE addE L []) = x := by intro x; cases x <;> rfl
    simp only [loopE_cons, this, show (2 * i + 1) / 2 = i by omega]
    rfl
  rw [hlog, hok.add_logEdges _ rfl rfl rfl rfl, ok_bind]
  change ((fam size xzzx).raw.assignOrder order >>= fun L => .ok L.invertedOrder.assignIndices) = _
  rw [assignOrder_ok, ok_bind]
  · exact fin_lat order
  · intro e he hs
    rw [isStab_iff] at hs
    rcases List.mem_append.mp he with he | he
    · obtain ⟨st, hst, he⟩ := List.mem_flatMap.mp he
      obtain ⟨d, hd, _, rfl⟩ := mem_E.mp he
      have hd' := dirs hd
      have hm := hord d hd
      have e1 : st.1.1 + d.2.1 - st.1.1 = d.2.1 := by omega
      have e2 : st.1.2 + d.2.2 - st.1.2 = d.2.2 := by omega
      simp only [mkEdge, nb, e1, e2, stepDir]
      rw [if_neg (by omega), if_neg (by omega)]
      exact hm
    · exact absurd hs (hfree _ (hok.Lop e he)).2

/-! ### Its operators -/

def xE (size : Int) (xzzx : Bool) : List LEdge := lineE size (xPos size) (fun i => (2 * i + 1, 1)) (xLetter xzzx)
def zE (size : Int) (xzzx : Bool) : List LEdge := lineE size (zPos size) (fun i => (1, 2 * i + 1)) (zLetter xzzx)

theorem filter_logs (h2 : 2 ≤ size) :
    (fam size xzzx).logE.filter (fun e => e.op = xPos size) = xE size xzzx ∧
    (fam size xzzx).logE.filter (fun e => e.op = zPos size) = zE size xzzx := by
  have a1 : xPos (size : Int) ≠ zPos size := by simp [xPos, zPos]; omega
  have a2 := a1.symm
  refine ⟨?_, ?_⟩ <;>
  · simp only [fam, xE, zE, lineE]
    rw [List.filter_flatMap, ← List.flatMap_pure_eq_map]
    congr 1
    funext i
    simp [mkEdge, a1, a2]

theorem xor4 (u v : Bool) : (u ^^ (v ^^ (u ^^ v))) = false := by cases u <;> cases v <;> rfl

theorem xor4' (u v : Bool) : (u ^^ (u ^^ (v ^^ v))) = false := by cases u <;> cases v <;> rfl

theorem xor_ex (F1 F2 E1 E2 : Prop) [Decidable F1] [Decidable F2] [Decidable E1] [Decidable E2] (h1 : ¬ (F1 ∧ F2)) (h2 : ¬ (E1 ∧ E2))
    (h3 : ¬ (F1 ∧ E1)) (h4 : ¬ (F1 ∧ E2)) (h5 : ¬ (F2 ∧ E1)) (h6 : ¬ (F2 ∧ E2)) :
    (decide (F1 ∨ E1) ^^ (decide (F1 ∨ E2) ^^ (decide (F2 ∨ E1) ^^ decide (F2 ∨ E2)))) = false := by
  by_cases a : F1 <;> by_cases b : F2 <;> by_cases c : E1 <;> by_cases d : E2 <;> simp_all

theorem ar1 {a1 a2 b1 b2 d1 d2 e1 e2 : Int} (h1 : b1 + e1 = a1 + d1) (h2 : b2 + e2 = a2 + d2) (hd1 : d1 = 1 ∨ d1 = -1)
    (hd2 : d2 = 1 ∨ d2 = -1) (he1 : e1 = 1 ∨ e1 = -1) (he2 : e2 = 1 ∨ e2 = -1)
    (h : (e1 = e2 ∧ d1 ≠ d2) ∨ (e1 ≠ e2 ∧ d1 = d2)) :
    (b1 = a1 + 2 * d1 ∧ b2 = a2) ∨ (b1 = a1 ∧ b2 = a2 + 2 * d2) := by
  rcases hd1 with rfl | rfl <;> rcases hd2 with rfl | rfl <;> rcases he1 with rfl | rfl <;> rcases he2 with rfl | rfl <;> omega

theorem ar2 {a1 a2 b1 b2 d1 d2 e1 e2 : Int} (h1 : b1 + e1 = a1 + d1) (h2 : b2 + e2 = a2 + d2) (hd1 : d1 = 1 ∨ d1 = -1)
    (hd2 : d2 = 1 ∨ d2 = -1) (he1 : e1 = 1 ∨ e1 = -1) (he2 : e2 = 1 ∨ e2 = -1)
    (h : ((a1 + a2) % 4 = 0 ∧ (b1 + b2) % 4 = 2) ∨ ((a1 + a2) % 4 = 2 ∧ (b1 + b2) % 4 = 0)) :
    (b1 = a1 + 2 * d1 ∧ b2 = a2) ∨ (b1 = a1 ∧ b2 = a2 + 2 * d2) := by
  rcases hd1 with rfl | rfl <;> rcases hd2 with rfl | rfl <;> rcases he1 with rfl | rfl <;> rcases he2 with rfl | rfl <;> omega

/-- Two stabilisers, unless they have a common letter. -/
theorem anti_stabs (h2 : 2 ≤ size) {a b : Pos × StabGroup} (ha : a ∈ (fam size xzzx).stabs) (hb : b ∈ (fam size xzzx).stabs)
    (hab : xzzx = true ∨ a.2 ≠ b.2) : antiE ((fam size xzzx).E a) ((fam size xzzx).E b) = false := by
  have sa := mem_stabs ha
  have sb := mem_stabs hb
  simp only [isS] at sa sb
  show antiE (dirEdges _ _ _) _ = _
  rw [antiE_dirEdges _ _ _ ((ok h2).Enodup b hb)
    (P := fun d => (b.1.1 = a.1.1 + 2 * d.2.1 ∧ b.1.2 = a.1.2) ∨ (b.1.1 = a.1.1 ∧ b.1.2 = a.1.2 + 2 * d.2.2))]
  · simp only [diagDirs, xorSum_cons, xorSum_nil, Bool.xor_false, Int.mul_one, show (2 * (-1) : Int) = -2 by omega]
    exact xor_ex _ _ _ _ (by omega) (by omega) (by omega) (by omega) (by omega) (by omega)
  · intro d hd
    have hd' := dirs hd
    rw [not_not]
    constructor
    · intro h
      refine ⟨by simp only [inside, nb]; omega, ?_⟩
      have hex : ∃ d' ∈ diagDirs, nb b.1 d' = nb a.1 d ∧ d'.1 ≠ d.1 := by
        rcases h with ⟨e1, e2⟩ | ⟨e1, e2⟩
        · have : ∃ d' ∈ diagDirs, d'.2.1 = - d.2.1 ∧ d'.2.2 = d.2.2 ∧ d'.1 ≠ d.1 := by
            simp only [diagDirs, List.mem_cons, List.not_mem_nil, or_false] at hd
            rcases hd with rfl | rfl | rfl | rfl <;> simp [diagDirs]
          obtain ⟨d', hd'', f1, f2, f3⟩ := this
          exact ⟨d', hd'', by simp only [nb, Prod.mk.injEq]; omega, f3⟩
        · have : ∃ d' ∈ diagDirs, d'.2.1 = d.2.1 ∧ d'.2.2 = - d.2.2 ∧ d'.1 ≠ d.1 := by
            simp only [diagDirs, List.mem_cons, List.not_mem_nil, or_false] at hd
            rcases hd with rfl | rfl | rfl | rfl <;> simp [diagDirs]
          obtain ⟨d', hd'', f1, f2, f3⟩ := this
          exact ⟨d', hd'', by simp only [nb, Prod.mk.injEq]; omega, f3⟩
      obtain ⟨d', hd'', hn, hl⟩ := hex
      refine ⟨mkEdge (nb b.1 d') b.1 (letter xzzx b.2 d'), mem_E.mpr ⟨d', hd'', ?_, rfl⟩, hn, ?_⟩
      · rw [hn]; simp only [inside, nb]; omega
      · simp only [mkEdge, letter]
        cases xzzx with
        | true => simpa using hl
        | false =>
          simp only [Bool.false_eq_true, false_or, if_false] at hab ⊢
          rcases sa.2.2.2.2.2.2 with ⟨g1, _⟩ | ⟨g1, _⟩ <;> rcases sb.2.2.2.2.2.2 with ⟨g2, _⟩ | ⟨g2, _⟩ <;> rw [g1, g2] at hab ⊢ <;> simp [groupLetter] at hab ⊢
    · rintro ⟨hin, e, he, h1, h3⟩
      obtain ⟨d', hd'', hin', rfl⟩ := mem_E.mp he
      have h1' : nb b.1 d' = nb a.1 d := h1
      simp only [nb, Prod.mk.injEq] at h1'
      have hd3 := dirs hd''
      cases xzzx with
      | true =>
        simp only [mkEdge, letter, if_true] at h3
        have : (d'.2.1 = d'.2.2 ∧ d.2.1 ≠ d.2.2) ∨ (d'.2.1 ≠ d'.2.2 ∧ d.2.1 = d.2.2) := by
          rcases hd'.2.2 with ⟨g1, g2⟩ | ⟨g1, g2⟩ <;> rcases hd3.2.2 with ⟨g3, g4⟩ | ⟨g3, g4⟩
          · exact absurd (g3.trans g1.symm) h3
          · exact Or.inr ⟨g4, g2⟩
          · exact Or.inl ⟨g4, g2⟩
          · exact absurd (g3.trans g1.symm) h3
        exact ar1 h1'.1 h1'.2 hd'.1 hd'.2.1 hd3.1 hd3.2.1 this
      | false =>
        simp only [Bool.false_eq_true, false_or] at hab
        have : ((a.1.1 + a.1.2) % 4 = 0 ∧ (b.1.1 + b.1.2) % 4 = 2) ∨ ((a.1.1 + a.1.2) % 4 = 2 ∧ (b.1.1 + b.1.2) % 4 = 0) := by
          rcases sa.2.2.2.2.2.2 with ⟨g1, g1', _⟩ | ⟨g1, g1', _⟩ <;> rcases sb.2.2.2.2.2.2 with ⟨g2, g2', _⟩ | ⟨g2, g2', _⟩
          · exact absurd (g1.trans g2.symm) hab
          · exact Or.inl ⟨g1', g2'⟩
          · exact Or.inr ⟨g1', g2'⟩
          · exact absurd (g1.trans g2.symm) hab
        exact ar2 h1'.1 h1'.2 hd'.1 hd'.2.1 hd3.1 hd3.2.1 this

theorem E_factor {st : Pos × StabGroup} {e : LEdge} (he : e ∈ (fam size false).E st) : e.factor = groupLetter st.2 := by
  obtain ⟨d, _, _, rfl⟩ := mem_E.mp he
  rfl

theorem anti_x (h2 : 2 ≤ size) {a : Pos × StabGroup} (ha : a ∈ (fam size xzzx).stabs) :
    antiE ((fam size xzzx).E a) (xE size xzzx) = false := by
  have sa := mem_stabs ha
  simp only [isS] at sa
  by_cases hsame : xzzx = false ∧ a.2 = .A
  · obtain ⟨rfl, hA⟩ := hsame
    refine antiE_same_letter .X (fun e he => by rw [E_factor he, hA]; rfl) (fun e he => ?_)
    obtain ⟨i, _, _, rfl⟩ := mem_lineE.mp he
    rfl
  · show antiE (dirEdges _ _ _) (lineE _ _ _ _) = _
    rw [antiE_dirEdges _ _ _ (lineE_nodup _ _ _ _ (fun i j h => by simp at h; omega))
      (P := fun d : Letter × Int × Int => a.1.2 + d.2.2 = 1 ∧ 2 ≤ a.1.1 ∧ a.1.1 ≤ 2 * size - 2 ∧ (xzzx = true → ¬ (d.2.2 = 1 ↔ a.1.1 % 4 = 0)))]
    · simp only [diagDirs, xorSum_cons, xorSum_nil, Bool.xor_false]
      exact xor4 _ _
    · intro d hd
      have hd' := dirs hd
      rw [not_not]
      have key : ∀ i : Int, 2 * i + 1 = a.1.1 + d.2.1 → a.1.2 + d.2.2 = 1 → 2 ≤ a.1.1 → a.1.1 ≤ 2 * size - 2 →
          (xLetter xzzx i ≠ letter xzzx a.2 d ↔ (xzzx = true → ¬ (d.2.2 = 1 ↔ a.1.1 % 4 = 0))) := by
        intro i hi _ _ _
        cases hx : xzzx with
        | false =>
          rw [hx] at hsame
          simp only [true_and] at hsame
          rcases sa.2.2.2.2.2.2 with ⟨g1, _⟩ | ⟨g1, _⟩
          · exact absurd g1 hsame
          · simp [xLetter, letter, g1, groupLetter]
        | true =>
          simp only [letter, xLetter, Bool.not_true, Bool.false_or, beq_iff_eq, if_true]
          by_cases hi2 : i % 2 = 0
          · rw [if_pos hi2]
            rcases hd'.2.2 with ⟨g, g'⟩ | ⟨g, g'⟩ <;> rw [g] <;> simp <;> omega
          · rw [if_neg hi2]
            rcases hd'.2.2 with ⟨g, g'⟩ | ⟨g, g'⟩ <;> rw [g] <;> simp <;> omega
      constructor
      · rintro ⟨e1, e2, e3, e4⟩
        refine ⟨by simp only [inside, nb]; omega, ?_⟩
        have hi : 2 * ((a.1.1 + d.2.1 - 1) / 2) + 1 = a.1.1 + d.2.1 := by omega
        refine ⟨mkEdge (2 * ((a.1.1 + d.2.1 - 1) / 2) + 1, 1) (xPos size) (xLetter xzzx ((a.1.1 + d.2.1 - 1) / 2)),
          mem_lineE.mpr ⟨_, by omega, by omega, rfl⟩, ?_, ?_⟩
        · simp only [mkEdge, nb, Prod.mk.injEq]; omega
        · exact (key _ hi e1 e2 e3).mpr e4
      · rintro ⟨hin, e, he, h1, h3⟩
        obtain ⟨i, hi1, hi2, rfl⟩ := mem_lineE.mp he
        have h1 : ((2 * i + 1, 1) : Pos) = nb a.1 d := h1
        simp only [nb, Prod.mk.injEq] at h1
        simp only [mkEdge] at h3
        by_cases hr : 2 ≤ a.1.1 ∧ a.1.1 ≤ 2 * size - 2
        · exact ⟨h1.2.symm, hr.1, hr.2, (key i h1.1 h1.2.symm hr.1 hr.2).mp h3⟩
        · exfalso
          have hA : a.2 = .A := by
            rcases sa.2.2.2.2.2.2 with ⟨g1, _⟩ | ⟨g1, _, g2, g3⟩
            · exact g1
            · exact absurd ⟨g2, g3⟩ hr
          have hx : xzzx = true := by
            cases hx : xzzx with
            | true => rfl
            | false => exact absurd ⟨hx, hA⟩ hsame
          rw [hx] at h3
          rw [hA] at sa
          simp only [true_and, reduceCtorEq, false_and, or_false] at sa
          simp only [letter, xLetter, Bool.not_true, Bool.false_or, beq_iff_eq, if_true] at h3
          have h4 : d.2.1 = -1 ∧ d.2.2 = -1 ∧ i % 2 = 0 := by omega
          rw [if_pos h4.2.2] at h3
          rcases hd'.2.2 with ⟨g, g'⟩ | ⟨g, g'⟩
          · exact h3 g.symm
          · omega

theorem anti_z (h2 : 2 ≤ size) {a : Pos × StabGroup} (ha : a ∈ (fam size xzzx).stabs) :
    antiE ((fam size xzzx).E a) (zE size xzzx) = false := by
  have sa := mem_stabs ha
  simp only [isS] at sa
  by_cases hsame : xzzx = false ∧ a.2 = .B
  · obtain ⟨rfl, hB⟩ := hsame
    refine antiE_same_letter .Z (fun e he => by rw [E_factor he, hB]; rfl) (fun e he => ?_)
    obtain ⟨i, _, _, rfl⟩ := mem_lineE.mp he
    rfl
  · show antiE (dirEdges _ _ _) (lineE _ _ _ _) = _
    rw [antiE_dirEdges _ _ _ (lineE_nodup _ _ _ _ (fun i j h => by simp at h; omega))
      (P := fun d : Letter × Int × Int => a.1.1 + d.2.1 = 1 ∧ 2 ≤ a.1.2 ∧ a.1.2 ≤ 2 * size - 2 ∧ (xzzx = true → ¬ (d.2.1 = 1 ↔ a.1.2 % 4 = 2)))]
    · simp only [diagDirs, xorSum_cons, xorSum_nil, Bool.xor_false]
      exact xor4' _ _
    · intro d hd
      have hd' := dirs hd
      rw [not_not]
      have key : ∀ i : Int, 2 * i + 1 = a.1.2 + d.2.2 → a.1.1 + d.2.1 = 1 → 2 ≤ a.1.2 → a.1.2 ≤ 2 * size - 2 →
          (zLetter xzzx i ≠ letter xzzx a.2 d ↔ (xzzx = true → ¬ (d.2.1 = 1 ↔ a.1.2 % 4 = 2))) := by
        intro i hi _ _ _
        cases hx : xzzx with
        | false =>
          rw [hx] at hsame
          simp only [true_and] at hsame
          rcases sa.2.2.2.2.2.2 with ⟨g1, _⟩ | ⟨g1, _⟩
          · simp [zLetter, letter, g1, groupLetter]
          · exact absurd g1 hsame
        | true =>
          simp only [letter, zLetter, Bool.not_true, Bool.false_or, beq_iff_eq, if_true]
          by_cases hi2 : i % 2 = 0
          · rw [if_pos hi2]
            rcases hd'.2.2 with ⟨g, g'⟩ | ⟨g, g'⟩ <;> rw [g] <;> simp <;> omega
          · rw [if_neg hi2]
            rcases hd'.2.2 with ⟨g, g'⟩ | ⟨g, g'⟩ <;> rw [g] <;> simp <;> omega
      constructor
      · rintro ⟨e1, e2, e3, e4⟩
        refine ⟨by simp only [inside, nb]; omega, ?_⟩
        have hi : 2 * ((a.1.2 + d.2.2 - 1) / 2) + 1 = a.1.2 + d.2.2 := by omega
        refine ⟨mkEdge (1, 2 * ((a.1.2 + d.2.2 - 1) / 2) + 1) (zPos size) (zLetter xzzx ((a.1.2 + d.2.2 - 1) / 2)),
          mem_lineE.mpr ⟨_, by omega, by omega, rfl⟩, ?_, ?_⟩
        · simp only [mkEdge, nb, Prod.mk.injEq]; omega
        · exact (key _ hi e1 e2 e3).mpr e4
      · rintro ⟨hin, e, he, h1, h3⟩
        obtain ⟨i, hi1, hi2, rfl⟩ := mem_lineE.mp he
        have h1 : ((1, 2 * i + 1) : Pos) = nb a.1 d := h1
        simp only [nb, Prod.mk.injEq] at h1
        simp only [mkEdge] at h3
        by_cases hr : 2 ≤ a.1.2 ∧ a.1.2 ≤ 2 * size - 2
        · exact ⟨h1.1.symm, hr.1, hr.2, (key i h1.2 h1.1.symm hr.1 hr.2).mp h3⟩
        · exfalso
          have hB : a.2 = .B := by
            rcases sa.2.2.2.2.2.2 with ⟨g1, _, g2, g3⟩ | ⟨g1, _⟩
            · exact absurd ⟨g2, g3⟩ hr
            · exact g1
          have hx : xzzx = true := by
            cases hx : xzzx with
            | true => rfl
            | false => exact absurd ⟨hx, hB⟩ hsame
          rw [hx] at h3
          rw [hB] at sa
          simp only [true_and, reduceCtorEq, false_and, false_or] at sa
          simp only [letter, zLetter, Bool.not_true, Bool.false_or, beq_iff_eq, if_true] at h3
          have h4 : d.2.1 = -1 ∧ ((d.2.2 = -1 ∧ i % 2 = 1) ∨ (d.2.2 = 1 ∧ i % 2 = 0)) := by omega
          rcases h4 with ⟨h4, ⟨h5, h6⟩ | ⟨h5, h6⟩⟩
          · rw [if_neg (by omega)] at h3
            rcases hd'.2.2 with ⟨g, g'⟩ | ⟨g, g'⟩
            · exact h3 g.symm
            · omega
          · rw [if_pos h6] at h3
            rcases hd'.2.2 with ⟨g, g'⟩ | ⟨g, g'⟩
            · omega
            · exact h3 g.symm

theorem anti_xz (h2 : 2 ≤ size) : antiE (xE size xzzx) (zE size xzzx) = true := by
  refine anti_lines (fun i j h => by simp at h; omega) 0 0 (by omega) (by omega) (by simp) (by simp [xLetter, zLetter]) ?_
  intro i j _ _ _ _ h; simp at h; omega

theorem anti_self (es : List LEdge) (h : (es.map LEdge.data).Nodup) : antiE es es = false := by
  unfold antiE
  refine xorSum_false fun e he => ?_
  rw [xorSum_pairAnti h, decide_eq_false_iff_not]
  rintro ⟨b, hb, h1, h3⟩
  exact h3 (congrArg LEdge.factor (List.inj_on_of_nodup_map h hb he h1))

variable (order : List (Int × Int))

theorem wf (h2 : 2 ≤ size) : (lat size xzzx order).Wf := (ok h2).wf _ (keeps _ _ _)

theorem comm (h2 : 2 ≤ size) : (lat size xzzx order).Comm := by
  obtain ⟨f1, f2⟩ := filter_logs (xzzx := xzzx) h2
  refine (ok h2).comm _ (keeps _ _ _) ?_ ?_ ?_
  · intro a ha b hb
    by_cases h : xzzx = true ∨ a.2 ≠ b.2
    · exact anti_stabs h2 ha hb h
    · rw [not_or, not_not] at h
      obtain ⟨h, h'⟩ := h
      have h : xzzx = false := by simpa using h
      subst h
      exact antiE_same_letter (groupLetter a.2) (fun e he => E_factor he) (fun e he => by rw [E_factor he, h'])
  · intro a ha l hl
    simp only [fam, List.mem_cons, List.not_mem_nil, or_false] at hl
    rcases hl with rfl | rfl <;> simp only [f1, f2]
    · exact anti_x h2 ha
    · exact anti_z h2 ha
  · have hlog : ∀ (i : Nat) a, (fam size xzzx).logs[i]? = some a →
        (i = 0 ∧ (fam size xzzx).logE.filter (fun e => e.op = a.1) = xE size xzzx) ∨
        (i = 1 ∧ (fam size xzzx).logE.filter (fun e => e.op = a.1) = zE size xzzx) := by
      intro i a ha
      match i with
      | 0 => simp [fam] at ha; subst ha; exact Or.inl ⟨rfl, f1⟩
      | 1 => simp [fam] at ha; subst ha; exact Or.inr ⟨rfl, f2⟩
      | i + 2 => simp [fam] at ha
    intro i j a b ha hb
    rcases hlog i a ha with ⟨rfl, e1⟩ | ⟨rfl, e1⟩ <;> rcases hlog j b hb with ⟨rfl, e2⟩ | ⟨rfl, e2⟩ <;> rw [e1, e2]
    · rw [anti_self (xE size xzzx) (lineE_nodup _ _ _ _ (fun i j h => by simp at h; omega))]; rfl
    · rw [anti_xz h2]; rfl
    · rw [antiE_symm, anti_xz h2]; rfl
    · rw [anti_self (zE size xzzx) (lineE_nodup _ _ _ _ (fun i j h => by simp at h; omega))]; rfl

theorem length_data : (fam size xzzx).data.length = size ^ 2 := by
  show (cellData (cells size)).length = _
  rw [data_eq, length_pairs, odds, length_pyRange, show ((2 * (size : Int) - 1 + 2 - 1) / 2).toNat = size by omega]
  ring

theorem length_cellStabs (cs : List (Pos × Option StabGroup)) (h : ∀ c ∈ cs, c.2 ≠ none) : (cellStabs cs).length = cs.length := by
  induction cs with
  | nil => rfl
  | cons c cs ih =>
    obtain ⟨p, o⟩ := c
    cases o with
    | none => exact absurd rfl (h (p, none) (by simp))
    | some g =>
      have : cellStabs ((p, some g) :: cs) = (p, g) :: cellStabs cs := by simp [cellStabs]
      rw [this, List.length_cons, List.length_cons, ih (fun c hc => h c (by simp [hc]))]

theorem length_stabs (h1 : 1 ≤ size) : (fam size xzzx).stabs.length = size ^ 2 - 1 := by
  show (cellStabs (cells size)).length = _
  have e : cellStabs (cells size) = cellStabs (c2 size) ++ cellStabs (c3 size) ++ cellStabs (c4 size) := by
    unfold cellStabs cells
    rw [List.filterMap_append, List.filterMap_append, List.filterMap_append]
    have : (c1 (size : Int)).filterMap (fun c => c.2.map fun g => (c.1, g)) = [] := by
      rw [List.filterMap_eq_nil_iff]
      intro c hc
      rw [(mem_c1 hc).1]; rfl
    rw [this, List.nil_append]
  rw [e, List.length_append, List.length_append, length_cellStabs _ (fun c hc => by rw [(mem_c2 hc).1]; simp),
    length_cellStabs _ (fun c hc => by rw [(mem_c3 hc).1]; simp), length_cellStabs _ (fun c hc => by rw [(mem_c4 hc).1]; simp)]
  rw [c2, c3, c4, List.length_map, length_pairs, List.length_flatMap, List.length_flatMap]
  simp only [List.length_cons, List.length_nil, List.map_const', List.sum_replicate, smul_eq_mul, length_pyRange, evens]
  obtain ⟨k, rfl⟩ : ∃ k, size = k + 1 := ⟨size - 1, by omega⟩
  rw [show ((2 * ((k + 1 : ℕ) : Int) - 2 + 2 - 1) / 2).toNat = k by omega]
  have h3 : ((2 * ((k + 1 : ℕ) : Int) - 4 + 4 - 1) / 4).toNat + ((2 * ((k + 1 : ℕ) : Int) - 2 + 4 - 1) / 4).toNat = k := by omega
  have h4 : (k + 1) ^ 2 - 1 = k * k + 2 * k := by
    have : (k + 1) ^ 2 = k * k + 2 * k + 1 := by ring
    omega
  rw [h4]
  omega

theorem full (h2 : 2 ≤ size) : (lat size xzzx order).Full := by
  obtain ⟨f1, f2⟩ := filter_logs (xzzx := xzzx) h2
  refine (ok h2).full _ (keeps _ _ _) ?_ ?_ ?_ ?_ ?_
  · intro a ha h0
    have sa := mem_stabs ha
    simp only [isS] at sa
    have : ∃ d ∈ diagDirs, inside size (nb a.1 d) := by
      refine ⟨(if (a.1.1 = 2 * size) then (if a.1.2 = 2 * size then (.X, -1, -1) else (.Z, -1, 1)) else
        (if a.1.2 = 2 * size then (.Z, 1, -1) else (.X, 1, 1))), ?_, ?_⟩
      · split <;> split <;> simp [diagDirs]
      · simp only [inside, nb]
        split <;> split <;> simp only <;> omega
    obtain ⟨d, hd, hin⟩ := this
    have : mkEdge (nb a.1 d) a.1 (letter xzzx a.2 d) ∈ (fam size xzzx).E a := mem_E.mpr ⟨d, hd, hin, rfl⟩
    rw [h0] at this
    simp at this
  · intro l hl h0
    have h0 := congrArg List.length h0
    simp only [fam, List.mem_cons, List.not_mem_nil, or_false] at hl
    rcases hl with rfl | rfl <;> simp only [f1, f2, xE, zE, length_lineE, List.length_nil] at h0 <;> omega
  · intro h0
    have h1 := length_stabs (size := size) (xzzx := xzzx) (by omega)
    rw [h0] at h1
    simp at h1
    have : 2 ^ 2 ≤ size ^ 2 := Nat.pow_le_pow_left h2 2
    omega
  · simp [fam]
  · simp [fam]

end Rotated

end Plaquette
