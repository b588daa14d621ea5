import Verif.Lemmas.Planar
import Verif.Lemmas.Toric
import Verif.Lemmas.Rotated

/-!
# The order of the gates of the stabilisers
-/

namespace Plaquette

theorem nodup_map_inj {α β : Type} {f : α → β} {l : List α} (h : (l.map f).Nodup) {a b : α} (ha : a ∈ l) (hb : b ∈ l)
    (he : f a = f b) : a = b := List.inj_on_of_nodup_map h ha hb he

theorem idxOf_lt_order {order : List (Int × Int)} {d : Int × Int} (h : d ∈ order) : order.idxOf d < order.length :=
  List.idxOf_lt_length_of_mem h

theorem idxOf_inj' {order : List (Int × Int)} {d e : Int × Int} (h : d ∈ order) (he : order.idxOf d = order.idxOf e) : d = e :=
  (List.idxOf_inj h).mp he

/-- A lattice whose stabiliser edges are given by a direction and a step that depends on the stabiliser and the direction. -/
structure Lattice.Dirs (L : Lattice) (δ : Type) (P : Pos → StabGroup → Prop) (dirs : List δ) (nb : Pos → δ → Pos)
    (fac : StabGroup → δ → Letter) (k : Pos → δ → Nat) (T : Nat) : Prop where
  time : L.timeSteps = some T
  edge : ∀ e ∈ L.edges, L.isStab e.op = true → ∃ g d, P e.op g ∧ d ∈ dirs ∧ e.data = nb e.op d ∧ e.factor = fac g d ∧
    e.step = some (k e.op d)

theorem Lattice.Dirs.conflictFree {L : Lattice} {δ : Type} {P : Pos → StabGroup → Prop} {dirs : List δ} {nb : Pos → δ → Pos}
    {fac : StabGroup → δ → Letter} {k : Pos → δ → Nat} {T : Nat} (h : L.Dirs δ P dirs nb fac k T) (hw : L.Wf)
    (hlt : ∀ p, ∀ d ∈ dirs, k p d < T)
    (h1 : ∀ p, ∀ d ∈ dirs, ∀ e ∈ dirs, k p d = k p e → d = e)
    (h2 : ∀ p q g g', P p g → P q g' → ∀ d ∈ dirs, ∀ e ∈ dirs, k p d = k q e → nb p d = nb q e → p = q) : L.ConflictFree where
  steps := ⟨T, h.time, fun e he hs => by
    obtain ⟨g, d, _, hd, _, _, hst⟩ := h.edge e he hs
    exact ⟨_, hst, hlt _ d hd⟩⟩
  once := hw.keys
  apart := by
    intro a ha b hb sa sb hst hor
    obtain ⟨g, d, pa, hd, da, _, ka⟩ := h.edge a ha sa
    obtain ⟨g', e, pb, he, db, _, kb⟩ := h.edge b hb sb
    rw [ka, kb, Option.some.injEq] at hst
    have hop : a.op = b.op := by
      rcases hor with h | h
      · exact h
      · rw [da, db] at h
        exact h2 _ _ _ _ pa pb d hd e he hst h
    apply nodup_map_inj hw.keys ha hb
    rw [hop] at hst
    have hde := h1 _ d hd e he hst
    simp only [LEdge.key, Prod.mk.injEq]
    exact ⟨hop, by rw [da, db, hop, hde]⟩

theorem Lattice.Dirs.sameOrder {L : Lattice} {δ : Type} {P : Pos → StabGroup → Prop} {dirs : List δ} {nb : Pos → δ → Pos}
    {fac : StabGroup → δ → Letter} {k : Pos → δ → Nat} {T : Nat} (h : L.Dirs δ P dirs nb fac k T)
    (hP : ∀ p g g', P p g → P p g' → g = g')
    (h1 : ∀ p q g g', P p g → P q g' → ∀ d ∈ dirs, ∀ e ∈ dirs, ∀ d' ∈ dirs, ∀ e' ∈ dirs, nb p d = nb q e → nb p d' = nb q e' →
      fac g d ≠ fac g' e → fac g d' ≠ fac g' e' → (k p d < k q e ↔ k p d' < k q e')) : L.SameOrder := by
  intro a ha b hb a' ha' b' hb' sa sb hoa hob hd hd' hf hf' i j m l hi hj hm hl
  obtain ⟨g, d, pa, hd, da, fa, ka⟩ := h.edge a ha sa
  obtain ⟨g2, e, pb, he, db, fb, kb⟩ := h.edge b hb sb
  obtain ⟨g3, d', pa', hd'', da', fa', ka'⟩ := h.edge a' ha' (by rw [hoa]; exact sa)
  obtain ⟨g4, e', pb', he', db', fb', kb'⟩ := h.edge b' hb' (by rw [hob]; exact sb)
  rw [hoa] at pa' da' ka'
  rw [hob] at pb' db' kb'
  obtain rfl := hP _ _ _ pa pa'
  obtain rfl := hP _ _ _ pb pb'
  rw [ka, Option.some.injEq] at hi
  rw [kb, Option.some.injEq] at hj
  rw [ka', Option.some.injEq] at hm
  rw [kb', Option.some.injEq] at hl
  subst hi hj hm hl
  exact h1 _ _ _ _ pa pb d hd e he d' hd'' e' he' (by rw [← da, ← db]; assumption) (by rw [← da', ← db']; assumption)
    (by rw [← fa, ← fb]; assumption) (by rw [← fa', ← fb']; assumption)

theorem stepEdge_stab {i : Pos → Bool} {o : List (Int × Int)} {e : LEdge} (h : i e.op = true) :
    (stepEdge i o e).step = some (o.idxOf (stepDir (e.data.1 - e.op.1), stepDir (e.data.2 - e.op.2))) := by
  unfold stepEdge; rw [if_pos h]

theorem stepDir_cross {d : Int} (h : d = 0 ∨ d = 1 ∨ d = -1) : stepDir d = d := by
  unfold stepDir
  rcases h with rfl | rfl | rfl <;> rfl

/-! ### Planar code -/

namespace Planar
variable (size : Nat) (order : List (Int × Int))

def At (s : Int) (p : Pos) (g : StabGroup) : Prop := (p, g) ∈ stabs s

theorem dirs (hs : 1 ≤ size) : (lat size order).Dirs (Int × Int) (At size) crossDirs (fun p d => (p.1 + d.1, p.2 + d.2))
    (fun g _ => groupLetter g) (fun _ d => order.idxOf d) order.length where
  time := rfl
  edge := by
    intro e he hst
    have he : e ∈ (rawEdges size).map (stepEdge (raw size).isStab order) := he
    have hst : (raw size).isStab e.op = true := hst
    obtain ⟨e0, he0, rfl⟩ := List.mem_map.mp he
    rw [stepEdge_op] at hst ⊢
    rcases List.mem_append.mp he0 with he0 | he0
    · obtain ⟨st, hs', he1⟩ := List.mem_flatMap.mp he0
      obtain ⟨d, hd, _, rfl⟩ := mem_stabEdges.mp he1
      refine ⟨st.2, d, hs', hd, ?_, ?_, ?_⟩
      · rw [(stepEdge_df _ _ _).1]; rfl
      · rw [(stepEdge_df _ _ _).2]; rfl
      · rw [stepEdge_stab hst]
        have hdp := crossDirs_par hd
        simp only [mkEdge, Option.some.injEq]
        rw [show st.1.1 + d.1 - st.1.1 = d.1 by omega, show st.1.2 + d.2 - st.1.2 = d.2 by omega, stepDir_cross (by omega),
          stepDir_cross (by omega)]
    · exfalso
      have h1 := occ_nodup size hs
      rw [isStab_iff] at hst
      have h3 := (List.nodup_append.mp h1).2.2
      refine h3 e0.op (List.mem_append_right _ hst) e0.op ?_ rfl
      obtain ⟨i, _, _, rfl | rfl⟩ := mem_logEdges.mp he0 <;> simp [logs, mkEdge]

theorem conflictFree (hs : 1 ≤ size) (hord : ∀ d ∈ crossDirs, d ∈ order) : (lat size order).ConflictFree := by
  refine (dirs size order hs).conflictFree (wf size order hs) (fun _ d hd => idxOf_lt_order (hord d hd))
    (fun _ d hd e _ h => idxOf_inj' (hord d hd) h) ?_
  intro p q g g' _ _ d hd e _ hk hn
  have := idxOf_inj' (hord d hd) hk
  subst this
  simp only [Prod.mk.injEq] at hn
  exact Prod.ext (by omega) (by omega)

theorem crossOrder_ok : ∀ d ∈ crossDirs, ∀ e ∈ crossDirs, ∀ d' ∈ crossDirs, ∀ e' ∈ crossDirs, d.1 - e.1 = d'.1 - e'.1 →
    d.2 - e.2 = d'.2 - e'.2 → (d.1 - e.1) % 2 = 1 → (crossOrder.idxOf d < crossOrder.idxOf e ↔ crossOrder.idxOf d' < crossOrder.idxOf e') := by
  decide

theorem At_unique {s : Int} {p : Pos} {g g' : StabGroup} (h : At s p g) (h' : At s p g') : g = g' := by
  have h1 := (mem_stabs h).2
  have h2 := (mem_stabs h').2
  dsimp only at h1 h2
  rcases h1 with ⟨rfl, h1⟩ | ⟨rfl, h1⟩ <;> rcases h2 with ⟨rfl, h2⟩ | ⟨rfl, h2⟩ <;> first | rfl | (exfalso; omega)

theorem sameOrder (hs : 1 ≤ size) : (lat size crossOrder).SameOrder := by
  refine (dirs size crossOrder hs).sameOrder (fun p g g' => At_unique) ?_
  intro p q g g' hp hq d hd e he d' hd' e' he' h1 h2 hf _
  have a1 := (mem_stabs hp).2
  have a2 := (mem_stabs hq).2
  dsimp only at a1 a2 h1 h2 hf
  simp only [Prod.mk.injEq] at h1 h2
  refine crossOrder_ok d hd e he d' hd' e' he' (by omega) (by omega) ?_
  rcases a1 with ⟨rfl, a1⟩ | ⟨rfl, a1⟩ <;> rcases a2 with ⟨rfl, a2⟩ | ⟨rfl, a2⟩
  · exact absurd rfl hf
  · omega
  · omega
  · exact absurd rfl hf

end Planar

/-! ### Families -/

theorem Fam.stab_edge {F : Fam} (h : F.Ok) {t : Option Nat} {g : LEdge → LEdge} (hg : Fam.Keeps g) {e : LEdge}
    (he : e ∈ (F.lat t g).edges) (hs : (F.lat t g).isStab e.op = true) :
    ∃ st ∈ F.stabs, ∃ e0 ∈ F.E st, e = g e0 ∧ e.op = st.1 ∧ F.raw.isStab e0.op = true := by
  rw [Fam.lat_edges] at he
  have hs : F.raw.isStab e.op = true := hs
  obtain ⟨e0, he0, rfl⟩ := List.mem_map.mp he
  rw [hg.op] at hs
  rcases List.mem_append.mp he0 with he0 | he0
  · obtain ⟨st, hs', he1⟩ := List.mem_flatMap.mp he0
    exact ⟨st, hs', e0, he1, rfl, by rw [hg.op]; exact h.Eop st hs' e0 he1, hs⟩
  · exfalso
    rw [isStab_iff] at hs
    exact (List.nodup_append.mp h.occ).2.2 e0.op (List.mem_append_right _ hs) e0.op (h.Lop e0 he0) rfl

namespace Toric
variable {size : Nat} (order : List (Int × Int))

def At (size : Nat) (p : Pos) (g : StabGroup) : Prop := (p, g) ∈ (fam size).stabs

theorem sdirs (h2 : 2 ≤ size) : (lat size order).Dirs (Int × Int) (At size) crossDirs (nb size)
    (fun g _ => groupLetter g) (fun _ d => order.idxOf d) order.length where
  time := rfl
  edge := by
    intro e he hst
    obtain ⟨st, hs', e0, he0, rfl, hop, hr⟩ := Fam.stab_edge (ok h2) (Fam.keeps_step _ _) he hst
    obtain ⟨d, hd, rfl⟩ := mem_E.mp he0
    rw [hop]
    refine ⟨st.2, d, hs', hd, ?_, ?_, ?_⟩
    · rw [(stepEdge_df _ _ _).1]; rfl
    · rw [(stepEdge_df _ _ _).2]; rfl
    · rw [stepEdge_stab hr]
      obtain ⟨r1, r2, _⟩ := mem_stabs hs'
      have hs2 : (2 : Int) ≤ size := by omega
      have hd' := dirs hd
      simp only [mkEdge, nb, Option.some.injEq]
      rw [wrap_step hs2 r1 (by omega), wrap_step hs2 r2 (by omega)]

theorem wrap_inj {s : Int} (hs : 2 ≤ s) {x y d : Int} (hx : 1 ≤ x ∧ x ≤ 2 * s) (hy : 1 ≤ y ∧ y ≤ 2 * s) (hd : d = 0 ∨ d = 1 ∨ d = -1)
    (h : wrapCoord (2 * s) (x + d) = wrapCoord (2 * s) (y + d)) : x = y := by
  have := wrap_eq (2 * s) (x + d) (by omega) (by omega) (by omega)
  have := wrap_eq (2 * s) (y + d) (by omega) (by omega) (by omega)
  omega

theorem conflictFree (h2 : 2 ≤ size) (hord : ∀ d ∈ crossDirs, d ∈ order) : (lat size order).ConflictFree := by
  refine (sdirs order h2).conflictFree (wf order h2) (fun _ d hd => idxOf_lt_order (hord d hd))
    (fun _ d hd e _ h => idxOf_inj' (hord d hd) h) ?_
  intro p q g g' hp hq d hd e _ hk hn
  have := idxOf_inj' (hord d hd) hk
  subst this
  obtain ⟨r1, r2, _⟩ := mem_stabs hp
  obtain ⟨r3, r4, _⟩ := mem_stabs hq
  have hs2 : (2 : Int) ≤ size := by omega
  have hd' := dirs hd
  simp only [nb, Prod.mk.injEq] at hn
  exact Prod.ext (wrap_inj hs2 r1 r3 (by omega) hn.1) (wrap_inj hs2 r2 r4 (by omega) hn.2)

theorem At_unique {p : Pos} {g g' : StabGroup} (h : At size p g) (h' : At size p g') : g = g' := by
  have h1 := (mem_stabs h).2.2
  have h2 := (mem_stabs h').2.2
  dsimp only at h1 h2
  rcases h1 with ⟨rfl, h1⟩ | ⟨rfl, h1⟩ <;> rcases h2 with ⟨rfl, h2⟩ | ⟨rfl, h2⟩ <;> first | rfl | (exfalso; omega)

/-- If the positions have different parity, the difference of the directions is determined. -/
theorem wrap_diff {s : Int} (hs : 2 ≤ s) {x y d e d' e' : Int} (hx : 1 ≤ x ∧ x ≤ 2 * s) (hy : 1 ≤ y ∧ y ≤ 2 * s)
    (hp : x % 2 ≠ y % 2) (hd : d = 0 ∨ d = 1 ∨ d = -1) (he : e = 0 ∨ e = 1 ∨ e = -1)
    (hd' : d' = 0 ∨ d' = 1 ∨ d' = -1) (he' : e' = 0 ∨ e' = 1 ∨ e' = -1)
    (h : wrapCoord (2 * s) (x + d) = wrapCoord (2 * s) (y + e)) (h' : wrapCoord (2 * s) (x + d') = wrapCoord (2 * s) (y + e')) :
    d - e = d' - e' ∧ (d - e) % 2 = 1 := by
  have h1 := wrap_eq (2 * s) (x + d) (by omega) (by omega) (by omega)
  have h2 := wrap_eq (2 * s) (y + e) (by omega) (by omega) (by omega)
  have h3 := wrap_eq (2 * s) (x + d') (by omega) (by omega) (by omega)
  have h4 := wrap_eq (2 * s) (y + e') (by omega) (by omega) (by omega)
  rw [h] at h1
  rw [h'] at h3
  have k1 : x + d = y + e ∨ x + d = y + e + 2 * s ∨ x + d = y + e - 2 * s := by omega
  have k2 : x + d' = y + e' ∨ x + d' = y + e' + 2 * s ∨ x + d' = y + e' - 2 * s := by omega
  clear h1 h2 h3 h4 h h'
  omega

theorem sameOrder (h2 : 2 ≤ size) : (lat size crossOrder).SameOrder := by
  refine (sdirs crossOrder h2).sameOrder (fun p g g' => At_unique) ?_
  intro p q g g' hp hq d hd e he d' hd' e' he' h1 h2' hf _
  obtain ⟨r1, r2, a1⟩ := mem_stabs hp
  obtain ⟨r3, r4, a2⟩ := mem_stabs hq
  have hs2 : (2 : Int) ≤ size := by omega
  have i1 := dirs hd
  have i2 := dirs he
  have i3 := dirs hd'
  have i4 := dirs he'
  dsimp only at a1 a2 hf
  simp only [nb, Prod.mk.injEq] at h1 h2'
  have hpar : p.1 % 2 ≠ q.1 % 2 ∧ p.2 % 2 ≠ q.2 % 2 := by
    rcases a1 with ⟨rfl, a1⟩ | ⟨rfl, a1⟩ <;> rcases a2 with ⟨rfl, a2⟩ | ⟨rfl, a2⟩
    · exact absurd rfl hf
    · omega
    · omega
    · exact absurd rfl hf
  have w1 := wrap_diff hs2 r1 r3 hpar.1 (by omega) (by omega) (by omega) (by omega) h1.1 h2'.1
  have w2 := wrap_diff hs2 r2 r4 hpar.2 (by omega) (by omega) (by omega) (by omega) h1.2 h2'.2
  exact Planar.crossOrder_ok d hd e he d' hd' e' he' w1.1 w2.1 w1.2

end Toric

namespace Rotated
variable {size : Nat} {xzzx : Bool}

def At (size : Nat) (xzzx : Bool) (p : Pos) (g : StabGroup) : Prop := (p, g) ∈ (fam size xzzx).stabs

/-- The time step of a direction, after the exchange. -/
def stepOf (p : Pos) (d : Letter × Int × Int) : Nat :=
  let k := diagOrder.idxOf d.2
  if (p.1 + p.2) % 4 ≠ 0 then k else if k = 1 then 2 else if k = 2 then 1 else k

theorem sdirs (h2 : 2 ≤ size) : (lat size xzzx diagOrder).Dirs (Letter × Int × Int) (At size xzzx) diagDirs nb
    (letter xzzx) stepOf 4 where
  time := rfl
  edge := by
    intro e he hst
    obtain ⟨st, hs', e0, he0, rfl, hop, hr⟩ := Fam.stab_edge (ok h2) (keeps _ _ _) he hst
    obtain ⟨d, hd, _, rfl⟩ := mem_E.mp he0
    rw [hop]
    refine ⟨st.2, d, hs', hd, ?_, ?_, ?_⟩
    · rw [((keeps size xzzx diagOrder).df _).1]; rfl
    · rw [((keeps size xzzx diagOrder).df _).2]; rfl
    · have hst := stepEdge_stab (o := diagOrder) hr
      have hd' := Rotated.dirs hd
      simp only [mkEdge, nb] at hst
      rw [show st.1.1 + d.2.1 - st.1.1 = d.2.1 by omega, show st.1.2 + d.2.2 - st.1.2 = d.2.2 by omega, stepDir_cross (by omega),
          stepDir_cross (by omega)] at hst
      unfold invE stepOf
      rw [stepEdge_op, hr]
      simp only [Bool.not_true, Bool.false_eq_true, if_false]
      simp only [mkEdge, nb, hst, Option.some.injEq]
      split
      · exact hst
      · split
        · rfl
        · split
          · rfl
          · exact hst

theorem At_unique {p : Pos} {g g' : StabGroup} (h : At size xzzx p g) (h' : At size xzzx p g') : g = g' := by
  have h1 := mem_stabs h
  have h2 := mem_stabs h'
  simp only [isS] at h1 h2
  have h1 := h1.2.2.2.2.2.2
  have h2 := h2.2.2.2.2.2.2
  rcases h1 with ⟨rfl, h1⟩ | ⟨rfl, h1⟩ <;> rcases h2 with ⟨rfl, h2⟩ | ⟨rfl, h2⟩ <;> first | rfl | (exfalso; omega)

/-- The step, as a function of the exchange. -/
def stepB (inv : Bool) (d : Letter × Int × Int) : Nat :=
  let k := diagOrder.idxOf d.2
  if !inv then k else if k = 1 then 2 else if k = 2 then 1 else k

theorem stepOf_eq (p : Pos) (d : Letter × Int × Int) : stepOf p d = stepB (decide ((p.1 + p.2) % 4 = 0)) d := by
  unfold stepOf stepB
  by_cases h : (p.1 + p.2) % 4 = 0 <;> simp [h]

theorem stepB_lt : ∀ i : Bool, ∀ d ∈ diagDirs, stepB i d < 4 := by decide
theorem stepB_inj : ∀ i : Bool, ∀ d ∈ diagDirs, ∀ e ∈ diagDirs, stepB i d = stepB i e → d = e := by decide
theorem stepB_ne : ∀ d ∈ diagDirs, ∀ e ∈ diagDirs, stepB true d = stepB false e → d.2.1 + d.2.2 = e.2.1 + e.2.2 := by decide
theorem stepB_ord : ∀ i : Bool, ∀ d ∈ diagDirs, ∀ e ∈ diagDirs, ∀ d' ∈ diagDirs, ∀ e' ∈ diagDirs,
    d.2.1 - e.2.1 = d'.2.1 - e'.2.1 → d.2.2 - e.2.2 = d'.2.2 - e'.2.2 → (d.2.1 - e.2.1 + (d.2.2 - e.2.2)) % 4 = 2 →
    (stepB i d < stepB (!i) e ↔ stepB i d' < stepB (!i) e') := by decide

theorem sums {p : Pos} {g : StabGroup} (h : At size xzzx p g) :
    p.1 % 2 = 0 ∧ p.2 % 2 = 0 ∧ ((g = .A ∧ (p.1 + p.2) % 4 = 0) ∨ (g = .B ∧ (p.1 + p.2) % 4 = 2)) := by
  have h1 := mem_stabs h
  simp only [isS] at h1
  refine ⟨h1.2.2.2.2.1, h1.2.2.2.2.2.1, ?_⟩
  rcases h1.2.2.2.2.2.2 with ⟨a, b, _⟩ | ⟨a, b, _⟩
  · exact Or.inl ⟨a, b⟩
  · exact Or.inr ⟨a, b⟩

theorem conflictFree (h2 : 2 ≤ size) : (lat size xzzx diagOrder).ConflictFree := by
  refine (sdirs h2).conflictFree (wf diagOrder h2) (fun p d hd => by rw [stepOf_eq]; exact stepB_lt _ d hd)
    (fun p d hd e he h => by rw [stepOf_eq, stepOf_eq] at h; exact stepB_inj _ d hd e he h) ?_
  intro p q g g' hp hq d hd e he hk hn
  rw [stepOf_eq, stepOf_eq] at hk
  simp only [nb, Prod.mk.injEq] at hn
  obtain ⟨_, _, sp⟩ := sums hp
  obtain ⟨_, _, sq⟩ := sums hq
  by_cases i1 : (p.1 + p.2) % 4 = 0 <;> by_cases i2 : (q.1 + q.2) % 4 = 0 <;>
    simp only [i1, i2, decide_true, decide_false] at hk
  · have := stepB_inj _ d hd e he hk
    subst this
    exact Prod.ext (by omega) (by omega)
  · have := stepB_ne d hd e he hk
    omega
  · have := stepB_ne e he d hd hk.symm
    omega
  · have := stepB_inj _ d hd e he hk
    subst this
    exact Prod.ext (by omega) (by omega)

theorem sameOrder (h2 : 2 ≤ size) : (lat size xzzx diagOrder).SameOrder := by
  refine (sdirs h2).sameOrder (fun p g g' => At_unique) ?_
  intro p q g g' hp hq d hd e he d' hd' e' he' h1 h2' hf hf'
  obtain ⟨p1, p2, sp⟩ := sums hp
  obtain ⟨q1, q2, sq⟩ := sums hq
  simp only [nb, Prod.mk.injEq] at h1 h2'
  have hpq : ((p.1 + p.2) % 4 = 0 ∧ (q.1 + q.2) % 4 = 2) ∨ ((p.1 + p.2) % 4 = 2 ∧ (q.1 + q.2) % 4 = 0) := by
    have hg : g ≠ g' := by
      rintro rfl
      simp only [letter] at hf
      cases xzzx with
      | false => exact hf rfl
      | true =>
        simp only [if_true] at hf
        have i1 := Rotated.dirs hd
        have i2 := Rotated.dirs he
        have : (d.2.1 = d.2.2 ∧ e.2.1 ≠ e.2.2) ∨ (d.2.1 ≠ d.2.2 ∧ e.2.1 = e.2.2) := by
          rcases i1.2.2 with ⟨g1, g2⟩ | ⟨g1, g2⟩ <;> rcases i2.2.2 with ⟨g3, g4⟩ | ⟨g3, g4⟩
          · exact absurd (g1.trans g3.symm) hf
          · exact Or.inl ⟨g2, g4⟩
          · exact Or.inr ⟨g2, g4⟩
          · exact absurd (g1.trans g3.symm) hf
        rcases sp with ⟨e1, sp⟩ | ⟨e1, sp⟩ <;> rcases sq with ⟨e2, sq⟩ | ⟨e2, sq⟩
        · omega
        · rw [e1] at e2; cases e2
        · rw [e1] at e2; cases e2
        · omega
    rcases sp with ⟨rfl, sp⟩ | ⟨rfl, sp⟩ <;> rcases sq with ⟨rfl, sq⟩ | ⟨rfl, sq⟩
    · exact absurd rfl hg
    · exact Or.inl ⟨sp, sq⟩
    · exact Or.inr ⟨sp, sq⟩
    · exact absurd rfl hg
  rw [stepOf_eq, stepOf_eq, stepOf_eq, stepOf_eq]
  have e1 : decide ((q.1 + q.2) % 4 = 0) = !decide ((p.1 + p.2) % 4 = 0) := by
    rcases hpq with ⟨a, b⟩ | ⟨a, b⟩ <;> simp [a, b]
  rw [e1]
  exact stepB_ord _ d hd e he d' hd' e' he' (by omega) (by omega) (by omega)

end Rotated

end Plaquette
