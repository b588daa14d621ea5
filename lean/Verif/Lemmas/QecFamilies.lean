import Verif.Lemmas.QecDirect
import Verif.Props.Fabrication
import Verif.Lemmas.Schedule

/-!
# The schedules of the lattice families
-/

namespace Plaquette

theorem stepEdge_new {i : Pos → Bool} {o : List (Int × Int)} {e : LEdge} (he : e.step = none) (h : (stepEdge i o e).step ≠ none) :
    i (stepEdge i o e).op = true := by
  rw [stepEdge_op]
  by_contra hc
  unfold stepEdge at h
  rw [if_neg hc] at h
  exact h he

theorem invE_new {i : Pos → Bool} {o : List (Int × Int)} {e : LEdge} (he : e.step = none)
    (h : (Rotated.invE i (stepEdge i o e)).step ≠ none) : i (Rotated.invE i (stepEdge i o e)).op = true := by
  rw [(Rotated.invE_keeps _).op]
  by_contra hc
  unfold Rotated.invE at h
  rw [if_pos (by simpa using hc)] at h
  exact hc (stepEdge_new he h)

theorem Fam.new {F : Fam} (h : F.Ok) {e : LEdge} (he : e ∈ F.edges) : e.step = none := by
  rcases List.mem_append.mp he with he | he
  · obtain ⟨st, hst, he⟩ := List.mem_flatMap.mp he
    exact h.Enew st hst e he
  · exact h.Lnew e he

theorem Planar.sched (size : Nat) (hs : 1 ≤ size) : (Planar.lat size crossOrder).Sched where
  noY := Planar.letters size _
  steps := by
    refine .inr ⟨Planar.conflictFree size _ hs (by decide), Planar.sameOrder size hs, ?_⟩
    intro e he hne
    have he : e ∈ (Planar.rawEdges size).map (stepEdge (Planar.raw size).isStab crossOrder) := he
    obtain ⟨e', he', rfl⟩ := List.mem_map.mp he
    refine stepEdge_new ?_ hne
    rcases List.mem_append.mp he' with he' | he'
    · obtain ⟨st, _, he'⟩ := List.mem_flatMap.mp he'
      obtain ⟨d, _, _, rfl⟩ := Planar.mem_stabEdges.mp he'
      rfl
    · obtain ⟨i, _, _, rfl | rfl⟩ := Planar.mem_logEdges.mp he' <;> rfl

theorem Toric.sched (size : Nat) (h2 : 2 ≤ size) : (Toric.lat size crossOrder).Sched where
  noY := Toric.letters size _
  steps := by
    refine .inr ⟨Toric.conflictFree _ h2 (by decide), Toric.sameOrder h2, ?_⟩
    intro e he hne
    have he : e ∈ (Toric.fam size).edges.map (stepEdge (Toric.fam size).raw.isStab crossOrder) := he
    obtain ⟨e', he', rfl⟩ := List.mem_map.mp he
    exact stepEdge_new (Fam.new (Toric.ok h2) he') hne

theorem Fam.stepped {F : Fam} (h : F.Ok) {t : Option Nat} {o : List (Int × Int)} {e : LEdge}
    (he : e ∈ (F.lat t (fun e => Rotated.invE F.raw.isStab (stepEdge F.raw.isStab o e))).edges) (hne : e.step ≠ none) :
    (F.lat t (fun e => Rotated.invE F.raw.isStab (stepEdge F.raw.isStab o e))).isStab e.op = true := by
  show F.raw.isStab e.op = true
  rw [Fam.lat_edges] at he
  obtain ⟨e', he', rfl⟩ := List.mem_map.mp he
  exact invE_new (Fam.new h he') hne

theorem Rotated.sched (size : Nat) (xzzx : Bool) (h2 : 2 ≤ size) : (Rotated.lat size xzzx diagOrder).Sched where
  noY := Rotated.letters size xzzx _
  steps := .inr ⟨Rotated.conflictFree h2, Rotated.sameOrder h2, fun e he hne =>
    Fam.stepped (F := Rotated.fam size xzzx) (t := some 4) (o := diagOrder) (e := e) (Rotated.ok h2) he hne⟩

theorem Rep.sched (size : Nat) : (Rep.lat size).Sched where
  noY := by
    intro e he
    have he : e ∈ (Rep.stabCells size).flatMap Rep.stabEdges ++ Rep.xEdges size ++ Rep.zEdges size := he
    rcases List.mem_append.mp he with he | he
    · rcases List.mem_append.mp he with he | he
      · obtain ⟨i, _, he⟩ := List.mem_flatMap.mp he
        simp only [Rep.stabEdges, List.mem_cons, List.not_mem_nil, or_false] at he
        rcases he with rfl | rfl <;> simp [mkEdge]
      · obtain ⟨i, _, rfl⟩ := List.mem_map.mp he
        simp [mkEdge]
    · rw [List.mem_singleton.mp he]; simp [mkEdge]
  steps := .inl rfl

/-- No letter Y and no time steps. -/
def sequential (x : Except Err Lattice) : Bool :=
  match x with
  | .ok L => decide (∀ e ∈ L.edges, e.factor ≠ .Y) && decide (L.timeSteps = none)
  | .error _ => true

set_option maxRecDepth 100000 in
theorem five_seq : sequential fiveQubitLattice = true := by decide +kernel

set_option maxRecDepth 100000 in
theorem shor_seq : sequential shorLattice = true := by decide +kernel

theorem sequential_spec {L : Lattice} {x : Except Err Lattice} (h : sequential x = true) (hx : x = .ok L) : L.Sched := by
  subst hx
  simp only [sequential, Bool.and_eq_true, decide_eq_true_eq] at h
  exact ⟨h.1, .inl h.2⟩

end Plaquette
