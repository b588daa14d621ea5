import Verif.Lemmas.FabricationRemove
import Verif.Lemmas.SmallDist
import Verif.Lemmas.PlanarDist
import Verif.Lemmas.ToricDist
import Verif.Lemmas.RotatedDist
import Verif.Props.Fabrication

/-!
# The CSS lattices

The lattices of the planar, toric, rotated, repetition and Shor code have operators with one letter, and keep them under
fabrication errors.
-/

namespace Plaquette

theorem fst_unique {α β : Type} {l : List (α × β)} (h : (l.map Prod.fst).Nodup) {a : α} {b b' : β} (h1 : (a, b) ∈ l)
    (h2 : (a, b') ∈ l) : b = b' := by
  have := List.inj_on_of_nodup_map h h1 h2 rfl
  exact congrArg Prod.snd this

/-- The operators of a lattice with their letters. -/
def Lattice.table (L : Lattice) (f : StabGroup → Letter) (g : List Char → Letter) : List (Pos × Letter) :=
  (L.stabgens.map fun st => (st.1, f st.2)) ++ L.logicals.map fun l => (l.1, g l.2)

theorem css_mk {L : Lattice} (hw : L.Wf) (hx : L.TwoAt .X) (hz : L.TwoAt .Z) (hy : ∀ e ∈ L.edges, e.factor ≠ .Y)
    {φ : Pos → Letter → Letter} (inj : ∀ d, Function.Injective (φ d))
    (h1 : ∀ e ∈ L.edges, ∀ e' ∈ L.edges, e.op = e'.op → φ e.data e.factor = φ e'.data e'.factor)
    (ho : ∀ e ∈ L.edges, e.op ∈ L.stabgens.map Prod.fst ++ L.logicals.map Prod.fst) : L.Css φ := by
  have hp : L.Pre := ⟨hw.occ, hw.keys, hw.data, hy⟩
  refine ⟨hp, inj, ?_, ?_, ?_⟩
  · intro k d d' c c' k1 k2
    obtain ⟨e, he, rfl, rfl, rfl⟩ := (at_iff hp.keys).1 k1
    obtain ⟨e', he', h3, rfl, rfl⟩ := (at_iff hp.keys).1 k2
    exact h1 e he e' he' h3.symm
  · intro d c k1 k2 k3 s1 s2 s3 h1 h2 h3
    obtain ⟨e1, m1, o1, d1, c1⟩ := (at_iff hp.keys).1 h1
    obtain ⟨e2, m2, o2, d2, c2⟩ := (at_iff hp.keys).1 h2
    obtain ⟨e3, m3, o3, d3, c3⟩ := (at_iff hp.keys).1 h3
    have hd : d ∈ L.dataqubits := d1 ▸ hp.data e1 m1
    have hcy : c ≠ .Y := c1 ▸ hy e1 m1
    obtain ⟨u, v, huv⟩ : ∃ u v : Pos, ∀ st ∈ L.stabgens, ∀ e ∈ L.opEdges st.1, e.data = d → e.factor = c → st.1 = u ∨ st.1 = v := by
      cases c with
      | Y => exact absurd rfl hcy
      | X =>
        obtain ⟨u, v, h⟩ := hz d hd
        exact ⟨u, v, fun st hst e he h1 h2 => h st hst e he h1 (by rw [h2]; decide)⟩
      | Z =>
        obtain ⟨u, v, h⟩ := hx d hd
        exact ⟨u, v, fun st hst e he h1 h2 => h st hst e he h1 (by rw [h2]; decide)⟩
    have key : ∀ k e, L.isStab k = true → e ∈ L.edges → e.op = k → e.data = d → e.factor = c → k = u ∨ k = v := by
      intro k e hs he ho h1 h2
      obtain ⟨st, hst, rfl⟩ := List.mem_map.1 (isStab_iff.1 hs)
      exact huv st hst e (mem_opEdges.2 ⟨he, ho⟩) h1 h2
    rcases key k1 e1 s1 m1 o1 d1 c1 with r1 | r1 <;> rcases key k2 e2 s2 m2 o2 d2 c2 with r2 | r2 <;>
      rcases key k3 e3 s3 m3 o3 d3 c3 with r3 | r3 <;> simp [r1, r2, r3]
  · intro k d c h
    obtain ⟨e, he, rfl, _, rfl⟩ := (at_iff hp.keys).1 h
    rcases List.mem_append.1 (ho e he) with h1 | h1
    · exact .inl (isStab_iff.2 h1)
    · exact .inr h1

theorem css_of {L : Lattice} (hw : L.Wf) (hx : L.TwoAt .X) (hz : L.TwoAt .Z) (hy : ∀ e ∈ L.edges, e.factor ≠ .Y)
    {φ : Pos → Letter → Letter} (inj : ∀ d, Function.Injective (φ d)) (f : StabGroup → Letter) (g : List Char → Letter)
    (ht : ∀ e ∈ L.edges, (e.op, φ e.data e.factor) ∈ L.table f g) : L.Css φ := by
  have h1 : (L.table f g).map Prod.fst = L.stabgens.map Prod.fst ++ L.logicals.map Prod.fst := by
    simp [Lattice.table, Function.comp_def]
  have hn : ((L.table f g).map Prod.fst).Nodup := by
    rw [h1]
    have h2 := hw.occ
    unfold Lattice.occupied at h2
    rw [List.append_assoc] at h2
    exact (List.nodup_append.mp h2).2.1
  refine css_mk hw hx hz hy inj ?_ ?_
  · intro e he e' he' h3
    have h4 := ht e' he'
    rw [← h3] at h4
    exact fst_unique hn (ht e he) h4
  · intro e he
    rw [← h1]
    exact List.mem_map.2 ⟨_, ht e he, rfl⟩

/-- The letters as they are. -/
def plain : Pos → Letter → Letter := fun _ c => c

@[simp] theorem plain_eq (d : Pos) (c : Letter) : plain d c = c := rfl

theorem plain_inj (d : Pos) : Function.Injective (plain d) := fun _ _ h => h

/-- X and Z exchanged. -/
def swapXZ : Letter → Letter
  | .X => .Z
  | .Y => .Y
  | .Z => .X

/-- The letters of the XZZX code, exchanged at every second data qubit. -/
def everySecond (xzzx : Bool) (d : Pos) (c : Letter) : Letter := if xzzx ∧ (d.1 / 2 + d.2 / 2) % 2 ≠ 0 then swapXZ c else c

theorem everySecond_inj (xzzx : Bool) (d : Pos) : Function.Injective (everySecond xzzx d) := by
  intro a b h
  unfold everySecond at h
  split at h
  · cases a <;> cases b <;> simp_all [swapXZ]
  · exact h

/-- The letter that a logical operator is named by. -/
def nameLetter (l : List Char) : Letter := if l = ['X'] then .X else .Z

theorem Fam.table {F : Fam} {t : Option Nat} {g : LEdge → LEdge} (hg : Fam.Keeps g) {f : StabGroup → Letter} {n : List Char → Letter}
    {φ : Pos → Letter → Letter} (hE : ∀ st ∈ F.stabs, ∀ e ∈ F.E st, e.op = st.1 ∧ φ e.data e.factor = f st.2)
    (hL : ∀ e ∈ F.logE, ∃ l ∈ F.logs, e.op = l.1 ∧ φ e.data e.factor = n l.2) :
    ∀ e ∈ (F.lat t g).edges, (e.op, φ e.data e.factor) ∈ (F.lat t g).table f n := by
  intro e he
  rw [Fam.lat_edges] at he
  obtain ⟨e', he', rfl⟩ := List.mem_map.mp he
  rw [(hg.df _).2, (hg.df _).1, hg.op]
  unfold Lattice.table
  rw [Fam.lat_stabs, Fam.lat_logs]
  rcases List.mem_append.mp he' with he' | he'
  · obtain ⟨st, hst, he'⟩ := List.mem_flatMap.mp he'
    obtain ⟨h1, h2⟩ := hE st hst e' he'
    exact List.mem_append_left _ (List.mem_map.2 ⟨st, hst, by rw [h1, h2]⟩)
  · obtain ⟨l, hl, h1, h2⟩ := hL e' he'
    exact List.mem_append_right _ (List.mem_map.2 ⟨l, hl, by rw [h1, h2]⟩)

theorem mem_dirEdges_inv {α : Type} {ds : List α} {skip : α → Prop} [DecidablePred skip] {mk : α → LEdge} {e : LEdge}
    (he : e ∈ dirEdges ds skip mk) : ∃ d ∈ ds, e = mk d := by
  unfold dirEdges at he
  obtain ⟨d, hd, he⟩ := List.mem_filterMap.mp he
  split at he
  · simp at he
  · cases he; exact ⟨d, hd, rfl⟩

theorem Planar.table (size : Nat) (order : List (Int × Int)) :
    ∀ e ∈ (Planar.lat size order).edges, (e.op, plain e.data e.factor) ∈ (Planar.lat size order).table groupLetter nameLetter := by
  intro e he
  have he : e ∈ (Planar.rawEdges size).map (stepEdge (Planar.raw size).isStab order) := he
  obtain ⟨e', he', rfl⟩ := List.mem_map.mp he
  show (_, LEdge.factor _) ∈ _
  rw [(stepEdge_df _ _ _).2, stepEdge_op]
  show _ ∈ ((Planar.stabs size).map fun st => (st.1, groupLetter st.2)) ++ (Planar.logs size).map fun l => (l.1, nameLetter l.2)
  rcases List.mem_append.mp he' with he' | he'
  · obtain ⟨st, hst, he'⟩ := List.mem_flatMap.mp he'
    obtain ⟨d, _, he'⟩ := List.mem_filterMap.mp he'
    unfold Planar.dirEdge at he'
    split at he'
    · simp at he'
    · cases he'
      exact List.mem_append_left _ (List.mem_map.2 ⟨st, hst, rfl⟩)
  · obtain ⟨i, _, he'⟩ := List.mem_flatMap.mp he'
    simp only [List.mem_cons, List.not_mem_nil, or_false] at he'
    refine List.mem_append_right _ ?_
    rcases he' with rfl | rfl <;> simp [mkEdge, Planar.logs, nameLetter]

theorem Planar.css {size : Nat} (h2 : 2 ≤ size) (order : List (Int × Int)) : (Planar.lat size order).Css plain :=
  css_of (Planar.wf _ _ (by omega)) (Planar.twoAt _ (by decide)) (Planar.twoAt _ (by decide)) (Planar.letters _ _)
    plain_inj groupLetter nameLetter (Planar.table size order)

theorem Toric.table (size : Nat) (order : List (Int × Int)) :
    ∀ e ∈ (Toric.lat size order).edges, (e.op, plain e.data e.factor) ∈ (Toric.lat size order).table groupLetter nameLetter := by
  refine Fam.table (Fam.keeps_step _ _) ?_ ?_
  · intro st _ e he
    obtain ⟨d, _, rfl⟩ := mem_dirEdges_inv he
    exact ⟨rfl, rfl⟩
  · intro e he
    obtain ⟨i, _, he⟩ := List.mem_flatMap.mp he
    simp only [List.mem_cons, List.not_mem_nil, or_false] at he
    rcases he with rfl | rfl | rfl | rfl <;> simp [mkEdge, Toric.fam, nameLetter]

theorem Toric.css {size : Nat} (h2 : 2 ≤ size) (order : List (Int × Int)) : (Toric.lat size order).Css plain :=
  css_of (Toric.wf _ h2) (Toric.twoAt h2 _ (by decide)) (Toric.twoAt h2 _ (by decide)) (Toric.letters _ _)
    plain_inj groupLetter nameLetter (Toric.table size order)

theorem Rotated.table (size : Nat) (xzzx : Bool) (order : List (Int × Int)) : ∀ e ∈ (Rotated.lat size xzzx order).edges,
    (e.op, everySecond xzzx e.data e.factor) ∈ (Rotated.lat size xzzx order).table groupLetter nameLetter := by
  refine Fam.table ?_ ?_ ?_
  · exact ⟨fun e => ((Rotated.invE_keeps _).op _).trans (stepEdge_op _ _ e),
      fun e => ⟨((Rotated.invE_keeps _).df _).1.trans (stepEdge_df _ _ e).1,
        ((Rotated.invE_keeps _).df _).2.trans (stepEdge_df _ _ e).2⟩⟩
  · intro st hst e he
    obtain ⟨d, hd, rfl⟩ := mem_dirEdges_inv he
    refine ⟨rfl, ?_⟩
    cases xzzx with
    | false => simp [everySecond, mkEdge, Rotated.letter]
    | true =>
      have hs := Rotated.mem_stabs hst
      obtain ⟨⟨p1, p2⟩, g⟩ := st
      simp only [Rotated.isS] at hs
      simp only [diagDirs, List.mem_cons, List.not_mem_nil, or_false] at hd
      obtain ⟨_, _, _, _, e1, e2, ⟨rfl, hm, _⟩ | ⟨rfl, hm, _⟩⟩ := hs <;> rcases hd with rfl | rfl | rfl | rfl <;>
        simp only [everySecond, mkEdge, Rotated.letter, nb, groupLetter, if_true, true_and] <;>
        first
        | (rw [if_pos (by omega)]; rfl)
        | (rw [if_neg (by omega)])
  · intro e he
    obtain ⟨i, _, he⟩ := List.mem_flatMap.mp he
    simp only [List.mem_cons, List.not_mem_nil, or_false] at he
    have hi : (2 * i + 1) / 2 = i := by omega
    cases xzzx with
    | false => rcases he with rfl | rfl <;> simp [mkEdge, Rotated.fam, Rotated.xLetter, Rotated.zLetter, nameLetter, everySecond]
    | true =>
      by_cases hp : i % 2 = 0 <;> rcases he with rfl | rfl <;>
        simp [mkEdge, Rotated.fam, Rotated.xLetter, Rotated.zLetter, nameLetter, everySecond, hi, hp, swapXZ]

theorem Rotated.css {size : Nat} (h2 : 2 ≤ size) (xzzx : Bool) (order : List (Int × Int)) :
    (Rotated.lat size xzzx order).Css (everySecond xzzx) :=
  css_of (Rotated.wf _ h2) (Rotated.twoAt h2 _ (by decide)) (Rotated.twoAt h2 _ (by decide)) (Rotated.letters _ _ _)
    (everySecond_inj xzzx) groupLetter nameLetter (Rotated.table size xzzx order)

theorem Rep.table (size : Nat) : ∀ e ∈ (Rep.lat size).edges, (e.op, plain e.data e.factor) ∈ (Rep.lat size).table (fun _ => .Z) nameLetter := by
  intro e he
  have he : e ∈ (Rep.stabCells size).flatMap Rep.stabEdges ++ Rep.xEdges size ++ Rep.zEdges size := he
  show _ ∈ ((Rep.stabs size).map fun st => (st.1, .Z)) ++ (Rep.logs size).map fun l => (l.1, nameLetter l.2)
  rcases List.mem_append.mp he with he | he
  · rcases List.mem_append.mp he with he | he
    · refine List.mem_append_left _ ?_
      obtain ⟨i, hi, he⟩ := List.mem_flatMap.mp he
      simp only [Rep.stabEdges, List.mem_cons, List.not_mem_nil, or_false] at he
      have hs : ((i, 0), StabGroup.A) ∈ Rep.stabs size := List.mem_map.2 ⟨i, hi, rfl⟩
      rcases he with rfl | rfl <;> exact List.mem_map.2 ⟨_, hs, rfl⟩
    · refine List.mem_append_right _ ?_
      obtain ⟨i, _, rfl⟩ := List.mem_map.mp he
      simp [mkEdge, Rep.logs, nameLetter]
  · refine List.mem_append_right _ ?_
    simp only [Rep.zEdges, List.mem_cons, List.not_mem_nil, or_false] at he
    rcases he with rfl
    simp [mkEdge, Rep.logs, nameLetter]

theorem Rep.css {size : Nat} (h3 : 3 ≤ size) : (Rep.lat size).Css plain :=
  css_of (Rep.wf size h3) (Rep.twoAt _) (Rep.twoAt _) (Rep.letters _) plain_inj (fun _ => .Z) nameLetter (Rep.table size)

/-- The letters of the operators of a lattice, by evaluation: all edges of an operator have the letter of the first. -/
def oneLetter (x : Except Err Lattice) : Bool :=
  match x with
  | .ok L => L.edges.all (fun e => decide (e.op ∈ L.stabgens.map Prod.fst ++ L.logicals.map Prod.fst)) &&
      L.edges.all fun e => L.edges.all fun e' => decide (e.op = e'.op → e.factor = e'.factor)
  | .error _ => true

set_option maxRecDepth 100000 in
theorem shor_one : oneLetter shorLattice = true := by decide +kernel

theorem shor_css {L : Lattice} (h : shorLattice = .ok L) : L.Css plain := by
  obtain ⟨L', h', hw, _, _⟩ := goodResult_spec shor_good
  have hl := shor_letters
  have ht := shor_two
  have h1 := shor_one
  rw [h] at h' hl ht h1
  cases h'
  simp only [lettersXZ, Bool.and_eq_true, decide_eq_true_eq, Bool.not_eq_true'] at hl
  rw [Bool.and_eq_true] at ht
  simp only [oneLetter, Bool.and_eq_true, List.all_eq_true, decide_eq_true_eq] at h1
  exact css_mk hw (twoAtResult_spec ht.1) (twoAtResult_spec ht.2) hl.1.1 plain_inj h1.2 h1.1

/-- What holds of all the lattices. -/
structure Lattice.CssKept (L : Lattice) : Prop where
  css : ∃ φ, L.Css φ
  gauge : L.keepGauge ∈ gaugeSettings

theorem gauge_cases {L : Lattice} (h : L.keepGauge ∈ gaugeSettings) (q : Pos) :
    L.GaugeKnown q ∨ (L.keepGauge = "half".toList ∧ ¬ L.Checked q) := by
  simp only [gaugeSettings, List.mem_cons, List.not_mem_nil, or_false] at h
  by_cases hc : L.Checked q
  · rcases h with h | h | h
    · exact .inl (.inl h)
    · exact .inl (.inr (.inl ⟨h, hc⟩))
    · exact .inl (.inr (.inr h))
  · rcases h with h | h | h
    · exact .inl (.inl h)
    · exact .inr ⟨h, hc⟩
    · exact .inl (.inr (.inr h))

/-- One data qubit: it is removed, or there is one of two exceptions. -/
theorem remove_cases {L : Lattice} (h : L.CssKept) {q : Pos} (hq : q ∈ L.dataqubits) :
    (∃ L', L.removeDataqubit q = .ok L' ∧ L'.CssKept ∧ L'.dataqubits = L.dataqubits.filter (· ≠ q) ∧
      L'.logicals = L.logicals ∧ L'.keepGauge = L.keepGauge ∧ L'.boundaryJoin = L.boundaryJoin) ∨
    L.removeDataqubit q = .error .valueError ∨ (L.keepGauge = "half".toList ∧ L.removeDataqubit q = .error .indexError) := by
  obtain ⟨φ, hc⟩ := h.css
  obtain ⟨h1, h2⟩ := removeDataqubit_total hc hq
  by_cases hm : L.Movable q
  · rcases gauge_cases h.gauge q with hg | ⟨hg, hc⟩
    · obtain ⟨L', h3, h4, h5, h6, h7, h8⟩ := h1 hm hg
      exact .inl ⟨L', h3, ⟨⟨φ, h4⟩, by rw [h7]; exact h.gauge⟩, h5, h6, h7, h8⟩
    · exact .inr (.inr ⟨hg, removeDataqubit_half hm hg hc⟩)
  · exact .inr (.inl (h2 hm))

theorem remove_loop_cases (qs : List Pos) : ∀ {L : Lattice}, L.CssKept → (∀ q ∈ qs, q ∈ L.dataqubits) → qs.Nodup →
    (∃ L', loopE Lattice.removeDataqubit L qs = .ok L' ∧ L'.CssKept ∧ L'.dataqubits = L.dataqubits.filter (· ∉ qs) ∧
      L'.logicals = L.logicals ∧ L'.keepGauge = L.keepGauge ∧ L'.boundaryJoin = L.boundaryJoin) ∨
    loopE Lattice.removeDataqubit L qs = .error .valueError ∨
      (L.keepGauge = "half".toList ∧ loopE Lattice.removeDataqubit L qs = .error .indexError) := by
  induction qs with
  | nil => intro L h _ _; exact .inl ⟨L, rfl, h, by simp, rfl, rfl, rfl⟩
  | cons q qs ih =>
    intro L h hm hn
    rw [List.nodup_cons] at hn
    rcases remove_cases h (hm q (List.mem_cons_self ..)) with ⟨M, h1, h2, h3, h4, h5, h6⟩ | h1 | ⟨h0, h1⟩
    · rw [show loopE Lattice.removeDataqubit L (q :: qs) = loopE Lattice.removeDataqubit M qs by rw [loopE, h1]]
      rcases ih h2 (fun p hp => by
          rw [h3, List.mem_filter]
          exact ⟨hm p (List.mem_cons_of_mem _ hp), by
            simp only [ne_eq, decide_eq_true_eq]; rintro rfl; exact hn.1 hp⟩) hn.2 with ⟨N, k1, k2, k3, k4, k5, k6⟩ | k1 | ⟨k0, k1⟩
      · refine .inl ⟨N, k1, k2, ?_, k4.trans h4, k5.trans h5, k6.trans h6⟩
        rw [k3, h3, List.filter_filter]
        refine List.filter_congr fun p _ => ?_
        simp only [List.mem_cons, not_or, ne_eq, Bool.decide_and]
        exact Bool.and_comm ..
      · exact .inr (.inl k1)
      · exact .inr (.inr ⟨h5 ▸ k0, k1⟩)
    · exact .inr (.inl (by rw [loopE, h1]))
    · exact .inr (.inr ⟨h0, by rw [loopE, h1]⟩)

theorem CssKept.settings {L : Lattice} (h : L.CssKept) {kg : Option (List Char)} (hk : kg = none ∨ ∃ g ∈ gaugeSettings, kg = some g)
    (bj : Option Bool) : Lattice.CssKept { L with keepGauge := kg.getD L.keepGauge, boundaryJoin := bj.getD L.boundaryJoin } := by
  obtain ⟨φ, hc⟩ := h.css
  refine ⟨⟨φ, ⟨hc.pre.occ, hc.pre.keys, hc.pre.data, hc.pre.xz⟩, hc.inj, hc.one, hc.two, hc.ops⟩, ?_⟩
  rcases hk with rfl | ⟨g, hg, rfl⟩
  · exact h.gauge
  · exact hg

theorem CssKept.indices {L : Lattice} (h : L.CssKept) : L.assignIndices.CssKept := by
  obtain ⟨φ, hc⟩ := h.css
  exact ⟨⟨φ, ⟨hc.pre.occ, hc.pre.keys, hc.pre.data, hc.pre.xz⟩, hc.inj, hc.one, hc.two, hc.ops⟩, h.gauge⟩

theorem toRemove_nodup {L : Lattice} {qubits : List VertexRef} {gates : List (VertexRef × VertexRef)} {stabs : List VertexRef}
    {qs : List Pos} (h : L.toRemove qubits gates stabs = .ok qs) : qs.Nodup := by
  unfold Lattice.toRemove at h
  split at h
  · simp at h
  split at h
  · simp at h
  split at h
  · simp at h
  simp only [Except.ok.injEq] at h
  subst h
  exact (List.mergeSort_perm _ _).nodup_iff.mpr (List.nodup_dedup _)

theorem toRemove_settings (L : Lattice) (kg : List Char) (bj : Bool) (qubits : List VertexRef)
    (gates : List (VertexRef × VertexRef)) (stabs : List VertexRef) :
    Lattice.toRemove { L with keepGauge := kg, boundaryJoin := bj } qubits gates stabs = L.toRemove qubits gates stabs := rfl

theorem apply_cases {L : Lattice} (h : L.CssKept) {qubits : List VertexRef} {gates : List (VertexRef × VertexRef)}
    {stabs : List VertexRef} {kg : Option (List Char)} {bj : Option Bool} (hk : kg = none ∨ ∃ g ∈ gaugeSettings, kg = some g)
    {qs : List Pos} (hqs : L.toRemove qubits gates stabs = .ok qs) :
    (∃ L', L.applyFabrication qubits gates stabs kg bj = .ok L' ∧ L'.CssKept ∧ L'.dataqubits = L.dataqubits.filter (· ∉ qs) ∧
      L'.logicals = L.logicals) ∨
    L.applyFabrication qubits gates stabs kg bj = .error .valueError ∨
      (kg.getD L.keepGauge = "half".toList ∧ L.applyFabrication qubits gates stabs kg bj = .error .indexError) := by
  have hk' := CssKept.settings h hk bj
  unfold Lattice.applyFabrication
  dsimp only
  rw [toRemove_settings, hqs]
  dsimp only
  rcases remove_loop_cases qs hk' (toRemove_mem (h.css.elim fun _ hc => hc.pre.data) hqs) (toRemove_nodup hqs) with ⟨L', h1, h2, h3, h4, _, _⟩ | h1 | ⟨h0, h1⟩
  · rw [h1]
    exact .inl ⟨_, rfl, CssKept.indices h2, h3, h4⟩
  · rw [h1]
    exact .inr (.inl rfl)
  · rw [h1]
    exact .inr (.inr ⟨h0, rfl⟩)

theorem apply_wrong {L : Lattice} {qubits : List VertexRef} {gates : List (VertexRef × VertexRef)}
    {stabs : List VertexRef} {kg : Option (List Char)} {bj : Option Bool} {e : Err}
    (hqs : L.toRemove qubits gates stabs = .error e) : L.applyFabrication qubits gates stabs kg bj = .error e := by
  unfold Lattice.applyFabrication
  dsimp only
  rw [toRemove_settings, hqs]

theorem cssKept {L : Lattice} (h : L.CssFabricated) : L.CssKept := by
  induction h with
  | planar h2 h =>
    rw [Planar.make _ h2 crossOrder (by decide), Except.ok.injEq] at h
    subst h
    exact ⟨⟨_, Planar.css h2 _⟩, List.mem_cons_self ..⟩
  | toric h2 h =>
    rw [Toric.make h2 crossOrder (by decide), Except.ok.injEq] at h
    subst h
    exact ⟨⟨_, Toric.css h2 _⟩, List.mem_cons_self ..⟩
  | rotated h2 h =>
    rw [Rotated.make h2 diagOrder (by decide), Except.ok.injEq] at h
    subst h
    exact ⟨⟨_, Rotated.css h2 _ _⟩, List.mem_cons_self ..⟩
  | @repetition size L h3 h =>
    by_cases hodd : size % 2 = 1
    · rw [Rep.make size hodd h3, Except.ok.injEq] at h
      subst h
      exact ⟨⟨_, Rep.css h3⟩, List.mem_cons_self ..⟩
    · rw [repetitionLattice, if_pos hodd] at h
      simp at h
  | shor h =>
    have hl := shor_letters
    rw [h] at hl
    simp only [lettersXZ, Bool.and_eq_true, decide_eq_true_eq, Bool.not_eq_true'] at hl
    exact ⟨⟨_, shor_css h⟩, by rw [hl.1.2]; exact List.mem_cons_self ..⟩
  | @errors L L' qubits gates stabs kg bj _ hkg h ih =>
    cases hqs : L.toRemove qubits gates stabs with
    | error e => rw [apply_wrong hqs] at h; cases h
    | ok qs =>
      rcases apply_cases ih (bj := bj) hkg hqs with ⟨M, h1, h2, _⟩ | h1 | ⟨_, h1⟩
      · rw [h1, Except.ok.injEq] at h
        exact h ▸ h2
      · rw [h1] at h; cases h
      · rw [h1] at h; cases h

end Plaquette
