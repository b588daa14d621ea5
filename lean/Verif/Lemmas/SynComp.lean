import Mathlib.Logic.Relation
import Mathlib.Data.Finset.Card
import Mathlib.Data.Finset.Range
import Verif.Lemmas.SynDup

/-!
# Lemmas on the connected components of the syndrome graph
-/

namespace Plaquette
variable {W : Type}

/-- Joined by an enabled edge. -/
def SAdj (es : List (SEdge W)) (u v : Nat) : Prop := ∃ i, enabledAt es i = true ∧ u ∈ vertsAt es i ∧ v ∈ vertsAt es i

/-- Joined by a path of enabled edges. -/
def SConn (es : List (SEdge W)) : Nat → Nat → Prop := Relation.ReflTransGen (SAdj es)

theorem SAdj.symm {es : List (SEdge W)} {u v : Nat} (h : SAdj es u v) : SAdj es v u := by
  obtain ⟨i, a, b, c⟩ := h
  exact ⟨i, a, c, b⟩

theorem SConn.symm {es : List (SEdge W)} {u v : Nat} (h : SConn es u v) : SConn es v u := by
  induction h with
  | refl => exact .refl
  | tail _ h ih => exact .head h.symm ih

theorem mem_neighboursOf {es : List (SEdge W)} {u v : Nat} : u ∈ neighboursOf es v ↔ u ≠ v ∧ SAdj es v u := by
  unfold neighboursOf SAdj
  simp only [List.mem_flatMap, List.mem_filter, mem_edgesAt]
  constructor
  · rintro ⟨i, ⟨h1, h2⟩, h3, h4⟩
    exact ⟨by simpa using h4, i, h2, h1, h3⟩
  · rintro ⟨h, i, h2, h1, h3⟩
    exact ⟨i, ⟨h1, h2⟩, h3, by simpa using h⟩

/-- The edges carry the component of their vertices. -/
def EOk (es : List (SEdge W)) (st : Comps) : Prop :=
  ∀ i c, st.e i = some c ↔ enabledAt es i = true ∧ ∃ v ∈ vertsAt es i, st.v v = some c

/-- The vertices of a component have all their neighbours in it. -/
def ClosedC (es : List (SEdge W)) (st : Comps) (c : Nat) : Prop :=
  ∀ u v, st.v u = some c → SAdj es u v → st.v v = some c

/-- The number of vertices without component. -/
def unassigned (nV : Nat) (st : Comps) : Nat := ((Finset.range nV).filter fun v => st.v v = none).card

theorem edgeLoop (c : Nat) (l : List Nat) : ∀ (st : Comps), (∀ i ∈ l, st.e i = none ∨ st.e i = some c) →
    loopE (fun (st : Comps) i => match st.e i with
      | none => .ok { st with e := Function.update st.e i (some c) }
      | some c' => if c' = c then .ok st else .error Err.assertionError) st l =
    .ok { st with e := fun i => if i ∈ l then some c else st.e i } := by
  induction l with
  | nil => intro st _; simp [loopE_nil]
  | cons i l ih =>
    intro st h
    rw [loopE_cons]
    rcases h i (.head _) with hi | hi
    · rw [hi]
      refine (ih { st with e := Function.update st.e i (some c) } ?_).trans ?_
      rotate_left
      · simp only [Except.ok.injEq, Comps.mk.injEq, true_and]
        funext j
        simp only [List.mem_cons, Function.update_apply]
        by_cases hj : j ∈ l <;> by_cases hji : j = i <;> simp [hj, hji]
      · intro j hj
        simp only [Function.update_apply]
        by_cases hji : j = i
        · simp [hji]
        · simp [hji, h j (.tail _ hj)]
    · rw [hi]
      dsimp only
      rw [if_pos (by rfl)]
      refine (ih st fun j hj => h j (.tail _ hj)).trans ?_
      simp only [Except.ok.injEq, Comps.mk.injEq, true_and]
      funext j
      by_cases hji : j = i
      · subst hji; simp [hi]
      · simp [hji]

theorem setComp_spec {es : List (SEdge W)} {c u : Nat} {st : Comps} (hE : EOk es st) (hu : st.v u = none)
    (hc : ∀ v k, st.v v = some k → SAdj es v u → k = c) :
    ∃ st', setComp es c st u = .ok st' ∧ EOk es st' ∧ st'.v = Function.update st.v u (some c) := by
  unfold setComp
  rw [if_neg (by simp [hu])]
  have hloc : ∀ i ∈ (edgesAt es u).filter (enabledAt es), st.e i = none ∨ st.e i = some c := by
    intro i hi
    cases he : st.e i with
    | none => exact .inl rfl
    | some k =>
      obtain ⟨hen, v, hv, hk⟩ := (hE i k).mp he
      obtain ⟨h1, h2⟩ := List.mem_filter.mp hi
      rw [hc v k hk ⟨i, hen, hv, mem_edgesAt.mp h1⟩]
      exact .inr rfl
  refine ⟨_, edgeLoop c _ { st with v := Function.update st.v u (some c) } hloc, fun i k => ?_, rfl⟩
  simp only [List.mem_filter, mem_edgesAt, Function.update_apply]
  by_cases hi : u ∈ vertsAt es i ∧ enabledAt es i = true
  · rw [if_pos hi]
    constructor
    · intro h
      exact ⟨hi.2, u, hi.1, by rw [if_pos rfl]; exact h⟩
    · rintro ⟨hen, v, hv, hk⟩
      by_cases hvu : v = u
      · rw [if_pos hvu] at hk; exact hk
      · rw [if_neg hvu] at hk
        rw [hc v k hk ⟨i, hen, hv, hi.1⟩]
  · rw [if_neg hi, hE i k]
    refine and_congr_right fun hen => exists_congr fun v => and_congr_right fun hv => ?_
    rw [if_neg]
    rintro rfl
    exact hi ⟨hv, hen⟩

theorem unassigned_update {nV u c : Nat} {st st' : Comps} (hu : st.v u = none) (hb : u < nV)
    (h : st'.v = Function.update st.v u (some c)) : unassigned nV st' + 1 = unassigned nV st := by
  unfold unassigned
  have hm : u ∈ (Finset.range nV).filter fun v => st.v v = none := by simp [hb, hu]
  rw [← Finset.card_erase_add_one hm]
  congr 2
  ext v
  simp only [h, Function.update_apply, Finset.mem_filter, Finset.mem_erase]
  by_cases hv : v = u <;> simp [hv]

/-- During the search for component `c` from `root`, with the stack `todo`; the vertices of `busy` are excepted too. -/
structure Search (nV : Nat) (es : List (SEdge W)) (root c : Nat) (busy : List Nat) (s : Comps × List Nat) : Prop where
  e : EOk es s.1
  le : ∀ v k, s.1.v v = some k → k ≤ c ∧ v < nV
  closed : ∀ k < c, ClosedC es s.1 k
  conn : ∀ k < c, ∀ u v, s.1.v u = some k → s.1.v v = some k → SConn es u v
  reach : ∀ v, s.1.v v = some c → SConn es root v
  todo : ∀ v ∈ s.2, s.1.v v = some c
  part : ∀ u v, s.1.v u = some c → u ∉ s.2 → u ∉ busy → SAdj es u v → s.1.v v = some c

theorem visit_spec {nV : Nat} {es : List (SEdge W)} {root c v u : Nat} {s : Comps × List Nat} (hb : ∀ i, ∀ v ∈ vertsAt es i, v < nV)
    (hS : Search nV es root c [v] s) (hv : s.1.v v = some c) (hu : SAdj es v u) :
    ∃ s', visit es c s u = .ok s' ∧ Search nV es root c [v] s' ∧ (∀ w k, s.1.v w = some k → s'.1.v w = some k) ∧
      s'.1.v u = some c ∧ unassigned nV s'.1 + s'.2.length = unassigned nV s.1 + s.2.length := by
  unfold visit
  cases huc : s.1.v u with
  | some k =>
    dsimp only
    have hk : k = c := by
      by_contra hne
      have := (hS.le u k huc).1
      have := hS.closed k (by omega) u v huc hu.symm
      rw [hv] at this
      simp only [Option.some.injEq] at this
      omega
    subst hk
    rw [if_pos rfl]
    exact ⟨s, rfl, hS, fun _ _ h => h, huc, rfl⟩
  | none =>
    dsimp only
    obtain ⟨st', h1, h2, h3⟩ := setComp_spec (c := c) hS.e huc (fun w k hw hadj => by
      by_contra hne
      have := (hS.le w k hw).1
      have := hS.closed k (by omega) w u hw hadj
      rw [huc] at this
      cases this)
    rw [h1]
    have hub : u < nV := by obtain ⟨i, _, _, h⟩ := hu; exact hb i u h
    have hkeep : ∀ w k, s.1.v w = some k → st'.v w = some k := by
      intro w k hw
      rw [h3, Function.update_apply, if_neg]
      · exact hw
      · rintro rfl; rw [huc] at hw; cases hw
    have huc' : st'.v u = some c := by rw [h3]; simp
    have hold : ∀ w k, st'.v w = some k → w ≠ u → s.1.v w = some k := by
      intro w k hw hne
      rw [h3, Function.update_apply, if_neg hne] at hw
      exact hw
    refine ⟨(st', u :: s.2), rfl, ⟨h2, ?_, ?_, ?_, ?_, ?_, ?_⟩, hkeep, huc', ?_⟩
    · intro w k hw
      by_cases hwu : w = u
      · subst hwu
        rw [huc'] at hw
        simp only [Option.some.injEq] at hw
        exact ⟨by omega, hub⟩
      · exact hS.le w k (hold w k hw hwu)
    · intro k hk a b ha hadj
      have hau : a ≠ u := by
        rintro rfl
        rw [huc'] at ha
        simp only [Option.some.injEq] at ha
        omega
      exact hkeep b k (hS.closed k hk a b (hold a k ha hau) hadj)
    · intro k hk a b ha hb'
      have hne : ∀ w, st'.v w = some k → w ≠ u := by
        rintro w hw rfl
        rw [huc'] at hw
        simp only [Option.some.injEq] at hw
        omega
      exact hS.conn k hk a b (hold a k ha (hne a ha)) (hold b k hb' (hne b hb'))
    · intro w hw
      by_cases hwu : w = u
      · subst hwu
        exact (hS.reach v hv).tail hu
      · exact hS.reach w (hold w c hw hwu)
    · intro w hw
      rcases List.mem_cons.mp hw with rfl | hw
      · exact huc'
      · exact hkeep w c (hS.todo w hw)
    · intro a b ha hn1 hn2 hadj
      have hau : a ≠ u := fun h => hn1 (h ▸ .head _)
      exact hkeep b c (hS.part a b (hold a c ha hau) (fun h => hn1 (.tail _ h)) hn2 hadj)
    · have := unassigned_update huc hub h3
      simp only [List.length_cons]
      omega

theorem visits_spec {nV : Nat} {es : List (SEdge W)} {root c v : Nat} (hb : ∀ i, ∀ v ∈ vertsAt es i, v < nV) (l : List Nat) :
    ∀ {s : Comps × List Nat}, Search nV es root c [v] s → s.1.v v = some c → (∀ u ∈ l, SAdj es v u) →
    ∃ s', loopE (visit es c) s l = .ok s' ∧ Search nV es root c [v] s' ∧ (∀ w k, s.1.v w = some k → s'.1.v w = some k) ∧
      (∀ u ∈ l, s'.1.v u = some c) ∧ unassigned nV s'.1 + s'.2.length = unassigned nV s.1 + s.2.length := by
  induction l with
  | nil => intro s hS hv _; exact ⟨s, rfl, hS, fun _ _ h => h, by simp, rfl⟩
  | cons u l ih =>
    intro s hS hv hl
    obtain ⟨s1, a1, a2, a3, a4, a5⟩ := visit_spec hb hS hv (hl u (.head _))
    obtain ⟨s2, b1, b2, b3, b4, b5⟩ := ih a2 (a3 _ _ hv) fun u hu => hl u (.tail _ hu)
    refine ⟨s2, by rw [loopE_cons, a1]; exact b1, b2, fun w k hw => b3 w k (a3 w k hw), fun w hw => ?_, by omega⟩
    rcases List.mem_cons.mp hw with rfl | hw
    · exact b3 _ _ a4
    · exact b4 w hw

theorem findLoop_spec {nV : Nat} {es : List (SEdge W)} {root c : Nat} (hb : ∀ i, ∀ v ∈ vertsAt es i, v < nV) (fuel : Nat) :
    ∀ {st : Comps} {todo : List Nat}, Search nV es root c [] (st, todo) → unassigned nV st + todo.length ≤ fuel →
    ∃ st', findLoop es c fuel st todo = .ok st' ∧ Search nV es root c [] (st', []) ∧ ∀ w k, st.v w = some k → st'.v w = some k := by
  induction fuel with
  | zero =>
    intro st todo hS hf
    match todo with
    | [] => exact ⟨st, rfl, hS, fun _ _ h => h⟩
    | _ :: _ => simp at hf
  | succ fuel ih =>
    intro st todo hS hf
    match todo with
    | [] => exact ⟨st, rfl, hS, fun _ _ h => h⟩
    | v :: todo =>
      have hv : st.v v = some c := hS.todo v (.head _)
      have hS' : Search nV es root c [v] (st, todo) := by
        refine ⟨hS.e, hS.le, hS.closed, hS.conn, hS.reach, fun w hw => hS.todo w (.tail _ hw), fun a b ha hn1 hn2 hadj => ?_⟩
        refine hS.part a b ha (fun h => ?_) (by simp) hadj
        rcases List.mem_cons.mp h with rfl | h
        · exact hn2 (.head _)
        · exact hn1 h
      obtain ⟨s1, a1, a2, a3, a4, a5⟩ := visits_spec hb (neighboursOf es v) hS' hv fun u hu => (mem_neighboursOf.mp hu).2
      have hS1 : Search nV es root c [] s1 := by
        refine ⟨a2.e, a2.le, a2.closed, a2.conn, a2.reach, a2.todo, fun a b ha hn1 _ hadj => ?_⟩
        by_cases hav : a = v
        · subst hav
          by_cases hba : b = a
          · subst hba; exact ha
          · exact a4 b (mem_neighboursOf.mpr ⟨hba, hadj⟩)
        · exact a2.part a b ha hn1 (by simpa using hav) hadj
      dsimp only at a5
      simp only [List.length_cons] at hf
      obtain ⟨st', b1, b2, b3⟩ := ih (st := s1.1) (todo := s1.2) hS1 (by omega)
      refine ⟨st', ?_, b2, fun w k hw => b3 w k (a3 w k hw)⟩
      unfold findLoop
      rw [a1]
      exact b1

/-- The first `k` components have been found. -/
structure Found (nV : Nat) (es : List (SEdge W)) (st : Comps) (k : Nat) : Prop where
  e : EOk es st
  lt : ∀ v c, st.v v = some c → c < k ∧ v < nV
  closed : ∀ c < k, ClosedC es st c
  conn : ∀ u v c, st.v u = some c → st.v v = some c → SConn es u v
  ne : ∀ c < k, ∃ v, st.v v = some c

theorem findComp_spec {nV : Nat} {es : List (SEdge W)} {st : Comps} {k v : Nat} (hb : ∀ i, ∀ v ∈ vertsAt es i, v < nV)
    (hF : Found nV es st k) (hv : st.v v = none) (hvb : v < nV) :
    ∃ st', findComp nV es k st v = .ok st' ∧ Found nV es st' (k + 1) ∧ st'.v v = some k ∧ ∀ w c, st.v w = some c → st'.v w = some c := by
  obtain ⟨st1, h1, h2, h3⟩ := setComp_spec (c := k) hF.e hv (fun w c hw hadj => by
    have := hF.closed c (hF.lt w c hw).1 w v hw hadj
    rw [hv] at this
    cases this)
  have hkeep : ∀ w c, st.v w = some c → st1.v w = some c := by
    intro w c hw
    rw [h3, Function.update_apply, if_neg]
    · exact hw
    · rintro rfl; rw [hv] at hw; cases hw
  have hv1 : st1.v v = some k := by rw [h3]; simp
  have hold : ∀ w c, st1.v w = some c → w ≠ v → st.v w = some c := by
    intro w c hw hne
    rw [h3, Function.update_apply, if_neg hne] at hw
    exact hw
  have hnew : ∀ w, st1.v w = some k → w = v := by
    intro w hw
    by_contra hne
    have := (hF.lt w k (hold w k hw hne)).1
    omega
  have hS : Search nV es v k [] (st1, [v]) := by
    refine ⟨h2, ?_, ?_, ?_, ?_, ?_, ?_⟩
    · intro w c hw
      by_cases hwv : w = v
      · subst hwv
        rw [hv1] at hw
        simp only [Option.some.injEq] at hw
        exact ⟨by omega, hvb⟩
      · have := hF.lt w c (hold w c hw hwv)
        exact ⟨by omega, this.2⟩
    · intro c hc a b ha hadj
      have hav : a ≠ v := by
        rintro rfl
        rw [hv1] at ha
        simp only [Option.some.injEq] at ha
        omega
      exact hkeep b c (hF.closed c hc a b (hold a c ha hav) hadj)
    · intro c hc a b ha hb'
      have hne : ∀ w, st1.v w = some c → w ≠ v := by
        rintro w hw rfl
        rw [hv1] at hw
        simp only [Option.some.injEq] at hw
        omega
      exact hF.conn a b c (hold a c ha (hne a ha)) (hold b c hb' (hne b hb'))
    · intro w hw
      rw [hnew w hw]
      exact .refl
    · intro w hw
      rw [List.mem_singleton.mp hw]
      exact hv1
    · intro a b ha hn _ _
      exact absurd (by rw [hnew a ha]; exact .head _) hn
  have hf : unassigned nV st1 + 1 ≤ nV := by
    rw [unassigned_update hv hvb h3]
    unfold unassigned
    exact (Finset.card_filter_le _ _).trans (by simp)
  obtain ⟨st', a1, a2, a3⟩ := findLoop_spec hb nV hS hf
  have hcl : ClosedC es st' k := fun a b ha hadj => a2.part a b ha (by simp) (by simp) hadj
  refine ⟨st', by unfold findComp; rw [h1]; exact a1, ⟨a2.e, ?_, ?_, ?_, ?_⟩, a3 _ _ hv1, fun w c hw => a3 w c (hkeep w c hw)⟩
  · intro w c hw
    have := a2.le w c hw
    exact ⟨by omega, this.2⟩
  · intro c hc
    rcases Nat.lt_succ_iff_lt_or_eq.mp hc with h | rfl
    · exact a2.closed c h
    · exact hcl
  · intro a b c ha hb'
    have hc := (a2.le a c ha).1
    rcases Nat.lt_or_eq_of_le hc with h | rfl
    · exact a2.conn c h a b ha hb'
    · exact (a2.reach a ha).symm.trans (a2.reach b hb')
  · intro c hc
    rcases Nat.lt_succ_iff_lt_or_eq.mp hc with h | rfl
    · obtain ⟨w, hw⟩ := hF.ne c h
      exact ⟨w, a3 w c (hkeep w c hw)⟩
    · exact ⟨v, a3 _ _ hv1⟩

theorem initComps_spec {nV : Nat} {es : List (SEdge W)} (hb : ∀ i, ∀ v ∈ vertsAt es i, v < nV) :
    ∃ st k, initComps nV es = .ok (st, k) ∧ Found nV es st k ∧ ∀ v < nV, ∃ c < k, st.v v = some c := by
  have main : ∀ (l : List Nat) (st : Comps) (k : Nat), (∀ v ∈ l, v < nV) → Found nV es st k →
      ∃ st' k', loopE (fun (s : Comps × Nat) v => match s.1.v v with
        | some _ => .ok s
        | none => match findComp nV es s.2 s.1 v with
          | .error e => .error e
          | .ok st => .ok (st, s.2 + 1)) (st, k) l = .ok (st', k') ∧ Found nV es st' k' ∧ (∀ v ∈ l, ∃ c, st'.v v = some c) ∧
        ∀ w c, st.v w = some c → st'.v w = some c := by
    intro l
    induction l with
    | nil => intro st k _ hF; exact ⟨st, k, rfl, hF, by simp, fun _ _ h => h⟩
    | cons v l ih =>
      intro st k hl hF
      rw [loopE_cons]
      cases hv : st.v v with
      | some c =>
        obtain ⟨st', k', a1, a2, a3, a4⟩ := ih st k (fun w hw => hl w (.tail _ hw)) hF
        refine ⟨st', k', ?_, a2, fun w hw => ?_, a4⟩
        · simp only [hv]
          exact a1
        · rcases List.mem_cons.mp hw with rfl | hw
          · exact ⟨c, a4 _ _ hv⟩
          · exact a3 w hw
      | none =>
        obtain ⟨st1, b1, b2, b3, b4⟩ := findComp_spec hb hF hv (hl v (.head _))
        obtain ⟨st', k', a1, a2, a3, a4⟩ := ih st1 (k + 1) (fun w hw => hl w (.tail _ hw)) b2
        refine ⟨st', k', ?_, a2, fun w hw => ?_, fun w c hw => a4 w c (b4 w c hw)⟩
        · simp only [hv, b1]
          exact a1
        · rcases List.mem_cons.mp hw with rfl | hw
          · exact ⟨k, a4 _ _ b3⟩
          · exact a3 w hw
  obtain ⟨st, k, a1, a2, a3, -⟩ := main (List.range nV) { v := fun _ => none, e := fun _ => none } 0 (fun v hv => List.mem_range.mp hv)
    ⟨by intro i c; simp, by simp, by simp, by simp, by simp⟩
  refine ⟨st, k, a1, a2, fun v hv => ?_⟩
  obtain ⟨c, hc⟩ := a3 v (List.mem_range.mpr hv)
  exact ⟨c, (a2.lt v c hc).1, hc⟩

theorem mkComponent_ok {nV : Nat} {es : List (SEdge W)} {st : Comps} {k c : Nat} (hb : ∀ i, ∀ v ∈ vertsAt es i, v < nV)
    (hF : Found nV es st k) (hc : c < k) : mkComponent nV es st c = .ok
      { vertexIdx := (List.range nV).filter fun v => st.v v = some c
        edgeIdx := (List.range es.length).filter fun i => st.e i = some c
        edges := ((List.range es.length).filter fun i => st.e i = some c).map fun i =>
          (vertsAt es i).map ((List.range nV).filter fun v => st.v v = some c).idxOf
        weights := ((List.range es.length).filter fun i => st.e i = some c).map (weightAt es) } := by
  unfold mkComponent
  dsimp only
  rw [if_pos]
  rw [List.all_eq_true]
  intro i hi
  rw [List.all_eq_true]
  intro v hv
  have hi' : st.e i = some c := by simpa using (List.mem_filter.mp hi).2
  obtain ⟨hen, u, hu, huc⟩ := (hF.e i c).mp hi'
  simp only [decide_eq_true_eq, List.mem_filter, List.mem_range]
  exact ⟨hb i v hv, hF.closed c hc u v huc ⟨i, hen, hu, hv⟩⟩

theorem components_ok {nV : Nat} {es : List (SEdge W)} {st : Comps} {k : Nat} (hb : ∀ i, ∀ v ∈ vertsAt es i, v < nV)
    (hF : Found nV es st k) : ∃ cs, mapLoop (mkComponent nV es st) (List.range k) = .ok cs :=
  mapLoop_ok_iff.mpr fun _ hc => ⟨_, mkComponent_ok hb hF (List.mem_range.mp hc)⟩

end Plaquette
