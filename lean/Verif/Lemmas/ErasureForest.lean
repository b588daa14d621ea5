import Verif.Lemmas.ErasurePeel

/-!
# The spanning forest
-/

namespace Plaquette

/-- The vertex has an enabled edge. -/
def HasEdge (f : EGraph) (v : Nat) : Prop := ∃ i e, f.eOn i = true ∧ f.edges[i]? = some e ∧ v ∈ e

/-- A forest inside the selected edges; ranks below a bound. -/
structure FBase (n : Nat) (edges : List (List Nat)) (sel : Nat → Bool) (f : EGraph) : Prop where
  ok : GraphOk f
  n_eq : f.n = n
  edges_eq : f.edges = edges
  nbr : f.nbr = none
  sub : ∀ i, f.eOn i = true → sel i = true
  acyclic : ∃ (child rank : Nat → Nat) (T : Nat), (∀ v, f.vOn v = true → rank v < T) ∧
    (∀ i e, f.eOn i = true → edges[i]? = some e → child i ∈ e ∧ ∀ v ∈ e, v ≠ child i → rank v < rank (child i)) ∧
    ∀ i j, f.eOn i = true → f.eOn j = true → child i = child j → i = j

theorem FBase.forest {n : Nat} {edges : List (List Nat)} {sel : Nat → Bool} {f : EGraph} (h : FBase n edges sel f) :
    Forest f.edges f.eOn := by
  obtain ⟨child, rank, T, _, h1, h2⟩ := h.acyclic
  rw [h.edges_eq]
  exact ⟨child, rank, h1, h2⟩

theorem update_true {S : Nat → Bool} {i j : Nat} : Function.update S i true j = true ↔ j = i ∨ S j = true := by
  by_cases h : j = i
  · subst h; simp
  · simp [h]

/-- A new vertex without an edge. -/
def EGraph.plant (f : EGraph) (c : Nat) : EGraph := { f with vOn := Function.update f.vOn c true }

/-- A new vertex with an edge. -/
def EGraph.graft (f : EGraph) (u i : Nat) : EGraph :=
  { f with vOn := Function.update f.vOn u true, eOn := Function.update f.eOn i true }

theorem FBase.plant {n : Nat} {edges : List (List Nat)} {sel : Nat → Bool} {f : EGraph} (h : FBase n edges sel f) {c : Nat}
    (hc : c < n) (hoff : f.vOn c = false) : f.enableVertex c true = .ok (f.plant c) ∧ FBase n edges sel (f.plant c) := by
  refine ⟨enableVertex_true (by rw [h.n_eq]; exact hc), ⟨⟨h.ok.wf, fun i e hi he v hv => ?_, fun v hv => ?_, h.ok.elt⟩, h.n_eq, h.edges_eq, h.nbr, h.sub, ?_⟩⟩
  · exact update_true.2 (.inr (h.ok.ends i e hi he v hv))
  · rcases update_true.1 hv with rfl | hv
    · show v < f.n; rw [h.n_eq]; exact hc
    · exact h.ok.vlt v hv
  · obtain ⟨child, rank, T, h1, h2, h3⟩ := h.acyclic
    have hne : ∀ i e v, f.eOn i = true → edges[i]? = some e → v ∈ e → v ≠ c := fun i e v hi he hv => by
      rintro rfl
      have := h.ok.ends i e hi (by rw [h.edges_eq]; exact he) v hv
      rw [hoff] at this; simp at this
    refine ⟨child, Function.update rank c T, T + 1, fun v hv => ?_, fun i e hi he => ?_, h3⟩
    · by_cases hvc : v = c
      · subst hvc; simp
      · rw [Function.update_of_ne hvc]
        have := h1 v ((update_true.1 hv).resolve_left hvc)
        omega
    · obtain ⟨ha, hb⟩ := h2 i e hi he
      refine ⟨ha, fun v hv hvc => ?_⟩
      rw [Function.update_of_ne (hne i e v hi he hv), Function.update_of_ne (hne i e _ hi he ha)]
      exact hb v hv hvc

theorem FBase.graft {n : Nat} {edges : List (List Nat)} {sel : Nat → Bool} {f : EGraph} (h : FBase n edges sel f) {u i : Nat}
    {e : List Nat} (he : edges[i]? = some e) (hu : u ∈ e) (hoff : f.vOn u = false) (hs : sel i = true)
    (hon : ∀ v ∈ e, v ≠ u → f.vOn v = true) :
    f.enableVertex u true = .ok (f.plant u) ∧ (f.plant u).enableEdge i true = .ok (f.graft u i) ∧ FBase n edges sel (f.graft u i) := by
  have hwf : EdgesWf n edges := by have := h.ok.wf; rwa [h.n_eq, h.edges_eq] at this
  have hlt : u < n := hwf.lt (List.mem_of_getElem? he) hu
  obtain ⟨e1, h1⟩ := h.plant hlt hoff
  have hall : ∀ v ∈ e, (f.plant u).vOn v = true := fun v hv => by
    by_cases hvu : v = u
    · exact update_true.2 (.inl hvu)
    · exact update_true.2 (.inr (hon v hv hvu))
  have hil : i < edges.length := (List.getElem?_eq_some_iff.1 he).1
  refine ⟨e1, enableEdge_true h1.ok h.nbr (by show f.edges[i]? = _; rw [h.edges_eq]; exact he) hall,
    ⟨⟨h1.ok.wf, fun j e' hj he' v hv => ?_, h1.ok.vlt, fun j hj => ?_⟩, h.n_eq, h.edges_eq, h.nbr, fun j hj => ?_, ?_⟩⟩
  · rcases update_true.1 hj with rfl | hj
    · have : f.edges[j]? = some e' := he'
      rw [h.edges_eq, he] at this; cases this
      exact hall v hv
    · exact h1.ok.ends j e' hj he' v hv
  · rcases update_true.1 hj with rfl | hj
    · show j < f.edges.length; rw [h.edges_eq]; exact hil
    · exact h1.ok.elt j hj
  · rcases update_true.1 hj with rfl | hj
    · exact hs
    · exact h.sub j hj
  · obtain ⟨child, rank, T, h1, h2, h3⟩ := h.acyclic
    have hne : ∀ j e' v, f.eOn j = true → edges[j]? = some e' → v ∈ e' → v ≠ u := fun j e' v hj he' hv => by
      rintro rfl
      have := h.ok.ends j e' hj (by rw [h.edges_eq]; exact he') v hv
      rw [hoff] at this; simp at this
    have hget : ∀ j, f.eOn j = true → ∃ e', edges[j]? = some e' := fun j hj => by
      have := h.ok.elt j hj
      rw [h.edges_eq] at this
      exact ⟨_, List.getElem?_eq_getElem this⟩
    have hni : f.eOn i = false := by
      cases hf : f.eOn i
      · rfl
      · exact absurd rfl (hne i e u hf he hu)
    have hji : ∀ j, f.eOn j = true → j ≠ i := fun j hj => by rintro rfl; rw [hni] at hj; simp at hj
    refine ⟨Function.update child i u, Function.update rank u T, T + 1, fun v hv => ?_, fun j e' hj he' => ?_, fun j k hj hk hjk => ?_⟩
    · by_cases hvc : v = u
      · subst hvc; simp
      · rw [Function.update_of_ne hvc]
        have := h1 v ((update_true.1 hv).resolve_left hvc)
        omega
    · rcases update_true.1 hj with rfl | hj
      · rw [he] at he'; cases he'
        rw [Function.update_self, Function.update_self]
        refine ⟨hu, fun v hv hvu => ?_⟩
        rw [Function.update_of_ne hvu]
        exact h1 v (hon v hv hvu)
      · obtain ⟨ha, hb⟩ := h2 j e' hj he'
        rw [Function.update_of_ne (hji j hj)]
        refine ⟨ha, fun v hv hvc => ?_⟩
        rw [Function.update_of_ne (hne j e' v hj he' hv), Function.update_of_ne (hne j e' _ hj he' ha)]
        exact hb v hv hvc
    · rcases update_true.1 hj with rfl | hj1 <;> rcases update_true.1 hk with rfl | hk1
      · rfl
      · exfalso
        rw [Function.update_self, Function.update_of_ne (hji k hk1)] at hjk
        obtain ⟨e', he'⟩ := hget k hk1
        exact hne k e' _ hk1 he' (h2 k e' hk1 he').1 hjk.symm
      · exfalso
        rw [Function.update_self, Function.update_of_ne (hji j hj1)] at hjk
        obtain ⟨e', he'⟩ := hget j hj1
        exact hne j e' _ hj1 he' (h2 j e' hj1 he').1 hjk
      · rw [Function.update_of_ne (hji j hj1), Function.update_of_ne (hji k hk1)] at hjk
        exact h3 j k hj1 hk1 hjk

/-- The graph after the loop over dangling edges. -/
structure GFacts (sel : Nat → Bool) (g : EGraph) (N : Nat → List (Nat × Option Nat)) : Prop where
  ok : GraphOk g
  nbr : g.nbr = some N
  nbrOk : NbrFor g.edges g.eOn N
  sub : ∀ i, g.eOn i = true → sel i = true
  two : ∀ i e v u, sel i = true → g.edges[i]? = some e → Inc e v (some u) → g.eOn i = true
  has : ∀ v, g.vOn v = true → ∃ i e, sel i = true ∧ g.edges[i]? = some e ∧ v ∈ e
  sends : ∀ i e v, sel i = true → g.edges[i]? = some e → v ∈ e → g.vOn v = true

/-- What holds while the forest grows; `act` is the vertex whose neighbours are visited and `root` may be without an edge. -/
structure GrowInv (sel : Nat → Bool) (g : EGraph) (s : Grow) (act root : Option Nat) : Prop where
  g_eq : s.g = g
  base : FBase g.n g.edges sel s.f
  von : ∀ v, s.f.vOn v = true → g.vOn v = true
  nd : s.new.Nodup
  newOn : ∀ v ∈ s.new, s.f.vOn v = true
  pair : ∀ a ∈ s.new, ∀ b ∈ s.new, InSpan g.edges s.f.eOn (dots a b)
  pairAct : ∀ a, act = some a → s.f.vOn a = true ∧ a ∉ s.new ∧ ∀ b ∈ s.new, InSpan g.edges s.f.eOn (dots a b)
  closed : ∀ v, s.f.vOn v = true → v ∉ s.new → act ≠ some v → ∀ i e u, sel i = true → g.edges[i]? = some e → Inc e v (some u) →
    s.f.vOn u = true ∧ InSpan g.edges s.f.eOn (dots v u)
  dang : ∀ i a, sel i = true → g.edges[i]? = some [a] → s.f.vOn a = true ∧ InSpan g.edges s.f.eOn (dot a)
  dangE : ∀ i a, g.eOn i = true → g.edges[i]? = some [a] → s.f.eOn i = true
  edge : ∀ v, s.f.vOn v = true → root ≠ some v → HasEdge s.f v

/-- The state only grows, and vertices that have left the queue stay out of it. -/
structure Grown (s s' : Grow) : Prop where
  v : ∀ v, s.f.vOn v = true → s'.f.vOn v = true
  e : ∀ i, s.f.eOn i = true → s'.f.eOn i = true
  edges : s'.f.edges = s.f.edges
  q : ∀ v, s.f.vOn v = true → v ∉ s.new → v ∉ s'.new

theorem Grown.refl (s : Grow) : Grown s s := ⟨fun _ h => h, fun _ h => h, rfl, fun _ _ h => h⟩

theorem Grown.trans {s t u : Grow} (h : Grown s t) (h' : Grown t u) : Grown s u :=
  ⟨fun v hv => h'.v v (h.v v hv), fun i hi => h'.e i (h.e i hi), h'.edges.trans h.edges,
    fun v hv hq => h'.q v (h.v v hv) (h.q v hv hq)⟩

theorem Grown.hasEdge {s s' : Grow} (h : Grown s s') {v : Nat} (hv : HasEdge s.f v) : HasEdge s'.f v := by
  obtain ⟨i, e, hi, he, hm⟩ := hv
  exact ⟨i, e, h.e i hi, by rw [h.edges]; exact he, hm⟩

/-- One neighbour. -/
theorem neighbourStep_spec {sel : Nat → Bool} {g : EGraph} {N : Nat → List (Nat × Option Nat)} (hg : GFacts sel g N) {s : Grow}
    {cur : Nat} {root : Option Nat} (h : GrowInv sel g s (some cur) root) {i : Nat} {o : Option Nat} (hp : (i, o) ∈ N cur) :
    ∃ s', neighbourStep s (i, o) = .ok s' ∧ GrowInv sel g s' (some cur) root ∧ Grown s s' ∧
      (∀ u, o = some u → s'.f.vOn u = true ∧ InSpan g.edges s'.f.eOn (dots cur u)) ∧
      (∀ u, o = some u → s.f.vOn u = false → HasEdge s'.f cur) := by
  obtain ⟨hgi, e, he, hinc⟩ := (hg.nbrOk.mem cur i o).1 hp
  obtain ⟨hcon, hcq, hcp⟩ := h.pairAct cur rfl
  have hil : i < g.edges.length := (List.getElem?_eq_some_iff.1 he).1
  cases hfi : s.f.eOn i
  · cases ho : o with
    | none =>
      subst ho
      have hec : e = [cur] := by cases hinc; rfl
      subst hec
      have := h.dangE i cur hgi he
      rw [hfi] at this; simp at this
    | some u =>
      subst ho
      cases hvu : s.f.vOn u
      · -- the edge is added
        have hsel := hg.sub i hgi
        have hon : ∀ v ∈ e, v ≠ u → s.f.vOn v = true := by
          intro v hv hne
          have hvc : v = cur := by
            cases hinc <;> simp at hv <;> rcases hv with rfl | rfl <;> first | rfl | exact absurd rfl hne
          rw [hvc]; exact hcon
        obtain ⟨e1, e2, hb⟩ := h.base.graft he hinc.other_mem hvu hsel hon
        have hnq : u ∉ s.new := fun hu => by have := h.newOn u hu; rw [hvu] at this; simp at this
        have hmono : ∀ {σ}, InSpan g.edges s.f.eOn σ → InSpan g.edges (s.f.graft u i).eOn σ := fun hs =>
          hs.mono (fun j hj => update_true.2 (.inr hj))
        have hnew : InSpan g.edges (s.f.graft u i).eOn (dots cur u) := by
          rw [← touches_inc he hinc]
          exact InSpan.edge hil (update_true.2 (.inl rfl))
        have hue : HasEdge (s.f.graft u i) u :=
          ⟨i, e, update_true.2 (.inl rfl), by show s.f.edges[i]? = _; rw [h.base.edges_eq]; exact he, hinc.other_mem⟩
        have hce : HasEdge (s.f.graft u i) cur :=
          ⟨i, e, update_true.2 (.inl rfl), by show s.f.edges[i]? = _; rw [h.base.edges_eq]; exact he, hinc.mem⟩
        have hgr : Grown s { s with f := s.f.graft u i, new := s.new ++ [u] } :=
          ⟨fun v hv => update_true.2 (.inr hv), fun j hj => update_true.2 (.inr hj), rfl, fun v hv hq => by
            simp only [List.mem_append, List.mem_singleton, not_or]
            exact ⟨hq, by rintro rfl; rw [hvu] at hv; simp at hv⟩⟩
        have hcu : cur ≠ u := by rintro rfl; rw [hcon] at hvu; simp at hvu
        refine ⟨{ s with f := s.f.graft u i, new := s.new ++ [u] }, ?_, ⟨h.g_eq, hb, fun v hv => ?_, ?_, fun v hv => ?_, fun a ha b hb => ?_,
          fun a ha => ?_, fun v hv hq hact j e' w hj he' hw => ?_, fun j a hj ha => ?_, fun j a hj ha => ?_, fun v hv hr => ?_⟩, hgr, fun w hw => ?_, fun _ _ _ => hce⟩
        · simp only [neighbourStep, hfi, hvu, e1, e2]; rfl
        · rcases update_true.1 hv with rfl | hv
          · exact hg.ok.ends i e hgi he v hinc.other_mem
          · exact h.von v hv
        · exact List.nodup_append.2 ⟨h.nd, by simp, by
            intro x hx y hy; rw [List.mem_singleton] at hy; subst hy; rintro rfl; exact hnq hx⟩
        · rcases List.mem_append.1 hv with hv | hv
          · exact update_true.2 (.inr (h.newOn v hv))
          · exact update_true.2 (.inl (List.mem_singleton.1 hv))
        · have hx : ∀ a ∈ s.new ++ [u], InSpan g.edges (s.f.graft u i).eOn (dots cur a) := by
            intro a ha
            rcases List.mem_append.1 ha with ha | ha
            · exact hmono (hcp a ha)
            · rw [List.mem_singleton.1 ha]; exact hnew
          exact (hx a ha).dots_symm.dots_trans (hx b hb)
        · cases ha
          refine ⟨update_true.2 (.inr hcon), ?_, fun b hb => ?_⟩
          · simp only [List.mem_append, List.mem_singleton, not_or]; exact ⟨hcq, hcu⟩
          · rcases List.mem_append.1 hb with hb | hb
            · exact hmono (hcp b hb)
            · rw [List.mem_singleton.1 hb]; exact hnew
        · simp only [List.mem_append, List.mem_singleton, not_or] at hq
          rcases update_true.1 hv with rfl | hv
          · exact absurd rfl hq.2
          · obtain ⟨ha, hb⟩ := h.closed v hv hq.1 hact j e' w hj he' hw
            exact ⟨update_true.2 (.inr ha), hmono hb⟩
        · obtain ⟨hx, hy⟩ := h.dang j a hj ha
          exact ⟨update_true.2 (.inr hx), hmono hy⟩
        · exact update_true.2 (.inr (h.dangE j a hj ha))
        · rcases update_true.1 hv with rfl | hv
          · exact hue
          · exact hgr.hasEdge (h.edge v hv hr)
        · cases hw; exact ⟨update_true.2 (.inl rfl), hnew⟩
      · refine ⟨s, by simp only [neighbourStep, hfi, hvu]; rfl, h, .refl s, fun w hw => ?_, fun w hw hoff => ?_⟩
        · cases hw
          refine ⟨hvu, ?_⟩
          by_cases hq : u ∈ s.new
          · exact hcp u hq
          · have hcu : cur ≠ u := by cases hinc <;> assumption
            exact (h.closed u hvu hq (by simpa using hcu) i e cur (hg.sub i hgi) he hinc.symm).2.dots_symm
        · cases hw; rw [hvu] at hoff; simp at hoff
  · refine ⟨s, by simp only [neighbourStep, hfi]; rfl, h, .refl s, fun u hu => ?_, fun u hu hoff => ?_⟩
    · subst hu
      refine ⟨h.base.ok.ends i e hfi (by rw [h.base.edges_eq]; exact he) u hinc.other_mem, ?_⟩
      rw [← touches_inc he hinc]
      exact InSpan.edge hil hfi
    · subst hu
      have := h.base.ok.ends i e hfi (by rw [h.base.edges_eq]; exact he) u hinc.other_mem
      rw [hoff] at this; simp at this

/-- All neighbours. -/
theorem neighbours_spec {sel : Nat → Bool} {g : EGraph} {N : Nat → List (Nat × Option Nat)} (hg : GFacts sel g N)
    {cur : Nat} {root : Option Nat} : ∀ (l : List (Nat × Option Nat)) (s : Grow), GrowInv sel g s (some cur) root →
      (∀ p ∈ l, p ∈ N cur) → ∃ s', loopE neighbourStep s l = .ok s' ∧ GrowInv sel g s' (some cur) root ∧ Grown s s' ∧
      (∀ i u, (i, some u) ∈ l → s'.f.vOn u = true ∧ InSpan g.edges s'.f.eOn (dots cur u)) ∧
      (∀ i u l', l = (i, some u) :: l' → s.f.vOn u = false → HasEdge s'.f cur) := by
  intro l
  induction l with
  | nil => intro s h _; exact ⟨s, rfl, h, .refl s, by simp, by simp⟩
  | cons p l ih =>
    obtain ⟨i, o⟩ := p
    intro s h hl
    obtain ⟨s1, e1, h1, g1, a1, b1⟩ := neighbourStep_spec hg h (hl (i, o) (by simp))
    obtain ⟨s2, e2, h2, g2, a2, b2⟩ := ih s1 h1 (fun p hp => hl p (List.mem_cons_of_mem _ hp))
    refine ⟨s2, (loopE_step e1).trans e2, h2, g1.trans g2, fun j u hj => ?_, fun j u l' hl' hoff => ?_⟩
    · rcases List.mem_cons.1 hj with hj | hj
      · rw [Prod.mk.injEq] at hj
        obtain ⟨hx, hy⟩ := a1 u hj.2.symm
        exact ⟨g2.v u hx, hy.mono g2.e⟩
      · exact a2 j u hj
    · simp only [List.cons.injEq, Prod.mk.injEq] at hl'
      exact g2.hasEdge (b1 u hl'.1.2 hoff)

/-- None of the neighbours is in the forest yet. -/
def Lonely (N : Nat → List (Nat × Option Nat)) (f : EGraph) (c : Nat) : Prop :=
  N c ≠ [] ∧ ∀ i o, (i, o) ∈ N c → ∃ u, o = some u ∧ f.vOn u = false

/-- Between two vertices of the queue. -/
def Outer (sel : Nat → Bool) (g : EGraph) (N : Nat → List (Nat × Option Nat)) (s : Grow) : Prop :=
  GrowInv sel g s none none ∨ ∃ c, GrowInv sel g s none (some c) ∧ s.new = [c] ∧ Lonely N s.f c

theorem Outer.inv {sel : Nat → Bool} {g : EGraph} {N : Nat → List (Nat × Option Nat)} {s : Grow} (h : Outer sel g N s) :
    ∃ root, GrowInv sel g s none root := by
  rcases h with h | ⟨c, h, _⟩
  · exact ⟨_, h⟩
  · exact ⟨_, h⟩

/-- The next vertex of the queue. -/
theorem next_spec {sel : Nat → Bool} {g : EGraph} {N : Nat → List (Nat × Option Nat)} (hg : GFacts sel g N) {s : Grow}
    (h : Outer sel g N s) {cur : Nat} {rest : List Nat} (hq : s.new = cur :: rest) :
    ∃ s', s.g.getNeighbours cur = .ok (N cur) ∧ loopE neighbourStep { s with new := rest } (N cur) = .ok s' ∧ Outer sel g N s' ∧
      (∀ v, s.f.vOn v = true → s'.f.vOn v = true) ∧ (∀ v, s.f.vOn v = true → v ∉ s.new ∨ v = cur → v ∉ s'.new) := by
  obtain ⟨root, hr, hlast⟩ : ∃ root, GrowInv sel g s none root ∧
      (root = none ∨ ∃ c, root = some c ∧ s.new = [c] ∧ Lonely N s.f c) := by
    rcases h with h | ⟨c, h, h1, h2⟩
    · exact ⟨none, h, .inl rfl⟩
    · exact ⟨some c, h, .inr ⟨c, rfl, h1, h2⟩⟩
  have hnd := hr.nd
  rw [hq, List.nodup_cons] at hnd
  have hcon : s.f.vOn cur = true := hr.newOn cur (by rw [hq]; simp)
  have hstart : GrowInv sel g { s with new := rest } (some cur) root := by
    refine ⟨hr.g_eq, hr.base, hr.von, hnd.2, fun v hv => hr.newOn v (by rw [hq]; exact List.mem_cons_of_mem _ hv),
      fun a ha b hb => hr.pair a (by rw [hq]; exact List.mem_cons_of_mem _ ha) b (by rw [hq]; exact List.mem_cons_of_mem _ hb),
      fun a ha => ?_, fun v hv hnq hact => ?_, hr.dang, hr.dangE, hr.edge⟩
    · cases ha
      exact ⟨hcon, hnd.1, fun b hb => hr.pair cur (by rw [hq]; simp) b (by rw [hq]; exact List.mem_cons_of_mem _ hb)⟩
    · exact hr.closed v hv (by
        rw [hq, List.mem_cons, not_or]
        exact ⟨by rintro rfl; exact hact rfl, hnq⟩) (by simp)
  obtain ⟨s', e1, h', hgr, ha, hb⟩ := neighbours_spec hg (N cur) { s with new := rest } hstart (fun p hp => hp)
  have hcq : cur ∉ s'.new := (h'.pairAct cur rfl).2.1
  refine ⟨s', ?_, e1, .inl ⟨h'.g_eq, h'.base, h'.von, h'.nd, h'.newOn, h'.pair, by simp, fun v hv hnq _ i e u hi he hu => ?_, h'.dang, h'.dangE, fun v hv _ => ?_⟩,
    hgr.v, fun v hv hvq => ?_⟩
  · rw [hr.g_eq]
    simp only [EGraph.getNeighbours, hr.von cur hcon, if_true, hg.nbr]
  · by_cases hvc : v = cur
    · subst hvc
      exact ha i u ((hg.nbrOk.mem _ _ _).2 ⟨hg.two i e v u hi he hu, e, he, hu⟩)
    · exact h'.closed v hv hnq (by simpa using Ne.symm hvc) i e u hi he hu
  · by_cases hrv : root = some v
    · rcases hlast with hn | ⟨c, hc, hnew, hlon⟩
      · rw [hn] at hrv; simp at hrv
      · rw [hc] at hrv; cases hrv
        rw [hq] at hnew
        simp at hnew
        obtain ⟨rfl, rfl⟩ := hnew
        obtain ⟨hne, hl⟩ := hlon
        match hN : N cur with
        | [] => exact absurd hN hne
        | (i, o) :: l' =>
          obtain ⟨u, rfl, hoff⟩ := hl i o (by rw [hN]; simp)
          exact hb i u l' hN hoff
    · exact h'.edge v hv hrv
  · rcases hvq with hvq | rfl
    · exact hgr.q v hv (fun hm => hvq (by rw [hq]; exact List.mem_cons_of_mem _ hm))
    · exact hcq

/-- Starting a new tree. -/
theorem startNew_spec {sel : Nat → Bool} {g : EGraph} {N : Nat → List (Nat × Option Nat)} (hg : GFacts sel g N) :
    ∀ (rem : List Nat) (s : Grow), Outer sel g N s → (∀ v, g.vOn v = true → s.f.vOn v = true ∨ v ∈ rem) → (∀ v ∈ rem, g.vOn v = true) →
    ∃ rem' s', startNew rem s = .ok (rem', s') ∧ Outer sel g N s' ∧ (∀ v, g.vOn v = true → s'.f.vOn v = true ∨ v ∈ rem') ∧
      (∀ v ∈ rem', g.vOn v = true) ∧ (s'.new = [] → rem' = []) ∧
      ∀ v, s.f.vOn v = true → v ∉ s.new → s'.f.vOn v = true ∧ v ∉ s'.new := by
  intro rem
  induction rem with
  | nil => intro s h hrem _; exact ⟨[], s, rfl, h, hrem, by simp, by simp, fun v hv hq => ⟨hv, hq⟩⟩
  | cons c rem ih =>
    intro s h hrem hron
    by_cases hnew : s.new = []
    · have h0 : GrowInv sel g s none none := by
        rcases h with h | ⟨c', _, h2, _⟩
        · exact h
        · rw [hnew] at h2; simp at h2
      cases hc : s.f.vOn c
      · have hgc := hron c (by simp)
        obtain ⟨e1, hb⟩ := h0.base.plant (hg.ok.vlt c hgc) hc
        have hlon : Lonely N (s.f.plant c) c := by
          have hcl : ∀ i o, (i, o) ∈ N c → ∃ u, o = some u ∧ s.f.vOn u = false ∧ u ≠ c := by
            intro i o hio
            obtain ⟨hgi, e, he, hinc⟩ := (hg.nbrOk.mem _ _ _).1 hio
            cases o with
            | none =>
              have hec : e = [c] := by cases hinc; rfl
              subst hec
              have := (h0.dang i c (hg.sub i hgi) he).1
              rw [hc] at this; simp at this
            | some u =>
              refine ⟨u, rfl, ?_, by cases hinc <;> (rename_i hne; exact hne.symm)⟩
              cases hu : s.f.vOn u
              · rfl
              · have := (h0.closed u hu (by rw [hnew]; simp) (by simp) i e c (hg.sub i hgi) he hinc.symm).1
                rw [hc] at this; simp at this
          refine ⟨?_, fun i o hio => ?_⟩
          · obtain ⟨i, e, hi, he, hm⟩ := hg.has c hgc
            obtain ⟨o, ho⟩ := hg.ok.wf.inc (List.mem_of_getElem? he) hm
            cases o with
            | none =>
              have hec : e = [c] := by cases ho; rfl
              subst hec
              have := (h0.dang i c hi he).1
              rw [hc] at this; simp at this
            | some u =>
              intro hn
              have := (hg.nbrOk.mem c i (some u)).2 ⟨hg.two i e c u hi he ho, e, he, ho⟩
              rw [hn] at this; simp at this
          · obtain ⟨u, hu, hoff, huc⟩ := hcl i o hio
            exact ⟨u, hu, by show Function.update s.f.vOn c true u = false; rw [Function.update_of_ne huc]; exact hoff⟩
        have hinv : GrowInv sel g { s with f := s.f.plant c, new := s.new ++ [c] } none (some c) := by
          refine ⟨h0.g_eq, hb, fun v hv => ?_, by rw [hnew]; simp, fun v hv => ?_, fun a ha b hb' => ?_, by simp,
            fun v hv hq _ i e u hi he hu => ?_, fun i a hi ha => ?_, h0.dangE, fun v hv hr => ?_⟩
          · rcases update_true.1 hv with rfl | hv
            · exact hgc
            · exact h0.von v hv
          · rw [hnew] at hv; exact update_true.2 (.inl (by simpa using hv))
          · rw [hnew] at ha hb'
            simp at ha hb'
            subst ha hb'
            exact InSpan.dots_refl _
          · rw [hnew] at hq
            rcases update_true.1 hv with rfl | hv
            · simp at hq
            · obtain ⟨hx, hy⟩ := h0.closed v hv (by rw [hnew]; simp) (by simp) i e u hi he hu
              exact ⟨update_true.2 (.inr hx), hy⟩
          · obtain ⟨hx, hy⟩ := h0.dang i a hi ha
            exact ⟨update_true.2 (.inr hx), hy⟩
          · rcases update_true.1 hv with rfl | hv
            · exact absurd rfl hr
            · exact h0.edge v hv (by simp)
        obtain ⟨rem', s', e2, h1, h2, h3, h4, h5⟩ := ih { s with f := s.f.plant c, new := s.new ++ [c] }
          (.inr ⟨c, hinv, by simp [hnew], hlon⟩)
          (fun v hv => by
            rcases hrem v hv with hx | hx
            · exact .inl (update_true.2 (.inr hx))
            · rcases List.mem_cons.1 hx with rfl | hx
              · exact .inl (update_true.2 (.inl rfl))
              · exact .inr hx) (fun v hv => hron v (List.mem_cons_of_mem _ hv))
        refine ⟨rem', s', ?_, h1, h2, h3, h4, fun v hv hq => ?_⟩
        · rw [startNew, if_pos hnew, if_neg (by simp [hc])]
          simp only [e1]
          exact e2
        · refine h5 v (update_true.2 (.inr hv)) ?_
          simp only [hnew, List.nil_append, List.mem_singleton]
          rintro rfl; rw [hc] at hv; simp at hv
      · obtain ⟨rem', s', e2, h'⟩ := ih s h (fun v hv => by
          rcases hrem v hv with hx | hx
          · exact .inl hx
          · rcases List.mem_cons.1 hx with rfl | hx
            · exact .inl hc
            · exact .inr hx) (fun v hv => hron v (List.mem_cons_of_mem _ hv))
        exact ⟨rem', s', by rw [startNew, if_pos hnew, if_pos hc]; exact e2, h'⟩
    · exact ⟨c :: rem, s, by simp only [startNew, hnew, if_false], h, hrem, hron, fun hx => absurd hx hnew, fun v hv hq => ⟨hv, hq⟩⟩

/-- The vertices that are not finished. -/
def pendingSet (n : Nat) (s : Grow) : Finset Nat := (Finset.range n).filter fun v => ¬ (s.f.vOn v = true ∧ v ∉ s.new)

/-- The main loop. -/
theorem growLoop_spec {sel : Nat → Bool} {g : EGraph} {N : Nat → List (Nat × Option Nat)} (hg : GFacts sel g N) :
    ∀ (k : Nat) (rem : List Nat) (s : Grow), Outer sel g N s → (∀ v, g.vOn v = true → s.f.vOn v = true ∨ v ∈ rem) →
    (∀ v ∈ rem, g.vOn v = true) → (pendingSet g.n s).card ≤ k →
    ∃ s', growLoop k rem s = .ok s' ∧ GrowInv sel g s' none none ∧ s'.new = [] ∧ ∀ v, g.vOn v = true → s'.f.vOn v = true := by
  intro k
  induction k with
  | zero =>
    intro rem s h hrem hron hk
    obtain ⟨rem', s', e1, h1, h2, h3, h4, h5⟩ := startNew_spec hg rem s h hrem hron
    have hk' : (pendingSet g.n s').card ≤ 0 := by
      refine (Finset.card_le_card ?_).trans hk
      intro v hv
      unfold pendingSet at *
      rw [Finset.mem_filter] at hv ⊢
      exact ⟨hv.1, fun hx => hv.2 (h5 v hx.1 hx.2)⟩
    cases hq : s'.new with
    | nil =>
      refine ⟨s', ?_, ?_, hq, fun v hv => ?_⟩
      · unfold growLoop
        simp only [e1, hq]
      · rcases h1 with h1 | ⟨c, _, hc, _⟩
        · exact h1
        · rw [hq] at hc; simp at hc
      · have := h2 v hv; rw [h4 hq] at this; simpa using this
    | cons cur rest =>
      exfalso
      obtain ⟨root, hr⟩ := h1.inv
      have hcon := hr.newOn cur (by rw [hq]; simp)
      have : cur ∈ pendingSet g.n s' := Finset.mem_filter.2 ⟨Finset.mem_range.2 (hg.ok.vlt _ (hr.von _ hcon)), by rw [hq]; simp⟩
      rw [Finset.card_eq_zero.1 (Nat.le_zero.1 hk')] at this
      simp at this
  | succ k ih =>
    intro rem s h hrem hron hk
    obtain ⟨rem', s', e1, h1, h2, h3, h4, h5⟩ := startNew_spec hg rem s h hrem hron
    have hsub : pendingSet g.n s' ⊆ pendingSet g.n s := by
      intro v hv
      unfold pendingSet at *
      rw [Finset.mem_filter] at hv ⊢
      exact ⟨hv.1, fun hx => hv.2 (h5 v hx.1 hx.2)⟩
    cases hq : s'.new with
    | nil =>
      refine ⟨s', ?_, ?_, hq, fun v hv => ?_⟩
      · unfold growLoop
        simp only [e1, hq]
      · rcases h1 with h1 | ⟨c, _, hc, _⟩
        · exact h1
        · rw [hq] at hc; simp at hc
      · have := h2 v hv; rw [h4 hq] at this; simpa using this
    | cons cur rest =>
      obtain ⟨root, hr⟩ := h1.inv
      have hcon := hr.newOn cur (by rw [hq]; simp)
      obtain ⟨s2, e2, e3, h6, h7, h8⟩ := next_spec hg h1 hq
      obtain ⟨s3, e4, h9⟩ := ih rem' s2 h6 (fun v hv => (h2 v hv).imp (h7 v) id) h3 (by
        refine Nat.le_of_lt_succ (lt_of_lt_of_le (Finset.card_lt_card ?_) ((Finset.card_le_card hsub).trans hk))
        rw [Finset.ssubset_iff_of_subset]
        · refine ⟨cur, Finset.mem_filter.2 ⟨Finset.mem_range.2 (hg.ok.vlt _ (hr.von _ hcon)), by rw [hq]; simp⟩, ?_⟩
          intro hx
          exact (Finset.mem_filter.1 hx).2 ⟨h7 cur hcon, h8 cur hcon (.inr rfl)⟩
        · intro v hv
          unfold pendingSet at *
          rw [Finset.mem_filter] at hv ⊢
          exact ⟨hv.1, fun hx => hv.2 ⟨h7 v hx.1, h8 v hx.1 (.inl hx.2)⟩⟩)
      refine ⟨s3, ?_, h9⟩
      unfold growLoop
      simp only [e1, hq, e2, e3]
      exact e4

/-! ## The dangling edges -/

/-- What holds in the loop over dangling edges after `k` edges. -/
structure DangInv (g : EGraph) (k : Nat) (s : Grow) : Prop where
  ok : GraphOk s.g
  n_eq : s.g.n = g.n
  edges_eq : s.g.edges = g.edges
  von_eq : s.g.vOn = g.vOn
  nbr : ∃ N, s.g.nbr = some N ∧ NbrFor g.edges s.g.eOn N
  sub : ∀ i, s.g.eOn i = true → g.eOn i = true
  keep : ∀ i e, g.eOn i = true → g.edges[i]? = some e → (k ≤ i ∨ ∀ a, e ≠ [a]) → s.g.eOn i = true
  base : FBase g.n g.edges g.eOn s.f
  von : ∀ v, s.f.vOn v = true → g.vOn v = true
  nd : s.new.Nodup
  q : ∀ v, v ∈ s.new ↔ s.f.vOn v = true
  dot : ∀ v, s.f.vOn v = true → InSpan g.edges s.f.eOn (dot v)
  edge : ∀ v, s.f.vOn v = true → HasEdge s.f v
  dang : ∀ i a, i < k → g.eOn i = true → g.edges[i]? = some [a] → s.f.vOn a = true
  dangE : ∀ i a, i < k → s.g.eOn i = true → g.edges[i]? = some [a] → s.f.eOn i = true

theorem danglingStep_spec {g : EGraph} {k : Nat} {s : Grow} {e : List Nat} (h : DangInv g k s) (he : g.edges[k]? = some e) :
    ∃ s', danglingStep s (e, k) = .ok s' ∧ DangInv g (k + 1) s' := by
  have hkl : k < g.edges.length := (List.getElem?_eq_some_iff.1 he).1
  have hkeep : ∀ i e', g.eOn i = true → g.edges[i]? = some e' → (k + 1 ≤ i ∨ ∀ a, e' ≠ [a]) → s.g.eOn i = true :=
    fun i e' hi he' hx => h.keep i e' hi he' (hx.imp (fun hy => by omega) id)
  cases hon : s.g.eOn k
  · have hoff : g.eOn k = false := by
      cases hx : g.eOn k
      · rfl
      · have := h.keep k e hx he (.inl le_rfl); rw [hon] at this; simp at this
    refine ⟨s, by simp only [danglingStep, hon]; rfl, { h with keep := hkeep, dang := fun i a hi hgi ha => ?_, dangE := fun i a hi hgi ha => ?_ }⟩
    · rcases Nat.lt_succ_iff_lt_or_eq.1 hi with hi | rfl
      · exact h.dang i a hi hgi ha
      · rw [hoff] at hgi; simp at hgi
    · rcases Nat.lt_succ_iff_lt_or_eq.1 hi with hi | rfl
      · exact h.dangE i a hi hgi ha
      · rw [hon] at hgi; simp at hgi
  · have hgk := h.sub k hon
    by_cases hsing : ∃ a, e = [a]
    · obtain ⟨a, rfl⟩ := hsing
      have hga : g.vOn a = true := by
        have := h.ok.ends k [a] hon (by rw [h.edges_eq]; exact he) a (by simp)
        rwa [h.von_eq] at this
      cases hfa : s.f.vOn a
      · obtain ⟨e1, e2, hb⟩ := h.base.graft he (u := a) (by simp) hfa hgk (fun v hv hne => absurd (List.mem_singleton.1 hv) hne)
        have hmono : ∀ {σ}, InSpan g.edges s.f.eOn σ → InSpan g.edges (s.f.graft a k).eOn σ := fun hs =>
          hs.mono (fun j hj => update_true.2 (.inr hj))
        refine ⟨{ s with f := s.f.graft a k, new := s.new ++ [a] }, ?_, { h with base := hb, keep := hkeep, von := fun v hv => ?_, nd := ?_, q := fun v => ?_, dot := fun v hv => ?_, edge := fun v hv => ?_, dang := fun i b hi hgi hb' => ?_, dangE := fun i b hi hgi hb' => ?_ }⟩
        · simp only [danglingStep, hon, hfa, e1, e2]; rfl
        · rcases update_true.1 hv with rfl | hv
          · exact hga
          · exact h.von v hv
        · exact List.nodup_append.2 ⟨h.nd, by simp, by
            intro x hx y hy; rw [List.mem_singleton] at hy; subst hy; rintro rfl
            have := (h.q x).1 hx; rw [hfa] at this; simp at this⟩
        · show v ∈ s.new ++ [a] ↔ Function.update s.f.vOn a true v = true
          rw [List.mem_append, List.mem_singleton, update_true, h.q v, or_comm]
        · rcases update_true.1 hv with rfl | hv
          · rw [← touches_single he]; exact InSpan.edge hkl (update_true.2 (.inl rfl))
          · exact hmono (h.dot v hv)
        · rcases update_true.1 hv with rfl | hv
          · exact ⟨k, [v], update_true.2 (.inl rfl), by show s.f.edges[k]? = _; rw [h.base.edges_eq]; exact he, by simp⟩
          · obtain ⟨i, e', hi, he', hm⟩ := h.edge v hv
            exact ⟨i, e', update_true.2 (.inr hi), he', hm⟩
        · rcases Nat.lt_succ_iff_lt_or_eq.1 hi with hi | rfl
          · exact update_true.2 (.inr (h.dang i b hi hgi hb'))
          · rw [he] at hb'; simp at hb'; exact update_true.2 (.inl hb'.symm)
        · rcases Nat.lt_succ_iff_lt_or_eq.1 hi with hi | rfl
          · exact update_true.2 (.inr (h.dangE i b hi hgi hb'))
          · exact update_true.2 (.inl rfl)
      · obtain ⟨N, hn, hN⟩ := h.nbr
        obtain ⟨N', L', e1, hN', _⟩ := enableEdge_false h.ok hn (by rw [h.edges_eq]; exact hN) (by rw [h.edges_eq]; exact he) hon
        rw [h.edges_eq] at hN'
        have hupd : ∀ i, Function.update s.g.eOn k false i = true → i ≠ k ∧ s.g.eOn i = true := fun i hi => by
          by_cases hik : i = k
          · subst hik; simp at hi
          · rw [Function.update_of_ne hik] at hi; exact ⟨hik, hi⟩
        refine ⟨{ s with g := { s.g with eOn := Function.update s.g.eOn k false, nbr := some N', leaves := L' } }, ?_,
          { ok := (h.ok.disableEdge k).congr rfl rfl rfl rfl, base := h.base, von := h.von, nd := h.nd, q := h.q, dot := h.dot, edge := h.edge, n_eq := h.n_eq, edges_eq := h.edges_eq, von_eq := h.von_eq, nbr := ⟨N', rfl, hN'⟩, sub := fun i hi => h.sub i (hupd i hi).2, keep := fun i e' hi he' hx => ?_, dang := fun i b hi hgi hb' => ?_, dangE := fun i b hi hgi hb' => ?_ }⟩
        · simp only [danglingStep, hon, hfa, e1]; rfl
        · have hik : i ≠ k := by
            rintro rfl
            rcases hx with hx | hx
            · omega
            · rw [he] at he'; cases he'; exact hx a rfl
          show Function.update s.g.eOn k false i = true
          rw [Function.update_of_ne hik]
          exact hkeep i e' hi he' hx
        · rcases Nat.lt_succ_iff_lt_or_eq.1 hi with hi | rfl
          · exact h.dang i b hi hgi hb'
          · rw [he] at hb'; simp at hb'; rw [← hb']; exact hfa
        · obtain ⟨hik, hi'⟩ := hupd i hgi
          exact h.dangE i b (by omega) hi' hb'
    · refine ⟨s, ?_, { h with keep := hkeep, dang := fun i a hi hgi ha => ?_, dangE := fun i a hi hgi ha => ?_ }⟩
      · simp only [danglingStep, hon, if_true]
        split
        · rename_i a; exact absurd ⟨a, rfl⟩ hsing
        · rfl
      · rcases Nat.lt_succ_iff_lt_or_eq.1 hi with hi | rfl
        · exact h.dang i a hi hgi ha
        · rw [he] at ha; cases ha; exact absurd ⟨a, rfl⟩ hsing
      · rcases Nat.lt_succ_iff_lt_or_eq.1 hi with hi | rfl
        · exact h.dangE i a hi hgi ha
        · rw [he] at ha; cases ha; exact absurd ⟨a, rfl⟩ hsing

/-- The forest: its edges are selected ones, it has no cycles, every vertex of it has an edge, and every selected edge is a sum of
edges of the forest. -/
theorem constructForest_spec {g : EGraph} (h : GraphOk g) {N : Nat → List (Nat × Option Nat)} (hn : g.nbr = some N)
    (hN : NbrFor g.edges g.eOn N) (hedge : ∀ v, g.vOn v = true → HasEdge g v) :
    ∃ f, constructForest g = .ok f ∧ FBase g.n g.edges g.eOn f ∧ (∀ v, f.vOn v = true → HasEdge f v) ∧
      ∀ i, i < g.edges.length → g.eOn i = true → InSpan g.edges f.eOn (touches g.edges i) := by
  have h0 : DangInv g 0 { g := g, f := EGraph.fresh g.n g.edges, new := [] } :=
    { ok := h, n_eq := rfl, edges_eq := rfl, von_eq := rfl, nbr := ⟨N, hn, hN⟩, sub := fun i hi => hi, keep := fun i e hi _ _ => hi
      base := ⟨⟨h.wf, fun i e hi => by simp [EGraph.fresh] at hi, fun v hv => by simp [EGraph.fresh] at hv, fun i hi => by simp [EGraph.fresh] at hi⟩,
        rfl, rfl, rfl, fun i hi => by simp [EGraph.fresh] at hi, ⟨id, id, 0, by simp [EGraph.fresh], by simp [EGraph.fresh], by simp [EGraph.fresh]⟩⟩
      von := by simp [EGraph.fresh], nd := by simp, q := by simp [EGraph.fresh], dot := by simp [EGraph.fresh], edge := by simp [EGraph.fresh]
      dang := by simp, dangE := by simp }
  obtain ⟨s, e1, h1⟩ := loopE_inv (f := danglingStep) (DangInv g) g.edges.zipIdx 0 _ h0 (by
    rintro j ⟨e, i⟩ s hj hs
    rw [List.getElem?_zipIdx] at hj
    cases hej : g.edges[j]? with
    | none => rw [hej] at hj; simp at hj
    | some e' =>
      rw [hej] at hj
      simp at hj
      obtain ⟨rfl, rfl⟩ := hj
      rw [Nat.zero_add] at hs ⊢
      exact danglingStep_spec hs hej)
  rw [Nat.zero_add, List.length_zipIdx] at h1
  obtain ⟨N1, hn1, hN1⟩ := h1.nbr
  have hlt : ∀ i e, g.edges[i]? = some e → i < g.edges.length := fun i e he => (List.getElem?_eq_some_iff.1 he).1
  have hg : GFacts g.eOn s.g N1 := by
    refine ⟨h1.ok, hn1, by rw [h1.edges_eq]; exact hN1, h1.sub, fun i e v u hi he hinc => ?_, fun v hv => ?_, fun i e v hi he hv => ?_⟩
    · rw [h1.edges_eq] at he
      exact h1.keep i e hi he (.inr (by rintro a rfl; cases hinc))
    · rw [h1.von_eq] at hv; rw [h1.edges_eq]; exact hedge v hv
    · rw [h1.edges_eq] at he; rw [h1.von_eq]; exact h.ends i e hi he v hv
  have hgrow : GrowInv g.eOn s.g s none none := by
    refine ⟨rfl, by rw [h1.n_eq, h1.edges_eq]; exact h1.base, by rw [h1.von_eq]; exact h1.von, h1.nd, fun v hv => (h1.q v).1 hv, fun a ha b hb => ?_, by simp,
      fun v hv hq => absurd ((h1.q v).2 hv) hq, fun i a hi ha => ?_, fun i a hi ha => ?_, fun v hv _ => h1.edge v hv⟩
    · rw [h1.edges_eq]; exact (h1.dot a ((h1.q a).1 ha)).dots_of (h1.dot b ((h1.q b).1 hb))
    · rw [h1.edges_eq] at ha ⊢
      have := h1.dang i a (hlt i _ ha) hi ha
      exact ⟨this, h1.dot a this⟩
    · rw [h1.edges_eq] at ha; exact h1.dangE i a (hlt i _ ha) hi ha
  obtain ⟨s', e2, h2, hq, hall⟩ := growLoop_spec hg g.n ((List.range g.n).filter g.vOn).reverse s (.inl hgrow)
    (fun v hv => .inr (by rw [h1.von_eq] at hv; simp [hv, h.vlt v hv])) (fun v hv => by rw [h1.von_eq]; simp at hv; exact hv.2) (by
      unfold pendingSet
      refine (Finset.card_filter_le _ _).trans ?_
      rw [h1.n_eq]; simp)
  have hbase := h2.base
  rw [h1.n_eq, h1.edges_eq] at hbase
  refine ⟨s'.f, by simp only [constructForest, e1, e2], hbase, fun v hv => h2.edge v hv (by simp), fun i hi hon => ?_⟩
  have he : g.edges[i]? = some g.edges[i] := List.getElem?_eq_getElem hi
  rcases h.wf g.edges[i] (List.getElem_mem hi) with ⟨a, ha, _⟩ | ⟨a, b, hab, hne, _, _⟩
  · rw [ha] at he
    rw [touches_single he]
    have := (h2.dang i a hon (by rw [h1.edges_eq]; exact he)).2
    rwa [h1.edges_eq] at this
  · rw [hab] at he
    have hinc : Inc [a, b] a (some b) := .left _ _ hne
    rw [touches_inc he hinc]
    have hva := hall a (by rw [h1.von_eq]; exact h.ends i _ hon he a (by simp))
    have := (h2.closed a hva (by rw [hq]; simp) (by simp) i [a, b] b hon (by rw [h1.edges_eq]; exact he) hinc).2
    rwa [h1.edges_eq] at this

end Plaquette
