import Verif.Model.Codes
import Mathlib.Data.List.Basic
import Mathlib.Data.List.Nodup
import Mathlib.Data.List.Perm.Basic
import Mathlib.Tactic.Linarith
import Mathlib.Tactic.Ring

/-!
# Building a lattice: what the loops of the constructors do
-/

namespace Plaquette

/-! ### Loops -/

theorem ok_bind {α β : Type} (a : α) (f : α → Except Err β) : ((.ok a : Except Err α) >>= f) = f a := rfl

section loops
variable {σ α β : Type} (f : σ → α → Except Err σ)

@[simp] theorem loopE_nil (s : σ) : loopE f s [] = .ok s := rfl

theorem loopE_cons (s : σ) (a : α) (as : List α) :
    loopE f s (a :: as) = (f s a >>= fun s' => loopE f s' as) := by
  simp only [loopE, bind, Except.bind]
  split <;> simp_all

theorem loopE_append (s : σ) (as bs : List α) :
    loopE f s (as ++ bs) = (loopE f s as >>= fun s' => loopE f s' bs) := by
  induction as generalizing s with
  | nil => rfl
  | cons a as ih =>
    rw [List.cons_append, loopE_cons, loopE_cons]
    cases h : f s a with
    | error e => rfl
    | ok s' => exact ih s'

theorem loopE_map (g : β → α) (s : σ) (bs : List β) : loopE f s (bs.map g) = loopE (fun s b => f s (g b)) s bs := by
  induction bs generalizing s with
  | nil => rfl
  | cons b bs ih =>
    rw [List.map_cons, loopE_cons, loopE_cons]
    cases h : f s (g b) with
    | error e => rfl
    | ok s' => exact ih s'

theorem loopE_flatMap (g : β → List α) (s : σ) (bs : List β) :
    loopE f s (bs.flatMap g) = loopE (fun s b => loopE f s (g b)) s bs := by
  induction bs generalizing s with
  | nil => rfl
  | cons b bs ih =>
    rw [List.flatMap_cons, loopE_append, loopE_cons]
    cases h : loopE f s (g b) with
    | error e => rfl
    | ok s' => exact ih s'

theorem loopE_congr {f g : σ → α → Except Err σ} (s : σ) (as : List α) (h : ∀ s, ∀ a ∈ as, f s a = g s a) :
    loopE f s as = loopE g s as := by
  induction as generalizing s with
  | nil => rfl
  | cons a as ih =>
    rw [loopE_cons, loopE_cons, h s a (by simp)]
    cases hg : g s a with
    | error e => rfl
    | ok s' => exact ih s' (fun s b hb => h s b (by simp [hb]))

/-- A loop that skips some entries. -/
theorem loopE_filterMap (g : β → Option α) (s : σ) (bs : List β) :
    loopE f s (bs.filterMap g) = loopE (fun s b => match g b with | some a => f s a | none => .ok s) s bs := by
  induction bs generalizing s with
  | nil => rfl
  | cons b bs ih =>
    rw [loopE_cons]
    cases hg : g b with
    | none => rw [List.filterMap_cons_none hg, ih]; rfl
    | some a =>
      rw [List.filterMap_cons_some hg, loopE_cons]
      simp only
      cases h : f s a with
      | error e => rfl
      | ok s' => exact ih s'

end loops

theorem mapLoop_ok {α β : Type} {f : α → Except Err β} {g : α → β} (l : List α) (h : ∀ a ∈ l, f a = .ok (g a)) :
    mapLoop f l = .ok (l.map g) := by
  induction l with
  | nil => rfl
  | cons a l ih =>
    rw [mapLoop, h a (by simp), ih (fun b hb => h b (by simp [hb]))]
    rfl

/-! ### Ranges -/

theorem mem_pyRange {a b s x : Int} (hs : 0 < s) : x ∈ pyRange a b s ↔ a ≤ x ∧ x < b ∧ s ∣ x - a := by
  unfold pyRange
  simp only [List.mem_map, List.mem_range]
  constructor
  · rintro ⟨k, hk, rfl⟩
    have h1 : (k : Int) < (b - a + s - 1) / s := by omega
    have h2 : (k : Int) + 1 ≤ (b - a + s - 1) / s := by omega
    rw [Int.le_ediv_iff_mul_le hs] at h2
    refine ⟨?_, ?_, ⟨k, by ring⟩⟩
    · have := mul_nonneg hs.le (Int.natCast_nonneg k); linarith
    · have : (↑k + 1) * s = s * k + s := by ring
      linarith
  · rintro ⟨h1, h2, k, hk⟩
    have hk0 : 0 ≤ k := by
      by_contra h
      have := mul_neg_of_pos_of_neg hs (not_le.mp h)
      linarith
    refine ⟨k.toNat, ?_, ?_⟩
    · have h3 : k + 1 ≤ (b - a + s - 1) / s := by
        rw [Int.le_ediv_iff_mul_le hs]
        have : (k + 1) * s = s * k + s := by ring
        linarith
      omega
    · rw [Int.toNat_of_nonneg hk0]; linarith

theorem pyRange_nodup {a b s : Int} (hs : 0 < s) : (pyRange a b s).Nodup := by
  unfold pyRange
  refine List.Nodup.map ?_ List.nodup_range
  intro x y h
  simp only at h
  have : s * (x : Int) = s * y := by linarith
  have := mul_left_cancel₀ (ne_of_gt hs) this
  exact_mod_cast this

theorem length_pyRange (a b s : Int) : (pyRange a b s).length = ((b - a + s - 1) / s).toNat := by
  simp [pyRange]

/-! ### Adding vertices and edges -/

/-- The position is in the array. -/
def Lattice.InB (L : Lattice) (p : Pos) : Prop := 0 ≤ p.1 ∧ 0 ≤ p.2 ∧ p.1 < L.rows ∧ p.2 < L.cols

theorem access_ok {L : Lattice} {p : Pos} (h : L.InB p) : L.access p = .ok () := by
  obtain ⟨h1, h2, h3, h4⟩ := h
  unfold Lattice.access
  rw [if_neg (by omega), if_neg (by omega)]

theorem assertFree_ok {L : Lattice} {p : Pos} (h : L.InB p) (hf : p ∉ L.occupied) : L.assertFree p = .ok () := by
  unfold Lattice.assertFree
  rw [access_ok h]
  simp [hf]

/-- A data qubit or a stabiliser generator is added. -/
def addCell (L : Lattice) (c : Pos × Option StabGroup) : Except Err Lattice :=
  match c.2 with
  | none => L.addData c.1
  | some g => L.addStabgen c.1 g

/-- The data qubits of a list of cells. -/
def cellData (cs : List (Pos × Option StabGroup)) : List Pos :=
  cs.filterMap fun c => if c.2 = none then some c.1 else none

/-- The stabilisers of a list of cells. -/
def cellStabs (cs : List (Pos × Option StabGroup)) : List (Pos × StabGroup) :=
  cs.filterMap fun c => c.2.map fun g => (c.1, g)

theorem loop_cells (cs : List (Pos × Option StabGroup)) (L : Lattice) (hb : ∀ c ∈ cs, L.InB c.1)
    (hn : (cs.map Prod.fst).Nodup) (hd : ∀ c ∈ cs, c.1 ∉ L.occupied) :
    loopE addCell L cs =
      .ok { L with dataqubits := L.dataqubits ++ cellData cs, stabgens := L.stabgens ++ cellStabs cs } := by
  induction cs generalizing L with
  | nil => simp [cellData, cellStabs]
  | cons c cs ih =>
    obtain ⟨p, g⟩ := c
    rw [loopE_cons]
    simp only [List.map_cons, List.nodup_cons] at hn
    have hfree := assertFree_ok (hb (p, g) (by simp)) (hd (p, g) (by simp))
    simp only at hfree
    cases g with
    | none =>
      simp only [addCell, Lattice.addData, hfree, bind, Except.bind]
      rw [ih]
      · simp [cellData, cellStabs]
      · intro c hc; exact hb c (by simp [hc])
      · exact hn.2
      · intro c hc hm
        have h1 := hd c (by simp [hc])
        apply h1
        simp only [Lattice.occupied, List.mem_append, List.mem_singleton] at hm ⊢
        rcases hm with ((h | h) | h) | h
        · tauto
        · exact absurd (List.mem_map_of_mem (f := Prod.fst) hc) (h ▸ hn.1)
        · tauto
        · tauto
    | some g =>
      simp only [addCell, Lattice.addStabgen, hfree, bind, Except.bind]
      rw [ih]
      · simp [cellData, cellStabs]
      · intro c hc; exact hb c (by simp [hc])
      · exact hn.2
      · intro c hc hm
        have h1 := hd c (by simp [hc])
        apply h1
        simp only [Lattice.occupied, List.mem_append, List.map_append, List.map_cons, List.map_nil,
          List.mem_singleton] at hm ⊢
        rcases hm with (h | h | h) | h
        · tauto
        · tauto
        · exact absurd (List.mem_map_of_mem (f := Prod.fst) hc) (h ▸ hn.1)
        · tauto

theorem addStabgen_ok {L : Lattice} {p : Pos} (g : StabGroup) (h : L.InB p) (hf : p ∉ L.occupied) :
    L.addStabgen p g = .ok { L with stabgens := L.stabgens ++ [(p, g)] } := by
  unfold Lattice.addStabgen
  rw [assertFree_ok h hf]

theorem addLogical_ok {L : Lattice} {p : Pos} (name : List Char) (h : L.InB p) (hf : p ∉ L.occupied) :
    L.addLogical p name = .ok { L with logicals := L.logicals ++ [(p, name)] } := by
  unfold Lattice.addLogical
  rw [assertFree_ok h hf]

/-- The edge that `add_edge` makes. -/
def mkEdge (data op : Pos) (factor : Letter) : LEdge := { op := op, data := data, factor := factor, step := none }

/-- Operator and data qubit of an edge. -/
def LEdge.key (e : LEdge) : Pos × Pos := (e.op, e.data)

/-- Adding the edge `e`. -/
def addE (L : Lattice) (e : LEdge) : Except Err Lattice := L.addEdgeAt e.data e.op e.factor

theorem hasEdge_iff {L : Lattice} {op data : Pos} : L.hasEdge op data = true ↔ (op, data) ∈ L.edges.map LEdge.key := by
  simp only [Lattice.hasEdge, List.any_eq_true, decide_eq_true_eq, List.mem_map, LEdge.key, Prod.mk.injEq]

theorem addE_ok {L : Lattice} {e : LEdge} (hs : e.step = none) (hb : L.InB e.data) (hdat : e.data ∈ L.dataqubits)
    (hk : e.key ∉ L.edges.map LEdge.key) : addE L e = .ok { L with edges := L.edges ++ [e] } := by
  unfold addE Lattice.addEdgeAt
  rw [access_ok hb]
  simp only [hdat, if_true, Lattice.addEdge]
  have : ¬ L.hasEdge e.op e.data = true := by rw [hasEdge_iff]; exact hk
  rw [if_neg this]
  cases e
  simp_all

theorem loop_edges (es : List LEdge) (L : Lattice) (hs : ∀ e ∈ es, e.step = none)
    (hb : ∀ e ∈ es, L.InB e.data ∧ e.data ∈ L.dataqubits)
    (hk : (es.map LEdge.key).Nodup) (hd : ∀ e ∈ es, e.key ∉ L.edges.map LEdge.key) :
    loopE addE L es = .ok { L with edges := L.edges ++ es } := by
  induction es generalizing L with
  | nil => simp
  | cons e es ih =>
    rw [loopE_cons, addE_ok (hs e (by simp)) (hb e (by simp)).1 (hb e (by simp)).2 (hd e (by simp))]
    simp only [List.map_cons, List.nodup_cons] at hk
    simp only [bind, Except.bind]
    rw [ih]
    · simp
    · intro e' he; exact hs e' (by simp [he])
    · intro e' he; exact hb e' (by simp [he])
    · exact hk.2
    · intro e' he hm
      simp only [List.map_append, List.map_cons, List.map_nil, List.mem_append, List.mem_singleton] at hm
      rcases hm with h | h
      · exact hd e' (by simp [he]) h
      · exact hk.1 (h ▸ List.mem_map_of_mem (f := LEdge.key) he)

/-- A stabiliser with its edges is added. -/
def addStabEdges (L : Lattice) (s : (Pos × StabGroup) × List LEdge) : Except Err Lattice := do
  let L ← L.addStabgen s.1.1 s.1.2
  loopE addE L s.2

theorem loop_stabEdges (ss : List ((Pos × StabGroup) × List LEdge)) (L : Lattice)
    (hb : ∀ s ∈ ss, L.InB s.1.1) (hn : (ss.map fun s => s.1.1).Nodup) (hd : ∀ s ∈ ss, s.1.1 ∉ L.occupied)
    (hstep : ∀ s ∈ ss, ∀ e ∈ s.2, e.step = none)
    (heb : ∀ s ∈ ss, ∀ e ∈ s.2, L.InB e.data ∧ e.data ∈ L.dataqubits)
    (hk : ((ss.flatMap Prod.snd).map LEdge.key).Nodup)
    (hkd : ∀ s ∈ ss, ∀ e ∈ s.2, e.key ∉ L.edges.map LEdge.key) :
    loopE addStabEdges L ss =
      .ok { L with stabgens := L.stabgens ++ ss.map Prod.fst, edges := L.edges ++ ss.flatMap Prod.snd } := by
  induction ss generalizing L with
  | nil => simp
  | cons s ss ih =>
    simp only [List.map_cons, List.nodup_cons] at hn
    simp only [List.flatMap_cons, List.map_append] at hk
    rw [List.nodup_append] at hk
    rw [loopE_cons, addStabEdges, addStabgen_ok _ (hb s (by simp)) (hd s (by simp))]
    simp only [bind, Except.bind]
    rw [loop_edges s.2]
    · simp only
      rw [ih]
      · simp
      · intro t ht; exact hb t (by simp [ht])
      · exact hn.2
      · intro t ht hm
        apply hd t (by simp [ht])
        simp only [Lattice.occupied, List.mem_append, List.map_append, List.map_cons, List.map_nil,
          List.mem_singleton] at hm ⊢
        rcases hm with (h | h | h) | h
        · tauto
        · tauto
        · exact absurd (List.mem_map_of_mem (f := fun s => s.1.1) ht) (by rw [h]; exact hn.1)
        · tauto
      · intro t ht; exact hstep t (by simp [ht])
      · intro t ht; exact heb t (by simp [ht])
      · exact hk.2.1
      · intro t ht e he hm
        simp only [List.map_append, List.mem_append] at hm
        rcases hm with h | h
        · exact hkd t (by simp [ht]) e he h
        · refine hk.2.2 _ h _ ?_ rfl
          exact List.mem_map_of_mem (f := LEdge.key) (List.mem_flatMap.mpr ⟨t, ht, he⟩)
    · exact hstep s (by simp)
    · exact heb s (by simp)
    · exact hk.1
    · exact hkd s (by simp)

/-! ### Lists with distinct keys -/

theorem nodup_pairs {is js : List Int} (hi : is.Nodup) (hj : js.Nodup) :
    (is.flatMap fun i => js.map fun j => (i, j)).Nodup := by
  rw [List.nodup_flatMap]
  constructor
  · intro i _
    exact hj.map (fun a b h => by simpa using h)
  · refine hi.imp ?_
    intro a b hab
    rw [Function.onFun, List.disjoint_left]
    rintro ⟨x, y⟩ h1 h2
    simp only [List.mem_map, Prod.mk.injEq] at h1 h2
    obtain ⟨_, _, rfl, _⟩ := h1
    obtain ⟨_, _, rfl, _⟩ := h2
    exact hab rfl

/-- The edges of several operators have distinct keys if the operators are distinct and the data qubits of each are. -/
theorem keys_nodup {α : Type} {as : List α} {key : α → Pos} {f : α → List LEdge} (ha : (as.map key).Nodup)
    (hf : ∀ a ∈ as, ∀ e ∈ f a, e.op = key a) (hd : ∀ a ∈ as, ((f a).map LEdge.data).Nodup) :
    ((as.flatMap f).map LEdge.key).Nodup := by
  rw [List.map_flatMap, List.nodup_flatMap]
  constructor
  · intro a haa
    have h1 := hd a haa
    rw [List.Nodup, List.pairwise_map] at h1 ⊢
    exact h1.imp (fun {x y} h hc => h (by simpa [LEdge.key] using congrArg Prod.snd hc))
  · rw [List.Nodup, List.pairwise_map] at ha
    refine ha.imp_of_mem ?_
    intro a b haa hbb hab
    rw [Function.onFun, List.disjoint_left]
    intro k h1 h2
    simp only [List.mem_map] at h1 h2
    obtain ⟨e, he, rfl⟩ := h1
    obtain ⟨e', he', h3⟩ := h2
    simp only [LEdge.key, Prod.mk.injEq] at h3
    rw [hf a haa e he, hf b hbb e' he'] at h3
    exact hab h3.1.symm

/-- The edges of one operator among those of several. -/
theorem filter_flatMap_op {α : Type} {as : List α} {key : α → Pos} {f : α → List LEdge} (ha : (as.map key).Nodup)
    (hf : ∀ a ∈ as, ∀ e ∈ f a, e.op = key a) {a : α} (hm : a ∈ as) :
    (as.flatMap f).filter (fun e => e.op = key a) = f a := by
  induction as with
  | nil => simp at hm
  | cons b as ih =>
    simp only [List.map_cons, List.nodup_cons] at ha
    rw [List.flatMap_cons, List.filter_append]
    rcases List.mem_cons.mp hm with rfl | hm'
    · have h1 : (f a).filter (fun e => e.op = key a) = f a := by
        rw [List.filter_eq_self]
        intro e he; simp [hf a (by simp) e he]
      have h2 : (as.flatMap f).filter (fun e => e.op = key a) = [] := by
        rw [List.filter_eq_nil_iff]
        intro e he
        rw [List.mem_flatMap] at he
        obtain ⟨c, hc, he⟩ := he
        simp only [decide_eq_true_eq]
        rw [hf c (by simp [hc]) e he]
        intro h3
        exact ha.1 (h3 ▸ List.mem_map_of_mem (f := key) hc)
      rw [h1, h2, List.append_nil]
    · have h1 : (f b).filter (fun e => e.op = key a) = [] := by
        rw [List.filter_eq_nil_iff]
        intro e he
        simp only [decide_eq_true_eq]
        rw [hf b (by simp) e he]
        intro h3
        exact ha.1 (h3 ▸ List.mem_map_of_mem (f := key) hm')
      rw [h1, List.nil_append]
      exact ih ha.2 (fun c hc => hf c (by simp [hc])) hm'

end Plaquette
