import Verif.Lemmas.Grid

/-!
# Lattices given by lists of vertices and edges

What the constructors of the lattice families have in common.
-/

namespace Plaquette

/-- The vertices and edges of a lattice, in the order in which they are added. -/
structure Fam where
  rows : Nat
  cols : Nat
  data : List Pos
  stabs : List (Pos × StabGroup)
  E : Pos × StabGroup → List LEdge
  logs : List (Pos × List Char)
  logE : List LEdge

namespace Fam

/-- All edges. -/
def edges (F : Fam) : List LEdge := F.stabs.flatMap F.E ++ F.logE

/-- The lattice before the edges are ordered. -/
def raw (F : Fam) : Lattice :=
  { rows := F.rows, cols := F.cols, dataqubits := F.data, stabgens := F.stabs, logicals := F.logs,
    edges := F.edges, timeSteps := none, equbits := [], indexed := [], keepGauge := "none".toList, boundaryJoin := false }

/-- The finished lattice. -/
def lat (F : Fam) (t : Option Nat) (g : LEdge → LEdge) : Lattice :=
  Lattice.assignIndices { F.raw with timeSteps := t, edges := F.edges.map g }

/-- Conditions on the lists. -/
structure Ok (F : Fam) : Prop where
  occ : (F.data ++ F.stabs.map Prod.fst ++ F.logs.map Prod.fst).Nodup
  inB : ∀ p ∈ F.data, 0 ≤ p.1 ∧ 0 ≤ p.2 ∧ p.1 < F.rows ∧ p.2 < F.cols
  Eop : ∀ st ∈ F.stabs, ∀ e ∈ F.E st, e.op = st.1
  Edata : ∀ st ∈ F.stabs, ∀ e ∈ F.E st, e.data ∈ F.data
  Enew : ∀ st ∈ F.stabs, ∀ e ∈ F.E st, e.step = none
  Enodup : ∀ st ∈ F.stabs, ((F.E st).map LEdge.data).Nodup
  Lop : ∀ e ∈ F.logE, e.op ∈ F.logs.map Prod.fst
  Ldata : ∀ e ∈ F.logE, e.data ∈ F.data
  Lnew : ∀ e ∈ F.logE, e.step = none
  Lnodup : (F.logE.map LEdge.key).Nodup

/-- A function that changes nothing but the time step of an edge. -/
structure Keeps (g : LEdge → LEdge) : Prop where
  op : ∀ e, (g e).op = e.op
  df : ∀ e, (g e).data = e.data ∧ (g e).factor = e.factor

theorem Keeps.key {g : LEdge → LEdge} (h : Keeps g) (e : LEdge) : (g e).key = e.key := by
  simp [LEdge.key, h.op, h.df]

theorem keeps_step (i : Pos → Bool) (o : List (Int × Int)) : Keeps (stepEdge i o) := ⟨stepEdge_op i o, stepEdge_df i o⟩

variable {F : Fam} (h : F.Ok)
include h

theorem Ok.keys : (F.edges.map LEdge.key).Nodup := by
  rw [edges, List.map_append, List.nodup_append]
  obtain ⟨h1, h2, h3⟩ := List.nodup_append.mp h.occ
  obtain ⟨_, h5, _⟩ := List.nodup_append.mp h1
  refine ⟨keys_nodup (key := Prod.fst) h5 h.Eop h.Enodup, h.Lnodup, ?_⟩
  rintro k hk k' hk' rfl
  simp only [List.mem_map, List.mem_flatMap] at hk
  obtain ⟨e, ⟨st, hst, he⟩, rfl⟩ := hk
  obtain ⟨e', he', hk'⟩ := List.mem_map.mp hk'
  have h4 := congrArg Prod.fst hk'
  simp only [LEdge.key] at h4
  rw [h.Eop st hst e he] at h4
  exact h3 _ (List.mem_append_right _ (List.mem_map_of_mem hst)) _ (h.Lop e' he') h4.symm

theorem Ok.edges_data {e : LEdge} (he : e ∈ F.edges) : e.data ∈ F.data := by
  rcases List.mem_append.mp he with he | he
  · obtain ⟨st, hst, he⟩ := List.mem_flatMap.mp he
    exact h.Edata st hst e he
  · exact h.Ldata e he

omit h in
theorem lat_edges (t : Option Nat) (g : LEdge → LEdge) : (F.lat t g).edges = F.edges.map g := rfl
omit h in
theorem lat_occ (t : Option Nat) (g : LEdge → LEdge) :
    (F.lat t g).occupied = F.data ++ F.stabs.map Prod.fst ++ F.logs.map Prod.fst := rfl
omit h in
theorem lat_indexed (t : Option Nat) (g : LEdge → LEdge) :
    (F.lat t g).indexed = F.data ++ F.stabs.map Prod.fst ++ F.logs.map Prod.fst := rfl
omit h in
theorem lat_data (t : Option Nat) (g : LEdge → LEdge) : (F.lat t g).dataqubits = F.data := rfl
omit h in
theorem lat_stabs (t : Option Nat) (g : LEdge → LEdge) : (F.lat t g).stabgens = F.stabs := rfl
omit h in
theorem lat_logs (t : Option Nat) (g : LEdge → LEdge) : (F.lat t g).logicals = F.logs := rfl

theorem Ok.wf (t : Option Nat) {g : LEdge → LEdge} (hg : Keeps g) : (F.lat t g).Wf where
  occ := by rw [lat_occ]; exact h.occ
  indexed := by rw [lat_occ, lat_indexed]
  keys := by
    rw [lat_edges, List.map_map, show LEdge.key ∘ g = LEdge.key from funext hg.key]
    exact h.keys
  data := by
    intro e he
    rw [lat_data]
    rw [lat_edges] at he
    obtain ⟨e', he', rfl⟩ := List.mem_map.mp he
    rw [(hg.df _).1]
    exact h.edges_data he'

theorem Ok.op_stab (t : Option Nat) {g : LEdge → LEdge} (hg : Keeps g) {st : Pos × StabGroup} (hst : st ∈ F.stabs) :
    (F.lat t g).opEdges st.1 = (F.E st).map g := by
  obtain ⟨h1, h2, h3⟩ := List.nodup_append.mp h.occ
  obtain ⟨_, h5, _⟩ := List.nodup_append.mp h1
  rw [opEdges_map hg.op (lat_edges t g), edges, List.filter_append,
    filter_flatMap_op (as := F.stabs) (key := Prod.fst) (f := F.E) h5 h.Eop hst]
  have : F.logE.filter (fun e => e.op = st.1) = [] := by
    rw [List.filter_eq_nil_iff]
    intro e he hc
    have hc := of_decide_eq_true hc
    exact h3 _ (List.mem_append_right _ (List.mem_map_of_mem hst)) _ (h.Lop e he) hc.symm
  rw [this, List.append_nil]

theorem Ok.op_log (t : Option Nat) {g : LEdge → LEdge} (hg : Keeps g) {l : Pos × List Char} (hl : l ∈ F.logs) :
    (F.lat t g).opEdges l.1 = (F.logE.filter fun e => e.op = l.1).map g := by
  obtain ⟨h1, h2, h3⟩ := List.nodup_append.mp h.occ
  rw [opEdges_map hg.op (lat_edges t g), edges, List.filter_append]
  have : (F.stabs.flatMap F.E).filter (fun e => e.op = l.1) = [] := by
    rw [List.filter_eq_nil_iff]
    intro e he hc
    have hc := of_decide_eq_true hc
    obtain ⟨st, hst, he⟩ := List.mem_flatMap.mp he
    rw [h.Eop st hst e he] at hc
    exact h3 _ (List.mem_append_right _ (List.mem_map_of_mem hst)) _ (List.mem_map_of_mem hl) hc
  rw [this, List.nil_append]

theorem Ok.comm (t : Option Nat) {g : LEdge → LEdge} (hg : Keeps g)
    (hss : ∀ a ∈ F.stabs, ∀ b ∈ F.stabs, antiE (F.E a) (F.E b) = false)
    (hsl : ∀ a ∈ F.stabs, ∀ l ∈ F.logs, antiE (F.E a) (F.logE.filter fun e => e.op = l.1) = false)
    (hll : ∀ (i j : Nat) a b, F.logs[i]? = some a → F.logs[j]? = some b →
      antiE (F.logE.filter fun e => e.op = a.1) (F.logE.filter fun e => e.op = b.1) = decide (i / 2 = j / 2 ∧ i ≠ j)) :
    (F.lat t g).Comm where
  stab_stab a ha b hb := by
    rw [h.op_stab t hg ha, h.op_stab t hg hb, antiE_map hg.df]
    exact hss a ha b hb
  stab_log a ha b hb := by
    rw [h.op_stab t hg ha, h.op_log t hg hb, antiE_map hg.df]
    exact hsl a ha b hb
  log_log i j a b ha hb := by
    rw [h.op_log t hg (List.mem_of_getElem? ha), h.op_log t hg (List.mem_of_getElem? hb), antiE_map hg.df]
    exact hll i j a b ha hb

theorem Ok.full (t : Option Nat) {g : LEdge → LEdge} (hg : Keeps g) (hs : ∀ a ∈ F.stabs, F.E a ≠ [])
    (hl : ∀ l ∈ F.logs, (F.logE.filter fun e => e.op = l.1) ≠ []) (h1 : F.stabs ≠ []) (h2 : F.logs ≠ [])
    (h3 : F.logs.length % 2 = 0) : (F.lat t g).Full where
  stab a ha := by
    rw [h.op_stab t hg ha]
    intro h0
    exact hs a ha (List.map_eq_nil_iff.mp h0)
  log a ha := by
    rw [h.op_log t hg ha]
    intro h0
    exact hl a ha (List.map_eq_nil_iff.mp h0)
  stab_ne := h1
  log_ne := h2
  log_even := h3

/-- Adding the edges of the stabilisers. -/
theorem Ok.add_stabEdges (L : Lattice) (hr : L.rows = F.rows) (hc : L.cols = F.cols) (hd : L.dataqubits = F.data) (he : L.edges = []) :
    loopE addE L (F.stabs.flatMap F.E) = .ok { L with edges := F.stabs.flatMap F.E } := by
  have hk := h.keys
  rw [edges, List.map_append, List.nodup_append] at hk
  rw [loop_edges _ _ (by
      intro e he
      obtain ⟨st, hst, he⟩ := List.mem_flatMap.mp he
      exact h.Enew st hst e he) (by
      intro e he
      obtain ⟨st, hst, he⟩ := List.mem_flatMap.mp he
      have hm := h.Edata st hst e he
      exact ⟨inB_of F.rows F.cols hr hc (h.inB _ hm), hd ▸ hm⟩) hk.1 (by simp [he]), he]
  rfl

/-- Adding the edges of the logical operators. -/
theorem Ok.add_logEdges (L : Lattice) (hr : L.rows = F.rows) (hc : L.cols = F.cols) (hd : L.dataqubits = F.data)
    (he : L.edges = F.stabs.flatMap F.E) : loopE addE L F.logE = .ok { L with edges := F.edges } := by
  have hk := h.keys
  rw [edges, List.map_append, List.nodup_append] at hk
  rw [loop_edges _ _ (by
      intro e he
      exact h.Lnew e he) (by
      intro e he
      have hm := h.Ldata e he
      exact ⟨inB_of F.rows F.cols hr hc (h.inB _ hm), hd ▸ hm⟩) hk.2.1 (by
      intro e hm hm'
      rw [he] at hm'
      exact hk.2.2 _ hm' _ (List.mem_map_of_mem hm) rfl), he]
  rfl

end Fam

end Plaquette
