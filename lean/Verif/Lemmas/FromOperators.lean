import Verif.Spec.FromOperators
import Verif.Lemmas.QecMain
import Verif.Lemmas.Grid

/-!
# The lattice of a code made from operators
-/

namespace Plaquette

/-- Two operators without their number of qubits in the type. -/
theorem anyOp_eq {m n : Nat} {a : Op m} {b : Op n} (h : m = n) (hx : ∀ (q : Nat) (h1 : q < m) (h2 : q < n), a.x ⟨q, h1⟩ = b.x ⟨q, h2⟩)
    (hz : ∀ (q : Nat) (h1 : q < m) (h2 : q < n), a.z ⟨q, h1⟩ = b.z ⟨q, h2⟩) (hr : a.r = b.r) : (⟨m, a⟩ : AnyOp) = ⟨n, b⟩ := by
  subst h
  have : a = b := by
    ext q
    · rw [hx q.val q.isLt q.isLt]
    · rw [hz q.val q.isLt q.isLt]
    · rw [hr]
  rw [this]

theorem anti_any {m n : Nat} {a a' : Op m} {b b' : Op n} (h : (⟨m, a⟩ : AnyOp) = ⟨n, b⟩) (h' : (⟨m, a'⟩ : AnyOp) = ⟨n, b'⟩) :
    anti a a' = anti b b' := by
  cases h
  cases h'
  rfl

namespace FromOps

variable {n : Nat}

/-- The letter of two bits. -/
def bits : Bool → Bool → Option Letter
  | false, false => none
  | true, false => some .X
  | false, true => some .Z
  | true, true => some .Y

/-- The edges of an operator at `p`. -/
def opE (p : Pos) (o : Op n) : List LEdge :=
  (List.finRange n).filterMap fun q => (bits (o.x q) (o.z q)).map fun l => mkEdge ((q.val : Int), 1) p l

/-- The places of the operators in column `c`. -/
def spot (c : Int) (e : Op n × Nat) : Pos := ((e.2 : Int), c)

/-- The names of the logical operators. -/
def nameAt (i : Nat) : List Char := (if i % 2 = 0 then 'X' else 'Z') :: Nat.toDigits 10 (i / 2)

def data (n : Nat) : List Pos := (List.range n).map fun (i : Nat) => ((i : Int), (1 : Int))
def stabs (S : List (Op n)) : List (Pos × StabGroup) := S.zipIdx.map fun e => (spot 0 e, .U)
def logs (T : List (Op n)) : List (Pos × List Char) := T.zipIdx.map fun e => (spot 2 e, nameAt e.2)
def edges (c : Int) (S : List (Op n)) : List LEdge := S.zipIdx.flatMap fun e => opE (spot c e) e.1

/-- The lattice before the indices are assigned. -/
def raw (S T : List (Op n)) : Lattice :=
  { Lattice.empty n 3 with dataqubits := data n, stabgens := stabs S, logicals := logs T, edges := edges 0 S ++ edges 2 T }

/-- The lattice. -/
def lat (S T : List (Op n)) : Lattice := (raw S T).assignIndices

theorem mem_data {p : Pos} : p ∈ data n ↔ ∃ i < n, p = ((i : Int), 1) := by
  simp only [data, List.mem_map, List.mem_range]
  exact ⟨fun ⟨i, h, e⟩ => ⟨i, h, e.symm⟩, fun ⟨i, h, e⟩ => ⟨i, h, e.symm⟩⟩

theorem mem_opE {p : Pos} {o : Op n} {e : LEdge} : e ∈ opE p o ↔ ∃ (q : Fin n) (l : Letter), bits (o.x q) (o.z q) = some l ∧
    e = mkEdge ((q.val : Int), 1) p l := by
  simp only [opE, List.mem_filterMap, List.mem_finRange, true_and, Option.map_eq_some_iff]
  exact ⟨fun ⟨q, l, h, e⟩ => ⟨q, l, h, e.symm⟩, fun ⟨q, l, h, e⟩ => ⟨q, l, h, e.symm⟩⟩

theorem opE_op {p : Pos} {o : Op n} {e : LEdge} (h : e ∈ opE p o) : e.op = p := by
  obtain ⟨q, l, _, rfl⟩ := mem_opE.1 h
  rfl

theorem opE_step {p : Pos} {o : Op n} {e : LEdge} (h : e ∈ opE p o) : e.step = none := by
  obtain ⟨q, l, _, rfl⟩ := mem_opE.1 h
  rfl

theorem opE_data {p : Pos} {o : Op n} {e : LEdge} (h : e ∈ opE p o) : e.data ∈ data n := by
  obtain ⟨q, l, _, rfl⟩ := mem_opE.1 h
  exact mem_data.2 ⟨q.val, q.isLt, rfl⟩

theorem opE_nodup (p : Pos) (o : Op n) : ((opE p o).map LEdge.data).Nodup := by
  unfold opE
  refine filterMap_data_nodup (List.nodup_finRange n) ?_
  intro a b x y hx hy hxy
  rw [Option.map_eq_some_iff] at hx hy
  obtain ⟨_, _, rfl⟩ := hx
  obtain ⟨_, _, rfl⟩ := hy
  simpa [mkEdge, Fin.ext_iff] using hxy

theorem spot_nodup (c : Int) (S : List (Op n)) (k : Nat) : ((S.zipIdx k).map (spot c)).Nodup := by
  have h : (S.zipIdx k).map (spot c) = ((S.zipIdx k).map Prod.snd).map fun (i : Nat) => ((i : Int), c) := by
    rw [List.map_map]; rfl
  rw [h, List.zipIdx_map_snd]
  exact (List.nodup_range').map fun a b h => by simpa using h

theorem edges_nodup (S T : List (Op n)) : ((edges 0 S ++ edges 2 T).map LEdge.key).Nodup := by
  rw [List.map_append, List.nodup_append]
  refine ⟨keys_nodup (spot_nodup _ _ _) (fun a _ e he => opE_op he) (fun a _ => opE_nodup _ _),
    keys_nodup (spot_nodup _ _ _) (fun a _ e he => opE_op he) (fun a _ => opE_nodup _ _), ?_⟩
  rintro k hk _ hk' rfl
  simp only [edges, List.map_flatMap, List.mem_flatMap, List.mem_map] at hk hk'
  obtain ⟨a, _, e, he, rfl⟩ := hk
  obtain ⟨b, _, e', he', h⟩ := hk'
  have h1 := congrArg Prod.fst h
  simp only [LEdge.key, opE_op he, opE_op he', spot, Prod.mk.injEq] at h1
  omega

/-! ### The constructor -/

theorem zipIdx_main (o : Op n) : (mainChars o).zipIdx = (List.finRange n).map fun q => (letterChar (o.x q) (o.z q), q.val) := by
  refine List.ext_getElem (by simp [mainChars]) fun i h1 h2 => ?_
  simp [mainChars]

theorem addEdgesFromStr_eq (L : Lattice) (p : Pos) (o : Op n) :
    L.addEdgesFromStr n p (pauliToString o true) = loopE addE L (opE p o) := by
  have hb : (if (if o.r then '-' else '+') = '+' ∨ (if o.r then '-' else '+') = '-' then mainChars o
      else (if o.r then '-' else '+') :: mainChars o) = mainChars o := by
    cases o.r <;> simp
  simp only [pauliToString, if_true, Lattice.addEdgesFromStr, hb]
  rw [if_neg (by simp [mainChars]), zipIdx_main, loopE_map, opE, loopE_filterMap]
  refine loopE_congr _ _ fun L q _ => ?_
  cases o.x q <;> cases o.z q <;> rfl

/-- A logical operator with its edges is added. -/
def addLogEdges (L : Lattice) (s : (Pos × List Char) × List LEdge) : Except Err Lattice := do
  let L ← L.addLogical s.1.1 s.1.2
  loopE addE L s.2

theorem loop_logEdges (ss : List ((Pos × List Char) × List LEdge)) (L : Lattice)
    (hb : ∀ s ∈ ss, L.InB s.1.1) (hn : (ss.map fun s => s.1.1).Nodup) (hd : ∀ s ∈ ss, s.1.1 ∉ L.occupied)
    (hstep : ∀ s ∈ ss, ∀ e ∈ s.2, e.step = none)
    (heb : ∀ s ∈ ss, ∀ e ∈ s.2, L.InB e.data ∧ e.data ∈ L.dataqubits)
    (hk : ((ss.flatMap Prod.snd).map LEdge.key).Nodup)
    (hkd : ∀ s ∈ ss, ∀ e ∈ s.2, e.key ∉ L.edges.map LEdge.key) :
    loopE addLogEdges L ss =
      .ok { L with logicals := L.logicals ++ ss.map Prod.fst, edges := L.edges ++ ss.flatMap Prod.snd } := by
  induction ss generalizing L with
  | nil => simp
  | cons s ss ih =>
    simp only [List.map_cons, List.nodup_cons] at hn
    simp only [List.flatMap_cons, List.map_append] at hk
    rw [List.nodup_append] at hk
    rw [loopE_cons, addLogEdges, addLogical_ok _ (hb s (by simp)) (hd s (by simp))]
    simp only [bind, Except.bind]
    rw [loop_edges s.2]
    · simp only
      rw [ih]
      · simp
      · intro t ht; exact hb t (by simp [ht])
      · exact hn.2
      · intro t ht hm
        apply hd t (by simp [ht])
        simp only [Lattice.occupied, List.mem_append, List.map_append, List.map_cons, List.map_nil,
          List.mem_singleton] at hm ⊢
        rcases hm with (h | h) | h | h
        · tauto
        · tauto
        · tauto
        · exact absurd (List.mem_map_of_mem (f := fun s => s.1.1) ht) (by rw [h]; exact hn.1)
      · intro t ht; exact hstep t (by simp [ht])
      · intro t ht; exact heb t (by simp [ht])
      · exact hk.2.1
      · intro t ht e he hm
        simp only [List.map_append, List.mem_append] at hm
        rcases hm with h | h
        · exact hkd t (by simp [ht]) e he h
        · refine hk.2.2 _ h _ ?_ rfl
          exact List.mem_map_of_mem (f := LEdge.key) (List.mem_flatMap.mpr ⟨t, ht, he⟩)
    · exact hstep s (by simp)
    · exact heb s (by simp)
    · exact hk.1
    · exact hkd s (by simp)

/-- The lattice with the data qubits. -/
def base (n : Nat) : Lattice := { Lattice.empty n 3 with dataqubits := data n }

theorem make_base (n : Nat) : loopE (fun L (i : Nat) => L.addData ((i : Int), 1)) (Lattice.empty n 3) (List.range n) = .ok (base n) := by
  have := loop_cells ((List.range n).map fun (i : Nat) => (((i : Int), (1 : Int)), none)) (Lattice.empty n 3) (by
      intro c hc
      simp only [List.mem_map, List.mem_range] at hc
      obtain ⟨i, hi, rfl⟩ := hc
      refine ⟨?_, ?_, ?_, ?_⟩ <;> simp [Lattice.empty] <;> omega)
    (by rw [List.map_map]; exact List.nodup_range.map (fun a b h => by simpa using h))
    (by simp [Lattice.empty, Lattice.occupied])
  rw [loopE_map] at this
  simp only [addCell] at this
  rw [this]
  simp [base, Lattice.empty, cellData, cellStabs, data, List.filterMap_map]

theorem mem_zip {S : List (Op n)} {e : Op n × Nat} (h : e ∈ S.zipIdx) : e.2 < S.length ∧ e.1 ∈ S := by
  obtain ⟨h1, h2⟩ := List.mem_zipIdx' h
  exact ⟨h1, h2 ▸ List.getElem_mem _⟩

theorem spot_inB {L : Lattice} (hr : L.rows = n) (hc : L.cols = 3) {c : Int} (h0 : 0 ≤ c) (h3 : c < 3) {e : Op n × Nat}
    (h : e.2 < n) : L.InB (spot c e) := by
  refine ⟨?_, ?_, ?_, ?_⟩ <;> simp only [spot] <;> omega

theorem data_inB {L : Lattice} (hr : L.rows = n) (hc : L.cols = 3) {p : Pos} (hp : p ∈ data n) : L.InB p := by
  obtain ⟨i, hi, rfl⟩ := mem_data.1 hp
  refine ⟨?_, ?_, ?_, ?_⟩ <;> simp only <;> omega

/-- The loop over the stabilisers. -/
theorem make_stabs (S : List (Op n)) (hS : S.length ≤ n) :
    loopE (fun L (e : List Char × Nat) => do
      let L ← Lattice.addStabgen L ((e.2 : Int), 0) .U
      L.addEdgesFromStr n ((e.2 : Int), 0) e.1) (base n) (S.map fun s => pauliToString s true).zipIdx =
      .ok { base n with stabgens := stabs S, edges := edges 0 S } := by
  have h := loop_stabEdges (S.zipIdx.map fun e => ((spot 0 e, .U), opE (spot 0 e) e.1)) (base n)
    (by
      intro c hc
      obtain ⟨e, he, rfl⟩ := List.mem_map.1 hc
      exact spot_inB rfl rfl (by omega) (by omega) (lt_of_lt_of_le (mem_zip he).1 (by assumption)))
    (by rw [List.map_map]; exact spot_nodup 0 S 0)
    (by
      intro c hc hm
      obtain ⟨e, he, rfl⟩ := List.mem_map.1 hc
      simp only [base, Lattice.occupied, Lattice.empty, List.map_nil, List.append_nil, mem_data, spot] at hm
      obtain ⟨i, _, hi⟩ := hm
      simp at hi)
    (by
      intro c hc e he
      obtain ⟨_, _, rfl⟩ := List.mem_map.1 hc
      exact opE_step he)
    (by
      intro c hc e he
      obtain ⟨_, _, rfl⟩ := List.mem_map.1 hc
      exact ⟨data_inB rfl rfl (opE_data he), opE_data he⟩)
    (by
      rw [List.flatMap_map]
      have := edges_nodup S ([] : List (Op n))
      simpa [edges] using this)
    (by simp [base, Lattice.empty])
  rw [loopE_map] at h
  rw [List.zipIdx_map, loopE_map]
  refine (loopE_congr _ _ fun L e _ => ?_).trans (h.trans ?_)
  · simp only [addStabEdges, Prod.map, id, addEdgesFromStr_eq]
    rfl
  · simp [base, Lattice.empty, stabs, edges, List.map_map, List.flatMap_map, Function.comp_def]

/-- The loop over the logical operators. -/
theorem make_logs (S T : List (Op n)) (hT : T.length ≤ n) :
    loopE (fun L (e : List Char × Nat) => do
      let L ← Lattice.addLogical L ((e.2 : Int), 2) ((if e.2 % 2 = 0 then 'X' else 'Z') :: Nat.toDigits 10 (e.2 / 2))
      L.addEdgesFromStr n ((e.2 : Int), 2) e.1) { base n with stabgens := stabs S, edges := edges 0 S }
        (T.map fun s => pauliToString s true).zipIdx = .ok (raw S T) := by
  have h := loop_logEdges (T.zipIdx.map fun e => ((spot 2 e, nameAt e.2), opE (spot 2 e) e.1))
    { base n with stabgens := stabs S, edges := edges 0 S }
    (by
      intro c hc
      obtain ⟨e, he, rfl⟩ := List.mem_map.1 hc
      exact spot_inB rfl rfl (by omega) (by omega) (lt_of_lt_of_le (mem_zip he).1 (by assumption)))
    (by rw [List.map_map]; exact spot_nodup 2 T 0)
    (by
      intro c hc hm
      obtain ⟨e, he, rfl⟩ := List.mem_map.1 hc
      simp only [base, Lattice.occupied, Lattice.empty, List.map_nil, List.append_nil, List.mem_append, mem_data, spot, stabs,
        List.map_map, List.mem_map] at hm
      rcases hm with ⟨i, _, hi⟩ | ⟨i, _, hi⟩
      · simp at hi
      · simp at hi)
    (by
      intro c hc e he
      obtain ⟨_, _, rfl⟩ := List.mem_map.1 hc
      exact opE_step he)
    (by
      intro c hc e he
      obtain ⟨_, _, rfl⟩ := List.mem_map.1 hc
      exact ⟨data_inB rfl rfl (opE_data he), opE_data he⟩)
    (by
      rw [List.flatMap_map]
      have := edges_nodup ([] : List (Op n)) T
      simpa [edges] using this)
    (by
      intro c hc e he hm
      obtain ⟨t, ht, rfl⟩ := List.mem_map.1 hc
      have := edges_nodup S T
      rw [List.map_append, List.nodup_append] at this
      exact this.2.2 _ hm _ (List.mem_map_of_mem (List.mem_flatMap.2 ⟨t, ht, he⟩)) rfl)
  rw [loopE_map] at h
  rw [List.zipIdx_map, loopE_map]
  refine (loopE_congr _ _ fun L e _ => ?_).trans (h.trans ?_)
  · simp only [addLogEdges, Prod.map, id, addEdgesFromStr_eq]
    rfl
  · simp [base, raw, Lattice.empty, logs, edges, List.map_map, List.flatMap_map, Function.comp_def]

/-- **The lattice made from operators.** -/
theorem make (S T : List (Op n)) (hS : S.length ≤ n) (hT : T.length ≤ n) :
    fromStabLattice n (S.map fun s => pauliToString s true) (T.map fun s => pauliToString s true) = .ok (lat S T) := by
  unfold fromStabLattice
  dsimp only
  rw [make_base, ok_bind, make_stabs S hS, ok_bind, make_logs S T hT, ok_bind]
  rfl

theorem loop_error {σ α : Type} {f : σ → α → Except Err σ} {s s' : σ} {as bs : List α} {b : α} {e : Err} (h : loopE f s as = .ok s')
    (hb : f s' b = .error e) : loopE f s (as ++ b :: bs) = .error e := by
  rw [loopE_append, h, ok_bind, loopE_cons, hb]
  rfl

theorem addStabgen_out {L : Lattice} {i : Nat} {c : Int} {g : StabGroup} (h0 : 0 ≤ c) (h : L.rows ≤ i) :
    L.addStabgen ((i : Int), c) g = .error .indexError := by
  rw [Lattice.addStabgen, Lattice.assertFree, Lattice.access, if_neg (by simp only; omega), if_pos (by left; simpa using h)]

theorem addLogical_out {L : Lattice} {i : Nat} {c : Int} {g : List Char} (h0 : 0 ≤ c) (h : L.rows ≤ i) :
    L.addLogical ((i : Int), c) g = .error .indexError := by
  rw [Lattice.addLogical, Lattice.assertFree, Lattice.access, if_neg (by simp only; omega), if_pos (by left; simpa using h)]

theorem split_zip (S : List (Op n)) (hS : n < S.length) : ∃ b rest, (S.map fun s => pauliToString s true).zipIdx =
    ((S.take n).map fun s => pauliToString s true).zipIdx ++ (b, n) :: rest := by
  have h : S = S.take n ++ S[n] :: S.drop (n + 1) := by
    rw [← List.drop_eq_getElem_cons hS, List.take_append_drop]
  refine ⟨pauliToString S[n] true, ((S.drop (n + 1)).map fun s => pauliToString s true).zipIdx (n + 1), ?_⟩
  conv_lhs => rw [h]
  rw [List.map_append, List.zipIdx_append, List.map_cons, List.zipIdx_cons]
  simp [Nat.min_eq_left (le_of_lt hS)]

/-- More stabilisers or logical operators than qubits have no place in the array. -/
theorem make_out (S T : List (Op n)) (h : n < S.length ∨ n < T.length) :
    fromStabLattice n (S.map fun s => pauliToString s true) (T.map fun s => pauliToString s true) = .error .indexError := by
  unfold fromStabLattice
  dsimp only
  rw [make_base, ok_bind]
  by_cases hS : S.length ≤ n
  · rw [make_stabs S hS, ok_bind]
    obtain ⟨b, rest, hs⟩ := split_zip T (h.resolve_left (by omega))
    rw [hs, loop_error (make_logs S (T.take n) (by simp)) (e := .indexError)]
    · rfl
    · rw [addLogical_out (by omega) (by simp [raw, Lattice.empty])]
      rfl
  · obtain ⟨b, rest, hs⟩ := split_zip S (by omega)
    rw [hs, loop_error (make_stabs (S.take n) (by simp)) (e := .indexError)]
    · rfl
    · rw [addStabgen_out (by omega) (by simp [base, Lattice.empty])]
      rfl

/-! ### Its operators -/

theorem wf (S T : List (Op n)) : (lat S T).Wf where
  occ := by
    show (data n ++ (stabs S).map Prod.fst ++ (logs T).map Prod.fst).Nodup
    have e1 : (stabs S).map Prod.fst = S.zipIdx.map (spot 0) := by rw [stabs, List.map_map]; rfl
    have e2 : (logs T).map Prod.fst = T.zipIdx.map (spot 2) := by rw [logs, List.map_map]; rfl
    have hd : (data n).Nodup := List.nodup_range.map (fun a b h => by simpa using h)
    have c0 : ∀ p ∈ data n, p.2 = 1 := fun p hp => by obtain ⟨_, _, rfl⟩ := mem_data.1 hp; rfl
    have cs : ∀ (c : Int) (S : List (Op n)), ∀ p ∈ S.zipIdx.map (spot c), p.2 = c := fun c S p hp => by
      obtain ⟨_, _, rfl⟩ := List.mem_map.1 hp; rfl
    rw [e1, e2, List.nodup_append, List.nodup_append]
    refine ⟨⟨hd, spot_nodup _ _ _, ?_⟩, spot_nodup _ _ _, ?_⟩
    · rintro p hp _ hq rfl
      have := c0 p hp; have := cs 0 S p hq; omega
    · rintro p hp _ hq rfl
      have := cs 2 T p hq
      rcases List.mem_append.1 hp with hp | hp
      · have := c0 p hp; omega
      · have := cs 0 S p hp; omega
  indexed := rfl
  keys := edges_nodup S T
  data := by
    intro e he
    have he : e ∈ edges 0 S ++ edges 2 T := he
    show e.data ∈ data n
    rcases List.mem_append.1 he with he | he
    · obtain ⟨_, _, he⟩ := List.mem_flatMap.1 he
      exact opE_data he
    · obtain ⟨_, _, he⟩ := List.mem_flatMap.1 he
      exact opE_data he

theorem no_op {c c' : Int} (hc : c ≠ c') (T : List (Op n)) (e : Op n × Nat) : (edges c' T).filter (fun f => f.op = spot c e) = [] := by
  rw [List.filter_eq_nil_iff]
  intro f hf
  obtain ⟨_, _, hf⟩ := List.mem_flatMap.1 hf
  simp only [decide_eq_true_eq, opE_op hf, spot, Prod.mk.injEq, not_and]
  exact fun _ h => hc h.symm

theorem op_stab (S T : List (Op n)) {e : Op n × Nat} (he : e ∈ S.zipIdx) : (lat S T).opEdges (spot 0 e) = opE (spot 0 e) e.1 := by
  show (edges 0 S ++ edges 2 T).filter (fun f => f.op = spot 0 e) = _
  rw [List.filter_append, no_op (c' := 2) (by omega), List.append_nil]
  exact filter_flatMap_op (spot_nodup 0 S 0) (fun a _ f hf => opE_op hf) he

theorem op_log (S T : List (Op n)) {e : Op n × Nat} (he : e ∈ T.zipIdx) : (lat S T).opEdges (spot 2 e) = opE (spot 2 e) e.1 := by
  show (edges 0 S ++ edges 2 T).filter (fun f => f.op = spot 2 e) = _
  rw [List.filter_append, no_op (c' := 0) (by omega), List.nil_append]
  exact filter_flatMap_op (spot_nodup 2 T 0) (fun a _ f hf => opE_op hf) he

theorem length_data (S T : List (Op n)) : (lat S T).dataqubits.length = n := by
  show (data n).length = n
  simp [data]

theorem idx_data (S T : List (Op n)) {q : Nat} (hq : q < n) : (lat S T).idx ((q : Int), 1) = q := by
  rw [(wf S T).idx_data (mem_data.2 ⟨q, hq, rfl⟩)]
  have h : (data n)[q]'(by simp [data]; exact hq) = ((q : Int), 1) := by simp [data]
  show (data n).idxOf _ = q
  rw [← h]
  exact List.Nodup.idxOf_getElem (List.nodup_range.map (fun a b h => by simpa using h)) _ _

theorem xorSum_opE (p : Pos) (o : Op n) (idx : Pos → Nat) (hidx : ∀ q < n, idx ((q : Int), 1) = q) (q : Nat) (hq : q < n)
    (f : Letter → Bool) : xorSum (opE p o) (fun e => decide (idx e.data = q) && f e.factor) = ((bits (o.x ⟨q, hq⟩) (o.z ⟨q, hq⟩)).elim false f) := by
  unfold opE
  rw [xorSum_filterMap, xorSum_unique (List.mem_finRange (⟨q, hq⟩ : Fin n)) (List.nodup_finRange n)]
  · cases h : bits (o.x ⟨q, hq⟩) (o.z ⟨q, hq⟩) with
    | none => simp
    | some l => simp [mkEdge, hidx q hq]
  · intro b _ hb
    cases h : bits (o.x b) (o.z b) with
    | none => simp
    | some l =>
      simp only [Option.map_some, mkEdge, hidx b.val b.isLt]
      have : b.val ≠ q := fun h => hb (Fin.ext h)
      simp [this]

theorem vop_eq {S T : List (Op n)} {p : Pos} {o : Op n} (h : (lat S T).opEdges p = opE p o) :
    (⟨(lat S T).dataqubits.length, (lat S T).vop p⟩ : AnyOp) = ⟨n, o.plus⟩ := by
  refine anyOp_eq (length_data S T) (fun q h1 h2 => ?_) (fun q h1 h2 => ?_) rfl
  · show xorSum ((lat S T).opEdges p) _ = _
    rw [h, xorSum_opE p o _ (fun q hq => idx_data S T hq) q h2 Letter.hasX]
    show _ = o.x ⟨q, h2⟩
    cases o.x ⟨q, h2⟩ <;> cases o.z ⟨q, h2⟩ <;> rfl
  · show xorSum ((lat S T).opEdges p) _ = _
    rw [h, xorSum_opE p o _ (fun q hq => idx_data S T hq) q h2 Letter.hasZ]
    show _ = o.z ⟨q, h2⟩
    cases o.x ⟨q, h2⟩ <;> cases o.z ⟨q, h2⟩ <;> rfl

theorem code_stabs (S T : List (Op n)) : (lat S T).code.stabilisers.map (fun s => (⟨_, s⟩ : AnyOp)) = S.map fun s => ⟨n, s.plus⟩ := by
  show List.map _ (List.map _ (stabs S)) = _
  rw [stabs, List.map_map, List.map_map]
  have : S.map (fun s => (⟨n, s.plus⟩ : AnyOp)) = (S.zipIdx.map Prod.fst).map fun s => ⟨n, s.plus⟩ := by rw [List.zipIdx_map_fst]
  rw [this, List.map_map]
  exact List.map_congr_left fun e he => vop_eq (op_stab S T he)

theorem code_logs (S T : List (Op n)) : (lat S T).code.logicalOps.map (fun s => (⟨_, s⟩ : AnyOp)) = T.map fun s => ⟨n, s.plus⟩ := by
  show List.map _ (List.map _ (logs T)) = _
  rw [logs, List.map_map, List.map_map]
  have : T.map (fun s => (⟨n, s.plus⟩ : AnyOp)) = (T.zipIdx.map Prod.fst).map fun s => ⟨n, s.plus⟩ := by rw [List.zipIdx_map_fst]
  rw [this, List.map_map]
  exact List.map_congr_left fun e he => vop_eq (op_log S T he)

theorem opE_ne {p : Pos} {o : Op n} (h : ∃ q, o.x q = true ∨ o.z q = true) : opE p o ≠ [] := by
  obtain ⟨q, hq⟩ := h
  obtain ⟨l, hl⟩ : ∃ l, bits (o.x q) (o.z q) = some l := by
    rcases hq with h | h <;> rw [h]
    · cases o.z q <;> exact ⟨_, rfl⟩
    · cases o.x q <;> exact ⟨_, rfl⟩
  exact List.ne_nil_of_mem (mem_opE.2 ⟨q, l, hl, rfl⟩)

theorem stabs_mem {S : List (Op n)} {s : Pos × StabGroup} (h : s ∈ stabs S) : ∃ e ∈ S.zipIdx, s.1 = spot 0 e := by
  obtain ⟨e, he, rfl⟩ := List.mem_map.1 h
  exact ⟨e, he, rfl⟩

theorem logs_mem {T : List (Op n)} {s : Pos × List Char} (h : s ∈ logs T) : ∃ e ∈ T.zipIdx, s.1 = spot 2 e := by
  obtain ⟨e, he, rfl⟩ := List.mem_map.1 h
  exact ⟨e, he, rfl⟩

theorem full {S T : List (Op n)} (hS : S ≠ []) (hT : T ≠ []) (he : T.length % 2 = 0) (h1 : ∀ s ∈ S, s.Acts) (h2 : ∀ s ∈ T, s.Acts) :
    (lat S T).Full where
  stab s hs := by
    obtain ⟨e, he, hse⟩ := stabs_mem hs
    rw [hse, op_stab S T he]
    exact opE_ne (h1 _ (mem_zip he).2)
  log s hs := by
    obtain ⟨e, he, hse⟩ := logs_mem hs
    rw [hse, op_log S T he]
    exact opE_ne (h2 _ (mem_zip he).2)
  stab_ne := by
    show stabs S ≠ []
    simpa [stabs] using hS
  log_ne := by
    show logs T ≠ []
    simpa [logs] using hT
  log_even := by
    show (logs T).length % 2 = 0
    simpa [logs] using he

theorem comm {S T : List (Op n)} (hv : (⟨S, T⟩ : StabCode n).Valid) : (lat S T).Comm where
  stab_stab s hs t ht := by
    obtain ⟨e, he, hse⟩ := stabs_mem hs
    obtain ⟨f, hf, htf⟩ := stabs_mem ht
    rw [hse, htf, ← (wf S T).anti_vop, anti_any (vop_eq (op_stab S T he)) (vop_eq (op_stab S T hf))]
    show anti e.1 f.1 = false
    exact (commutes_iff _ _).1 (hv.stab_stab _ (mem_zip he).2 _ (mem_zip hf).2)
  stab_log s hs t ht := by
    obtain ⟨e, he, hse⟩ := stabs_mem hs
    obtain ⟨f, hf, htf⟩ := logs_mem ht
    rw [hse, htf, ← (wf S T).anti_vop, anti_any (vop_eq (op_stab S T he)) (vop_eq (op_log S T hf))]
    show anti e.1 f.1 = false
    exact (commutes_iff _ _).1 (hv.stab_log _ (mem_zip he).2 _ (mem_zip hf).2)
  log_log i j a b ha hb := by
    have ha : (logs T)[i]? = some a := ha
    have hb : (logs T)[j]? = some b := hb
    simp only [logs, List.getElem?_map, List.getElem?_zipIdx, Option.map_eq_some_iff] at ha hb
    obtain ⟨e, ⟨a', ha', rfl⟩, rfl⟩ := ha
    obtain ⟨f, ⟨b', hb', rfl⟩, rfl⟩ := hb
    have he : (a', 0 + i) ∈ T.zipIdx := by rw [List.mk_mem_zipIdx_iff_getElem?]; simpa using ha'
    have hf : (b', 0 + j) ∈ T.zipIdx := by rw [List.mk_mem_zipIdx_iff_getElem?]; simpa using hb'
    rw [← (wf S T).anti_vop, anti_any (vop_eq (op_log S T he)) (vop_eq (op_log S T hf))]
    have h := hv.log_log i j a' b' ha' hb'
    show anti a' b' = _
    split_ifs at h with hij
    · rw [(anticommutes_iff _ _).1 h, decide_eq_true hij]
    · rw [(commutes_iff _ _).1 h, decide_eq_false hij]

theorem sched {S T : List (Op n)} (h1 : ∀ s ∈ S, s.NoY) (h2 : ∀ s ∈ T, s.NoY) : (lat S T).Sched where
  noY e he := by
    have he : e ∈ edges 0 S ++ edges 2 T := he
    have key : ∀ {p : Pos} {o : Op n}, o.NoY → e ∈ opE p o → e.factor ≠ .Y := by
      intro p o ho h
      obtain ⟨q, l, hl, rfl⟩ := mem_opE.1 h
      have := ho q
      show l ≠ .Y
      rintro rfl
      revert this hl
      cases o.x q <;> cases o.z q <;> simp [bits]
    rcases List.mem_append.1 he with he | he
    · obtain ⟨f, hf, he⟩ := List.mem_flatMap.1 he
      exact key (h1 _ (mem_zip hf).2) he
    · obtain ⟨f, hf, he⟩ := List.mem_flatMap.1 he
      exact key (h2 _ (mem_zip hf).2) he
  steps := .inl rfl

theorem logs_act {S T : List (Op n)} (hv : (⟨S, T⟩ : StabCode n).Valid) (he : T.length % 2 = 0) : ∀ s ∈ T, s.Acts := by
  intro s hs
  obtain ⟨i, hi, rfl⟩ := List.getElem_of_mem hs
  obtain ⟨j, hj, hij⟩ : ∃ j < T.length, i / 2 = j / 2 ∧ i ≠ j := by
    by_cases h : i % 2 = 0
    · exact ⟨i + 1, by omega, by omega, by omega⟩
    · exact ⟨i - 1, by omega, by omega, by omega⟩
  have h := hv.log_log i j _ _ (List.getElem?_eq_getElem hi) (List.getElem?_eq_getElem hj)
  rw [if_pos hij] at h
  have h1 := (anticommutes_iff _ _).1 h
  by_contra hn
  have hx : ∀ q, T[i].x q = false ∧ T[i].z q = false := by
    intro q
    constructor <;> rw [Bool.eq_false_iff] <;> intro hq
    · exact hn ⟨q, .inl hq⟩
    · exact hn ⟨q, .inr hq⟩
  have h0 : anti T[i] T[j] = false := by
    rw [show T[i] = ⟨fun _ => false, fun _ => false, T[i].r⟩ from by
      ext q
      · rw [(hx q).1]
      · rw [(hx q).2]
      · rfl]
    simp [anti, bit]
  rw [h0] at h1
  cases h1

theorem start (S T : List (Op n)) (hS : S ≠ []) (r : Nat) : fromOperators (arrays S) (arrays T) r =
    match fromStabLattice n (S.map fun s => pauliToString s true) (T.map fun s => pauliToString s true) with
    | .error e => .error e
    | .ok L => mkLatCode L r := by
  cases S with
  | nil => exact absurd rfl hS
  | cons a S =>
    simp only [arrays, List.map_cons, fromOperators, List.map_map, Function.comp_def]
    rfl

/-- Which operators are accepted. -/
theorem accepts (S T : List (Op n)) (hS : S ≠ []) (r : Nat) :
    (T ≠ [] ∧ T.length % 2 = 0 ∧ S.length ≤ n ∧ T.length ≤ n ∧ (∀ s ∈ S, s.Acts) ∧ (∀ s ∈ T, s.Acts) →
      fromOperators (arrays S) (arrays T) r = .ok ((lat S T).latCode r)) ∧
    (∀ c, fromOperators (arrays S) (arrays T) r = .ok c →
      T ≠ [] ∧ T.length % 2 = 0 ∧ S.length ≤ n ∧ T.length ≤ n ∧ (∀ s ∈ S, s.Acts) ∧ (∀ s ∈ T, s.Acts)) := by
  have h0 := start S T hS r
  constructor
  · rintro ⟨h1, h2, h3, h4, h5, h6⟩
    rw [h0, make S T h3 h4]
    exact mkLatCode_ok (wf S T) (full hS h1 h2 h5 h6) r
  · intro c hc
    rw [h0] at hc
    by_cases hl : S.length ≤ n ∧ T.length ≤ n
    · rw [make S T hl.1 hl.2] at hc
      obtain ⟨hf, _⟩ := mkLatCode_inv (wf S T) hc
      refine ⟨?_, ?_, hl.1, hl.2, ?_, ?_⟩
      · have : logs T ≠ [] := hf.log_ne
        simpa [logs] using this
      · have : (logs T).length % 2 = 0 := hf.log_even
        simpa [logs] using this
      · intro s hs
        obtain ⟨i, hi, rfl⟩ := List.getElem_of_mem hs
        have he : (S[i], i) ∈ S.zipIdx := by rw [List.mk_mem_zipIdx_iff_getElem?]; simp [hi]
        have := hf.stab (spot 0 (S[i], i), .U) (List.mem_map.2 ⟨_, he, rfl⟩)
        rw [op_stab S T he] at this
        obtain ⟨e, he⟩ := List.exists_mem_of_ne_nil _ this
        obtain ⟨q, l, hl, _⟩ := mem_opE.1 he
        refine ⟨q, ?_⟩
        revert hl
        cases S[i].x q <;> cases S[i].z q <;> simp [bits]
      · intro s hs
        obtain ⟨i, hi, rfl⟩ := List.getElem_of_mem hs
        have he : (T[i], i) ∈ T.zipIdx := by rw [List.mk_mem_zipIdx_iff_getElem?]; simp [hi]
        have := hf.log (spot 2 (T[i], i), nameAt i) (List.mem_map.2 ⟨_, he, rfl⟩)
        rw [op_log S T he] at this
        obtain ⟨e, he⟩ := List.exists_mem_of_ne_nil _ this
        obtain ⟨q, l, hl, _⟩ := mem_opE.1 he
        refine ⟨q, ?_⟩
        revert hl
        cases T[i].x q <;> cases T[i].z q <;> simp [bits]
    · rw [make_out S T (by omega)] at hc
      cases hc

end FromOps

end Plaquette
