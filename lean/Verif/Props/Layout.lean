import Verif.Lemmas.Unpack
import Verif.Props.Generator
import Verif.Props.Sim

/-!
# Unpacking the results of the generated circuits (C27, C62)
-/

namespace Plaquette
variable {F : Type}

/-! ### C27: the results of measurements -/

/-- **C27**: the results of a generated circuit, with any errors, are unpacked into the blocks of the circuit. -/
def C27_statement : Prop := ∀ (F : Type) (api : FloatApi F) (r : Nat) (c : LatCode) (qe ge : List (List Char × ErrDict F)) (sel : LogicalSel)
  (anc : Bool) (circ : List (Gate F)) (raw : List Bool), 1 ≤ r → Made r c → generateCircuit api c qe ge sel anc = .ok circ →
  raw.length = (measuredQubits circ).length →
  ∃ lq s, MeasureLayout c sel anc circ lq ∧ Sample.fromRaw c raw none anc = .ok s ∧ Unpacked c lq raw s

/-- **C27, the circuit**: whatever the errors, the generated circuit measures the chosen logical operators, `n_rounds + 1`
rounds of all stabilisers and the logical operators again, in this order. -/
theorem C27_layout (api : FloatApi F) (r : Nat) (c : LatCode) (qe ge : List (List Char × ErrDict F)) (sel : LogicalSel) (anc : Bool)
    (circ : List (Gate F)) (hr : 1 ≤ r) (hm : Made r c) (h : generateCircuit api c qe ge sel anc = .ok circ) : ∃ lq, MeasureLayout c sel anc circ lq := by
  obtain ⟨L, rfl, hw, _, _, _⟩ := hm.lattice
  obtain ⟨is, _, hl⟩ := layout_of hw hr h
  exact ⟨_, hl⟩

/-- **C27, the run**: every run of the circuit has one result for every measured qubit, and one flag for every qubit that may
be erased. -/
theorem C27_run (api : FloatApi F) (rng : Rng F) (r n pos : Nat) (c : LatCode) (qe ge : List (List Char × ErrDict F)) (sel : LogicalSel)
    (anc : Bool) (circ : List (Gate F)) (hm : Made r c) (h : generateCircuit api c qe ge sel anc = .ok circ) (S : Sim n)
    (hS : (Sim.fresh n pos).run api rng circ true = .ok S) :
    S.results.1.length = (measuredQubits circ).length ∧
      S.results.2 = (if erasableQubits circ = [] then none else some S.erasure) ∧ S.erasure.length = (erasableQubits circ).length := by
  obtain ⟨L, rfl, hw, _, _, hs⟩ := hm.lattice
  obtain ⟨⟨calls, hc⟩, h2, h3⟩ := run_lengths hw hs h
  obtain ⟨k1, k2⟩ := C20_counts api rng calls circ hc h2 h3 pos S hS
  rw [measured_number] at k1
  rw [erase_number hw h] at k2
  refine ⟨k1, ?_, k2⟩
  unfold Sim.results
  dsimp only
  by_cases he : erasableQubits circ = []
  · rw [if_pos he, if_neg (by rw [k2, he]; simp)]
  · rw [if_neg he, if_pos (by rw [k2]; exact List.length_pos_iff.mpr he)]

/-- The number of results of a generated circuit. -/
def rawLength (api : FloatApi F) (c : LatCode) (qe : List (List Char × ErrDict F)) (sel : LogicalSel) (anc : Bool) : Except Err (Nat × Nat) :=
  match generateCircuit api c qe [] sel anc with
  | .error e => .error e
  | .ok circ => .ok ((measuredQubits circ).length, (erasableQubits circ).length)

theorem rawLength_inv {api : FloatApi F} {c : LatCode} {qe : List (List Char × ErrDict F)} {sel : LogicalSel} {anc : Bool} {k l : Nat}
    (h : rawLength api c qe sel anc = .ok (k, l)) :
    ∃ circ, generateCircuit api c qe [] sel anc = .ok circ ∧ (measuredQubits circ).length = k ∧ (erasableQubits circ).length = l := by
  unfold rawLength at h
  split at h
  · cases h
  · next circ hc =>
    simp only [Except.ok.injEq, Prod.mk.injEq] at h
    exact ⟨circ, hc, h.1, h.2⟩

set_option maxRecDepth 100000 in
/-- **C27 fails** for the logical Z of the repetition code without ancilla: the unpacking takes the weight of the first
logical operator X (three qubits) for all operators, but only one qubit was measured. (There is a `ValueError`.) -/
theorem C27_weight_counterexample : ¬ C27_statement := by
  intro h
  obtain ⟨circ, hc, h1, _⟩ := rawLength_inv (api := natApi) (c := (Rep.lat 3).latCode 1) (qe := []) (sel := .str "Z".toList) (anc := false)
    (k := 6) (l := 0) (by decide +kernel)
  obtain ⟨lq, s, _, hs, _⟩ := h Nat natApi 1 _ [] [] _ _ circ (List.replicate 6 false) (by omega) (rep3_made 1) hc (by rw [h1]; rfl)
  have : Sample.fromRaw ((Rep.lat 3).latCode 1) (List.replicate 6 false) none false = .error .valueError := by decide +kernel
  rw [this] at hs
  cases hs

/-- The chosen logical operators have the weight of the first logical operator. -/
def SameWeight (c : LatCode) (sel : LogicalSel) : Prop := ∀ is, logicalOpsToIndices c.code.logicalOps.length sel = .ok is → ∀ i ∈ is, ∀ a b,
  c.code.logicalOps[i.toNat]? = some a → c.code.logicalOps[0]? = some b → a.weight = b.weight

theorem weights_eq {L : Lattice} (hw : L.Wf) {r : Nat} {sel : LogicalSel} {is : List Int} (his : logicalOpsToIndices L.logicals.length sel = .ok is)
    (hwt : SameWeight (L.latCode r) sel) : ∀ l, L.logicals[0]? = some l → ∀ i ∈ is, (L.opEdges (L.selPos i)).length = (L.opEdges l.1).length := by
  intro l hlm i hi
  obtain ⟨_, hb⟩ := indices_inv his
  have hn : i.toNat < L.logicals.length := by have := hb i hi; omega
  have hsel : L.selPos i = (L.logicals[i.toNat]).1 := by simp [Lattice.selPos, List.getElem?_eq_getElem hn]
  have := hwt is (by simpa [Lattice.code] using his) i hi (L.vop (L.selPos i)) (L.vop l.1)
    (by simp [Lattice.code, hsel, List.getElem?_eq_getElem hn]) (by simp only [Lattice.code, List.getElem?_map, hlm]; rfl)
  rwa [hw.weight, hw.weight] at this

/-- **C27 (partial)**: with ancillas, or if the chosen logical operators have the weight of the first one; missing: operators
of another weight measured without an ancilla. -/
theorem C27_unpack_partial (api : FloatApi F) (r : Nat) (c : LatCode) (qe ge : List (List Char × ErrDict F)) (sel : LogicalSel)
    (anc : Bool) (circ : List (Gate F)) (raw : List Bool) (hr : 1 ≤ r) (hm : Made r c) (h : generateCircuit api c qe ge sel anc = .ok circ)
    (hraw : raw.length = (measuredQubits circ).length)
    (hwt : anc = true ∨ SameWeight c sel) :
    ∃ lq s, MeasureLayout c sel anc circ lq ∧ Sample.fromRaw c raw none anc = .ok s ∧ Unpacked c lq raw s := by
  obtain ⟨L, rfl, hw, _, hf, _⟩ := hm.lattice
  obtain ⟨is, his, hl⟩ := layout_of hw hr h
  have hlen := hl.measured
  rw [← stabRow_eq hw r] at hlen
  rw [hlen, List.length_map] at hraw
  obtain ⟨inits, rounds, finals, rfl, h1, h2, h3⟩ := split_three hraw
  refine ⟨_, _, hl, fromRaw_blocks hw hf his ?_ h1 h2 h3 none (fun e he => by cases he), unpacked_of hw r h1 h3 h2 none⟩
  exact hwt.imp_right fun hwt => weights_eq hw his hwt

/-! ### C62: the flags of erasures -/

/-- The flags of the qubits `row` in each round are given to these qubits. -/
structure ErasedUnpacked (c : LatCode) (qe : List (List Char × ErrDict F)) (circ : List (Gate F)) (flags : List Bool) (s : Sample) : Prop where
  rows : ∃ (row : List Nat) (fs e : List (List Bool)), (∀ q, q ∈ row ↔ q < c.n ∧ ErasureEntry qe q) ∧ row.Sublist (List.range c.n) ∧
    erasableQubits circ = ((List.replicate c.nRounds row).flatten.map fun (q : Nat) => Val.int (q : Int)) ∧
    flags = fs.flatten ∧ fs.map List.length = List.replicate c.nRounds row.length ∧
    s.erased = some e ∧ e.map List.length = List.replicate c.nRounds c.n ∧
    ∀ t < c.nRounds, ∀ q < c.n, (e.getD t [])[q]? = some (((fs.getD t [])[row.idxOf q]?).getD false)

/-- **C62**: the flags of a generated circuit in which some data qubit may be erased are unpacked into one row for every
round, with the flag of every data qubit at its place. -/
def C62_statement : Prop := ∀ (F : Type) (api : FloatApi F) (r : Nat) (c : LatCode) (qe ge : List (List Char × ErrDict F)) (sel : LogicalSel)
  (anc : Bool) (circ : List (Gate F)) (raw flags : List Bool), 1 ≤ r → Made r c → generateCircuit api c qe ge sel anc = .ok circ →
  raw.length = (measuredQubits circ).length → flags.length = (erasableQubits circ).length → flags ≠ [] →
  (anc = true ∨ SameWeight c sel) →
  ∃ lq s, MeasureLayout c sel anc circ lq ∧ Sample.fromRaw c raw (some flags) anc = .ok s ∧ Unpacked c lq raw s ∧ ErasedUnpacked c qe circ flags s

/-- Erasures of the data qubits, for the examples. -/
def erasing (qs : List Nat) : List (List Char × ErrDict Nat) :=
  [("erasure".toList, qs.map fun (q : Nat) => (QKey.int (q : Int), [("p".toList, Raw.flt 1)]))]

set_option maxRecDepth 100000 in
/-- **C62 fails** if only some of the data qubits may be erased: there is a `ValueError`. -/
theorem C62_some_counterexample : ¬ C62_statement := by
  intro h
  obtain ⟨circ, hc, h1, h2⟩ := rawLength_inv (api := natApi) (c := (Rep.lat 3).latCode 1) (qe := erasing [0]) (sel := .str "X".toList) (anc := true)
    (k := 6) (l := 1) (by decide +kernel)
  obtain ⟨_, s, _, hs, _⟩ := h Nat natApi 1 _ _ [] _ true circ (List.replicate 6 false) [true] (by omega) (rep3_made 1) hc (by rw [h1]; rfl)
    (by rw [h2]; rfl) (by simp) (.inl rfl)
  have : Sample.fromRaw ((Rep.lat 3).latCode 1) (List.replicate 6 false) (some [true]) true = .error .valueError := by decide +kernel
  rw [this] at hs
  cases hs

/-- **C62 (partial)**: if all data qubits may be erased. -/
theorem C62_all_partial (api : FloatApi F) (r : Nat) (c : LatCode) (qe ge : List (List Char × ErrDict F)) (sel : LogicalSel)
    (anc : Bool) (circ : List (Gate F)) (raw flags : List Bool) (hr : 1 ≤ r) (hm : Made r c) (h : generateCircuit api c qe ge sel anc = .ok circ)
    (hraw : raw.length = (measuredQubits circ).length) (hfl : flags.length = (erasableQubits circ).length) (hall : ∀ q < c.n, ErasureEntry qe q)
    (hwt : anc = true ∨ SameWeight c sel) :
    ∃ lq s, MeasureLayout c sel anc circ lq ∧ Sample.fromRaw c raw (some flags) anc = .ok s ∧ Unpacked c lq raw s ∧ ErasedUnpacked c qe circ flags s := by
  obtain ⟨L, rfl, hw, _, hf, _⟩ := hm.lattice
  obtain ⟨is, his, hl⟩ := layout_of hw hr h
  have hlen := hl.measured
  rw [← stabRow_eq hw r] at hlen
  rw [hlen, List.length_map] at hraw
  obtain ⟨inits, rounds, finals, rfl, h1, h2, h3⟩ := split_three hraw
  obtain ⟨row, hrow, hsub, her⟩ := erased_layout hw hr h
  have hrr : row = List.range L.dataqubits.length := by
    refine hsub.eq_of_length_le ?_
    have : List.range L.dataqubits.length ⊆ row := fun q hq => (hrow q).2 ⟨List.mem_range.1 hq, hall q (List.mem_range.1 hq)⟩
    exact (List.nodup_range.subperm this).length_le
  subst hrr
  rw [her, List.length_map] at hfl
  obtain ⟨fs, rfl, hfs⟩ := split_like _ flags hfl
  have hfs' : fs.map List.length = List.replicate r L.dataqubits.length := by rw [hfs, List.map_replicate]; simp
  have hfl : fs.length = r := by have := congrArg List.length hfs'; simpa using this
  have hfr : ∀ row ∈ fs, row.length = L.dataqubits.length := by
    intro row hrow
    have := List.mem_map_of_mem (f := List.length) hrow
    rw [hfs'] at this
    exact List.eq_of_mem_replicate this
  refine ⟨_, _, hl, fromRaw_blocks hw hf his (hwt.imp_right fun hwt => weights_eq hw his hwt) h1 h2 h3 (some fs) (fun e he => ?_),
    unpacked_of hw r h1 h3 h2 (some fs), ?_⟩
  · cases he; exact ⟨hfl, hfr⟩
  · refine ⟨_, fs, fs, hrow, hsub, her, rfl, by simpa using hfs', rfl, hfs', ?_⟩
    intro t ht q hq
    have hq : q < L.dataqubits.length := hq
    have ht : t < fs.length := by rw [hfl]; exact ht
    have hi : (List.range L.dataqubits.length).idxOf q = q := by
      have := List.Nodup.idxOf_getElem (List.nodup_range (n := L.dataqubits.length)) q (by simpa using hq)
      simpa using this
    rw [hi, List.getD_eq_getElem?_getD, List.getElem?_eq_getElem ht, Option.getD_some,
      List.getElem?_eq_getElem (by rw [hfr _ (List.getElem_mem ht)]; exact hq)]
    rfl

/-! ### Examples -/

set_option maxRecDepth 100000 in
/-- Three results of the logical X, three rounds, three results of the logical X. -/
example : ∃ (circ : List (Gate Nat)) (lq : List (List Nat)) (s : Sample), MeasureLayout ((Rep.lat 3).latCode 2) (.str "X".toList) true circ lq ∧
    Sample.fromRaw ((Rep.lat 3).latCode 2) [true, false, true, true, false, false, false, true] none true = .ok s ∧ s.initial = [true] ∧ s.final = [true] ∧
    s.syndrome = [[true, true], [true, false]] := by
  obtain ⟨circ, hc, h1, _⟩ := rawLength_inv (api := natApi) (c := (Rep.lat 3).latCode 2) (qe := []) (sel := .str "X".toList) (anc := true)
    (k := 8) (l := 0) (by decide +kernel)
  obtain ⟨lq, s, h2, h3, _⟩ := C27_unpack_partial natApi 2 _ [] [] _ _ circ [true, false, true, true, false, false, false, true] (by omega) (rep3_made 2) hc
    (by rw [h1]; rfl) (.inl rfl)
  have h4 : Sample.fromRaw ((Rep.lat 3).latCode 2) [true, false, true, true, false, false, false, true] none true =
    .ok ⟨[true], [true], [false], [[false, true], [true, false], [false, false]], [[true, true], [true, false]], none⟩ := by decide +kernel
  rw [h4, Except.ok.injEq] at h3
  subst h3
  exact ⟨circ, lq, _, h2, h4, rfl, rfl, rfl⟩

set_option maxRecDepth 100000 in
/-- The logical X of the repetition code without ancilla: three qubits are measured. -/
example : SameWeight ((Rep.lat 3).latCode 2) (.str "X".toList) ∧ ¬ SameWeight ((Rep.lat 3).latCode 2) (.str "Z".toList) := by
  constructor
  · intro is his i hi a b ha hb
    rw [show logicalOpsToIndices ((Rep.lat 3).latCode 2).code.logicalOps.length (.str "X".toList) = .ok [0] by decide +kernel, Except.ok.injEq] at his
    subst his
    simp only [List.mem_singleton] at hi
    subst hi
    rw [show (0 : Int).toNat = 0 from rfl, hb, Option.some.injEq] at ha
    rw [ha]
  · intro h
    have := h [1] (by decide +kernel) 1 (by simp) _ _ rfl rfl
    exact absurd this (by decide +kernel)

set_option maxRecDepth 100000 in
/-- The erasure of the second qubit in the second round. -/
example : ∃ (circ : List (Gate Nat)) (s : Sample), generateCircuit natApi ((Rep.lat 3).latCode 2) (erasing [0, 1, 2]) [] (.str "X".toList) true = .ok circ ∧
    Sample.fromRaw ((Rep.lat 3).latCode 2) (List.replicate 8 false) (some [false, false, false, false, true, false]) true = .ok s ∧
    ErasedUnpacked ((Rep.lat 3).latCode 2) (erasing [0, 1, 2]) circ [false, false, false, false, true, false] s := by
  obtain ⟨circ, hc, h1, h2⟩ := rawLength_inv (api := natApi) (c := (Rep.lat 3).latCode 2) (qe := erasing [0, 1, 2]) (sel := .str "X".toList) (anc := true)
    (k := 8) (l := 6) (by decide +kernel)
  have hall : ∀ q < 3, ErasureEntry (erasing [0, 1, 2]) q := by
    intro q hq
    obtain rfl | rfl | rfl : q = 0 ∨ q = 1 ∨ q = 2 := by omega
    all_goals exact ⟨_, _, rfl, rfl, by simp⟩
  obtain ⟨lq, s, _, h3, _, h5⟩ := C62_all_partial natApi 2 _ _ [] _ _ circ (List.replicate 8 false) [false, false, false, false, true, false] (by omega)
    (rep3_made 2) hc (by rw [h1]; rfl) (by rw [h2]; rfl) hall (.inl rfl)
  exact ⟨circ, s, hc, h3, h5⟩

end Plaquette
