import Verif.Props.Erased
import Verif.Props.Families
import Verif.Spec.Faults
import Verif.Lemmas.Apart

/-!
# How many errors union find corrects (C61)
-/

namespace Plaquette

/-- C61: union find without weights corrects every error `X` on less than half as many qubits as the lightest undetected logical error of
that kind, if nothing else goes wrong. -/
def C61_statement : Prop :=
  ∀ (r : Nat) (c : LatCode) (d : Nat), Made r c → (∀ e, c.code.IsLogical e → (∀ q, e.z q = false) → d ≤ e.weight) →
    ∀ (g : SynGraph FW) (states : List UGraph) (f : Faults c.n) (syn : Option (List (List Bool))) (p : Op c.n),
      mkSynGraph FW.isInf r c.code.stabilisers none = .ok g → setupAll (ufBackend false) g = .ok states →
      (∀ t q, (f.data t).z q = false) → f.Shows r c.code.stabilisers syn → 2 * f.count r c.code.stabilisers.length none < d →
      decode (ufBackend false) g c.n states none syn = .ok p → f.Corrected r c.code.logicalOps p

/-! ## The counterexample -/

/-- `X` on the qubits with the given numbers. -/
def flips {n : Nat} (l : List Nat) : Op n := ⟨fun q => decide (q.val ∈ l), fun _ => false, false⟩

/-- The seven wrong qubits. -/
def rep15Wrong : List Nat := [1, 3, 4, 7, 10, 11, 13]

/-- The other eight qubits. -/
def rep15Rest : List Nat := [0, 2, 5, 6, 8, 9, 12, 14]

/-- The stabilisers of the repetition code of size 15. -/
def rep15Stabs : List (Op (Rep.lat 15).dataqubits.length) := (Rep.lat 15).code.stabilisers

/-- The syndrome of the errors. -/
def rep15Syn : List (List Bool) := [rep15Stabs.map fun s => anti s (flips rep15Wrong)]

/-- The run, and what is used of the code. -/
def rep15Run : Bool :=
  match mkSynGraph FW.isInf 1 rep15Stabs none with
  | .error _ => false
  | .ok g =>
    match setupAll (ufBackend false) g with
    | .error _ => false
    | .ok states =>
      match decode (ufBackend false) g (Rep.lat 15).dataqubits.length states none (some rep15Syn) with
      | .error _ => false
      | .ok p => (Rep.lat 15).code.logicalOps.any fun l => anti l p && !anti l (flips rep15Wrong)

set_option maxRecDepth 100000 in
theorem rep15Run_ok : rep15Run = true := by decide +kernel

/-- The errors of the only round. -/
def rep15Faults : Faults (Rep.lat 15).dataqubits.length := ⟨fun _ => flips rep15Wrong, fun _ _ => False⟩

theorem rep15_shows : rep15Faults.Shows 1 rep15Stabs (some rep15Syn) := by
  refine ⟨fun _ _ _ h => h, fun t ht s gen hs => ?_⟩
  obtain rfl : t = 0 := by omega
  rw [anticommutes_iff]
  constructor
  · rintro ⟨a, row, ha, hr, hb⟩
    cases ha
    cases hr
    rw [List.getElem?_map, hs] at hb
    exact .inl ⟨(by simpa using hb : anti gen (flips rep15Wrong) = true), by simp [Xor, rep15Faults]⟩
  · rintro (⟨h, _⟩ | ⟨h, _⟩)
    · refine ⟨_, _, rfl, rfl, ?_⟩
      rw [List.getElem?_map, hs]
      exact congrArg some h
    · simp [Xor, rep15Faults] at h

theorem rep15_count : rep15Faults.count 1 rep15Stabs.length none ≤ 7 := by
  unfold Faults.count
  have h2 : {p : Nat × Nat | p.1 < 1 ∧ p.2 < rep15Stabs.length ∧ rep15Faults.meas p.1 p.2} = ∅ := by
    ext p; simp [rep15Faults]
  rw [h2, Set.ncard_empty, Nat.add_zero]
  have h1 : Set.InjOn (fun p : Nat × Fin (Rep.lat 15).dataqubits.length => p.2.val)
      {p | p.1 < 1 ∧ ((rep15Faults.data p.1).x p.2 || (rep15Faults.data p.1).z p.2) = true ∧ ¬ SynBit none p.1 p.2} := by
    rintro ⟨t, q⟩ h ⟨t', q'⟩ h' hq
    have ht : t < 1 := h.1
    have ht' : t' < 1 := h'.1
    exact Prod.ext (by show t = t'; omega) (Fin.ext hq)
  rw [← h1.ncard_image]
  refine (Set.ncard_le_ncard (t := (rep15Wrong.toFinset : Set Nat)) ?_ (Finset.finite_toSet _)).trans (by rw [Set.ncard_coe_finset]; decide)
  rintro _ ⟨p, ⟨_, h, _⟩, rfl⟩
  simpa [rep15Faults, flips] using h

/-- **C61 is false**: on the repetition code of size 15, seven errors (on the qubits 1, 3, 4, 7, 10, 11 and 13) are answered with a correction that
makes a logical error. All clusters with the smallest boundary grow at the same time, and in the end all edges are in one cluster. -/
theorem C61_half_counterexample : ¬ C61_statement := by
  intro H
  obtain ⟨c, hc, _, hd, _⟩ := C60_repetition 1 15 (by decide) (by omega)
  have hc' : makeRepetition 1 15 = .ok ((Rep.lat 15).latCode 1) := by
    rw [makeRepetition, Rep.make 15 (by decide) (by omega)]; exact mkLatCode_ok (Rep.wf 15 (by omega)) (Rep.full 15 (by omega)) 1
  rw [hc'] at hc
  obtain rfl := Except.ok.inj hc
  have h := rep15Run_ok
  unfold rep15Run at h
  cases hg : mkSynGraph FW.isInf 1 rep15Stabs none with
  | error e => simp only [hg] at h; cases h
  | ok g =>
  cases hs : setupAll (ufBackend false) g with
  | error e => simp only [hg, hs] at h; cases h
  | ok states =>
  cases hp : decode (ufBackend false) g (Rep.lat 15).dataqubits.length states none (some rep15Syn) with
  | error e => simp only [hg, hs, hp] at h; cases h
  | ok p =>
  simp only [hg, hs, hp, List.any_eq_true, Bool.and_eq_true, Bool.not_eq_true'] at h
  obtain ⟨l, hl, h1, h2⟩ := h
  have := H 1 _ 15 (.repetition (by omega) hc') hd g states rep15Faults (some rep15Syn) p hg hs (fun _ _ => rfl) rep15_shows
    (Nat.lt_of_le_of_lt (Nat.mul_le_mul_left 2 rep15_count) (by decide)) hp l hl
  rw [anticommutes_iff, h1] at this
  have h3 := this.1 rfl
  have h4 : {t | t < 1 ∧ Anticommutes (opMat l) (opMat (rep15Faults.data t))} = ∅ := by
    ext t
    simp only [Set.mem_ofPred_eq, Set.mem_empty_iff_false, iff_false, not_and]
    intro _
    rw [anticommutes_iff]
    show ¬ anti l (flips rep15Wrong) = true
    rw [h2]; simp
  rw [h4] at h3
  simp at h3

/-! ## A third of the distance

What is proved instead: faults are corrected if three times their number, plus the number of erased qubits, is below the size. -/

/-- Union find without weights finds a correction that undoes the faults. -/
def UfCorrects (c : LatCode) (rounds : Nat) (support : Bool) (f : Faults c.n) (erased syn : Option (List (List Bool))) : Prop :=
  ∃ g states p, mkSynGraph FW.isInf rounds c.code.stabilisers none = .ok g ∧ setupAll (ufBackend support) g = .ok states ∧
    decode (ufBackend support) g c.n states erased syn = .ok p ∧ f.Corrected rounds c.code.logicalOps p

/-- Decoders that correct few faults: set up without weights, they answer every syndrome that can be explained with an explanation that crosses at
most `K` lines for each error, and one for each erasure (if they accept erasures, `lossy`). -/
def Few {σ : Type} (K : Nat) (lossy : Bool) (b : Backend FW σ) : Prop :=
  2 ≤ K ∧ ∀ (n r : Nat) (stabs : List (Op n)) (g : SynGraph FW), mkSynGraph FW.isInf r stabs none = .ok g →
    ∃ states, setupAll b g = .ok states ∧ Sound b g states ∧ Short K b g states ∧
      ∀ erased syn, ShapeOk r n erased → ShapeOk r stabs.length syn → (lossy = false → ∀ t q, ¬ SynBit erased t q) →
        Explainable g r stabs.length syn → ∃ p, decode b g n states erased syn = .ok p

theorem uf_few (support : Bool) : Few 3 true (ufBackend support) := by
  refine ⟨by decide, fun n r stabs g hg => ?_⟩
  obtain ⟨states, hst⟩ := uf_setup hg support
  have hgood := uf_good hg hst
  refine ⟨states, hst, hgood.1, uf_short hg hst, fun erased syn her hsyn _ hex => ?_⟩
  rcases C39_refused (n := n) hg hgood.1 hgood.2 her hsyn with ⟨_, h⟩ | ⟨hne, _⟩
  · exact h
  · exact absurd hex hne

/-- Faults of this number are undone on the given logical operators. -/
theorem few_on {L : Lattice} (hw : L.Wf) {r rounds d : Nat} (hm : Made r (L.latCode r)) {σ : Type} {b : Backend FW σ} {K : Nat} {lossy : Bool}
    (hb : Few K lossy b) {f : Faults L.dataqubits.length} {erased syn : Option (List (List Bool))} (her : ShapeOk rounds L.dataqubits.length erased)
    (hsyn : ShapeOk rounds L.code.stabilisers.length syn) (hf : f.Shows rounds L.code.stabilisers syn) (hE : lossy = false → ∀ t q, ¬ SynBit erased t q)
    (hA : (∀ t q, ¬ SynBit erased t q) ∨ L.Apart)
    (hcount : K * f.count rounds L.code.stabilisers.length erased + erasures L.dataqubits.length rounds erased < d)
    (logs : List Pos) (hl : ∀ v ∈ logs, L.HasLines d v ∨ ((∀ q, ∀ a : Letter, a ≠ .Y → flipped L.code.stabilisers (singleOp false a q) ≠ [] →
      anti (singleOp false a q) (L.vop v) = false) ∧ ∀ t < rounds, anti (f.data t) (L.vop v) = false)) :
    ∃ g states p, mkSynGraph FW.isInf rounds L.code.stabilisers none = .ok g ∧ setupAll b g = .ok states ∧
      decode b g L.dataqubits.length states erased syn = .ok p ∧ f.Corrected rounds (logs.map L.vop) p := by
  obtain ⟨g, hg⟩ := C59_graph hm FW.isInf rounds
  obtain ⟨states, hst, hsound, hshort, hdec⟩ := hb.2 _ _ _ g hg
  obtain ⟨p, hp⟩ := hdec erased syn her hsyn hE (shows_explainable hf hg hsyn)
  refine ⟨g, states, p, hg, hst, hp, fun l hl' => corrected_iff.2 ?_⟩
  obtain ⟨v, hv, rfl⟩ := List.mem_map.1 hl'
  rcases hl v hv with h | ⟨h1, h2⟩
  · refine hw.corrected hg hsound hb.1 hshort hf (fun i e t o q b hie hk hs hv => ?_) hcount hp h
    rcases hA with hA | hA
    · exact absurd hs (hA t q)
    · exact enabled_of_simple hg (hw.simple hA) i e t o q b hie hk hv
  · rw [decode_touching hg hsound hp fun l hl h => h1 l.2 l.1 (by
      obtain ⟨o, ho⟩ := List.getElem?_of_mem hl
      rw [(errorOps_idx ho).2]
      split <;> decide) h]
    exact (xsum_zero fun t ht => h2 t (List.mem_range.1 ht)).symm

/-- A decoder without weights finds a correction that undoes the faults. -/
def Corrects {σ : Type} (b : Backend FW σ) (c : LatCode) (rounds : Nat) (f : Faults c.n) (erased syn : Option (List (List Bool))) : Prop :=
  ∃ g states p, mkSynGraph FW.isInf rounds c.code.stabilisers none = .ok g ∧ setupAll b g = .ok states ∧
    decode b g c.n states erased syn = .ok p ∧ f.Corrected rounds c.code.logicalOps p

theorem few_corrects {L : Lattice} (hw : L.Wf) {r rounds d : Nat} (hm : Made r (L.latCode r)) {σ : Type} {b : Backend FW σ} {K : Nat} {lossy : Bool}
    (hb : Few K lossy b) {f : Faults L.dataqubits.length} {erased syn : Option (List (List Bool))} (her : ShapeOk rounds L.dataqubits.length erased)
    (hsyn : ShapeOk rounds L.code.stabilisers.length syn) (hf : f.Shows rounds L.code.stabilisers syn) (hE : lossy = false → ∀ t q, ¬ SynBit erased t q)
    (hA : (∀ t q, ¬ SynBit erased t q) ∨ L.Apart)
    (hcount : K * f.count rounds L.code.stabilisers.length erased + erasures L.dataqubits.length rounds erased < d)
    (hl : ∀ l ∈ L.logicals, L.HasLines d l.1 ∨ ((∀ q, ∀ a : Letter, a ≠ .Y → flipped L.code.stabilisers (singleOp false a q) ≠ [] →
      anti (singleOp false a q) (L.vop l.1) = false) ∧ ∀ t < rounds, anti (f.data t) (L.vop l.1) = false)) :
    Corrects b (L.latCode r) rounds f erased syn := by
  obtain ⟨g, states, p, h1, h2, h3, h4⟩ := few_on hw hm hb her hsyn hf hE hA hcount (L.logicals.map Prod.fst) fun v hv => by
    obtain ⟨l, hl', rfl⟩ := List.mem_map.1 hv
    exact hl l hl'
  refine ⟨g, states, p, h1, h2, h3, ?_⟩
  rw [List.map_map] at h4
  exact h4

/-- On a code, faults and erasures whose weighted number is below `d` are corrected by all decoders that correct few faults. -/
def FewCorrected (c : LatCode) (d : Nat) (erasures' phases : Bool) : Prop :=
  ∀ (rounds : Nat) (σ : Type) (b : Backend FW σ) (K : Nat) (lossy : Bool), Few K lossy b → ∀ (f : Faults c.n) (erased syn : Option (List (List Bool))),
    ShapeOk rounds c.n erased → ShapeOk rounds c.code.stabilisers.length syn → f.Shows rounds c.code.stabilisers syn →
    ((lossy = false ∨ erasures' = false) → ∀ t q, ¬ SynBit erased t q) → (phases = false → ∀ t q, (f.data t).z q = false) →
    K * f.count rounds c.code.stabilisers.length erased + erasures c.n rounds erased < d → Corrects b c rounds f erased syn

theorem planar_few (r size : Nat) (h3 : 3 ≤ size) : ∃ c, makePlanar r size = .ok c ∧ FewCorrected c size true true := by
  have hc : makePlanar r size = .ok ((Planar.lat size crossOrder).latCode r) := by
    rw [makePlanar, Planar.make size (by omega) crossOrder (by decide)]; exact mkLatCode_ok (Planar.wf _ _ (by omega)) (Planar.full _ _ (by omega)) r
  refine ⟨_, hc, fun rounds σ b K lossy hb f erased syn her hsyn hf hE _ hcount => few_corrects (Planar.wf _ _ (by omega)) (.planar (by omega) hc) hb her hsyn hf
    (fun h => hE (.inl h)) (.inr (Planar.apart h3)) hcount fun l hl => .inl ?_⟩
  have hl : l ∈ Planar.logs size := hl
  simp only [Planar.logs, List.mem_cons, List.not_mem_nil, or_false] at hl
  rcases hl with rfl | rfl
  · exact ⟨Planar.linesX (by omega), size - 1, by omega, Planar.line_x (by omega)⟩
  · exact ⟨Planar.linesZ (by omega), size - 1, by omega, Planar.line_z (by omega)⟩

theorem toric_few (r size : Nat) (h3 : 3 ≤ size) : ∃ c, makeToric r size = .ok c ∧ FewCorrected c size true true := by
  have h2 : 2 ≤ size := by omega
  have hc : makeToric r size = .ok ((Toric.lat size crossOrder).latCode r) := by
    rw [makeToric, Toric.make h2 crossOrder (by decide)]; exact mkLatCode_ok (Toric.wf _ h2) (Toric.full _ h2) r
  refine ⟨_, hc, fun rounds σ b K lossy hb f erased syn her hsyn hf hE _ hcount => few_corrects (Toric.wf _ h2) (.toric h2 hc) hb her hsyn hf
    (fun h => hE (.inl h)) (.inr (Toric.apart h3)) hcount fun l hl => .inl ?_⟩
  have hl : l ∈ (Toric.fam size).logs := hl
  simp only [Toric.fam, List.mem_cons, List.not_mem_nil, or_false] at hl
  rcases hl with rfl | rfl | rfl | rfl
  · exact ⟨Toric.linesX0 h2, 0, by omega, Toric.line_X0 h2⟩
  · exact ⟨Toric.linesZ0 h2, size - 1, by omega, Toric.line_Z0 h2⟩
  · exact ⟨Toric.linesX1 h2, 0, by omega, Toric.line_X1 h2⟩
  · exact ⟨Toric.linesZ1 h2, size - 1, by omega, Toric.line_Z1 h2⟩

theorem rotated_few (r size : Nat) (xzzx : Bool) (h2 : 2 ≤ size) : ∃ c, makeRotated r size xzzx = .ok c ∧ FewCorrected c size false true := by
  have hc : makeRotated r size xzzx = .ok ((Rotated.lat size xzzx diagOrder).latCode r) := by
    rw [makeRotated, Rotated.make h2 diagOrder (by decide)]; exact mkLatCode_ok (Rotated.wf _ h2) (Rotated.full _ h2) r
  refine ⟨_, hc, fun rounds σ b K lossy hb f erased syn her hsyn hf hE _ hcount => few_corrects (d := size) (Rotated.wf _ h2) (.rotated h2 hc) hb her hsyn hf
    (fun h => hE (.inl h)) (.inl (hE (.inr rfl))) hcount fun l hl => .inl ?_⟩
  have hl : l ∈ (Rotated.fam size xzzx).logs := hl
  simp only [Rotated.fam, List.mem_cons, List.not_mem_nil, or_false] at hl
  rcases hl with rfl | rfl
  · exact ⟨Rotated.linesX h2, 0, by omega, Rotated.line_x h2⟩
  · exact ⟨Rotated.linesZ h2, 0, by omega, Rotated.line_z h2⟩

theorem repetition_few (r size : Nat) (hodd : size % 2 = 1) (h3 : 3 ≤ size) : ∃ c, makeRepetition r size = .ok c ∧ FewCorrected c size true false := by
  have hc : makeRepetition r size = .ok ((Rep.lat size).latCode r) := by
    rw [makeRepetition, Rep.make size hodd h3]; exact mkLatCode_ok (Rep.wf size h3) (Rep.full size h3) r
  refine ⟨_, hc, fun rounds σ b K lossy hb f erased syn her hsyn hf hE hz hcount => few_corrects (Rep.wf size h3) (.repetition (by omega) hc) hb her hsyn hf
    (fun h => hE (.inl h)) (.inr (Rep.apart h3)) hcount fun l hl => ?_⟩
  have hz := hz rfl
  have hl : l ∈ Rep.logs size := hl
  simp only [Rep.logs, List.mem_cons, List.not_mem_nil, or_false] at hl
  rcases hl with rfl | rfl
  · refine .inr ⟨fun q a ha hne => ?_, fun t _ => ?_⟩
    · refine Rep.anti_x h3 fun q' => ?_
      cases a with
      | X => simp [singleOp]
      | Y => exact absurd rfl ha
      | Z =>
        obtain ⟨s, hs⟩ := List.exists_mem_of_ne_nil _ hne
        obtain ⟨st, hst, hfl⟩ := (Rep.wf size h3).mem_flipped.1 hs
        obtain ⟨i, hi, rfl⟩ := Rep.stab_get (List.mem_of_getElem? hst)
        exact absurd rfl ((Rep.flips_iff (List.getElem_mem q.2) hi).1 hfl).1
    · exact Rep.anti_x h3 (hz t)
  · exact .inl ⟨Rep.linesZ h3, size - 1, by omega, Rep.line_z h3⟩

theorem no_erasures (n r : Nat) : erasures n r none = 0 := by unfold erasures; simp [SynBit]

/-- **C61 (partial)** On the planar code of size at least 3, union find corrects all faults with `3t + e < size`, for `t` wrong outcomes and errors on
qubits that were not erased, and `e` erased qubits (each counted in each round), for every number of rounds. Missing: up to half the
distance, which is false. -/
theorem C61_planar_partial (r size : Nat) (h3 : 3 ≤ size) : ∃ c, makePlanar r size = .ok c ∧
    ∀ (rounds : Nat) (support : Bool) (f : Faults c.n) (erased syn : Option (List (List Bool))), ShapeOk rounds c.n erased →
      ShapeOk rounds c.code.stabilisers.length syn → f.Shows rounds c.code.stabilisers syn →
      3 * f.count rounds c.code.stabilisers.length erased + erasures c.n rounds erased < size → UfCorrects c rounds support f erased syn := by
  obtain ⟨c, hc, h⟩ := planar_few r size h3
  exact ⟨c, hc, fun rounds support f erased syn her hsyn hf hcount =>
    h rounds _ _ 3 true (uf_few support) f erased syn her hsyn hf (by simp) (by simp) hcount⟩

/-- **C61 (partial)** The same for the toric code. -/
theorem C61_toric_partial (r size : Nat) (h3 : 3 ≤ size) : ∃ c, makeToric r size = .ok c ∧
    ∀ (rounds : Nat) (support : Bool) (f : Faults c.n) (erased syn : Option (List (List Bool))), ShapeOk rounds c.n erased →
      ShapeOk rounds c.code.stabilisers.length syn → f.Shows rounds c.code.stabilisers syn →
      3 * f.count rounds c.code.stabilisers.length erased + erasures c.n rounds erased < size → UfCorrects c rounds support f erased syn := by
  obtain ⟨c, hc, h⟩ := toric_few r size h3
  exact ⟨c, hc, fun rounds support f erased syn her hsyn hf hcount =>
    h rounds _ _ 3 true (uf_few support) f erased syn her hsyn hf (by simp) (by simp) hcount⟩

/-- **C61 (partial)** The same for the rotated code and the XZZX code, without erased qubits (the erasure of a qubit may be lost there, see C56). -/
theorem C61_rotated_partial (r size : Nat) (xzzx : Bool) (h2 : 2 ≤ size) : ∃ c, makeRotated r size xzzx = .ok c ∧
    ∀ (rounds : Nat) (support : Bool) (f : Faults c.n) (syn : Option (List (List Bool))),
      ShapeOk rounds c.code.stabilisers.length syn → f.Shows rounds c.code.stabilisers syn →
      3 * f.count rounds c.code.stabilisers.length none < size → UfCorrects c rounds support f none syn := by
  obtain ⟨c, hc, h⟩ := rotated_few r size xzzx h2
  exact ⟨c, hc, fun rounds support f syn hsyn hf hcount =>
    h rounds _ _ 3 true (uf_few support) f none syn (fun a h => by cases h) hsyn hf (fun _ _ _ ⟨_, _, h, _⟩ => by cases h) (by simp)
      (by rw [no_erasures]; exact hcount)⟩

/-- **C61 (partial)** The same for the repetition code and errors without phase flips, which that code cannot detect. -/
theorem C61_repetition_partial (r size : Nat) (hodd : size % 2 = 1) (h3 : 3 ≤ size) : ∃ c, makeRepetition r size = .ok c ∧
    ∀ (rounds : Nat) (support : Bool) (f : Faults c.n) (erased syn : Option (List (List Bool))), ShapeOk rounds c.n erased →
      ShapeOk rounds c.code.stabilisers.length syn → f.Shows rounds c.code.stabilisers syn → (∀ t q, (f.data t).z q = false) →
      3 * f.count rounds c.code.stabilisers.length erased + erasures c.n rounds erased < size → UfCorrects c rounds support f erased syn := by
  obtain ⟨c, hc, h⟩ := repetition_few r size hodd h3
  exact ⟨c, hc, fun rounds support f erased syn her hsyn hf hz hcount =>
    h rounds _ _ 3 true (uf_few support) f erased syn her hsyn hf (by simp) (fun _ => hz) hcount⟩

/-! The hypotheses are met: all faults with right outcomes in the last round have a syndrome. -/

open Classical in
theorem exists_shows {n r : Nat} {stabs : List (Op n)} {f : Faults n} (hlast : ∀ t s, r ≤ t + 1 → ¬ f.meas t s) :
    ∃ syn, ShapeOk r stabs.length (some syn) ∧ f.Shows r stabs (some syn) := by
  refine ⟨(List.range r).map fun t => (List.range stabs.length).map fun s =>
    decide (∃ gen, stabs[s]? = some gen ∧ Xor (Anticommutes (opMat gen) (opMat (f.data t))) (Xor (f.meas t s) (0 < t ∧ f.meas (t - 1) s))), ?_, hlast, ?_⟩
  · intro l hl
    cases hl
    refine ⟨by simp, fun row hr => ?_⟩
    obtain ⟨t, _, rfl⟩ := List.mem_map.1 hr
    simp
  · intro t ht s gen hs
    have hsl : s < stabs.length := (List.getElem?_eq_some_iff.1 hs).1
    constructor
    · rintro ⟨a, row, ha, hr, hb⟩
      cases ha
      rw [List.getElem?_map, List.getElem?_range ht] at hr
      cases hr
      rw [List.getElem?_map, List.getElem?_range hsl, Option.map_some, Option.some.injEq, decide_eq_true_eq] at hb
      obtain ⟨gen', hg, h⟩ := hb
      rw [hs] at hg; cases hg
      exact h
    · intro h
      refine ⟨_, _, rfl, by rw [List.getElem?_map, List.getElem?_range ht]; rfl, ?_⟩
      rw [List.getElem?_map, List.getElem?_range hsl, Option.map_some, Option.some.injEq, decide_eq_true_eq]
      exact ⟨gen, hs, h⟩

/-- An error `Y` on one qubit in round 1, and a wrong outcome in round 0. -/
def twoFaults {n : Nat} (q : Fin n) (s : Nat) : Faults n :=
  ⟨fun t => if t = 1 then singleOp false .Y q else ⟨fun _ => false, fun _ => false, false⟩, fun t s' => t = 0 ∧ s' = s⟩

theorem twoFaults_count {n r m : Nat} (q : Fin n) (s : Nat) : (twoFaults q s).count r m none ≤ 2 := by
  unfold Faults.count
  have h1 : Set.ncard {p : Nat × Fin n | p.1 < r ∧ (((twoFaults q s).data p.1).x p.2 || ((twoFaults q s).data p.1).z p.2) = true ∧ ¬ SynBit none p.1 p.2} ≤ 1 := by
    refine (Set.ncard_le_ncard (t := {(1, q)}) ?_ (Set.finite_singleton _)).trans (by rw [Set.ncard_singleton])
    rintro ⟨t, q'⟩ ⟨_, h, _⟩
    simp only [twoFaults] at h
    split at h
    · next ht =>
      have hq : q' = q := by simpa [singleOp, Letter.hasX, Letter.hasZ] using h
      exact Prod.ext ht hq
    · simp at h
  have h2 : Set.ncard {p : Nat × Nat | p.1 < r ∧ p.2 < m ∧ (twoFaults q s).meas p.1 p.2} ≤ 1 := by
    refine (Set.ncard_le_ncard (t := {(0, s)}) ?_ (Set.finite_singleton _)).trans (by rw [Set.ncard_singleton])
    rintro ⟨t, s'⟩ ⟨_, _, h1, h2⟩
    exact Prod.ext h1 h2
  omega

/-- The hypotheses of `C61_planar_partial`, `C61_toric_partial` and `C61_rotated_partial` are met, e.g. by two faults in three rounds of a code of size 7. -/
example {n : Nat} (q : Fin n) (stabs : List (Op n)) : ∃ (f : Faults n) (syn : Option (List (List Bool))), ShapeOk 3 n none ∧
    ShapeOk 3 stabs.length syn ∧ f.Shows 3 stabs syn ∧ 3 * f.count 3 stabs.length none + erasures n 3 none < 7 ∧ (f.data 1).x q = true := by
  obtain ⟨syn, h1, h2⟩ := exists_shows (r := 3) (stabs := stabs) (f := twoFaults q 4) (by rintro t s h ⟨rfl, _⟩; omega)
  refine ⟨_, _, fun a h => (by cases h), h1, h2, ?_, by simp [twoFaults, singleOp, Letter.hasX]⟩
  rw [show erasures n 3 none = 0 by unfold erasures; simp [SynBit]]
  have := twoFaults_count (r := 3) (m := stabs.length) q 4
  omega

/-- The hypotheses of `C61_repetition_partial` are met, e.g. by an error on one qubit while another is erased, on the code of size 5. -/
example {n : Nat} (q q' : Fin n) (stabs : List (Op n)) : ∃ (f : Faults n) (erased syn : Option (List (List Bool))), ShapeOk 1 n erased ∧
    ShapeOk 1 stabs.length syn ∧ f.Shows 1 stabs syn ∧ (∀ t q, (f.data t).z q = false) ∧ 3 * f.count 1 stabs.length erased + erasures n 1 erased < 5 ∧
    SynBit erased 0 q' ∧ (f.data 0).x q = true := by
  obtain ⟨syn, h1, h2⟩ := exists_shows (r := 1) (stabs := stabs) (f := ⟨fun _ => singleOp false .X q, fun _ _ => False⟩) (fun _ _ _ h => h)
  refine ⟨_, some [(List.finRange n).map fun i => decide (i = q')], _, ?_, h1, h2, fun _ _ => by simp [singleOp], ?_, ⟨_, _, rfl, rfl, by simp⟩, by simp [singleOp]⟩
  · intro l hl
    cases hl
    simp
  · have e1 : erasures n 1 (some [(List.finRange n).map fun i => decide (i = q')]) ≤ 1 := by
      unfold erasures
      refine (Set.ncard_le_ncard (t := {(0, q')}) ?_ (Set.finite_singleton _)).trans (by rw [Set.ncard_singleton])
      rintro ⟨t, i⟩ ⟨ht, a, row, ha, hr, hb⟩
      obtain rfl : t = 0 := by dsimp only at ht; omega
      cases ha; cases hr
      simp at hb
      exact Prod.ext rfl hb
    have e2 : Faults.count ⟨fun _ => singleOp false .X q, fun _ _ => False⟩ 1 stabs.length (some [(List.finRange n).map fun i => decide (i = q')]) ≤ 1 := by
      unfold Faults.count
      simp only [and_false, Set.ofPred_false, Set.ncard_empty, Nat.add_zero]
      refine (Set.ncard_le_ncard (t := {(0, q)}) ?_ (Set.finite_singleton _)).trans (by rw [Set.ncard_singleton])
      rintro ⟨t, i⟩ ⟨ht, h, _⟩
      obtain rfl : t = 0 := by dsimp only at ht; omega
      exact Prod.ext rfl (by simpa [singleOp, Letter.hasX, Letter.hasZ] using h)
    omega

end Plaquette
