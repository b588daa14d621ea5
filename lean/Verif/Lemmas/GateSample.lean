import Verif.Lemmas.GateSteps
import Verif.Props.PauliFrame

/-!
# The sample of a run with faulty gates
-/

namespace Plaquette
variable {F : Type} {n : Nat} {api : FloatApi F} {rng : Rng F} {L : Lattice} {fl : Flags} {ge1 : Name → Nat → List (Gate F)} {ge2 : Name → Nat → Nat → List (Gate F)} {pg eg err : Nat → List (Gate F)}

/-! ### Lists -/

theorem zipWith_flatten : ∀ (as bs : List (List Bool)), as.map List.length = bs.map List.length →
    List.zipWith xor as.flatten bs.flatten = (List.zipWith (List.zipWith xor) as bs).flatten
  | [], [], _ => rfl
  | [], _ :: _, h => by cases h
  | _ :: _, [], h => by cases h
  | a :: as, b :: bs, h => by
    rw [List.map_cons, List.map_cons, List.cons.injEq] at h
    rw [List.flatten_cons, List.flatten_cons, List.zipWith_append h.1, zipWith_flatten as bs h.2]
    rfl

theorem parity_zip : ∀ (a b : List Bool), a.length = b.length → parity (List.zipWith xor a b) = (parity a ^^ parity b)
  | [], [], _ => rfl
  | [], _ :: _, h => by cases h
  | _ :: _, [], h => by cases h
  | a :: as, b :: bs, h => by
    rw [List.zipWith_cons_cons, parity_cons, parity_cons, parity_cons, parity_zip as bs (by simpa using h)]
    cases a <;> cases b <;> simp

theorem zips_parity {α : Type} (xs : List α) {u v : α → Bool} : ∀ (as bs : List (List Bool)), as.map List.length = bs.map List.length → as.map parity = xs.map u → bs.map parity = xs.map v →
    (List.zipWith (List.zipWith xor) as bs).map parity = xs.map fun a => u a ^^ v a := by
  induction xs with
  | nil =>
    intro as bs _ h2 _
    rw [List.map_nil, List.map_eq_nil_iff] at h2
    rw [h2]; rfl
  | cons x xs ih =>
    intro as bs h1 h2 h3
    cases as with
    | nil => cases h2
    | cons a as =>
      cases bs with
      | nil => cases h3
      | cons b bs =>
        simp only [List.map_cons, List.cons.injEq] at h1 h2 h3
        rw [List.zipWith_cons_cons, List.map_cons, List.map_cons, ih as bs h1.2 h2.2 h3.2, parity_zip a b h1.1, h2.1, h3.1]

theorem zips_length : ∀ (as bs : List (List Bool)), as.map List.length = bs.map List.length → (List.zipWith (List.zipWith xor) as bs).map List.length = as.map List.length
  | [], [], _ => rfl
  | [], _ :: _, h => by cases h
  | _ :: _, [], h => by cases h
  | a :: as, b :: bs, h => by
    rw [List.map_cons, List.map_cons, List.cons.injEq] at h
    rw [List.zipWith_cons_cons, List.map_cons, List.map_cons, zips_length as bs h.2, List.length_zipWith, h.1, Nat.min_self]

/-! ### The form of the circuit -/

theorem gateGates_all (h : L.Wf) (hs : L.Sched) (hE : AllErrs L fl ge1 ge2 pg eg err) {anc : Bool} {r : Nat} {as : List Pos} :
    ∀ g ∈ L.gateGates ge1 ge2 pg eg err anc r as, GateForm g := by
  have hc : ∀ gs : List (Gate F), (∀ g ∈ gs, g.name.noisy = false) → ∀ g ∈ gs, GateForm g := fun gs h g hg => .plain g (h g hg)
  have hd : ∀ g ∈ dataGates pg eg (List.range L.dataqubits.length), GateForm g := by
    intro g hg
    unfold dataGates at hg
    obtain ⟨i, hi, hg⟩ := List.mem_flatMap.1 hg
    rw [List.mem_range] at hi
    rcases List.mem_append.1 hg with hg | hg
    · rcases (hE.qubit.pauli i hi).1 with e | ⟨x, y, z, e⟩ <;> rw [e] at hg
      · cases hg
      · rw [List.mem_singleton.1 hg]; exact .pauli ..
    · rcases (hE.qubit.erase i hi).1 with e | ⟨x, e⟩ <;> rw [e] at hg
      · cases hg
      · rw [List.mem_singleton.1 hg]; exact .erase ..
  have hr : ∀ g ∈ L.gateRound ge1 ge2 err, GateForm g := by
    refine gateRound_all h hs (fun nm a hn => ?_) (fun e _ => ?_) ?_ ?_ ?_
    · rcases hn with rfl | rfl | rfl <;> exact .plain _ rfl
    · refine .plain _ ?_
      unfold ctl
      split <;> rfl
    · intro nm a g hg
      rcases hE.one nm a with e | ⟨x, y, z, e⟩ <;> rw [e] at hg
      · cases hg
      · rw [List.mem_singleton.1 hg]; exact .pauli ..
    · intro nm a b g hg
      rcases hE.two nm a b with e | ⟨l, hl, e⟩ <;> rw [e] at hg
      · cases hg
      · rw [List.mem_singleton.1 hg]; exact .two _ _ _ _ hl rfl
    · intro a ha g hg
      rcases (hE.qubit.flip a ha).1 with e | ⟨l, e⟩ <;> rw [e] at hg
      · cases hg
      · rw [List.mem_singleton.1 hg]; exact .flip ..
  intro g hg
  unfold Lattice.gateGates at hg
  simp only [List.mem_append, List.mem_flatten, List.mem_replicate] at hg
  rcases hg with hg | hg | ⟨l, ⟨_, rfl⟩, hg⟩ | hg | hg | hg
  · exact hc _ (clean_sel L anc as) g hg
  · exact hc _ (clean_noisyRound L) g hg
  · rcases List.mem_append.1 hg with hg | hg
    · exact hd g hg
    · exact hr g hg
  · exact hd g hg
  · exact hc _ (clean_noisyRound L) g hg
  · exact hc _ (clean_sel L anc as) g hg

theorem noiseless_clean {gs : List (Gate F)} (h : ∀ g ∈ gs, g.name.noisy = false) : noiseless gs = gs :=
  List.filter_eq_self.2 fun g hg => by rw [h g hg]; rfl

theorem noiseless_errs {gs : List (Gate F)} (h : ∀ g ∈ gs, g.name.noisy = true) : noiseless gs = [] :=
  List.filter_eq_nil_iff.2 fun g hg => by rw [h g hg]; simp

theorem noiseless_append (a b : List (Gate F)) : noiseless (a ++ b) = noiseless a ++ noiseless b := List.filter_append ..

theorem noiseless_flatMap {α : Type} (l : List α) (f : α → List (Gate F)) : noiseless (l.flatMap f) = l.flatMap fun a => noiseless (f a) := List.filter_flatMap ..

theorem pauli_noisy {i : Nat} {gs : List (Gate F)} (h : PauliGate i gs) : noiseless gs = [] := by
  rcases h with rfl | ⟨_, _, _, rfl⟩ <;> rfl

theorem erase_noisy {i : Nat} {gs : List (Gate F)} (h : EraseGate i gs) : noiseless gs = [] := by
  rcases h with rfl | ⟨_, rfl⟩ <;> rfl

theorem flip_noisy {i : Nat} {gs : List (Gate F)} (h : FlipGate i gs) : noiseless gs = [] := by
  rcases h with rfl | ⟨_, rfl⟩ <;> rfl

theorem pair_noisy {a b : Nat} {gs : List (Gate F)} (h : PairGate a b gs) : noiseless gs = [] := by
  rcases h with rfl | ⟨_, _, rfl⟩ <;> rfl

theorem noiseless_cons {g : Gate F} (h : g.name.noisy = false) (gs : List (Gate F)) : noiseless (g :: gs) = g :: noiseless gs := by
  unfold noiseless
  rw [List.filter_cons_of_pos (by rw [h]; rfl)]

theorem noiseless_round (hE : AllErrs L fl ge1 ge2 pg eg err) : noiseless (L.gateRound ge1 ge2 err) = L.noisyRound fun _ => [] := by
  rw [← gateRound_clean]
  unfold Lattice.gateRound
  rw [noiseless_flatMap]
  refine List.flatMap_congr fun b hb => ?_
  have hst : ∀ a ∈ b.1, a ∈ L.stabgens.map Prod.fst := fun a ha => by rw [← stabBlocks_anc]; exact List.mem_flatMap.2 ⟨b, hb, ha⟩
  unfold gateBlock
  rw [noiseless_append, noiseless_append, noiseless_flatMap, noiseless_flatMap, noiseless_flatMap]
  congr 1
  · refine List.flatMap_congr fun a _ => ?_
    unfold prepErr
    rw [noiseless_append, noiseless_cons rfl, noiseless_cons rfl, pauli_noisy (hE.one _ _), pauli_noisy (hE.one _ _)]
  · congr 1
    · refine List.flatMap_congr fun e _ => ?_
      unfold edgeErr
      rw [noiseless_cons (by unfold ctl; split <;> rfl), pair_noisy (hE.two _ _ _)]
    · refine List.flatMap_congr fun a ha => ?_
      unfold readErr
      rw [noiseless_append, noiseless_append, noiseless_cons rfl, noiseless_cons rfl, pauli_noisy (hE.one _ _), pauli_noisy (hE.one _ _), flip_noisy (hE.qubit.flip a (hst a ha)).1]

theorem noiseless_data (hE : AllErrs L fl ge1 ge2 pg eg err) : noiseless (dataGates pg eg (List.range L.dataqubits.length)) = [] := by
  unfold dataGates
  rw [noiseless_flatMap, List.flatMap_eq_nil_iff]
  intro i hi
  rw [List.mem_range] at hi
  rw [noiseless_append, pauli_noisy (hE.qubit.pauli i hi).1, erase_noisy (hE.qubit.erase i hi).1]
  rfl

theorem noiseless_gates (hE : AllErrs L fl ge1 ge2 pg eg err) (anc : Bool) (r : Nat) (as : List Pos) :
    noiseless (L.gateGates ge1 ge2 pg eg err anc r as) = L.noisyGates (fun _ => []) (fun _ => []) (fun _ => []) anc r as := by
  have hd : dataGates (F := F) (fun _ => []) (fun _ => []) (List.range L.dataqubits.length) = [] := by
    unfold dataGates
    rw [List.flatMap_eq_nil_iff]
    exact fun _ _ => rfl
  have hr : ∀ k, noiseless ((List.replicate k (dataGates pg eg (List.range L.dataqubits.length) ++ L.gateRound ge1 ge2 err)).flatten) =
      (List.replicate k (dataGates (fun _ => []) (fun _ => []) (List.range L.dataqubits.length) ++ L.noisyRound fun _ => [])).flatten := by
    intro k
    induction k with
    | zero => rfl
    | succ k ih =>
      rw [List.replicate_succ, List.flatten_cons, List.replicate_succ, List.flatten_cons, noiseless_append, ih, noiseless_append, noiseless_data hE, noiseless_round hE, hd]
  unfold Lattice.gateGates Lattice.noisyGates
  rw [noiseless_append, noiseless_append, noiseless_append, noiseless_append, noiseless_append, hr, noiseless_data hE, noiseless_clean (clean_sel L anc as),
    noiseless_clean (clean_noisyRound L), hd]

theorem noisyRound_plain (L : Lattice) : L.noisyRound (F := F) (fun _ => []) = L.roundGates.map toGate := by
  unfold Lattice.noisyRound Lattice.roundGates
  rw [List.map_flatMap]
  exact List.flatMap_congr fun b _ => by rw [← (gateBlock_clean _ _ _).1, (gateBlock_clean _ _ _).2]

theorem noisyGates_plain (h : L.Wf) (hc : L.Comm) (hs : L.Sched) (anc : Bool) (r : Nat) {as : List Pos} (has : ∀ a ∈ as, a ∈ L.ancillas) :
    ∀ g ∈ L.noisyGates (F := F) (fun _ => []) (fun _ => []) (fun _ => []) anc r as, ∃ x, PlainGate x ∧ g = toGate x := by
  have hq := quiet_plain (F := F) h hc hs anc r as has
  have h1 : ∀ g ∈ L.selGates (F := F) anc as, ∃ x, PlainGate x ∧ g = toGate x := by
    intro g hg
    unfold Lattice.selGates at hg
    obtain ⟨x, hx, rfl⟩ := List.mem_map.1 hg
    exact ⟨x, hq x (List.mem_append_right _ hx), rfl⟩
  have h2 : ∀ g ∈ L.noisyRound (F := F) (fun _ => []), ∃ x, PlainGate x ∧ g = toGate x := by
    intro g hg
    rw [noisyRound_plain] at hg
    obtain ⟨x, hx, rfl⟩ := List.mem_map.1 hg
    exact ⟨x, hq x (List.mem_append_left _ (List.mem_append_right _ (List.mem_flatten.2 ⟨_, List.mem_replicate.2 ⟨by omega, rfl⟩, hx⟩))), rfl⟩
  have h3 : ∀ g ∈ dataGates (F := F) (fun _ => []) (fun _ => []) (List.range L.dataqubits.length), ∃ x, PlainGate x ∧ g = toGate x := by
    intro g hg
    obtain ⟨_, _, hg⟩ := List.mem_flatMap.1 hg
    cases hg
  intro g hg
  unfold Lattice.noisyGates at hg
  simp only [List.mem_append, List.mem_flatten, List.mem_replicate] at hg
  rcases hg with hg | hg | ⟨l, ⟨_, rfl⟩, hg⟩ | hg | hg | hg
  · exact h1 g hg
  · exact h2 g hg
  · rcases List.mem_append.1 hg with hg | hg
    · exact h3 g hg
    · exact h2 g hg
  · exact h3 g hg
  · exact h2 g hg
  · exact h1 g hg

theorem gateGates_twoOk (h : L.Wf) (hc : L.Comm) (hs : L.Sched) (hE : AllErrs L fl ge1 ge2 pg eg err) {anc : Bool} {r : Nat} {as : List Pos} (has : ∀ a ∈ as, a ∈ L.ancillas) :
    ∀ g ∈ L.gateGates ge1 ge2 pg eg err anc r as, g.TwoOk := by
  intro g hg
  have no : ∀ {nm : Name} {args : List (Val F)}, nm ≠ .CX → nm ≠ .CZ → TwoOk nm args := fun h1 h2 h => (h.elim h1 h2).elim
  cases gateGates_all h hs hE g hg with
  | plain g hn =>
    have hm : g ∈ noiseless (L.gateGates ge1 ge2 pg eg err anc r as) := List.mem_filter.2 ⟨hg, by rw [hn]; rfl⟩
    rw [noiseless_gates hE] at hm
    obtain ⟨x, hx, rfl⟩ := noisyGates_plain h hc hs anc r has _ hm
    have := hx.two
    clear hn hm hg
    rcases hx with ⟨nm, i, hnm, rfl⟩ | ⟨nm, i, j, hnm, _, rfl⟩
    · rcases hnm with rfl | rfl | rfl <;> exact this
    · rcases hnm with rfl | rfl <;> exact this
  | pauli => exact no (by simp) (by simp)
  | two g l q1 q2 hl hg => subst hg; exact no (by simp) (by simp)
  | erase => exact no (by simp) (by simp)
  | flip => exact no (by simp) (by simp)

/-! ### The frame in the whole circuit -/

/-- The trace of the rounds, and what is blamed for their faults. -/
def RoundBlame (L : Lattice) (ge1 : Name → Nat → List (Gate F)) (ge2 : Name → Nat → Nat → List (Gate F)) (pg eg err : Nat → List (Gate F)) (anc : Bool) (r : Nat) (as : List Pos)
    (tr : List (Kicked1 F)) (p e : Nat → Nat → Bool) (Q W : Nat → Finset Nat) : Prop :=
  ∃ (pre post : List (Kicked1 F)) (trs : Nat → List (Kicked1 F)), tr = pre ++ (List.range r).flatMap trs ++ post ∧ pre.map Prod.fst = L.selGates anc as ++ (L.noisyRound fun _ => []) ∧
    (∀ t < r - 1, (trs t).map Prod.fst = dataGates pg eg (List.range L.dataqubits.length) ++ L.gateRound ge1 ge2 err) ∧
    (trs (r - 1)).map Prod.fst = dataGates pg eg (List.range L.dataqubits.length) ++ (L.noisyRound fun _ => []) ∧ ∀ t < r, Blamed L (trs t) (p t) (e t) (Q t) (W t)

theorem circuit_frame (h : L.Wf) (hc : L.Comm) (hs : L.Sched) (hf : L.Full) (hE : AllErrs L fl ge1 ge2 pg eg err) {w deg : Nat} (hS : L.Sparse w deg)
    {anc : Bool} {as : List Pos} (has : ∀ a ∈ as, a ∈ L.ancillas) (hZ : anc = true ∨ ∀ a ∈ as, ∀ e ∈ L.opEdges a, e.factor = .Z) {r : Nat} (hr : 1 ≤ r)
    {tr : List (Kicked1 F)} (ht : Trace (L.gateGates ge1 ge2 pg eg err anc r as) tr) :
    ∃ (B : Nat → PFrame) (p e : Nat → Nat → Bool) (Q W : Nat → Finset Nat) (rows : Nat → List Bool) (fi ff : List (List Bool)),
      (∀ t < r, ∀ q < L.dataqubits.length, p t q = false → e t q = false → q ∉ shift ∅ Q t → (B t).At (shift .zero B t) q) ∧
      (∀ t < r, List.Forall₂ (fun a b => L.idx a ∉ W t → b = anti ((B t).op L.dataqubits.length) (L.vop a)) (L.stabgens.map Prod.fst) (rows t)) ∧
      PFrame.zero.flips (trSteps tr) = fi.flatten ++ ((List.range (r + 1)).map (shift ((L.stabgens.map Prod.fst).map fun _ => false) rows)).flatten ++ ff.flatten ∧
      fi.map List.length = as.map (L.selLen anc) ∧ ff.map List.length = as.map (L.selLen anc) ∧
      fi.map parity = as.map (fun _ => false) ∧ ff.map parity = as.map (fun a => anti ((shift .zero B r).op L.dataqubits.length) (L.vop a)) ∧ W (r - 1) = ∅ ∧
      trLoss tr = (List.range r).flatMap (fun t => (List.range L.dataqubits.length).flatMap fun i => if eg i = [] then [] else [e t i]) ∧
      (∀ t i, (i < L.dataqubits.length → eg i = []) → e t i = false) ∧
      (∑ t ∈ Finset.range r, ((List.range L.dataqubits.length).countP (p t) + (Q t).card + (W t).card)) ≤ faultWeight L.dataqubits.length (w * (deg + 1)) tr ∧
      RoundBlame L ge1 ge2 pg eg err anc r as tr p e Q W := by
  obtain ⟨k, rfl⟩ : ∃ k, r = k + 1 := ⟨r - 1, by omega⟩
  have hz : ∀ a, anti (PFrame.zero.op L.dataqubits.length) (L.vop a) = false := fun a => anti_zero (fun _ => rfl) fun _ => rfl
  unfold Lattice.gateGates at ht
  rw [Nat.add_sub_cancel] at ht
  obtain ⟨t1, t2, rfl, h1, ht⟩ := ht.append
  obtain ⟨t2, t3, rfl, h2, ht⟩ := ht.append
  rw [← List.append_assoc, ← List.append_assoc, List.append_assoc (List.flatten _)] at ht
  obtain ⟨t3, t4, rfl, h3, h4⟩ := ht.append
  obtain ⟨a1, a2, fi, a3, a4, a5⟩ := sel_frame h hs as has hZ h1 (f := .zero) (D := .zero) fun q _ => .refl _ q
  obtain ⟨b1, b2, b3⟩ := round_clean h hc hs h2 a1
  obtain ⟨B, p, e, Q, W, rows, c1, c2, c3, c4, c5, c6, c7, c8, trs, c9, c10, c11, c12⟩ := rounds_frame h hc hs hf hE hS k h3 (D0 := .zero) (Q0 := ∅) fun q hq _ => b1 q hq
  obtain ⟨d1, d2, ff, d3, d4, d5⟩ := sel_frame h hs as has hZ h4 c5
  refine ⟨B, p, e, Q, W, rows, fi, ff, c1, c2, ?_, a4, d4, ?_, d5, c4, ?_, c7, ?_, t1 ++ t2, t4, trs, ?_, ?_, c10, c11, c12⟩
  · rw [trSteps_append, trSteps_append, trSteps_append, flips_append, flips_append, flips_append, a3, b3, c3, d3, List.range_succ_eq_map (n := k + 1), List.map_cons, List.map_map,
      List.flatten_cons, List.flatMap_def, List.append_assoc, List.append_assoc]
    have e1 : L.stabgens.map ((fun a => anti (PFrame.zero.op L.dataqubits.length) (L.vop a)) ∘ Prod.fst) = (L.stabgens.map Prod.fst).map fun _ => false := by
      rw [List.map_map]
      exact List.map_congr_left fun a _ => hz a.1
    have e2 : ∀ x : List Bool, (List.map (shift x rows) (List.map Nat.succ (List.range (k + 1)))) = List.map rows (List.range (k + 1)) := fun x => by rw [List.map_map]; rfl
    rw [e1, e2]
    rfl
  · rw [a5]
    exact List.map_congr_left fun a _ => hz a
  · rw [trLoss_append, trLoss_append, trLoss_append, a2, b2, c6, d2, List.append_nil]
    rfl
  · rw [faultWeight_append, faultWeight_append, faultWeight_append]
    omega
  · rw [← c9]
    simp only [List.append_assoc]
  · rw [List.map_append, h1.fst, h2.fst]

/-! ### The faults -/

/-- The number of a Pauli matrix. -/
def numXZ (x z : Bool) : Fin 4 := if x then (if z then 2 else 1) else (if z then 3 else 0)

theorem numX_of (x z : Bool) : numX (numXZ x z) = x := by cases x <;> cases z <;> rfl
theorem numZ_of (x z : Bool) : numZ (numXZ x z) = z := by cases x <;> cases z <;> rfl

/-- The faults given by frames: the change of the frame from round to round, and the results that do not agree with it. -/
def frameNoise (L : Lattice) (B : Nat → PFrame) (e : Nat → Nat → Bool) (rows : Nat → List Bool) (r : Nat) : Noise where
  pauli t q := numXZ ((B t).x q ^^ (shift .zero B t).x q) ((B t).z q ^^ (shift .zero B t).z q)
  erased := e
  scramble _ _ := 0
  wrong t s := decide (t + 1 < r) && (List.zipWith (fun a b => b ^^ anti ((B t).op L.dataqubits.length) (L.vop a)) (L.stabgens.map Prod.fst) (rows t)).getD s false

variable {B : Nat → PFrame} {e : Nat → Nat → Bool} {rows : Nat → List Bool} {r : Nat}

theorem frameNoise_anti (m : Op L.dataqubits.length) (t : Nat) : anti ((frameNoise L B e rows r).op L.dataqubits.length t) m =
    (anti ((B t).op L.dataqubits.length) m ^^ anti ((shift .zero B t).op L.dataqubits.length) m) := by
  refine anti_add (fun q => ?_) (fun q => ?_)
  · show (numX (numXZ _ _) ^^ numX 0) = _
    rw [numX_of]
    exact Bool.xor_false _
  · show (numZ (numXZ _ _) ^^ numZ 0) = _
    rw [numZ_of]
    exact Bool.xor_false _

theorem frameNoise_sum (m : Op L.dataqubits.length) (t : Nat) : xsum (List.range t) (fun u => anti ((frameNoise L B e rows r).op L.dataqubits.length u) m) =
    anti ((shift .zero B t).op L.dataqubits.length) m := by
  induction t with
  | zero => exact (anti_zero (fun _ => rfl) fun _ => rfl).symm
  | succ t ih =>
    rw [List.range_succ, xsum_append, ih]
    have e1 : xsum [t] (fun u => anti ((frameNoise L B e rows r).op L.dataqubits.length u) m) = anti ((frameNoise L B e rows r).op L.dataqubits.length t) m := by simp
    rw [e1, frameNoise_anti]
    show _ = anti ((B t).op L.dataqubits.length) m
    generalize anti ((B t).op L.dataqubits.length) m = x
    generalize anti ((shift PFrame.zero B t).op L.dataqubits.length) m = y
    cases x <;> cases y <;> rfl

theorem frameNoise_row (hw : L.Wf) {W : Nat → Finset Nat} {t : Nat} (ht : t < r)
    (h : List.Forall₂ (fun a b => L.idx a ∉ W t → b = anti ((B t).op L.dataqubits.length) (L.vop a)) (L.stabgens.map Prod.fst) (rows t)) (hl : W (r - 1) = ∅) :
    rows t = (L.stabgens.map Prod.fst).map (fun a => anti ((B t).op L.dataqubits.length) (L.vop a) ^^ (frameNoise L B e rows r).wrong t (L.idx a - L.dataqubits.length)) ∧
      ∀ s, (frameNoise L B e rows r).wrong t s = true → L.dataqubits.length + s ∈ W t := by
  have hidx : ∀ i (hi : i < (L.stabgens.map Prod.fst).length), L.idx (L.stabgens.map Prod.fst)[i] = L.dataqubits.length + i := by
    intro i hi
    have := congrArg (fun l => l[i]?) hw.stab_range
    rw [List.length_map] at hi
    simp only [List.getElem?_map, List.getElem?_eq_getElem hi, Option.map_some, List.getElem?_range hi, Option.some.injEq] at this
    simpa using this
  rw [List.forall₂_iff_get] at h
  obtain ⟨h1, h2⟩ := h
  have hwr : ∀ i (hi : i < (L.stabgens.map Prod.fst).length) (hi' : i < (rows t).length), (List.zipWith (fun a b => b ^^ anti ((B t).op L.dataqubits.length) (L.vop a)) (L.stabgens.map Prod.fst) (rows t)).getD i false =
      ((rows t)[i] ^^ anti ((B t).op L.dataqubits.length) (L.vop (L.stabgens.map Prod.fst)[i])) := by
    intro i hi hi'
    rw [List.getD_eq_getElem?_getD, List.getElem?_eq_getElem (by rw [List.length_zipWith]; omega), Option.getD_some, List.getElem_zipWith]
  constructor
  · refine List.ext_getElem (by rw [List.length_map]; exact h1.symm) fun i i1 i2 => ?_
    rw [List.length_map] at i2
    rw [List.getElem_map, hidx i i2, Nat.add_sub_cancel_left]
    have hx := h2 i i2 i1
    rw [List.get_eq_getElem, List.get_eq_getElem] at hx
    dsimp only at hx
    show _ = (_ ^^ (decide (t + 1 < r) && _))
    rw [hwr i i2 i1]
    by_cases htr : t + 1 < r
    · rw [decide_eq_true htr, Bool.true_and]
      generalize anti ((B t).op L.dataqubits.length) _ = x
      cases x <;> cases (rows t)[i] <;> rfl
    · rw [decide_eq_false htr, Bool.false_and, Bool.xor_false]
      have : t = r - 1 := by omega
      refine hx ?_
      rw [this, hl]
      simp
  · intro s hs
    have hs : (decide (t + 1 < r) && (List.zipWith (fun a b => b ^^ anti ((B t).op L.dataqubits.length) (L.vop a)) (L.stabgens.map Prod.fst) (rows t)).getD s false) = true := hs
    rw [Bool.and_eq_true] at hs
    by_cases hi : s < (L.stabgens.map Prod.fst).length
    · have hs2 := hs.2
      rw [hwr s hi (by omega)] at hs2
      by_contra hc
      have hx := h2 s hi (by omega) (by rw [List.get_eq_getElem]; dsimp only; rw [hidx s hi]; exact hc)
      rw [List.get_eq_getElem, List.get_eq_getElem] at hx
      dsimp only at hx
      rw [hx] at hs2
      simp at hs2
    · have hs2 := hs.2
      rw [List.getD_eq_getElem?_getD, List.getElem?_eq_none (by rw [List.length_zipWith]; omega)] at hs2
      cases hs2

/-! ### Counting -/

theorem ncard_rows {n r : Nat} {P : Nat → Nat → Prop} {X : Nat → Finset Nat} (h : ∀ t < r, ∀ q < n, P t q → q ∈ X t) :
    Set.ncard {p : Nat × Fin n | p.1 < r ∧ P p.1 p.2} ≤ ∑ t ∈ Finset.range r, (X t).card := by
  classical
  have inj : Function.Injective fun p : Nat × Fin n => (p.1, p.2.val) := by
    rintro ⟨a, b⟩ ⟨a', b'⟩ e
    simp only [Prod.mk.injEq] at e
    exact Prod.ext e.1 (Fin.ext e.2)
  rw [← Set.ncard_image_of_injective _ inj]
  refine (Set.ncard_le_ncard (t := ((Finset.range r).biUnion fun t => (X t).image fun q => (t, q) : Finset (Nat × Nat))) ?_ (Finset.finite_toSet _)).trans ?_
  · rintro _ ⟨⟨t, q⟩, ⟨h1, h2⟩, rfl⟩
    dsimp only at h1 h2
    rw [Finset.mem_coe, Finset.mem_biUnion]
    exact ⟨t, Finset.mem_range.2 h1, Finset.mem_image.2 ⟨q, h t h1 q q.2 h2, rfl⟩⟩
  · rw [Set.ncard_coe_finset]
    exact Finset.card_biUnion_le.trans (Finset.sum_le_sum fun t _ => Finset.card_image_le)

theorem ncard_rows' {n r : Nat} {P : Nat → Nat → Prop} {X : Nat → Finset Nat} (h : ∀ t < r, ∀ q < n, P t q → q ∈ X t) :
    Set.ncard {p : Nat × Nat | p.1 < r ∧ p.2 < n ∧ P p.1 p.2} ≤ ∑ t ∈ Finset.range r, (X t).card := by
  classical
  refine (Set.ncard_le_ncard (t := ((Finset.range r).biUnion fun t => (X t).image fun q => (t, q) : Finset (Nat × Nat))) ?_ (Finset.finite_toSet _)).trans ?_
  · rintro ⟨t, q⟩ ⟨h1, h2, h3⟩
    rw [Finset.mem_coe, Finset.mem_biUnion]
    exact ⟨t, Finset.mem_range.2 h1, Finset.mem_image.2 ⟨q, h t h1 q h2 h3, rfl⟩⟩
  · rw [Set.ncard_coe_finset]
    exact Finset.card_biUnion_le.trans (Finset.sum_le_sum fun t _ => Finset.card_image_le)

theorem card_filter_range (d : Nat) (p : Nat → Bool) : ((Finset.range d).filter fun q => p q = true).card = (List.range d).countP p := by
  rw [List.countP_eq_length_filter, ← List.toFinset_card_of_nodup (List.nodup_range.filter _)]
  congr 1
  ext q
  simp

theorem sum_shift (Q : Nat → Finset Nat) (r : Nat) : ∑ t ∈ Finset.range r, (shift ∅ Q t).card ≤ ∑ t ∈ Finset.range r, (Q t).card := by
  cases r with
  | zero => simp
  | succ r =>
    rw [Finset.sum_range_succ', Finset.sum_range_succ]
    have : (shift (∅ : Finset Nat) Q 0).card = 0 := rfl
    rw [this, Nat.add_zero]
    exact Nat.le_add_right _ _

theorem loss_sum {d : Nat} {e : Nat → Nat → Bool} (he : ∀ t i, eg i = [] → e t i = false) (r : Nat) :
    ((List.range r).flatMap fun t => (List.range d).flatMap fun i => if eg i = [] then [] else [e t i]).countP id = ∑ t ∈ Finset.range r, (List.range d).countP (e t) := by
  have h1 : ∀ t (l : List Nat), (l.flatMap fun i => if eg i = [] then [] else [e t i]).countP id = l.countP (e t) := by
    intro t l
    induction l with
    | nil => rfl
    | cons i l ih =>
      rw [List.flatMap_cons, List.countP_append, ih, List.countP_cons]
      split
      · next h0 => rw [he t i h0]; simp
      · cases e t i <;> simp [Nat.add_comm]
  induction r with
  | zero => rfl
  | succ r ih =>
    rw [List.range_succ, List.flatMap_append, List.countP_append, ih, Finset.sum_range_succ, List.flatMap_cons, List.flatMap_nil, List.append_nil, h1]

/-! ### The sample -/

theorem clean_noise {N : Noise} {d : Nat} (h : N.Only ⟨fun _ => false, fun _ => false, fun _ => false⟩ d r) (O : Op n) (t : Nat) : N.cum O t = false ∧ ∀ s, N.wrong t s = false := by
  refine ⟨?_, fun s => h.wrong t s rfl⟩
  induction t with
  | zero => rfl
  | succ t ih =>
    rw [Noise.cum, ih, Bool.false_xor, anti_symm]
    refine anti_zero (fun q => ?_) fun q => ?_
    · show (numX _ ^^ numX _) = false
      rw [h.pauli t q (.inl rfl), h.scramble t q (h.erased t q (.inl rfl))]; rfl
    · show (numZ _ ^^ numZ _) = false
      rw [h.pauli t q (.inl rfl), h.scramble t q (h.erased t q (.inl rfl))]; rfl

theorem zip_rows {α : Type} (l : List Nat) (as : List α) (v : α → Bool) (g : Nat → List Bool) (u : Nat → α → Bool) (h : ∀ t ∈ l, g t = as.map (u t)) :
    List.zipWith (List.zipWith xor) (l.map fun _ => as.map v) (l.map g) = l.map fun t => as.map fun a => v a ^^ u t a := by
  induction l with
  | nil => rfl
  | cons t l ih =>
    rw [List.map_cons, List.map_cons, List.map_cons, List.zipWith_cons_cons, ih fun t ht => h t (by simp [ht]), h t (by simp)]
    congr 1
    rw [List.zipWith_map]
    rw [List.zipWith_self]

/-- The sample of a run with faulty gates is the one of faults, whose number is bounded, and for which errors are blamed. -/
theorem gate_blame (hw : L.Wf) (hc : L.Comm) (hf : L.Full) (hs : L.Sched) (api : FloatApi F) (rng : Rng F) {r : Nat} (hr : 1 ≤ r)
    {qe : List (List Char × ErrDict F)} {sel : LogicalSel} {anc : Bool} {is : List Int}
    (his : logicalOpsToIndices L.logicals.length sel = .ok is)
    (hZ : anc = true ∨ ((∀ i ∈ is, ∀ e ∈ L.opEdges (L.selPos i), e.factor = .Z) ∧
      ∀ l, L.logicals[0]? = some l → ∀ i ∈ is, (L.opEdges (L.selPos i)).length = (L.opEdges l.1).length))
    {w deg : Nat} (hS : L.Sparse w deg)
    (hE : AllErrs L (flagsOf qe) ge1 ge2 pg eg err) (i3 : ∀ i ∈ is, 0 ≤ i ∧ i < L.logicals.length)
    (i4 : ∀ i ∈ is, ∀ j ∈ is, antiE (L.opEdges (L.selPos i)) (L.opEdges (L.selPos j)) = false)
    {S0 S : Sim (numberOfQubits (L.gateGates ge1 ge2 pg eg err anc r (is.map L.selPos)))} (hrun : S0.run api rng (L.gateGates ge1 ge2 pg eg err anc r (is.map L.selPos)) true = .ok S) :
    ∃ N : Noise, (∀ t q, (flagsOf qe).erasure q = false ∨ L.dataqubits.length ≤ q → N.erased t q = false) ∧
      ((∀ q < L.dataqubits.length, (flagsOf qe).erasure q = false) ∨ (∀ q < L.dataqubits.length, (flagsOf qe).erasure q = true) →
        ∃ s, Sample.fromRaw (L.latCode r) S.results.1 S.results.2 anc = .ok s) ∧
      ∀ s, Sample.fromRaw (L.latCode r) S.results.1 S.results.2 anc = .ok s →
        ((N.faults L.dataqubits.length).Shows r L.code.stabilisers (some s.syndrome) ∧ ShapeOk r L.stabgens.length (some s.syndrome) ∧
        s.toggle = is.map (fun i => xsum (List.range r) fun t => anti (N.op L.dataqubits.length t) (L.vop (L.selPos i))) ∧
        ShapeOk r L.dataqubits.length s.erased ∧ ∀ t < r, ∀ q < L.dataqubits.length, SynBit s.erased t q ↔ N.erased t q = true) ∧
        (N.faults L.dataqubits.length).count r L.stabgens.length s.erased ≤ faultWeight L.dataqubits.length (w * (deg + 1)) (S0.reset.trace api rng (L.gateGates ge1 ge2 pg eg err anc r (is.map L.selPos))) ∧
        erasures L.dataqubits.length r s.erased ≤ lossCount (S0.reset.trace api rng (L.gateGates ge1 ge2 pg eg err anc r (is.map L.selPos))) ∧
        ∃ p e Q W, RoundBlame L ge1 ge2 pg eg err anc r (is.map L.selPos) (S0.reset.trace api rng (L.gateGates ge1 ge2 pg eg err anc r (is.map L.selPos))) p e Q W ∧
          (∀ t < r, ∀ q : Fin L.dataqubits.length, ((((N.faults L.dataqubits.length).data t).x q || ((N.faults L.dataqubits.length).data t).z q) = true ∨ SynBit s.erased t q) →
            p t q = true ∨ e t q = true ∨ q.val ∈ shift ∅ Q t) ∧
          ∀ t < r, ∀ i, (N.faults L.dataqubits.length).meas t i → L.dataqubits.length + i ∈ W t := by
  have hn : L.dataqubits.length ≤ numberOfQubits (L.gateGates ge1 ge2 pg eg err anc r (is.map L.selPos)) :=
    round_fit hw hf hs fun _ hg => List.mem_append_right _ (List.mem_append_left _ hg)
  have hI : S0.reset.Is ⟨zeroVec _, S0.pos, [], []⟩ :=
    ⟨zeroState_valid _, (C05_zero_state _).2, rfl, rfl, rfl⟩
  unfold Sim.run at hrun
  rw [if_pos rfl] at hrun
  have has : ∀ a ∈ is.map L.selPos, a ∈ L.logicals.map Prod.fst := by
    intro a ha
    obtain ⟨i, hi, rfl⟩ := List.mem_map.mp ha
    have := i3 i hi
    have hlt : i.toNat < L.logicals.length := by omega
    unfold Lattice.selPos
    rw [List.getElem?_eq_getElem hlt]
    exact List.mem_map_of_mem (List.getElem_mem hlt)
  have hanc : ∀ a ∈ is.map L.selPos, a ∈ L.ancillas := fun a ha => List.mem_append_right _ (has a ha)
  have hZ' : anc = true ∨ ∀ a ∈ is.map L.selPos, ∀ e ∈ L.opEdges a, e.factor = .Z := hZ.imp id fun h a ha => by
      obtain ⟨i, hi, rfl⟩ := List.mem_map.mp ha
      exact h.1 i hi
  have hform := gateGates_all hw hs hE (anc := anc) (r := r) (as := is.map L.selPos)
  obtain ⟨rng', S1, ms, k1, k2, k3, k4, k5, _⟩ := C82_pauli_frame api rng _ (fun g hg => ⟨gateGates_twoOk hw hc hs hE hanc g hg, (hform g hg).errors⟩) S0.reset S hI.1 hrun
  rw [noiseless_gates hE] at k1
  rw [frameSteps_trace] at k3 k4
  obtain ⟨ht, hel⟩ := run_trace hform hrun
  obtain ⟨N0, v, inits, finals, hO, l1, l2, p1, p2, hm, _, _⟩ := noisy_results (rng := rng') hw hc hs hn has (by
      intro a ha b hb
      obtain ⟨i, hi, rfl⟩ := List.mem_map.mp ha
      obtain ⟨j, hj, rfl⟩ := List.mem_map.mp hb
      exact i4 i hi j hj) (anc := anc) hZ' (fl := ⟨fun _ => false, fun _ => false, fun _ => false⟩) (pg := fun _ => []) (eg := fun _ => []) (err := fun _ => [])
      ⟨fun _ _ => ⟨.inl rfl, by simp⟩, fun _ _ => ⟨.inl rfl, by simp⟩, fun _ _ => ⟨.inl rfl, by simp⟩⟩ hI (C05_zero_state _).2.1 hr k1
  generalize S0.reset.trace api rng (L.gateGates ge1 ge2 pg eg err anc r (is.map L.selPos)) = tr at *
  obtain ⟨B, p, e, Q, W, rows, fi, ff, c1, c2, c3, c4, c5, c6, c7, c8, c9, c10, c11, c12⟩ := circuit_frame hw hc hs hf hE hS hanc hZ' hr ht
  have hm0 : S0.reset.meas = [] := rfl
  have he0 : S0.reset.erasure = [] := rfl
  rw [hm0, List.nil_append] at hm k2 k4
  rw [he0, List.nil_append] at hel
  have hclean : ms = inits.flatten ++ (((List.range (r + 1)).map fun _ => (L.stabgens.map Prod.fst).map v).flatten ++ finals.flatten) := by
    rw [← k2, hm]
    congr 3
    refine List.map_congr_left fun t _ => List.map_congr_left fun a _ => ?_
    rw [(clean_noise hO _ t).1, (clean_noise hO (L.lop L.dataqubits.length a) (t - 1)).2]
    simp
  have p2' : finals.map parity = (is.map L.selPos).map v := by
    rw [p2]
    exact List.map_congr_left fun a _ => by rw [(clean_noise hO _ r).1, Bool.xor_false]
  have hrow : ∀ t < r, rows t = (L.stabgens.map Prod.fst).map (fun a => anti ((B t).op L.dataqubits.length) (L.vop a) ^^ (frameNoise L B e rows r).wrong t (L.idx a - L.dataqubits.length)) ∧
      ∀ s, (frameNoise L B e rows r).wrong t s = true → L.dataqubits.length + s ∈ W t := fun t ht => frameNoise_row hw ht (c2 t ht) c8
  set N := frameNoise L B e rows r with hN
  have hcum : ∀ a t, N.cum (L.lop (numberOfQubits (L.gateGates ge1 ge2 pg eg err anc r (is.map L.selPos))) a) t = anti ((shift .zero B t).op L.dataqubits.length) (L.vop a) := by
    intro a t
    rw [cum_xsum hw hs hn, hN, frameNoise_sum]
  have hrows' : ∀ t ∈ List.range (r + 1), shift ((L.stabgens.map Prod.fst).map fun _ => false) rows t = (L.stabgens.map Prod.fst).map fun a =>
      N.cum (L.lop (numberOfQubits (L.gateGates ge1 ge2 pg eg err anc r (is.map L.selPos))) a) t ^^ (decide (0 < t) && N.wrong (t - 1) (L.idx a - L.dataqubits.length)) := by
    intro t ht
    rw [List.mem_range] at ht
    cases t with
    | zero =>
      show (L.stabgens.map Prod.fst).map (fun _ => false) = _
      refine List.map_congr_left fun a _ => ?_
      rw [hcum, decide_eq_false (by omega), Bool.false_and, Bool.xor_false]
      exact (anti_zero (p := PFrame.zero.op L.dataqubits.length) (fun _ => rfl) fun _ => rfl).symm
    | succ t =>
      show rows t = _
      rw [(hrow t (by omega)).1]
      refine List.map_congr_left fun a _ => ?_
      rw [hcum, Nat.add_sub_cancel, decide_eq_true (Nat.succ_pos t), Bool.true_and]
      rfl
  have hmeas : S.meas = (List.zipWith (List.zipWith xor) inits fi).flatten ++ ((List.range (r + 1)).map fun t => (L.stabgens.map Prod.fst).map fun a =>
      v a ^^ N.cum (L.lop (numberOfQubits (L.gateGates ge1 ge2 pg eg err anc r (is.map L.selPos))) a) t ^^ (decide (0 < t) && N.wrong (t - 1) (L.idx a - L.dataqubits.length))).flatten ++
        (List.zipWith (List.zipWith xor) finals ff).flatten := by
    have q1 : inits.map List.length = fi.map List.length := by rw [l1, c4]
    have q2 : finals.map List.length = ff.map List.length := by rw [l2, c5]
    have q3 : ((List.range (r + 1)).map fun _ => (L.stabgens.map Prod.fst).map v).map List.length =
        ((List.range (r + 1)).map (shift ((L.stabgens.map Prod.fst).map fun _ => false) rows)).map List.length := by
      rw [List.map_congr_left hrows']
      generalize List.range (r + 1) = l
      simp only [List.map_map]
      refine List.map_congr_left fun t ht => ?_
      show List.length _ = List.length _
      simp only [List.length_map]
    have fl : ∀ {as bs : List (List Bool)}, as.map List.length = bs.map List.length → as.flatten.length = bs.flatten.length := by
      intro as bs h
      rw [List.length_flatten, List.length_flatten, h]
    rw [k4, hclean, c3, List.append_assoc, List.zipWith_append (fl q1), List.zipWith_append (fl q3), zipWith_flatten _ _ q1, zipWith_flatten _ _ q2, zipWith_flatten _ _ q3, zip_rows _ _ _ _ _ hrows',
      List.append_assoc]
    congr 3
    refine List.map_congr_left fun t _ => List.map_congr_left fun a _ => ?_
    rw [Bool.xor_assoc]
  have hq1 : (List.zipWith (List.zipWith xor) inits fi).map List.length = (is.map L.selPos).map (L.selLen anc) := by rw [zips_length _ _ (by rw [l1, c4]), l1]
  have hq2 : (List.zipWith (List.zipWith xor) finals ff).map List.length = (is.map L.selPos).map (L.selLen anc) := by rw [zips_length _ _ (by rw [l2, c5]), l2]
  have hq3 : (List.zipWith (List.zipWith xor) inits fi).map parity = (is.map L.selPos).map v := by
    rw [zips_parity _ _ _ (by rw [l1, c4]) p1 c6]
    exact List.map_congr_left fun a _ => Bool.xor_false _
  have hq4 : (List.zipWith (List.zipWith xor) finals ff).map parity =
      (is.map L.selPos).map fun a => v a ^^ N.cum (L.lop (numberOfQubits (L.gateGates ge1 ge2 pg eg err anc r (is.map L.selPos))) a) r := by
    rw [zips_parity _ _ _ (by rw [l2, c5]) p2' c7]
    exact List.map_congr_left fun a _ => by rw [hcum]
  have hNe : N.erased = e := rfl
  have hE' : ∀ t q, (flagsOf qe).erasure q = false → N.erased t q = false := fun t q hq => c10 t q fun hlt => (hE.qubit.erase q hlt).2.2 hq
  have hers : S.erasure = (List.range r).flatMap fun t => (List.range L.dataqubits.length).flatMap fun i => if (flagsOf qe).erasure i then [N.erased t i] else [] := by
    rw [hel, c9]
    refine List.flatMap_congr fun t _ => List.flatMap_congr fun i hi => ?_
    rw [hNe]
    cases hfl : (flagsOf qe).erasure i with
    | false => rw [if_pos ((hE.qubit.erase i (List.mem_range.1 hi)).2.2 hfl)]; rfl
    | true => rw [if_neg fun h0 => by rw [(hE.qubit.erase i (List.mem_range.1 hi)).2.1 h0] at hfl; cases hfl]; rfl
  have hlast : ∀ t s, r ≤ t + 1 → N.wrong t s = false := by
    intro t s hts
    show (decide (t + 1 < r) && _) = false
    rw [decide_eq_false (by omega), Bool.false_and]
  have hdata : ∀ t < r, ∀ q : Fin L.dataqubits.length, (((N.faults L.dataqubits.length).data t).x q || ((N.faults L.dataqubits.length).data t).z q) = true →
      p t q = true ∨ e t q = true ∨ q.val ∈ shift ∅ Q t := by
    intro t x1 q x2
    by_contra hcon
    rw [not_or, not_or, Bool.not_eq_true, Bool.not_eq_true] at hcon
    have hAt := c1 t x1 q q.2 hcon.1 hcon.2.1 hcon.2.2
    have x2 : ((numX (numXZ ((B t).x q ^^ (shift .zero B t).x q) ((B t).z q ^^ (shift .zero B t).z q)) ^^ numX 0) ||
      (numZ (numXZ ((B t).x q ^^ (shift .zero B t).x q) ((B t).z q ^^ (shift .zero B t).z q)) ^^ numZ 0)) = true := x2
    rw [numX_of, numZ_of, hAt.1, hAt.2] at x2
    simp [numX, numZ] at x2
  obtain ⟨r1, r2⟩ := sample_of_results hw hf hs hn hr his hZ hE' hlast hq1 hq2 hq3 hq4 hmeas hers
  refine ⟨N, fun t q hq => ?_, r1, fun s hsam => ⟨r2 s hsam, ?_, ?_, p, e, Q, W, c12, ?_, fun t ht i => (hrow t ht).2 i⟩⟩
  · rcases hq with hq | hq
    · exact hE' t q hq
    · exact c10 t q fun hlt => absurd hlt (by omega)
  · obtain ⟨_, _, _, _, r3⟩ := r2 s hsam
    refine le_trans ?_ c11
    have u1 : Set.ncard {p : Nat × Fin L.dataqubits.length | p.1 < r ∧ (((N.faults L.dataqubits.length).data p.1).x p.2 || ((N.faults L.dataqubits.length).data p.1).z p.2) = true ∧ ¬ SynBit s.erased p.1 p.2} ≤
        ∑ t ∈ Finset.range r, (((Finset.range L.dataqubits.length).filter fun q => p t q = true) ∪ shift ∅ Q t).card := by
      refine (Set.ncard_le_ncard ?_ ?_).trans (ncard_rows (n := L.dataqubits.length) (r := r) (P := fun t q => q ∈ ((Finset.range L.dataqubits.length).filter fun q => p t q = true) ∪ shift ∅ Q t) fun t _ q _ h => h)
      · rintro ⟨t, q⟩ ⟨x1, x2, x3⟩
        dsimp only at x1 x2 x3
        refine ⟨x1, ?_⟩
        rw [r3 t x1 q q.2, Bool.not_eq_true] at x3
        dsimp only
        rw [Finset.mem_union, Finset.mem_filter, Finset.mem_range]
        rcases hdata t x1 q x2 with k | k | k
        · exact .inl ⟨q.2, k⟩
        · rw [hNe, k] at x3; cases x3
        · exact .inr k
      · refine Set.Finite.subset ((Set.finite_Iio r).prod Set.finite_univ) ?_
        rintro ⟨t, q⟩ ⟨x1, _⟩
        exact ⟨x1, trivial⟩
    have u2 : Set.ncard {p : Nat × Nat | p.1 < r ∧ p.2 < L.stabgens.length ∧ (N.faults L.dataqubits.length).meas p.1 p.2} ≤ ∑ t ∈ Finset.range r, (W t).card := by
      refine (ncard_rows' (X := fun t => ((W t).image fun i => i - L.dataqubits.length)) fun t ht q _ hx => ?_).trans (Finset.sum_le_sum fun t _ => Finset.card_image_le)
      exact Finset.mem_image.2 ⟨_, (hrow t ht).2 q hx, Nat.add_sub_cancel_left ..⟩
    have u3 : ∑ t ∈ Finset.range r, (((Finset.range L.dataqubits.length).filter fun q => p t q = true) ∪ shift ∅ Q t).card ≤
        ∑ t ∈ Finset.range r, ((List.range L.dataqubits.length).countP (p t)) + ∑ t ∈ Finset.range r, (Q t).card := by
      refine (Finset.sum_le_sum fun t _ => Finset.card_union_le _ _).trans ?_
      rw [Finset.sum_add_distrib]
      refine Nat.add_le_add ?_ (sum_shift Q r)
      exact Finset.sum_le_sum fun t _ => by rw [card_filter_range]
    unfold Faults.count
    rw [Finset.sum_add_distrib, Finset.sum_add_distrib]
    omega
  · obtain ⟨_, _, _, _, r3⟩ := r2 s hsam
    rw [lossCount_eq, c9, loss_sum (fun t i hi => c10 t i fun _ => hi)]
    unfold erasures
    refine (ncard_rows (X := fun t => (Finset.range L.dataqubits.length).filter fun q => e t q = true) fun t ht q hq hx => ?_).trans (Finset.sum_le_sum fun t _ => by rw [card_filter_range])
    exact Finset.mem_filter.2 ⟨Finset.mem_range.2 hq, (r3 t ht q hq).1 hx⟩
  · obtain ⟨_, _, _, _, r3⟩ := r2 s hsam
    intro t ht q hq
    rcases hq with hq | hq
    · exact hdata t ht q hq
    · exact .inr (.inl ((r3 t ht q q.2).1 hq))

/-- The sample of a run with faulty gates is the one of faults, whose number is bounded. -/
theorem gate_sample (hw : L.Wf) (hc : L.Comm) (hf : L.Full) (hs : L.Sched) (api : FloatApi F) (rng : Rng F) {r : Nat} (hr : 1 ≤ r)
    {qe ge : List (List Char × ErrDict F)} {sel : LogicalSel} {anc : Bool} {is : List Int}
    (his : logicalOpsToIndices L.logicals.length sel = .ok is)
    (hZ : anc = true ∨ ((∀ i ∈ is, ∀ e ∈ L.opEdges (L.selPos i), e.factor = .Z) ∧
      ∀ l, L.logicals[0]? = some l → ∀ i ∈ is, (L.opEdges (L.selPos i)).length = (L.opEdges l.1).length))
    {w deg : Nat} (hS : L.Sparse w deg)
    {c : List (Gate F)} (h : generateCircuit api (L.latCode r) qe ge sel anc = .ok c) {S0 S : Sim (numberOfQubits c)}
    (hrun : S0.run api rng c true = .ok S) :
    ∃ N : Noise, (∀ t q, (flagsOf qe).erasure q = false ∨ L.dataqubits.length ≤ q → N.erased t q = false) ∧
      ((∀ q < L.dataqubits.length, (flagsOf qe).erasure q = false) ∨ (∀ q < L.dataqubits.length, (flagsOf qe).erasure q = true) →
        ∃ s, Sample.fromRaw (L.latCode r) S.results.1 S.results.2 anc = .ok s) ∧
      ∀ s, Sample.fromRaw (L.latCode r) S.results.1 S.results.2 anc = .ok s →
        ((N.faults L.dataqubits.length).Shows r L.code.stabilisers (some s.syndrome) ∧ ShapeOk r L.stabgens.length (some s.syndrome) ∧
        s.toggle = is.map (fun i => xsum (List.range r) fun t => anti (N.op L.dataqubits.length t) (L.vop (L.selPos i))) ∧
        ShapeOk r L.dataqubits.length s.erased ∧ ∀ t < r, ∀ q < L.dataqubits.length, SynBit s.erased t q ↔ N.erased t q = true) ∧
        (N.faults L.dataqubits.length).count r L.stabgens.length s.erased ≤ faultWeight L.dataqubits.length (w * (deg + 1)) (S0.reset.trace api rng c) ∧
        erasures L.dataqubits.length r s.erased ≤ lossCount (S0.reset.trace api rng c) := by
  obtain ⟨ge1, ge2, pg, eg, err, is', hE, i1, i2, i3, i4, rfl⟩ := gate_circuit hw hs h
  obtain rfl : is' = is := by rw [his] at i1; cases i1; rfl
  obtain ⟨N, h1, h2, h3⟩ := gate_blame hw hc hf hs api rng hr his hZ hS hE i3 i4 hrun
  exact ⟨N, h1, h2, fun s hs => ⟨(h3 s hs).1, (h3 s hs).2.1, (h3 s hs).2.2.1⟩⟩

end Plaquette
