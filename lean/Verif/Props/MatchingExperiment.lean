import Verif.Lemmas.MatchingSolver
import Verif.Lemmas.MatchingBackend
import Verif.Props.Experiment

/-!
# Errors on less than half of the size are corrected by PyMatching and Fusion Blossom (C74), in whole experiments (C75)
-/

namespace Plaquette
variable {F : Type}

/-! ## C74 -/

/-- **C74 (the planar code)**: PyMatching and Fusion Blossom without weights correct all errors (of qubits and outcomes) on less than half as many places as the size of the
code; for Fusion Blossom, erased qubits count once. -/
theorem C74_planar (r size : Nat) (h3 : 3 ≤ size) : ∃ c, makePlanar r size = .ok c ∧
    (∀ (rounds : Nat) (solve : PmGraph → List Bool → Except Err (List Bool)) (f : Faults c.n) (syn : Option (List (List Bool))), IsPyMatching solve →
      ShapeOk rounds c.code.stabilisers.length syn → f.Shows rounds c.code.stabilisers syn →
      2 * f.count rounds c.code.stabilisers.length none < size → Corrects (pmBackend solve) c rounds f none syn) ∧
    ∀ (rounds : Nat) (solve : FbGraph → List Nat → List Nat → Except Err (List Nat)) (f : Faults c.n) (erased syn : Option (List (List Bool))),
      IsFusionBlossom solve → ShapeOk rounds c.n erased → ShapeOk rounds c.code.stabilisers.length syn → f.Shows rounds c.code.stabilisers syn →
      2 * f.count rounds c.code.stabilisers.length erased + erasures c.n rounds erased < size → Corrects (fbBackend solve) c rounds f erased syn := by
  obtain ⟨c, hc, h⟩ := planar_few r size h3
  refine ⟨c, hc, fun rounds solve f syn hS hsyn hf hcount => ?_, fun rounds solve f erased syn hS her hsyn hf hcount => ?_⟩
  · exact h rounds _ _ 2 false (pm_few hS) f none syn (fun a h => by cases h) hsyn hf (fun _ _ _ ⟨_, _, h, _⟩ => by cases h) (by simp)
      (by rw [no_erasures]; exact hcount)
  · exact h rounds _ _ 2 true (fb_few hS) f erased syn her hsyn hf (by simp) (by simp) hcount

/-- **C74 (the toric code)**: PyMatching and Fusion Blossom without weights correct all errors (of qubits and outcomes) on less than half as many places as the size of the
code; for Fusion Blossom, erased qubits count once. -/
theorem C74_toric (r size : Nat) (h3 : 3 ≤ size) : ∃ c, makeToric r size = .ok c ∧
    (∀ (rounds : Nat) (solve : PmGraph → List Bool → Except Err (List Bool)) (f : Faults c.n) (syn : Option (List (List Bool))), IsPyMatching solve →
      ShapeOk rounds c.code.stabilisers.length syn → f.Shows rounds c.code.stabilisers syn →
      2 * f.count rounds c.code.stabilisers.length none < size → Corrects (pmBackend solve) c rounds f none syn) ∧
    ∀ (rounds : Nat) (solve : FbGraph → List Nat → List Nat → Except Err (List Nat)) (f : Faults c.n) (erased syn : Option (List (List Bool))),
      IsFusionBlossom solve → ShapeOk rounds c.n erased → ShapeOk rounds c.code.stabilisers.length syn → f.Shows rounds c.code.stabilisers syn →
      2 * f.count rounds c.code.stabilisers.length erased + erasures c.n rounds erased < size → Corrects (fbBackend solve) c rounds f erased syn := by
  obtain ⟨c, hc, h⟩ := toric_few r size h3
  refine ⟨c, hc, fun rounds solve f syn hS hsyn hf hcount => ?_, fun rounds solve f erased syn hS her hsyn hf hcount => ?_⟩
  · exact h rounds _ _ 2 false (pm_few hS) f none syn (fun a h => by cases h) hsyn hf (fun _ _ _ ⟨_, _, h, _⟩ => by cases h) (by simp)
      (by rw [no_erasures]; exact hcount)
  · exact h rounds _ _ 2 true (fb_few hS) f erased syn her hsyn hf (by simp) (by simp) hcount

/-- **C74 (the rotated code and the XZZX code, without erased qubits (see C56))**: PyMatching and Fusion Blossom without weights correct all errors (of qubits and outcomes) on less than half as many places as the size of the
code; for Fusion Blossom the same. -/
theorem C74_rotated (r size : Nat) (xzzx : Bool) (h2 : 2 ≤ size) : ∃ c, makeRotated r size xzzx = .ok c ∧
    (∀ (rounds : Nat) (solve : PmGraph → List Bool → Except Err (List Bool)) (f : Faults c.n) (syn : Option (List (List Bool))), IsPyMatching solve →
      ShapeOk rounds c.code.stabilisers.length syn → f.Shows rounds c.code.stabilisers syn →
      2 * f.count rounds c.code.stabilisers.length none < size → Corrects (pmBackend solve) c rounds f none syn) ∧
    ∀ (rounds : Nat) (solve : FbGraph → List Nat → List Nat → Except Err (List Nat)) (f : Faults c.n) (syn : Option (List (List Bool))),
      IsFusionBlossom solve → ShapeOk rounds c.code.stabilisers.length syn → f.Shows rounds c.code.stabilisers syn →
      2 * f.count rounds c.code.stabilisers.length none < size → Corrects (fbBackend solve) c rounds f none syn := by
  obtain ⟨c, hc, h⟩ := rotated_few r size xzzx h2
  refine ⟨c, hc, fun rounds solve f syn hS hsyn hf hcount => ?_, fun rounds solve f syn hS hsyn hf hcount => ?_⟩
  · exact h rounds _ _ 2 false (pm_few hS) f none syn (fun a h => by cases h) hsyn hf (fun _ _ _ ⟨_, _, h, _⟩ => by cases h) (by simp)
      (by rw [no_erasures]; exact hcount)
  · exact h rounds _ _ 2 true (fb_few hS) f none syn (fun a h => by cases h) hsyn hf (fun _ _ _ ⟨_, _, h, _⟩ => by cases h) (by simp)
      (by rw [no_erasures]; exact hcount)

/-- **C74 (the repetition code and errors without phase flips)**: PyMatching and Fusion Blossom without weights correct all errors (of qubits and outcomes) on less than half as many places as the size of the
code; for Fusion Blossom, erased qubits count once. -/
theorem C74_repetition (r size : Nat) (hodd : size % 2 = 1) (h3 : 3 ≤ size) : ∃ c, makeRepetition r size = .ok c ∧
    (∀ (rounds : Nat) (solve : PmGraph → List Bool → Except Err (List Bool)) (f : Faults c.n) (syn : Option (List (List Bool))), IsPyMatching solve →
      ShapeOk rounds c.code.stabilisers.length syn → f.Shows rounds c.code.stabilisers syn → (∀ t q, (f.data t).z q = false) →
      2 * f.count rounds c.code.stabilisers.length none < size → Corrects (pmBackend solve) c rounds f none syn) ∧
    ∀ (rounds : Nat) (solve : FbGraph → List Nat → List Nat → Except Err (List Nat)) (f : Faults c.n) (erased syn : Option (List (List Bool))),
      IsFusionBlossom solve → ShapeOk rounds c.n erased → ShapeOk rounds c.code.stabilisers.length syn → f.Shows rounds c.code.stabilisers syn → (∀ t q, (f.data t).z q = false) →
      2 * f.count rounds c.code.stabilisers.length erased + erasures c.n rounds erased < size → Corrects (fbBackend solve) c rounds f erased syn := by
  obtain ⟨c, hc, h⟩ := repetition_few r size hodd h3
  refine ⟨c, hc, fun rounds solve f syn hS hsyn hf hz hcount => ?_, fun rounds solve f erased syn hS her hsyn hf hz hcount => ?_⟩
  · exact h rounds _ _ 2 false (pm_few hS) f none syn (fun a h => by cases h) hsyn hf (fun _ _ _ ⟨_, _, h, _⟩ => by cases h) (fun _ => hz)
      (by rw [no_erasures]; exact hcount)
  · exact h rounds _ _ 2 true (fb_few hS) f erased syn her hsyn hf (by simp) (fun _ => hz) hcount

/-- The hypotheses are met, e.g. by a measurement error and an error `Y` later on the planar or toric code of size 5 (union find needs size 7, see C61). -/
example {n : Nat} (q : Fin n) (stabs : List (Op n)) : ∃ (f : Faults n) (syn : Option (List (List Bool))), ShapeOk 3 n none ∧
    ShapeOk 3 stabs.length syn ∧ f.Shows 3 stabs syn ∧ 2 * f.count 3 stabs.length none + erasures n 3 none < 5 ∧ (f.data 1).x q = true := by
  obtain ⟨syn, h1, h2⟩ := exists_shows (r := 3) (stabs := stabs) (f := twoFaults q 4) (by rintro t s h ⟨rfl, _⟩; omega)
  refine ⟨_, _, fun a h => (by cases h), h1, h2, ?_, by simp [twoFaults, singleOp, Letter.hasX]⟩
  rw [no_erasures]
  have := twoFaults_count (r := 3) (m := stabs.length) q 4
  omega

example : (∃ solve, IsPyMatching solve) ∧ ∃ solve, IsFusionBlossom solve := ⟨exists_pyMatching, exists_fusionBlossom⟩

/-! ## C75 -/

/-- **C75 (planar code)**: the sample of a shot is that of the faults that its events show, and less than half as many faults as the size of the code are decoded
successfully by PyMatching (if nothing can be erased) and by Fusion Blossom (erased qubits count once). -/
theorem C75_planar (api : FloatApi F) (rng : Rng F) (r size : Nat) (hr : 1 ≤ r) (h3 : 3 ≤ size) (c : LatCode) (hc : makePlanar r size = .ok c)
    (qe ge : List (List Char × ErrDict F)) (hg : ∀ e ∈ ge, e.2 = []) (sel : LogicalSel) (anc : Bool) (hZ : anc = true ∨ OnlyZ c sel)
    (circ : List (Gate F)) (S0 S : Sim (numberOfQubits circ)) (s : Sample)
    (h : generateCircuit api c qe ge sel anc = .ok circ) (hrun : S0.run api rng circ true = .ok S)
    (hsam : Sample.fromRaw c S.results.1 S.results.2 anc = .ok s) :
    ∃ N : Noise, N.Gives c r (flagsOf qe) sel (S0.reset.events api rng circ) s ∧
      ((∀ q < c.n, (flagsOf qe).erasure q = false) → 2 * N.count c.n c.code.stabilisers.length r + N.losses c.n r < size →
        ∀ solve, IsPyMatching solve → Succeeds (pmBackend solve) c r sel s) ∧
      (2 * N.count c.n c.code.stabilisers.length r + N.losses c.n r < size → ∀ solve, IsFusionBlossom solve → Succeeds (fbBackend solve) c r sel s) := by
  obtain ⟨N, h1, h2⟩ := planar_shots api rng r size hr h3 c hc qe ge hg sel anc hZ circ S0 S s h hrun hsam
  exact ⟨N, h1, fun hq hd solve hS => h2 _ _ 2 false (pm_few hS) (fun _ => hq) hd, fun hd solve hS => h2 _ _ 2 true (fb_few hS) (by simp) hd⟩

/-- **C75 (toric code)**: the sample of a shot is that of the faults that its events show, and less than half as many faults as the size of the code are decoded
successfully by PyMatching (if nothing can be erased) and by Fusion Blossom (erased qubits count once). -/
theorem C75_toric (api : FloatApi F) (rng : Rng F) (r size : Nat) (hr : 1 ≤ r) (h3 : 3 ≤ size) (c : LatCode) (hc : makeToric r size = .ok c)
    (qe ge : List (List Char × ErrDict F)) (hg : ∀ e ∈ ge, e.2 = []) (sel : LogicalSel) (anc : Bool) (hZ : anc = true ∨ OnlyZ c sel)
    (circ : List (Gate F)) (S0 S : Sim (numberOfQubits circ)) (s : Sample)
    (h : generateCircuit api c qe ge sel anc = .ok circ) (hrun : S0.run api rng circ true = .ok S)
    (hsam : Sample.fromRaw c S.results.1 S.results.2 anc = .ok s) :
    ∃ N : Noise, N.Gives c r (flagsOf qe) sel (S0.reset.events api rng circ) s ∧
      ((∀ q < c.n, (flagsOf qe).erasure q = false) → 2 * N.count c.n c.code.stabilisers.length r + N.losses c.n r < size →
        ∀ solve, IsPyMatching solve → Succeeds (pmBackend solve) c r sel s) ∧
      (2 * N.count c.n c.code.stabilisers.length r + N.losses c.n r < size → ∀ solve, IsFusionBlossom solve → Succeeds (fbBackend solve) c r sel s) := by
  obtain ⟨N, h1, h2⟩ := toric_shots api rng r size hr h3 c hc qe ge hg sel anc hZ circ S0 S s h hrun hsam
  exact ⟨N, h1, fun hq hd solve hS => h2 _ _ 2 false (pm_few hS) (fun _ => hq) hd, fun hd solve hS => h2 _ _ 2 true (fb_few hS) (by simp) hd⟩

/-- **C75 (rotated code and XZZX code, without erasures)**: the sample of a shot is that of the faults that its events show, and less than half as many faults as the size of the code are decoded
successfully by PyMatching (if nothing can be erased) and by Fusion Blossom (erased qubits count once). -/
theorem C75_rotated (api : FloatApi F) (rng : Rng F) (r size : Nat) (xzzx : Bool) (hr : 1 ≤ r) (h2 : 2 ≤ size) (c : LatCode) (hc : makeRotated r size xzzx = .ok c)
    (qe ge : List (List Char × ErrDict F)) (hg : ∀ e ∈ ge, e.2 = []) (hq : ∀ q < c.n, (flagsOf qe).erasure q = false) (sel : LogicalSel) (anc : Bool) (hZ : anc = true ∨ OnlyZ c sel)
    (circ : List (Gate F)) (S0 S : Sim (numberOfQubits circ)) (s : Sample)
    (h : generateCircuit api c qe ge sel anc = .ok circ) (hrun : S0.run api rng circ true = .ok S)
    (hsam : Sample.fromRaw c S.results.1 S.results.2 anc = .ok s) :
    ∃ N : Noise, N.Gives c r (flagsOf qe) sel (S0.reset.events api rng circ) s ∧
      ((∀ q < c.n, (flagsOf qe).erasure q = false) → 2 * N.count c.n c.code.stabilisers.length r + N.losses c.n r < size →
        ∀ solve, IsPyMatching solve → Succeeds (pmBackend solve) c r sel s) ∧
      (2 * N.count c.n c.code.stabilisers.length r + N.losses c.n r < size → ∀ solve, IsFusionBlossom solve → Succeeds (fbBackend solve) c r sel s) := by
  obtain ⟨N, h1, h2⟩ := rotated_shots api rng r size xzzx hr h2 c hc qe ge hg hq sel anc hZ circ S0 S s h hrun hsam
  exact ⟨N, h1, fun hq hd solve hS => h2 _ _ 2 false (pm_few hS) (fun _ => hq) hd, fun hd solve hS => h2 _ _ 2 true (fb_few hS) (by simp) hd⟩

/-- **C75 (repetition code, logical operator Z measured with an ancilla)**: the sample of a shot is that of the faults that its events show, and less than half as many faults as the size of the code are decoded
successfully by PyMatching (if nothing can be erased) and by Fusion Blossom (erased qubits count once). -/
theorem C75_repetition (api : FloatApi F) (rng : Rng F) (r size : Nat) (hr : 1 ≤ r) (hodd : size % 2 = 1) (h3 : 3 ≤ size) (c : LatCode) (hc : makeRepetition r size = .ok c)
    (qe ge : List (List Char × ErrDict F)) (hg : ∀ e ∈ ge, e.2 = []) (sel : LogicalSel) (hZ : OnlyZ c sel)
    (circ : List (Gate F)) (S0 S : Sim (numberOfQubits circ)) (s : Sample)
    (h : generateCircuit api c qe ge sel true = .ok circ) (hrun : S0.run api rng circ true = .ok S)
    (hsam : Sample.fromRaw c S.results.1 S.results.2 true = .ok s) :
    ∃ N : Noise, N.Gives c r (flagsOf qe) sel (S0.reset.events api rng circ) s ∧
      ((∀ q < c.n, (flagsOf qe).erasure q = false) → 2 * N.count c.n c.code.stabilisers.length r + N.losses c.n r < size →
        ∀ solve, IsPyMatching solve → Succeeds (pmBackend solve) c r sel s) ∧
      (2 * N.count c.n c.code.stabilisers.length r + N.losses c.n r < size → ∀ solve, IsFusionBlossom solve → Succeeds (fbBackend solve) c r sel s) := by
  obtain ⟨N, h1, h2⟩ := repetition_shots api rng r size hr hodd h3 c hc qe ge hg sel hZ circ S0 S s h hrun hsam
  exact ⟨N, h1, fun hq hd solve hS => h2 _ _ 2 false (pm_few hS) (fun _ => hq) hd, fun hd solve hS => h2 _ _ 2 true (fb_few hS) (by simp) hd⟩

/-- **C75 (rate; planar code)**: the rate that `run` would return (see C68) is 0 if in each shot there are less than half as many faults as the size, for Fusion Blossom. -/
theorem C75_planar_rate_fb (api : FloatApi F) (rng : Rng F) (pos r size : Nat) (hr : 1 ≤ r) (h3 : 3 ≤ size) (c : LatCode) (hc : makePlanar r size = .ok c)
    (qe ge : List (List Char × ErrDict F)) (hg : ∀ e ∈ ge, e.2 = []) (sel : LogicalSel) (hZ : OnlyZ c sel) (hall : AllOrNone c (flagsOf qe))
    (circ : List (Gate F)) (h : generateCircuit api c qe ge sel false = .ok circ) (shots : Nat) (hs : 1 ≤ shots)
    (solve : FbGraph → List Nat → List Nat → Except Err (List Nat)) (hS : IsFusionBlossom solve)
    (negLog : ℚ → Option FW) (tiny : ℚ) (errs : Option ErrData) (g : SynGraph FW) (states : List FbGraph)
    (hf : fromCode FW.isInf negLog tiny (fbBackend solve) c errs (some false) none = .ok (g, states))
    (hgood : GoodShots 2 api rng (anyExperiment c circ (fbBackend solve) g states shots sel) pos r (flagsOf qe) size) :
    (anyExperiment c circ (fbBackend solve) g states shots sel).rate api rng pos = .ok 0 :=
  planar_rate api rng pos r size hr h3 c hc qe ge hg sel hZ hall circ h shots hs (fb_few hS) (by simp) negLog tiny errs g states hf hgood

/-- **C75 (rate; planar code)**: the same for PyMatching, if nothing can be erased. -/
theorem C75_planar_rate_pm (api : FloatApi F) (rng : Rng F) (pos r size : Nat) (hr : 1 ≤ r) (h3 : 3 ≤ size) (c : LatCode) (hc : makePlanar r size = .ok c)
    (qe ge : List (List Char × ErrDict F)) (hg : ∀ e ∈ ge, e.2 = []) (sel : LogicalSel) (hZ : OnlyZ c sel) (hq : ∀ q < c.n, (flagsOf qe).erasure q = false)
    (circ : List (Gate F)) (h : generateCircuit api c qe ge sel false = .ok circ) (shots : Nat) (hs : 1 ≤ shots)
    (solve : PmGraph → List Bool → Except Err (List Bool)) (hS : IsPyMatching solve)
    (negLog : ℚ → Option FW) (tiny : ℚ) (errs : Option ErrData) (g : SynGraph FW) (states : List PmGraph)
    (hf : fromCode FW.isInf negLog tiny (pmBackend solve) c errs (some false) none = .ok (g, states))
    (hgood : GoodShots 2 api rng (anyExperiment c circ (pmBackend solve) g states shots sel) pos r (flagsOf qe) size) :
    (anyExperiment c circ (pmBackend solve) g states shots sel).rate api rng pos = .ok 0 :=
  planar_rate api rng pos r size hr h3 c hc qe ge hg sel hZ (.inl hq) circ h shots hs (pm_few hS) (fun _ => hq) negLog tiny errs g states hf hgood

/-- **C75 (rate; toric code)**: the rate that `run` would return (see C68) is 0 if in each shot there are less than half as many faults as the size, for Fusion Blossom. -/
theorem C75_toric_rate_fb (api : FloatApi F) (rng : Rng F) (pos r size : Nat) (hr : 1 ≤ r) (h3 : 3 ≤ size) (c : LatCode) (hc : makeToric r size = .ok c)
    (qe ge : List (List Char × ErrDict F)) (hg : ∀ e ∈ ge, e.2 = []) (sel : LogicalSel) (hZ : OnlyZ c sel) (hall : AllOrNone c (flagsOf qe))
    (circ : List (Gate F)) (h : generateCircuit api c qe ge sel false = .ok circ) (shots : Nat) (hs : 1 ≤ shots)
    (solve : FbGraph → List Nat → List Nat → Except Err (List Nat)) (hS : IsFusionBlossom solve)
    (negLog : ℚ → Option FW) (tiny : ℚ) (errs : Option ErrData) (g : SynGraph FW) (states : List FbGraph)
    (hf : fromCode FW.isInf negLog tiny (fbBackend solve) c errs (some false) none = .ok (g, states))
    (hgood : GoodShots 2 api rng (anyExperiment c circ (fbBackend solve) g states shots sel) pos r (flagsOf qe) size) :
    (anyExperiment c circ (fbBackend solve) g states shots sel).rate api rng pos = .ok 0 :=
  toric_rate api rng pos r size hr h3 c hc qe ge hg sel hZ hall circ h shots hs (fb_few hS) (by simp) negLog tiny errs g states hf hgood

/-- **C75 (rate; toric code)**: the same for PyMatching, if nothing can be erased. -/
theorem C75_toric_rate_pm (api : FloatApi F) (rng : Rng F) (pos r size : Nat) (hr : 1 ≤ r) (h3 : 3 ≤ size) (c : LatCode) (hc : makeToric r size = .ok c)
    (qe ge : List (List Char × ErrDict F)) (hg : ∀ e ∈ ge, e.2 = []) (sel : LogicalSel) (hZ : OnlyZ c sel) (hq : ∀ q < c.n, (flagsOf qe).erasure q = false)
    (circ : List (Gate F)) (h : generateCircuit api c qe ge sel false = .ok circ) (shots : Nat) (hs : 1 ≤ shots)
    (solve : PmGraph → List Bool → Except Err (List Bool)) (hS : IsPyMatching solve)
    (negLog : ℚ → Option FW) (tiny : ℚ) (errs : Option ErrData) (g : SynGraph FW) (states : List PmGraph)
    (hf : fromCode FW.isInf negLog tiny (pmBackend solve) c errs (some false) none = .ok (g, states))
    (hgood : GoodShots 2 api rng (anyExperiment c circ (pmBackend solve) g states shots sel) pos r (flagsOf qe) size) :
    (anyExperiment c circ (pmBackend solve) g states shots sel).rate api rng pos = .ok 0 :=
  toric_rate api rng pos r size hr h3 c hc qe ge hg sel hZ (.inl hq) circ h shots hs (pm_few hS) (fun _ => hq) negLog tiny errs g states hf hgood

/-- **C75 (rate; rotated code and XZZX code)**: the rate that `run` would return (see C68) is 0 if in each shot there are less than half as many faults as the size, for Fusion Blossom. -/
theorem C75_rotated_rate_fb (api : FloatApi F) (rng : Rng F) (pos r size : Nat) (hr : 1 ≤ r) (h2 : 2 ≤ size) (xzzx : Bool) (c : LatCode) (hc : makeRotated r size xzzx = .ok c)
    (qe ge : List (List Char × ErrDict F)) (hg : ∀ e ∈ ge, e.2 = []) (sel : LogicalSel) (hZ : OnlyZ c sel) (hq : ∀ q < c.n, (flagsOf qe).erasure q = false)
    (circ : List (Gate F)) (h : generateCircuit api c qe ge sel false = .ok circ) (shots : Nat) (hs : 1 ≤ shots)
    (solve : FbGraph → List Nat → List Nat → Except Err (List Nat)) (hS : IsFusionBlossom solve)
    (negLog : ℚ → Option FW) (tiny : ℚ) (errs : Option ErrData) (g : SynGraph FW) (states : List FbGraph)
    (hf : fromCode FW.isInf negLog tiny (fbBackend solve) c errs (some false) none = .ok (g, states))
    (hgood : GoodShots 2 api rng (anyExperiment c circ (fbBackend solve) g states shots sel) pos r (flagsOf qe) size) :
    (anyExperiment c circ (fbBackend solve) g states shots sel).rate api rng pos = .ok 0 :=
  rotated_rate api rng pos r size hr h2 xzzx c hc qe ge hg sel hZ hq circ h shots hs (fb_few hS) (by simp) negLog tiny errs g states hf hgood

/-- **C75 (rate; rotated code and XZZX code)**: the same for PyMatching, if nothing can be erased. -/
theorem C75_rotated_rate_pm (api : FloatApi F) (rng : Rng F) (pos r size : Nat) (hr : 1 ≤ r) (h2 : 2 ≤ size) (xzzx : Bool) (c : LatCode) (hc : makeRotated r size xzzx = .ok c)
    (qe ge : List (List Char × ErrDict F)) (hg : ∀ e ∈ ge, e.2 = []) (sel : LogicalSel) (hZ : OnlyZ c sel) (hq : ∀ q < c.n, (flagsOf qe).erasure q = false)
    (circ : List (Gate F)) (h : generateCircuit api c qe ge sel false = .ok circ) (shots : Nat) (hs : 1 ≤ shots)
    (solve : PmGraph → List Bool → Except Err (List Bool)) (hS : IsPyMatching solve)
    (negLog : ℚ → Option FW) (tiny : ℚ) (errs : Option ErrData) (g : SynGraph FW) (states : List PmGraph)
    (hf : fromCode FW.isInf negLog tiny (pmBackend solve) c errs (some false) none = .ok (g, states))
    (hgood : GoodShots 2 api rng (anyExperiment c circ (pmBackend solve) g states shots sel) pos r (flagsOf qe) size) :
    (anyExperiment c circ (pmBackend solve) g states shots sel).rate api rng pos = .ok 0 :=
  rotated_rate api rng pos r size hr h2 xzzx c hc qe ge hg sel hZ hq circ h shots hs (pm_few hS) (fun _ => hq) negLog tiny errs g states hf hgood

/-! ### Example -/

set_option maxRecDepth 100000 in
theorem rep3_one : noisySample natApi (rngBits []) ((Rep.lat 3).latCode 1) onePauli (.str "Z".toList) true =
    .ok ([false], [[true, true]], none) := by
  decide +kernel

set_option maxRecDepth 100000 in
/-- C75 for a run in which an error happens on the repetition code of size 3. -/
example : ∃ circ S s, generateCircuit natApi ((Rep.lat 3).latCode 1) onePauli [] (.str "Z".toList) true = .ok circ ∧
    (Sim.fresh (numberOfQubits circ) 0).run natApi (rngBits []) circ true = .ok S ∧ s.syndrome = [[true, true]] ∧
    ∃ solve, IsPyMatching solve ∧ Succeeds (pmBackend solve) ((Rep.lat 3).latCode 1) 1 (.str "Z".toList) s := by
  obtain ⟨circ, S, s, h1, h2, h3, h4⟩ := noisySample_inv rep3_one
  simp only [Prod.mk.injEq] at h4
  have hc : makeRepetition 1 3 = .ok ((Rep.lat 3).latCode 1) := by
    rw [makeRepetition, Rep.make 3 (by decide) (by omega)]; exact mkLatCode_ok (Rep.wf 3 (by omega)) (Rep.full 3 (by omega)) 1
  have hz : OnlyZ ((Rep.lat 3).latCode 1) (.str "Z".toList) := by
    intro is his i hi a ha q
    have e : logicalOpsToIndices ((Rep.lat 3).latCode 1).code.logicalOps.length (.str "Z".toList) = .ok [1] := by decide +kernel
    rw [e] at his
    cases his
    obtain rfl := List.mem_singleton.1 hi
    cases ha
    revert q
    decide +kernel
  obtain ⟨solve, hS⟩ := exists_pyMatching
  obtain ⟨N, hN, hok, -⟩ := C75_repetition natApi (rngBits []) 1 3 (by omega) (by decide) (by omega) _ hc onePauli [] (by simp) _ hz circ _ S s h1 h2 h3
  refine ⟨circ, S, s, h1, h2, h4.2.1.symm, solve, hS, hok ?_ ?_ solve hS⟩
  · have : ∀ q < 3, (flagsOf onePauli).erasure q = false := by decide +kernel
    intro q hq
    have hn : ((Rep.lat 3).latCode 1).n = 3 := by decide +kernel
    exact this q (by rw [← hn]; exact hq)
  have hn : ((Rep.lat 3).latCode 1).n = 3 := by decide +kernel
  have hp : ∀ t, ∀ q < 3, q ≠ 1 → N.pauli t q = 0 := fun t q hq h1 => hN.only.pauli t q (.inl (by
    have : ∀ q < 3, q ≠ 1 → (flagsOf onePauli).pauli q = false := by decide +kernel
    exact this q hq h1))
  have he : ∀ t, ∀ q < 3, N.erased t q = false := fun t q hq => hN.only.erased t q (.inl (by
    have : ∀ q < 3, (flagsOf onePauli).erasure q = false := by decide +kernel
    exact this q hq))
  have c1 : N.count ((Rep.lat 3).latCode 1).n ((Rep.lat 3).latCode 1).code.stabilisers.length 1 ≤ 1 + 0 := by
    unfold Noise.count
    refine Nat.add_le_add ?_ ?_
    · refine (Set.ncard_le_ncard (t := {(0, 1)}) ?_ (Set.finite_singleton _)).trans (by rw [Set.ncard_singleton])
      rintro ⟨t, q⟩ ⟨h1, h5, h2, _⟩
      have ht : t = 0 := by dsimp only at h1; omega
      subst ht
      by_cases hq : q = 1
      · rw [hq]; rfl
      · exact absurd (hp 0 q (by rw [← hn]; exact h5) hq) h2
    · rw [Nat.le_zero, Set.ncard_eq_zero (finite_pairs _ _ _)]
      refine Set.eq_empty_of_forall_notMem ?_
      rintro ⟨t, q⟩ ⟨h1, _, h2⟩
      rw [hN.only.last t q (by dsimp only at h1; omega)] at h2
      cases h2
  have c2 : N.losses ((Rep.lat 3).latCode 1).n 1 = 0 := by
    unfold Noise.losses
    rw [Set.ncard_eq_zero (finite_pairs _ _ _)]
    refine Set.eq_empty_of_forall_notMem ?_
    rintro ⟨t, q⟩ ⟨_, h5, h2⟩
    rw [he t q (by rw [← hn]; exact h5)] at h2
    cases h2
  omega

end Plaquette
