import Verif.Lemmas.Qasm
import Verif.Lemmas.CircuitCount
import Verif.Props.StimDistribution

/-!
# Property C105: the distribution of the results of exported OpenQASM programs
-/

open Matrix
open scoped ENNReal

namespace Plaquette
variable {F : Type} {n : Nat} {prob : F → ℝ≥0∞}

/-- The classical bits written when the results `m` are stored from the bit `k` on. -/
def writesFrom (k : Nat) : List Bool → List (Nat × Bool)
  | [] => []
  | b :: m => (k, b) :: writesFrom (k + 1) m

theorem writesFrom_append (k : Nat) (m m' : List Bool) : writesFrom k (m ++ m') = writesFrom k m ++ writesFrom (k + m.length) m' := by
  induction m generalizing k with
  | nil => rfl
  | cons b m ih =>
    rw [List.cons_append, writesFrom, writesFrom, ih, List.length_cons, List.cons_append, show k + 1 + m.length = k + (m.length + 1) by omega]

theorem written_from (l : List Bool) (k : Nat) (m : List Bool) (h : k + m.length = l.length) : OpenQasm.written l (writesFrom k m) = l.take k ++ m := by
  induction m generalizing k l with
  | nil =>
    rw [writesFrom, List.append_nil, List.take_of_length_le (by simp at h; omega)]
    rfl
  | cons b m ih =>
    simp only [List.length_cons] at h
    rw [writesFrom, OpenQasm.written, List.foldl_cons]
    have := ih (l.set k b) (k + 1) (by rw [List.length_set]; omega)
    rw [OpenQasm.written] at this
    rw [this, List.take_add_one, List.take_set_of_le (by omega), List.getElem?_set_self (by omega)]
    simp

/-- An instrument as possibilities of a program that stores the results from the bit `k` on. -/
def toQ (k : Nat) (I : Instrument n) : List (OpenQasm.Branch n) := I.map fun b => ⟨b.op, writesFrom k b.meas⟩

theorem toQ_andThen {k L : Nat} {I J : Instrument n} (hI : ∀ b ∈ I, b.meas.length = L) : toQ k (I.andThen J) = OpenQasm.andThen (toQ k I) (toQ (k + L) J) := by
  unfold toQ Instrument.andThen OpenQasm.andThen
  rw [List.map_flatMap, List.flatMap_map]
  refine List.flatMap_congr fun a ha => ?_
  rw [List.map_map, List.map_map]
  refine List.map_congr_left fun b _ => ?_
  simp only [Function.comp_apply, writesFrom_append, hI a ha]

theorem q_assoc (I J K : List (OpenQasm.Branch n)) : OpenQasm.andThen (OpenQasm.andThen I J) K = OpenQasm.andThen I (OpenQasm.andThen J K) := by
  unfold OpenQasm.andThen
  rw [List.flatMap_assoc]
  refine List.flatMap_congr fun a _ => ?_
  rw [List.flatMap_map, List.map_flatMap]
  refine List.flatMap_congr fun b _ => ?_
  rw [List.map_map]
  refine List.map_congr_left fun c _ => ?_
  simp only [Function.comp_apply, Matrix.mul_assoc, List.append_assoc]

theorem q_one (J : List (OpenQasm.Branch n)) : OpenQasm.andThen [⟨1, []⟩] J = J := by
  unfold OpenQasm.andThen
  simp

theorem q_one_right (J : List (OpenQasm.Branch n)) : OpenQasm.andThen J [⟨1, []⟩] = J := by
  unfold OpenQasm.andThen
  simp

/-- The registers of the exported programs. -/
def qasmEnv (n K : Nat) : OpenQasm.Env := ⟨true, [(['q'], n)], [(['c'], K)]⟩

/-- The statements do what the instrument does, the results being stored from the bit `k` on. -/
def Exec (K k : Nat) (ss : List OpenQasm.Stmt) (I : Instrument n) : Prop := ∀ rest P, OpenQasm.meaning n (qasmEnv n K) rest = some P →
  OpenQasm.meaning n (qasmEnv n K) (ss ++ rest) = some { P with branches := OpenQasm.andThen (toQ k I) P.branches }

/-- Certain, without erasures, `L` results. -/
def Plain (L : Nat) (I : Instrument n) : Prop := ∀ b ∈ I, b.weight = 1 ∧ b.erasure = [] ∧ b.meas.length = L

theorem Plain.andThen {L M : Nat} {I J : Instrument n} (hI : Plain L I) (hJ : Plain M J) : Plain (L + M) (I.andThen J) := by
  intro b hb
  simp only [Instrument.andThen, List.mem_flatMap, List.mem_map] at hb
  obtain ⟨a, ha, c, hc, rfl⟩ := hb
  obtain ⟨a1, a2, a3⟩ := hI a ha
  obtain ⟨c1, c2, c3⟩ := hJ c hc
  refine ⟨?_, ?_, ?_⟩
  · simp [a1, c1]
  · simp [a2, c2]
  · simp [a3, c3]

theorem Plain.nothing : Plain 0 (Instrument.nothing : Instrument n) := by
  intro b hb
  rw [Instrument.nothing, List.mem_singleton] at hb
  subst hb
  exact ⟨rfl, rfl, rfl⟩

theorem Plain.gate (G : CGate n) : Plain 0 (Instrument.gate G) := by
  intro b hb
  rw [Instrument.gate, List.mem_singleton] at hb
  subst hb
  exact ⟨rfl, rfl, rfl⟩

theorem Plain.measure (q : Fin n) : Plain 1 (Instrument.measure q) := by
  intro b hb
  simp only [Instrument.measure, List.mem_cons, List.not_mem_nil, or_false] at hb
  rcases hb with rfl | rfl <;> exact ⟨rfl, rfl, rfl⟩

theorem Exec.nil (K k : Nat) : Exec K k [] (Instrument.nothing : Instrument n) := by
  intro rest P h
  rw [List.nil_append, h]
  have : toQ k (Instrument.nothing : Instrument n) = [⟨1, []⟩] := rfl
  rw [this, q_one]

theorem Exec.append {K k L : Nat} {ss ss' : List OpenQasm.Stmt} {I J : Instrument n} (h : Exec K k ss I) (hI : ∀ b ∈ I, b.meas.length = L)
    (h' : Exec K (k + L) ss' J) : Exec K k (ss ++ ss') (I.andThen J) := by
  intro rest P hP
  rw [List.append_assoc, h _ _ (h' _ _ hP), toQ_andThen hI, q_assoc]

/-- Statements on one qubit (or pair) each. -/
theorem Exec.inOrder {α : Type} {K L : Nat} {f : Nat → α → OpenQasm.Stmt} {g : α → Instrument n} (hg : ∀ a, Plain L (g a)) :
    ∀ (as : List α) (k : Nat), (∀ i a, as[i]? = some a → Exec K (k + L * i) [f (k + L * i) a] (g a)) →
      Exec K k (as.mapIdx fun i a => f (k + L * i) a) (Instrument.inOrder (as.map g)) := by
  intro as
  induction as with
  | nil => intro k _; exact Exec.nil K k
  | cons a as ih =>
    intro k h
    rw [List.mapIdx_cons, List.map_cons, Instrument.inOrder]
    have h0 := h 0 a rfl
    rw [Nat.mul_zero, Nat.add_zero] at h0
    refine Exec.append (ss := [f (k + L * 0) a]) (by rw [Nat.mul_zero, Nat.add_zero]; exact h0) (fun b hb => (hg a b hb).2.2) ?_
    have := ih (k + L) fun i b hb => by
      have := h (i + 1) b (by simpa using hb)
      rwa [show k + L * (i + 1) = k + L + L * i by ring] at this
    rw [show (fun i a => f (k + L * (i + 1)) a) = fun i a => f (k + L + L * i) a from funext fun i => by
      rw [show k + L * (i + 1) = k + L + L * i by ring]]
    exact this

theorem Exec.map {α : Type} {K k : Nat} {f : α → OpenQasm.Stmt} {g : α → Instrument n} (hg : ∀ a, Plain 0 (g a)) (as : List α)
    (h : ∀ a ∈ as, Exec K k [f a] (g a)) : Exec K k (as.map f) (Instrument.inOrder (as.map g)) := by
  induction as with
  | nil => exact Exec.nil K k
  | cons a as ih => exact Exec.append (h a (by simp)) (fun b hb => (hg a b hb).2.2) (ih fun b hb => h b (by simp [hb]))

theorem Plain.inOrder {α : Type} {L : Nat} {g : α → Instrument n} (hg : ∀ a, Plain L (g a)) (as : List α) : Plain (as.length * L) (Instrument.inOrder (as.map g)) := by
  induction as with
  | nil => rw [List.length_nil, Nat.zero_mul]; exact Plain.nothing
  | cons a as ih =>
    rw [List.map_cons, Instrument.inOrder, List.length_cons, show (as.length + 1) * L = L + as.length * L by ring]
    exact (hg a).andThen ih

theorem qubit_env (K : Nat) (q : Fin n) : (qasmEnv n K).qubit n (['q'], q.1) = some q := by
  rw [OpenQasm.Env.qubit, qasmEnv]
  simp [OpenQasm.place]

theorem bit_env {K b : Nat} (h : b < K) : OpenQasm.place (qasmEnv n K).cregs (['c'], b) = some b := by
  rw [qasmEnv]
  simp [OpenQasm.place, h]

theorem exec_action {K k : Nat} {s : OpenQasm.Stmt} {I : Instrument n} (h : OpenQasm.action n (qasmEnv n K) s = some (toQ k I)) : Exec K k [s] I := by
  intro rest P hP
  rw [List.cons_append, List.nil_append]
  cases s with
  | version => cases h
  | «include» => cases h
  | qreg => cases h
  | creg => cases h
  | gate1 => rw [OpenQasm.meaning, h, hP] <;> first | rfl | simp
  | gate2 => rw [OpenQasm.meaning, h, hP] <;> first | rfl | simp
  | measure => rw [OpenQasm.meaning, h, hP] <;> first | rfl | simp
  | reset => rw [OpenQasm.meaning, h, hP] <;> first | rfl | simp

open OpenQasm (lineStmt LineOk)

theorem exec_gate1 {K k : Nat} {name : Name} {G : Fin n → CGate n} (q : Fin n) (hG : OpenQasm.gate1 name.qasm q = some (G q)) :
    Exec K k [lineStmt (.gate1 name (q.1 : Int))] (.gate (G q)) := by
  refine exec_action ?_
  rw [lineStmt, Int.toNat_natCast, OpenQasm.action, if_pos (show (qasmEnv n K).gates = true from rfl), qubit_env, Option.bind_some, hG]
  rfl

theorem exec_gate2 {K k : Nat} {name : Name} {G : Fin n → Fin n → CGate n} (p q : Fin n) (hG : OpenQasm.gate2 name.qasm p q = some (G p q)) :
    Exec K k [lineStmt (.gate2 name (p.1 : Int) (q.1 : Int))] (.gate (G p q)) := by
  refine exec_action ?_
  rw [lineStmt, Int.toNat_natCast, Int.toNat_natCast, OpenQasm.action, if_pos (show (qasmEnv n K).gates = true from rfl), qubit_env, Option.bind_some, qubit_env, Option.bind_some, hG]
  rfl

theorem exec_measure {K k : Nat} (hk : k < K) (q : Fin n) : Exec K k [lineStmt (.measure (q.1 : Int) k)] (.measure q) := by
  refine exec_action ?_
  rw [lineStmt, Int.toNat_natCast, OpenQasm.action, qubit_env, Option.bind_some, bit_env hk]
  rfl

theorem qasmPairs_pairArgs (name : Name) (ps : List (Fin n × Fin n)) :
    qasmPairs name (pairArgs ps : List (Val F)) = .ok (ps.map fun p => .gate2 name (p.1.1 : Int) (p.2.1 : Int)) := by
  induction ps with
  | nil => rfl
  | cons p ps ih =>
    have : (pairArgs (p :: ps) : List (Val F)) = .int (p.1.1 : Int) :: .int (p.2.1 : Int) :: pairArgs ps := rfl
    rw [this, qasmPairs, ih]
    rfl

/-- A gate of a circuit and its lines. -/
theorem exec_denotes {api : FloatApi F} {name : Name} {args : List (Val F)} {I : Instrument n} (h : Denotes api prob name args I) (hR : name ≠ .R)
    {K k : Nat} {gs : List (Gate F)} {ls : List QasmLine} (hq : qasmLoop false k (⟨name, args⟩ :: gs) = .ok ls)
    (hK : k + (if name = .M then args.length else 0) ≤ K) :
    ∃ ls1 ls2, ls = ls1 ++ ls2 ∧ qasmLoop false (k + if name = .M then args.length else 0) gs = .ok ls2 ∧ (∀ l ∈ ls1, LineOk l) ∧
      Exec K k (ls1.map lineStmt) I ∧ Plain (if name = .M then args.length else 0) I := by
  have one : ∀ (nm : Name) (G : Fin n → CGate n), (nm = .H ∨ nm = .X ∨ nm = .Y ∨ nm = .Z) → (∀ q, OpenQasm.gate1 nm.qasm q = some (G q)) →
      ∀ qs : List (Fin n), qasmLoop false k (⟨nm, qArgs qs⟩ :: gs) = .ok ls →
      ∃ ls1 ls2, ls = ls1 ++ ls2 ∧ qasmLoop false k gs = .ok ls2 ∧ (∀ l ∈ ls1, LineOk l) ∧
      Exec K k (ls1.map lineStmt) (.inOrder (qs.map fun q => .gate (G q))) ∧ Plain 0 (Instrument.inOrder (qs.map fun q => .gate (G q))) := by
    intro nm G hn hG qs hq
    have hq' : (match qasmLoop false k gs with
        | .error e => .error e
        | .ok ls => .ok ((qArgs qs : List (Val F)).map (fun a => .gate1 nm a.toInt) ++ ls)) = (.ok ls : Except Err (List QasmLine)) := by
      rcases hn with rfl | rfl | rfl | rfl <;> exact hq
    cases hl : qasmLoop false k gs with
    | error e => rw [hl] at hq'; cases hq'
    | ok ls2 =>
      rw [hl] at hq'
      simp only [Except.ok.injEq] at hq'
      have e : (qArgs qs : List (Val F)).map (fun a => QasmLine.gate1 nm a.toInt) = qs.map fun q => .gate1 nm (q.1 : Int) := by
        rw [qArgs, List.map_map]; rfl
      refine ⟨_, ls2, hq'.symm, rfl, ?_, ?_, ?_⟩
      · rw [e]
        intro l hl
        obtain ⟨q, _, rfl⟩ := List.mem_map.1 hl
        exact ⟨hn, by omega⟩
      · rw [e, List.map_map]
        exact Exec.map (fun q => Plain.gate (G q)) qs fun q _ => exec_gate1 q (hG q)
      · have := Plain.inOrder (fun q => Plain.gate (G q)) qs
        rwa [Nat.mul_zero] at this
  have two : ∀ (nm : Name) (G : Fin n → Fin n → CGate n), (nm = .CX ∨ nm = .CZ) → (∀ p q, p ≠ q → OpenQasm.gate2 nm.qasm p q = some (G p q)) →
      ∀ ps : List (Fin n × Fin n), (∀ p ∈ ps, p.1 ≠ p.2) → qasmLoop false k (⟨nm, pairArgs ps⟩ :: gs) = .ok ls →
      ∃ ls1 ls2, ls = ls1 ++ ls2 ∧ qasmLoop false k gs = .ok ls2 ∧ (∀ l ∈ ls1, LineOk l) ∧
      Exec K k (ls1.map lineStmt) (.inOrder (ps.map fun p => .gate (G p.1 p.2))) ∧ Plain 0 (Instrument.inOrder (ps.map fun p => .gate (G p.1 p.2))) := by
    intro nm G hn hG ps hp hq
    have hq' : (match qasmPairs nm (pairArgs ps : List (Val F)) with
        | .error e => .error e
        | .ok ps => match qasmLoop false k gs with
          | .error e => .error e
          | .ok ls => .ok (ps ++ ls)) = (.ok ls : Except Err (List QasmLine)) := by
      rcases hn with rfl | rfl <;> exact hq
    rw [qasmPairs_pairArgs] at hq'
    cases hl : qasmLoop false k gs with
    | error e => rw [hl] at hq'; cases hq'
    | ok ls2 =>
      rw [hl] at hq'
      simp only [Except.ok.injEq] at hq'
      refine ⟨_, ls2, hq'.symm, rfl, ?_, ?_, ?_⟩
      · intro l hl
        obtain ⟨q, _, rfl⟩ := List.mem_map.1 hl
        exact ⟨hn, by omega, by omega⟩
      · rw [List.map_map]
        exact Exec.map (fun p : Fin n × Fin n => Plain.gate (G p.1 p.2)) ps fun p hpp => exec_gate2 p.1 p.2 (hG p.1 p.2 (hp p hpp))
      · have := Plain.inOrder (fun p : Fin n × Fin n => Plain.gate (G p.1 p.2)) ps
        rwa [Nat.mul_zero] at this
  cases h with
  | x qs => exact one .X .x (by simp) (fun q => rfl) qs hq
  | y qs => exact one .Y .y (by simp) (fun q => rfl) qs hq
  | z qs => exact one .Z .z (by simp) (fun q => rfl) qs hq
  | h qs => exact one .H .h (by simp) (fun q => rfl) qs hq
  | cx ps hp => exact two .CX .cx (by simp) (fun p q h => by rw [OpenQasm.gate2, if_neg h]; rfl) ps hp hq
  | cz ps hp => exact two .CZ .cz (by simp) (fun p q h => by rw [OpenQasm.gate2, if_neg h]; rfl) ps hp hq
  | m qs =>
    rw [if_pos rfl] at hK ⊢
    have hlen : (qArgs qs : List (Val F)).length = qs.length := by rw [qArgs, List.length_map]
    have hq' : (match qasmLoop false (k + (qArgs qs : List (Val F)).length) gs with
        | .error e => .error e
        | .ok ls => .ok ((qArgs qs : List (Val F)).mapIdx (fun j a => .measure a.toInt (k + j)) ++ ls)) = (.ok ls : Except Err (List QasmLine)) := hq
    cases hl : qasmLoop false (k + (qArgs qs : List (Val F)).length) gs with
    | error e => rw [hl] at hq'; cases hq'
    | ok ls2 =>
      rw [hl] at hq'
      simp only [Except.ok.injEq] at hq'
      have e : (qArgs qs : List (Val F)).mapIdx (fun j a => QasmLine.measure a.toInt (k + j)) = qs.mapIdx fun j q => .measure (q.1 : Int) (k + j) := by
        refine List.ext_getElem (by simp [qArgs]) fun i h1 h2 => ?_
        simp [qArgs, Val.toInt]
      refine ⟨_, ls2, hq'.symm, rfl, ?_, ?_, ?_⟩
      · rw [e]
        intro l hl
        obtain ⟨j, hj, rfl⟩ := List.mem_mapIdx.1 hl
        show (0 : Int) ≤ _
        omega
      · have e' : (qs.mapIdx fun j q => QasmLine.measure (q.1 : Int) (k + j)).map lineStmt = qs.mapIdx fun j q => lineStmt (.measure (q.1 : Int) (k + j)) := by
          refine List.ext_getElem (by simp) fun i h1 h2 => ?_
          simp
        rw [e, e']
        have := Exec.inOrder (K := K) (L := 1) (f := fun b q => lineStmt (.measure (q.1 : Int) b)) Plain.measure qs k
          fun i q hi => exec_measure (by have := (List.getElem?_eq_some_iff.1 hi).1; omega) q
        simpa only [Nat.one_mul] using this
      · have := Plain.inOrder Plain.measure qs
        rwa [Nat.mul_one, ← hlen] at this
  | r qs => exact absurd rfl hR
  | depolarize qs => cases hq
  | erase => cases hq
  | pauli => cases hq
  | pauli2 => cases hq

theorem numberMeasured_head (g : Gate F) (c : List (Gate F)) : numberMeasured (g :: c) = (if g.name = .M then g.args.length else 0) + numberMeasured c := by
  unfold numberMeasured
  rw [numberMeasured_cons, numberMeasured_add]
  simp [numberMeasured]

/-- A circuit and its lines. -/
theorem exec_run {api : FloatApi F} {bs : List (Block F)} {I : Instrument n} (h : DenotesRun api prob bs I) (hR : ∀ g ∈ flatten bs, g.name ≠ .R)
    {K k : Nat} {ls : List QasmLine} (hq : qasmLoop false k (flatten bs) = .ok ls) (hK : k + numberMeasured (flatten bs) ≤ K) :
    (∀ l ∈ ls, LineOk l) ∧ Exec K k (ls.map lineStmt) I ∧ Plain (numberMeasured (flatten bs)) I := by
  induction h generalizing k ls with
  | nil =>
    cases hq
    exact ⟨by simp, Exec.nil K k, Plain.nothing⟩
  | @gate name args bs I J h hs ih =>
    have e : flatten (.gate name args :: bs) = ⟨name, args⟩ :: flatten bs := rfl
    rw [e] at hq hK hR ⊢
    rw [numberMeasured_head] at hK ⊢
    obtain ⟨ls1, ls2, rfl, h1, h2, h3, h4⟩ := exec_denotes h (hR ⟨name, args⟩ (by simp)) hq (show k + (if name = .M then args.length else 0) ≤ K by
      have hK' : k + ((if name = .M then args.length else 0) + numberMeasured (flatten bs)) ≤ K := hK
      omega)
    obtain ⟨k1, k2, k3⟩ := ih (fun g hg => hR g (by simp [hg])) h1 (by
      have hK' : k + ((if name = .M then args.length else 0) + numberMeasured (flatten bs)) ≤ K := hK
      omega)
    refine ⟨?_, ?_, h4.andThen k3⟩
    · intro l hl
      rcases List.mem_append.1 hl with hl | hl
      · exact h2 l hl
      · exact k1 l hl
    · rw [List.map_append]
      exact h3.append (fun b hb => (h4 b hb).2.2) k2
  | @chain a as bs I J h hs ih =>
    exfalso
    have e : ∃ gs, flatten (.chain a as :: bs) = ⟨.ERROR, .flt a.p :: .name a.first.1 :: a.first.2⟩ :: gs := ⟨_, rfl⟩
    obtain ⟨gs, e⟩ := e
    rw [e] at hq
    cases hq

/-- The text with the lines of a circuit without resets. -/
theorem text_born {api : FloatApi F} {bs : List (Block F)} {I : Instrument n} (h : DenotesRun api prob bs I) (hR : ∀ g ∈ flatten bs, g.name ≠ .R) {ls : List QasmLine}
    (hq : qasmLoop false 0 (flatten bs) = .ok ls) : ∃ P, OpenQasm.program n (Qasm.text ⟨n, numberMeasured (flatten bs), ls⟩) = some P ∧ P.bits = numberMeasured (flatten bs) ∧
      ∀ m, P.born (zeroDensity n) m = I.born (zeroDensity n) m [] := by
  obtain ⟨h1, h2, h3⟩ := exec_run h hR (K := numberMeasured (flatten bs)) hq (by omega)
  have h4 := h2 [] ⟨numberMeasured (flatten bs), [⟨1, []⟩]⟩ (by
    rw [OpenQasm.meaning, qasmEnv, if_pos (by simp [OpenQasm.total])]
    simp [OpenQasm.total])
  rw [List.append_nil, q_one_right] at h4
  refine ⟨⟨numberMeasured (flatten bs), toQ 0 I⟩, ?_, rfl, fun m => ?_⟩
  · rw [OpenQasm.program, OpenQasm.parse_text h1, Option.bind_some, List.cons_append, List.cons_append, List.cons_append, List.nil_append, OpenQasm.meaning, OpenQasm.meaning,
      if_neg (by simp [OpenQasm.Env.uses]), OpenQasm.meaning, if_neg (by simp [OpenQasm.Env.uses])]
    exact h4
  · unfold OpenQasm.Program.born Instrument.born toQ
    rw [List.map_map]
    refine congrArg List.sum (List.map_congr_left fun b hb => ?_)
    obtain ⟨b1, b2, b3⟩ := h3 b hb
    simp only [Function.comp_apply]
    rw [written_from _ 0 _ (by simp [b3]), b1, b2, one_mul]
    simp

/-- **C105 (partial)** a circuit without resets that is exported gives a program, as text, with the same distribution of the results. Missing: resets, which are dropped. -/
theorem C105_distribution_partial (api : FloatApi F) (bs : List (Block F)) (I : Instrument n) (h : DenotesRun api prob bs I) (hn : numberOfQubits (flatten bs) = n)
    (hR : ∀ g ∈ flatten bs, g.name ≠ .R) {text : List Char} (ht : openqasm (flatten bs) false = .ok text) :
    ∃ P, OpenQasm.program n text = some P ∧ P.bits = numberMeasured (flatten bs) ∧ ∀ m, P.born (zeroDensity n) m = I.born (zeroDensity n) m [] := by
  unfold openqasm convertToQasm at ht
  cases hq : qasmLoop false 0 (flatten bs) with
  | error e => rw [hq] at ht; cases ht
  | ok ls =>
    rw [hq, hn] at ht
    cases ht
    exact text_born h hR hq

/-- **C105 (partial)** the classical bits of the exported program have the distribution of the results of the simulator of the project. Missing: resets. -/
theorem C105_agree_partial {Ω : Type} [MeasurableSpace Ω] (μ : MeasureTheory.Measure Ω) [MeasureTheory.IsProbabilityMeasure μ] (past : Nat → MeasurableSpace Ω) (rng : Ω → Rng F)
    (api : FloatApi F) (circs : Nat → List (Gate F)) (id : Nat) (bs : List (Block F)) (hc : circs id = flatten bs) (I : Instrument (numberOfQubits (circs id)))
    (h : DenotesRun api prob bs I) (hR : ∀ g ∈ flatten bs, g.name ≠ .R) {text : List Char} (ht : openqasm (circs id) false = .ok text) (pos : Nat)
    (hX : ExactFrom pos μ prob past rng) : ∃ P, OpenQasm.program (numberOfQubits (circs id)) text = some P ∧ ∀ m, P.born (zeroDensity _) m =
      μ {ω | ∃ d, CliffordDevice.run (circs := circs) api (rng ω) ⟨none, pos⟩ (.circuit id) true = .ok d ∧ d.getSample = .ok (m, none)} := by
  obtain ⟨P, h1, -, h3⟩ := C105_distribution_partial api bs I h (by rw [hc]) hR (by rw [← hc]; exact ht)
  refine ⟨P, h1, fun m => ?_⟩
  rw [h3 m, ← C95_device μ prob past rng api circs id bs hc I h pos hX m []]
  rfl

/-- Resets are dropped from every circuit: the lines are those of the circuit without them. -/
theorem C105_resets_dropped (c : List (Gate F)) (ign : Bool) (k : Nat) : qasmLoop ign k c = qasmLoop ign k (c.filter fun g => g.name ≠ .R) := by
  induction c generalizing k with
  | nil => rfl
  | cons g c ih =>
    obtain ⟨name, args⟩ := g
    by_cases hR : name = .R
    · subst hR
      rw [List.filter_cons_of_neg (by simp), ← ih k]
      rfl
    · rw [List.filter_cons_of_pos (by simpa using hR), qasmLoop, qasmLoop]
      cases name <;> simp only [ih] <;> rfl

/-- **C105 (full statement)** every exported circuit gives a program with the same distribution of the results. -/
def C105_statement : Prop := ∀ (n : Nat) (api : FloatApi ℝ) (bs : List (Block ℝ)) (I : Instrument n), DenotesRun api ENNReal.ofReal bs I → numberOfQubits (flatten bs) = n →
  ∀ text, openqasm (flatten bs) false = .ok text →
    ∃ P, OpenQasm.program n text = some P ∧ ∀ m, P.born (zeroDensity n) m = I.born (zeroDensity n) m []

theorem projZ_mul (q : Fin n) (o : Bool) (M : Mat n) (a b : Fin n → Bool) : (projZ q o * M) a b = if a q = o then M a b else 0 := by
  rw [Matrix.mul_apply, Finset.sum_eq_single a]
  · by_cases h : a q = o <;> simp [projZ, h]
  · intro x _ hx; simp [projZ, Ne.symm hx]
  · simp

theorem mul_projZ (q : Fin n) (o : Bool) (M : Mat n) (a b : Fin n → Bool) : (M * projZ q o) a b = if b q = o then M a b else 0 := by
  rw [Matrix.mul_apply, Finset.sum_eq_single b]
  · by_cases h : b q = o <;> simp [projZ, h]
  · intro x _ hx; simp [projZ, hx]
  · simp

theorem x_diag (q : Fin n) (a b : Fin n → Bool) (h : a q = b q) : (CGate.x q).unitary a b = 0 := by
  rw [CGate.unitary, onQubit, tensor]
  refine Finset.prod_eq_zero (Finset.mem_univ q) ?_
  rw [if_pos rfl, h]
  simp [sigma]

/-- The circuits `X 0, R 0, M 0` and `X 0, M 0` have different distributions. -/
theorem reset_matters : ∃ I J : Instrument 1, DenotesRun realApi ENNReal.ofReal [.gate .X (qArgs [(0 : Fin 1)]), .gate .R (qArgs [(0 : Fin 1)]), .gate .M (qArgs [(0 : Fin 1)])] I ∧
    DenotesRun realApi ENNReal.ofReal [.gate .X (qArgs [(0 : Fin 1)]), .gate .M (qArgs [(0 : Fin 1)])] J ∧ I.born (zeroDensity 1) [true] [] ≠ J.born (zeroDensity 1) [true] [] := by
  refine ⟨_, _, .gate (.x [0]) (.gate (.r [0]) (.gate (.m [0]) .nil)), .gate (.x [0]) (.gate (.m [0]) .nil), fun h3 => ?_⟩
  have z1 : projZ (0 : Fin 1) true * (projZ (0 : Fin 1) false * (CGate.x (0 : Fin 1)).unitary) = 0 := by
    ext a b
    rw [projZ_mul, projZ_mul]
    cases a 0 <;> simp
  have z2 : projZ (0 : Fin 1) true * ((CGate.x (0 : Fin 1)).unitary * projZ (0 : Fin 1) true * (CGate.x (0 : Fin 1)).unitary) = 0 := by
    have : projZ (0 : Fin 1) true * ((CGate.x (0 : Fin 1)).unitary * projZ (0 : Fin 1) true) = 0 := by
      ext a b
      rw [projZ_mul, mul_projZ]
      by_cases ha : a 0 = true
      · by_cases hb : b 0 = true
        · rw [if_pos ha, if_pos hb, x_diag _ _ _ (ha.trans hb.symm)]; rfl
        · rw [if_pos ha, if_neg hb]; rfl
      · rw [if_neg ha]; rfl
    rw [← Matrix.mul_assoc, this, Matrix.zero_mul]
  have e1 : (0 : ℝ≥0∞) = normW ((projZ (0 : Fin 1) true * (CGate.x (0 : Fin 1)).unitary) *ᵥ zeroVec 1) := by
    rw [born_amp, born_amp] at h3
    simp [Instrument.amp, Instrument.inOrder, Instrument.andThen, Instrument.gate, Instrument.reset, Instrument.measure, Instrument.nothing, Matrix.mul_assoc] at h3
    rw [Matrix.mul_assoc] at z2
    rw [← h3, z1, z2, Matrix.zero_mulVec, normW_zero, add_zero]
  have e2 := projZ_sum (0 : Fin 1) ((CGate.x (0 : Fin 1)).unitary *ᵥ zeroVec 1)
  rw [normW_unitary (unitary_unitary (CGate.x (0 : Fin 1)) trivial), normW_zeroVec, Matrix.mulVec_mulVec, Matrix.mulVec_mulVec, ← e1, add_zero] at e2
  have e3 : (projZ (0 : Fin 1) false * (CGate.x (0 : Fin 1)).unitary) *ᵥ zeroVec 1 = 0 := by
    funext a
    rw [Matrix.mulVec, dotProduct]
    refine Finset.sum_eq_zero fun b _ => ?_
    rw [projZ_mul, zeroVec]
    by_cases hb : b = fun _ => false
    · by_cases ha : a 0 = false
      · rw [if_pos ha, x_diag _ _ _ (by rw [ha, hb]), zero_mul]
      · rw [if_neg ha, zero_mul]
    · rw [if_neg hb, mul_zero]
  rw [e3, normW_zero] at e2
  exact zero_ne_one e2

/-- **C105 fails**: the circuit `X 0, R 0, M 0` always gives 0, the exported program always 1. -/
theorem C105_reset_counterexample : ¬ C105_statement := by
  intro h
  obtain ⟨I, J, hI, hJ, hne⟩ := reset_matters
  obtain ⟨P, hP, h1⟩ := h 1 realApi _ _ hI rfl _ rfl
  obtain ⟨P', hP', -, h2⟩ := C105_distribution_partial realApi _ _ hJ rfl (by
    intro g hg
    simp only [flatten, List.flatMap_cons, List.flatMap_nil, Block.instrs, List.cons_append, List.nil_append, List.mem_cons, List.not_mem_nil, or_false] at hg
    rcases hg with rfl | rfl <;> simp) rfl
  have hPP : P = P' := by
    have := hP.symm.trans hP'
    simpa using this
  subst hPP
  exact hne ((h1 [true]).symm.trans (h2 [true]))

/-- Non-vacuity: the text of a program for a Bell pair, and what is read from it. -/
example : openqasm (F := Nat) [⟨.H, [.int 0]⟩, ⟨.CX, [.int 0, .int 1]⟩, ⟨.M, [.int 1, .int 0]⟩] false =
    .ok "OPENQASM 2.0;\ninclude \"qelib1.inc\";\nqreg q[2];\ncreg c[2];\nh q[0];\ncx q[0],q[1];\nmeasure q[1] -> c[0];\nmeasure q[0] -> c[1];".toList := by decide +kernel

example : OpenQasm.parse "OPENQASM 2.0; include \"qelib1.inc\"; qreg q[2];\n creg c[1]; h q[0]; cx q[0], q[1]; measure q[1] -> c[0];".toList =
    some [.include, .qreg ['q'] 2, .creg ['c'] 1, .gate1 ['h'] (['q'], 0), .gate2 ['c', 'x'] (['q'], 0) (['q'], 1), .measure (['q'], 1) (['c'], 0)] := by decide +kernel

end Plaquette
