import Verif.Model.ErasureWeights
import Verif.Props.Weights

/-!
# Properties of the weights of the syndrome graph with erasures as a source of errors (C106)
-/

namespace Plaquette

/-! ### Independent sources of errors -/

/-- A source of errors on one qubit: its outcomes, with their probabilities; an outcome puts a factor `X` on the qubit or not, and a
factor `Z` or not. -/
abbrev Source := List (ℚ × Bool × Bool)

/-- Independent sources together: the probabilities are multiplied, and equal factors cancel. -/
def together : List Source → Source
  | [] => [(1, false, false)]
  | s :: ss => s.flatMap fun a => (together ss).map fun b => (a.1 * b.1, a.2.1 ^^ b.2.1, a.2.2 ^^ b.2.2)

/-- The outcome has the factor `X` (`true`) or `Z` (`false`). -/
def hasPart (isX : Bool) (a : ℚ × Bool × Bool) : Bool := if isX then a.2.1 else a.2.2

/-- The probability that a source puts the factor on the qubit: `X` (`true`) or `Z` (`false`). -/
def Source.chance (isX : Bool) (s : Source) : ℚ := ((s.filter (hasPart isX)).map Prod.fst).sum

/-- The probabilities of the outcomes sum up to one. -/
def Source.Total (s : Source) : Prop := (s.map Prod.fst).sum = 1

/-- A Pauli error with these probabilities. -/
def pauliSource (x y z : ℚ) : Source := [(1 - x - y - z, false, false), (x, true, false), (y, true, true), (z, false, true)]

/-- An erasure: the qubit gets the identity, `X`, `Y` or `Z` with the same probability. -/
def erasureSource (p : ℚ) : Source :=
  [(1 - p, false, false), (p / 4, false, false), (p / 4, true, false), (p / 4, true, true), (p / 4, false, true)]

/-- The probability of an erasure of a data qubit. -/
def erasureProb (errs : ErrData) (q : Nat) : ℚ :=
  match dictGet errs "erasure".toList with
  | none => 0
  | some d =>
    match dictGet d (.int q) with
    | none => 0
    | some ps => paramVal ps ['p']

/-- The sources of errors on a data qubit according to the error data. -/
def sources (erasureWeights : Bool) (errs : ErrData) (q : Nat) : List Source :=
  pauliSource (pauliProb errs q .X) (pauliProb errs q .Y) (pauliProb errs q .Z) ::
    if erasureWeights then [erasureSource (erasureProb errs q)] else []

theorem chance_append (isX : Bool) (s t : Source) : Source.chance isX (s ++ t) = Source.chance isX s + Source.chance isX t := by
  simp [Source.chance]

theorem chance_cons (isX : Bool) (a : ℚ × Bool × Bool) (t : Source) :
    Source.chance isX (a :: t) = (if hasPart isX a then a.1 else 0) + Source.chance isX t := by
  unfold Source.chance
  rw [List.filter_cons]
  split <;> simp

theorem chance_shift (isX : Bool) (a : ℚ × Bool × Bool) (t : Source) :
    Source.chance isX (t.map fun b => (a.1 * b.1, a.2.1 ^^ b.2.1, a.2.2 ^^ b.2.2)) =
      a.1 * if hasPart isX a then (t.map Prod.fst).sum - t.chance isX else t.chance isX := by
  induction t with
  | nil => simp [Source.chance]
  | cons b t ih =>
    rw [List.map_cons, chance_cons, ih, chance_cons, List.map_cons, List.sum_cons]
    obtain ⟨a1, a2, a3⟩ := a
    obtain ⟨b1, b2, b3⟩ := b
    cases isX <;> cases a2 <;> cases a3 <;> cases b2 <;> cases b3 <;> simp [hasPart] <;> ring

theorem together_total : ∀ {ss : List Source}, (∀ s ∈ ss, s.Total) → Source.Total (together ss)
  | [], _ => by simp [together, Source.Total]
  | s :: ss, h => by
    have ih : Source.Total (together ss) := together_total fun t ht => h t (List.mem_cons_of_mem _ ht)
    have hs : Source.Total s := h s List.mem_cons_self
    unfold Source.Total at *
    have key : ∀ s' : Source, (((s'.flatMap fun a => (together ss).map fun b =>
        (a.1 * b.1, a.2.1 ^^ b.2.1, a.2.2 ^^ b.2.2))).map Prod.fst).sum = (s'.map Prod.fst).sum := by
      intro s'
      induction s' with
      | nil => rfl
      | cons a s' ihs =>
        rw [List.flatMap_cons, List.map_append, List.sum_append, ihs, List.map_cons, List.sum_cons, List.map_map]
        congr 1
        have : (Prod.fst ∘ fun b : ℚ × Bool × Bool => (a.1 * b.1, a.2.1 ^^ b.2.1, a.2.2 ^^ b.2.2)) = fun b => a.1 * Prod.fst b := rfl
        rw [this, List.sum_map_mul_left, ih, mul_one]
    rw [together, key, hs]

/-- **C106** The rule with which a further independent source is added (the formula in the documentation of the class), for any number
of sources. -/
theorem C106_combine (isX : Bool) {s : Source} {ss : List Source} (hs : s.Total) (hss : ∀ t ∈ ss, t.Total) :
    Source.chance isX (together (s :: ss)) =
      (1 - s.chance isX) * Source.chance isX (together ss) + s.chance isX * (1 - Source.chance isX (together ss)) := by
  have ht : ((together ss).map Prod.fst).sum = 1 := together_total hss
  have key : ∀ s' : Source, Source.chance isX (s'.flatMap fun a => (together ss).map fun b =>
      (a.1 * b.1, a.2.1 ^^ b.2.1, a.2.2 ^^ b.2.2)) = ((s'.map Prod.fst).sum - s'.chance isX) * Source.chance isX (together ss) +
        s'.chance isX * (1 - Source.chance isX (together ss)) := by
    intro s'
    induction s' with
    | nil => simp [Source.chance]
    | cons a s' ih =>
      rw [List.flatMap_cons, chance_append, ih, chance_shift, chance_cons, List.map_cons, List.sum_cons, ht]
      split <;> ring
  rw [together, key, show (s.map Prod.fst).sum = 1 from hs]

theorem pauliSource_total (x y z : ℚ) : (pauliSource x y z).Total := by simp [pauliSource, Source.Total]; ring

theorem erasureSource_total (p : ℚ) : (erasureSource p).Total := by simp [erasureSource, Source.Total]; ring

/-! ### The computed probabilities -/

/-- **C106** With the flag as it is in the class, the probabilities are those of C42. -/
theorem C106_flag_false (C : LatCode) (errs : ErrData) : edgeProbsFlag false C errs = edgeProbs C errs := by
  unfold edgeProbsFlag edgeProbs
  cases checkAgainstCode C.lattice errs with
  | error e => rfl
  | ok u =>
    show (if _ then _ else _) = (if _ then _ else _)
    split
    · rfl
    · cases pauliEff C.lattice C.n (dictGet errs "pauli".toList) <;> rfl

theorem erasureStep_ok {L : Lattice} (hL : L.Indexed) {q q' : List ℚ × List ℚ} {e : QKey × Params ℚ} (hc : L.checkData e.1 = .ok ())
    (h : erasureStep L q e = .ok q') :
    q'.1 = q.1.set e.1.nat (paramVal e.2 "p".toList / 2) ∧ q'.2 = q.2.set e.1.nat (paramVal e.2 "p".toList / 2) := by
  obtain ⟨i, p, h1, h2, h3⟩ := Lattice.checkData_ok.mp hc
  unfold erasureStep at h
  rw [h1, Lattice.equbit_int h2] at h
  simp only [bind_ok] at h
  obtain ⟨p', e1, h⟩ := h
  cases e1
  rw [if_pos h3] at h
  simp only [bind_ok] at h
  obtain ⟨x, hx, qx, hqx, qz, hqz, h⟩ := h
  cases h
  rw [hL.idx h2, setAt_ok] at hqx hqz
  rw [h1, hqx.2, hqz.2, getNum_val hx]
  exact ⟨rfl, rfl⟩

theorem checkAgainstCode_erasure {L : Lattice} {errs : ErrData} (h : checkAgainstCode L errs = .ok ()) :
    ∀ d, dictGet errs "erasure".toList = some d → ∀ e ∈ d, L.checkData e.1 = .ok () := by
  unfold checkAgainstCode at h
  split at h
  · cases h
  · simp only [bind_ok] at h
    obtain ⟨⟨⟩, -, ⟨⟩, h2, -⟩ := h
    rw [checkIf_ok] at h2
    exact fun d hd e he => (checkPhysQubit_ok.mp (h2 d hd) e he).1

/-- The loop over the erasures sets half of the probability, in both arrays (`get` is one of them). -/
theorem erasureLoop_spec {L : Lattice} (hL : L.Indexed) {n : Nat} {errs : ErrData} (hk : KeysOk errs) {d : ErrDict ℚ}
    (hd : dictGet errs "erasure".toList = some d) (hc : ∀ e ∈ d, L.checkData e.1 = .ok ()) {q : List ℚ × List ℚ}
    (h : loopE (erasureStep L) (List.replicate n 0, List.replicate n 0) d = .ok q) (get : List ℚ × List ℚ → List ℚ)
    (hget : get = Prod.fst ∨ get = Prod.snd) :
    (get q).length = n ∧ ∀ i < n, (get q)[i]? = some (erasureProb errs i / 2) := by
  have h0 : get (List.replicate n 0, List.replicate n 0) = List.replicate n 0 := by rcases hget with rfl | rfl <;> rfl
  obtain ⟨l1, l2, l3⟩ := setLoop_spec get (fun e : QKey × Params ℚ => e.1.nat) (fun e => paramVal e.2 "p".toList / 2) d
    (fun s s' a ha hs => by
      have := erasureStep_ok hL (hc a ha) hs
      rcases hget with rfl | rfl
      · exact this.1
      · exact this.2) (by
      have := hk _ _ hd
      rw [List.Nodup, List.pairwise_map] at this ⊢
      refine this.imp_of_mem fun {a b} ha hb hab hc' => hab ?_
      rw [data_key (hc a ha), data_key (hc b hb), hc']) h
  rw [h0] at l1 l2 l3
  have hlen : (get q).length = n := by simpa using l1
  refine ⟨hlen, fun i hi => ?_⟩
  unfold erasureProb
  rw [hd]
  dsimp only
  cases hdq : dictGet d (.int i) with
  | none =>
    rw [l3 i]
    · simp [hi]
    · intro hmem
      obtain ⟨e, he, hen⟩ := List.mem_map.mp hmem
      refine dictGet_none.mp hdq e he ?_
      rw [data_key (hc e he)]
      exact congrArg (fun k : Nat => QKey.int k) hen
  | some ps => exact l2 _ (dictGet_some_mem hdq) (by simpa [QKey.nat] using hi)

theorem updateEff_get {q p : List ℚ} {i : Nat} {a b : ℚ} (hq : q[i]? = some a) (hp : p[i]? = some b) :
    (updateEff q p)[i]? = some ((1 - a) * b + a * (1 - b)) := by
  unfold updateEff
  rw [List.getElem?_zipWith, hq, hp]

theorem together_pair (isX : Bool) (x y z e : ℚ) :
    Source.chance isX (together [pauliSource x y z, erasureSource e]) =
      (1 - e / 2) * (if isX then x + y else y + z) + e / 2 * (1 - if isX then x + y else y + z) := by
  rw [C106_combine isX (pauliSource_total x y z) (by simp [erasureSource_total]), C106_combine isX (erasureSource_total e) (by simp)]
  cases isX <;> simp [together, Source.chance, hasPart, pauliSource, erasureSource, List.filter] <;> ring

theorem together_single (isX : Bool) (x y z : ℚ) :
    Source.chance isX (together [pauliSource x y z]) = if isX then x + y else y + z := by
  rw [C106_combine isX (pauliSource_total x y z) (by simp)]
  cases isX <;> simp [together, Source.chance, hasPart, pauliSource, List.filter]

/-- **C106** The probability of an edge of a qubit is the probability that the sources together put that factor on the qubit: the
Pauli errors, and with the flag the erasures, which put a random Pauli matrix on the qubit. The probabilities of the edges of the
measurements do not depend on the flag. -/
theorem C106_probabilities {flag : Bool} {C : LatCode} (hC : C.Ok) {errs : ErrData} (hk : KeysOk errs) {p : EdgeProbs}
    (h : edgeProbsFlag flag C errs = .ok p) :
    (p.px.length = C.n ∧ ∀ q < C.n, p.px[q]? = some (Source.chance true (together (sources flag errs q)))) ∧
    (p.pz.length = C.n ∧ ∀ q < C.n, p.pz[q]? = some (Source.chance false (together (sources flag errs q)))) ∧
    (p.pm.length = C.code.stabilisers.length ∧ ∀ s < C.code.stabilisers.length, p.pm[s]? = some (measProb errs (C.n + s))) := by
  cases flag with
  | false =>
    rw [C106_flag_false] at h
    obtain ⟨⟨x1, x2⟩, ⟨z1, z2⟩, hm⟩ := edgeProbs_spec hC hk h
    simp only [sources, Bool.false_eq_true, if_false, together_single, if_true]
    exact ⟨⟨x1, x2⟩, ⟨z1, z2⟩, hm⟩
  | true =>
    unfold edgeProbsFlag at h
    simp only [bind_ok] at h
    obtain ⟨⟨⟩, hchk, h⟩ := h
    split at h
    · cases h
    rename_i hs
    simp only [bind_ok, if_true] at h
    obtain ⟨eff, heff, eff', heff', pm, hpm, h⟩ := h
    cases h
    have hbase : edgeProbs C errs = .ok ⟨eff.1, eff.2, pm⟩ := by
      unfold edgeProbs
      simp only [bind_ok]
      refine ⟨(), hchk, ?_⟩
      rw [if_neg hs]
      simp only [bind_ok]
      exact ⟨eff, heff, pm, hpm, rfl⟩
    obtain ⟨⟨x1, x2⟩, ⟨z1, z2⟩, hm⟩ := edgeProbs_spec hC hk hbase
    simp only [sources, if_true, together_pair, Bool.false_eq_true, if_false]
    dsimp only at x1 x2 z1 z2 ⊢
    cases hd : dictGet errs "erasure".toList with
    | none =>
      rw [hd] at heff'
      cases heff'
      refine ⟨⟨x1, fun q hq => ?_⟩, ⟨z1, fun q hq => ?_⟩, hm⟩
      · rw [x2 q hq]; simp only [erasureProb, hd]; congr 1; ring
      · rw [z2 q hq]; simp only [erasureProb, hd]; congr 1; ring
    | some d =>
      rw [hd] at heff'
      simp only [erasureEff, bind_ok] at heff'
      obtain ⟨qq, hloop, heff'⟩ := heff'
      cases heff'
      obtain ⟨ex1, ex2⟩ := erasureLoop_spec hC.indexed hk hd (checkAgainstCode_erasure hchk d hd) hloop _ (.inl rfl)
      obtain ⟨ez1, ez2⟩ := erasureLoop_spec hC.indexed hk hd (checkAgainstCode_erasure hchk d hd) hloop _ (.inr rfl)
      refine ⟨⟨by simp [updateEff, ex1, x1], fun q hq => updateEff_get (ex2 q hq) (x2 q hq)⟩,
        ⟨by simp [updateEff, ez1, z1], fun q hq => updateEff_get (ez2 q hq) (z2 q hq)⟩, hm⟩

/-- **C106** With the flag, a qubit that is certainly erased has a random factor `X` and a random factor `Z`, whatever the Pauli errors
are; the weight `-log(p / (1 - p))` of both edges is 0. -/
theorem C106_certain {C : LatCode} (hC : C.Ok) {errs : ErrData} (hk : KeysOk errs) {p : EdgeProbs}
    (h : edgeProbsFlag true C errs = .ok p) {q : Nat} (hq : q < C.n) (he : erasureProb errs q = 1) :
    p.px[q]? = some (1 / 2) ∧ p.pz[q]? = some (1 / 2) ∧ logWeight (1 / 2) = some 0 := by
  obtain ⟨⟨-, x⟩, ⟨-, z⟩, -⟩ := C106_probabilities hC hk h
  rw [x q hq, z q hq]
  simp only [sources, if_true, together_pair, he]
  refine ⟨?_, ?_, C42_order_partial.2.2.1⟩ <;> · congr 1; ring

/-- **C106** Nothing but the flag decides whether the erasures count: without it the probabilities are the same without erasures. -/
theorem C106_ignored {C : LatCode} (hC : C.Ok) {errs errs' : ErrData} (hk : KeysOk errs) (hk' : KeysOk errs')
    (hp : dictGet errs "pauli".toList = dictGet errs' "pauli".toList)
    (hm : dictGet errs "measurement".toList = dictGet errs' "measurement".toList) {p p' : EdgeProbs}
    (h : edgeProbsFlag false C errs = .ok p) (h' : edgeProbsFlag false C errs' = .ok p') : p = p' := by
  rw [C106_flag_false] at h h'
  obtain ⟨⟨x1, x2⟩, ⟨z1, z2⟩, m1, m2⟩ := edgeProbs_spec hC hk h
  obtain ⟨⟨x1', x2'⟩, ⟨z1', z2'⟩, m1', m2'⟩ := edgeProbs_spec hC hk' h'
  obtain ⟨px, pz, pm⟩ := p
  obtain ⟨px', pz', pm'⟩ := p'
  have e1 : ∀ q a, pauliProb errs q a = pauliProb errs' q a := fun q a => by unfold pauliProb; rw [hp]
  have e2 : ∀ i, measProb errs i = measProb errs' i := fun i => by unfold measProb; rw [hm]
  dsimp only at *
  have key : ∀ {l l' : List ℚ} {n : Nat} {f : Nat → ℚ}, l.length = n → l'.length = n → (∀ i < n, l[i]? = some (f i)) →
      (∀ i < n, l'[i]? = some (f i)) → l = l' := by
    intro l l' n f h1 h2 h3 h4
    refine List.ext_getElem? fun i => ?_
    by_cases hi : i < n
    · rw [h3 i hi, h4 i hi]
    · rw [List.getElem?_eq_none (by omega), List.getElem?_eq_none (by omega)]
  rw [key x1 x1' x2 (by simpa only [e1] using x2'), key z1 z1' z2 (by simpa only [e1] using z2'),
    key m1 m1' m2 (by simpa only [e2] using m2')]

/-! ### Example -/

/-- Error data with a Pauli error and erasures. -/
def rep3Erasures : ErrData :=
  [("pauli".toList, [(.int 0, [("x".toList, .flt (1 / 10)), ("y".toList, .flt (1 / 5))])]),
   ("erasure".toList, [(.int 0, [("p".toList, .flt (1 / 2))]), (.int 2, [("p".toList, .int 1)])])]

example : (edgeProbsFlag true (rep3Lat 2) rep3Erasures).toOption.map (fun p => (p.px, p.pz, p.pm)) =
    some ([2 / 5, 0, 1 / 2], [7 / 20, 0, 1 / 2], [0, 0]) := by decide +kernel

example : (edgeProbsFlag false (rep3Lat 2) rep3Erasures).toOption.map (fun p => (p.px, p.pz, p.pm)) =
    some ([3 / 10, 0, 0], [1 / 5, 0, 0], [0, 0]) := by decide +kernel

/-- The hypotheses of the theorems are met. -/
example : (rep3Lat 2).Ok ∧ KeysOk rep3Erasures ∧ erasureProb rep3Erasures 2 = 1 := by
  refine ⟨Made.codeOk (.repetition (by norm_num) (rep3Lat_made 2)), ?_, by decide +kernel⟩
  intro name d hd
  have := dictGet_some_mem hd
  simp only [rep3Erasures, List.mem_cons, List.not_mem_nil, or_false, Prod.mk.injEq] at this
  rcases this with ⟨-, rfl⟩ | ⟨-, rfl⟩ <;> decide

end Plaquette
