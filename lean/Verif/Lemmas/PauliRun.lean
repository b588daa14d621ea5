import Verif.Lemmas.PauliFrame
import Verif.Lemmas.SimChain

/-!
# The whole run with Pauli errors and the run without
-/

namespace Plaquette
open Matrix
variable {F : Type} {n : Nat} {api : FloatApi F} {rng : Rng F}

/-- For some values of the random bits the step leads from `S` to `S'`. -/
def Could (X : Rng F → Sim n → Except Err (Sim n)) (S S' : Sim n) : Prop :=
  S.pos ≤ S'.pos ∧ ∃ bits : Nat → Bool, ∀ r : Rng F, (∀ p, S.pos ≤ p → p < S'.pos → r.bit p = bits p) → X r S = .ok S'

theorem Could.comp {X Y Z : Rng F → Sim n → Except Err (Sim n)} {S S1 S2 : Sim n} (hX : Could X S S1) (hY : Could Y S1 S2)
    (hZ : ∀ r, X r S = .ok S1 → Y r S1 = .ok S2 → Z r S = .ok S2) : Could Z S S2 := by
  obtain ⟨p1, b1, h1⟩ := hX
  obtain ⟨p2, b2, h2⟩ := hY
  refine ⟨p1.trans p2, fun p => if p < S1.pos then b1 p else b2 p, fun r hr => hZ r (h1 r fun p k1 k2 => ?_) (h2 r fun p k1 k2 => ?_)⟩
  · exact (hr p k1 (by omega)).trans (if_pos k2)
  · exact (hr p (by omega) k2).trans (if_neg (by omega))

theorem could_of {X : Rng F → Sim n → Except Err (Sim n)} {S S' : Sim n} (hp : S.pos = S'.pos) (h : ∀ r, X r S = .ok S') : Could X S S' :=
  ⟨hp.le, fun _ => false, fun r _ => h r⟩

/-- A step of a run with errors, from `S` to `S'`, can be accompanied by the step `X` of a run without, from `S0`: the frame becomes `f'` and the flips are
`fl`. -/
def Tracks (X : Rng F → Sim n → Except Err (Sim n)) (f' : PFrame) (fl : List Bool) (S S' S0 : Sim n) : Prop :=
  ∃ (S0' : Sim n) (ms : List Bool), Could X S0 S0' ∧ S'.tab.Framed f' S0'.tab ∧ S'.tab.Valid ∧ S0'.meas = S0.meas ++ ms ∧
    S'.meas = S.meas ++ List.zipWith xor ms fl ∧ ms.length = fl.length ∧ S0'.erasure = S0.erasure

theorem Tracks.comp {X Y Z : Rng F → Sim n → Except Err (Sim n)} {S S1 S2 S0 : Sim n} {f1 f2 : PFrame} {l1 l2 : List Bool}
    (hX : Tracks X f1 l1 S S1 S0)
    (hY : ∀ S0', S1.tab.Framed f1 S0'.tab → S1.tab.Valid → Tracks Y f2 l2 S1 S2 S0')
    (hZ : ∀ r U V, X r S0 = .ok U → Y r U = .ok V → Z r S0 = .ok V) : Tracks Z f2 (l1 ++ l2) S S2 S0 := by
  obtain ⟨S01, m1, c1, t1, v1, a1, b1, e1, r1⟩ := hX
  obtain ⟨S02, m2, c2, t2, v2, a2, b2, e2, r2⟩ := hY S01 t1 v1
  refine ⟨S02, m1 ++ m2, c1.comp c2 (fun r h1 h2 => hZ r _ _ h1 h2), t2, v2, ?_, ?_, ?_, r2.trans r1⟩
  · rw [a2, a1, List.append_assoc]
  · rw [b2, b1, List.append_assoc, List.zipWith_append e1]
  · rw [List.length_append, List.length_append, e1, e2]

theorem after_append (f : PFrame) (l l' : List FStep) : f.after (l ++ l') = (f.after l).after l' := List.foldl_append

theorem flips_append (f : PFrame) (l l' : List FStep) : f.flips (l ++ l') = f.flips l ++ (f.after l).flips l' := by
  induction l generalizing f with
  | nil => rfl
  | cons s l ih =>
    show f.flip s ++ (f.step s).flips (l ++ l') = (f.flip s ++ (f.step s).flips l) ++ ((f.step s).after l).flips l'
    rw [ih, List.append_assoc]

/-! ### Gates -/

theorem framed_appAll {f : PFrame} {T T0 : Tab n} (h : T.Framed f T0) {α : Type} (l : List α) (G : α → CGate n) (s : α → FStep)
    (hs : ∀ a ∈ l, ∀ (g : PFrame) (U U0 : Tab n), U.Framed g U0 → ((G a).app U).Framed (g.step (s a)) ((G a).app U0)) :
    (appAll (l.map G) T).Framed (f.after (l.map s)) (appAll (l.map G) T0) := by
  induction l generalizing f T T0 with
  | nil => exact h
  | cons a l ih => exact ih (hs a (by simp) f T T0 h) fun b hb => hs b (List.mem_cons_of_mem _ hb)

theorem flips_quiet (f : PFrame) (l : List FStep) (h : ∀ s ∈ l, ∀ q, s ≠ .meas q) : f.flips l = [] := by
  induction l generalizing f with
  | nil => rfl
  | cons s l ih =>
    show f.flip s ++ (f.step s).flips l = []
    rw [ih _ fun t ht => h t (List.mem_cons_of_mem _ ht), List.append_nil]
    have := h s (by simp)
    cases s with
    | meas q => exact absurd rfl (this q)
    | _ => rfl

theorem tracks_gates {f : PFrame} {S S0 : Sim n} (h : S.tab.Framed f S0.tab) (hv : S.tab.Valid) {α : Type} (l : List α) (G : α → CGate n) (s : α → FStep)
    (hok : ∀ a ∈ l, (G a).Ok) (hq : ∀ a ∈ l, ∀ q, s a ≠ .meas q)
    (hs : ∀ a ∈ l, ∀ (g : PFrame) (U U0 : Tab n), U.Framed g U0 → ((G a).app U).Framed (g.step (s a)) ((G a).app U0)) :
    Tracks (F := F) (fun _ S => .ok (S.gates (l.map G))) (f.after (l.map s)) (f.flips (l.map s)) S (S.gates (l.map G)) S0 := by
  have e : f.flips (l.map s) = [] := by
    refine flips_quiet _ _ fun t ht => ?_
    obtain ⟨a, ha, rfl⟩ := List.mem_map.1 ht
    exact hq a ha
  refine ⟨S0.gates (l.map G), [], could_of rfl fun _ => rfl, framed_appAll h l G s hs, appAll_valid hv _ ?_, by simp [Sim.gates], by simp [Sim.gates], by rw [e], rfl⟩
  intro G' hG'
  obtain ⟨a, ha, rfl⟩ := List.mem_map.1 hG'
  exact hok a ha

theorem framed_same {f : PFrame} {T T0 : Tab n} (h : T.Framed f T0) {α : Type} (l : List α) (G : α → CGate n)
    (hs : ∀ a ∈ l, ∀ (U U0 : Tab n), U.Framed f U0 → ((G a).app U).Framed f ((G a).app U0)) :
    (appAll (l.map G) T).Framed f (appAll (l.map G) T0) := by
  induction l generalizing T T0 with
  | nil => exact h
  | cons a l ih => exact ih (hs a (by simp) T T0 h) fun b hb => hs b (List.mem_cons_of_mem _ hb)

theorem tracks_paulis {f : PFrame} {S S0 : Sim n} (h : S.tab.Framed f S0.tab) (hv : S.tab.Valid) (l : List (Fin n)) (G : Fin n → CGate n)
    (hok : ∀ a, (G a).Ok) (hG : ∀ a, (∃ q, G a = .x q) ∨ (∃ q, G a = .y q) ∨ ∃ q, G a = .z q) :
    Tracks (F := F) (fun _ S => .ok (S.gates (l.map G))) f [] S (S.gates (l.map G)) S0 := by
  refine ⟨S0.gates (l.map G), [], could_of rfl fun _ => rfl, framed_same h l G (fun a _ U U0 hU => framed_pauli hU _ (hG a)), appAll_valid hv _ ?_,
    by simp [Sim.gates], by simp [Sim.gates], rfl, rfl⟩
  intro G' hG'
  obtain ⟨a, _, rfl⟩ := List.mem_map.1 hG'
  exact hok a

/-! ### Measurements and resets -/

theorem tracks_measureZ {f : PFrame} {S S' S0 : Sim n} {q : Fin n} (h : S.tab.Framed f S0.tab) (hv : S.tab.Valid) (hm : S.measureZ rng q = .ok S') :
    Tracks (F := F) (fun r S => S.measureZ r q) f [f.x q] S S' S0 := by
  unfold Sim.measureZ at hm
  dsimp only at hm
  cases h1 : measure S.tab (singleOp false .Z q) none (rng.bit S.pos) with
  | error e => simp [h1] at hm
  | ok r =>
    obtain ⟨T, out⟩ := r
    simp only [h1, Except.ok.injEq] at hm
    subst hm
    obtain ⟨T0', k1, k2, k3, _⟩ := framed_measure h hv h1
    refine ⟨{ S0 with tab := T0', meas := S0.meas ++ [out ^^ f.x q], pos := if nonzero S0.tab.s (singleOp false .Z q) = [] then S0.pos else S0.pos + 1 },
      [out ^^ f.x q], ⟨?_, fun _ => (rng.bit S.pos ^^ f.x q), fun r hr => ?_⟩, k2, measure_valid hv h1, rfl, ?_, rfl, rfl⟩
    · dsimp only; split <;> omega
    · have hk : measure S0.tab (singleOp false .Z q) none (r.bit S0.pos) = .ok (T0', out ^^ f.x q) := by
        by_cases hn : nonzero S0.tab.s (singleOp false .Z q) = []
        · exact k3 (by rw [h.nonzero_s]; exact hn) _
        · rw [hr S0.pos le_rfl (by dsimp only; rw [if_neg hn]; omega)]
          exact k1
      unfold Sim.measureZ
      dsimp only
      rw [hk]
    · show S.meas ++ [out] = S.meas ++ [_]
      cases out <;> cases f.x q <;> rfl

theorem tracks_measureAll {f : PFrame} {S S' S0 : Sim n} {qs : List (Fin n)} (h : S.tab.Framed f S0.tab) (hv : S.tab.Valid)
    (hm : S.measureAll rng qs = .ok S') : Tracks (F := F) (fun r S => S.measureAll r qs) f (qs.map fun q => f.x q.val) S S' S0 := by
  induction qs generalizing S S0 with
  | nil =>
    simp only [Sim.measureAll, Except.ok.injEq] at hm
    subst hm
    exact ⟨S0, [], could_of rfl fun _ => rfl, h, hv, by simp, by simp, rfl, rfl⟩
  | cons q qs ih =>
    rw [Sim.measureAll] at hm
    cases h1 : S.measureZ rng q with
    | error e => simp [h1] at hm
    | ok S1 =>
      simp only [h1] at hm
      refine (tracks_measureZ h hv h1).comp (Y := fun r S => S.measureAll r qs) (fun S0' t v => ih t v hm) (l1 := [f.x q]) ?_
      intro r U V hU hV
      show S0.measureAll r (q :: qs) = .ok V
      rw [Sim.measureAll, hU]
      exact hV

theorem tracks_resetAll {f : PFrame} {S S' S0 : Sim n} {qs : List (Fin n)} (h : S.tab.Framed f S0.tab) (hv : S.tab.Valid)
    (hm : S.resetAll rng qs = .ok S') : Tracks (F := F) (fun r S => S.resetAll r qs) (f.after (qs.map fun q => .clear q.val)) [] S S' S0 := by
  induction qs generalizing S S0 f with
  | nil =>
    simp only [Sim.resetAll, Except.ok.injEq] at hm
    subst hm
    exact ⟨S0, [], could_of rfl fun _ => rfl, h, hv, by simp, by simp, rfl, rfl⟩
  | cons q qs ih =>
    rw [Sim.resetAll] at hm
    cases h1 : resetOne false .Z S.tab q (rng.bit S.pos) with
    | error e => simp [h1] at hm
    | ok T =>
      simp only [h1] at hm
      obtain ⟨T0', k1, k2, k3⟩ := framed_reset h hv h1
      have hv' := resetOne_valid hv h1
      obtain ⟨S0', ms, c, t, v, a, b, e, r⟩ := ih (f := f.step (.clear q))
        (S0 := { S0 with tab := T0', pos := if nonzero S0.tab.s (singleOp false .Z q) = [] then S0.pos else S0.pos + 1 }) k2 hv' hm
      refine ⟨S0', ms, ?_, t, v, a, b, e, r⟩
      refine Could.comp (X := fun r S => match resetOne false .Z S.tab q (r.bit S.pos) with
        | .error e => .error e
        | .ok T => .ok { S with tab := T, pos := if nonzero S.tab.s (singleOp false .Z q) = [] then S.pos else S.pos + 1 }) ⟨?_, fun _ => (rng.bit S.pos ^^ f.x q), fun r hr => ?_⟩ c ?_
      · dsimp only; split <;> omega
      · have hk : resetOne false .Z S0.tab q (r.bit S0.pos) = .ok T0' := by
          by_cases hn : nonzero S0.tab.s (singleOp false .Z q) = []
          · exact k3 (by rw [h.nonzero_s]; exact hn) _
          · rw [hr S0.pos le_rfl (by dsimp only; rw [if_neg hn]; omega)]
            exact k1
        dsimp only
        rw [hk]
      · intro r hU hV
        show S0.resetAll r (q :: qs) = .ok S0'
        rw [Sim.resetAll]
        cases h2 : resetOne false .Z S0.tab q (r.bit S0.pos) with
        | error e => simp [h2] at hU
        | ok T2 =>
          simp only [h2, Except.ok.injEq] at hU
          dsimp only
          rw [hU]
          exact hV

theorem after_meas (f : PFrame) (qs : List Nat) : f.after (qs.map .meas) = f := by
  induction qs with
  | nil => rfl
  | cons q qs ih => exact ih

theorem flips_meas (f : PFrame) (qs : List Nat) : f.flips (qs.map .meas) = qs.map f.x := by
  induction qs with
  | nil => rfl
  | cons q qs ih =>
    show f.x q :: f.flips (qs.map .meas) = _
    rw [ih]; rfl

/-! ### Instructions -/

theorem intArgs_qArgs (qs : List (Fin n)) : intArgs (qArgs qs : List (Val F)) = qs.map (·.val) := by
  unfold intArgs qArgs
  rw [List.filterMap_map]
  induction qs with
  | nil => rfl
  | cons q qs ih => rw [List.filterMap_cons, List.map_cons, ih]; rfl

theorem inPairs_pairArgs (ps : List (Fin n × Fin n)) : inPairs (intArgs (pairArgs ps : List (Val F))) = ps.map fun p => (p.1.val, p.2.val) := by
  induction ps with
  | nil => rfl
  | cons p ps ih =>
    rw [List.map_cons, ← ih]
    rfl

/-- An instruction that is not an error. -/
theorem tracks_plain {f : PFrame} {S S' S0 : Sim n} {name : Name} {args : List (Val F)} (h : S.tab.Framed f S0.tab) (hv : S.tab.Valid)
    (hn : name.noisy = false) (hok : TwoOk name args) (hm : S.handleGate api rng name args = .ok S') :
    Tracks (F := F) (fun r S => S.handleGate api r name args) (f.after (plainSteps name args)) (f.flips (plainSteps name args)) S S' S0 := by
  have pauli : ∀ (G : Fin n → CGate n), (∀ q, (G q).Ok) → (∀ a, (∃ q, G a = .x q) ∨ (∃ q, G a = .y q) ∨ ∃ q, G a = .z q) → S.oneQubit G args = .ok S' →
      Tracks (F := F) (fun _ S => S.oneQubit G args) f [] S S' S0 := by
    intro G hG hx hm
    unfold Sim.oneQubit at hm ⊢
    cases hq : qubitsOf n args with
    | error e => simp [hq] at hm
    | ok qs =>
      simp only [hq, Except.ok.injEq] at hm
      subst hm
      exact tracks_paulis h hv qs G hG hx
  have two : ∀ (G : Fin n → Fin n → CGate n) (s : Nat → Nat → FStep), (∀ c t, c ≠ t → (G c t).Ok) → (∀ c t q, s c t ≠ .meas q) →
      (∀ c t, c ≠ t → ∀ (g : PFrame) (U U0 : Tab n), U.Framed g U0 → ((G c t).app U).Framed (g.step (s c.val t.val)) ((G c t).app U0)) → PairsDiffer args →
      S.twoQubit G args = .ok S' →
      Tracks (F := F) (fun _ S => S.twoQubit G args) (f.after ((inPairs (intArgs args)).map fun p => s p.1 p.2))
        (f.flips ((inPairs (intArgs args)).map fun p => s p.1 p.2)) S S' S0 := by
    intro G s hG hq hs hd hm
    unfold Sim.twoQubit at hm ⊢
    split at hm
    · cases hm
    · rename_i hl
      cases hc : qubitsOf n (evens args) with
      | error e => simp [hc] at hm
      | ok cs =>
        cases ht : qubitsOf n (odds args) with
        | error e => simp [hc, ht] at hm
        | ok ts =>
          simp only [hc, ht, Except.ok.injEq] at hm
          subst hm
          have he := pairs_args args (not_not.mp hl) cs ts hc ht
          have e : (inPairs (intArgs args)).map (fun p => s p.1 p.2) = (cs.zip ts).map fun p => s p.1.val p.2.val := by
            rw [he, inPairs_pairArgs, List.map_map]; rfl
          rw [he] at hd
          have hne := pairsDiffer_args _ hd
          rw [e]
          simp only [hl, if_false]
          exact tracks_gates h hv (cs.zip ts) (fun p => G p.1 p.2) (fun p => s p.1.val p.2.val) (fun p hp => hG _ _ (hne p hp)) (fun p _ => hq _ _)
            fun p hp => hs _ _ (hne p hp)
  unfold Sim.handleGate at hm ⊢
  cases name <;> simp only at hm ⊢ <;> first | (exact absurd hn (by decide)) | skip
  case X => exact pauli _ (by simp [CGate.Ok]) (fun a => .inl ⟨a, rfl⟩) hm
  case Y => exact pauli _ (by simp [CGate.Ok]) (fun a => .inr (.inl ⟨a, rfl⟩)) hm
  case Z => exact pauli _ (by simp [CGate.Ok]) (fun a => .inr (.inr ⟨a, rfl⟩)) hm
  case H =>
    unfold Sim.oneQubit at hm ⊢
    cases hq : qubitsOf n args with
    | error e => simp [hq] at hm
    | ok qs =>
      simp only [hq, Except.ok.injEq] at hm
      subst hm
      have e : plainSteps .H args = qs.map fun q => .had q.val := by
        rw [qubitsOf_ok hq]
        show (intArgs _).map FStep.had = _
        rw [intArgs_qArgs, List.map_map]; rfl
      rw [e]
      exact tracks_gates h hv qs .h (fun q => .had q.val) (by simp [CGate.Ok]) (by simp) fun a _ g U U0 hU => framed_had hU a
  case CX =>
    exact two .cx .cx (by simp [CGate.Ok]) (by simp) (fun c t hct g U U0 hU => framed_cx hU c t hct) (hok (Or.inl rfl)) hm
  case CZ =>
    exact two .cz .cz (by simp [CGate.Ok]) (by simp) (fun c t hct g U U0 hU => framed_cz hU c t hct) (hok (Or.inr rfl)) hm
  case M =>
    cases hq : qubitsOf n args with
    | error e => simp [hq] at hm
    | ok qs =>
      simp only [hq] at hm
      have e : plainSteps .M args = (qs.map (·.val)).map .meas := by
        rw [qubitsOf_ok hq]
        show (intArgs _).map FStep.meas = _
        rw [intArgs_qArgs]
      rw [e, after_meas, flips_meas, List.map_map]
      exact tracks_measureAll h hv hm
  case R =>
    cases hq : qubitsOf n args with
    | error e => simp [hq] at hm
    | ok qs =>
      simp only [hq] at hm
      have e : plainSteps .R args = qs.map fun q => .clear q.val := by
        rw [qubitsOf_ok hq]
        show (intArgs _).map FStep.clear = _
        rw [intArgs_qArgs, List.map_map]; rfl
      rw [e, flips_quiet _ (qs.map fun q => .clear q.val) (by simp)]
      exact tracks_resetAll h hv hm

/-- The effect of applying Pauli matrices: only the frame changes, or the tableau. -/
def Kicked (f f' : PFrame) (S S' : Sim n) : Prop := S'.tab.Valid ∧ S'.meas = S.meas ∧ ∀ T0, S.tab.Framed f T0 → S'.tab.Framed f' T0

theorem kicked_pauli {f : PFrame} {S S' S1 : Sim n} (hv : S.tab.Valid) (q : Fin n) (k : Fin 4) (hp : S1.applyPauli q k.val = .ok S') (ht : S1.tab = S.tab)
    (hm : S1.meas = S.meas) : Kicked f (f.step (.kick q k)) S S' := by
  have key : S'.meas = S1.meas ∧ S'.tab = S1.tab.kick q k := by
    match k with
    | 0 => simp only [Sim.applyPauli, Fin.val_zero, Except.ok.injEq] at hp; subst hp; exact ⟨rfl, rfl⟩
    | 1 => simp only [Sim.applyPauli] at hp; cases hp; exact ⟨rfl, rfl⟩
    | 2 => simp only [Sim.applyPauli] at hp; cases hp; exact ⟨rfl, rfl⟩
    | 3 => simp only [Sim.applyPauli] at hp; cases hp; exact ⟨rfl, rfl⟩
  refine ⟨?_, key.1.trans hm, fun T0 h => ?_⟩
  · rw [key.2, ht]
    match k with
    | 0 => exact hv
    | 1 => exact app_valid hv _ trivial
    | 2 => exact app_valid hv _ trivial
    | 3 => exact app_valid hv _ trivial
  · rw [← ht] at h
    exact framed_kick h q k _ key.2

theorem Kicked.trans {f f' f'' : PFrame} {S S1 S2 : Sim n} (h : Kicked f f' S S1) (h' : Kicked f' f'' S1 S2) : Kicked f f'' S S2 :=
  ⟨h'.1, h'.2.1.trans h.2.1, fun T0 k => h'.2.2 T0 (h.2.2 T0 k)⟩

theorem kicked_same {f : PFrame} {S S' : Sim n} (hv : S.tab.Valid) (ht : S'.tab = S.tab) (hm : S'.meas = S.meas) : Kicked f f S S' :=
  ⟨ht ▸ hv, hm, fun T0 h => ht ▸ h⟩

/-- The steps of errors. -/
def kickSteps (l : List (Nat × Fin 4)) : List FStep := l.map fun p => .kick p.1 p.2

theorem kicked_gates {f : PFrame} {S : Sim n} (hv : S.tab.Valid) (qs : List (Fin n)) (G : Fin n → CGate n) (k : Fin 4) (hG : ∀ q (U : Sim n), U.applyPauli q k.val = .ok (U.gates [G q])) :
    Kicked f (f.after (kickSteps (qs.map fun q => (q.val, k)))) S (S.gates (qs.map G)) := by
  induction qs generalizing f S with
  | nil => exact kicked_same hv rfl rfl
  | cons q qs ih =>
    have h1 : Kicked f (f.step (.kick q k)) S (S.gates [G q]) := kicked_pauli hv q k (hG q S) rfl rfl
    exact h1.trans (ih h1.1)

theorem kicked_depol {f : PFrame} {S S' : Sim n} {qs : List (Fin n)} (hv : S.tab.Valid) (hm : S.depolarize rng qs = .ok S') :
    Kicked f (f.after (kickSteps (depolKicks rng S.pos (qs.map (·.val))))) S S' := by
  induction qs generalizing f S with
  | nil => simp only [Sim.depolarize, Except.ok.injEq] at hm; subst hm; exact kicked_same hv rfl rfl
  | cons q qs ih =>
    rw [Sim.depolarize] at hm
    cases hp : ({ S with pos := S.pos + 1 } : Sim n).applyPauli q (1 + (rng.int3 S.pos).val) with
    | error e => simp [hp] at hm
    | ok S1 =>
      simp only [hp] at hm
      have h1 : Kicked f (f.step (.kick q ⟨1 + (rng.int3 S.pos).val, by omega⟩)) S S1 := kicked_pauli hv q ⟨1 + (rng.int3 S.pos).val, by omega⟩ hp rfl rfl
      have hpos : S1.pos = S.pos + 1 := by
        unfold Sim.applyPauli at hp
        split at hp
        · cases hp; rfl
        · cases hp; rfl
        · cases hp; rfl
        · cases hp; rfl
        · cases hp
      have h2 := ih (f := f.step (.kick q ⟨1 + (rng.int3 S.pos).val, by omega⟩)) h1.1 hm
      rw [hpos] at h2
      exact h1.trans h2

/-- An instruction that applies Pauli matrices. -/
theorem kicked_gate {f : PFrame} {S S' : Sim n} {name : Name} {args : List (Val F)} (hv : S.tab.Valid) (hn : name.pauliLike = true)
    (hm : S.handleGate api rng name args = .ok S') : Kicked f (f.after (kickSteps (kicksOf api rng S.pos name args))) S S' := by
  have one : ∀ (G : Fin n → CGate n) (k : Fin 4), (∀ q (U : Sim n), U.applyPauli q k.val = .ok (U.gates [G q])) → S.oneQubit G args = .ok S' →
      Kicked f (f.after (kickSteps ((intArgs args).map (·, k)))) S S' := by
    intro G k hG hm
    unfold Sim.oneQubit at hm
    cases hq : qubitsOf n args with
    | error e => simp [hq] at hm
    | ok qs =>
      simp only [hq, Except.ok.injEq] at hm
      subst hm
      rw [qubitsOf_ok hq, intArgs_qArgs, List.map_map]
      exact kicked_gates hv qs G k hG
  unfold Sim.handleGate at hm
  cases name <;> simp only at hm <;> first | (exact absurd hn (by decide)) | skip
  case X => exact one .x 1 (fun _ _ => rfl) hm
  case Y => exact one .y 2 (fun _ _ => rfl) hm
  case Z => exact one .z 3 (fun _ _ => rfl) hm
  case DEPOLARIZE =>
    cases hq : qubitsOf n args with
    | error e => simp [hq] at hm
    | ok qs =>
      simp only [hq] at hm
      show Kicked f (f.after (kickSteps (depolKicks rng S.pos (intArgs args)))) S S'
      rw [qubitsOf_ok hq, intArgs_qArgs]
      exact kicked_depol hv hm
  case E_ERASE =>
    rcases args with _ | ⟨v, _ | ⟨qv, _ | ⟨w, rest⟩⟩⟩
    · cases hm
    · cases hm
    · simp only at hm
      cases hp : numOf api v with
      | error e => simp [hp] at hm
      | ok p =>
        simp only [hp] at hm
        cases he : rng.below S.pos p with
        | false =>
          simp only [he, Bool.false_eq_true, if_false, Except.ok.injEq] at hm
          subst hm
          have e : kicksOf api rng S.pos .E_ERASE [v, qv] = [] := by
            cases qv with
            | int i => simp [kicksOf, hp, he]
            | _ => rfl
          rw [e]
          exact kicked_same hv rfl rfl
        | true =>
          simp only [he, if_true] at hm
          cases hq : qubitOf n qv with
          | error e => simp [hq] at hm
          | ok q =>
            simp only [hq] at hm
            have e : kicksOf api rng S.pos .E_ERASE [v, qv] = [(q.val, rng.int4 (S.pos + 1))] := by
              rw [qubitOf_ok hq]; simp [kicksOf, hp, he]
            rw [e]
            exact kicked_pauli hv q _ hm rfl rfl
    · cases hm
  case E_PAULI =>
    cases hps : numsOf api (args.take 3) with
    | error e => simp [hps] at hm
    | ok ps =>
      cases ha : argAt args 3 with
      | error e => simp [hps, ha] at hm
      | ok qv =>
        cases hc : rng.choice4 S.pos ps with
        | none => simp [hps, ha, hc] at hm
        | some k =>
          cases hq : qubitOf n qv with
          | error e => simp [hps, ha, hc, hq] at hm
          | ok q =>
            simp only [hps, ha, hc, hq] at hm
            have ha' : args[3]? = some (Val.int (q.val : Int)) := by
              unfold argAt at ha
              split at ha
              · rename_i v hv'; cases ha; rw [hv', qubitOf_ok hq]
              · cases ha
            have e : kicksOf api rng S.pos .E_PAULI args = [(q.val, k)] := by
              simp [kicksOf, hps, hc, ha']
            rw [e]
            exact kicked_pauli hv q k hm rfl rfl
  case E_PAULI2 =>
    cases hps : numsOf api (args.take 15) with
    | error e => simp [hps] at hm
    | ok ps =>
      simp only [hps] at hm
      split at hm
      · cases hm
      · cases hc : rng.choice16 S.pos ps with
        | none => simp [hc] at hm
        | some k =>
          simp only [hc] at hm
          cases ha : argAt (args.drop 15) 0 with
          | error e => simp [ha] at hm
          | ok qv1 =>
            simp only [ha] at hm
            cases hq1 : qubitOf n qv1 with
            | error e => simp [hq1] at hm
            | ok q1 =>
              simp only [hq1] at hm
              cases hp1 : ({ S with pos := S.pos + 1 } : Sim n).applyPauli q1 (k.val / 4) with
              | error e => simp [hp1] at hm
              | ok S1 =>
                simp only [hp1] at hm
                cases hb : argAt (args.drop 15) 1 with
                | error e => simp [hb] at hm
                | ok qv2 =>
                  simp only [hb] at hm
                  cases hq2 : qubitOf n qv2 with
                  | error e => simp [hq2] at hm
                  | ok q2 =>
                    simp only [hq2] at hm
                    have at' : ∀ {j : Nat} {v : Val F}, argAt (args.drop 15) j = .ok v → args[15 + j]? = some v := by
                      intro j v h
                      unfold argAt at h
                      rw [List.getElem?_drop] at h
                      split at h
                      · rename_i w hw; cases h; exact hw
                      · cases h
                    have a1 := at' ha
                    have a2 := at' hb
                    rw [qubitOf_ok hq1] at a1
                    rw [qubitOf_ok hq2] at a2
                    have e : kicksOf api rng S.pos .E_PAULI2 args = [(q1.val, ⟨k.val / 4, by omega⟩), (q2.val, ⟨k.val % 4, by omega⟩)] := by
                      unfold kicksOf
                      simp only [hps, a1, a2, hc]
                      rfl
                    rw [e]
                    have k1 : Kicked f (f.step (.kick q1 ⟨k.val / 4, by omega⟩)) S S1 := kicked_pauli hv q1 ⟨k.val / 4, by omega⟩ hp1 rfl rfl
                    exact k1.trans (kicked_pauli k1.1 q2 ⟨k.val % 4, by omega⟩ hm rfl rfl)

/-- An error instruction. -/
theorem kicked_run {f : PFrame} {S S' : Sim n} {g : Gate F} (hv : S.tab.Valid) (hn : g.name.noisy = true) (hp : g.PauliErrors)
    (hm : S.runGate api rng g = .ok S') : Kicked f (f.after (S.frameStep api rng g)) S S' := by
  have e : S.frameStep api rng g = kickSteps (S.kicks api rng g) := by unfold Sim.frameStep; rw [if_pos hn]; rfl
  rw [e]
  obtain ⟨name, args⟩ := g
  unfold Sim.runGate at hm
  dsimp only at hm hn
  cases name <;> simp only [Name.isError, if_true, Bool.false_eq_true, if_false] at hm <;> first | (exact absurd hn (by decide)) | skip
  case DEPOLARIZE => exact kicked_gate (S := { S with inError := false }) hv rfl hm
  case E_ERASE => exact kicked_gate (S := { S with inError := false }) hv rfl hm
  case E_PAULI => exact kicked_gate (S := { S with inError := false }) hv rfl hm
  case E_PAULI2 => exact kicked_gate (S := { S with inError := false }) hv rfl hm
  case ERROR =>
    unfold Sim.handleError at hm
    rcases args with _ | ⟨v, rest⟩
    · cases hm
    simp only at hm
    cases hv1 : numOf api v with
    | error e => simp [hv1] at hm
    | ok p =>
      simp only [hv1] at hm
      cases hb : rng.below S.pos p with
      | false =>
        simp only [hb, Bool.false_eq_true, if_false, Except.ok.injEq] at hm
        subst hm
        have e : S.kicks api rng ⟨.ERROR, v :: rest⟩ = [] := by
          unfold Sim.kicks
          dsimp only
          split <;> simp_all
        rw [e]
        exact kicked_same hv rfl rfl
      | true =>
        simp only [hb, if_true] at hm
        rcases rest with _ | ⟨w, rest⟩
        · cases hm
        cases w with
        | name m =>
          have e : S.kicks api rng ⟨.ERROR, v :: .name m :: rest⟩ = kicksOf api rng (S.pos + 1) m rest := by
            unfold Sim.kicks
            simp only [hv1, hb, if_true]
          rw [e]
          exact kicked_gate (S := { S with inError := true, anyApplied := true, applyBranch := true, pos := S.pos + 1 }) hv hp hm
        | _ => cases hm
  case ERROR_ELSE =>
    unfold Sim.handleError at hm
    simp only at hm
    split at hm
    · cases hm
    split at hm
    · rename_i ha
      simp only [Except.ok.injEq] at hm
      subst hm
      have e : S.kicks api rng ⟨.ERROR_ELSE, args⟩ = [] := by
        unfold Sim.kicks
        dsimp only
        split <;> simp_all
        split <;> simp_all
      rw [e]
      exact kicked_same hv rfl rfl
    · rename_i ha
      rcases args with _ | ⟨v, rest⟩
      · cases hm
      simp only at hm
      cases hv1 : numOf api v with
      | error e => simp [hv1] at hm
      | ok p =>
        simp only [hv1] at hm
        cases hb : rng.below S.pos p with
        | false =>
          simp only [hb, Bool.false_eq_true, if_false, Except.ok.injEq] at hm
          subst hm
          have e : S.kicks api rng ⟨.ERROR_ELSE, v :: rest⟩ = [] := by
            unfold Sim.kicks
            dsimp only
            split <;> simp_all
          rw [e]
          exact kicked_same hv rfl rfl
        | true =>
          simp only [hb, if_true] at hm
          rcases rest with _ | ⟨w, rest⟩
          · cases hm
          cases w with
          | name m =>
            have e : S.kicks api rng ⟨.ERROR_ELSE, v :: .name m :: rest⟩ = kicksOf api rng (S.pos + 1) m rest := by
              unfold Sim.kicks
              simp only [hv1, hb, Bool.eq_false_iff.2 ha, Bool.not_false, Bool.true_and, if_true]
            rw [e]
            exact kicked_gate (S := { S with anyApplied := true, applyBranch := true, pos := S.pos + 1 }) hv hp hm
          | _ => cases hm
  case ERROR_CONTINUE =>
    unfold Sim.handleError at hm
    simp only at hm
    split at hm
    · cases hm
    split at hm
    · rename_i ha
      rcases args with _ | ⟨w, rest⟩
      · cases hm
      cases w with
      | name m =>
        have e : S.kicks api rng ⟨.ERROR_CONTINUE, .name m :: rest⟩ = kicksOf api rng S.pos m rest := by
          unfold Sim.kicks
          simp only [ha, if_true]
        rw [e]
        exact kicked_gate hv hp hm
      | _ => cases hm
    · rename_i ha
      simp only [Except.ok.injEq] at hm
      subst hm
      have e : S.kicks api rng ⟨.ERROR_CONTINUE, args⟩ = [] := by
        unfold Sim.kicks
        dsimp only
        split <;> simp_all
      rw [e]
      exact kicked_same hv rfl rfl

theorem kicks_flips (f : PFrame) (l : List (Nat × Fin 4)) : f.flips (kickSteps l) = [] :=
  flips_quiet _ _ (by
    intro s hs q hq
    obtain ⟨p, _, rfl⟩ := List.mem_map.1 hs
    cases hq)

/-! ### Runs -/

theorem tracks_run {f : PFrame} {S S' S0 : Sim n} {c : List (Gate F)} (h : S.tab.Framed f S0.tab) (hv : S.tab.Valid)
    (hc : ∀ g ∈ c, g.TwoOk ∧ g.PauliErrors) (hm : S.runGates api rng c = .ok S') :
    Tracks (F := F) (fun r S => S.runGates api r (noiseless c)) (f.after (S.frameSteps api rng c)) (f.flips (S.frameSteps api rng c)) S S' S0 := by
  induction c generalizing S S0 f with
  | nil =>
    simp only [Sim.runGates, Except.ok.injEq] at hm
    subst hm
    exact ⟨S0, [], could_of rfl fun _ => rfl, h, hv, by simp, by simp, rfl, rfl⟩
  | cons g c ih =>
    obtain ⟨S1, h1, h2⟩ := runGates_cons hm
    have e : S.frameSteps api rng (g :: c) = S.frameStep api rng g ++ S1.frameSteps api rng c := by
      rw [Sim.frameSteps, h1]
    rw [e, after_append, flips_append]
    obtain ⟨hg1, hg2⟩ := hc g (by simp)
    have hc' : ∀ g ∈ c, g.TwoOk ∧ g.PauliErrors := fun g' hg' => hc g' (List.mem_cons_of_mem _ hg')
    cases hn : g.name.noisy with
    | true =>
      have e1 : noiseless (g :: c) = noiseless c := by unfold noiseless; rw [List.filter_cons]; simp [hn]
      have e2 : f.flips (S.frameStep api rng g) = [] := by
        unfold Sim.frameStep; rw [if_pos hn]; exact kicks_flips _ _
      obtain ⟨k1, k2, k3⟩ := kicked_run (f := f) hv hn hg2 h1
      rw [e1, e2]
      obtain ⟨S0', ms, a1, a2, a3, a4, a5, a6⟩ := ih (k3 _ h) k1 hc' h2
      rw [k2] at a5
      exact ⟨S0', ms, a1, a2, a3, a4, a5, a6⟩
    | false =>
      have e1 : noiseless (g :: c) = g :: noiseless c := by unfold noiseless; rw [List.filter_cons]; simp [hn]
      have e2 : S.frameStep api rng g = plainSteps g.name g.args := by unfold Sim.frameStep; simp [hn]
      have hne : g.name.isError = false := by
        generalize g.name = nm at hn
        cases nm <;> first | rfl | exact absurd hn (by decide)
      have hok : TwoOk g.name g.args := by
        unfold Gate.TwoOk at hg1
        generalize g.name = nm at hn hg1 ⊢
        cases nm <;> first | exact absurd hn (by decide) | exact hg1
      have hrun : S.runGate api rng g = ({ S with inError := false } : Sim n).handleGate api rng g.name g.args := by
        unfold Sim.runGate; rw [hne]; rfl
      rw [hrun] at h1
      have t1 := tracks_plain (S := { S with inError := false }) (S0 := { S0 with inError := false }) (f := f) h hv hn hok h1
      rw [e1, e2]
      obtain ⟨U, ms, a1, a2, a3, a4, a5, a6, a7⟩ := t1
      have t2 : Tracks (F := F) (fun r S => S.runGate api r g) (f.after (plainSteps g.name g.args)) (f.flips (plainSteps g.name g.args)) S S1 S0 := by
        refine ⟨U, ms, ?_, a2, a3, a4, a5, a6, a7⟩
        obtain ⟨p, b, hb⟩ := a1
        refine ⟨p, b, fun r hr => ?_⟩
        show S0.runGate api r g = .ok U
        unfold Sim.runGate
        rw [hne]
        exact hb r hr
      refine t2.comp (Y := fun r S => S.runGates api r (noiseless c)) (fun S0' t v => ih t v hc' h2) ?_
      intro r A B hA hB
      show S0.runGates api r (g :: noiseless c) = .ok B
      rw [Sim.runGates, hA]
      exact hB

/-! ### The state at the end -/

theorem framed_represents {f : PFrame} {T T0 : Tab n} (h : T.Framed f T0) {ψ : Vec n} (hψ : T0.Represents ψ) : T.Represents (opMat (f.op n) *ᵥ ψ) := by
  refine ⟨fun h0 => hψ.1 ?_, fun i => ?_⟩
  · have : opMat (f.op n) *ᵥ (opMat (f.op n) *ᵥ ψ) = ψ := by rw [Matrix.mulVec_mulVec, opMat_sq, Matrix.one_mulVec]
    rw [← this, h0, Matrix.mulVec_zero]
  · rw [h.s i]
    unfold Stabilises Op.sg
    have hs : opMat (T0.s i) *ᵥ ψ = ψ := hψ.2 i
    rw [opMat_flip, Matrix.smul_mulVec, Matrix.mulVec_mulVec, opMat_comm, Matrix.smul_mulVec, smul_smul, ← Matrix.mulVec_mulVec, hs, anti_symm, sgn_mul_self, one_smul]

end Plaquette
