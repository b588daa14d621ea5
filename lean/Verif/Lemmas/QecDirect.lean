import Verif.Lemmas.QecMain

/-!
# Direct measurement of the logical operators
-/

namespace Plaquette
open Matrix
variable {F : Type} {n : Nat} {api : FloatApi F} {rng : Rng F} {L : Lattice}

theorem parity_cons (m : Bool) (ms : List Bool) : parity (m :: ms) = (m ^^ parity ms) := by
  unfold parity
  cases m
  · simp
  · rw [List.count_cons_self]
    rcases Nat.mod_two_eq_zero_or_one (List.count true ms) with h | h
    · rw [h, Nat.add_mod, h]; rfl
    · rw [h, Nat.add_mod, h]; rfl

/-- Operators without X commute. -/
theorem anti_noX {a b : Op n} (ha : ∀ q, a.x q = false) (hb : ∀ q, b.x q = false) : anti a b = false := by
  have : ∀ q ∈ (Finset.univ : Finset (Fin n)), bit (a.x q) * bit (b.z q) + bit (a.z q) * bit (b.x q) = 0 := by
    intro q _
    simp [ha, hb, bit]
  unfold anti
  rw [Finset.sum_eq_zero this]
  rfl

/-- The product of operators Z has the product of the values. -/
theorem product_value (idx : Pos → Nat) (es : List LEdge) (hZ : ∀ e ∈ es, e.factor = .Z)
    (hnd : (es.map fun e => idx e.data).Nodup) {ms : List Bool} {ψ : Vec n}
    (h : List.Forall₂ (fun p m => HasValue p m ψ) (es.map fun e => zAt n (idx e.data)) ms) :
    HasValue (edgesOp idx n es) (parity ms) ψ := by
  induction es generalizing ms with
  | nil =>
    cases h
    have : ({ edgesOp idx n [] with r := parity [] } : Op n) = idOp n := rfl
    unfold HasValue
    rw [this]
    exact stabilises_id ψ
  | cons e es ih =>
    rw [List.map_cons] at h hnd
    rw [List.nodup_cons] at hnd
    cases h with
    | cons h1 h2 =>
      rename_i m ms
      have i1 := ih (fun f hf => hZ f (by simp [hf])) hnd.2 h2
      unfold HasValue at i1 h1 ⊢
      have hdis : ∀ q, (({ zAt n (idx e.data) with r := m } : Op n).x q = false ∧ ({ zAt n (idx e.data) with r := m } : Op n).z q = false) ∨
          (({ edgesOp idx n es with r := parity ms } : Op n).x q = false ∧ ({ edgesOp idx n es with r := parity ms } : Op n).z q = false) := by
        intro q
        by_cases hq : q.val = idx e.data
        · right
          have : ∀ f ∈ es, ¬ idx f.data = q.val := by
            intro f hf hc
            exact hnd.1 (List.mem_map.mpr ⟨f, hf, by rw [hc, hq]⟩)
          exact ⟨xorSum_false fun f hf => by simp [this f hf], xorSum_false fun f hf => by simp [this f hf]⟩
        · left
          exact ⟨rfl, by simp [zAt, hq]⟩
      have hcom : anti ({ zAt n (idx e.data) with r := m } : Op n) { edgesOp idx n es with r := parity ms } = false := by
        have : ∀ q, ({ edgesOp idx n es with r := parity ms } : Op n).x q = false := by
          intro q
          exact xorSum_false fun f hf => by simp [hZ f (by simp [hf]), Letter.hasX]
        exact anti_noX (fun _ => rfl) this
      have := stabilises_mul hcom h1 i1
      rw [mulOp_disjoint hdis] at this
      convert this using 2
      · funext q
        have e1 : e.factor = .Z := hZ e (by simp)
        simp [edgesOp, zAt, xorSum_cons, e1, Letter.hasX]
      · funext q
        have e1 : e.factor = .Z := hZ e (by simp)
        simp [edgesOp, zAt, xorSum_cons, e1, Letter.hasZ, eq_comm]
      · exact parity_cons m ms

/-- Hadamard gates and measurements: the state stays different from zero, and there is one result per measurement. -/
theorem direct_any (as : List Pos) {σ σ' : VState n} (h : VGates api rng (L.directGates as) σ σ') (h0 : σ.ψ ≠ 0) :
    σ'.ψ ≠ 0 ∧ σ'.erasure = σ.erasure ∧ ∃ mss, σ'.meas = σ.meas ++ mss.flatten ∧
      List.Forall₂ (fun a (ms : List Bool) => ms.length = (L.opEdges a).length) as mss := by
  have key : ∀ (es : List LEdge) {σ σ' : VState n}, VGates api rng (es.flatMap fun e =>
      if e.factor = .X then [g1 .H (L.idx e.data), g1 .M (L.idx e.data)] else [g1 .M (L.idx e.data)]) σ σ' → σ.ψ ≠ 0 →
      σ'.ψ ≠ 0 ∧ σ'.erasure = σ.erasure ∧ ∃ ms, σ'.meas = σ.meas ++ ms ∧ ms.length = es.length := by
    intro es
    induction es with
    | nil => intro σ σ' h h0; cases h; exact ⟨h0, rfl, [], by simp, rfl⟩
    | cons e es ih =>
      intro σ σ' h h0
      rw [List.flatMap_cons] at h
      obtain ⟨σ1, h1, h2⟩ := vgates_append h
      have hone : σ1.ψ ≠ 0 ∧ σ1.erasure = σ.erasure ∧ ∃ m, σ1.meas = σ.meas ++ [m] := by
        have hm : ∀ {τ : VState n}, VGates api rng [g1 .M (L.idx e.data)] τ σ1 → τ.ψ ≠ 0 →
            σ1.ψ ≠ 0 ∧ σ1.erasure = τ.erasure ∧ ∃ m, σ1.meas = τ.meas ++ [m] := by
          intro τ ht h0
          obtain ⟨a1, a2, ⟨ms, a3, a4⟩, _⟩ := m_measures _ _ _ ht h0
          cases a4 with
          | cons _ a5 => cases a5; exact ⟨a1, a2, _, a3⟩
        split at h1
        · cases h1 with
          | cons hH hs =>
            obtain ⟨q, hq, he⟩ := vgate_h hH
            obtain ⟨b1, b2, b3⟩ := hm hs (by rw [he]; exact gate_ne_zero (.h q) trivial h0)
            subst he
            exact ⟨b1, b2, b3⟩
        · exact hm h1 h0
      obtain ⟨a1, a2, m, a3⟩ := hone
      obtain ⟨b1, b2, ms, b3, b4⟩ := ih h2 a1
      exact ⟨b1, b2.trans a2, m :: ms, by rw [b3, a3]; simp, by simp [b4]⟩
  induction as generalizing σ with
  | nil => cases h; exact ⟨h0, rfl, [], by simp, .nil⟩
  | cons a as ih =>
    unfold Lattice.directGates at h
    rw [List.flatMap_cons] at h
    obtain ⟨σ1, h1, h2⟩ := vgates_append h
    obtain ⟨a1, a2, ms, a3, a4⟩ := key _ h1 h0
    obtain ⟨b1, b2, mss, b3, b4⟩ := ih h2 a1
    exact ⟨b1, b2.trans a2, ms :: mss, by rw [b3, a3]; simp, .cons a4 b4⟩

/-- Direct measurement of operators with letters Z only. -/
theorem direct_z (hw : L.Wf) (as : List Pos) (hZ : ∀ a ∈ as, ∀ e ∈ L.opEdges a, e.factor = .Z) {σ σ' : VState n}
    (h : VGates api rng (L.directGates as) σ σ') (h0 : σ.ψ ≠ 0) :
    σ'.ψ ≠ 0 ∧ σ'.erasure = σ.erasure ∧ (∃ mss, σ'.meas = σ.meas ++ mss.flatten ∧
      List.Forall₂ (fun a (ms : List Bool) => ms.length = (L.opEdges a).length ∧ HasValue (L.lop n a) (parity ms) σ'.ψ) as mss) ∧
    ∀ p : Op n, (∀ q, p.x q = false) → Stabilises p σ.ψ → Stabilises p σ'.ψ := by
  have key : ∀ (es : List LEdge), (∀ e ∈ es, e.factor = .Z) →
      Measures api rng (es.flatMap fun e =>
        if e.factor = .X then [g1 .H (L.idx e.data), g1 .M (L.idx e.data)] else [g1 .M (L.idx e.data)])
        (es.map fun e => zAt n (L.idx e.data)) [] := by
    intro es hes
    have := Measures.flatMap (api := api) (rng := rng) (n := n) es (fun e =>
        if e.factor = .X then [g1 .H (L.idx e.data), g1 .M (L.idx e.data)] else [g1 .M (L.idx e.data)])
      (fun e => [zAt n (L.idx e.data)]) (fun _ => []) (by
        intro e he
        simp only [hes e he, reduceCtorEq, if_false]
        exact m_measures _) (by
        intro e _ f _ p hp q hq
        rw [List.mem_singleton.mp hp, List.mem_singleton.mp hq]
        exact anti_noX (fun _ => rfl) (fun _ => rfl)) (by simp)
    rw [← List.map_eq_flatMap, show (es.flatMap fun _ => ([] : List Nat)) = [] by simp] at this
    exact this
  have pres : ∀ (p : Op n) (es : List LEdge), (∀ q, p.x q = false) → ∀ q ∈ es.map (fun e => zAt n (L.idx e.data)), anti p q = false := by
    intro p es hp q hq
    obtain ⟨e, _, rfl⟩ := List.mem_map.mp hq
    exact anti_noX hp (fun _ => rfl)
  induction as generalizing σ with
  | nil => cases h; exact ⟨h0, rfl, ⟨[], by simp, .nil⟩, fun _ _ hp => hp⟩
  | cons a as ih =>
    unfold Lattice.directGates at h
    rw [List.flatMap_cons] at h
    obtain ⟨σ1, h1, h2⟩ := vgates_append h
    obtain ⟨a1, a2, ⟨ms, a3, a4⟩, a5⟩ := key _ (hZ a (by simp)) _ _ h1 h0
    obtain ⟨b1, b2, ⟨mss, b3, b4⟩, b5⟩ := ih (fun b hb => hZ b (by simp [hb])) h2 a1
    refine ⟨b1, b2.trans a2, ⟨ms :: mss, by rw [b3, a3]; simp, .cons ⟨?_, ?_⟩ b4⟩, ?_⟩
    · have := a4.length_eq
      simpa using this.symm
    · refine b5 _ ?_ (product_value L.idx _ (hZ a (by simp)) (hw.op_idx_nodup a) a4)
      intro q
      exact xorSum_false fun f hf => by simp [hZ a (by simp) f hf, Letter.hasX]
    · intro p hp hs
      exact b5 p hp (a5 p (by simp) (pres p _ hp) hs)

/-- Without ancillas for the logical operators. -/
theorem quiet_results_direct (hw : L.Wf) (hc : L.Comm) (hs : L.Sched) (hn : L.dataqubits.length ≤ n) (r : Nat) (as : List Pos)
    (has : ∀ a ∈ as, a ∈ L.logicals.map Prod.fst)
    {σ σ' : VState n} (h : VGates api rng (L.quietGates false r as) σ σ') (h0 : σ.ψ ≠ 0) :
    σ'.erasure = σ.erasure ∧ ∃ (inits finals : List (List Bool)) (row : List Bool),
      σ'.meas = σ.meas ++ (inits.flatten ++ (List.replicate (r - 1 + 2) row).flatten ++ finals.flatten) ∧
      row.length = L.stabgens.length ∧
      List.Forall₂ (fun a (ms : List Bool) => ms.length = (L.opEdges a).length) as inits ∧
      List.Forall₂ (fun a (ms : List Bool) => ms.length = (L.opEdges a).length) as finals ∧
      ((∀ a ∈ as, ∀ e ∈ L.opEdges a, e.factor = .Z) → inits.map parity = finals.map parity) := by
  unfold Lattice.quietGates at h
  simp only [Bool.false_eq_true, if_false] at h
  obtain ⟨σ2, h, h3⟩ := vgates_append h
  obtain ⟨σ1, h1, h2⟩ := vgates_append h
  obtain ⟨a1, a2, inits, a3, a4⟩ := direct_any as h1 h0
  obtain ⟨b1, b2, ⟨ms, b3, b4⟩, b5⟩ := rounds_measures hw hc hs hn _ _ _ h2 a1
  obtain ⟨c1, c2, finals, c3, c4⟩ := direct_any as h3 b1
  obtain ⟨f, hf, _⟩ := values_of_labels _ b1 b4
  rw [List.map_flatten, List.map_replicate] at hf
  refine ⟨c2.trans (b2.trans a2), inits, finals, (L.stabgens.map Prod.fst).map f, ?_, by simp, a4, c4, ?_⟩
  · rw [c3, b3, a3, hf]; simp only [List.append_assoc]
  · intro hZ
    obtain ⟨_, _, ⟨inits', d3, d4⟩, _⟩ := direct_z hw as hZ h1 h0
    obtain ⟨_, _, ⟨finals', e3, e4⟩, e5⟩ := direct_z hw as hZ h3 b1
    have flat : ∀ (l l' : List (List Bool)) (w : List Bool), List.Forall₂ (fun a (ms : List Bool) => ms.length = (L.opEdges a).length) as l →
        List.Forall₂ (fun a (ms : List Bool) => ms.length = (L.opEdges a).length) as l' → w ++ l.flatten = w ++ l'.flatten → l = l' := by
      intro l l' w hl hl' he
      rw [List.append_cancel_left_eq] at he
      clear * - hl hl' he
      induction hl generalizing l' with
      | nil => cases hl'; rfl
      | cons h1 _ ih =>
        cases hl' with
        | cons h2 h3 =>
          rw [List.flatten_cons, List.flatten_cons] at he
          obtain ⟨k1, k2⟩ := List.append_inj he (by rw [h1, h2])
          rw [k1, ih _ h3 k2]
    obtain rfl : inits = inits' := flat _ _ _ a4 (d4.imp fun _ _ h => h.1) (a3.symm.trans d3)
    obtain rfl : finals = finals' := flat _ _ _ c4 (e4.imp fun _ _ h => h.1) (c3.symm.trans e3)
    have pres : ∀ a ∈ as, ∀ m, HasValue (L.lop n a) m σ1.ψ → HasValue (L.lop n a) m σ'.ψ := by
      intro a ha m hm
      refine e5 _ ?_ (b5 _ ?_ ?_ hm)
      · intro q
        exact xorSum_false fun f hf => by simp [hZ a ha f hf, Letter.hasX]
      · intro i hi
        obtain ⟨b, hb, rfl⟩ := List.mem_map.mp hi
        obtain ⟨l, hl, hb⟩ := List.mem_flatten.mp hb
        rw [(List.mem_replicate.mp hl).2] at hb
        exact lop_idAt hw (stab_anc hb)
      · intro q hq
        obtain ⟨b, hb, rfl⟩ := List.mem_map.mp hq
        obtain ⟨l, hl, hb⟩ := List.mem_flatten.mp hb
        rw [(List.mem_replicate.mp hl).2] at hb
        rw [anti_sign, anti_lop hw hn, antiE_symm]
        obtain ⟨s, hs', rfl⟩ := List.mem_map.mp hb
        obtain ⟨t, ht, rfl⟩ := List.mem_map.mp (has a ha)
        exact hc.stab_log s hs' t ht
    clear * - d4 e4 pres c1
    induction d4 generalizing finals with
    | nil => cases e4; rfl
    | cons h1 _ ih =>
      cases e4 with
      | cons h2 h3 =>
        rw [List.map_cons, List.map_cons, ih _ h3 (fun a ha => pres a (by simp [ha]))]
        congr 1
        exact hasValue_unique c1 (pres _ (by simp) _ h1.2) h2.2

end Plaquette
