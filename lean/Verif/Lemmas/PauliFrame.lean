import Verif.Spec.PauliFrame
import Verif.Lemmas.NoisyRun

/-!
# Runs with Pauli errors and runs without
-/

namespace Plaquette
open Matrix
variable {F : Type} {n : Nat} {api : FloatApi F} {rng : Rng F}

/-- An operator with another sign. -/
def Op.sg (b : Bool) (p : Op n) : Op n := { p with r := p.r ^^ b }

theorem sg_x (b : Bool) (p : Op n) : (p.sg b).x = p.x := rfl
theorem sg_z (b : Bool) (p : Op n) : (p.sg b).z = p.z := rfl

theorem sg_false (p : Op n) : p.sg false = p := by
  unfold Op.sg; ext <;> simp

theorem sg_sg (a b : Bool) (p : Op n) : (p.sg a).sg b = p.sg (a ^^ b) := by
  unfold Op.sg; ext <;> simp

theorem anti_sg_right (a p : Op n) (b : Bool) : anti a (p.sg b) = anti a p := rfl

theorem anti_sg_left (a p : Op n) (b : Bool) : anti (p.sg b) a = anti p a := rfl

theorem signBit_flip (k : ZMod 4) (a b c d : Bool) :
    signBit (k + if ((a ^^ c) ^^ (b ^^ d)) then 2 else 0) = (signBit (k + if (a ^^ b) then 2 else 0) ^^ (c ^^ d)) := by
  revert k a b c d
  decide

theorem mulOp_sg (a b : Bool) (p q : Op n) : mulOp (p.sg a) (q.sg b) = (mulOp p q).sg (a ^^ b) := by
  unfold mulOp mul2 Op.sg
  dsimp only
  rw [signBit_flip]

theorem row_sg (G : CGate n) (b : Bool) (p : Op n) : G.row (p.sg b) = (G.row p).sg b := by
  unfold Op.sg
  cases G <;> (unfold CGate.row <;> simp only [xRow, zRow, yRow, hRow, sRow, cxRow, czRow]) <;> ext <;> simp [Bool.xor_assoc, Bool.xor_comm b]

/-- The tableaus agree up to the signs of the destabilisers, and the signs of the stabilisers differ by the frame. -/
structure Tab.Framed (f : PFrame) (T T0 : Tab n) : Prop where
  d : ∀ i, (T.d i).x = (T0.d i).x ∧ (T.d i).z = (T0.d i).z
  s : ∀ i, T.s i = (T0.s i).sg (anti (f.op n) (T0.s i))

theorem Tab.Framed.congr {f f' : PFrame} {T T0 : Tab n} (h : T.Framed f T0) (he : ∀ i, anti (f'.op n) (T0.s i) = anti (f.op n) (T0.s i)) : T.Framed f' T0 :=
  ⟨h.d, fun i => by rw [he]; exact h.s i⟩

theorem framed_zero (T : Tab n) : T.Framed PFrame.zero T := by
  refine ⟨fun _ => ⟨rfl, rfl⟩, fun i => ?_⟩
  have : anti (PFrame.zero.op n) (T.s i) = false := anti_idOp _
  rw [this, sg_false]

theorem Tab.Framed.s_bits {f : PFrame} {T T0 : Tab n} (h : T.Framed f T0) (i : Fin n) : (T.s i).x = (T0.s i).x ∧ (T.s i).z = (T0.s i).z := by
  rw [h.s i]; exact ⟨rfl, rfl⟩

theorem Tab.Framed.valid {f : PFrame} {T T0 : Tab n} (h : T.Framed f T0) (hv : T.Valid) : T0.Valid := by
  rw [valid_iff] at hv ⊢
  obtain ⟨h1, h2, h3⟩ := hv
  refine ⟨fun i j => ?_, fun i j => ?_, fun i j => ?_⟩
  · rw [← h1 i j]; exact anti_congr (h.s_bits i).1.symm (h.s_bits i).2.symm (h.s_bits j).1.symm (h.s_bits j).2.symm
  · rw [← h2 i j]; exact anti_congr (h.d i).1.symm (h.d i).2.symm (h.s_bits j).1.symm (h.s_bits j).2.symm
  · rw [← h3 i j]; exact anti_congr (h.d i).1.symm (h.d i).2.symm (h.d j).1.symm (h.d j).2.symm

theorem Tab.Framed.nonzero_s {f : PFrame} {T T0 : Tab n} (h : T.Framed f T0) (m : Op n) : nonzero T.s m = nonzero T0.s m := by
  unfold nonzero
  refine List.filter_congr fun i _ => ?_
  rw [commSign_eq, commSign_eq, anti_congr (h.s_bits i).1 (h.s_bits i).2 rfl rfl]

theorem Tab.Framed.nonzero_d {f : PFrame} {T T0 : Tab n} (h : T.Framed f T0) (m : Op n) : nonzero T.d m = nonzero T0.d m := by
  unfold nonzero
  refine List.filter_congr fun i _ => ?_
  rw [commSign_eq, commSign_eq, anti_congr (h.d i).1 (h.d i).2 rfl rfl]

/-! ### Gates -/

/-- A gate that moves the frame. -/
theorem Tab.Framed.gate {f f' : PFrame} {T T0 : Tab n} (h : T.Framed f T0) (G : CGate n) (hG : G.Ok)
    (hx : (f'.op n).x = (G.row (f.op n)).x) (hz : (f'.op n).z = (G.row (f.op n)).z) : (G.app T).Framed f' (G.app T0) := by
  have hbits : ∀ p q : Op n, p.x = q.x → p.z = q.z → (G.row p).x = (G.row q).x ∧ (G.row p).z = (G.row q).z := by
    intro p q h1 h2
    have : p = q.sg (p.r ^^ q.r) := by
      unfold Op.sg
      ext i
      · rw [h1]
      · rw [h2]
      · show p.r = (q.r ^^ (p.r ^^ q.r))
        cases p.r <;> cases q.r <;> rfl
    rw [this, row_sg]
    exact ⟨rfl, rfl⟩
  refine ⟨fun i => hbits _ _ (h.d i).1 (h.d i).2, fun i => ?_⟩
  show G.row (T.s i) = (G.row (T0.s i)).sg _
  rw [h.s i, row_sg]
  congr 1
  rw [anti_congr hx hz rfl rfl]
  exact (anti_row G hG _ _).symm

/-- The gates of a step. -/
theorem framed_had {f : PFrame} {T T0 : Tab n} (h : T.Framed f T0) (q : Fin n) : ((CGate.h q).app T).Framed (f.step (.had q)) ((CGate.h q).app T0) := by
  refine h.gate (.h q) trivial ?_ ?_ <;> funext i <;> simp only [PFrame.op, PFrame.step, CGate.row, hRow, Function.update]
  · by_cases hi : i = q
    · subst hi; simp
    · have : ¬ i.val = q.val := fun hc => hi (Fin.ext hc)
      simp [hi, this]
  · by_cases hi : i = q
    · subst hi; simp
    · have : ¬ i.val = q.val := fun hc => hi (Fin.ext hc)
      simp [hi, this]

theorem framed_cx {f : PFrame} {T T0 : Tab n} (h : T.Framed f T0) (c t : Fin n) (hct : c ≠ t) :
    ((CGate.cx c t).app T).Framed (f.step (.cx c t)) ((CGate.cx c t).app T0) := by
  refine h.gate (.cx c t) hct ?_ ?_ <;> funext i <;> simp only [PFrame.op, PFrame.step, CGate.row, cxRow, Function.update]
  · by_cases hi : i = t
    · subst hi; simp
    · have : ¬ i.val = t.val := fun hc => hi (Fin.ext hc)
      simp [hi, this]
  · by_cases hi : i = c
    · subst hi; simp
    · have : ¬ i.val = c.val := fun hc => hi (Fin.ext hc)
      simp [hi, this]

theorem framed_cz {f : PFrame} {T T0 : Tab n} (h : T.Framed f T0) (c t : Fin n) (hct : c ≠ t) :
    ((CGate.cz c t).app T).Framed (f.step (.cz c t)) ((CGate.cz c t).app T0) := by
  refine h.gate (.cz c t) hct ?_ ?_ <;> funext i <;> simp only [PFrame.op, PFrame.step, CGate.row, czRow, Function.update]
  by_cases hi : i = c
  · subst hi; simp [hct]
  · have hic : ¬ i.val = c.val := fun hc => hi (Fin.ext hc)
    by_cases ht : i = t
    · subst ht; simp [hi, hic]
    · have hit : ¬ i.val = t.val := fun hc => ht (Fin.ext hc)
      simp [hi, ht, hic, hit]

/-- Pauli gates in both runs. -/
theorem framed_pauli {f : PFrame} {T T0 : Tab n} (h : T.Framed f T0) (G : CGate n) (hG : (∃ q, G = .x q) ∨ (∃ q, G = .y q) ∨ ∃ q, G = .z q) :
    (G.app T).Framed f (G.app T0) := by
  rcases hG with ⟨q, rfl⟩ | ⟨q, rfl⟩ | ⟨q, rfl⟩
  · exact h.gate (.x q) trivial rfl rfl
  · exact h.gate (.y q) trivial rfl rfl
  · exact h.gate (.z q) trivial rfl rfl

theorem anti_kick (f : PFrame) (q : Fin n) (k : Fin 4) (p : Op n) : anti ((f.step (.kick q k)).op n) p = (anti (f.op n) p ^^ anti p (numOp n q.val k)) := by
  rw [anti_symm p, ← anti_mul_left]
  exact anti_congr rfl rfl rfl rfl

/-- The tableau with a Pauli matrix applied. -/
def Tab.kick (T : Tab n) (q : Fin n) : Fin 4 → Tab n
  | 0 => T
  | 1 => (CGate.x q).app T
  | 2 => (CGate.y q).app T
  | 3 => (CGate.z q).app T

/-- A Pauli error in one of the runs. -/
theorem framed_kick {f : PFrame} {T T0 : Tab n} (h : T.Framed f T0) (q : Fin n) (k : Fin 4) (T' : Tab n) (hT : T' = T.kick q k) :
    T'.Framed (f.step (.kick q k)) T0 := by
  have hs : (∀ i, (T'.d i).x = (T.d i).x ∧ (T'.d i).z = (T.d i).z) ∧ ∀ i, T'.s i = (T.s i).sg (anti (T.s i) (numOp n q.val k)) := by
    match k with
    | 0 =>
      have hT : T' = T := hT
      subst hT
      refine ⟨fun i => ⟨rfl, rfl⟩, fun i => ?_⟩
      rw [anti_numOp]; simp [numX, numZ, sg_false]
    | 1 =>
      have hT : T' = (CGate.x q).app T := hT
      subst hT
      refine ⟨fun i => ⟨rfl, rfl⟩, fun i => ?_⟩
      rw [anti_numOp]; simp [numX, numZ, CGate.app, Tab.map, CGate.row, xRow, Op.sg]
    | 2 =>
      have hT : T' = (CGate.y q).app T := hT
      subst hT
      refine ⟨fun i => ⟨rfl, rfl⟩, fun i => ?_⟩
      rw [anti_numOp]; simp [numX, numZ, CGate.app, Tab.map, CGate.row, yRow, xRow, zRow, Op.sg, Bool.xor_assoc, Bool.xor_comm ((T.s i).z q)]
    | 3 =>
      have hT : T' = (CGate.z q).app T := hT
      subst hT
      refine ⟨fun i => ⟨rfl, rfl⟩, fun i => ?_⟩
      rw [anti_numOp]; simp [numX, numZ, CGate.app, Tab.map, CGate.row, zRow, Op.sg]
  refine ⟨fun i => ⟨(hs.1 i).1.trans (h.d i).1, (hs.1 i).2.trans (h.d i).2⟩, fun i => ?_⟩
  rw [hs.2 i, h.s i, sg_sg, anti_kick, anti_sg_left]

/-! ### Measurements -/

theorem anti_frame_z (f : PFrame) (q : Fin n) : anti (f.op n) (singleOp false .Z q) = f.x q := by
  have e : singleOp false .Z q = numOp n q.val 3 := by
    unfold singleOp numOp
    ext i <;> simp [numX, numZ, Fin.ext_iff]
  rw [e, anti_numOp]
  simp [numX, numZ, PFrame.op]

theorem scratch_framed {f : PFrame} {T T0 : Tab n} (h : T.Framed f T0) (l : List (Fin n)) (acc : Op n) :
    l.foldl (fun acc i => mulOp acc (T.s i)) (acc.sg (anti (f.op n) acc)) =
      (l.foldl (fun acc i => mulOp acc (T0.s i)) acc).sg (anti (f.op n) (l.foldl (fun acc i => mulOp acc (T0.s i)) acc)) := by
  induction l generalizing acc with
  | nil => rfl
  | cons i l ih =>
    rw [List.foldl_cons, List.foldl_cons, ← ih, h.s i, mulOp_sg, ← anti_mul_right]

/-- A measurement of a framed state: the outcome is flipped if the frame has X on the qubit. -/
theorem framed_measure {f : PFrame} {T T0 T' : Tab n} (h : T.Framed f T0) (hv : T.Valid) {q : Fin n} {draw out : Bool}
    (hm : measure T (singleOp false .Z q) none draw = .ok (T', out)) :
    ∃ T0', measure T0 (singleOp false .Z q) none (draw ^^ f.x q) = .ok (T0', out ^^ f.x q) ∧ T'.Framed f T0' ∧
      (nonzero T.s (singleOp false .Z q) = [] → ∀ dr, measure T0 (singleOp false .Z q) none dr = .ok (T0', out ^^ f.x q)) ∧
      ∀ i, anti (singleOp false .Z q) (T0'.s i) = false := by
  have hv0 := h.valid hv
  rcases measure_cases hm with ⟨hn, hd, rfl, ho⟩ | ⟨k, o, hn, hc, rfl⟩
  · have hn0 : nonzero T0.s (singleOp false .Z q) = [] := by rw [← h.nonzero_s]; exact hn
    have hd0 : nonzero T0.d (singleOp false .Z q) ≠ [] := by rw [← h.nonzero_d]; exact hd
    have key : ∀ dr, measure T0 (singleOp false .Z q) none dr = .ok (T0, out ^^ f.x q) := by
      intro dr
      rw [measure_det hn0 hd0]
      congr 2
      rw [ho, h.nonzero_d]
      have e : idOp n = (idOp n).sg (anti (f.op n) (idOp n)) := by rw [anti_symm, anti_idOp, sg_false]
      rw [e, scratch_framed h, ← e]
      obtain ⟨g1, g2, _⟩ := scratch_facts hv0.semi (nonzero T0.d (singleOp false .Z q)) (nonzero_nodup _ _) (idOp n) (by simp)
      set r := (nonzero T0.d (singleOp false .Z q)).foldl (fun acc i => mulOp acc (T0.s i)) (idOp n) with hr
      have hbits := bits_eq_of_anti hv0.semi (singleOp false .Z q) r
        (fun i => by rw [(nonzero_eq_nil _ _).mp hn0 i, anti_symm, g1])
        (fun i => by
          rw [g2, anti_symm (T0.d i) (idOp n), anti_idOp, Bool.false_xor]
          cases hb : anti (T0.d i) (singleOp false .Z q)
          · simp [mem_nonzero, hb]
          · simp [mem_nonzero, hb])
      have ha : anti (f.op n) r = f.x q := by
        rw [← anti_frame_z f q]
        exact anti_congr rfl rfl hbits.1.symm hbits.2.symm
      rw [ha]
      show _ = (decide ((r.r ^^ f.x q) ≠ false) ^^ f.x q)
      have e2 : (singleOp false Letter.Z q : Op n).r = false := rfl
      rw [e2]
      cases r.r <;> cases f.x q <;> rfl
    refine ⟨T0, key _, h, fun _ => key, fun i => ?_⟩
    rw [anti_symm]
    exact (nonzero_eq_nil _ _).mp hn0 i
  · have hn0 : nonzero T0.s (singleOp false .Z q) = k :: o := by rw [← h.nonzero_s]; exact hn
    have hc : draw = out := by simpa [chosen] using hc
    subst hc
    refine ⟨randTab T0 (singleOp false .Z q) k (draw ^^ f.x q), by rw [measure_random hn0]; rfl, ⟨fun i => ?_, fun i => ?_⟩, fun hnn => ?_, fun i => ?_⟩
    · unfold randTab
      dsimp only
      rw [anti_congr (h.d i).1 (h.d i).2 rfl rfl]
      split
      · exact h.s_bits k
      · split
        · refine ⟨?_, ?_⟩
          · funext j; rw [mulOp_x, mulOp_x, (h.s_bits k).1, (h.d i).1]
          · funext j; rw [mulOp_z, mulOp_z, (h.s_bits k).2, (h.d i).2]
        · exact h.d i
    · unfold randTab
      dsimp only
      rw [anti_congr (h.s_bits i).1 (h.s_bits i).2 rfl rfl]
      split
      · have e : anti (f.op n) { (singleOp false .Z q : Op n) with r := (singleOp false .Z q : Op n).r ^^ (draw ^^ f.x q) } = f.x q := anti_frame_z f q
        rw [e]
        unfold Op.sg
        ext i
        · rfl
        · rfl
        · show (false ^^ draw) = ((false ^^ (draw ^^ f.x q)) ^^ f.x q)
          cases draw <;> cases f.x q <;> rfl
      · split
        · rw [h.s i, h.s k, mulOp_sg, anti_mul_right]
        · exact h.s i
    · rw [hn] at hnn; cases hnn
    · have hk := pivot_anti hn0
      have hval := randTab_valid hv0 hk (draw ^^ f.x q)
      have := ((valid_iff _).1 hval).1 k i
      have e : (randTab T0 (singleOp false .Z q) k (draw ^^ f.x q)).s k = (singleOp false .Z q : Op n).sg (draw ^^ f.x q) := by
        unfold randTab; dsimp only; rw [if_pos rfl]; rfl
      rw [e, anti_sg_left] at this
      exact this

/-- A reset of a framed state. -/
theorem framed_reset {f : PFrame} {T T0 T' : Tab n} (h : T.Framed f T0) (hv : T.Valid) {q : Fin n} {draw : Bool}
    (hm : resetOne false .Z T q draw = .ok T') :
    ∃ T0', resetOne false .Z T0 q (draw ^^ f.x q) = .ok T0' ∧ T'.Framed (f.step (.clear q)) T0' ∧
      (nonzero T.s (singleOp false .Z q) = [] → ∀ dr, resetOne false .Z T0 q dr = .ok T0') := by
  obtain ⟨T1, out, h1, hT⟩ := resetOne_ok hm
  obtain ⟨T01, k1, k2, k3, k4⟩ := framed_measure h hv h1
  have e1 : T' = if out then (CGate.x q).app T1 else T1 := by
    rcases hT with ⟨rfl, ho | ho⟩ | ⟨rfl, G, hG, rfl⟩
    · subst ho; rfl
    · cases ho
    · simp only [fixGate, Option.some.injEq] at hG
      subst hG
      rfl
  have e2 : ∀ dr, measure T0 (singleOp false .Z q) none dr = .ok (T01, out ^^ f.x q) → resetOne false .Z T0 q dr = .ok (if (out ^^ f.x q) then (CGate.x q).app T01 else T01) := by
    intro dr hdr
    unfold resetOne
    rw [hdr]
    dsimp only
    cases out ^^ f.x q <;> rfl
  refine ⟨_, e2 _ k1, ?_, fun hn dr => e2 _ (k3 hn dr)⟩
  -- the frame without the Z part, which does nothing
  have hx : ∀ (U V : Tab n) (g : PFrame), U.Framed g V → (∀ i, anti (singleOp false .Z q) (V.s i) = false) → g.x q = false →
      U.Framed { x := g.x, z := fun i => if i = q.val then false else g.z i } V := by
    intro U V g hUV hz hgx
    refine hUV.congr fun i => ?_
    cases hgz : g.z q with
    | false =>
      refine anti_congr rfl ?_ rfl rfl
      funext j
      show (if j.val = q.val then false else g.z j) = g.z j
      by_cases hj : j.val = q.val
      · rw [if_pos hj, hj, hgz]
      · rw [if_neg hj]
    | true =>
      have e : anti (g.op n) (V.s i) = anti (mulOp (g.op n) (singleOp false .Z q)) (V.s i) := by
        rw [anti_mul_left, hz i, Bool.xor_false]
      rw [e]
      refine anti_congr ?_ ?_ rfl rfl
      · funext j
        show g.x j = (g.x j ^^ (decide (j = q) && false))
        simp
      · funext j
        show (if j.val = q.val then false else g.z j) = (g.z j ^^ (decide (j = q) && true))
        by_cases hj : j = q
        · subst hj; simp [hgz]
        · have : ¬ j.val = q.val := fun hc => hj (Fin.ext hc)
          simp [hj, this]
  have hxz : ∀ i, anti (singleOp false .Z q) (((CGate.x q).app T01).s i) = false := by
    intro i
    show anti _ ((CGate.x q).row (T01.s i)) = false
    rw [← k4 i]
    exact anti_congr rfl rfl rfl rfl
  have hkick : ∀ (U V : Tab n), U.Framed f V → ((CGate.x q).app U).Framed (f.step (.kick q 1)) V := fun U V hUV => framed_kick hUV q 1 _ rfl
  have hstep : ∀ g : PFrame, g.x q.val = false → (∀ i, ¬ i = q.val → g.x i = f.x i ∧ g.z i = f.z i) →
      ({ x := g.x, z := fun i => if i = q.val then false else g.z i } : PFrame) = f.step (.clear q) := by
    intro g hg0 hg1
    unfold PFrame.step
    congr 1
    · funext i
      by_cases hi : i = q.val
      · rw [if_pos hi, hi, hg0]
      · rw [if_neg hi]; exact (hg1 i hi).1
    · funext i
      by_cases hi : i = q.val
      · rw [if_pos hi, if_pos hi]
      · rw [if_neg hi, if_neg hi]; exact (hg1 i hi).2
  subst e1
  cases hfx : f.x q with
  | false =>
    rw [Bool.xor_false, ← hstep f hfx (fun i _ => ⟨rfl, rfl⟩)]
    cases out with
    | false => exact hx _ _ f k2 k4 hfx
    | true => exact hx _ _ f (framed_pauli k2 _ (.inl ⟨q, rfl⟩)) hxz hfx
  | true =>
    have hg0 : (f.step (.kick q 1)).x q.val = false := by simp [PFrame.step, hfx, numX]
    rw [← hstep (f.step (.kick q 1)) hg0 (fun i hi => by simp [PFrame.step, hi])]
    cases out with
    | true =>
      exact hx _ _ _ (hkick _ _ k2) k4 hg0
    | false =>
      refine hx _ _ _ ?_ hxz hg0
      have h2 := hkick _ _ (framed_pauli k2 (CGate.x q) (.inl ⟨q, rfl⟩))
      have h3 : (CGate.x q).app ((CGate.x q).app T1) = T1 := by
        have : ∀ p : Op n, (CGate.x q).row ((CGate.x q).row p) = p := by
          intro p
          unfold CGate.row xRow
          ext <;> simp
        unfold CGate.app Tab.map
        ext <;> simp [this]
      rw [h3] at h2
      exact h2

end Plaquette
