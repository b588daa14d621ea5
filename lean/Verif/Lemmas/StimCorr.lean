import Verif.Lemmas.StimLift

/-!
# Instruments of a circuit and of its translation
-/

open Matrix
open scoped ENNReal

namespace Plaquette
variable {n N : Nat}

/-- The sum over the possibilities with the given records. -/
noncomputable def Instrument.amp (I : Instrument n) (W : Vec n → ℝ≥0∞) (m e : List Bool) (ψ : Vec n) : ℝ≥0∞ :=
  (I.map fun b => if b.meas = m ∧ b.erasure = e then b.weight * W (b.op *ᵥ ψ) else 0).sum

/-- The sum over the possibilities with the given record. -/
noncomputable def SInstrument.amp (J : SInstrument N) (W : Vec N → Bool → ℝ≥0∞) (r : List Bool) (h : Bool) (ψ : Vec N) : ℝ≥0∞ :=
  ((J h).map fun b => if b.recd = r then b.weight * W (b.op *ᵥ ψ) b.hit else 0).sum

/-- All possibilities record the same numbers of results. -/
def Instrument.Len (I : Instrument n) (a b : Nat) : Prop := ∀ br ∈ I, br.meas.length = a ∧ br.erasure.length = b

def SInstrument.Len (J : SInstrument N) (k : Nat) : Prop := ∀ h, ∀ br ∈ J h, br.recd.length = k

theorem Instrument.len_andThen {I J : Instrument n} {a b a' b' : Nat} (hI : I.Len a b) (hJ : J.Len a' b') : (I.andThen J).Len (a + a') (b + b') := by
  intro br h
  simp only [Instrument.andThen, List.mem_flatMap, List.mem_map] at h
  obtain ⟨x, hx, y, hy, rfl⟩ := h
  simp [hI x hx, hJ y hy]

theorem Instrument.len_nothing : (Instrument.nothing : Instrument n).Len 0 0 := by
  intro br h
  simp only [Instrument.nothing, List.mem_singleton] at h
  subst h
  exact ⟨rfl, rfl⟩

theorem Instrument.len_inOrder {α : Type} (f : α → Instrument n) {a b : Nat} (hf : ∀ x, (f x).Len a b) (xs : List α) : (Instrument.inOrder (xs.map f)).Len (xs.length * a) (xs.length * b) := by
  induction xs with
  | nil => simpa [Instrument.inOrder] using len_nothing
  | cons x xs ih =>
    have := len_andThen (hf x) ih
    simpa [Instrument.inOrder, Nat.succ_mul, Nat.add_comm] using this

theorem SInstrument.len_andThen {I J : SInstrument N} {a a' : Nat} (hI : I.Len a) (hJ : J.Len a') : (I.andThen J).Len (a + a') := by
  intro h br hb
  simp only [SInstrument.andThen, List.mem_flatMap, List.mem_map] at hb
  obtain ⟨x, hx, y, hy, rfl⟩ := hb
  simp [hI _ x hx, hJ _ y hy]

theorem Instrument.amp_zero (I : Instrument n) {W : Vec n → ℝ≥0∞} (hW : W 0 = 0) (m e : List Bool) : I.amp W m e 0 = 0 := by
  unfold Instrument.amp
  rw [List.sum_eq_zero]
  intro x hx
  obtain ⟨b, -, rfl⟩ := List.mem_map.1 hx
  rw [mulVec_zero, hW, mul_zero, ite_self]

theorem Instrument.amp_andThen {I J : Instrument n} {m1 e1 : List Bool} (hI : I.Len m1.length e1.length) (W : Vec n → ℝ≥0∞) (m2 e2 : List Bool) (ψ : Vec n) :
    (I.andThen J).amp W (m1 ++ m2) (e1 ++ e2) ψ = I.amp (J.amp W m2 e2) m1 e1 ψ := by
  unfold Instrument.amp Instrument.andThen
  rw [List.map_flatMap, List.flatMap_def, List.sum_flatten, List.map_map]
  refine congrArg List.sum (List.map_congr_left fun a ha => ?_)
  simp only [Function.comp, List.map_map]
  obtain ⟨h1, h2⟩ := hI a ha
  by_cases h : a.meas = m1 ∧ a.erasure = e1
  · rw [if_pos h, ← List.sum_map_mul_left]
    refine congrArg List.sum (List.map_congr_left fun b _ => ?_)
    simp only [Function.comp, h.1, h.2, List.append_cancel_left_eq, mulVec_mulVec, mul_assoc]
    by_cases h' : b.meas = m2 ∧ b.erasure = e2
    · rw [if_pos h', if_pos h']
    · rw [if_neg h', if_neg h', mul_zero]
  · rw [if_neg h]
    refine List.sum_eq_zero fun x hx => ?_
    obtain ⟨b, -, rfl⟩ := List.mem_map.1 hx
    refine if_neg fun hh => h ?_
    exact ⟨(List.append_inj hh.1 h1).1, (List.append_inj hh.2 h2).1⟩

theorem SInstrument.amp_andThen {I J : SInstrument N} {r1 : List Bool} (hI : I.Len r1.length) (W : Vec N → Bool → ℝ≥0∞) (r2 : List Bool) (h : Bool) (ψ : Vec N) :
    (I.andThen J).amp W (r1 ++ r2) h ψ = I.amp (fun φ h' => J.amp W r2 h' φ) r1 h ψ := by
  unfold SInstrument.amp SInstrument.andThen
  rw [List.map_flatMap, List.flatMap_def, List.sum_flatten, List.map_map]
  refine congrArg List.sum (List.map_congr_left fun a ha => ?_)
  simp only [Function.comp, List.map_map]
  have h1 := hI h a ha
  by_cases hr : a.recd = r1
  · rw [if_pos hr, ← List.sum_map_mul_left]
    refine congrArg List.sum (List.map_congr_left fun b _ => ?_)
    simp only [Function.comp, hr, List.append_cancel_left_eq, mulVec_mulVec, mul_assoc]
    by_cases h' : b.recd = r2
    · rw [if_pos h', if_pos h']
    · rw [if_neg h', if_neg h', mul_zero]
  · rw [if_neg hr]
    refine List.sum_eq_zero fun x hx => ?_
    obtain ⟨b, -, rfl⟩ := List.mem_map.1 hx
    exact if_neg fun hh => hr (List.append_inj hh h1).1

theorem SInstrument.andThen_nothing (J : SInstrument N) : J.andThen .nothing = J := by
  funext h
  simp only [SInstrument.andThen, SInstrument.nothing, List.map_cons, List.map_nil, mul_one, one_mul, List.append_nil, List.flatMap_singleton']

theorem SInstrument.nothing_andThen (J : SInstrument N) : SInstrument.nothing.andThen J = J := by
  funext h
  simp [SInstrument.andThen, SInstrument.nothing]

theorem SInstrument.andThen_assoc (I J K : SInstrument N) : (I.andThen J).andThen K = I.andThen (J.andThen K) := by
  funext h
  simp only [SInstrument.andThen, List.flatMap_assoc, List.flatMap_map, List.map_flatMap, List.map_map]
  refine List.flatMap_congr fun a _ => List.flatMap_congr fun b _ => List.map_congr_left fun c _ => ?_
  simp only [Function.comp, mul_assoc, List.append_assoc]

theorem stimMeaning_append {is1 is2 : List (SInstr ℝ)} {J : SInstrument N} (h : stimMeaning N (is1 ++ is2) = some J) :
    ∃ J1 J2, stimMeaning N is1 = some J1 ∧ stimMeaning N is2 = some J2 ∧ J = J1.andThen J2 := by
  induction is1 generalizing J with
  | nil => exact ⟨_, J, rfl, h, (SInstrument.nothing_andThen J).symm⟩
  | cons i is1 ih =>
    simp only [List.cons_append, stimMeaning] at h
    rcases hi : i.meaning N with _ | I
    · rw [hi] at h; simp at h
    · rcases ht : stimMeaning N (is1 ++ is2) with _ | K
      · rw [hi, ht] at h; simp at h
      · rw [hi, ht] at h
        obtain ⟨J1, J2, h1, h2, rfl⟩ := ih ht
        refine ⟨I.andThen J1, J2, by simp only [stimMeaning, hi, h1], h2, ?_⟩
        rw [SInstrument.andThen_assoc]
        exact (Option.some.inj h).symm

/-- `J` does to `n + 1` qubits what `I` does to the first `n` of them, whatever the last one is; the record of `J` holds measurement results and erasure flags, as told by `fl`. -/
structure Corr (I : Instrument n) (J : SInstrument (n + 1)) (fl : List Bool) : Prop where
  len : I.Len (fl.count false) (fl.count true)
  slen : J.Len fl.length
  amp : ∀ (W : Vec n → ℝ≥0∞) (W' : Vec (n + 1) → Bool → ℝ≥0∞), W 0 = 0 → (∀ b h φ, W' (lift b φ) h = W φ) → ∀ r : List Bool, r.length = fl.length → ∀ b h ψ,
    J.amp W' r h (lift b ψ) = I.amp W (maskSel r (fl.map (!·))) (maskSel r fl) ψ

theorem maskSel_append_flags {r1 r2 fl1 fl2 : List Bool} (h : r1.length = fl1.length) : maskSel (r1 ++ r2) (fl1 ++ fl2) = maskSel r1 fl1 ++ maskSel r2 fl2 := by
  induction r1 generalizing fl1 with
  | nil => cases fl1 with
    | nil => rfl
    | cons => simp at h
  | cons a r1 ih => cases fl1 with
    | nil => simp at h
    | cons f fl1 =>
      have := ih (fl1 := fl1) (by simpa using h)
      cases f <;> simp [maskSel, this]

theorem maskSel_length {r fl : List Bool} (h : r.length = fl.length) : (maskSel r fl).length = fl.count true := by
  induction r generalizing fl with
  | nil => cases fl with
    | nil => rfl
    | cons => simp at h
  | cons a r ih => cases fl with
    | nil => simp at h
    | cons f fl =>
      have := ih (fl := fl) (by simpa using h)
      cases f <;> simp [maskSel, this]

theorem maskSel_not_length {r fl : List Bool} (h : r.length = fl.length) : (maskSel r (fl.map (!·))).length = fl.count false := by
  rw [maskSel_length (by simpa using h)]
  induction fl generalizing r with
  | nil => rfl
  | cons f fl ih => cases r with
    | nil => simp at h
    | cons a r =>
      have := ih (r := r) (by simpa using h)
      cases f <;> simp [this]

theorem corr_nothing : Corr (Instrument.nothing : Instrument n) .nothing [] := by
  refine ⟨Instrument.len_nothing, ?_, ?_⟩
  · intro h br hb
    simp only [SInstrument.nothing, List.mem_singleton] at hb
    rw [hb]
  · intro W W' _ hW' r hr b h ψ
    obtain rfl := List.length_eq_zero_iff.1 hr
    simp [SInstrument.amp, SInstrument.nothing, Instrument.amp, Instrument.nothing, hW', maskSel]

theorem corr_andThen {I1 I2 : Instrument n} {J1 J2 : SInstrument (n + 1)} {fl1 fl2 : List Bool} (h1 : Corr I1 J1 fl1) (h2 : Corr I2 J2 fl2) :
    Corr (I1.andThen I2) (J1.andThen J2) (fl1 ++ fl2) := by
  refine ⟨?_, ?_, ?_⟩
  · rw [List.count_append, List.count_append]
    exact Instrument.len_andThen h1.len h2.len
  · rw [List.length_append]
    exact SInstrument.len_andThen h1.slen h2.slen
  · intro W W' hW hW' r hr b h ψ
    rw [List.length_append] at hr
    obtain ⟨r1, r2, rfl, hr1⟩ : ∃ r1 r2, r = r1 ++ r2 ∧ r1.length = fl1.length := ⟨r.take fl1.length, r.drop fl1.length, by simp, by simp; omega⟩
    have hr2 : r2.length = fl2.length := by simp at hr; omega
    rw [SInstrument.amp_andThen (by rw [hr1]; exact h1.slen), List.map_append, maskSel_append_flags (by simpa using hr1), maskSel_append_flags hr1,
      Instrument.amp_andThen (by rw [maskSel_not_length hr1, maskSel_length hr1]; exact h1.len)]
    refine h1.amp _ _ (Instrument.amp_zero _ hW _ _) (fun b h φ => ?_) r1 hr1 b h ψ
    exact h2.amp W W' hW hW' r2 hr2 b h φ

/-- An instrument without erasures, on one more qubit. -/
theorem corr_keep {I : Instrument n} {k : Nat} (hI : I.Len k 0) : Corr I (.keep I.lift) (List.replicate k false) := by
  have h0 : (List.replicate k false).count true = 0 := List.count_eq_zero.2 (by simp)
  refine ⟨by rw [h0, List.count_replicate_self]; exact hI, ?_, ?_⟩
  · intro h br hb
    simp only [SInstrument.keep, Instrument.lift, List.map_map, List.mem_map, Function.comp] at hb
    obtain ⟨x, hx, rfl⟩ := hb
    simpa using (hI x hx).1
  · intro W W' _ hW' r hr b h ψ
    rw [List.length_replicate] at hr
    have hm : maskSel r ((List.replicate k false).map (!·)) = r := by
      subst hr
      clear hI h0
      induction r with
      | nil => rfl
      | cons a r ih => simpa [maskSel, List.replicate_succ] using ih
    have he : maskSel r (List.replicate k false) = [] := by
      rw [← List.length_eq_zero_iff, maskSel_length (by simpa using hr), h0]
    rw [hm, he]
    unfold SInstrument.amp SInstrument.keep Instrument.lift Instrument.amp
    rw [List.map_map, List.map_map]
    refine congrArg List.sum (List.map_congr_left fun br hbr => ?_)
    have := List.length_eq_zero_iff.1 (hI br hbr).2
    simp only [Function.comp, this, and_true, liftMat_lift, hW']

end Plaquette
