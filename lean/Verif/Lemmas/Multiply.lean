import Verif.Lemmas.Stab

/-! Helper lemmas about `multiply` with many operators. -/

namespace Plaquette
open Matrix Complex

variable {n : Nat}

theorem multiplyRev_append (a : Op n) (l : List (Op n)) (init : ZMod 4) (hl : 2 ≤ l.length) :
    multiplyRev (l ++ [a]) init =
      match multiplyRev l init with
      | .error e => .error e
      | .ok (p, ph) => .ok (mul2 ph a p) := by
  induction hk : l.length generalizing l init with
  | zero => omega
  | succ k ih =>
    match l, hl, hk with
    | [b, c], _, _ => simp [multiplyRev]
    | b :: c :: d :: rest, _, hk =>
      simp only [List.cons_append]
      rw [multiplyRev, multiplyRev]
      simp only
      rw [← ih ((mul2 init c b).1 :: d :: rest) (mul2 init c b).2 (by simp) (by simpa using hk)]
      rfl

theorem multiply_cons (a : Op n) (ops : List (Op n)) (h : 2 ≤ ops.length) :
    multiply (a :: ops) =
      match multiply ops with
      | .error e => .error e
      | .ok (p, ph) => .ok (mul2 ph a p) := by
  unfold multiply
  rw [List.reverse_cons]
  exact multiplyRev_append a ops.reverse 0 (by simpa using h)

/-- `multiply` of at least two operators always succeeds. -/
theorem multiply_total (ops : List (Op n)) (h : 2 ≤ ops.length) : ∃ p ph, multiply ops = .ok (p, ph) := by
  match ops, h with
  | [a, b], _ => exact ⟨_, _, by simp [multiply, multiplyRev]; rfl⟩
  | a :: b :: c :: rest, _ =>
    obtain ⟨p, ph, hp⟩ := multiply_total (b :: c :: rest) (by simp)
    rw [multiply_cons a _ (by simp), hp]
    exact ⟨_, _, rfl⟩

theorem multiply_bits_aux (ops : List (Op n)) (p : Op n) (ph : ZMod 4) (h : multiply ops = .ok (p, ph)) (q : Fin n) :
    p.x q = ops.foldr (fun o acc => o.x q ^^ acc) false ∧ p.z q = ops.foldr (fun o acc => o.z q ^^ acc) false := by
  match ops with
  | [] => simp [multiply, multiplyRev] at h
  | [a] =>
    simp only [multiply, List.reverse_singleton, multiplyRev, Except.ok.injEq, Prod.mk.injEq] at h
    simp [h.1]
  | [a, b] =>
    simp only [multiply, List.reverse_cons, List.reverse_nil, List.nil_append, List.cons_append, multiplyRev,
      Except.ok.injEq] at h
    have h1 := congrArg Prod.fst h
    simp only at h1
    subst h1
    simp [mul2]
  | a :: b :: c :: rest =>
    obtain ⟨p', ph', hp⟩ := multiply_total (b :: c :: rest) (by simp)
    have ih := multiply_bits_aux (b :: c :: rest) p' ph' hp q
    rw [multiply_cons a _ (by simp), hp] at h
    simp only [Except.ok.injEq] at h
    have h1 := congrArg Prod.fst h
    simp only at h1
    subst h1
    constructor
    · rw [show (mul2 ph' a p').1.x q = (a.x q ^^ p'.x q) from rfl, ih.1]; rfl
    · rw [show (mul2 ph' a p').1.z q = (a.z q ^^ p'.z q) from rfl, ih.2]; rfl

theorem multiply_phase_aux (ops : List (Op n)) (h2 : 2 ≤ ops.length)
    (hs : ∀ l, l <:+ ops → l ≠ ops → 2 ≤ l.length → ∀ p ph, multiply l = .ok (p, ph) → p.r = false)
    (p : Op n) (ph : ZMod 4) (h : multiply ops = .ok (p, ph)) :
    (ops.map opMat).prod = iPow ph • pauliMat p.x p.z := by
  match ops, h2 with
  | [a, b], _ =>
    simp only [multiply, List.reverse_cons, List.reverse_nil, List.nil_append, List.cons_append, multiplyRev,
      Except.ok.injEq] at h
    have h1 := opMat_mul_phase a b 0
    rw [iPow_zero, one_smul] at h1
    rw [h] at h1
    simp only [List.map_cons, List.map_nil, List.prod_cons, List.prod_nil, mul_one, h1]
    rw [show p = (mul2 0 a b).1 from (congrArg Prod.fst h).symm]
    rfl
  | a :: b :: c :: rest, _ =>
    obtain ⟨p', ph', hp⟩ := multiply_total (b :: c :: rest) (by simp)
    have hsub : ∀ l, l <:+ b :: c :: rest → l ≠ a :: b :: c :: rest := by
      rintro l hl rfl
      have := hl.length_le
      simp at this
    have ih := multiply_phase_aux (b :: c :: rest) (by simp)
      (fun l hl _ hlen => hs l (hl.trans (List.suffix_cons _ _)) (hsub l hl) hlen) p' ph' hp
    have hr := hs _ (List.suffix_cons _ _) (hsub _ (List.suffix_refl _)) (by simp) p' ph' hp
    rw [multiply_cons a _ (by simp), hp] at h
    simp only [Except.ok.injEq] at h
    have hop : opMat p' = pauliMat p'.x p'.z := by simp [opMat, hr]
    rw [List.map_cons, List.prod_cons, ih, Matrix.mul_smul, ← hop, opMat_mul_phase, h,
      show p = (mul2 ph' a p').1 from (congrArg Prod.fst h).symm]
    rfl

end Plaquette
