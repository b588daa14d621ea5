import Mathlib.Data.Rat.Defs
import Mathlib.Algebra.Order.Ring.Rat
import Mathlib.Algebra.Order.Field.Basic

/-!
# Model of the functions that generate error rates
-/

namespace Plaquette

/-- The exceptions of these functions. -/
inductive GenErr
  | value
  | zeroDivision
  deriving DecidableEq

/-- `generate_constant_errors`, `errors/__init__.py:238-257`; `k` is the length of the list of qubits. -/
def constantErrors (val : ℚ) (k : Nat) : Except GenErr (List ℚ) :=
  if ¬ (0 ≤ val ∧ val ≤ 1) then .error .value else .ok (List.replicate k val)

/-- `generate_gaussian_errors`, `errors/__init__.py:201-235`, with python numbers: dividing by a deviation 0 raises
`ZeroDivisionError`. `rvs a b i` is draw `i` of the standard normal distribution cut off at `a` and `b`, which `truncnorm` scales
with `std_dev` and moves by `mean`. -/
def gaussianErrors (rvs : ℚ → ℚ → Nat → ℚ) (mean sd : ℚ) (k : Nat) : Except GenErr (List ℚ) :=
  if ¬ (0 ≤ mean ∧ mean ≤ 1) then .error .value
  else if ¬ (0 ≤ sd ∧ sd ≤ 1) then .error .value
  else if sd = 0 then .error .zeroDivision
  else .ok ((List.range k).map fun i => mean + sd * rvs ((0 - mean) / sd) ((1 - mean) / sd) i)

end Plaquette
