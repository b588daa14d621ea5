import Verif.Model.Stepping

/-!
# What calls of `__iter__` and `__next__` execute
-/

namespace Plaquette
variable {F : Type}

/-- The instructions that calls execute, if `k` calls of `__next__` have been made since the last `__iter__`: each call of `__next__` executes one instruction, `run` all of them. -/
def executed (c : List (Gate F)) : Nat → List StepOp → List (Gate F)
  | _, [] => []
  | _, .iter :: os => executed c 0 os
  | k, .next :: os => (c.drop k).take 1 ++ executed c (k + 1) os
  | k, .reset :: os => executed c k os
  | _, .run _ :: os => c ++ executed c (c.length + 1) os

/-- Nothing is reset. -/
def NoReset (os : List StepOp) : Prop := ∀ o ∈ os, o ≠ .reset ∧ o ≠ .run true

end Plaquette
