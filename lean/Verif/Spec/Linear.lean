import Verif.Spec.Solve

/-!
# Equations in two variables
-/

namespace Expreduce
open Ex

/-- `P` is, as a function of the symbols `x` and `y`, the function `p`. -/
def IsFunction2 (V : Interp) (x y : String) (P : Ex) (p : ℂ → ℂ → ℂ) : Prop := ∀ z w, ((V.put x z).put y w).Denotes P (p z w)

/-- The condition `a && b` is true only if `a` and `b` are. -/
def AndOk (truth : Ex → Bool) : Prop := ∀ a b, truth (.expr [S "And", a, b]) = true → truth a = true ∧ truth b = true

end Expreduce
