import Verif.Spec.Solve
import Mathlib.LinearAlgebra.Matrix.NonsingularInverse

/-!
# Matrices of expressions
-/

namespace Expreduce
open Ex

/-- `{{m11, m12, ...}, {m21, m22, ...}, ...}` -/
def matrixOf {n : Nat} (M : Fin n → Fin n → Ex) : Ex := Shipped.list ((List.ofFn (fun i => List.ofFn (M i))).map Shipped.list)

/-- The entries of `M` have the values `m`. -/
def MatrixValues (V : Interp) {n : Nat} (M : Fin n → Fin n → Ex) (m : Matrix (Fin n) (Fin n) ℂ) : Prop := ∀ i j, V.Denotes (M i j) (m i j)

end Expreduce
