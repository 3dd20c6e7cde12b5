import Verif.Model.Ex
import Mathlib.Analysis.SpecialFunctions.Pow.Real

/-! Complex value of an expression built from exact numbers with `Times` and `Power` (principal branch). -/

namespace Expreduce
open Ex

mutual
/-- Value in `ℂ` of integers, rationals, `Times[...]` and `Power[a, b]` (Mathlib's principal complex power); 0 for anything else. -/
noncomputable def cval : Ex → ℂ
  | .int n => (n : ℂ)
  | .rat n d => (n : ℂ) / (d : ℂ)
  | .expr (h :: args) => if h = S "Times" then cprod args else if h = S "Power" then cpow2 args else 0
  | _ => 0
/-- Product of the values. -/
noncomputable def cprod : List Ex → ℂ
  | [] => 1
  | a :: as => cval a * cprod as
/-- Power of exactly two arguments. -/
noncomputable def cpow2 : List Ex → ℂ
  | [a, b] => cval a ^ cval b
  | _ => 0
end

end Expreduce
