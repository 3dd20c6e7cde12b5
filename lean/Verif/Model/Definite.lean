import Verif.Model.Replace
import Verif.Model.SolveRules

/-! Definite integrals. -/

namespace Expreduce
open Ex

/-- `Integrate[a, {x, start, end}]` (`resources/calculus.m:78-79`), where `anti` is the result of `Integrate[a, x]`: the difference of the values at the ends,
before it is evaluated and simplified. -/
def definiteFn (env : MEnv) (m : Nat) (anti : Ex) (x : String) (start stop : Ex) : Option Ex :=
  match replaceAllFn env m anti (.expr [S "Rule", .sym x, stop]), replaceAllFn env m anti (.expr [S "Rule", .sym x, start]) with
  | some b, some a => some (Shipped.sub b a)
  | _, _ => none

end Expreduce
