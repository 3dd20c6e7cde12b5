import Verif.Model.Functional

/-!
# Structure of expressions (`/repo/expreduce/builtin_expression.go:84-208`)

Conventions as in `Model/Lists.lean`: a function gets the parts of the call, `none` is a panic.
-/

namespace Expreduce
open Ex

/-- `Head` (`builtin_expression.go:84-118`). -/
def headFn (ps : List Ex) : Option Ex :=
  match ps with
  | [_, .flt _] => some (S "Real")
  | [_, .int _] => some (S "Integer")
  | [_, .str _] => some (S "String")
  | [_, .sym _] => some (S "Symbol")
  | [_, .rat _ _] => some (S "Rational")
  | [_, .cplx _ _] => some (S "Complex")
  | [_, .expr []] => none
  | [_, .expr (h :: _)] => some h
  | _ => some (.expr ps)

/-- `Depth` (`builtin_expression.go:121-130`). -/
def depthFn (ps : List Ex) : Option Ex :=
  match ps with
  | [_, e] => some (.int (calcDepth e))
  | _ => some (.expr ps)

/-- `LeafCount` (`builtin_expression.go:191-198`); the count is an `int64`, no expression in memory has more leaves. -/
def leafCountFn (ps : List Ex) : Option Ex :=
  match ps with
  | [_, e] => some (.int (leafCount e))
  | _ => some (.expr ps)

mutual
/-- `leafCountSimplify` (`builtin_expression.go:53-80`). -/
def simplifyCount : Ex → Nat
  | .expr ps => simplifyCountL ps
  | .int n => if n < 0 then 2 else 1
  | .cplx a b => simplifyCount b + simplifyCount a + 1
  | .rat n d => 3 + (if n < 0 then 1 else 0) + (if d < 0 then 1 else 0)
  | .sym _ | .str _ | .flt _ => 1
/-- The loop over the parts. -/
def simplifyCountL : List Ex → Nat
  | [] => 0
  | p :: ps => simplifyCount p + simplifyCountL ps
end

end Expreduce
