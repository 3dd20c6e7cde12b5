import Verif.Model.Lists

/-!
# Isolating a variable (`/repo/expreduce/resources/solve.m`)

The part of `Solve` that undoes sums, products and powers one after the other until the variable stands alone. The rules are read as programs on expressions; their right sides are not evaluated
(evaluation may bring them into another form of the same value), and `PowerExpand`, which only exchanges the two square roots, is left out. Other inverse functions (`solve.m:54-117`), a variable in an
exponent (`solve.m:45-64`), and the check and the simplification of the results afterwards (`solve.m:137-151`) are not modelled: there the model gives `none`, as it does where the program reports a failure.
-/

namespace Expreduce.Iso
open Expreduce Ex

mutual
/-- `countVar` (`solve.m:3-4`): the number of occurrences; `Count` at level `-1` looks at the arguments at every depth, not at the heads. -/
def occ (x : String) : Ex → Nat
  | .sym s => if s = x then 1 else 0
  | .expr (_ :: args) => occL x args
  | _ => 0
/-- The occurrences in the arguments. -/
def occL (x : String) : List Ex → Nat
  | [] => 0
  | a :: as => occ x a + occL x as
end

/-- `Plus[...]` after evaluation of the number of arguments: one argument stands for itself (OneIdentity, Flat). -/
def plusOf : List Ex → Ex
  | [a] => a
  | as => .expr (S "Plus" :: as)

/-- The same for `Times`. -/
def timesOf : List Ex → Ex
  | [a] => a
  | as => .expr (S "Times" :: as)

/-- `a^b` -/
def pow (a b : Ex) : Ex := .expr [S "Power", a, b]

/-- `(-1)^(p/q)` -/
def root1 (p q : Int) : Ex := pow (.int (-1)) (.rat p q)

/-- The right sides for the exponents 2 to 5 (`solve.m:36-39`). -/
def rootsOf (r : Ex) : Int → Option (List Ex)
  | 2 => some [.expr [S "Times", .int (-1), pow r (.rat 1 2)], pow r (.rat 1 2)]
  | 3 => some [pow r (.rat 1 3), .expr [S "Times", .int (-1), root1 1 3, pow r (.rat 1 3)], .expr [S "Times", root1 2 3, pow r (.rat 1 3)]]
  | 4 => some [.expr [S "Times", .int (-1), pow r (.rat 1 4)], .expr [S "Times", .cplx (.int 0) (.int (-1)), pow r (.rat 1 4)],
      .expr [S "Times", .cplx (.int 0) (.int 1), pow r (.rat 1 4)], pow r (.rat 1 4)]
  | 5 => some [pow r (.rat 1 5), .expr [S "Times", .int (-1), root1 1 5, pow r (.rat 1 5)], .expr [S "Times", root1 2 5, pow r (.rat 1 5)],
      .expr [S "Times", .int (-1), root1 3 5, pow r (.rat 1 5)], .expr [S "Times", root1 4 5, pow r (.rat 1 5)]]
  | _ => none

/-- `applyInverse` (`solve.m:24-44`): the equation `lhs = rhs` becomes one or more equations with a smaller left side. -/
def applyInverse (x : String) (lhs rhs : Ex) : Option (List (Ex × Ex)) :=
  match lhs with
  | .expr (.sym "System`Plus" :: args) =>
    some [(plusOf (args.filter (fun a => occ x a != 0)), .expr [S "Plus", rhs, .expr [S "Times", .int (-1), plusOf (args.filter (fun a => occ x a == 0))]])]
  | .expr (.sym "System`Times" :: args) =>
    some [(timesOf (args.filter (fun a => occ x a != 0)), .expr [S "Times", rhs, pow (timesOf (args.filter (fun a => occ x a == 0))) (.int (-1))])]
  | .expr [.sym "System`Power", b, .int p] =>
    if occ x b = 0 then none
    else if p = -1 then some [(b, pow rhs (.int (-1)))]
    else (rootsOf rhs p).map (fun l => l.map (fun r => (b, r)))
  | .expr [.sym "System`Power", b, .rat 1 n] => if occ x b = 0 then none else some [(b, pow rhs (.int n))]
  | _ => none

/-- `Join[Sequence @@ (isolate[#, var]& /@ inverseApplied)]` (`solve.m:132-133`). -/
def joinAll (f : Ex → Ex → Option (List Ex)) : List (Ex × Ex) → Option (List Ex)
  | [] => some []
  | e :: es => (f e.1 e.2).bind (fun a => (joinAll f es).map (a ++ ·))

/-- `isolate` (`solve.m:110-134`): the right sides of the rules `x -> ...`; `fuel` bounds the recursion. -/
def isolate (fuel : Nat) (x : String) (lhs rhs : Ex) : Option (List Ex) :=
  match fuel with
  | 0 => none
  | n + 1 =>
    if lhs = .sym x then some [rhs]
    else if occ x rhs = 1 ∧ occ x lhs = 0 then isolate n x rhs lhs
    else if ¬ (occ x lhs = 1 ∧ occ x rhs = 0) then none
    else
      match applyInverse x lhs rhs with
      | none => none
      | some l => joinAll (isolate n x) l

end Expreduce.Iso
