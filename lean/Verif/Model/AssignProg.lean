import Verif.Model.Algebra
import Verif.Model.Compare
import Verif.Model.Iter
import Verif.Model.Lists
import Verif.Proofs.CallMatch

/-!
# Assignment operators and `For` (`/repo/expreduce/resources/arithmetic.m:281-344`, `list.m:299-325`, `flowcontrol.m:109-111`)

These are not written in Go but defined by rules. The rules are stored in the table of definitions and found there by the matcher; their right sides are run by the evaluator with the
builtin functions `Set`, `CompoundExpression`, `While`, `Plus`, `Times`, `Less`, `LessEqual`, `Append` and `Prepend`.
-/

namespace Expreduce
open Ex

namespace AssignProg

/-- A variable of a resource file: these are read in the context `Private` (`evalstate.go:57, 265`). -/
def pv (x : String) : Ex := .sym ("Private`" ++ x)

/-- `a - b` as the parser reads it (`parser/interp.go`, see `Model/Parser.lean`). -/
def minusEx (a b : Ex) : Ex := .expr [S "Plus", a, .expr [S "Times", b, .int (-1)]]

/-- A stored definition `f[x_, ...] := rhs` (`evalstate.go:471-599`). -/
def ruleFor (f : String) (xs : List String) (rhs : Ex) : DV := { lhs := held (.expr (.sym f :: (xs.map ("Private`" ++ ·)).map argP)), rhs := rhs }

/-- `a = a + b` -/
def setPlus (a b : Ex) : Ex := .expr [S "Set", a, .expr [S "Plus", a, b]]
/-- `a = a - b` -/
def setMinus (a b : Ex) : Ex := .expr [S "Set", a, minusEx a b]

/-- `Increment[a_] := (a = a + 1; a - 1)` (`arithmetic.m:281`). -/
def incrementRule : DV := ruleFor "System`Increment" ["a"] (.expr [S "CompoundExpression", setPlus (pv "a") (.int 1), minusEx (pv "a") (.int 1)])
/-- `Decrement[a_] := (a = a - 1; a + 1)` (`arithmetic.m:292`). -/
def decrementRule : DV := ruleFor "System`Decrement" ["a"] (.expr [S "CompoundExpression", setMinus (pv "a") (.int 1), .expr [S "Plus", pv "a", .int 1]])
/-- `PreIncrement[a_] := (a = a + 1)` (`arithmetic.m:303`). -/
def preIncrementRule : DV := ruleFor "System`PreIncrement" ["a"] (setPlus (pv "a") (.int 1))
/-- `PreDecrement[a_] := (a = a - 1)` (`arithmetic.m:314`). -/
def preDecrementRule : DV := ruleFor "System`PreDecrement" ["a"] (setMinus (pv "a") (.int 1))
/-- `AddTo[a_, b_] := (a = a + b)` (`arithmetic.m:325`). -/
def addToRule : DV := ruleFor "System`AddTo" ["a", "b"] (setPlus (pv "a") (pv "b"))
/-- `SubtractFrom[a_, b_] := (a = a - b)` (`arithmetic.m:336`). -/
def subtractFromRule : DV := ruleFor "System`SubtractFrom" ["a", "b"] (setMinus (pv "a") (pv "b"))
/-- `AppendTo[list_, e_] := (list = Append[list, e])` (`list.m:299`). -/
def appendToRule : DV := ruleFor "System`AppendTo" ["list", "e"] (.expr [S "Set", pv "list", .expr [S "Append", pv "list", pv "e"]])
/-- `PrependTo[list_, e_] := (list = Prepend[list, e])` (`list.m:317`). -/
def prependToRule : DV := ruleFor "System`PrependTo" ["list", "e"] (.expr [S "Set", pv "list", .expr [S "Prepend", pv "list", pv "e"]])
/-- `For[beg_, cond_, incr_, expr_] := (beg; While[cond, expr; incr])` (`flowcontrol.m:111`). -/
def forRule : DV := ruleFor "System`For" ["beg", "cond", "incr", "expr"]
  (.expr [S "CompoundExpression", pv "beg", .expr [S "While", pv "cond", .expr [S "CompoundExpression", pv "expr", pv "incr"]]])

/-- The attributes of `Plus` and `Times` (`arithmetic.m:5, 142`). -/
def arithAttrs : Attrs := { flat := true, listable := true, numericFunction := true, oneIdentity := true, orderless := true, prot := true }

/-- The entries of these symbols (attributes: the same files; `Set`: `builtin_system.go:476-478`; `Less`, `LessEqual`: `comparison.m:191, 228`; `Append`, `Prepend`: `list.m:290, 308`;
`CompoundExpression`, `While`: `flowcontrol.m:30, 40`; `Plus`, `Times`: `arithmetic.m:5, 142`). Simplification: the rules of `Plus` and `Times` are left out; they are consulted only if the
builtin function leaves its call as it is. -/
def entries : List (String × DefM) :=
  [("System`Increment", { downvalues := [incrementRule], attrs := { holdFirst := true, prot := true, readProtected := true } }),
   ("System`Decrement", { downvalues := [decrementRule], attrs := { holdFirst := true, prot := true, readProtected := true } }),
   ("System`PreIncrement", { downvalues := [preIncrementRule], attrs := { holdFirst := true, prot := true, readProtected := true } }),
   ("System`PreDecrement", { downvalues := [preDecrementRule], attrs := { holdFirst := true, prot := true, readProtected := true } }),
   ("System`AddTo", { downvalues := [addToRule], attrs := { holdFirst := true, prot := true } }),
   ("System`SubtractFrom", { downvalues := [subtractFromRule], attrs := { holdFirst := true, prot := true } }),
   ("System`AppendTo", { downvalues := [appendToRule], attrs := { holdFirst := true, prot := true } }),
   ("System`PrependTo", { downvalues := [prependToRule], attrs := { holdFirst := true, prot := true } }),
   ("System`For", { downvalues := [forRule], attrs := { holdAll := true, prot := true } }),
   ("System`Plus", { attrs := arithAttrs, builtin := true }),
   ("System`Times", { attrs := arithAttrs, builtin := true }),
   ("System`Set", { attrs := { holdFirst := true, sequenceHold := true }, builtin := true }),
   ("System`CompoundExpression", { attrs := { holdAll := true, readProtected := true, prot := true }, builtin := true }),
   ("System`While", { attrs := { holdAll := true, prot := true }, builtin := true }),
   ("System`Less", { attrs := { prot := true }, builtin := true }),
   ("System`LessEqual", { attrs := { prot := true }, builtin := true }),
   ("System`Append", { attrs := { prot := true }, builtin := true }),
   ("System`Prepend", { attrs := { prot := true }, builtin := true })]

/-- The builtin `Set` (`builtin_system.go:494-501`). -/
def setCall (strLen : Ex → Nat) (st : EState) (ps : List Ex) : Res (EState × Ex) :=
  match ps with
  | [_, lhs, rhs] => (defineIn strLen st lhs rhs).bind (fun st' => .ok (st', rhs))
  | _ => .ok (st, .expr ps)

/-- The value of a comparison (`builtin_comparison.go:98-119`); `N` of a number is `numToN`. -/
def truthEx (ps : List Ex) : Option Bool → Ex
  | some true => S "True"
  | some false => S "False"
  | none => .expr ps

/-- A function that is not finished or crashed for `none`. -/
def crashNone (st : EState) : Option Ex → Res (EState × Ex)
  | some e => .ok (st, e)
  | none => .panic

/-- The builtin functions by name. -/
def fn (A : AlgParams) (strLen : Ex → Nat) (fmt : Rat → String) (s : String) (n : Nat) (ev : Evaluator) (st : EState) (ps : List Ex) : Res (EState × Ex) :=
  if s = "System`Set" then setCall strLen st ps
  else if s = "System`Plus" then .ok (st, plusEval A.toN ps.tail)
  else if s = "System`Times" then .ok (st, timesEval A.toN ps.tail)
  else if s = "System`Less" then .ok (st, truthEx ps (lessEval numToN ps.tail))
  else if s = "System`LessEqual" then .ok (st, truthEx ps (lessEqualEval numToN ps.tail))
  else if s = "System`Append" then crashNone st (appendFn ps)
  else if s = "System`Prepend" then crashNone st (prependFn ps)
  else flowFn fmt s n ev st ps

/-- The interpreter with these functions and the rules of the table. Simplification: two expressions are taken for the same if they are equal (the code compares fingerprints,
`eval.go:57`). -/
def ctx (A : AlgParams) (strLen : Ex → Nat) (fmt : Rat → String) : Ctx :=
  { fn := fn A strLen fmt, find := fun _ st s e => algFind A st s e, same := fun a b => decide (a = b) }

end AssignProg
end Expreduce
