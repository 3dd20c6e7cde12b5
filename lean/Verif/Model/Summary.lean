import Verif.Model.Functional
import Verif.Model.Compare
import Verif.Model.Arith

/-!
# Total, Mean and AllTrue (`/repo/expreduce/resources/list.m`, `/repo/expreduce/resources/boolean.m`)

Functions defined by rules, read as compositions of the modelled built-ins. The arguments are evaluated expressions.
-/

namespace Expreduce.Sm
open Expreduce Ex

/-- One evaluation pass over a call of `Plus`, `Times` or `Power` whose arguments are evaluated (`eval.go:94-330`): the arguments of `Plus` and `Times` are
sorted (Orderless), the built-in is applied, and if the result is a number it is brought to normal form (`eval.go:33-44`). Simplified: a compound result is not evaluated
again, no rules are applied, `Power` is only the one of integers. -/
def arith (sort : List Ex → List Ex) (toN : Ex → Ex) : Ex → Option Ex
  | .expr (.sym "System`Plus" :: as) => some (evalNumber (plusEval toN (sort as)))
  | .expr (.sym "System`Times" :: as) => some (evalNumber (timesEval toN (sort as)))
  | .expr [.sym "System`Power", .int b, .int p] => some (powerIntVal b p)
  | e => some e

/-- `Total[l__List] := Apply[Plus, l]` (`list.m:10`). The pattern `l__List` matches any number of lists, at least one; `l` is then a `Sequence` and its elements become the arguments of `Apply`. -/
def totalProg (ev : Ex → Option Ex) (args : List Ex) : Option Ex :=
  if args ≠ [] ∧ args.all (hasHead "System`List") then applyFn ev (S "Apply" :: S "Plus" :: args) else some (.expr (S "Total" :: args))

/-- `Mean[l__List] := Total[l]/Length[l]` (`list.m:22`): the quotient is `Times[Total[l], Power[Length[l], -1]]` (the parser makes it so). -/
def meanProg (ev : Ex → Option Ex) (args : List Ex) : Option Ex :=
  if args ≠ [] ∧ args.all (hasHead "System`List") then
    (totalProg ev args).bind (fun t => (lengthFn (S "Length" :: args)).bind (fun n => (ev (.expr [S "Power", n, .int (-1)])).bind (fun p =>
      ev (.expr [S "Times", t, p]))))
  else some (.expr (S "Mean" :: args))

/-- The arguments of a call are evaluated one after the other (`eval.go:168-214`). -/
def evalEach {σ : Type} (ev : Ex → σ → Ex × σ) : List Ex → σ → List Ex × σ
  | [], s => ([], s)
  | a :: as, s => ((ev a s).1 :: (evalEach ev as (ev a s).2).1, (evalEach ev as (ev a s).2).2)

/-- `AllTrue[_[elems___], cond_] := And @@ (cond /@ {elems})` (`boolean.m:75`): `Map` makes the list of the calls, which is evaluated; `Apply` replaces its head by `And`, whose
built-in evaluates the elements again. Simplified: the values are no `Sequence` calls. -/
def allTrueProg {σ : Type} (ev : Ex → σ → Ex × σ) (e cond : Ex) (s : σ) : Ex × σ :=
  match e with
  | .expr (_ :: elems) =>
    let r := evalEach ev (elems.map (fun x => .expr [cond, x])) s
    andEval ev r.1 r.2
  | e => (.expr [S "AllTrue", e, cond], s)

/-- `ListQ[expr_] := Head[expr] === List` (`list.m:396`), with `Head` of a compound being its first part (`builtin_expression.go`). -/
def listQProg (e : Ex) : Bool :=
  match e with
  | .expr (h :: _) => isSameQ h (S "List")
  | _ => false

/-- `Boole[True] := 1; Boole[False] := 0` (`boolean.m:85-86`). -/
def booleProg (e : Ex) : Ex := if e = S "True" then .int 1 else if e = S "False" then .int 0 else .expr [S "Boole", e]

end Expreduce.Sm
