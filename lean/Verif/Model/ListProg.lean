import Verif.Model.Lists
import Verif.Model.Functional
import Verif.Model.Compare
import Verif.Model.Replace

/-!
# List programs (`/repo/expreduce/resources/list.m`, `/repo/expreduce/resources/functional.m`)

Functions that are not written in Go but defined by rules, read as compositions of the modelled functions they call. The arguments are evaluated expressions that evaluate to themselves;
where the program makes a new expression, `ev` evaluates it. `none` is a crash (or a lack of matching fuel).
-/

namespace Expreduce
open Ex

/-- `a ;; b` -/
def spanEx (a b : Ex) : Ex := .expr [S "Span", a, b]

/-- `Take[list_, m_]`, `Take[list_, {m_, n_}]`, `Take[list_, {m_, n_, o_}]` (`list.m:232-234`). -/
def takeProg (evN : Ex → Ex) (e m : Ex) : Option Ex :=
  match argsOf "System`List" m with
  | some [a, b] => partFn [S "Part", e, spanEx a b]
  | some [a, b, c] => partFn [S "Part", e, .expr [S "Span", a, b, c]]
  | _ =>
    match greaterEval evN [m, .int 0] with
    | some true => partFn [S "Part", e, spanEx (.int 1) m]
    | some false => partFn [S "Part", e, spanEx m (.int (-1))]
    | none => some (.expr [S "If", .expr [S "Greater", m, .int 0], .expr [S "Part", e, spanEx (.int 1) m], .expr [S "Part", e, spanEx m (.int (-1))]])

/-- The test `(Length[#] >= 1)&` of the next three. -/
def lengthAtLeastOne (e : Ex) : Bool :=
  match lengthFn [S "Length", e] with
  | some l => greaterEqualEval numToN [l, .int 1] == some true
  | none => false

/-- `Last[e_?((Length[#]>=1)&)] := e[[Length[e]]]` (`list.m:337`). -/
def lastProg (e : Ex) : Option Ex :=
  if lengthAtLeastOne e then (lengthFn [S "Length", e]).bind (fun l => partFn [S "Part", e, l]) else some (.expr [S "Last", e])

/-- `First[e_?((Length[#]>=1)&)] := e[[1]]` (`list.m:351`). -/
def firstProg (e : Ex) : Option Ex := if lengthAtLeastOne e then partFn [S "Part", e, .int 1] else some (.expr [S "First", e])

/-- `Rest[e_?((Length[#]>=1)&)] := e[[2;;All]]` (`list.m:365`). -/
def restProg (e : Ex) : Option Ex := if lengthAtLeastOne e then partFn [S "Part", e, spanEx (.int 2) (S "All")] else some (.expr [S "Rest", e])

/-- `Fold[f_, x_, expr_] := Last[FoldList[f, x, expr]]` (`functional.m:155`). -/
def foldProg (ev : Ex → Option Ex) (f x e : Ex) : Option Ex := ((foldListFn [S "FoldList", f, x, e]).bind ev).bind lastProg

/-- `Fold[f_, expr_] := Last[FoldList[f, First[expr], Rest[expr]]]` (`functional.m:156`). -/
def foldProg2 (ev : Ex → Option Ex) (f e : Ex) : Option Ex := (firstProg e).bind (fun x => (restProg e).bind (foldProg ev f x))

/-- `Nest[f_, expr_, n_] := Last[NestList[f, expr, n]]` (`functional.m:179`). -/
def nestProg (ev : Ex → Option Ex) (f x n : Ex) : Option Ex := ((nestListFn [S "NestList", f, x, n]).bind ev).bind lastProg

/-- The body of the pure function of `Tally`: `{#, Count[l, #]}`. -/
def tallyBody (l : Ex) : Ex := .expr [S "List", .expr [S "Slot", .int 1], .expr [S "Count", l, .expr [S "Slot", .int 1]]]

/-- One element of `Tally`: the function is applied (`eval.go:399-447`), then `Count[l, p]` is `Count[l, p, {1}]` (`list.m:428`). -/
def tallyOne (env : MEnv) (m k : Nat) (ev : Ex → Option Ex) (l y : Ex) : Option Ex :=
  match evalFunction env m [tallyBody l] [y] with
  | some (.expr [h, a, .expr [c, l', p]]) => (countFn env k ev [c, l', p, .expr [S "List", .int 1]]).map (fun n => .expr [h, a, n])
  | _ => none

/-- The elements of `Tally`, in order. -/
def tallyLoop (env : MEnv) (m k : Nat) (ev : Ex → Option Ex) (l : Ex) : List Ex → Option (List Ex)
  | [] => some []
  | y :: ys => (tallyOne env m k ev l y).bind (fun t => (tallyLoop env m k ev l ys).map (t :: ·))

/-- `Tally[l_List] := {#, Count[l, #]} & /@ DeleteDuplicates[l]` (`list.m:442`); `Map` applies the function to each element (see C38). -/
def tallyProg (env : MEnv) (m k : Nat) (ev : Ex → Option Ex) (l : Ex) : Option Ex :=
  match argsOf "System`List" l with
  | none => some (.expr [S "Tally", l])
  | some _ =>
    match deleteDuplicatesFn [S "DeleteDuplicates", l] with
    | some (.expr (h :: ys)) => (tallyLoop env m k ev l ys).map (fun ts => .expr (h :: ts))
    | _ => none

end Expreduce
