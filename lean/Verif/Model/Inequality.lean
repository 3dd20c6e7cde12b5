import Verif.Model.Eval

/-!
# Chained comparisons (`/repo/expreduce/builtin_comparison.go:359-431`)

The arguments of a call of `Inequality` are an operand followed by pairs of an operator and an operand; the model works on the list of pairs where
the code works with indices.
-/

namespace Expreduce
open Ex

/-- `getCompSign` (`builtin_comparison.go:71-89`). -/
def compSign (e : Ex) : Int :=
  match e with
  | .sym s =>
    if s = "System`Less" then -1
    else if s = "System`LessEqual" then -1
    else if s = "System`Equal" then 0
    else if s = "System`GreaterEqual" then 1
    else if s = "System`Greater" then 1
    else -2
  | _ => -2

/-- The arguments behind the first operand as pairs; `none` if one is left over (`len(parts) % 2 != 0`, line 367). -/
def opPairs : List Ex → Option (List (Ex × Ex))
  | [] => some []
  | [_] => none
  | op :: a :: r => (opPairs r).map ((op, a) :: ·)

/-- The arguments belonging to a first operand and pairs. -/
def chainArgs (a : Ex) (r : List (Ex × Ex)) : List Ex := a :: r.flatMap (fun p => [p.1, p.2])

/-- The outcome of the search for a change of direction. -/
inductive Turn where
  | bad
  | split (v : Ex)
  | go

/-- The loop `builtin_comparison.go:375-393` over the pairs behind the first one: `a0` is the first operand, `done` are the pairs in front, the last one is
`done.getLast`. -/
def findTurn (s : Int) (a0 : Ex) (done : List (Ex × Ex)) (last : Ex) : List (Ex × Ex) → Turn
  | [] => .go
  | (op, b) :: r =>
    if compSign op = -2 then .bad
    else if compSign op = -s then .split (.expr [S "And", .expr (S "Inequality" :: chainArgs a0 done), .expr (S "Inequality" :: chainArgs last ((op, b) :: r))])
    else findTurn s a0 (done ++ [(op, b)]) b r

/-- The inner loop `builtin_comparison.go:404-411`: whether a comparison of `lhs` with one of the operands gives `False`. -/
def anyFalse (ev : Evaluator) (op lhs : Ex) (st : EState) : List Ex → Res (EState × Bool)
  | [] => .ok (st, false)
  | b :: bs => (ev st (.expr [op, lhs, b])).bind (fun r => if r.2 = S "False" then .ok (r.1, true) else anyFalse ev op lhs r.1 bs)

/-- What is appended to `res` for a comparison that is not `True` (`builtin_comparison.go:413-422`). -/
def appendComparison (res : List Ex) (lhs op rhs : Ex) : List Ex :=
  (if isSameQ ((S "Inequality" :: res).getLast (by simp)) lhs then res else res ++ [lhs]) ++ [op, rhs]

/-- The end of the function (`builtin_comparison.go:425-432`). -/
def finishIneq (res : List Ex) : Ex :=
  match res with
  | [] => S "True"
  | [a, op, b] => .expr [op, a, b]
  | res => .expr (S "Inequality" :: res)

/-- The loop `builtin_comparison.go:396-424`; `a` is `parts[2i+1]`. -/
def ineqLoop (ev : Evaluator) (st : EState) (res : List Ex) (a : Ex) : List (Ex × Ex) → Res (EState × Ex)
  | [] => .ok (st, finishIneq res)
  | (op, b) :: r =>
    (anyFalse ev op (res.getLastD a) st (b :: r.map Prod.snd)).bind (fun f =>
      if f.2 then .ok (f.1, S "False")
      else (ev f.1 (.expr [op, res.getLastD a, b])).bind (fun q =>
        ineqLoop ev q.1 (if q.2 = S "True" then res else appendComparison res (res.getLastD a) op b) b r))

/-- What follows the search for a change of direction. -/
def afterTurn (ev : Evaluator) (st : EState) (ps : List Ex) (a : Ex) (r : List (Ex × Ex)) : Turn → Res (EState × Ex)
  | .bad => .ok (st, .expr ps)
  | .split v => .ok (st, v)
  | .go => ineqLoop ev st [] a r

/-- `Inequality` (`builtin_comparison.go:359-433`). -/
def ineqFn (ev : Evaluator) (st : EState) (ps : List Ex) : Res (EState × Ex) :=
  match ps with
  | [_, _] => .ok (st, S "True")
  | _ :: a :: rest =>
    match opPairs rest with
    | none => .ok (st, .expr ps)
    | some [] => .ok (st, S "True")
    | some ((op, b) :: r) =>
      if compSign op = -2 then .ok (st, .expr ps)
      else if compSign op = 0 then ineqLoop ev st [] a ((op, b) :: r)
      else afterTurn ev st ps a ((op, b) :: r) (findTurn (compSign op) a [(op, b)] b r)
  | _ => .ok (st, .expr ps)

end Expreduce
