import Verif.Model.Eval

/-!
# The interactive session (`/repo/expreduce.go:117-154`, `/repo/expreduce/evalstate.go:699-730`)

Reading a line, printing and formatting are left out: a session is a sequence of inputs, each evaluated and then handed to
`ProcessTopLevelResult`.
-/

namespace Expreduce
open Ex

/-- What a session uses. -/
structure SessionLib where
  /-- `es.Eval` -/
  ev : Evaluator
  /-- the printed length that orders rules, see `define` -/
  strLen : Ex → Nat
  /-- the value of `Plus[line, 1]` -/
  succ : Ex → Ex := fun
    | .int n => .int (n + 1)
    | e => .expr [S "Plus", .int 1, e]

/-- An assignment to the definitions of the state. -/
def assign (L : SessionLib) (st : EState) (lhs rhs : Ex) : Res EState :=
  (Res.ofOption (define L.strLen st.toDState lhs rhs)).bind (fun d => .ok { st with toDState := d })

/-- `es.Eval(In[line] := in)` (`evalstate.go:720-722`, `builtin_system.go:559-585`): `SetDelayed` calls `Define` twice.
Simplification: the symbol `In` has no value and no attributes and the line is a number, so that the parts of the left side evaluate to themselves. -/
def recordIn (L : SessionLib) (st : EState) (line inp : Ex) : Res EState :=
  (assign L st (.expr [S "In", line]) inp).bind (fun st => assign L st (.expr [S "In", line]) inp)

/-- `es.Eval(Out[line] = res)` (`evalstate.go:723`): the result is evaluated a second time; if that throws, nothing is assigned. -/
def recordOut (L : SessionLib) (st : EState) (line res : Ex) : Res EState :=
  (L.ev st res).bind (fun r =>
    match r.1.thrown with
    | some _ => .ok r.1
    | none => assign L r.1 (.expr [S "Out", line]) r.2)

/-- `$PrePrint` (`evalstate.go:724-727`). -/
def prePrint (L : SessionLib) (st : EState) (res : Ex) : Res (EState × Ex) :=
  match getSymDef st.toDState "System`$PrePrint" with
  | some f => L.ev st (.expr [f, res])
  | none => .ok (st, res)

/-- `es.Eval(Increment[$Line])` (`evalstate.go:728`, `resources/arithmetic.m:281`): nothing happens if something is thrown (the evaluation of the
head returns at once) or if the interrupt flag is set (the body of a definition is aborted). -/
def nextLine (L : SessionLib) (st : EState) : Res EState :=
  match st.thrown with
  | some _ => .ok st
  | none =>
    if st.interrupted then .ok st
    else
      match getSymDef st.toDState "System`$Line" with
      | some line => assign L st (S "$Line") (L.succ line)
      | none => assign L st (S "$Line") (L.succ (S "$Line"))

/-- `ProcessTopLevelResult` (`evalstate.go:699-730`). Without a value of `$Line` a nil pointer becomes a part of `In[...]`, and the program crashes. -/
def processTop (L : SessionLib) (st : EState) (inp out : Ex) : Res (EState × Ex) :=
  let r := topLevel st out
  match getSymDef r.1.toDState "System`$Line" with
  | none => .panic
  | some line =>
    (recordIn L r.1 line inp).bind (fun st1 =>
    (recordOut L st1 line r.2).bind (fun st2 =>
    (prePrint L st2 r.2).bind (fun p =>
    (nextLine L p.1).bind (fun st3 => .ok (st3, p.2)))))

/-- The loop of the session (`expreduce.go:117-154`): the state afterwards and what is printed. The number in the prompt counts the inputs. -/
def session (L : SessionLib) : EState → List Ex → Res (EState × List Ex)
  | st, [] => .ok (st, [])
  | st, e :: es =>
    (L.ev st e).bind (fun r =>
    (processTop L r.1 e r.2).bind (fun p =>
    (session L p.1 es).bind (fun q => .ok (q.1, p.2 :: q.2))))

end Expreduce
