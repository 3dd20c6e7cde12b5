import Verif.Model.Eval

/-!
# `Sow` and `Reap` (`/repo/expreduce/builtin_system.go:1001-1035`)

The list `reapSown` of the session (`evalstate.go`) is the field `sown` of `EState`.
-/

namespace Expreduce
open Ex

/-- `es.GetReapSown().AppendEx(res)` if the list exists (`builtin_system.go:1009-1011`). -/
def EState.record (st : EState) (v : Ex) : EState := { st with sown := st.sown.map (· ++ [v]) }

/-- `Sow` (`builtin_system.go:1003-1013`): the argument, already evaluated, is evaluated again. -/
def sowFn (ev : Evaluator) (st : EState) (ps : List Ex) : Res (EState × Ex) :=
  match ps with
  | [_, e] => (ev st e).bind (fun r => .ok (r.1.record r.2, r.2))
  | _ => .ok (st, .expr ps)

/-- The result of `Reap` (`builtin_system.go:1024-1028`). A nil list (`none`) would be put into the result as a nil part. -/
def reapResult (v : Ex) : Option (List Ex) → Option Ex
  | some l => some (.expr [S "List", v, .expr [S "List", .expr (S "List" :: l)]])
  | none => none

/-- `Reap` (`builtin_system.go:1017-1033`). -/
def reapFn (ev : Evaluator) (st : EState) (ps : List Ex) : Res (EState × Ex) :=
  match ps with
  | [_, e] =>
    (ev { st with sown := some [] } e).bind (fun r =>
      (Res.ofOption (reapResult r.2 r.1.sown)).bind (fun v => .ok ({ r.1 with sown := some [] }, v)))
  | _ => .ok (st, .expr ps)

/-- The functions of `flowFn`, `Sow` and `Reap`. -/
def sowReapFn (fmt : Rat → String) (s : String) (n : Nat) (ev : Evaluator) (st : EState) (ps : List Ex) : Res (EState × Ex) :=
  if s = "System`Sow" then sowFn ev st ps
  else if s = "System`Reap" then reapFn ev st ps
  else flowFn fmt s n ev st ps

/-- The entries of these symbols (`resources/system.m:330-336`). -/
def sowTable : Table := fun s =>
  if s = "System`Sow" then some { attrs := { prot := true }, builtin := true }
  else if s = "System`Reap" then some { attrs := { holdFirst := true, prot := true }, builtin := true }
  else if s = "System`List" then some { attrs := { prot := true, locked := true } }
  else flowTable s

end Expreduce
