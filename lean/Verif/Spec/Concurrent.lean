import Verif.Model.Concurrent

/-! Specification of concurrent evaluations: what the calls of one thread do when nobody else runs. -/

namespace Expreduce
open Ex
namespace Prog

/-- The name a call is about. -/
def Call.name : Call → String
  | .lookup n _ => n
  | .define n _ _ => n
  | .clear n => n
  | .markSeen n => n
  | .setAttrs n _ => n

/-- Whether a call may write. -/
def Call.writes : Call → Bool
  | .lookup _ _ => false
  | _ => true

/-- The result of a lookup in a table that does not change: the first rule that applies. -/
def firstMatch (t : Table) (name : String) (rule : DV → Option Ex) : Option Ex := (((t name).map DefM.downvalues).getD []).findSome? rule

/-- The calls done one after the other without disturbance: the table and the results of the lookups. -/
def sequential (strLen : Ex → Nat) : List Call → Table → Option (Table × List (Option Ex))
  | [], t => some (t, [])
  | .lookup name rule :: cs, t => (sequential strLen cs t).map (fun r => (r.1, firstMatch t name rule :: r.2))
  | .define name l rhs :: cs, t =>
    if targetName' l = some name then (define strLen { defs := t } l rhs).bind (fun st => sequential strLen cs st.defs) else none
  | .clear name :: cs, t => sequential strLen cs (clear { defs := t } name).defs
  | .markSeen name :: cs, t => sequential strLen cs (markSeen { defs := t } name).defs
  | .setAttrs name a :: cs, t => sequential strLen cs (t.set name { (t name).getD {} with attrs := a })
where
  /-- The symbol a left side defines a rule for. -/
  targetName' (l : Ex) : Option String :=
    match targetOf l with
    | .rule s => some s
    | _ => none

/-- What is left of a thread: crashed on a missing entry, crashed on a bad index, or its results. -/
def results : Prog → Option (List (Option Ex))
  | .done out => some out
  | _ => none

/-- The thread has stopped. -/
def Terminal : Prog → Prop
  | .done _ => True
  | .missing => True
  | .badIndex => True
  | _ => False

/-- The thread panicked with an index out of range. -/
def indexPanic : Prog → Bool
  | .badIndex => true
  | _ => false

end Prog
end Expreduce
