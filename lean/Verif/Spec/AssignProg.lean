import Verif.Model.AssignProg
import Verif.Spec.Iter
import Verif.Spec.Standard

/-! What an interpreter with the assignment operators looks like, and what an assignment does. -/

namespace Expreduce
open Ex
namespace AssignProg

/-- Symbols with a fixed meaning here. -/
def reserved : List String := "System`True" :: "System`False" :: "System`Null" :: "System`List" :: entries.map Prod.fst

/-- A session in which the functions used here are as shipped, nothing is thrown or interrupted. What else is defined is left open. -/
structure Shell (st : EState) : Prop where
  entry : ∀ p ∈ entries, st.defs p.1 = some p.2
  noValue : ∀ s ∈ ["System`True", "System`False", "System`Null", "System`List"], getSymDef st.toDState s = none
  list : hasBuiltin st "System`List" = false ∧ attrsOf st "System`List" = { prot := true, locked := true } ∧ rulesFor st.toDState "System`List" = []
  notThrown : st.thrown = none
  notInterrupted : st.interrupted = false
  notFrozen : st.frozen = false

/-- `x` is a variable of the user: no reserved symbol; its definitions are those that assignments make. -/
structure Variable (st : EState) (x : String) : Prop where
  named : x ≠ ""
  user : x ∉ reserved
  rules : PlainRules x (rulesFor st.toDState x)

/-- The value of `x`. -/
def HasValue (st : EState) (x : String) (v : Ex) : Prop := getSymDef st.toDState x = some v

/-- `st'` is `st` except that `x` now has the value `v`. -/
structure Becomes (st : EState) (x : String) (v : Ex) (st' : EState) : Prop where
  value : HasValue st' x v
  others : ∀ y, y ≠ x → st'.defs y = st.defs y
  thrown : st'.thrown = st.thrown
  interrupted : st'.interrupted = st.interrupted
  sown : st'.sown = st.sown
  frozen : st'.frozen = st.frozen
  rules : PlainRules x (rulesFor st'.toDState x)

end AssignProg
end Expreduce

namespace Expreduce
open Ex
namespace AssignProg

/-- A `For` loop from the test on: it ends when the test is not `True`; otherwise the body and then the increment are evaluated. The session stays as shipped. -/
inductive ForRuns (c : Ctx) (test incr body : Ex) : EState → EState → Prop
  | stop {st st' v} : Evals c st test st' v → isSameQ v (S "True") = false → Shell st' → ForRuns c test incr body st st'
  | round {st st1 st2 st3 st' v w} : Evals c st test st1 (S "True") → Evals c st1 body st2 v → Evals c st2 incr st3 w → Shell st1 → Shell st2 → Shell st3 →
      hasHead "System`Return" v = false → hasHead "System`Return" w = false → hasHead "System`Break" w = false → Done c st3 w →
      ForRuns c test incr body st3 st' → ForRuns c test incr body st st'

/-- `a` is its own value, and stays so when `x` is assigned to. -/
def Steady (c : Ctx) (st : EState) (x : String) (a : Ex) : Prop := Done c st a ∧ ∀ v st', Becomes st x v st' → Done c st' a

end AssignProg
end Expreduce
