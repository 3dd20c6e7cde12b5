import Verif.Model.Replace

/-! # `FreeQ` (`/repo/expreduce/resources/pattern.m:362-363`) -/

namespace Expreduce
open Ex

/-- The symbol put in for what is looked for (`pattern.m:363`). -/
def dummyName : String := "Internal`DummyReplace"

/-- `FreeQ[e, val]` (`pattern.m:363`): `e === (e /. val -> Internal`DummyReplace)`. The arguments are values already; `ev` is the
evaluation of the result of the replacement, which is an argument of `SameQ`. `none`: the replacement does not return. -/
def freeQFn (env : MEnv) (m : Nat) (ev : Ex → Ex) (e val : Ex) : Option Bool :=
  match replaceAllFn env m e (.expr [S "Rule", val, .sym dummyName]) with
  | none => none
  | some e' => some (isSameQ e (ev e'))

end Expreduce
