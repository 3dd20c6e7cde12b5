import Verif.Model.Replace

/-! # `With` and `Switch` (`/repo/expreduce/builtin_flowcontrol.go:10-50,153-179`) -/

namespace Expreduce
open Ex

/-- The loop of `applyWithFn` over the declarations (`builtin_flowcontrol.go:22-48`): `x = v` and `x := v` become rules, anything else is
refused. -/
def withRules : List Ex → Option (List Ex)
  | [] => some []
  | .expr [.sym s, x, v] :: ds =>
    if s = "System`Set" then (withRules ds).map (.expr [S "Rule", x, v] :: ·)
    else if s = "System`SetDelayed" then (withRules ds).map (.expr [S "RuleDelayed", x, v] :: ·)
    else none
  | _ => none

/-- `applyWithFn` (`builtin_flowcontrol.go:10-50`); `ps` are the arguments. The inner `none` is the result "false". -/
def applyWith (env : MEnv) (m : Nat) (ps : List Ex) : Option (Option Ex) :=
  match ps with
  | [.expr (.sym l :: ds), body] =>
    if l = "System`List" then
      match withRules ds with
      | some rs => (rulesReplaceAll env m rs body).map some
      | none => some none
    else some none
  | _ => some none

/-- `With` (`builtin_flowcontrol.go:170-179`): the expression itself if `applyWithFn` refuses. -/
def withFn (env : MEnv) (m : Nat) (ps : List Ex) : Option Ex :=
  (applyWith env m ps).map (·.getD (.expr (S "With" :: ps)))

/-- The loop of `Switch` (`builtin_flowcontrol.go:159-163`). -/
def switchLoop (env : MEnv) (m : Nat) (e : Ex) : List Ex → Option (Option Ex)
  | p :: v :: l =>
    match isMatchQ env m e p [] with
    | none => none
    | some (true, _) => some (some v)
    | some (false, _) => switchLoop env m e l
  | _ => some none

/-- `Switch` (`builtin_flowcontrol.go:153-167`); `ps` are the arguments. -/
def switchFn (env : MEnv) (m : Nat) (ps : List Ex) : Option Ex :=
  match ps with
  | e :: l =>
    if ps.length < 3 ∨ ps.length % 2 = 0 then some (.expr (S "Switch" :: ps))
    else (switchLoop env m e l).map (·.getD (.expr (S "Switch" :: ps)))
  | [] => some (.expr [S "Switch"])

end Expreduce
