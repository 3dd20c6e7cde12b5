import Verif.Model.Match

/-!
# Replacement (`/repo/expreduce/replace.go`, `/repo/expreduce/builtin_replacement.go`, `/repo/expreduce/eval.go:399-499`)

Conventions as in `Verif.Model.Match`: `none` means no normal return (a Go panic, or the recursion bound `m` of the matcher was too
small). Copying (`DeepCopy`) is the identity on values.
-/

namespace Expreduce
open Ex

/-- The two-part forms appended by `flatReplace` (`replace.go:20-38`): the pattern ``x : ___``. -/
def looseEnd (x : String) : Ex := .expr [S "Pattern", .sym x, .expr [S "BlankNullSequence"]]

/-- ``System`Expreduce`start`` and ``System`Expreduce`end`` (`replace.go:24, 35`). -/
def startName : String := "System`Expreduce`start"
/-- See `startName`. -/
def endName : String := "System`Expreduce`end"

/-- `looseLHS` (`replace.go:18-38`). -/
def looseLHS (orderless : Bool) (h : Ex) (args : List Ex) : Ex :=
  .expr (h :: ((if orderless then [] else [looseEnd startName]) ++ args ++ [looseEnd endName]))

/-- The result template of `flatReplace` (`replace.go:43-58`). -/
def looseRHS (orderless : Bool) (h rhs : Ex) : Ex :=
  .expr (h :: ((if orderless then [] else [.sym startName]) ++ [rhs, .sym endName]))

/-- `flatReplace` (`replace.go:10-62`) of `e`, whose head is `h`, by the rule `lh[largs] -> rhs`. -/
def flatReplace (env : MEnv) (m : Nat) (e h lh : Ex) (largs : List Ex) (rhs : Ex) (orderless : Bool) : Option Ex :=
  match isMatchQ env m e (looseLHS orderless lh largs) [] with
  | none => none
  | some (true, q) => some (replacePD (looseRHS orderless h rhs) q)
  | some (false, _) => some e

/-- The test for the flat case (`eval.go:463-483`): the head symbol if both heads are the same `Flat` symbol, and the arguments of the
left side. -/
def flatCase (env : MEnv) (ps : List Ex) (lhs : Ex) : Option (String × List Ex) :=
  match ps, lhs with
  | .sym s :: _, .expr (.sym t :: largs) => if s = t ∧ env.flat s = true then some (s, largs) else none
  | _, _ => none

/-- The end of `exprReplaceAll` (`eval.go:497-500`). -/
def keepIfSame (ps qs : List Ex) : Ex := if hash (.expr qs) ≠ hash (.expr ps) then .expr qs else .expr ps

mutual
/-- `replaceAll` (`replace.go:68-93`) and `exprReplaceAll` (`eval.go:449-500`). -/
def replaceAll (env : MEnv) (m : Nat) (stop : String) (lhs rhs : Ex) : Ex → Option Ex
  | .expr ps =>
    if hasHead stop (.expr ps) then some (.expr ps)
    else
      match isMatchQ env m (.expr ps) lhs [] with
      | none => none
      | some (true, q) => some (replacePD rhs q)
      | some (false, _) =>
        match flatCase env ps lhs with
        | some (s, largs) => flatReplace env m (.expr ps) (.sym s) (.sym s) largs rhs (env.orderless s)
        | none =>
          match replaceAllL env m stop lhs rhs ps with
          | none => none
          | some qs => some (keepIfSame ps qs)
  | e =>
    match isMatchQ env m e lhs [] with
    | none => none
    | some (true, q) => some (replacePD rhs q)
    | some (false, _) => some e
/-- The loop over the parts (`eval.go:486-496`). -/
def replaceAllL (env : MEnv) (m : Nat) (stop : String) (lhs rhs : Ex) : List Ex → Option (List Ex)
  | [] => some []
  | p :: ps =>
    match replaceAll env m stop lhs rhs p, replaceAllL env m stop lhs rhs ps with
    | some q, some qs => some (q :: qs)
    | _, _ => none
end

/-- The two sides of a rule; the code indexes parts 1 and 2 (a rule with fewer arguments makes it panic). -/
def ruleSides : Ex → Option (Ex × Ex)
  | .expr (_ :: l :: r :: _) => some (l, r)
  | _ => none

/-- A `Rule` or `RuleDelayed` expression. -/
def isRule (e : Ex) : Bool := hasHead "System`Rule" e || hasHead "System`RuleDelayed" e

/-- `getValidRules` (`builtin_replacement.go:9-40`). -/
def getValidRules (arg : Ex) : List Ex :=
  if isRule arg then [arg]
  else
    match argsOf "System`List" arg with
    | some items => items.filter isRule
    | none => []

/-- `rulesReplaceAll` (`builtin_replacement.go:42-53`). -/
def rulesReplaceAll (env : MEnv) (m : Nat) : List Ex → Ex → Option Ex
  | [], e => some e
  | r :: rs, e =>
    match ruleSides r with
    | none => none
    | some (lhs, rhs) =>
      match replaceAll env m "" lhs rhs e with
      | none => none
      | some e' => rulesReplaceAll env m rs e'

/-- `ReplaceAll[e, arg]` (`builtin_replacement.go:124-131`). -/
def replaceAllFn (env : MEnv) (m : Nat) (e arg : Ex) : Option Ex := rulesReplaceAll env m (getValidRules arg) e

/-- The arguments of the `Condition` found by `tryCondWithMatches` (`replace.go:100-131`): on the right side itself, or inside a `With`
or `Module` whose body is a condition. `locals` stands for `applyWithFn` and `applyModuleFn`: it gives the body with its local
variables replaced. -/
def condArgs (locals : Ex → Option Ex) (rhs : Ex) : Option (List Ex) :=
  match argsOf "System`Condition" rhs with
  | some args => some args
  | none => (locals rhs).bind (argsOf "System`Condition")

/-- `tryCondWithMatches` (`replace.go:95-144`): `some none` if the condition fails. `n` bounds the nesting of conditions. -/
def tryCond (env : MEnv) (locals : Ex → Option Ex) : Nat → Ex → Option (Option Ex)
  | 0, _ => none
  | n + 1, rhs =>
    match condArgs locals rhs with
    | none => some (some rhs)
    | some (body :: cond :: _) => if env.isTrue cond then tryCond env locals n body else some none
    | some _ => none

/-- The loop of `replace` over the results of the match (`replace.go:157-167`). -/
def replaceLoop (env : MEnv) (locals : Ex → Option Ex) (n : Nat) (rhs : Ex) : List (Option PM) → Option (Option Ex)
  | [] => some none
  | r :: rs =>
    match tryCond env locals n (replacePD rhs r) with
    | none => none
    | some (some res) => some (some res)
    | some none => replaceLoop env locals n rhs rs

/-- `replace` (`replace.go:146-169`): `some none` if nothing was replaced. -/
def replace (env : MEnv) (locals : Ex → Option Ex) (m n : Nat) (lhs rhs e : Ex) : Option (Option Ex) :=
  match matchF env m e lhs [] with
  | none => none
  | some (rs, _) => replaceLoop env locals n rhs rs

/-- `rulesReplace` (`builtin_replacement.go:55-66`), also the loop of `Replace` (`builtin_replacement.go:142-148`) and of `GetDef`
(`evalstate.go:328-358`). -/
def rulesReplace (env : MEnv) (locals : Ex → Option Ex) (m n : Nat) (e : Ex) : List Ex → Option (Option Ex)
  | [] => some none
  | r :: rs =>
    match ruleSides r with
    | none => none
    | some (lhs, rhs) =>
      match replace env locals m n lhs rhs e with
      | none => none
      | some (some res) => some (some res)
      | some none => rulesReplace env locals m n e rs

/-- `Replace[e, arg]` (`builtin_replacement.go:134-151`): `none` inside for "returned unevaluated". -/
def replaceFn (env : MEnv) (locals : Ex → Option Ex) (m n : Nat) (e arg : Ex) : Option Ex :=
  if (getValidRules arg).isEmpty then some (.expr [S "Replace", e, arg])
  else
    match rulesReplace env locals m n e (getValidRules arg) with
    | none => none
    | some (some res) => some res
    | some none => some e

/-- The loop of `ReplaceRepeated` (`builtin_replacement.go:169-191`); `ev` is `es.Eval`, `k` bounds the number of rounds. -/
def replaceRepeated (ev : Ex → Option Ex) (arg : Ex) : Nat → Ex → Option Ex
  | 0, _ => none
  | k + 1, old =>
    match ev (.expr [S "ReplaceAll", old, arg]) with
    | none => none
    | some new => if isSameQ old new then some new else replaceRepeated ev arg k new

/-- The loop of `evalFunction` over the arguments (`eval.go:405-420`), starting with slot `i`. -/
def fillSlots (env : MEnv) (m : Nat) : Nat → List Ex → Ex → Option Ex
  | _, [], body => some body
  | i, arg :: args, body =>
    match replaceAll env m "System`Function" (.expr [S "Slot", .int i]) arg body with
    | none => none
    | some body' => fillSlots env m (i + 1) args body'

/-- `evalFunction` (`eval.go:399-447`) of `Function[fargs...][args...]`. -/
def evalFunction (env : MEnv) (m : Nat) (fargs args : List Ex) : Option Ex :=
  match fargs with
  | [body] => fillSlots env m 1 args body
  | [.sym x, body] =>
    match args with
    | [] => none
    | a :: _ => replaceAll env m "System`Function" (.sym x) a body
  | _ => some (.expr (S "Function" :: fargs))

end Expreduce
