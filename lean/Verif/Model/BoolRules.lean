import Verif.Model.Replace
import Verif.Model.ShippedRules

/-!
# The rules of `booleanSimplify` (`/repo/expreduce/resources/simplify.m:2-37`)

`booleanSimplify[exp] := exp //. {rules}`, the first step of `Simplify` (`simplify.m:54-55`). A round of `ReplaceRepeated` replaces with one
rule after the other (`Model/Replace`, `rulesReplaceAll`) and evaluates the result; this evaluation is the parameter `ev`. `a || b || c` is
`Or[a, b, c]`.
-/

namespace Expreduce
open Ex Shipped
namespace BoolRules

/-- `a && b && ...` -/
def andOf (l : List Ex) : Ex := call "And" l
/-- `a || b || ...` -/
def orOf (l : List Ex) : Ex := call "Or" l
/-- `!a` -/
def notOf (a : Ex) : Ex := call "Not" [a]
/-- `___` -/
def skip : Ex := .expr [S "BlankNullSequence"]

/-- The first two rules (`simplify.m:6-7`). In the second one the last variable is written without a blank, so it stands for the symbol `z`. -/
def deMorgan2 : Ex × Ex := (orOf [notOf (any "x"), notOf (any "y")], notOf (andOf [var "x", var "y"]))
/-- See `deMorgan2`. -/
def deMorgan3 : Ex × Ex := (orOf [notOf (any "x"), notOf (any "y"), notOf (var "z")], notOf (andOf [var "x", var "y", var "z"]))

/-- `(a_ || b_) && (a_ || c_) :> a || (b && c)` (`simplify.m:19`). -/
def factorLeft : Ex × Ex :=
  (andOf [orOf [any "a", any "b"], orOf [any "a", any "c"]], orOf [var "a", andOf [var "b", var "c"]])
/-- `(b_ || a_) && (c_ || a_) :> a || (b && c)` (`simplify.m:20`). -/
def factorRight : Ex × Ex :=
  (andOf [orOf [any "b", any "a"], orOf [any "c", any "a"]], orOf [var "a", andOf [var "b", var "c"]])

/-- The rules come in pairs: `o` is `Or` and `a` is `And`, or the other way round. -/
def contraLeft (o a : String) (res : Ex) : Ex × Ex :=
  (call o [skip, any "a", skip, notOf (call "Alternatives" [call a [skip, any "a", skip], any "a"]), skip], res)
/-- With the two arguments in the other order. -/
def contraRight (o a : String) (res : Ex) : Ex × Ex :=
  (call o [skip, notOf (call "Alternatives" [call a [skip, any "a", skip], any "a"]), skip, any "a", skip], res)
/-- `Or[x1___, a_, x2___, And[x3___, a_, x4___], x5___] :> Or[a, x1, x2, x5]` -/
def absorbLeft (o a : String) : Ex × Ex :=
  (call o [many "x1", any "a", many "x2", call a [many "x3", any "a", many "x4"], many "x5"], call o [var "a", var "x1", var "x2", var "x5"])
/-- `Or[x1___, And[x2___, a_, x3___], x4___, a_, x5___] :> Or[a, x1, x4, x5]` -/
def absorbRight (o a : String) : Ex × Ex :=
  (call o [many "x1", call a [many "x2", any "a", many "x3"], many "x4", any "a", many "x5"], call o [var "a", var "x1", var "x4", var "x5"])
/-- `Or[x1___, a_, x2___, a_, x3___] :> Or[a, x1, x2, x3]` -/
def twice (o : String) : Ex × Ex :=
  (call o [many "x1", any "a", many "x2", any "a", many "x3"], call o [var "a", var "x1", var "x2", var "x3"])
/-- `Or[x1___, a_, x2___, And[x3___, !a_, x4___], x5___] :> Or[a, x1, x2, And[x3, x4], x5]` -/
def dropLeft (o a : String) : Ex × Ex :=
  (call o [many "x1", any "a", many "x2", call a [many "x3", notOf (any "a"), many "x4"], many "x5"],
    call o [var "a", var "x1", var "x2", call a [var "x3", var "x4"], var "x5"])
/-- `Or[x1___, And[x2___, !a_, x3___], x4___, a_, x5___] :> Or[a, x1, And[x2, x3], x4, x5]` -/
def dropRight (o a : String) : Ex × Ex :=
  (call o [many "x1", call a [many "x2", notOf (any "a"), many "x3"], many "x4", any "a", many "x5"],
    call o [var "a", var "x1", call a [var "x2", var "x3"], var "x4", var "x5"])

/-- The rules in their order (`simplify.m:6-36`). -/
def boolRules : List (Ex × Ex) := [
  deMorgan2, deMorgan3, factorLeft, factorRight,
  -- simplify.m:21-27
  contraLeft "Or" "And" (S "True"), contraRight "Or" "And" (S "True"), absorbLeft "Or" "And", absorbRight "Or" "And", twice "Or",
  dropLeft "Or" "And", dropRight "Or" "And",
  -- simplify.m:30-36
  contraLeft "And" "Or" (S "False"), contraRight "And" "Or" (S "False"), absorbLeft "And" "Or", absorbRight "And" "Or", twice "And",
  dropLeft "And" "Or", dropRight "And" "Or"]

end BoolRules

/-- One round of `booleanSimplify` before the evaluation of the result: the rules one after the other. -/
def boolRound (env : MEnv) (m : Nat) (e : Ex) : Option Ex :=
  rulesReplaceAll env m (BoolRules.boolRules.map (fun r => .expr [S "RuleDelayed", r.1, r.2])) e

/-- `booleanSimplify[e]` (`simplify.m:2`): rounds, each followed by the evaluation `ev` of its result, until nothing changes (at most `k`). -/
def boolRun (env : MEnv) (m : Nat) (ev : Ex → Ex) (k : Nat) (e : Ex) : Option Ex :=
  replaceRepeated (fun q => match q with
    | .expr [_, old, _] => (boolRound env m old).map ev
    | _ => none) (.sym "Private`booleanRules") k e

end Expreduce
