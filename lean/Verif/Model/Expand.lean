import Verif.Model.Replace
import Verif.Model.NumTheory
import Verif.Model.NumRules
import Verif.Model.ShippedRules

/-!
# `Expand` (`/repo/expreduce/resources/power.m:286-300`)

`Expand[a] := a //. expandRules`. A round of `ReplaceRepeated` replaces with the first rule, then with the second one (`Model/Replace`,
`rulesReplaceAll`), and evaluates the result. Of this evaluation the calls of the programs on the right sides are modelled here
(`finish`); the evaluation of everything else is the parameter `ev`.
-/

namespace Expreduce
open Ex Shipped

/-- The rule for a power of a sum (`power.m:295-296`). -/
def expandPower : Ex × Ex :=
  (pow (anyOf "s" "Plus") (tested (anyOf "n" "Integer") "Positive"),
    .expr [.sym "Private`genExpand", call "Apply" [S "List", var "s"],
      .expr [.sym "Private`possibleExponents", var "n", call "Length" [var "s"]]])

/-- The rule for a product with a sum (`power.m:297`). -/
def expandProduct : Ex × Ex :=
  (mul [any "c", anyOf "s" "Plus"], call "Map" [call "Function" [mul [var "c", call "Slot" [.int 1]]], var "s"])

/-- `possibleExponents[n, m]` (`power.m:286-288`): the partitions of `n` into at most `m` parts, padded with zeros on the right, and all
rearrangements of them. (`PadRight`, `Permutations`, `Flatten` on lists of numbers, see C35, C41, C76.) -/
def possibleExponents (n m : Nat) : List (List Nat) :=
  ((integerPartitions n m).map (fun q => q.take m ++ List.replicate (m - q.length) 0)).flatMap permutations

/-- The power `a^k` after evaluation: `a^1` is `a` (`builtin_power.go:206-215`), `a^0` is 1 (`power.m:10`), except for the integer 0
(`builtin_power.go:216-233`). -/
def powerEx (a : Ex) (k : Nat) : Ex :=
  if k = 1 then a else if k = 0 then (if a = .int 0 then S "Indeterminate" else .int 1) else pow a (.int k)

/-- `genVars` (`power.m:289`): `Power` is `Listable`, so the two lists are combined element by element. -/
def genVars (addends : List Ex) (exponents : List Nat) : Ex := .expr (S "Times" :: List.zipWith powerEx addends exponents)

/-- `genExpand` (`power.m:290-293`). A multinomial coefficient is an integer (C102). -/
def genExpand (addends : List Ex) (exponents : List (List Nat)) : Ex :=
  .expr (S "Plus" :: exponents.map (fun q => mul [.int (multinomial q).num, genVars addends q]))

/-- A list of nonnegative integers. -/
def natsOf : List Ex → Option (List Nat)
  | [] => some []
  | .int k :: l => if 0 ≤ k then (natsOf l).map (k.toNat :: ·) else none
  | _ => none

/-- A list of lists of nonnegative integers. -/
def natListsOf : List Ex → Option (List (List Nat))
  | [] => some []
  | .expr (.sym s :: ks) :: l =>
    if s = "System`List" then
      match natsOf ks, natListsOf l with
      | some a, some b => some (a :: b)
      | _, _ => none
    else none
  | _ => none

/-- A list of numbers as an expression. -/
def numList (l : List Nat) : Ex := .expr (S "List" :: l.map (fun k : Nat => Ex.int (k : Int)))

/-- The function `(c*#)&` applied to an argument (see C65; no slots in `c`). -/
def timesSlot (c a : Ex) : Ex := mul [c, a]

/-- The value of a call of one of the programs, whose arguments have been evaluated: `Apply` (C38), `Length` (C86),
`possibleExponents`, `genExpand`, `Map` (C38). -/
def runCall (ev : Ex → Ex) (ps : List Ex) : Ex :=
  match ps with
  | [.sym f, a, b] =>
    if f = "System`Apply" ∧ a = S "List" then
      match ev b with
      | .expr (_ :: as) => .expr (S "List" :: as)
      | e => e
    else if f = "Private`possibleExponents" then
      match a, b with
      | .int n, .int m => .expr (S "List" :: (possibleExponents n.toNat m.toNat).map numList)
      | _, _ => .expr ps
    else if f = "Private`genExpand" then
      match a, b with
      | .expr (.sym l :: as), .expr (.sym l' :: qs) =>
        if l = "System`List" ∧ l' = "System`List" then
          match natListsOf qs with
          | some es => genExpand as es
          | none => .expr ps
        else .expr ps
      | _, _ => .expr ps
    else if f = "System`Map" then
      match a with
      | .expr [.sym g, .expr [.sym t, c, .expr [.sym sl, .int 1]]] =>
        if g = "System`Function" ∧ t = "System`Times" ∧ sl = "System`Slot" then
          match ev b with
          | .expr (h :: as) => .expr (h :: as.map (timesSlot c))
          | e => e
        else .expr ps
      | _ => .expr ps
    else .expr ps
  | [.sym f, a] =>
    if f = "System`Length" then
      match ev a with
      | .expr (_ :: as) => .int as.length
      | _ => .int 0
    else .expr ps
  | _ => .expr ps

mutual
/-- The evaluation of the calls that the rules leave behind, innermost first. -/
def finish (ev : Ex → Ex) : Ex → Ex
  | .expr ps => runCall ev (finishL ev ps)
  | e => e
/-- The same for a list. -/
def finishL (ev : Ex → Ex) : List Ex → List Ex
  | [] => []
  | p :: ps => finish ev p :: finishL ev ps
end

/-- One round of `Expand` up to the final evaluation: both rules, one after the other, then the calls. -/
def expandRound (env : MEnv) (m : Nat) (ev : Ex → Ex) (e : Ex) : Option Ex :=
  (rulesReplaceAll env m [.expr [S "RuleDelayed", expandPower.1, expandPower.2], .expr [S "RuleDelayed", expandProduct.1, expandProduct.2]] e).map (finish ev)

/-- `Expand[e]` (`power.m:299`): rounds, each followed by the evaluation `ev` of its result, until nothing changes (at most `k`). -/
def expandRun (env : MEnv) (m : Nat) (ev : Ex → Ex) (k : Nat) (e : Ex) : Option Ex :=
  replaceRepeated (fun q => match q with
    | .expr [_, old, _] => (expandRound env m ev old).map ev
    | _ => none) (.sym "Private`expandRules") k e

end Expreduce
