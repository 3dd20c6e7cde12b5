import Verif.Model.Replace

/-!
# `ReplacePart` (`/repo/expreduce/builtin_replacement.go:69-105, 238-266`)

The positions on the way down are kept in one list object (`part`), which is changed in place: a number is appended for each level, overwritten
for each argument and removed at the end. The rules are matched against this object. A pattern variable bound to the whole list is bound to
the object itself (`pdreplace.go:15-18` returns it without copying), so where such a variable stands in a new value one finds the contents
the object has when everything is done, and then it is empty.
-/

namespace Expreduce
open Ex

/-- The object `part` while the position `path` is looked at. -/
def partList (path : List Nat) : Ex := .expr (S "List" :: path.map (fun k : Nat => Ex.int (k : Int)))

/-- The bindings as they are after the end of `replaceParts`: what was bound to `part` is an empty list. The other values are numbers and
sequences of numbers, which do not change. -/
def finalPD (part : Ex) : Option PM → Option PM := Option.map (List.map (fun b => (b.1, if b.2 = part then .expr [S "List"] else b.2)))

/-- `tryCondWithMatches` (`replace.go:91-136`): the condition is evaluated with the present contents (`cur`), what is returned has the final
ones (`fin`). Conditions inside `With` and `Module` are left out. -/
def tryCondFinal (env : MEnv) : Nat → Ex → Ex → Option (Option Ex)
  | 0, _, _ => none
  | n + 1, cur, fin =>
    match argsOf "System`Condition" cur, argsOf "System`Condition" fin with
    | none, _ => some (some fin)
    | some (body :: cond :: _), some (fbody :: _) => if env.isTrue cond then tryCondFinal env n body fbody else some none
    | _, _ => none

/-- The loop of `replace` (`replace.go:149-160`). -/
def finalLoop (env : MEnv) (n : Nat) (part rhs : Ex) : List (Option PM) → Option (Option Ex)
  | [] => some none
  | r :: rs =>
    match tryCondFinal env n (replacePD rhs r) (replacePD rhs (finalPD part r)) with
    | none => none
    | some (some res) => some (some res)
    | some none => finalLoop env n part rhs rs

/-- `rulesReplace` (`builtin_replacement.go:55-67`) applied to `part`. -/
def rulesFinal (env : MEnv) (m n : Nat) (part : Ex) : List Ex → Option (Option Ex)
  | [] => some none
  | r :: rs =>
    match ruleSides r with
    | none => none
    | some (lhs, rhs) =>
      match matchF env m part lhs [] with
      | none => none
      | some (ms, _) =>
        match finalLoop env n part rhs ms with
        | none => none
        | some (some res) => some (some res)
        | some none => rulesFinal env m n part rs

/-- The new value at a position, if there is one (`builtin_replacement.go:84-88`): on the first level the number alone is tried too. -/
def partValue (env : MEnv) (m n : Nat) (rules : List Ex) (path : List Nat) : Option (Option Ex) :=
  match rulesFinal env m n (partList path) rules with
  | none => none
  | some (some v) => some (some v)
  | some none => match path with
    | [i] => rulesReplace env (fun _ => none) m n (.int (i : Int)) rules
    | _ => some none

mutual
/-- `replaceParts` (`builtin_replacement.go:69-105`). Returning the old object if nothing was replaced does not change the value. -/
def replaceParts (env : MEnv) (m n : Nat) (rules : List Ex) (path : List Nat) : Ex → Option Ex
  | .expr (h :: as) => (replacePartsArgs env m n rules path 1 as).map (fun bs => .expr (h :: bs))
  | .expr [] => none
  | e => some e
/-- The loop over the arguments (`builtin_replacement.go:82-99`). -/
def replacePartsArgs (env : MEnv) (m n : Nat) (rules : List Ex) (path : List Nat) (i : Nat) : List Ex → Option (List Ex)
  | [] => some []
  | a :: as =>
    match partValue env m n rules (path ++ [i]) with
    | none => none
    | some (some v) => (replacePartsArgs env m n rules path (i + 1) as).map (v :: ·)
    | some none =>
      match replaceParts env m n rules (path ++ [i]) a with
      | none => none
      | some b => (replacePartsArgs env m n rules path (i + 1) as).map (b :: ·)
end

/-- `ReplacePart[e, {rules}]` (`builtin_replacement.go:239-265`); other calls are returned unchanged. (`replacement.m:206` turns
`ReplacePart[e, rule]` into this form.) -/
def replacePartFn (env : MEnv) (m n : Nat) : List Ex → Option Ex
  | [e, arg] => match argsOf "System`List" arg with
    | some rules => if rules.all (hasHead "System`Rule") then replaceParts env m n rules [] e else some (.expr [S "ReplacePart", e, arg])
    | none => some (.expr [S "ReplacePart", e, arg])
  | args => some (.expr (S "ReplacePart" :: args))

end Expreduce
