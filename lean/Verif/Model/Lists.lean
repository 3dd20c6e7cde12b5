import Verif.Model.Match
import Verif.Model.Sort

/-!
# List functions (`/repo/expreduce/builtin_list.go`)

A function gets the parts of the call (head first) and returns `none` if the Go code panics (index out of range), otherwise the result;
`return this` is `some (.expr ps)`. Expressions are values here: sharing of parts between argument and result is not modelled.
Go `int64`s that come from a `big.Int` are `wrap64` of it (`big.Int.Int64` of the library keeps the low 64 bits); counters are unbounded.
-/

namespace Expreduce
open Ex

/-- `parts[i]` in Go: panics outside the slice. -/
def goIndex (ps : List Ex) (i : Int) : Option Ex := if i < 0 then none else ps[i.toNat]?

/-- `validateIndex` (`builtin_list.go:112-125`). -/
def validateIndex (i : Ex) (l : Nat) : Option Int :=
  match i with
  | .int n => if wrap64 n ≥ l then none else if wrap64 n < 0 then none else some (wrap64 n)
  | _ => none

/-- The end of a `Span` (`builtin_list.go:163-168`). -/
def spanEnd (e : Ex) (l : Nat) : Option Int := if e = S "All" then some ((l : Int) - 1) else validateIndex e l

/-- The range selections (`builtin_list.go:153-179`): first and last index. An index expression without parts makes the code panic; here it is
no range. -/
def indexRange (i : Ex) (l : Nat) : Option (Int × Int) :=
  match argsOf "System`Span" i with
  | some [a, b] => (validateIndex a (l + 1)).bind (fun s => (spanEnd b l).map (fun e => (s, e)))
  | some _ => none
  | none => if i = S "All" then some (1, (l : Int) - 1) else none

/-- The loop `builtin_list.go:182-188` from index `i`, `k` rounds. The outer `none` is a panic, the inner one a failure. -/
def spanLoop (f : Ex → Option (Option Ex)) (ps : List Ex) : Nat → Int → Option (Option (List Ex))
  | 0, _ => some (some [])
  | k + 1, i =>
    (goIndex ps i).bind (fun p => (f p).bind (fun r =>
      match r with
      | none => some none
      | some v => (spanLoop f ps k (i + 1)).map (fun q => q.map (v :: ·))))

/-- `applyIndex` (`builtin_list.go:127-192`), by recursion on the remaining indices. The outer `none` is a panic, the inner one is
`nil, false`. -/
def applyIndex : List Ex → Ex → Option (Option Ex)
  | [], e => some (some e)
  | .int n :: is, .expr ps =>
    match validateIndex (.int n) ps.length with
    | none => some none
    | some k => (goIndex ps k).bind (applyIndex is)
  | i :: is, .expr ps =>
    match indexRange i ps.length with
    | none => some none
    | some (lo, hi) =>
      (goIndex ps 0).bind (fun h =>
        (spanLoop (applyIndex is) ps (hi + 1 - lo).toNat lo).map (fun q => q.map (fun vs => .expr (h :: vs))))
  | _ :: _, _ => some none

/-- `Part` (`builtin_list.go:599-617`). -/
def partFn (ps : List Ex) : Option Ex :=
  match ps with
  | _ :: e :: is => (applyIndex is e).map (fun r => r.getD (.expr ps))
  | _ => some (.expr ps)

/-- `validatePadParams` (`builtin_list.go:86-110`): the parts of the list, the length, the padding. -/
def padParams : List Ex → Option (List Ex × Int × Ex)
  | [_, .expr l, .int n] => some (l, wrap64 n, .int 0)
  | [_, .expr l, .int n, x] => some (l, wrap64 n, x)
  | _ => none

/-- An element of the result of `PadRight` (`builtin_list.go:540-545`). -/
def padRightAt (l : List Ex) (x : Ex) (i : Int) : Option Ex := if i ≥ (l.length : Int) - 1 then some x else goIndex l (i + 1)

/-- An element of the result of `PadLeft` (`builtin_list.go:560-566`). -/
def padLeftAt (l : List Ex) (n : Int) (x : Ex) (i : Int) : Option Ex :=
  if i < n - l.length + 1 then some x else goIndex l (l.length - (n - i))

/-- `for i := 0; i < n; i++ { append(f i) }`. -/
def buildList (f : Int → Option Ex) : Nat → Int → Option (List Ex)
  | 0, _ => some []
  | k + 1, i => (f i).bind (fun v => (buildList f k (i + 1)).map (v :: ·))

/-- `PadRight` (`builtin_list.go:529-549`). -/
def padRightFn (ps : List Ex) : Option Ex :=
  match padParams ps with
  | none => some (.expr ps)
  | some (l, n, x) => (goIndex l 0).bind (fun h => (buildList (padRightAt l x) n.toNat 0).map (fun vs => .expr (h :: vs)))

/-- `PadLeft` (`builtin_list.go:550-572`). -/
def padLeftFn (ps : List Ex) : Option Ex :=
  match padParams ps with
  | none => some (.expr ps)
  | some (l, n, x) => (goIndex l 0).bind (fun h => (buildList (padLeftAt l n x) n.toNat 0).map (fun vs => .expr (h :: vs)))

/-- The loop of `DeleteDuplicates` (`builtin_list.go:688-696`); `seen` is the map of fingerprints. -/
def dedupLoop (seen : List UInt64) : List Ex → List Ex
  | [] => []
  | p :: ps => if seen.contains (hash p) then dedupLoop seen ps else p :: dedupLoop (hash p :: seen) ps

/-- `DeleteDuplicates` (`builtin_list.go:675-701`). -/
def deleteDuplicatesFn (ps : List Ex) : Option Ex :=
  match ps with
  | [_, .expr l] => (goIndex l 0).map (fun h => .expr (h :: dedupLoop [] l.tail))
  | _ => some (.expr ps)

/-- The parts of an expression (`part.(ExpressionInterface)`, `GetParts`). -/
def exprParts : Ex → Option (List Ex)
  | .expr l => some l
  | _ => none

/-- The loop of `Union` over the arguments (`builtin_list.go:414-427`), `h` being `firstHead` and `acc` the arguments collected in `allParts`:
`none` is a panic, `some none` is `return this`. -/
def collectArgs (h : Option Ex) (acc : List Ex) : List Ex → Option (Option (Option Ex × List Ex))
  | [] => some (some (h, acc))
  | p :: ps =>
    match exprParts p with
    | none => some none
    | some l =>
      (goIndex l 0).bind (fun h' =>
        match h with
        | none => collectArgs (some h') (acc ++ l.tail) ps
        | some h0 => if isSameQ h0 h' then collectArgs h (acc ++ l.tail) ps else some none)

/-- The loop that drops repeated neighbours (`builtin_list.go:430-436`). -/
def dropRepeats (last : Option Ex) : List Ex → List Ex
  | [] => []
  | p :: ps =>
    match last with
    | none => p :: dropRepeats (some p) ps
    | some q => if isSameQ q p then dropRepeats last ps else p :: dropRepeats (some p) ps

/-- `Union` (`builtin_list.go:403-440`). `sort` is `sort.Sort` on the arguments. -/
def unionFn (sort : List Ex → List Ex) (ps : List Ex) : Option Ex :=
  match ps with
  | [_] => some (.expr [S "List"])
  | ps =>
    (collectArgs none [] ps.tail).map (fun r =>
      match r with
      | some (some h, all) => .expr (h :: dropRepeats none (sort all))
      | _ => .expr ps)

/-- The heads are compared with the first one (`builtin_list.go:449-457, 489-497`): the argument lists, or `some none` for `return this`. -/
def sameHeads (h : Option Ex) : List Ex → Option (Option (List (List Ex)))
  | [] => some (some [])
  | p :: ps =>
    match exprParts p with
    | none => some none
    | some l =>
      (goIndex l 0).bind (fun h' =>
        match h with
        | none => (sameHeads (some h') ps).map (fun r => r.map (l.tail :: ·))
        | some h0 => if isSameQ h0 h' then (sameHeads h ps).map (fun r => r.map (l.tail :: ·)) else some none)

/-- The loop of `Complement` and `Intersection` over the first argument (`builtin_list.go:464-472, 513-521`): elements whose fingerprint passes the
test, each fingerprint once. -/
def keepLoop (ok : UInt64 → Bool) (added : List UInt64) : List Ex → List Ex
  | [] => []
  | p :: ps => if ok (hash p) && !added.contains (hash p) then p :: keepLoop ok (hash p :: added) ps else keepLoop ok added ps

/-- `Complement` (`builtin_list.go:441-476`). -/
def complementFn (sort : List Ex → List Ex) (ps : List Ex) : Option Ex :=
  match ps with
  | _ :: .expr (h :: l) :: rest =>
    (sameHeads (some h) rest).map (fun r =>
      match r with
      | none => .expr ps
      | some ls => .expr (h :: sort (keepLoop (fun x => !(ls.flatten.map hash).contains x) [] l)))
  | _ :: .expr [] :: _ => none
  | _ => some (.expr ps)

/-- The number of argument lists in which the fingerprint occurs (`builtin_list.go:498-510`: one count for each list). -/
def countIn (ls : List (List Ex)) (x : UInt64) : Nat := (ls.filter (fun l => (l.map hash).contains x)).length

/-- `Intersection` (`builtin_list.go:477-528`). -/
def intersectionFn (sort : List Ex → List Ex) (ps : List Ex) : Option Ex :=
  match ps with
  | _ :: .expr (h :: l) :: rest =>
    (sameHeads (some h) rest).map (fun r =>
      match r with
      | none => .expr ps
      | some ls => .expr (h :: sort (keepLoop (fun x => countIn (l :: ls) x == rest.length + 1) [] l)))
  | _ :: .expr [] :: _ => none
  | _ => some (.expr ps)

/-- A loop that matches every element against a pattern, with an empty `PDManager` each time (`builtin_list.go:360-372, 391-396`); `none` if a match
does not return normally. `f` says what is appended. -/
def matchLoop (m : Ex → Option (Bool × Option PM)) (f : Ex → Bool → Option PM → List Ex) : List Ex → Option (List Ex)
  | [] => some []
  | p :: ps => (m p).bind (fun r => (matchLoop m f ps).map (f p r.1 r.2 ++ ·))

/-- What `Cases` appends for an element (`builtin_list.go:361-371`). -/
def casesAdd (rhs : Option Ex) (p : Ex) (b : Bool) (pd : Option PM) : List Ex :=
  if b then [match rhs with | none => p | some e => replacePD e pd] else []

/-- `Cases` (`builtin_list.go:340-379`). -/
def casesFn (env : MEnv) (n : Nat) (ps : List Ex) : Option Ex :=
  match ps with
  | [_, .expr l, pat] =>
    match argsOf "System`Rule" pat with
    | none => (matchLoop (fun p => isMatchQ env n p pat []) (casesAdd none) l.tail).map (fun vs => .expr (S "List" :: vs))
    | some [lhs, rhs] => (matchLoop (fun p => isMatchQ env n p lhs []) (casesAdd (some rhs)) l.tail).map (fun vs => .expr (S "List" :: vs))
    | some _ => some (.expr [S "List"])
  | _ => some (.expr ps)

/-- What `DeleteCases` appends for an element (`builtin_list.go:392-395`). -/
def deleteAdd (p : Ex) (b : Bool) (_ : Option PM) : List Ex := if b then [] else [p]

/-- `DeleteCases` (`builtin_list.go:380-402`). -/
def deleteCasesFn (env : MEnv) (n : Nat) (ps : List Ex) : Option Ex :=
  match ps with
  | [_, .expr l, pat] =>
    (goIndex l 0).bind (fun h => (matchLoop (fun p => isMatchQ env n p pat []) deleteAdd l.tail).map (fun vs => .expr (h :: vs)))
  | _ => some (.expr ps)

/-- `memberQ` (`builtin_list.go:73-84`). -/
def memberLoop (m : Ex → Option (Bool × Option PM)) : List Ex → Option Bool
  | [] => some false
  | p :: ps => (m p).bind (fun r => if r.1 then some true else memberLoop m ps)

/-- `MemberQ` (`builtin_list.go:325-339`). An expression without parts panics (`GetParts()[1:]`). -/
def memberQFn (env : MEnv) (n : Nat) (ps : List Ex) : Option Ex :=
  match ps with
  | [_, .expr [], _] => none
  | [_, .expr (_ :: l), pat] => (memberLoop (fun p => isMatchQ env n p pat []) l).map (fun b => if b then S "True" else S "False")
  | [_, _, _] => some (S "False")
  | _ => some (.expr ps)

/-- `Append` (`builtin_list.go:638-653`). -/
def appendFn (ps : List Ex) : Option Ex :=
  match ps with
  | [_, .expr l, x] => some (.expr (l ++ [x]))
  | _ => some (.expr ps)

/-- `Prepend` (`builtin_list.go:657-671`). -/
def prependFn (ps : List Ex) : Option Ex :=
  match ps with
  | [_, .expr l, x] => (goIndex l 0).map (fun h => .expr (h :: x :: l.tail))
  | _ => some (.expr ps)

/-- The loop of `Join` (`builtin_list.go:785-798`), `res` being the parts of the result so far. -/
def joinLoop (ps0 : List Ex) (res : List Ex) : List Ex → Option Ex
  | [] => some (.expr res)
  | p :: ps =>
    match exprParts p with
    | none => some (.expr ps0)
    | some l =>
      match res with
      | [] => joinLoop ps0 l ps
      | h :: _ =>
        (goIndex l 0).bind (fun h' => if isSameQ h' h then joinLoop ps0 (res ++ l.tail) ps else some (.expr ps0))

/-- `Join` (`builtin_list.go:777-801`). -/
def joinFn (ps : List Ex) : Option Ex :=
  match ps with
  | _ :: p :: rest => joinLoop ps [] (p :: rest)
  | _ => some (.expr [S "List"])

/-- `Reverse` (`builtin_list.go:817-833`): the loop from the last index down to 1. -/
def reverseFn (ps : List Ex) : Option Ex :=
  match ps with
  | [_, .expr l] =>
    (goIndex l 0).bind (fun h => (buildList (fun i => goIndex l ((l.length : Int) - 1 - i)) (l.length - 1) 0).map (fun vs => .expr (h :: vs)))
  | _ => some (.expr ps)

end Expreduce
