import Verif.Model.Lists
import Verif.Model.Compare
import Verif.Model.Eval

/-!
# Functional programming (`/repo/expreduce/builtin_functional.go`) and structure of expressions (`builtin_expression.go`)

Conventions as in `Model/Lists.lean`: a function gets the parts of the call, `none` is a panic. Functions that call `es.Eval` have the type
of `Ctx.fn` (`Model/Eval.lean`).
-/

namespace Expreduce
open Ex

/-- `levelSpec` (`builtin_functional.go:64-70`); an invalid one is `none` in `parseLevelSpec`. -/
structure LevelSpec where
  /-- `isMinDepth` -/
  minDepth : Bool
  /-- `isMaxDepth` -/
  maxDepth : Bool
  /-- `min` -/
  lo : Int
  /-- `max` -/
  hi : Int
deriving DecidableEq

/-- `checkLevel` (`builtin_functional.go:76-87`). -/
def LevelSpec.checkLevel (s : LevelSpec) (level : Int) : Bool :=
  if !s.minDepth && !s.maxDepth then decide (level ≥ s.lo) && decide (level ≤ s.hi)
  else if !s.minDepth && s.maxDepth then decide (level ≥ s.lo)
  else if s.minDepth && !s.maxDepth then decide (level ≤ s.hi)
  else true

/-- `checkDepth` (`builtin_functional.go:89-100`). -/
def LevelSpec.checkDepth (s : LevelSpec) (depth : Int) : Bool :=
  if s.minDepth && s.maxDepth then decide (depth ≤ s.lo) && decide (depth ≥ s.hi)
  else if s.minDepth && !s.maxDepth then decide (depth ≤ s.lo)
  else if !s.minDepth && s.maxDepth then decide (depth ≥ s.hi)
  else true

/-- The constant `inf` (`builtin_functional.go:115`). -/
def levelInf : Int := 2 ^ 31 - 1

/-- The constant `ninf` (`builtin_functional.go:116`). -/
def levelNinf : Int := -2 ^ 31

/-- `parseNegativeInfinity` (`builtin_functional.go:46-61`). The template contains no reals, so the number format of `isEqual` is not used. -/
def isNegInfinity (e : Ex) : Bool :=
  match e with
  | .expr _ => isEqual (fun _ => "") e (.expr [S "Times", .int (-1), S "Infinity"]) == .yes
  | _ => false

/-- An element of a level list (`builtin_functional.go:174-207`): integer, `Infinity` or `-Infinity`. -/
def levelBound (e : Ex) : Option Int :=
  match e with
  | .int n => some (wrap64 n)
  | .sym s => if s = "System`Infinity" then some levelInf else none
  | e => if isNegInfinity e then some levelNinf else none

/-- The cases of a level list with two bounds (`builtin_functional.go:209-220`); negation of an `int64`. -/
def levelPair (a b : Int) : LevelSpec :=
  if 0 ≤ a ∧ 0 ≤ b then ⟨false, false, a, b⟩
  else if a < 0 ∧ b < 0 then ⟨true, true, wrap64 (-a), wrap64 (-b)⟩
  else if a < 0 ∧ 0 ≤ b then ⟨true, false, wrap64 (-a), b⟩
  else ⟨false, true, a, wrap64 (-b)⟩

/-- `parseLevelSpec` (`builtin_functional.go:104-225`). An expression without parts is invalid here (the code panics). -/
def parseLevelSpec (e : Ex) : Option LevelSpec :=
  match e with
  | .int n => if wrap64 n < 0 then some ⟨false, true, 1, wrap64 (-wrap64 n)⟩ else some ⟨false, false, 1, wrap64 n⟩
  | .sym s => if s = "System`Infinity" then some ⟨false, false, 1, levelInf⟩ else none
  | e =>
    if isNegInfinity e then some ⟨false, true, 1, levelInf⟩
    else
      match argsOf "System`List" e with
      | some [.int n] => if wrap64 n < 0 then some ⟨true, true, wrap64 (-wrap64 n), wrap64 (-wrap64 n)⟩ else some ⟨false, false, wrap64 n, wrap64 n⟩
      | some [.sym s] => if s = "System`Infinity" then some ⟨false, false, levelInf, levelInf⟩ else none
      | some [b] => if isNegInfinity b then some ⟨true, true, levelInf, levelInf⟩ else none
      | some [a, b] => (levelBound a).bind (fun x => (levelBound b).map (fun y => levelPair x y))
      | _ => none

/-- The function that a walker applies: expression, position, counter `generated`. -/
abbrev LevelFn := Ex → List Nat → Int → Option (Ex × Int)

mutual
/-- `expressionWalkMap` (`builtin_functional.go:229-282`); atoms are returned as they are (the code does not call it on them). -/
def walkMap (f : LevelFn) (lo hi : Int) (path : List Nat) : Ex → Int → Option (Ex × Int)
  | .expr ps, g => walkMapParts f lo hi path ps g
  | .sym s, g => some (.sym s, g)
  | .str s, g => some (.str s, g)
  | .int n, g => some (.int n, g)
  | .rat n d, g => some (.rat n d, g)
  | .flt v, g => some (.flt v, g)
  | .cplx r i, g => some (.cplx r i, g)
/-- The body of `expressionWalkMap`: the head is kept (`builtin_functional.go:238`). -/
def walkMapParts (f : LevelFn) (lo hi : Int) (path : List Nat) : List Ex → Int → Option (Ex × Int)
  | [], _ => none
  | h :: as, g => (walkMapArgs f lo hi path 1 as g).map (fun r => (.expr (h :: r.1), r.2))
/-- The loop `builtin_functional.go:240-279` from index `i`. -/
def walkMapArgs (f : LevelFn) (lo hi : Int) (path : List Nat) (i : Nat) : List Ex → Int → Option (List Ex × Int)
  | [], g => some ([], g)
  | a :: as, g =>
    (if (path.length : Int) + 1 < hi then walkMap f lo hi (path ++ [i]) a g else some (a, g)).bind (fun r =>
      (if (path.length : Int) + 1 ≥ lo then f r.1 (path ++ [i]) r.2 else some r).bind (fun q =>
        (walkMapArgs f lo hi path (i + 1) as q.2).map (fun t => (q.1 :: t.1, t.2))))
end

mutual
/-- `expressionWalkMapBackwards` (`builtin_functional.go:284-334`): new expression, depth, counter. On an atom: the atom, depth 1 (line 320). -/
def walkBack (f : LevelFn) (s : LevelSpec) (path : List Nat) : Ex → Int → Option (Ex × Int × Int)
  | .expr ps, g => walkBackParts f s path ps g
  | .sym n, g => some (.sym n, 1, g)
  | .str n, g => some (.str n, 1, g)
  | .int n, g => some (.int n, 1, g)
  | .rat n d, g => some (.rat n d, 1, g)
  | .flt v, g => some (.flt v, 1, g)
  | .cplx r i, g => some (.cplx r i, 1, g)
/-- The body: the head is kept, the depth is one more than the largest depth of an argument. -/
def walkBackParts (f : LevelFn) (s : LevelSpec) (path : List Nat) : List Ex → Int → Option (Ex × Int × Int)
  | [], _ => none
  | h :: as, g => (walkBackArgs f s path 1 as 1 g).map (fun r => (.expr (h :: r.1), r.2.1 + 1, r.2.2))
/-- The loop `builtin_functional.go:296-331` from index `i`; `m` is `currentMaxDepth`. -/
def walkBackArgs (f : LevelFn) (s : LevelSpec) (path : List Nat) (i : Nat) : List Ex → Int → Int → Option (List Ex × Int × Int)
  | [], m, g => some ([], m, g)
  | a :: as, m, g =>
    (walkBack f s (path ++ [i]) a g).bind (fun r =>
      (if s.checkLevel (if (exprParts a).isSome then (path.length : Int) + 1 else (path.length : Int) + 1 + 1) && s.checkDepth r.2.1
        then f r.1 (path ++ [i]) r.2.2 else some (r.1, r.2.2)).bind (fun q =>
        (walkBackArgs f s path (i + 1) as (if r.2.1 > m then r.2.1 else m) q.2).map (fun t => (q.1 :: t.1, t.2))))
end

/-- `wrapWithHead` (`builtin_functional.go:336-344`). -/
def wrapWithHead (h : Ex) : LevelFn := fun e _ g => some (.expr [h, e], g)

/-- `wrapWithHeadIndexed` (`builtin_functional.go:346-359`). -/
def wrapWithHeadIndexed (h : Ex) : LevelFn := fun e p g => some (.expr [h, e, .expr (S "List" :: p.map (fun (k : Nat) => Ex.int k))], g)

/-- `applyHead` (`builtin_functional.go:361-376`). An expression without parts panics. -/
def applyHead (h : Ex) : LevelFn := fun e _ g =>
  match e with
  | .expr [] => none
  | .expr (_ :: as) => some (.expr (h :: as), g)
  | e => some (e, g)

/-- `countFunctionLevelSpec` (`builtin_list.go`, `functional`): the expression itself; matches are counted. -/
def countStep (env : MEnv) (n : Nat) (pat : Ex) : LevelFn := fun e _ g => (isMatchQ env n e pat []).map (fun r => (e, if r.1 then g + 1 else g))

/-- `levelSpecOptimizationStrategy` (`builtin_functional.go:378-384`). -/
inductive LevelOpt where
  | unoptimized
  | map
  | apply
deriving DecidableEq

/-- The optimised two-argument form (`builtin_functional.go:408-437`) on `[h, f, e]`; `ev` is `es.Eval`. -/
def levelSimple (opt : LevelOpt) (ev : Ex → Option Ex) (h f e : Ex) : Option Ex :=
  match opt with
  | .unoptimized => some (.expr [h, f, e])
  | .map =>
    match e with
    | .expr [] => none
    | .expr (g :: as) => some (.expr (g :: as.map (fun a => .expr [f, a])))
    | e => some e
  | .apply =>
    match f, e with
    | .sym _, .expr [] => none
    | .sym s, .expr (_ :: as) => ev (.expr (.sym s :: as))
    | _, e => some e

/-- `exOrGenerated` (`builtin_functional.go:386-395`). -/
def exOrGenerated (gen : Bool) (r : Ex × Int) : Ex := if gen then .int r.2 else r.1

/-- The part of `levelSpecFunction` behind the choice of the arguments (`builtin_functional.go:459-518`). -/
def levelWalk (f : LevelFn) (gen : Bool) (s : LevelSpec) (e : Ex) : Option Ex :=
  match e with
  | .expr ps =>
    if s.lo = 0 ∧ s.hi = 0 then (f e [] 0).map (exOrGenerated gen)
    else if !s.minDepth && !s.maxDepth then
      (walkMapParts f s.lo s.hi [] ps 0).bind (fun r =>
        if s.checkLevel 0 && s.checkDepth 0 then (f r.1 [] r.2).map (exOrGenerated gen) else some (exOrGenerated gen r))
    else
      (walkBackParts f s [] ps 0).bind (fun r =>
        if s.checkLevel 0 && s.checkDepth r.2.1 then (f r.1 [] r.2.2).map (exOrGenerated gen) else some (exOrGenerated gen (r.1, r.2.2)))
  | e => if s.checkLevel 0 && s.checkDepth 0 then (f e [] 0).map (exOrGenerated gen) else some (exOrGenerated gen (e, 0))

/-- `levelSpecFunction` (`builtin_functional.go:397-520`): `first` is `leveledExprIsFirst`, `gen` is `returnGenerated`. -/
def levelSpecFunction (f : Ex → LevelFn) (opt : LevelOpt) (gen first : Bool) (ev : Ex → Option Ex) (ps : List Ex) : Option Ex :=
  match ps with
  | [h, a, b] => levelSimple opt ev h a b
  | [_, a, b, sp] =>
    match parseLevelSpec sp with
    | none => some (.expr ps)
    | some s => if first then levelWalk (f b) gen s a else levelWalk (f a) gen s b
  | _ => some (.expr ps)

/-- `Map` (`builtin_functional.go:540-548`). -/
def mapFn := levelSpecFunction wrapWithHead .map false false
/-- `MapIndexed` (`builtin_functional.go:550-558`). -/
def mapIndexedFn := levelSpecFunction wrapWithHeadIndexed .map false false
/-- `Apply` (`builtin_functional.go:531-539`). -/
def applyFn := levelSpecFunction applyHead .apply false false
/-- `Count` (`builtin_list.go:807-815`). -/
def countFn (env : MEnv) (n : Nat) := levelSpecFunction (countStep env n) .unoptimized true true

/-- The loop of `FoldList` (`builtin_functional.go:582-598`). -/
def foldListLoop (f : Ex) (e : Ex) : List Ex → List Ex
  | [] => []
  | a :: as => .expr [f, e, a] :: foldListLoop f (.expr [f, e, a]) as

/-- `FoldList` (`builtin_functional.go:560-603`). -/
def foldListFn (ps : List Ex) : Option Ex :=
  match ps with
  | [_, f, x, .expr l] => (goIndex l 0).map (fun h => .expr (h :: x :: foldListLoop f x l.tail))
  | _ => some (.expr ps)

/-- The loop of `NestList` (`builtin_functional.go:626-633`), `k` rounds. -/
def nestListLoop (f : Ex) (e : Ex) : Nat → List Ex
  | 0 => []
  | k + 1 => .expr [f, e] :: nestListLoop f (.expr [f, e]) k

/-- `NestList` (`builtin_functional.go:606-637`). -/
def nestListFn (ps : List Ex) : Option Ex :=
  match ps with
  | [_, f, x, .int n] => if wrap64 n < 0 then some (.expr ps) else some (.expr (S "List" :: x :: nestListLoop f x (wrap64 n).toNat))
  | _ => some (.expr ps)

/-- `Array` (`builtin_functional.go:775-797`). A second argument that is no integer is returned (line 796). -/
def arrayFn (ps : List Ex) : Option Ex :=
  match ps with
  | [_, f, .int n] => some (.expr (S "List" :: (List.range (wrap64 n).toNat).map (fun k => .expr [f, .int (k + 1)])))
  | [_, _, x] => some x
  | _ => some (.expr ps)

/-- The loop of `FixedPoint` (`builtin_functional.go:766-770`), at most `k` rounds. -/
def fixedPointLoop (f : Ex) (ev : Evaluator) : Nat → EState → Ex → Ex → Res (EState × Ex)
  | 0, _, _, _ => .stuck
  | k + 1, st, curr, next =>
    if isSameQ curr next then .ok (st, next)
    else (ev st (.expr [f, next])).bind (fun r => fixedPointLoop f ev k r.1 next r.2)

/-- `FixedPoint` (`builtin_functional.go:758-773`). -/
def fixedPointFn (k : Nat) (ev : Evaluator) (st : EState) (ps : List Ex) : Res (EState × Ex) :=
  match ps with
  | [_, f, x] => (ev st (.expr [f, x])).bind (fun r => fixedPointLoop f ev k r.1 x r.2)
  | _ => .ok (st, .expr ps)

/-- The arguments of the test of `NestWhileList` (`builtin_functional.go:716-722`): the last `m` results, all if `m` is negative. -/
def testArgs (m : Int) (vs : List Ex) : List Ex := if 0 ≤ m then vs.drop (((vs.length : Int) - m).toNat) else vs

/-- The loop of `NestWhileList` (`builtin_functional.go:700-733`), at most `k` rounds: the expressions appended, the last one first. `vs` is
`evaluated`. -/
def nestWhileLoop (f test : Ex) (ev : Evaluator) (m max : Int) : Nat → EState → Int → Ex → List Ex → List Ex → Res (EState × List Ex)
  | 0, _, _, _, _, _ => .stuck
  | k + 1, st, i, e, vs, acc =>
    (ev st (.expr [f, e])).bind (fun r =>
      (if i ≥ m then (ev r.1 (.expr (test :: testArgs m (vs ++ [r.2])))).bind (fun q => .ok (q.1, decide (q.2 = S "True"))) else .ok (r.1, true)).bind (fun c =>
        if c.2 && !(decide (i > max) && decide (max ≠ -1)) then nestWhileLoop f test ev m max k c.1 (i + 1) (.expr [f, e]) (vs ++ [r.2]) (.expr [f, e] :: acc)
        else .ok (c.1, .expr [f, e] :: acc)))

/-- The number of results given to the test (`builtin_functional.go:651-668`): `none` is `return this`. -/
def nestWhileM : List Ex → Option Int
  | _ :: _ :: _ :: _ :: .int m :: _ => if wrap64 m < 0 then none else some (wrap64 m)
  | _ :: _ :: _ :: _ :: .sym s :: _ => if s = "System`All" then some (-1) else none
  | _ :: _ :: _ :: _ :: _ :: _ => none
  | _ => some 1

/-- The largest number of applications (`builtin_functional.go:670-687`), `-1` for no limit. -/
def nestWhileMax : List Ex → Option Int
  | _ :: _ :: _ :: _ :: _ :: .int m :: _ => if wrap64 m < 0 then none else some (wrap64 m)
  | _ :: _ :: _ :: _ :: _ :: .sym s :: _ => if s = "System`Infinity" then some (-1) else none
  | _ :: _ :: _ :: _ :: _ :: _ :: _ => none
  | _ => some (-1)

/-- The number of further applications (`builtin_functional.go:689-695`). -/
def nestWhileMore : List Ex → Nat
  | _ :: _ :: _ :: _ :: _ :: _ :: .int n :: _ => (wrap64 n).toNat
  | _ => 0

/-- `NestWhileList` (`builtin_functional.go:640-755`). -/
def nestWhileListFn (k : Nat) (ev : Evaluator) (st : EState) (ps : List Ex) : Res (EState × Ex) :=
  if ps.length < 4 ∨ ps.length > 7 then .ok (st, .expr ps)
  else
    match ps, nestWhileM ps, nestWhileMax ps with
    | _ :: f :: x :: test :: _, some m, some max =>
      (ev st x).bind (fun r =>
        (nestWhileLoop f test ev m max k r.1 2 x [r.2] [x]).bind (fun q =>
          .ok (q.1, .expr (S "List" :: (q.2.reverse ++ nestListLoop f (q.2.headD x) (nestWhileMore ps))))))
    | _, _, _ => .ok (st, .expr ps)

/-- The loop of `Select` (`builtin_list.go:722-740`). -/
def selectLoop (f : Ex) (ev : Evaluator) (maxN : Int) (added : Int) (st : EState) : List Ex → Res (EState × List Ex)
  | [] => .ok (st, [])
  | p :: ps =>
    if added ≥ maxN then .ok (st, [])
    else
      (ev st (.expr [f, p])).bind (fun r =>
        if r.2 = S "True" then (selectLoop f ev maxN (added + 1) r.1 ps).bind (fun q => .ok (q.1, p :: q.2))
        else selectLoop f ev maxN added r.1 ps)

/-- `Select` on an expression (`builtin_list.go:716-743`). -/
def selectIn (f : Ex) (ev : Evaluator) (maxN : Int) (st : EState) (l : List Ex) : Res (EState × Ex) :=
  match l with
  | [] => .panic
  | h :: as => (selectLoop f ev maxN 0 st as).bind (fun r => .ok (r.1, .expr (h :: r.2)))

/-- `Select` (`builtin_list.go:700-745`). -/
def selectFn (ev : Evaluator) (st : EState) (ps : List Ex) : Res (EState × Ex) :=
  match ps with
  | [_, .expr l, f] => selectIn f ev (2 ^ 63 - 1) st l
  | [_, .expr l, f, .int n] => if wrap64 n < 0 then .ok (st, .expr ps) else selectIn f ev (wrap64 n) st l
  | _ => .ok (st, .expr ps)

/-- The loop of `Scan` (`builtin_list.go:757-774`). -/
def scanLoop (f : Ex) (ev : Evaluator) (st : EState) : List Ex → Res (EState × Ex)
  | [] => .ok (st, S "Null")
  | p :: ps =>
    (ev st (.expr [f, p])).bind (fun r =>
      match r.1.thrown with
      | some t => .ok (r.1, t)
      | none =>
        match argsOf "System`Return" r.2 with
        | some [] => .ok (r.1, S "Null")
        | some (v :: _) => .ok (r.1, v)
        | none => scanLoop f ev r.1 ps)

/-- `Scan` (`builtin_list.go:746-777`). -/
def scanFn (ev : Evaluator) (st : EState) (ps : List Ex) : Res (EState × Ex) :=
  match ps with
  | [_, _, .expr []] => .panic
  | [_, f, .expr (_ :: as)] => scanLoop f ev st as
  | _ => .ok (st, .expr ps)

mutual
/-- `calcDepth` (`builtin_expression.go:10-21`). -/
def calcDepth : Ex → Nat
  | .expr ps => calcDepthParts ps
  | .sym _ | .str _ | .int _ | .rat _ _ | .flt _ | .cplx _ _ => 1
/-- The head is not counted (`builtin_expression.go:15-20`). -/
def calcDepthParts : List Ex → Nat
  | [] => 1 + 1
  | _ :: as => calcDepthArgs 1 as + 1
/-- The loop `builtin_expression.go:17-19`. -/
def calcDepthArgs (m : Nat) : List Ex → Nat
  | [] => m
  | a :: as => calcDepthArgs (max m (calcDepth a)) as
end

mutual
/-- `leafCount` (`builtin_expression.go:42-51`). -/
def leafCount : Ex → Nat
  | .expr ps => leafCountList ps
  | .sym _ | .str _ | .int _ | .rat _ _ | .flt _ | .cplx _ _ => 1
/-- The loop over all parts. -/
def leafCountList : List Ex → Nat
  | [] => 0
  | p :: ps => leafCount p + leafCountList ps
end

mutual
/-- `flattenExpr` (`builtin_expression.go:23-40`) on an element: what is appended to `dst` for it, `h` being the head of the surrounding expression. -/
def flattenPart (h : Ex) (level : Int) : Ex → Option (List Ex)
  | .expr ps => if level > 0 then flattenSub h level ps else some [.expr ps]
  | .sym s => some [.sym s]
  | .str s => some [.str s]
  | .int n => some [.int n]
  | .rat n d => some [.rat n d]
  | .flt v => some [.flt v]
  | .cplx r i => some [.cplx r i]
/-- A compound element (`builtin_expression.go:33-38`). -/
def flattenSub (h : Ex) (level : Int) : List Ex → Option (List Ex)
  | [] => none
  | h' :: as => if isSameQ h h' then flattenArgs h' (level - 1) as else some [.expr (h' :: as)]
/-- The loop `builtin_expression.go:30-39`. -/
def flattenArgs (h : Ex) (level : Int) : List Ex → Option (List Ex)
  | [] => some []
  | a :: as => (flattenPart h level a).bind (fun l => (flattenArgs h level as).map (l ++ ·))
end

/-- `Flatten` on an expression (`builtin_expression.go:182-188`). -/
def flattenIn (level : Int) (l : List Ex) : Option Ex :=
  match l with
  | [] => none
  | h :: as => (flattenArgs h level as).map (fun vs => .expr (h :: vs))

/-- `Flatten` (`builtin_expression.go:167-190`); further arguments are ignored. -/
def flattenFn (ps : List Ex) : Option Ex :=
  match ps with
  | [_, .expr l] => flattenIn 999999999999 l
  | _ :: .expr l :: .int n :: _ => flattenIn (wrap64 n) l
  | _ => some (.expr ps)

/-- `Length` (`builtin_expression.go:132-147`). -/
def lengthFn (ps : List Ex) : Option Ex :=
  match ps with
  | [_, .expr l] => some (.int ((l.length : Int) - 1))
  | [_, _] => some (.int 0)
  | _ => some (.expr ps)

end Expreduce
