import Verif.Model.Lists
import Verif.Model.Eval

/-!
# Arrays (`/repo/expreduce/builtin_matrix.go`, `qfunctions.go`) and distribution (`builtin_manip.go`)

Conventions as in `Model/Lists.lean`: a function gets the parts of the call, `none` is a panic. Lengths of lists are natural numbers (`int64` in the
code; no list in memory is longer).
-/

namespace Expreduce
open Ex

/-- The test of an element's dimensions against those of the element before it (`builtin_matrix.go:24-33`): `nextDims` is cut to one less than the
length of `currDims` if it is longer, then its entries must be those of `currDims`. For the first element (`i = 1`) there is no test. -/
def dimsAgree (next : Option (List Nat)) (curr : List Nat) : Bool :=
  match next with
  | none => true
  | some next => (if next.length > curr.length then next.take (curr.length - 1) else next).isPrefixOf curr

mutual
/-- `HeadExAssertion` and the recursive call (`builtin_matrix.go:19-23`) on an element: `some none` if it has another head. -/
def dimsElem (h : Ex) : Ex → Option (Option (List Nat))
  | .expr ps => dimsSub h ps
  | .sym _ | .str _ | .int _ | .rat _ _ | .flt _ | .cplx _ _ => some none
/-- The recursive call on a compound element; no parts: panic (`ex_expression.go:42`). -/
def dimsSub (h : Ex) : List Ex → Option (Option (List Nat))
  | [] => none
  | h' :: as => if isSameQ h h' then (dimsLoop h' none as).map (fun r => some (as.length :: r.getD [])) else some none
/-- The loop `builtin_matrix.go:18-35`; `next` is `nextDims` (`none` before the first element). The result is what is appended to `dims`, `some none` for
`return dims`. -/
def dimsLoop (h : Ex) (next : Option (List Nat)) : List Ex → Option (Option (List Nat))
  | [] => some (some (next.getD []))
  | a :: as => (dimsElem h a).bind (fun r =>
    match r with
    | none => some none
    | some curr => if dimsAgree next curr then dimsLoop h (some curr) as else some none)
end

/-- `dimensions` (`builtin_matrix.go:10-37`) of the expression with these parts. -/
def dimensions (ps : List Ex) : Option (List Nat) :=
  match ps with
  | [] => none
  | h :: as => (dimsLoop h none as).map (fun r => as.length :: r.getD [])

/-- `Dimensions` (`builtin_matrix.go:82-96`). -/
def dimensionsFn (ps : List Ex) : Option Ex :=
  match ps with
  | [_, .expr l] => (dimensions l).map (fun ds => .expr (S "List" :: ds.map (fun n : Nat => Ex.int n)))
  | [_, _] => some (.expr [S "List"])
  | _ => some (.expr ps)

/-- `vectorQ` (`qfunctions.go:40-52`). -/
def vectorQ (e : Ex) : Bool :=
  match argsOf "System`List" e with
  | some as => as.all (fun a => (argsOf "System`List" a).isNone)
  | none => false

/-- `matrixQ` (`qfunctions.go:54-60`). -/
def matrixQ (e : Ex) : Option Bool :=
  match argsOf "System`List" e with
  | some as => (dimensions (S "List" :: as)).map (fun ds => ds.length == 2)
  | none => some false

/-- `matrix2dGetElem` (`builtin_matrix.go:53-58`): panics if there is no row `i`, if it is an atom, or if it has no part `j`. -/
def getElem2 (l : List Ex) (i j : Nat) : Option Ex := (l[i]?).bind (fun r => (exprParts r).bind (fun ps => ps[j]?))

/-- `for i := i; ...; i++ { append(f(i)) }`, `k` rounds. -/
def collect (f : Nat → Option Ex) : Nat → Nat → Option (List Ex)
  | 0, _ => some []
  | k + 1, i => (f i).bind (fun v => (collect f k (i + 1)).map (v :: ·))

/-- `calcIJ` (`builtin_matrix.go:60-76`). -/
def calcIJ (i j inner : Nat) (a b : List Ex) : Option Ex :=
  (collect (fun k => (getElem2 a i k).bind (fun x => (getElem2 b k j).map (fun y => .expr [S "Times", x, y]))) inner 1).map (fun ts => .expr (S "Plus" :: ts))

/-- The product of two vectors (`builtin_matrix.go:117-134`). -/
def dotVectors (ps a b : List Ex) : Option Ex :=
  if a.length ≠ b.length then some (.expr ps)
  else (collect (fun i => (a[i + 1]?).bind (fun x => (b[i + 1]?).map (fun y => .expr [S "Times", x, y]))) (a.length - 1) 0).map (fun ts => .expr (S "Plus" :: ts))

/-- The product of two matrices (`builtin_matrix.go:138-168`). -/
def dotMatrices (ps a b : List Ex) : Option Ex :=
  (dimensions a).bind (fun da => (dimensions b).bind (fun db =>
    match da, db with
    | [aH, aW], [bH, bW] =>
      if aW ≠ bH then some (.expr ps)
      else (collect (fun i => (collect (fun j => calcIJ i j aW a b) bW 1).map (fun row => .expr (S "List" :: row))) aH 1).map (fun rows => .expr (S "List" :: rows))
    | _, _ => some (.expr ps)))

/-- `Dot` (`builtin_matrix.go:105-172`). Both `vectorQ` and both `matrixQ` are computed before they are used. -/
def dotFn (ps : List Ex) : Option Ex :=
  match ps with
  | [_, x] => some x
  | [_, x, y] =>
    if vectorQ x && vectorQ y then dotVectors ps ((exprParts x).getD []) ((exprParts y).getD [])
    else (matrixQ x).bind (fun mx => (matrixQ y).bind (fun my =>
      if mx && my then dotMatrices ps ((exprParts x).getD []) ((exprParts y).getD []) else some (.expr ps)))
  | _ => some (.expr ps)

/-- `Transpose` on a list (`builtin_matrix.go:183-200`). -/
def transposeIn (ps l : List Ex) : Option Ex :=
  (dimensions l).bind (fun ds =>
    match ds with
    | h :: w :: _ =>
      (collect (fun i => (collect (fun j => getElem2 l j i) h 1).map (fun row => .expr (S "List" :: row))) w 1).map (fun rows => .expr (S "List" :: rows))
    | _ => some (.expr ps))

/-- `Transpose` (`builtin_matrix.go:174-202`). -/
def transposeFn (ps : List Ex) : Option Ex :=
  match ps with
  | [_, x] =>
    match argsOf "System`List" x with
    | some as => transposeIn ps (S "List" :: as)
    | none => some (.expr ps)
  | _ => some (.expr ps)

/-- `distribute` (`builtin_manip.go:8-35`): what is appended to `res`, for the parts still to be distributed; `d` is the head of `res`. -/
def distribute (d : Ex) : List Ex → List Ex → Option (List Ex)
  | built, [] => some [.expr built]
  | built, .expr ps :: rest =>
    match ps with
    | [] => none
    | h :: as =>
      if hash h = hash d then (as.mapM (fun a => distribute d (built ++ [a]) rest)).map List.flatten
      else distribute d (built ++ [.expr ps]) rest
  | built, a :: rest => distribute d (built ++ [a]) rest

/-- `Distribute` (`builtin_manip.go:46-63`). -/
def distributeFn (ps : List Ex) : Option Ex :=
  match ps with
  | [_, .expr [], _] => none
  | [_, .expr (f :: as), d] => (distribute d [f] as).map (fun vs => .expr (d :: vs))
  | [_, x, _] => some x
  | _ => some (.expr ps)

/-- `Thread` (`builtin_list.go:619-632`); an expression without parts is returned (as in `Model/Eval.lean`). -/
def threadFn (ps : List Ex) : Option Ex :=
  match ps with
  | [_, .expr l] => some ((threadExpr l).getD (.expr l))
  | [_, x] => some x
  | _ => some (.expr ps)

end Expreduce
