import Verif.Model.SameQ

/-!
# Comparison and boolean builtins (`/repo/expreduce/builtin_comparison.go`, `builtin_boolean.go`, the `IsEqual` methods)
-/

namespace Expreduce
open Ex

/-- The three verdict strings `"EQUAL_TRUE"`, `"EQUAL_FALSE"`, `"EQUAL_UNK"`. -/
inductive Verdict where
  | yes | no | unk
deriving DecidableEq, Repr

/-- The verdict `EQUAL_TRUE` or the other given one. -/
def vIf (b : Bool) (other : Verdict) : Verdict := if b then .yes else other

mutual
/-- The `IsEqual` methods: symbol `atoms/ex_symbol.go:66-81`, string `atoms/ex_string.go:27-36`, integer
`atoms/ex_integer.go:29-46`, rational `atoms/ex_rational.go:37-48`, real `atoms/ex_real.go:45-64`, complex
`atoms/ex_complex.go:40-50`, expression `atoms/ex_expression.go:147-167`. `fmt` is the library formatting with `%.14g`. -/
def isEqual (fmt : Rat → String) : Ex → Ex → Verdict
  | .sym x, .sym y =>
    if x = "System`False" ∧ y = "System`True" then .no
    else if x = "System`True" ∧ y = "System`False" then .no
    else vIf (x == y) .unk
  | .sym _, _ => .unk
  | .str x, .str y => vIf (x == y) .no
  | .str _, _ => .no
  | .int n, .int m => vIf (n == m) .no
  | .int n, .flt w => vIf (rnd53 n == w) .unk
  | .int _, _ => .unk
  | .rat n d, .rat n' d' => vIf (n == n' && d == d') .no
  | .rat _ _, _ => .no
  | .flt v, .flt w => vIf (fmt v == fmt w) .no
  | .flt v, .int m => vIf (rnd53 m == v) .unk
  | .flt _, _ => .unk
  | .cplx r i, .cplx r' i' => vIf (isEqual fmt r r' == .yes && isEqual fmt i i' == .yes) .no
  | .cplx _ _, _ => .no
  | .expr ps, .expr qs => if ps.length ≠ qs.length then .unk else vIf (isEqualParts fmt ps qs) .unk
  | .expr _, _ => .unk
/-- The loop `atoms/ex_expression.go:156-165`: whether all corresponding parts give `EQUAL_TRUE`. -/
def isEqualParts (fmt : Rat → String) : List Ex → List Ex → Bool
  | p :: ps, q :: qs => isEqual fmt p q == .yes && isEqualParts fmt ps qs
  | _, _ => true
end

/-- The symbols `True` and `False`. -/
def ofBool (b : Bool) : Ex := if b then S "True" else S "False"

/-- Loop of `Equal` (`builtin_comparison.go:140-147`): `none` if a verdict is unknown. -/
def equalLoop (fmt : Rat → String) (first : Ex) : Bool → List Ex → Option Bool
  | acc, [] => some acc
  | acc, a :: as =>
    match isEqual fmt first a with
    | .unk => none
    | v => equalLoop fmt first (acc && v == .yes) as

/-- ``Equal``'s `legacyEvalFn` (`builtin_comparison.go:135-152`) on the arguments; `none` means returned unevaluated. -/
def equalEval (fmt : Rat → String) : List Ex → Option Bool
  | [] => some true
  | first :: as => equalLoop fmt first true as

/-- ``Unequal``'s `legacyEvalFn` (`builtin_comparison.go:167-187`). -/
def unequalEval (fmt : Rat → String) : List Ex → Option Bool
  | [a, b] =>
    match isEqual fmt a b with
    | .unk => none
    | .yes => some false
    | .no => some true
  | _ => none

/-- ``SameQ``'s `legacyEvalFn` (`builtin_comparison.go:202-216`). -/
def sameQEval : List Ex → Bool
  | [] => true
  | first :: as => as.foldl (fun acc a => acc && isSameQ first a) true

/-- ``UnsameQ``'s `legacyEvalFn` (`builtin_comparison.go:231-244`). -/
def unsameQEval : List Ex → Bool
  | [] => true
  | a :: as => !(as.any (fun b => isSameQ a b)) && unsameQEval as

/-- ``N`` on a number: `exprToN` (`builtin_system.go:42-56, 96`). -/
def numToN : Ex → Ex
  | .int n => .flt (rnd53 n)
  | .rat n d => .flt (rnd53 (n / d))
  | e => e

/-- Loop of `comparisonFn` (`builtin_comparison.go:100-117`): `none` means returned unevaluated. `evN` is evaluation of `N[arg]`. -/
def comparisonLoop (evN : Ex → Ex) (expected : List Int) : Option Ex → List Ex → Option Bool
  | _, [] => some true
  | last, a :: as =>
    let curr := evN a
    if !curr.numberQ then none
    else
      match last with
      | some l => if !(expected.contains (exOrder l curr)) then some false else comparisonLoop evN expected (some curr) as
      | none => comparisonLoop evN expected (some curr) as

/-- `comparisonFn` (`builtin_comparison.go:98-119`) on the arguments. -/
def comparisonFn (evN : Ex → Ex) (expected : List Int) (args : List Ex) : Option Bool :=
  comparisonLoop evN expected none args

/-- ``Less`` (`builtin_comparison.go:281`). -/
def lessEval (evN : Ex → Ex) := comparisonFn evN [1]
/-- ``Greater`` (`builtin_comparison.go:298`). -/
def greaterEval (evN : Ex → Ex) := comparisonFn evN [-1]
/-- ``LessEqual`` (`builtin_comparison.go:315`). -/
def lessEqualEval (evN : Ex → Ex) := comparisonFn evN [1, 0]
/-- ``GreaterEqual`` (`builtin_comparison.go:332`). -/
def greaterEqualEval (evN : Ex → Ex) := comparisonFn evN [-1, 0]

/-- `booleanQ` (`qfunctions.go:82-88`). -/
def booleanQ (e : Ex) : Bool := e == S "False" || e == S "True"

/-- Loop of ``And`` (`builtin_boolean.go:20-29`) and ``Or`` (`49-58`): `stop` is the deciding value. Evaluates one argument after the
other in the state `σ`; returns `none` if a deciding argument was met, else the arguments kept. -/
def boolLoop {σ : Type} (ev : Ex → σ → Ex × σ) (stop : Ex) : List Ex → σ → Option (List Ex) × σ
  | [], s => (some [], s)
  | a :: as, s =>
    let r := ev a s
    if booleanQ r.1 then
      if r.1 = stop then (none, r.2)
      else boolLoop ev stop as r.2
    else
      let t := boolLoop ev stop as r.2
      (t.1.map (r.1 :: ·), t.2)

/-- Last lines of ``And`` and ``Or`` (`builtin_boolean.go:30-36, 59-65`). -/
def boolFinish (head : String) (stop other : Ex) : Option (List Ex) → Ex
  | none => stop
  | some [] => other
  | some [x] => x
  | some xs => .expr (S head :: xs)

/-- ``And``'s `legacyEvalFn` (`builtin_boolean.go:16-37`). -/
def andEval {σ : Type} (ev : Ex → σ → Ex × σ) (args : List Ex) (s : σ) : Ex × σ :=
  let r := boolLoop ev (S "False") args s
  (boolFinish "And" (S "False") (S "True") r.1, r.2)

/-- ``Or``'s `legacyEvalFn` (`builtin_boolean.go:45-66`). -/
def orEval {σ : Type} (ev : Ex → σ → Ex × σ) (args : List Ex) (s : σ) : Ex × σ :=
  let r := boolLoop ev (S "True") args s
  (boolFinish "Or" (S "True") (S "False") r.1, r.2)

/-- ``Not``'s `legacyEvalFn` (`builtin_boolean.go:70-81`) on the (evaluated) arguments. -/
def notEval : List Ex → Ex
  | [a] => if a = S "True" then S "False" else if a = S "False" then S "True" else .expr [S "Not", a]
  | args => .expr (S "Not" :: args)

/-- Position of the first argument that is no number (`builtin_comparison.go:47-52`), counted from 1. -/
def firstNonNumber (args : List Ex) : Nat := (args.takeWhile (·.numberQ)).length + 1

/-- Second half of `extremaFunction` for ``Max`` (`builtin_comparison.go:36-60`), after lists have been flattened and the
arguments sorted. With no number among the arguments the slice starts at the head (index 0). -/
def maxEval (args : List Ex) : Ex :=
  match args with
  | [] => .expr [S "Times", .int (-1), S "Infinity"]
  | [a] => a
  | _ => .expr (S "Max" :: (S "Max" :: args).drop (firstNonNumber args - 1))

/-- Second half of `extremaFunction` for ``Min`` (`builtin_comparison.go:36-67`). -/
def minEval (args : List Ex) : Ex :=
  match args with
  | [] => S "Infinity"
  | [a] => a
  | a :: _ =>
    if firstNonNumber args = 1 then .expr (S "Min" :: args)
    else .expr (S "Min" :: a :: (S "Min" :: args).drop (firstNonNumber args))

end Expreduce
