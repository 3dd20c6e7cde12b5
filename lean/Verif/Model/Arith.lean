import Verif.Model.Order
import Verif.Model.SameQ

/-!
# Numbers: normalisation, folding of numeric arguments, like terms, integer powers

`/repo/expreduce/eval.go`, `/repo/expreduce/atoms/calculator.go`, `ex_rational.go`, `ex_complex.go`, `ex_real.go`,
`/repo/expreduce/builtin_arithmetic.go`, `/repo/expreduce/builtin_power.go`.
-/

namespace Expreduce

open Ex

/-- `evalRational` (`eval.go:270-310`). `big.Int.Div` of nonnegative numbers by a positive one is `Int.div`. -/
def evalRational (num den : Int) : Ex :=
  if num = 0 ∧ den = 0 then S "Indeterminate"
  else if den = 0 then S "ComplexInfinity"
  else if num = 0 then .int 0
  else
    let negateRes := (decide (num < 0)) != (decide (den < 0))
    let absNum : Int := num.natAbs
    let absDen : Int := den.natAbs
    let gcd : Int := Int.gcd absNum absDen
    let absNum := absNum / gcd
    let absDen := absDen / gcd
    if absDen = 1 then
      if !negateRes then .int absNum else .int (-absNum)
    else if !negateRes then .rat absNum absDen
    else .rat (-absNum) absDen

/-- `es.Eval` on a number with real value: integers and reals are returned as they are, rationals go
through `evalRational` (`eval.go:20-35`). -/
def evalReal : Ex → Ex
  | .rat n d => evalRational n d
  | e => e

/-- `evalComplex` (`eval.go:37-45`): evaluate both components, drop an exact zero imaginary part. The components
are numbers in every reachable state (`builtin_atoms.go:31-46`). `IsSameQ(Im, 0)` holds for the
integer 0 only. -/
def evalComplex (re im : Ex) : Ex :=
  if evalReal im = .int 0 then evalReal re else .cplx (evalReal re) (evalReal im)

/-- `es.Eval` on a number (`eval.go:20-35`). -/
def evalNumber : Ex → Ex
  | .rat n d => evalRational n d
  | .cplx re im => evalComplex re im
  | e => e

/-- `foldFn` (`atoms/calculator.go:5-12`). -/
inductive FoldFn where
  | add | mul
deriving DecidableEq, Repr

/-- `Integer.addI`, `Integer.mulI` (`atoms/ex_integer.go:88-96`). -/
def opInt : FoldFn → Int → Int → Int
  | .add, a, b => a + b
  | .mul, a, b => a * b

/-- `Rational.addR`, `Rational.mulR` (`atoms/ex_rational.go:105-125`): not reduced. -/
def opRat : FoldFn → Int × Int → Int × Int → Int × Int
  | .add, (n, d), (n', d') => (n * d' + d * n', d * d')
  | .mul, (n, d), (n', d') => (n * n', d * d')

/-- `Rational.addI`, `Rational.mulI` (`atoms/ex_rational.go:99-103, 114-116`). -/
def opRatInt : FoldFn → Int × Int → Int → Int × Int
  | .add, (n, d), i => (n + i * d, d)
  | .mul, (n, d), i => (n * i, d)

/-- `Flt.addF`, `Flt.mulF` (`atoms/ex_real.go:108-110, 120-122`): the exact result rounded to 53 bits. -/
def opFlt : FoldFn → Rat → Rat → Rat
  | .add, a, b => rnd53 (a + b)
  | .mul, a, b => rnd53 (a * b)

/-- `Rational.asBigFloat` (`atoms/ex_rational.go:88-97`): numerator and denominator are rounded first. -/
def ratToFlt (nd : Int × Int) : Rat := rnd53 (rnd53 nd.1 / rnd53 nd.2)

/-- The four accumulators of `ComputeNumericPart` (`atoms/calculator.go:85-88`); `none` is Go's `nil`. -/
structure Acc where
  i : Option Int := none
  r : Option (Int × Int) := none
  f : Option Rat := none
  c : Option (Ex × Ex) := none

/-- The operations on complex accumulators, which call `ComputeNumericPart` again. -/
structure COps where
  /-- `addReal`/`mulReal` -/
  real : FoldFn → Ex × Ex → Ex → Ex × Ex
  /-- `addC`/`mulC` -/
  comp : FoldFn → Ex × Ex → Ex × Ex → Ex × Ex

/-- `typedRealPart` (`atoms/calculator.go:14-79`). -/
def typedRealPart (o : COps) (fn : FoldFn) (a : Acc) : Option Ex :=
  match a.c with
  | some c =>
    let c := match a.f with | some f => o.real fn c (.flt f) | none => c
    let c := match a.r with | some r => o.real fn c (.rat r.1 r.2) | none => c
    let c := match a.i with | some i => o.real fn c (.int i) | none => c
    some (.cplx c.1 c.2)
  | none =>
    match a.f with
    | some f =>
      let f := match a.r with | some r => opFlt fn f (ratToFlt r) | none => f
      let f := match a.i with | some i => opFlt fn f (rnd53 i) | none => f
      some (.flt f)
    | none =>
      match a.r with
      | some r =>
        let r := match a.i with | some i => opRatInt fn r i | none => r
        some (.rat r.1 r.2)
      | none => a.i.map .int

/-- One iteration of the loop of `ComputeNumericPart` (`atoms/calculator.go:89-148`); `none` means the argument is
no number and the loop stops. -/
def accStep (o : COps) (fn : FoldFn) (a : Acc) : Ex → Option Acc
  | .int n => some { a with i := some (match a.i with | none => n | some m => opInt fn m n) }
  | .rat n d => some { a with r := some (match a.r with | none => (n, d) | some q => opRat fn q (n, d)) }
  | .flt v => some { a with f := some (match a.f with | none => v | some w => opFlt fn w v) }
  | .cplx re im =>
    some { a with c := some (match a.c with | none => (re, im) | some z => o.comp fn z (re, im)) }
  | _ => none

/-- The loop of `ComputeNumericPart` (`atoms/calculator.go:89-149`) over the arguments, starting at position `i`. The second
component is the position at which it stopped, `none` for Go's `-1`. -/
def accLoop (o : COps) (fn : FoldFn) : Acc → Nat → List Ex → Acc × Option Nat
  | a, _, [] => (a, none)
  | a, i, p :: ps =>
    match accStep o fn a p with
    | some a' => accLoop o fn a' (i + 1) ps
    | none => (a, some i)

/-- Go's `nil` stored into a component of a complex number (only if a component is no number, which no
constructor allows). -/
def nilEx : Ex := .sym "<nil>"

/-- The complex operations (`atoms/ex_complex.go:79-142`) in terms of the recursive calls of `ComputeNumericPart`. -/
def cOpsOf (cnp : FoldFn → List Ex → Option Ex) : COps where
  real fn z e :=
    match fn with
    | .add => ((cnp .add [z.1, e]).getD nilEx, z.2)
    | .mul => ((cnp .mul [z.1, e]).getD nilEx, (cnp .mul [z.2, e]).getD nilEx)
  comp fn z w :=
    match fn with
    | .add => ((cnp .add [z.1, w.1]).getD nilEx, (cnp .add [z.2, w.2]).getD nilEx)
    | .mul =>
      let a := (cnp .mul [z.1, w.1]).getD nilEx
      let b := (cnp .mul [.int (-1), z.2, w.2]).getD nilEx
      let cc := (cnp .mul [z.1, w.2]).getD nilEx
      let d := (cnp .mul [z.2, w.1]).getD nilEx
      ((cnp .add [a, b]).getD nilEx, (cnp .add [cc, d]).getD nilEx)

/-- `ComputeNumericPart` (`atoms/calculator.go:81-150`) on the arguments (without the head). The first argument bounds the
nesting depth of complex numbers inside complex numbers; see `computeNumericPart`. -/
def cnpF : Nat → FoldFn → List Ex → Option Ex × Option Nat
  | 0, _, _ => (none, none)
  | n + 1, fn, args =>
    let o := cOpsOf (fun fn' l => (cnpF n fn' l).1)
    let r := accLoop o fn {} 1 args
    (typedRealPart o fn r.1, r.2)

/-- `ComputeNumericPart`. Components of complex numbers are integers, rationals or reals in every reachable state
(`builtin_atoms.go:31-46`, `builtin_power.go:314`), so complex operations call back once, on real numbers only: depth 2. -/
def computeNumericPart (fn : FoldFn) (args : List Ex) : Option Ex × Option Nat := cnpF 2 fn args

/-- `splitTerm` (`builtin_arithmetic.go:25-70`): coefficient and `Times` of the remaining factors. -/
def splitTerm (e : Ex) : Option (Ex × Ex) :=
  match e with
  | .sym s => some (.int 1, .expr [.sym "System`Times", .sym s])
  | .expr ps =>
    match ps with
    | .sym "System`Times" :: args =>
      match args with
      | [] => none
      | a :: rest =>
        if a.numberQ then
          if rest ≠ [] then some (a, .expr (.sym "System`Times" :: rest))
          else some (.int 1, .expr [.sym "System`Times", .expr ps])
        else some (.int 1, .expr (.sym "System`Times" :: a :: rest))
    | _ => some (.int 1, .expr [.sym "System`Times", .expr ps])
  | _ => none

/-- `Times[v]` is unwrapped to `v` (`builtin_arithmetic.go:96-99`). -/
def unwrapTimes : Ex → Ex
  | .expr [.sym "System`Times", v] => v
  | v => v

/-- `collectedToTerm` (`builtin_arithmetic.go:72-105`). `nilEx` if the coefficients contain no number (they always do). -/
def collectedToTerm (coeffs : List Ex) (vars fullPart : Ex) : Ex :=
  if coeffs.length = 1 then fullPart
  else
    let finalC := (computeNumericPart .add coeffs).1.getD nilEx
    let vars' := unwrapTimes vars
    if finalC = .int 1 then vars'
    else .expr [.sym "System`Times", finalC, vars']

/-- State of the loop of `collectTerms` (`builtin_arithmetic.go:113-116`): the terms collected so far and the pending group. -/
structure Coll where
  out : List Ex := []
  pending : Option (Ex × Ex × List Ex) := none   -- lastVars, lastFullPart, lastCoeffs

/-- One iteration (`builtin_arithmetic.go:117-137`); like terms are recognised by equal fingerprints. -/
def collStep (s : Coll) (part : Ex) : Coll :=
  match splitTerm part with
  | some (coeff, vars) =>
    match s.pending with
    | none => { s with pending := some (vars, part, [coeff]) }
    | some (lastVars, lastFull, coeffs) =>
      if hash vars = hash lastVars then { s with pending := some (lastVars, lastFull, coeffs ++ [coeff]) }
      else { out := s.out ++ [collectedToTerm coeffs lastVars lastFull], pending := some (vars, part, [coeff]) }
  | none => { s with out := s.out ++ [part] }

/-- `collectTerms` (`builtin_arithmetic.go:107-142`) on the arguments of `Plus`; returns the arguments of the result. -/
def collectTerms (args : List Ex) : List Ex :=
  let s := args.foldl collStep {}
  match s.pending with
  | some (v, f, cs) => s.out ++ [collectedToTerm cs v f]
  | none => s.out

/-- Whether the numeric part forces numerical evaluation of the rest (`builtin_arithmetic.go:249-256, 439-446`). -/
def forcesN : Option Ex → Bool
  | some (.flt _) => true
  | some (.cplx re im) => (match re with | .flt _ => true | _ => false) || (match im with | .flt _ => true | _ => false)
  | _ => false

/-- Last lines of `Plus`'s `legacyEvalFn` (`builtin_arithmetic.go:243-257`). -/
def plusFinish (toN : Ex → Ex) (n : Bool) (res : List Ex) : Ex :=
  match res with
  | [x] => x
  | _ => if n then toN (.expr (S "Plus" :: res)) else .expr (S "Plus" :: res)

/-- `Plus`'s `legacyEvalFn` (`builtin_arithmetic.go:214-258`) on the arguments. `toN` stands for `exprToN`
(`builtin_system.go:42-97`), used only if a machine real occurs. -/
def plusEval (toN : Ex → Ex) (args : List Ex) : Ex :=
  if args = [] then .int 0
  else
    let r := computeNumericPart .add args
    match r with
    | (some v, none) => v
    | (realPart, symStart) =>
      let res := match realPart, symStart with
        | some v, some i => (if v = .int 0 then [] else [v]) ++ args.drop (i - 1)
        | _, _ => args
      plusFinish toN (forcesN realPart) (collectTerms res)

/-- The arguments that make `0 * ...` indeterminate (`builtin_arithmetic.go:386-398`). -/
def isInfinite (e : Ex) : Bool :=
  e = S "Infinity" || e = S "ComplexInfinity" || e = S "Indeterminate"

/-- Last lines of `Times`'s `legacyEvalFn` (`builtin_arithmetic.go:406-447`). -/
def timesFinish (toN : Ex → Ex) (n : Bool) (res : List Ex) : Ex :=
  match res with
  | [x] => x
  | [.int (-1), .expr (.sym "System`Plus" :: addends)] =>
    .expr (S "Plus" :: addends.map (fun a => .expr [S "Times", a, .int (-1)]))
  | _ => if n then toN (.expr (S "Times" :: res)) else .expr (S "Times" :: res)

/-- `Times`'s `legacyEvalFn` (`builtin_arithmetic.go:364-448`) on the arguments. In the case `-1 * (Plus ...)` the Go code
evaluates the distributed sum before returning it; here it is returned (the evaluator loop evaluates a changed
result anyway, `eval.go:228-231`). -/
def timesEval (toN : Ex → Ex) (args : List Ex) : Ex :=
  if args = [] then .int 1
  else
    let r := computeNumericPart .mul args
    match r with
    | (some v, none) => v
    | (realPart, symStart) =>
      let res := match realPart, symStart with
        | some v, some i => (if v = .int 1 then [] else [v]) ++ args.drop (i - 1)
        | _, _ => args
      let zero := decide (realPart = some (.int 0))
      if zero && (args.drop ((symStart.getD 1) - 1)).any isInfinite then S "Indeterminate"
      else if zero then .int 0
      else
        timesFinish toN (forcesN realPart) res

/-- `Power`'s `legacyEvalFn` on two integers (`builtin_power.go:203-233, 318-342`). The result for a negative exponent is
`Rational[1, b^|p|]`, which the evaluator then normalises (`builtin_atoms.go:12-21`): `powerIntVal`. -/
def powerIntInt (base power : Int) : Ex :=
  if power = 1 then .int base
  else if power = 0 then (if base = 0 then S "Indeterminate" else .int 1)
  else if power > 0 ∧ base = 0 then .int base
  else if power > 0 then .int (base ^ power.toNat)
  else
    let newbase := base ^ power.natAbs
    if newbase = 1 then .int 1
    else if newbase = -1 then .int (-1)
    else .expr [S "Rational", .int 1, .int newbase]

/-- ``Rational``'s `legacyEvalFn` (`builtin_atoms.go:12-21`) applied to the result of `powerIntInt`. -/
def evalRationalExpr : Ex → Ex
  | .expr [.sym "System`Rational", .int n, .int d] => evalRational n d
  | e => e

/-- Value of `b^p` for integers after evaluation. -/
def powerIntVal (base power : Int) : Ex := evalRationalExpr (powerIntInt base power)

end Expreduce
