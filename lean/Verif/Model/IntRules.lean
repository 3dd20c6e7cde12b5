import Verif.Model.SolveRules

/-!
# Integration rules

Rules of `/repo/expreduce/resources/rubi/1.1.1 Linear binomial products.m` and `9.1 Integrand simplification rules.m` for
`Rubi`Int[u, x]`, which `Integrate` calls (`resources/calculus.m:78-89`). An assignment `Int[...] := ...` evaluates the arguments on its left side, so
`1/x_` is stored as `Power[x_, -1]`, and a negative power of a product as the product of the powers (`resources/power.m:55, 61`). The names of
the rules are in the context ``Rubi`Private` ``, which is written ``Private` `` here; the order of the terms and factors on the left sides is that of
the source, not the canonical one. In the right sides, nested products are written as one would read them. Not modelled: the other files of
rules, the utility functions (`FreeQ`, `EqQ`, `RemoveContent`, `ExpandIntegrand`, ...; what they are assumed to do is in `Spec/Integral.lean`), the order in
which the rules are tried, and the simplification of the result.
-/

namespace Expreduce
open Ex
namespace Shipped

/-- A rule `Int[integrand, x_Symbol] := result /; test1 && test2 && ...`; the tests are `FreeQ[{y1, y2, ...}, x]`, for the names `free`, followed by `tests`. -/
structure IntRule where
  integrand : Ex
  result : Ex
  free : List String
  tests : List Ex

/-- `Int[u, x]` -/
def intOf (u x : Ex) : Ex := .expr [.sym "Rubi`Int", u, x]
/-- `RemoveContent[u, x]` -/
def contentOf (u x : Ex) : Ex := .expr [.sym "Rubi`Private`RemoveContent", u, x]
/-- `ExpandIntegrand[u, x]` -/
def expandOf (u x : Ex) : Ex := .expr [.sym "Rubi`Private`ExpandIntegrand", u, x]
/-- `EqQ[a, b]` -/
def eqQ (a b : Ex) : Ex := .expr [.sym "Rubi`Private`EqQ", a, b]
/-- `NeQ[a, b]` -/
def neQ (a b : Ex) : Ex := .expr [.sym "Rubi`Private`NeQ", a, b]
/-- `EqQ[a]` -/
def eqQ0 (a : Ex) : Ex := .expr [.sym "Rubi`Private`EqQ", a]
/-- Another test of the package, such as `NegQ[a]`. -/
def testR (s : String) (l : List Ex) : Ex := .expr (.sym ("Rubi`Private`" ++ s) :: l)

/-- All tests of a rule. -/
def IntRule.allTests (r : IntRule) : List Ex :=
  (match r.free with
    | [] => []
    | [y] => [call "FreeQ" [var y, var "x"]]
    | ys => [call "FreeQ" [list (ys.map var), var "x"]]) ++ r.tests

/-- The rule. -/
def IntRule.rule (r : IntRule) : Ex × Ex :=
  def_ (intOf r.integrand (anyOf "x" "Symbol"))
    (match r.allTests with
      | [] => r.result
      | [t] => cond r.result t
      | ts => cond r.result (call "And" ts))

/-- `Int[u, x]` in a right side -/
def integral (u : Ex) : Ex := intOf u (var "x")
/-- `a + b*x` -/
def linear (a b : String) : Ex := add [var a, mul [var b, var "x"]]
/-- `a_ + b_.*x_` -/
def linearP (a b : String) : Ex := add [any a, mul [opt (any b), any "x"]]
/-- `a_. + b_.*x_` -/
def linearO (a b : String) : Ex := add [opt (any a), mul [opt (any b), any "x"]]
/-- `b*c - a*d` -/
def bcad : Ex := sub (mul [var "b", var "c"]) (mul [var "a", var "d"])
/-- `EqQ[b*c + a*d, 0]` -/
def opposite : Ex := eqQ (add [mul [var "b", var "c"], mul [var "a", var "d"]]) (.int 0)
/-- `m + 1` -/
def plus1 (m : String) : Ex := add [var m, .int 1]
/-- `1/e` -/
def recip (e : Ex) : Ex := dv (.int 1) e
/-- `m/n` in a right side -/
def quot (m n : Int) : Ex := dv (.int m) (.int n)

/-! ## `1.1.1 Linear binomial products.m` -/

/-- `1.1.1 Linear binomial products.m:11-12` -/
def intInv : IntRule := ⟨pow (any "x") (.int (-1)), call "Log" [var "x"], [], []⟩
/-- lines 15-17 -/
def intPow : IntRule := ⟨pow (any "x") (opt (any "m")), dv (pow (var "x") (plus1 "m")) (plus1 "m"), ["m"], [neQ (var "m") (.int (-1))]⟩
/-- lines 20-22 -/
def intLinInv : IntRule :=
  ⟨pow (linearP "a" "b") (.int (-1)), dv (call "Log" [contentOf (linear "a" "b") (var "x")]) (var "b"), ["a", "b"], []⟩
/-- lines 25-27 -/
def intLinPow : IntRule :=
  ⟨pow (linearO "a" "b") (any "m"), dv (pow (linear "a" "b") (plus1 "m")) (mul [var "b", plus1 "m"]), ["a", "b", "m"], [neQ (var "m") (.int (-1))]⟩
/-- lines 42-44 -/
def intTwoInvOpp : IntRule :=
  ⟨mul [pow (linearP "a" "b") (.int (-1)), pow (linearP "c" "d") (.int (-1))],
    integral (recip (add [mul [var "a", var "c"], mul [var "b", var "d", sq (var "x")]])), ["a", "b", "c", "d"], [opposite]⟩
/-- lines 47-49 -/
def intTwoInv : IntRule :=
  ⟨mul [pow (linearO "a" "b") (.int (-1)), pow (linearO "c" "d") (.int (-1))],
    sub (mul [dv (var "b") bcad, integral (recip (linear "a" "b"))]) (mul [dv (var "d") bcad, integral (recip (linear "c" "d"))]),
    ["a", "b", "c", "d"], [neQ bcad (.int 0)]⟩
/-- lines 52-54 -/
def intTwoPow : IntRule :=
  ⟨mul [pow (linearO "a" "b") (opt (any "m")), pow (linearO "c" "d") (any "n")],
    dv (mul [pow (linear "a" "b") (plus1 "m"), pow (linear "c" "d") (plus1 "n")]) (mul [bcad, plus1 "m"]),
    ["a", "b", "c", "d", "m", "n"], [neQ bcad (.int 0), eqQ (add [var "m", var "n", .int 2]) (.int 0), neQ (var "m") (.int (-1))]⟩
/-- lines 57-59 -/
def intSameUp : IntRule :=
  ⟨mul [pow (linearP "a" "b") (any "m"), pow (linearP "c" "d") (any "m")],
    add [dv (mul [var "x", pow (linear "a" "b") (var "m"), pow (linear "c" "d") (var "m")]) (add [mul [.int 2, var "m"], .int 1]),
      mul [dv (mul [.int 2, var "a", var "c", var "m"]) (add [mul [.int 2, var "m"], .int 1]),
        integral (mul [pow (linear "a" "b") (sub (var "m") (.int 1)), pow (linear "c" "d") (sub (var "m") (.int 1))])]],
    ["a", "b", "c", "d"], [opposite, testR "PositiveIntegerQ" [add [var "m", quot 1 2]]]⟩
/-- lines 62-64 -/
def intThreeHalves : IntRule :=
  ⟨mul [pow (linearP "a" "b") (.rat (-3) 2), pow (linearP "c" "d") (.rat (-3) 2)],
    dv (var "x") (mul [var "a", var "c", root2 (linear "a" "b"), root2 (linear "c" "d")]), ["a", "b", "c", "d"], [opposite]⟩
/-- lines 67-70 -/
def intSameDown : IntRule :=
  ⟨mul [pow (linearP "a" "b") (any "m"), pow (linearP "c" "d") (any "m")],
    add [dv (mul [.int (-1), var "x", pow (linear "a" "b") (plus1 "m"), pow (linear "c" "d") (plus1 "m")]) (mul [.int 2, var "a", var "c", plus1 "m"]),
      mul [dv (add [mul [.int 2, var "m"], .int 3]) (mul [.int 2, var "a", var "c", plus1 "m"]),
        integral (mul [pow (linear "a" "b") (plus1 "m"), pow (linear "c" "d") (plus1 "m")])]],
    ["a", "b", "c", "d"], [opposite, testR "NegativeIntegerQ" [add [var "m", quot 3 2]]]⟩
/-- lines 73-75 -/
def intSameMerge : IntRule :=
  ⟨mul [pow (linearP "a" "b") (opt (any "m")), pow (linearP "c" "d") (opt (any "m"))],
    integral (pow (add [mul [var "a", var "c"], mul [var "b", var "d", sq (var "x")]]) (var "m")), ["a", "b", "c", "d", "m"],
    [opposite, call "Or" [call "IntegerQ" [var "m"], call "And" [testR "PositiveQ" [var "a"], testR "PositiveQ" [var "c"]]]]⟩
/-- lines 93-95 -/
def intFiveQuarters : IntRule :=
  ⟨mul [pow (linearP "a" "b") (.rat (-5) 4), pow (linearP "c" "d") (.rat (-1) 4)],
    add [dv (.int (-2)) (mul [var "b", pow (linear "a" "b") (quot 1 4), pow (linear "c" "d") (quot 1 4)]),
      mul [var "c", integral (recip (mul [pow (linear "a" "b") (quot 5 4), pow (linear "c" "d") (quot 5 4)]))]],
    ["a", "b", "c", "d"], [opposite, testR "NegQ" [mul [sq (var "a"), sq (var "b")]]]⟩
/-- lines 98-100 -/
def intNineQuarters : IntRule :=
  ⟨mul [pow (linearP "a" "b") (.rat (-9) 4), pow (linearP "c" "d") (.rat (-1) 4)],
    sub (dv (.int (-4)) (mul [.int 5, var "b", pow (linear "a" "b") (quot 5 4), pow (linear "c" "d") (quot 1 4)]))
      (mul [dv (var "d") (mul [.int 5, var "b"]), integral (recip (mul [pow (linear "a" "b") (quot 5 4), pow (linear "c" "d") (quot 5 4)]))]),
    ["a", "b", "c", "d"], [opposite, testR "NegQ" [mul [sq (var "a"), sq (var "b")]]]⟩
/-- lines 103-106 -/
def intBothUp : IntRule :=
  ⟨mul [pow (linearP "a" "b") (any "m"), pow (linearP "c" "d") (any "n")],
    add [dv (mul [pow (linear "a" "b") (plus1 "m"), pow (linear "c" "d") (var "n")]) (mul [var "b", add [var "m", var "n", .int 1]]),
      mul [dv (mul [.int 2, var "c", var "n"]) (add [var "m", var "n", .int 1]),
        integral (mul [pow (linear "a" "b") (var "m"), pow (linear "c" "d") (sub (var "n") (.int 1))])]],
    ["a", "b", "c", "d"], [opposite, call "IntegerQ" [add [var "m", quot 1 2]], call "IntegerQ" [add [var "n", quot 1 2]],
      call "Less" [.int 0, var "m", var "n"]]⟩
/-- lines 109-112 -/
def intBothDown : IntRule :=
  ⟨mul [pow (linearP "a" "b") (any "m"), pow (linearP "c" "d") (any "n")],
    add [dv (mul [.int (-1), pow (linear "a" "b") (plus1 "m"), pow (linear "c" "d") (plus1 "n")]) (mul [.int 2, var "a", var "d", plus1 "m"]),
      mul [dv (add [var "m", var "n", .int 2]) (mul [.int 2, var "a", plus1 "m"]),
        integral (mul [pow (linear "a" "b") (plus1 "m"), pow (linear "c" "d") (var "n")])]],
    ["a", "b", "c", "d"], [opposite, call "IntegerQ" [add [var "m", quot 1 2]], call "IntegerQ" [add [var "n", quot 1 2]],
      call "Less" [var "m", var "n", .int 0]]⟩
/-- lines 115-118 (without the last test, a disjunction) -/
def intExpandPos : IntRule :=
  ⟨mul [pow (linearO "a" "b") (opt (any "m")), pow (linearO "c" "d") (opt (any "n"))],
    integral (expandOf (mul [pow (linear "a" "b") (var "m"), pow (linear "c" "d") (var "n")]) (var "x")),
    ["a", "b", "c", "d", "n"], [neQ bcad (.int 0), testR "IGtQ" [var "m", .int 0]]⟩
/-- lines 121-123 (without the last test) -/
def intExpandNeg : IntRule :=
  ⟨mul [pow (linearP "a" "b") (opt (any "m")), pow (linearO "c" "d") (opt (any "n"))],
    integral (expandOf (mul [pow (linear "a" "b") (var "m"), pow (linear "c" "d") (var "n")]) (var "x")),
    ["a", "b", "c", "d"], [neQ bcad (.int 0), testR "ILtQ" [var "m", .int 0], call "IntegerQ" [var "n"]]⟩
/-- lines 126-129 -/
def intQuotUp : IntRule :=
  ⟨mul [pow (linearO "c" "d") (any "n"), pow (linearO "a" "b") (.int (-1))],
    add [dv (pow (linear "c" "d") (var "n")) (mul [var "b", var "n"]),
      mul [dv bcad (var "b"), integral (dv (pow (linear "c" "d") (sub (var "n") (.int 1))) (linear "a" "b"))]],
    ["a", "b", "c", "d"], [neQ bcad (.int 0), testR "RationalQ" [var "n"], call "Greater" [var "n", .int 0]]⟩
/-- lines 132-135 -/
def intQuotDown : IntRule :=
  ⟨mul [pow (linearO "c" "d") (any "n"), pow (linearO "a" "b") (.int (-1))],
    add [dv (mul [.int (-1), pow (linear "c" "d") (plus1 "n")]) (mul [plus1 "n", bcad]),
      mul [dv (mul [var "b", plus1 "n"]) (mul [plus1 "n", bcad]), integral (dv (pow (linear "c" "d") (plus1 "n")) (linear "a" "b"))]],
    ["a", "b", "c", "d"], [neQ bcad (.int 0), testR "RationalQ" [var "n"], call "Less" [var "n", .int (-1)]]⟩

/-! ## `9.1 Integrand simplification rules.m` -/

/-- `9.1 Integrand simplification rules.m:29-31` -/
def intZeroConst : IntRule :=
  ⟨mul [opt (any "u"), pow (add [any "a", mul [opt (any "b"), pow (any "x") (opt (any "n"))]]) (opt (any "p"))],
    integral (mul [var "u", pow (mul [var "b", pow (var "x") (var "n")]) (var "p")]), ["a", "b", "n", "p"], [eqQ0 (var "a")]⟩
/-- lines 35-37 -/
def intZeroCoef : IntRule :=
  ⟨mul [opt (any "u"), pow (add [opt (any "a"), mul [opt (any "b"), pow (any "x") (opt (any "n"))]]) (opt (any "p"))],
    integral (mul [var "u", pow (var "a") (var "p")]), ["a", "b", "n", "p"], [eqQ0 (var "b")]⟩
/-- lines 59-61 -/
def intCollect : IntRule :=
  ⟨mul [opt (any "u"), pow (add [mul [opt (any "a"), any "v"], mul [opt (any "b"), any "v"], opt (any "w")]) (opt (any "p"))],
    integral (mul [var "u", pow (add [mul [add [var "a", var "b"], var "v"], var "w"]) (var "p")]), ["a", "b"],
    [call "Not" [call "FreeQ" [var "v", var "x"]]]⟩
/-- lines 71-73 -/
def intConst : IntRule := ⟨any "a", mul [var "a", var "x"], ["a"], []⟩
/-- lines 77-79 -/
def intScaled : IntRule :=
  ⟨mul [any "a", add [any "b", mul [opt (any "c"), any "x"]]],
    dv (mul [var "a", sq (add [var "b", mul [var "c", var "x"]])]) (mul [.int 2, var "c"]), ["a", "b", "c"], []⟩
/-- lines 83-84 -/
def intNeg : IntRule := ⟨mul [.int (-1), any "u"], mul [call "Identity" [.int (-1)], integral (var "u")], [], []⟩
/-- lines 94-96 (the name `b` of the test, which is local to `MatchQ`, is written as in the source) -/
def intFactor : IntRule :=
  ⟨mul [any "a", any "u"], mul [var "a", integral (var "u")], ["a"],
    [call "Not" [call "MatchQ" [var "u", call "Condition" [mul [any "b", any "v"], call "FreeQ" [var "b", var "x"]]]]]⟩
/-- lines 119-121 -/
def intMergePow : IntRule :=
  ⟨mul [opt (any "u"), pow (any "v") (opt (any "m")), pow (mul [any "b", any "v"]) (any "n")],
    mul [dv (.int 1) (pow (var "b") (var "m")), integral (mul [var "u", pow (mul [var "b", var "v"]) (add [var "m", var "n"])])], ["b", "n"],
    [call "IntegerQ" [var "m"]]⟩
/-- lines 161-163 (without the last test, a disjunction) -/
def intProportional : IntRule :=
  ⟨mul [opt (any "u"), pow (add [any "a", mul [opt (any "b"), any "v"]]) (opt (any "m")), pow (add [any "c", mul [opt (any "d"), any "v"]]) (opt (any "n"))],
    mul [pow (dv (var "b") (var "d")) (var "m"), integral (mul [var "u", pow (add [var "c", mul [var "d", var "v"]]) (add [var "m", var "n"])])],
    ["a", "b", "c", "d", "n"], [eqQ0 bcad, call "IntegerQ" [var "m"]]⟩

/-- The rules considered. -/
def intRules : List IntRule :=
  [intInv, intPow, intLinInv, intLinPow, intTwoInvOpp, intTwoInv, intTwoPow, intSameUp, intThreeHalves, intSameDown, intSameMerge, intFiveQuarters,
    intNineQuarters, intBothUp, intBothDown, intExpandPos, intExpandNeg, intQuotUp, intQuotDown, intZeroConst, intZeroCoef, intCollect, intConst,
    intScaled, intNeg, intFactor, intMergePow, intProportional]

end Shipped
end Expreduce
