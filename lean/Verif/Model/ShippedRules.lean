import Verif.Model.Defs

/-!
# Rules that come with the interpreter

Rules of `/repo/expreduce/resources/power.m`, `arithmetic.m` and `trig.m`, in the form in which `SetDelayed` stores them
(`builtin_system.go:542-585`, `evalstate.go:471-599`): the parts of the left side are evaluated, so that `-x_` is `Times[-1, x_]`, `I` is
the number `Complex[0, 1]` and `1/2` the number `Rational[1, 2]`; the right side is as parsed: `a - b` is `Plus[a, Times[-1, b]]` and
`a/b` is `Times[a, Power[b, -1]]` (up to the nesting of signs). The names of the variables are in the context ``Private` `` (`evalstate.go:265`). Simplification: the
arguments of `Plus` and `Times` in left sides are in the order of the source (evaluation sorts them; their order does not matter for
matching an `Orderless` function).
-/

namespace Expreduce
open Ex
namespace Shipped

/-- A variable of a rule. -/
def var (x : String) : Ex := .sym ("Private`" ++ x)
/-- `x_` -/
def any (x : String) : Ex := .expr [S "Pattern", var x, .expr [S "Blank"]]
/-- `x_h` -/
def anyOf (x h : String) : Ex := .expr [S "Pattern", var x, .expr [S "Blank", S h]]
/-- `x___` -/
def many (x : String) : Ex := .expr [S "Pattern", var x, .expr [S "BlankNullSequence"]]
/-- `p ? t` -/
def tested (p : Ex) (t : String) : Ex := .expr [S "PatternTest", p, S t]
/-- `p` or the default value -/
def opt (p : Ex) : Ex := .expr [S "Optional", p]
/-- A function of `System`. -/
def call (s : String) (l : List Ex) : Ex := .expr (S s :: l)
/-- `Verbatim[Times][...]` -/
def exactTimes (l : List Ex) : Ex := .expr (.expr [S "Verbatim", S "Times"] :: l)
/-- A sum. -/
def add (l : List Ex) : Ex := call "Plus" l
/-- A product. -/
def mul (l : List Ex) : Ex := call "Times" l
/-- A power. -/
def pow (a b : Ex) : Ex := call "Power" [a, b]
/-- `-a` -/
def neg (a : Ex) : Ex := mul [.int (-1), a]
/-- `lhs := rhs` -/
def def_ (lhs rhs : Ex) : Ex × Ex := (held lhs, rhs)
/-- `rhs /; cond` -/
def cond (rhs c : Ex) : Ex := call "Condition" [rhs, c]
/-- Pi -/
def pi : Ex := S "Pi"
/-- E -/
def e : Ex := S "E"
/-- I -/
def i : Ex := S "I"
/-- The number I. -/
def iNum : Ex := .cplx (.int 0) (.int 1)

/-- Rules of `Times`. -/
def timesRules : List (Ex × Ex) := [
  -- arithmetic.m:125
  def_ (exactTimes [many "beg", pow (any "a") (opt (any "m")), pow (any "a") (opt (any "n")), many "end"])
    (cond (mul [var "beg", pow (var "a") (add [var "m", var "n"]), var "end"])
      (call "Or" [call "Not" [call "NumberQ" [var "a"]], call "Not" [call "NumberQ" [var "m"]], call "Not" [call "NumberQ" [var "n"]]])),
  -- arithmetic.m:131
  def_ (exactTimes [call "Rational" [.int 1, anyOf "a" "Integer"], many "inner", pow (anyOf "a" "Integer") (.expr [S "PatternTest", any "n", var "wouldntBeLessThanNegOne"]), many "end"])
    (mul [var "inner", pow (var "a") (add [var "n", .int (-1)]), var "end"]),
  -- arithmetic.m:132
  def_ (mul [pow (anyOf "den" "Integer") (.int (-1)), anyOf "num" "Integer", many "rest"]) (mul [call "Rational" [var "num", var "den"], var "rest"]),
  -- arithmetic.m:133
  def_ (mul [S "ComplexInfinity", many "rest"]) (S "ComplexInfinity"),
  -- arithmetic.m:134
  def_ (mul [pow (tested (anyOf "a" "Integer") "Negative") (anyOf "b" "Rational"), pow (anyOf "c" "Integer") (anyOf "d" "Rational"), many "rest"])
    (cond (mul [pow (.int (-1)) (var "b"), var "rest"]) (call "And" [call "Equal" [var "a", neg (var "c")], call "Equal" [var "b", neg (var "d")]])),
  -- arithmetic.m:135
  def_ (exactTimes [many "beg", pow (anyOf "a" "Integer") (anyOf "m" "Rational"), pow (anyOf "a" "Integer") (anyOf "n" "Rational"), many "end"])
    (mul [var "beg", pow (var "a") (add [var "m", var "n"]), var "end"]),
  -- arithmetic.m:140
  def_ (mul [call "Sin" [any "x"], pow (call "Cos" [any "x"]) (.int (-1)), many "rest"]) (mul [call "Tan" [var "x"], var "rest"]),
  -- arithmetic.m:141
  def_ (mul [call "Cos" [any "x"], pow (call "Sin" [any "x"]) (.int (-1)), many "rest"]) (mul [call "Cot" [var "x"], var "rest"]),
  -- trig.m:68
  def_ (mul [call "Cosh" [any "a"], pow (call "Csch" [any "a"]) (tested (anyOf "b" "Integer") "Positive"), many "rest"])
    (mul [call "Coth" [var "a"], pow (call "Csch" [var "a"]) (add [var "b", .int (-1)]), var "rest"])]

/-- Rules of `Power`. -/
def powerRules : List (Ex × Ex) := [
  -- power.m:3
  def_ (pow (pow (any "a") (anyOf "b" "Integer")) (anyOf "c" "Integer")) (pow (var "a") (mul [var "b", var "c"])),
  -- power.m:5
  def_ (pow (pow (any "a") (anyOf "b" "Symbol")) (anyOf "c" "Integer")) (pow (var "a") (mul [var "b", var "c"])),
  -- power.m:6
  def_ (pow (pow (any "a") (mul [anyOf "b" "Complex", anyOf "c" "Symbol"])) (anyOf "d" "Integer")) (pow (var "a") (mul [var "b", var "c", var "d"])),
  -- power.m:17
  def_ (pow (.int 1) (any "a")) (.int 1),
  -- power.m:32
  def_ (pow (any "b") (S "Infinity")) (S "Indeterminate"),
  -- power.m:56
  def_ (pow (mul [any "first", many "inner"]) (anyOf "pow" "Integer")) (mul [pow (var "first") (var "pow"), pow (mul [var "inner"]) (var "pow")]),
  -- power.m:59
  def_ (pow (call "Rational" [any "a", any "b"]) (.int (-1))) (call "Rational" [var "b", var "a"]),
  -- power.m:60
  def_ (pow (call "Rational" [any "a", any "b"]) (tested (anyOf "e" "Integer") "Positive")) (call "Rational" [pow (var "a") (var "e"), pow (var "b") (var "e")]),
  -- power.m:61
  def_ (pow (.int (-1)) (.rat (-1) 2)) (neg i),
  -- power.m:62
  def_ (pow (.int (-1)) (.rat 1 2)) i,
  -- power.m:63
  def_ (pow (call "Rational" [tested (any "a") "Positive", tested (any "b") "Positive"]) (.rat 1 2))
    (mul [pow (var "a") (mul [.int 1, pow (.int 2) (.int (-1))]), pow (var "b") (mul [.int (-1), pow (.int 2) (.int (-1))])]),
  -- power.m:64
  def_ (pow (pow (any "x") (anyOf "y" "Rational")) (.int (-1))) (pow (var "x") (neg (var "y"))),
  -- power.m:80
  def_ (pow e (call "Log" [any "a"])) (var "a"),
  -- trig.m:50
  def_ (pow (call "Tan" [any "x"]) (.int (-1))) (call "Cot" [var "x"]),
  -- trig.m:57
  def_ (pow (call "Cot" [any "x"]) (.int (-1))) (call "Tan" [var "x"])]

/-- Rules of `Log`. -/
def logRules : List (Ex × Ex) := [
  -- power.m:231
  def_ (call "Log" [tested (anyOf "n" "Integer") "Negative"]) (add [mul [i, pi], call "Log" [neg (var "n")]]),
  -- power.m:232
  def_ (call "Log" [S "ComplexInfinity"]) (S "Infinity"),
  -- power.m:233
  def_ (call "Log" [S "Infinity"]) (S "Infinity"),
  -- power.m:236
  def_ (call "Log" [.int 0]) (neg (S "Infinity")),
  -- power.m:237
  def_ (call "Log" [.int 1]) (.int 0),
  -- power.m:238
  def_ (call "Log" [e]) (.int 1)]

/-- Rules of `Sqrt`. -/
def sqrtRules : List (Ex × Ex) := [
  -- power.m:253
  def_ (call "Sqrt" [tested (anyOf "a" "Integer") "Negative"]) (mul [i, call "Sqrt" [neg (var "a")]])]

/-- `n/d` times Pi. -/
def piTimes (n d : Int) : Ex := mul [.rat n d, pi]
/-- `Sqrt[3]/2` -/
def sqrt3half : Ex := mul [call "Sqrt" [.int 3], pow (.int 2) (.int (-1))]

/-- Rules of `Sin`. -/
def sinRules : List (Ex × Ex) := [
  -- trig.m:2-8
  def_ (call "Sin" [.int 0]) (.int 0),
  def_ (call "Sin" [mul [.int (-1), any "x"]]) (neg (call "Sin" [var "x"])),
  def_ (call "Sin" [anyOf "p" "Plus"]) (cond (neg (call "Sin" [neg (var "p")]))
    (call "Or" [call "MatchQ" [call "Part" [var "p", .int 1], mul [.int (-1), .expr [S "Blank"]]], call "Less" [call "Part" [var "p", .int 1], .int 0]])),
  def_ (call "Sin" [tested (anyOf "x" "Integer") "Negative"]) (neg (call "Sin" [neg (var "x")])),
  def_ (call "Sin" [pi]) (.int 0),
  def_ (call "Sin" [mul [anyOf "n" "Integer", pi]]) (.int 0),
  def_ (call "Sin" [mul [iNum, any "a"]]) (mul [i, call "Sinh" [var "a"]]),
  -- trig.m:9-19
  def_ (call "Sin" [piTimes (-5) 2]) (.int (-1)),
  def_ (call "Sin" [piTimes (-3) 2]) (.int 1),
  def_ (call "Sin" [piTimes (-2) 3]) (mul [neg (call "Sqrt" [.int 3]), pow (.int 2) (.int (-1))]),
  def_ (call "Sin" [piTimes (-1) 2]) (.int (-1)),
  def_ (call "Sin" [piTimes (-1) 3]) (neg sqrt3half),
  def_ (call "Sin" [piTimes 1 4]) (mul [.int 1, pow (call "Sqrt" [.int 2]) (.int (-1))]),
  def_ (call "Sin" [piTimes 1 3]) sqrt3half,
  def_ (call "Sin" [piTimes 1 2]) (.int 1),
  def_ (call "Sin" [piTimes 2 3]) sqrt3half,
  def_ (call "Sin" [piTimes 3 2]) (.int (-1)),
  def_ (call "Sin" [piTimes 5 2]) (.int 1),
  -- trig.m:20
  def_ (call "Sin" [S "Indeterminate"]) (S "Indeterminate")]

/-- Rules of `Cos`. -/
def cosRules : List (Ex × Ex) := [
  -- trig.m:26-29
  def_ (call "Cos" [.int 0]) (.int 1),
  def_ (call "Cos" [pi]) (.int (-1)),
  def_ (call "Cos" [mul [tested (anyOf "n" "Integer") "EvenQ", pi]]) (.int 1),
  def_ (call "Cos" [mul [tested (anyOf "n" "Integer") "OddQ", pi]]) (.int (-1)),
  -- trig.m:30-39
  def_ (call "Cos" [piTimes (-5) 2]) (.int 0),
  def_ (call "Cos" [piTimes (-3) 2]) (.int 0),
  def_ (call "Cos" [piTimes (-1) 2]) (.int 0),
  def_ (call "Cos" [piTimes (-1) 3]) (mul [.int 1, pow (.int 2) (.int (-1))]),
  def_ (call "Cos" [piTimes 1 4]) (mul [.int 1, pow (call "Sqrt" [.int 2]) (.int (-1))]),
  def_ (call "Cos" [piTimes 1 3]) (mul [.int 1, pow (.int 2) (.int (-1))]),
  def_ (call "Cos" [piTimes 1 2]) (.int 0),
  def_ (call "Cos" [piTimes 2 3]) (mul [.int (-1), pow (.int 2) (.int (-1))]),
  def_ (call "Cos" [piTimes 3 2]) (.int 0),
  def_ (call "Cos" [piTimes 5 2]) (.int 0),
  -- trig.m:40-42
  def_ (call "Cos" [mul [iNum, any "a"]]) (call "Cosh" [var "a"]),
  def_ (call "Cos" [mul [.int (-1), any "x"]]) (call "Cos" [var "x"]),
  def_ (call "Cos" [tested (anyOf "x" "Integer") "Negative"]) (call "Cos" [neg (var "x")]),
  -- trig.m:44
  def_ (call "Cos" [S "Indeterminate"]) (S "Indeterminate")]

/-- Rules of `Tan`, `Cot`, `Sec`, `ArcTan`. -/
def tanRules : List (Ex × Ex) := [
  -- trig.m:51
  def_ (call "Tan" [add [any "a", piTimes 1 2]]) (call "Cot" [neg (var "a")]),
  -- trig.m:53
  def_ (call "Tan" [call "ArcTan" [any "a"]]) (var "a")]
/-- Rules of `Cot`. -/
def cotRules : List (Ex × Ex) := [
  -- trig.m:58
  def_ (call "Cot" [add [any "x", piTimes 1 2]]) (neg (call "Tan" [var "x"]))]
/-- Rules of `Sec`. -/
def secRules : List (Ex × Ex) := [
  -- trig.m:62
  def_ (call "Sec" [add [any "x", piTimes (-1) 2]]) (call "Csc" [var "x"])]
/-- Rules of `ArcTan`. -/
def arcTanRules : List (Ex × Ex) := [
  -- trig.m:78-80
  def_ (call "ArcTan" [.int (-1)]) (mul [neg pi, pow (.int 4) (.int (-1))]),
  def_ (call "ArcTan" [.int 0]) (.int 0),
  def_ (call "ArcTan" [.int 1]) (mul [pi, pow (.int 4) (.int (-1))])]

/-- The rules of a symbol. -/
def rulesFor (s : String) : List (Ex × Ex) :=
  if s = "System`Times" then timesRules
  else if s = "System`Power" then powerRules
  else if s = "System`Log" then logRules
  else if s = "System`Sqrt" then sqrtRules
  else if s = "System`Sin" then sinRules
  else if s = "System`Cos" then cosRules
  else if s = "System`Tan" then tanRules
  else if s = "System`Cot" then cotRules
  else if s = "System`Sec" then secRules
  else if s = "System`ArcTan" then arcTanRules
  -- power.m:277
  else if s = "System`I" then [def_ i (call "Complex" [.int 0, .int 1])]
  else []

/-- `first:(_Integer | _Real | _Rational)?((#!=-1)&)` (`power.m:54`). -/
def numberNotMinusOne : Ex := .expr [S "Pattern", var "first", .expr [S "PatternTest",
  .expr [S "Alternatives", .expr [S "Blank", S "Integer"], .expr [S "Blank", S "Real"], .expr [S "Blank", S "Rational"]],
  call "Function" [call "Unequal" [call "Slot" [.int 1], .int (-1)]]]]

/-- Power of a power, `power.m:7`. -/
def nestedPowerRule : Ex × Ex := def_ (pow (pow (any "a") (anyOf "b" "Rational")) (any "c")) (pow (var "a") (mul [var "b", var "c"]))
/-- Power of a product with a number, `power.m:54`. -/
def numberFactorRule : Ex × Ex := def_ (pow (mul [numberNotMinusOne, .expr [S "Pattern", var "inner", .expr [S "BlankSequence"]]]) (any "pow"))
  (mul [pow (var "first") (var "pow"), pow (mul [var "inner"]) (var "pow")])
/-- Product of two roots, `arithmetic.m:127`. -/
def rootsRule : Ex × Ex := def_ (mul [pow (anyOf "a" "Integer") (anyOf "c" "Rational"), pow (anyOf "b" "Integer") (anyOf "c" "Rational"), many "rest"])
  (mul [pow (mul [var "a", var "b"]) (var "c"), var "rest"])
/-- Exponential of a sum with a logarithm, `power.m:79`. -/
def expLogRule : Ex × Ex := def_ (pow e (add [call "Log" [any "a"], many "rest"])) (mul [var "a", pow e (var "rest")])
/-- Cotangent of a sum, `trig.m:59`. -/
def cotSumRule : Ex × Ex := def_ (call "Cot" [.expr [.expr [S "Verbatim", S "Plus"], mul [.int (-1), any "a"], many "b"]]) (neg (call "Cot" [add [var "a", neg (var "b")]]))
/-- Logarithm of an exponential, `power.m:239`. -/
def logExpRule : Ex × Ex := def_ (call "Log" [pow e (tested (any "p") "NumberQ")]) (var "p")
/-- Logarithm of a fraction, `power.m:240`. -/
def logFractionRule : Ex × Ex := def_ (call "Log" [call "Rational" [.int 1, any "b"]]) (neg (call "Log" [var "a"]))

end Shipped
end Expreduce
