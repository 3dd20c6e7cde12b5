import Verif.Model.ShippedRules

/-!
# The formulas of `Solve` and `Inverse`

The right sides of the rules of `/repo/expreduce/resources/equationdata.m:1-3`, `solve.m:174-187, 317-318` and `matrix.m:2-4`, as the parser
reads them: `a/b` is `Times[a, Power[b, -1]]`, `a - b` is `Plus[a, Times[-1, b]]`, `-a` is `Times[-1, a]`, and `\[Sqrt]` is
`Sqrt`. Nested products and sums (`-(27 a d^2)`) are written as one would read them; the parser merges some of them. Not modelled: what `Simplify` and `Sort` make of the solutions (`solve.m:261-263`).
-/

namespace Expreduce
open Ex
namespace Shipped

/-- `a/b` -/
def dv (a b : Ex) : Ex := mul [a, pow b (.int (-1))]
/-- `a - b` -/
def sub (a b : Ex) : Ex := add [a, neg b]
/-- `a^2` -/
def sq (a : Ex) : Ex := pow a (.int 2)
/-- `a^3` -/
def cube (a : Ex) : Ex := pow a (.int 3)
/-- `Sqrt[a]` -/
def root2 (a : Ex) : Ex := call "Sqrt" [a]
/-- `a^(1/3)` -/
def root3 (a : Ex) : Ex := pow a (dv (.int 1) (.int 3))
/-- `{a, b, ...}` -/
def list (l : List Ex) : Ex := call "List" l
/-- `x -> a` -/
def arrow (x a : Ex) : Ex := call "Rule" [x, a]
/-- `{{x -> s1}, {x -> s2}, ...}` -/
def sols (x : Ex) (l : List Ex) : Ex := list (l.map (fun s => list [arrow x s]))

/-- `b^2 - 4 a c` -/
def disc2 (a b c : Ex) : Ex := sub (sq b) (mul [.int 4, a, c])

/-- The solutions of a quadratic equation (`equationdata.m:1`). -/
def quadraticSols (a b c : Ex) : List Ex := [
  dv (sub (neg b) (root2 (disc2 a b c))) (mul [.int 2, a]),
  dv (add [neg b, root2 (disc2 a b c)]) (mul [.int 2, a])]

/-- `-2 c^3 + 9 b c d - 27 a d^2` -/
def cubicQ (d c b a : Ex) : Ex := add [mul [.int (-2), cube c], mul [.int 9, b, c, d], neg (mul [.int 27, a, sq d])]
/-- `-c^2 + 3 b d` -/
def cubicP (d c b : Ex) : Ex := add [neg (sq c), mul [.int 3, b, d]]
/-- The expression below the cube root. -/
def cubicR (d c b a : Ex) : Ex :=
  add [mul [.int (-2), cube c], mul [.int 9, b, c, d], neg (mul [.int 27, a, sq d]),
    root2 (add [mul [.int 4, cube (cubicP d c b)], sq (cubicQ d c b a)])]

/-- The solutions of a cubic equation (`equationdata.m:2`). -/
def cubicSols (d c b a : Ex) : List Ex := [
  add [neg (dv c (mul [.int 3, d])),
    neg (dv (mul [root3 (.int 2), cubicP d c b]) (mul [.int 3, d, root3 (cubicR d c b a)])),
    dv (root3 (cubicR d c b a)) (mul [.int 3, root3 (.int 2), d])],
  add [neg (dv c (mul [.int 3, d])),
    dv (mul [add [.int 1, mul [i, root2 (.int 3)]], cubicP d c b])
      (mul [.int 3, pow (.int 2) (dv (.int 2) (.int 3)), d, root3 (cubicR d c b a)]),
    neg (mul [dv (.int 1) (mul [.int 6, root3 (.int 2), d]), sub (.int 1) (mul [i, root2 (.int 3)]), root3 (cubicR d c b a)])],
  add [neg (dv c (mul [.int 3, d])),
    dv (mul [sub (.int 1) (mul [i, root2 (.int 3)]), cubicP d c b])
      (mul [.int 3, pow (.int 2) (dv (.int 2) (.int 3)), d, root3 (cubicR d c b a)]),
    neg (mul [dv (.int 1) (mul [.int 6, root3 (.int 2), d]), add [.int 1, mul [i, root2 (.int 3)]], root3 (cubicR d c b a)])]]

/-- `c^2 - 3 b d + 12 a e` -/
def quarticP (e d c b a : Ex) : Ex := add [sq c, neg (mul [.int 3, b, d]), mul [.int 12, a, e]]
/-- `2 c^3 - 9 b c d + 27 a d^2 + 27 b^2 e - 72 a c e` -/
def quarticQ (e d c b a : Ex) : Ex :=
  add [mul [.int 2, cube c], neg (mul [.int 9, b, c, d]), mul [.int 27, a, sq d], mul [.int 27, sq b, e], neg (mul [.int 72, a, c, e])]
/-- The expression below the cube root. -/
def quarticR (e d c b a : Ex) : Ex :=
  add [mul [.int 2, cube c], neg (mul [.int 9, b, c, d]), mul [.int 27, a, sq d], mul [.int 27, sq b, e], neg (mul [.int 72, a, c, e]),
    root2 (add [mul [.int (-4), cube (quarticP e d c b a)], sq (quarticQ e d c b a)])]
/-- `2^(1/3) p/(3 e r^(1/3))` -/
def quarticS (e d c b a : Ex) : Ex := dv (mul [root3 (.int 2), quarticP e d c b a]) (mul [.int 3, e, root3 (quarticR e d c b a)])
/-- `(1/(3 2^(1/3) e)) r^(1/3)` -/
def quarticT (e d c b a : Ex) : Ex := mul [dv (.int 1) (mul [.int 3, root3 (.int 2), e]), root3 (quarticR e d c b a)]
/-- The expression below the first square root. -/
def quarticU (e d c b a : Ex) : Ex :=
  add [dv (sq d) (mul [.int 4, sq e]), neg (dv (mul [.int 2, c]) (mul [.int 3, e])), quarticS e d c b a, quarticT e d c b a]
/-- `(-(d^3/e^3) + (4 c d)/e^2 - (8 b)/e)/(4 Sqrt[u])` -/
def quarticG (e d c b a : Ex) : Ex :=
  dv (add [neg (dv (cube d) (cube e)), dv (mul [.int 4, c, d]) (sq e), neg (dv (mul [.int 8, b]) e)]) (mul [.int 4, root2 (quarticU e d c b a)])
/-- The expression below the second square root, with the last term subtracted. -/
def quarticW1 (e d c b a : Ex) : Ex :=
  add [dv (sq d) (mul [.int 2, sq e]), neg (dv (mul [.int 4, c]) (mul [.int 3, e])), neg (quarticS e d c b a), neg (quarticT e d c b a),
    neg (quarticG e d c b a)]
/-- The same, with the last term added. -/
def quarticW2 (e d c b a : Ex) : Ex :=
  add [dv (sq d) (mul [.int 2, sq e]), neg (dv (mul [.int 4, c]) (mul [.int 3, e])), neg (quarticS e d c b a), neg (quarticT e d c b a),
    quarticG e d c b a]
/-- `1/2 Sqrt[a]` -/
def halfRoot (a : Ex) : Ex := mul [dv (.int 1) (.int 2), root2 a]

/-- The solutions of an equation of degree 4 (`equationdata.m:3`). -/
def quarticSols (e d c b a : Ex) : List Ex := [
  add [neg (dv d (mul [.int 4, e])), neg (halfRoot (quarticU e d c b a)), neg (halfRoot (quarticW1 e d c b a))],
  add [neg (dv d (mul [.int 4, e])), neg (halfRoot (quarticU e d c b a)), halfRoot (quarticW1 e d c b a)],
  add [neg (dv d (mul [.int 4, e])), halfRoot (quarticU e d c b a), neg (halfRoot (quarticW2 e d c b a))],
  add [neg (dv d (mul [.int 4, e])), halfRoot (quarticU e d c b a), halfRoot (quarticW2 e d c b a)]]

/-- The solutions of `e x^4 + d x^3 == 0` (`solve.m:186-187`). -/
def quarticShortSols (e d : Ex) : List Ex := [.int 0, .int 0, .int 0, neg (dv d e)]

/-- The solution of `a x + b y == c, d x + e y == f` (`solve.m:317`). -/
def linear2Sol (a b c d e f : Ex) : Ex × Ex :=
  (neg (dv (sub (mul [c, e]) (mul [b, f])) (sub (mul [b, d]) (mul [a, e]))),
   neg (dv (add [neg (mul [c, d]), mul [a, f]]) (sub (mul [b, d]) (mul [a, e]))))

/-- The solution of `a x + b y == c, d x == f` (`solve.m:318`). -/
def linear1Sol (a b c d f : Ex) : Ex × Ex :=
  (dv f d, neg (dv (add [neg (mul [c, d]), mul [a, f]]) (mul [b, d])))

/-- `-b c + a d` -/
def det2 (a b c d : Ex) : Ex := add [mul [neg b, c], mul [a, d]]

/-- The determinant in the formula for the inverse of a matrix with three rows. -/
def det3 (a b c d e f h i j : Ex) : Ex :=
  add [mul [neg c, e, h], mul [b, f, h], mul [c, d, i], neg (mul [a, f, i]), neg (mul [b, d, j]), mul [a, e, j]]

/-- `Inverse[{{a}}]` (`matrix.m:2`). -/
def inverse1 (a : Ex) : List (List Ex) := [[dv (.int 1) a]]

/-- `Inverse[{{a, b}, {c, d}}]` (`matrix.m:3`). -/
def inverse2 (a b c d : Ex) : List (List Ex) :=
  [[dv d (det2 a b c d), neg (dv b (det2 a b c d))], [neg (dv c (det2 a b c d)), dv a (det2 a b c d)]]

/-- `Inverse[{{a, b, c}, {d, e, f}, {h, i, j}}]` (`matrix.m:4`). -/
def inverse3 (a b c d e f h i j : Ex) : List (List Ex) :=
  let det := det3 a b c d e f h i j
  [[dv (add [mul [neg f, i], mul [e, j]]) det, dv (sub (mul [c, i]) (mul [b, j])) det, dv (add [mul [neg c, e], mul [b, f]]) det],
   [dv (sub (mul [f, h]) (mul [d, j])) det, dv (add [mul [neg c, h], mul [a, j]]) det, dv (sub (mul [c, d]) (mul [a, f])) det],
   [dv (add [mul [neg e, h], mul [d, i]]) det, dv (sub (mul [b, h]) (mul [a, i])) det, dv (add [mul [neg b, d], mul [a, e]]) det]]

/-- A function of `solve.m` (loaded in the context ``Private` ``, `evalstate.go:265`). -/
def callP (s : String) (l : List Ex) : Ex := .expr (.sym ("Private`" ++ s) :: l)

/-- `solveQuadratic[a_, b_, c_, x_]` (`equationdata.m:1`). -/
def quadraticRule : Ex × Ex :=
  def_ (callP "solveQuadratic" [any "a", any "b", any "c", any "x"]) (sols (var "x") (quadraticSols (var "a") (var "b") (var "c")))

/-- `solveCubic[d_, c_, b_, a_, x_]` (`equationdata.m:2`). -/
def cubicRule : Ex × Ex :=
  def_ (callP "solveCubic" [any "d", any "c", any "b", any "a", any "x"]) (sols (var "x") (cubicSols (var "d") (var "c") (var "b") (var "a")))

/-- `solveQuartic[e_, d_, c_, b_, a_, x_]` (`equationdata.m:3`). -/
def quarticRule : Ex × Ex :=
  def_ (callP "solveQuartic" [any "e", any "d", any "c", any "b", any "a", any "x"])
    (cond (sols (var "x") (quarticSols (var "e") (var "d") (var "c") (var "b") (var "a")))
      (call "FreeQ" [list [var "a", var "b", var "c", var "d", var "e"], var "x"]))

/-- `a_.*x_^2` -/
def term (c : String) (n : Int) : Ex := mul [opt (any c), pow (any "x") (.int n)]
/-- `b_.*x_` -/
def term1 (c : String) : Ex := mul [opt (any c), any "x"]
/-- `/; FreeQ[{a, b, ...}, x]` -/
def ifFree (rhs : Ex) (l : List String) : Ex := cond rhs (call "FreeQ" [list (l.map var), var "x"])

/-- The rule that reads the coefficients off a quadratic polynomial (`solve.m:174-175`). -/
def quadraticCoefs : List (Ex × Ex) := [
  def_ (callP "solveQuadratic" [add [term "a" 2, term1 "b", opt (any "c")], any "x"])
    (ifFree (callP "solveQuadratic" [var "a", var "b", var "c", var "x"]) ["a", "b", "c"])]

/-- The rules that read the coefficients off a cubic polynomial (`solve.m:176-181`). -/
def cubicCoefs : List (Ex × Ex) := [
  -- solve.m:176-177
  def_ (callP "solveCubic" [add [term "d" 3, term "c" 2, term1 "b", opt (any "a")], any "x"])
    (ifFree (callP "solveCubic" [var "d", var "c", var "b", var "a", var "x"]) ["a", "b", "c", "d"]),
  -- solve.m:178-179
  def_ (callP "solveCubic" [add [term "d" 3, term "c" 2, opt (any "a")], any "x"])
    (ifFree (callP "solveCubic" [var "d", var "c", .int 0, var "a", var "x"]) ["a", "c", "d"]),
  -- solve.m:180-181
  def_ (callP "solveCubic" [add [term "d" 3, term1 "b", opt (any "a")], any "x"])
    (ifFree (callP "solveCubic" [var "d", .int 0, var "b", var "a", var "x"]) ["a", "b", "d"])]

/-- The rules that read the coefficients off a polynomial of degree 4 (`solve.m:182-185`). -/
def quarticCoefs : List (Ex × Ex) := [
  -- solve.m:182-183
  def_ (callP "solveQuartic" [add [term "e" 4, term "d" 3, term "c" 2, term1 "b", opt (any "a")], any "x"])
    (ifFree (callP "solveQuartic" [var "e", var "d", var "c", var "b", var "a", var "x"]) ["a", "b", "c", "d", "e"]),
  -- solve.m:184-185
  def_ (callP "solveQuartic" [add [term "e" 4, term "d" 3, any "a"], any "x"])
    (ifFree (callP "solveQuartic" [var "e", var "d", .int 0, .int 0, var "a", var "x"]) ["a", "d", "e"])]

/-- `solveQuartic[e_.*x_^4 + d_.*x_^3, x_]` (`solve.m:186-187`). -/
def quarticShortRule : Ex × Ex :=
  def_ (callP "solveQuartic" [add [term "e" 4, term "d" 3], any "x"]) (ifFree (sols (var "x") (quarticShortSols (var "e") (var "d"))) ["d", "e"])

/-- `a_.*x_Symbol` -/
def termS (c x : String) : Ex := mul [opt (any c), anyOf x "Symbol"]
/-- `a == b` -/
def equal (a b : Ex) : Ex := call "Equal" [a, b]
/-- `rhs /; FreeQ[{a, b, ...}, x] && FreeQ[{a, b, ...}, y]` -/
def ifFree2 (rhs : Ex) (l : List String) : Ex := cond rhs (call "And" [call "FreeQ" [list (l.map var), var "x"], call "FreeQ" [list (l.map var), var "y"]])
/-- `{{x -> s, y -> t}}` -/
def sols2 (x y : Ex) (s : Ex × Ex) : Ex := list [list [arrow x s.1, arrow y s.2]]

/-- Two linear equations in two variables (`solve.m:317`). -/
def linear2Rule : Ex × Ex :=
  def_ (call "Solve" [list [equal (add [termS "a" "x", termS "b" "y"]) (any "c"), equal (add [termS "d" "x", termS "e" "y"]) (any "f")], list [anyOf "x" "Symbol", anyOf "y" "Symbol"]])
    (ifFree2 (sols2 (var "x") (var "y") (linear2Sol (var "a") (var "b") (var "c") (var "d") (var "e") (var "f"))) ["a", "b", "c", "d", "e", "f"])

/-- The same, if the second equation does not contain the second variable (`solve.m:318`). -/
def linear1Rule : Ex × Ex :=
  def_ (call "Solve" [list [equal (add [termS "a" "x", termS "b" "y"]) (any "c"), equal (termS "d" "x") (any "f")], list [anyOf "x" "Symbol", anyOf "y" "Symbol"]])
    (ifFree2 (sols2 (var "x") (var "y") (linear1Sol (var "a") (var "b") (var "c") (var "d") (var "f"))) ["a", "b", "c", "d", "f"])

/-- `Inverse` (`matrix.m:2-4`). -/
def inverseRules : List (Ex × Ex) := [
  def_ (call "Inverse" [list [list [any "a"]]]) (list ((inverse1 (var "a")).map list)),
  def_ (call "Inverse" [list [list [any "a", any "b"], list [any "c", any "d"]]]) (list ((inverse2 (var "a") (var "b") (var "c") (var "d")).map list)),
  def_ (call "Inverse" [list [list [any "a", any "b", any "c"], list [any "d", any "e", any "f"], list [any "h", any "i", any "j"]]])
    (list ((inverse3 (var "a") (var "b") (var "c") (var "d") (var "e") (var "f") (var "h") (var "i") (var "j")).map list))]

end Shipped
end Expreduce
