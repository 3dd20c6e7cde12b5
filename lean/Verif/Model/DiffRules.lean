import Verif.Model.ShippedRules

/-!
# The rules of `D`

Rules of `/repo/expreduce/resources/calculus.m:2-15`, stored as described in `Model/ShippedRules`. Left out: the chain rule
for an arbitrary function (line 9; its left side has a variable as the head of an expression), `Abs`, `Exp` and lists (lines 12, 16 and 17).
-/

namespace Expreduce
open Ex
namespace Shipped

/-- `D[a, x]` -/
def diff (a : Ex) : Ex := call "D" [a, var "x"]

/-- Rules of `D`. -/
def diffRules : List (Ex × Ex) := [
  -- calculus.m:2
  def_ (call "D" [S "Indeterminate", any "x"]) (S "Indeterminate"),
  -- calculus.m:3
  def_ (call "D" [any "x", any "x"]) (.int 1),
  -- calculus.m:4
  def_ (call "D" [any "a", any "x"])
    (cond (.int 0) (call "And" [call "FreeQ" [var "a", var "x"], call "UnsameQ" [var "a", S "Indeterminate"]])),
  -- calculus.m:5
  def_ (call "D" [add [any "a", any "b"], any "x"]) (add [diff (var "a"), diff (var "b")]),
  -- calculus.m:6
  def_ (call "D" [mul [any "a", any "b"], any "x"]) (add [mul [diff (var "a"), var "b"], mul [var "a", diff (var "b")]]),
  -- calculus.m:11
  def_ (call "D" [pow (any "a") (any "b"), any "x"])
    (mul [pow (var "a") (var "b"), add [mul [diff (var "b"), call "Log" [var "a"]], mul [diff (var "a"), pow (var "a") (.int (-1)), var "b"]]]),
  -- calculus.m:13
  def_ (call "D" [call "Log" [any "a"], any "x"]) (mul [diff (var "a"), pow (var "a") (.int (-1))]),
  -- calculus.m:14
  def_ (call "D" [call "Sin" [any "a"], any "x"]) (mul [diff (var "a"), call "Cos" [var "a"]]),
  -- calculus.m:15
  def_ (call "D" [call "Cos" [any "a"], any "x"]) (mul [.int (-1), diff (var "a"), call "Sin" [var "a"]])]

end Shipped
end Expreduce
