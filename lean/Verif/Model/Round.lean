import Mathlib.Data.Int.Log
import Mathlib.Data.Rat.Floor
import Mathlib.Algebra.Order.Round

/-!
# Rounding to the working precision

`big.NewFloat(0)` has precision 53 and rounding mode to-nearest-even; `SetInt`, `SetRat` and `Quo` on it
round their exact mathematical argument once to 53 significant bits (documentation of `math/big`).
The exponent of a `big.Float` is a 32-bit integer; overflow to infinity and underflow to zero are
not modelled.
-/

namespace Expreduce

/-- Nearest integer, ties to even. -/
def rne (q : Rat) : Int :=
  let f := ⌊q⌋
  if q - f < 1 / 2 then f
  else if 1 / 2 < q - f then f + 1
  else if f % 2 = 0 then f else f + 1

/-- The weight of the last of the 53 significant bits of `q`. -/
def ulp53 (q : Rat) : Rat := (2 : Rat) ^ (Int.log 2 |q| - 52)

/-- Value of `big.NewFloat(0).SetInt/SetRat` applied to the exact number `q`
(`atoms/ex_real.go:76-86`, `atoms/ex_integer.go:82-86`): round to 53 significant bits, ties to
even. -/
def rnd53 (q : Rat) : Rat := if q = 0 then 0 else (rne (q / ulp53 q) : Rat) * ulp53 q

end Expreduce
