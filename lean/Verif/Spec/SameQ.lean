import Verif.Model.Ex

/-! Specification vocabulary for `SameQ`. -/

namespace Expreduce

/-- `x` is the value of a finite nonnegative IEEE double. -/
def IsDouble (x : Rat) : Prop := ∃ m q : Int, 0 ≤ m ∧ m < 2 ^ 53 ∧ -1074 ≤ q ∧ q ≤ 971 ∧ x = m * (2 : Rat) ^ q

/-- `u` occurs in the expression (at any depth, including the expression itself and components of complex numbers). -/
inductive Occurs (u : Ex) : Ex → Prop
  | here : Occurs u u
  | re (r i) : Occurs u r → Occurs u (.cplx r i)
  | im (r i) : Occurs u i → Occurs u (.cplx r i)
  | part (ps p) : p ∈ ps → Occurs u p → Occurs u (.expr ps)

/-- No rational and no real number occurs in the expression. -/
def NoRatReal (e : Ex) : Prop := (∀ n d, ¬ Occurs (.rat n d) e) ∧ ∀ v, ¬ Occurs (.flt v) e

end Expreduce
