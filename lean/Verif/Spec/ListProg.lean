import Verif.Spec.Lists
import Verif.Spec.Functional

/-! Specification for C118: nothing but plain list operations is needed; see also `FirstOccurrences`, `folded` and `nest`. -/

namespace Expreduce
open Ex

/-- `{y, n}` -/
def tallyPair (y : Ex) (n : Nat) : Ex := .expr [S "List", y, .int n]

/-- The evaluator `ev` treats `h[l]` elementwise: each element `x` becomes `E x`, at its place. -/
def Elementwise (ev : Ex → Option Ex) (E : Ex → Ex) (h : Ex) (l : List Ex) : Prop := ev (.expr (h :: l)) = some (.expr (h :: l.map E))

end Expreduce
