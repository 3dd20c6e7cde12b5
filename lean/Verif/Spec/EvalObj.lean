import Verif.Model.EvalObj

/-! Specification vocabulary for the object-level evaluator. -/

namespace Expreduce
open Ex

/-- Nothing outside `P` leads into `P`, and definitions lead there only through rules whose right side is copied. -/
structure Isolated (P : Nat → Prop) (s : OState) : Prop where
  old : ∀ a, P a → a < s.heap.length
  parts : ∀ a nd, s.heap[a]? = some nd → ¬ P a → ∀ b, Val.ref b ∈ nd.parts → ¬ P b
  own : ∀ x b, s.own x = some (.ref b) → ¬ P b
  rules : ∀ f r, s.rules f = some r → ∀ b, r.rhs = .ref b → P b → mentionsAny s.heap r.params r.rhs = true
  inside : ∀ a nd, s.heap[a]? = some nd → P a → ∀ b, Val.ref b ∈ nd.parts → P b

/-- The object is a call of `f`, and nothing is defined for `f`. -/
structure FreeCall (f : String) (a : Nat) (s : OState) : Prop where
  head : partOf s.heap a 0 = some (.atom (.sym f))
  own : s.own f = none
  rules : s.rules f = none

end Expreduce
