import Verif.Model.Ex
import Mathlib.Order.Defs.LinearOrder

/-! What chained comparisons mean. -/

namespace Expreduce
open Ex

variable {K : Type} [LinearOrder K]

/-- The relation of an operator. -/
def Rel (op : Ex) (x y : K) : Prop :=
  (op = S "Less" ∧ x < y) ∨ (op = S "LessEqual" ∧ x ≤ y) ∨ (op = S "Equal" ∧ x = y) ∨ (op = S "GreaterEqual" ∧ y ≤ x) ∨ (op = S "Greater" ∧ y < x)

/-- All comparisons of neighbours hold; `ρ` gives the values of the operands. -/
def ChainHolds (ρ : Ex → K) (a : Ex) : List (Ex × Ex) → Prop
  | [] => True
  | (op, b) :: r => Rel op (ρ a) (ρ b) ∧ ChainHolds ρ b r

/-- The arguments of `Inequality[a, op1, b1, op2, b2, ...]`. -/
def ineqArgs (a : Ex) (r : List (Ex × Ex)) : List Ex := a :: r.flatMap (fun p => [p.1, p.2])

/-- `e` is a statement whose truth is `p`. -/
inductive Means (ρ : Ex → K) : Ex → Prop → Prop
  | true : Means ρ (S "True") True
  | false : Means ρ (S "False") False
  | chain (a : Ex) (r : List (Ex × Ex)) : Means ρ (.expr (S "Inequality" :: ineqArgs a r)) (ChainHolds ρ a r)
  | compare (op a b : Ex) : (op = S "Less" ∨ op = S "LessEqual" ∨ op = S "Equal" ∨ op = S "GreaterEqual" ∨ op = S "Greater") →
      Means ρ (.expr [op, a, b]) (Rel op (ρ a) (ρ b))
  | and {x y : Ex} {p q : Prop} : Means ρ x p → Means ρ y q → Means ρ (.expr [S "And", x, y]) (p ∧ q)

/-- All operators go up (`<`, `<=`). -/
def Up (r : List (Ex × Ex)) : Prop := ∀ p ∈ r, p.1 = S "Less" ∨ p.1 = S "LessEqual"

/-- All operators go down (`>`, `>=`). -/
def Down (r : List (Ex × Ex)) : Prop := ∀ p ∈ r, p.1 = S "Greater" ∨ p.1 = S "GreaterEqual"

end Expreduce
