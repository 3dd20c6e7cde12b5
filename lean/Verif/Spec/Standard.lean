import Verif.Spec.Algebra
import Verif.Model.ShippedRules
import Mathlib.Analysis.SpecialFunctions.Complex.Arctan

/-!
# The standard interpretation of the elementary functions
-/

namespace Expreduce
open Ex

/-- The constants and elementary functions have their usual values; the others are not restricted. A function has no value at its
singularities. -/
structure Interp.Standard (V : Interp) : Prop where
  e : V.sym "System`E" = some (Complex.exp 1)
  pi : V.sym "System`Pi" = some (Real.pi : ℂ)
  i : V.sym "System`I" = some Complex.I
  log : ∀ z, V.fn "System`Log" [z] = open Classical in if z = 0 then none else some (Complex.log z)
  sqrt : ∀ z, V.fn "System`Sqrt" [z] = powValue z (1 / 2)
  sin : ∀ z, V.fn "System`Sin" [z] = some (Complex.sin z)
  cos : ∀ z, V.fn "System`Cos" [z] = some (Complex.cos z)
  tan : ∀ z, V.fn "System`Tan" [z] = open Classical in if Complex.cos z = 0 then none else some (Complex.tan z)
  cot : ∀ z, V.fn "System`Cot" [z] = open Classical in if Complex.sin z = 0 then none else some (Complex.cos z / Complex.sin z)
  sec : ∀ z, V.fn "System`Sec" [z] = open Classical in if Complex.cos z = 0 then none else some (1 / Complex.cos z)
  csc : ∀ z, V.fn "System`Csc" [z] = open Classical in if Complex.sin z = 0 then none else some (1 / Complex.sin z)
  sinh : ∀ z, V.fn "System`Sinh" [z] = some (Complex.sinh z)
  cosh : ∀ z, V.fn "System`Cosh" [z] = some (Complex.cosh z)
  coth : ∀ z, V.fn "System`Coth" [z] = open Classical in if Complex.sinh z = 0 then none else some (Complex.cosh z / Complex.sinh z)
  csch : ∀ z, V.fn "System`Csch" [z] = open Classical in if Complex.sinh z = 0 then none else some (1 / Complex.sinh z)
  arctan : ∀ z, V.fn "System`ArcTan" [z] = open Classical in if z = Complex.I ∨ z = -Complex.I then none else some (Complex.arctan z)

/-- The functions of the expressions considered. -/
def stdHeads : List String := ["System`Plus", "System`Times", "System`Power", "System`Rational", "System`Complex", "System`Sequence",
  "System`Log", "System`Sqrt", "System`Sin", "System`Cos", "System`Tan", "System`Cot", "System`Sec", "System`Csc", "System`Sinh", "System`Cosh",
  "System`Coth", "System`Csch", "System`ArcTan"]

/-- The functions in the left sides of the rules. -/
def lhsHeads : List String := ["System`Plus", "System`Times", "System`Power", "System`Rational",
  "System`Log", "System`Sqrt", "System`Sin", "System`Cos", "System`Tan", "System`Cot", "System`Sec", "System`Cosh",
  "System`Csch", "System`ArcTan"]

/-- The tests that are used evaluate to `True` only if they hold. -/
structure TruthOk (V : Interp) (truth : Ex → Bool) : Prop where
  negative : ∀ n : Int, truth (.expr [S "Negative", .int n]) = true → n < 0
  positiveInt : ∀ n : Int, truth (.expr [S "Positive", .int n]) = true → 0 < n
  positive : ∀ e v, truth (.expr [S "Positive", e]) = true → V.meaning.val e = some v → ∃ x : ℝ, v = x ∧ 0 < x
  even : ∀ n : Int, truth (.expr [S "EvenQ", .int n]) = true → Even n
  odd : ∀ n : Int, truth (.expr [S "OddQ", .int n]) = true → Odd n
  both : ∀ a b, truth (.expr [S "And", a, b]) = true → truth a = true ∧ truth b = true
  equal : ∀ a b v w, truth (.expr [S "Equal", a, b]) = true → V.meaning.val a = some v → V.meaning.val b = some w → v = w

/-- Only `With` and `Module` have local variables (`replace.go:100-131`). -/
def LocalsOk (locals : Ex → Option Ex) : Prop :=
  ∀ e, hasHead "System`With" e = false → hasHead "System`Module" e = false → locals e = none

/-- The attributes and default values of the arithmetic functions (`builtin_arithmetic.go:171, 273`, `builtin_power.go:127`,
`resources/arithmetic.m:5, 142`, `resources/power.m:87`); the other functions considered are not `Flat`, `Orderless` or `OneIdentity`
and have no default value. The rules of each function are among those of `Shipped.rulesFor`, in any order; the other symbols have no
rules, or one right value. -/
structure StdTable (V : Interp) (D : Table) : Prop where
  plus : ∃ d, D "System`Plus" = some d ∧ d.attrs.flat = true ∧ d.attrs.orderless = true ∧ d.attrs.oneIdentity = true ∧ d.dflt = some (.int 0)
  times : ∃ d, D "System`Times" = some d ∧ d.attrs.flat = true ∧ d.attrs.orderless = true ∧ d.attrs.oneIdentity = true ∧ d.dflt = some (.int 1)
  power : ∃ d, D "System`Power" = some d ∧ d.attrs.flat = false ∧ d.attrs.orderless = false ∧ d.attrs.oneIdentity = true ∧ d.dflt = some (.int 1)
  others : ∀ s ∈ stdHeads, s ∉ ["System`Plus", "System`Times", "System`Power"] → ∀ d, D s = some d →
    d.attrs.flat = false ∧ d.attrs.orderless = false ∧ d.attrs.oneIdentity = false ∧ d.dflt = none
  dflt : ∀ s d x, D s = some d → d.dflt = some x → noReal x = true
  rules : ∀ s d dv, D s = some d → dv ∈ d.downvalues → (dv.lhs, dv.rhs) ∈ Shipped.rulesFor s ∨
    s ∉ stdHeads ∧ dv.lhs = held (.sym s) ∧ Frag (· ∈ stdHeads) dv.rhs ∧ Related V.meaning Refines (.sym s) dv.rhs

end Expreduce
