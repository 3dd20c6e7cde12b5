import Verif.Model.Ex
import Mathlib.Data.Rat.Cast.CharZero
import Mathlib.Algebra.BigOperators.Group.List.Basic

/-! Specification vocabulary for arithmetic: the mathematical value of an expression in a field with a square root of `-1`. -/

namespace Expreduce

open Ex

section
variable {K : Type _} [Field K] (ρ : Ex → K) (iu : K)

mutual
/-- Value of an expression in the field `K`: numbers denote themselves, `Plus` and `Times` denote sum and product,
`iu` is the imaginary unit and every other expression `e` has an arbitrary value `ρ e`. -/
def value : Ex → K
  | .int n => (n : K)
  | .rat n d => (n : K) / (d : K)
  | .cplx a b => value a + iu * value b
  | .expr [] => ρ (.expr [])
  | .expr (h :: args) =>
    if h = S "Plus" then sumValue args
    else if h = S "Times" then prodValue args
    else ρ (.expr (h :: args))
  | .flt v => (v : K)
  | .sym s => ρ (.sym s)
  | .str s => ρ (.str s)
/-- Sum of the values. -/
def sumValue : List Ex → K
  | [] => 0
  | a :: as => value a + sumValue as
/-- Product of the values. -/
def prodValue : List Ex → K
  | [] => 1
  | a :: as => value a * prodValue as
end

end

/-- A valid exact real number: an integer, or a rational with nonzero denominator. -/
def ExactReal : Ex → Prop
  | .int _ => True
  | .rat _ d => d ≠ 0
  | _ => False

/-- A valid exact number: an exact real, or a complex number with exact real components. -/
def ExactNum : Ex → Prop
  | .int _ => True
  | .rat _ d => d ≠ 0
  | .cplx a b => ExactReal a ∧ ExactReal b
  | _ => False

/-- An expression all of whose numbers are valid exact numbers (no machine reals anywhere). -/
inductive Exact : Ex → Prop
  | sym (s) : Exact (.sym s)
  | str (s) : Exact (.str s)
  | num (e) : ExactNum e → Exact e
  | expr (ps : List Ex) : (∀ p ∈ ps, Exact p) → Exact (.expr ps)

/-- Fully normalised exact real: an integer, or a fraction in lowest terms with denominator at least 2. -/
def CanonReal : Ex → Prop
  | .int _ => True
  | .rat n d => 1 < d ∧ Int.gcd n d = 1
  | _ => False

/-- Fully normalised exact number: a normalised real, or a complex number with normalised components and
nonzero imaginary part. -/
def CanonNum : Ex → Prop
  | .cplx a b => CanonReal a ∧ CanonReal b ∧ b ≠ .int 0
  | e => CanonReal e

end Expreduce
