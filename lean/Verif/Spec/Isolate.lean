import Verif.Model.Ex
import Mathlib.Analysis.SpecialFunctions.Pow.Real

/-! Specification for C127: what an equation between expressions means over the complex numbers. -/

namespace Expreduce.Iso
open Expreduce Ex

/-- `a^b`, the principal power; 0 has powers only with exponents whose real part is positive. -/
noncomputable def powDef (a b : ℂ) : Option ℂ := open Classical in if a = 0 ∧ b.re ≤ 0 then none else some (a ^ b)

mutual
/-- The value of an expression, if it has one: numbers, symbols (their values are `σ`), sums, products and powers; anything else has the fixed value `O` gives it. -/
noncomputable def val (O : Ex → Option ℂ) (σ : String → ℂ) : Ex → Option ℂ
  | .int n => some (n : ℂ)
  | .rat n d => if d = 0 then none else some ((n : ℂ) / (d : ℂ))
  | .cplx (.int a) (.int b) => some ((a : ℂ) + Complex.I * (b : ℂ))
  | .sym s => some (σ s)
  | .expr (h :: args) =>
    if h = S "Plus" then sumVal O σ args else if h = S "Times" then prodVal O σ args else if h = S "Power" then powVal O σ args else O (.expr (h :: args))
  | e => O e
/-- The sum of the values. -/
noncomputable def sumVal (O : Ex → Option ℂ) (σ : String → ℂ) : List Ex → Option ℂ
  | [] => some 0
  | a :: as => (val O σ a).bind (fun v => (sumVal O σ as).map (fun w => v + w))
/-- The product of the values. -/
noncomputable def prodVal (O : Ex → Option ℂ) (σ : String → ℂ) : List Ex → Option ℂ
  | [] => some 1
  | a :: as => (val O σ a).bind (fun v => (prodVal O σ as).map (fun w => v * w))
/-- The power of two values. -/
noncomputable def powVal (O : Ex → Option ℂ) (σ : String → ℂ) : List Ex → Option ℂ
  | [a, b] => (val O σ a).bind (fun v => (val O σ b).bind (fun w => powDef v w))
  | _ => none
end

/-- `σ` with the value `z` for `x`. -/
def setTo (σ : String → ℂ) (x : String) (z : ℂ) : String → ℂ := fun s => if s = x then z else σ s

/-- With `x = z` both sides of the equation have a value, and the same one. -/
def Solves (O : Ex → Option ℂ) (σ : String → ℂ) (x : String) (z : ℂ) (lhs rhs : Ex) : Prop :=
  ∃ v, val O (setTo σ x z) lhs = some v ∧ val O (setTo σ x z) rhs = some v

/-- `Within u e`: `u` is `e` or occurs in an argument of `e`, at any depth. -/
inductive Within (u : Ex) : Ex → Prop
  | refl : Within u u
  | arg {a h : Ex} {args : List Ex} : a ∈ args → Within u a → Within u (.expr (h :: args))

/-- The variable is not under a root: no `b^(1/n)` in `e` has it in `b`. -/
def NoRadical (x : String) (e : Ex) : Prop := ∀ b n, Within (.expr [S "Power", b, .rat 1 n]) e → ¬ Within (.sym x) b

/-- The variable occurs once, under sums, products and powers with the exponents -1, 2, 3, 4 and 5 only. -/
inductive Simple (x : String) : Ex → Prop
  | var : Simple x (.sym x)
  | sum {a : Ex} {pre post : List Ex} : Simple x a → (∀ b ∈ pre ++ post, ¬ Within (.sym x) b) → Simple x (.expr (S "Plus" :: (pre ++ a :: post)))
  | prod {a : Ex} {pre post : List Ex} : Simple x a → (∀ b ∈ pre ++ post, ¬ Within (.sym x) b) → Simple x (.expr (S "Times" :: (pre ++ a :: post)))
  | power {b : Ex} {p : Int} : Simple x b → p ∈ [-1, 2, 3, 4, 5] → Simple x (.expr [S "Power", b, .int p])

end Expreduce.Iso
