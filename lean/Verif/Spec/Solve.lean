import Verif.Spec.Diff
import Mathlib.Analysis.SpecialFunctions.Pow.Complex
import Verif.Props.Match
import Verif.Model.SolveRules

/-!
# Solutions of equations
-/

namespace Expreduce
open Ex

/-- The function `p` is `a (z - s1) (z - s2) ...`: if `a` is not 0, its zeros are the numbers `s1`, `s2`, ..., with their multiplicities. -/
def Factors (p : ℂ → ℂ) (a : ℂ) (ss : List ℂ) : Prop := ∀ z, p z = a * (ss.map (fun s => z - s)).prod

/-- The attributes and default values of the arithmetic functions (`builtin_arithmetic.go:171, 273`, `builtin_power.go:127`,
`resources/arithmetic.m:5, 142`, `resources/power.m:87`); the functions `plain` are neither `Flat` nor `Orderless`. -/
structure ArithEnv (env : MEnv) (plain : List String) : Prop where
  plus : env.flat "System`Plus" = true ∧ env.orderless "System`Plus" = true ∧ env.oneIdentity "System`Plus" = true ∧ env.dflt "System`Plus" = some (.int 0)
  times : env.flat "System`Times" = true ∧ env.orderless "System`Times" = true ∧ env.oneIdentity "System`Times" = true ∧ env.dflt "System`Times" = some (.int 1)
  power : env.flat "System`Power" = false ∧ env.orderless "System`Power" = false ∧ env.oneIdentity "System`Power" = true ∧ env.dflt "System`Power" = some (.int 1)
  plain : ∀ s ∈ plain, env.flat s = false ∧ env.orderless s = false

/-- The functions with formulas for the solutions. -/
def solveFns : List String := ["Private`solveQuadratic", "Private`solveCubic", "Private`solveQuartic"]

/-- The rule `lhs -> rhs`, applied to `e`, gives `r`. (`e` contains no machine reals, and the match compares no two different expressions
with the same fingerprint.) -/
structure RuleGives (env : MEnv) (locals : Ex → Option Ex) (heads : List String) (rule : Ex × Ex) (e r : Ex) : Prop where
  exact : noReal e = true
  apply : ∃ m n, replace env locals m n rule.1 rule.2 e = some (some r) ∧
    ∀ rs pm', matchF env m e rule.1 [] = some (rs, pm') → ∀ q ∈ rs, ClashFree env heads rule.1 e (bindingsOf q)

/-- `P` is, as a function of the symbol `x`, the function `p`. -/
def IsFunction (V : Interp) (x : String) (P : Ex) (p : ℂ → ℂ) : Prop := ∀ z, (V.put x z).Denotes P (p z)

/-- The expression `r` is `{{x -> e1}, {x -> e2}, ...}`, the expressions `e1`, `e2`, ... have the values `s1`, `s2`, ..., whatever `x`
stands for, and `p` is `a (z - s1) (z - s2) ...`. -/
def SolutionsOf (V : Interp) (x : String) (p : ℂ → ℂ) (a : ℂ) (r : Ex) : Prop :=
  ∃ es ss, r = Shipped.sols (.sym x) es ∧ List.Forall₂ (fun e s => IsFunction V x e (fun _ => s)) es ss ∧ Factors p a ss

/-- The expression has no value (a division by 0 occurs in it). -/
def NoValue (V : Interp) (e : Ex) : Prop := V.meaning.argVals e = [none]

/-- The value below the cube root in the solutions of a cubic equation. -/
noncomputable def cubicRad (d c b a : ℂ) : ℂ := -2 * c ^ 3 + 9 * b * c * d - 27 * a * d ^ 2 +
  (4 * (-c ^ 2 + 3 * b * d) ^ 3 + (-2 * c ^ 3 + 9 * b * c * d - 27 * a * d ^ 2) ^ 2) ^ ((1 : ℂ) / 2)

/-- The value below the cube root in the solutions of an equation of degree 4. -/
noncomputable def quarticRad (e d c b a : ℂ) : ℂ := 2 * c ^ 3 - 9 * b * c * d + 27 * a * d ^ 2 + 27 * b ^ 2 * e - 72 * a * c * e +
  (-4 * (c ^ 2 - 3 * b * d + 12 * a * e) ^ 3 + (2 * c ^ 3 - 9 * b * c * d + 27 * a * d ^ 2 + 27 * b ^ 2 * e - 72 * a * c * e) ^ 2) ^ ((1 : ℂ) / 2)

/-- The value below the first square root in the solutions of an equation of degree 4. -/
noncomputable def quarticRoot (e d c b a : ℂ) : ℂ := d ^ 2 / (4 * e ^ 2) - 2 * c / (3 * e) +
  ((2 : ℂ) ^ ((1 : ℂ) / 3) * (c ^ 2 - 3 * b * d + 12 * a * e) / (3 * e * quarticRad e d c b a ^ ((1 : ℂ) / 3)) +
    1 / (3 * (2 : ℂ) ^ ((1 : ℂ) / 3) * e) * quarticRad e d c b a ^ ((1 : ℂ) / 3))

end Expreduce
