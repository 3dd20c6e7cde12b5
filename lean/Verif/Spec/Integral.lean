import Verif.Spec.Solve
import Verif.Model.IntRules

/-!
# Antiderivatives

What an expression with integrals stands for. An integral `Int[u, x]` has many values: every antiderivative of `u` is one.
-/

namespace Expreduce
open Ex

/-- The functions of the integration package in the right sides of the rules. -/
def openHeads : List String := ["Rubi`Int", "Rubi`Private`RemoveContent", "Rubi`Private`ExpandIntegrand"]

/-- The expression contains no call of one of these functions. -/
def noOpen (e : Ex) : Bool := (pieces e).all (fun a => openHeads.all (fun s => !hasHead s a))

/-- The expression `e` may stand for the function `F` of the variable `x`, at most points; `I z` are the values of the symbols and functions if the
value of `x` is `z`.

* Without integrals, it stands for the function with the values of `e`.
* `Int[u, x]` stands for every function whose derivative is `u`.
* `RemoveContent[u, x]` stands for `u`, multiplied by a constant other than 0.
* `ExpandIntegrand[u, x]` stands for `u`.
* Other functions are applied to the values. -/
inductive Reads (I : ℂ → Interp) (x : String) : Ex → (ℂ → ℂ) → Prop
  | plain {e : Ex} {F : ℂ → ℂ} : noOpen e = true → (∀ᶠ z in mostly, (I z).Denotes e (F z)) → Reads I x e F
  | call {s : String} {es : List Ex} {Fs : List (ℂ → ℂ)} {F : ℂ → ℂ} : s ∉ openHeads → s ≠ "System`Sequence" → (∀ e ∈ es, hasHead "System`Sequence" e = false) →
      List.Forall₂ (Reads I x) es Fs → (∀ᶠ z in mostly, arithValue (I z) s (Fs.map (· z)) = some (F z)) → Reads I x (.expr (.sym s :: es)) F
  | integral {u : Ex} {F G : ℂ → ℂ} : Reads I x u G → (∀ᶠ z in mostly, HasDerivAt F (G z) z) → Reads I x (Shipped.intOf u (.sym x)) F
  | content {u : Ex} {F G : ℂ → ℂ} {c : ℂ} : Reads I x u G → c ≠ 0 → (∀ᶠ z in mostly, F z = c * G z) → Reads I x (Shipped.contentOf u (.sym x)) F
  | expand {u : Ex} {F : ℂ → ℂ} : Reads I x u F → Reads I x (Shipped.expandOf u (.sym x)) F

/-- The tests of the rules evaluate to `True` only if they hold (`1.1.1 Linear binomial products.m`, `9.1 Integrand simplification rules.m`; the
tests are defined in `Integration Utility Functions.m:79-127, 439-447`). -/
structure IntTests (V : Interp) (x : String) (truth : Ex → Bool) : Prop where
  all : ∀ l, truth (Shipped.call "And" l) = true → ∀ c ∈ l, truth c = true
  some : ∀ l, truth (Shipped.call "Or" l) = true → ∃ c ∈ l, truth c = true
  free : FreeOk truth x
  equal : ∀ a b, truth (Shipped.eqQ a b) = true → ∀ z v w, (V.put x z).Denotes a v → (V.put x z).Denotes b w → v = w
  zero : ∀ a, truth (Shipped.eqQ0 a) = true → ∀ z v, (V.put x z).Denotes a v → v = 0
  integer : ∀ a, truth (Shipped.call "IntegerQ" [a]) = true → ∃ n : Int, ∀ z v, (V.put x z).Denotes a v → v = n
  posInteger : ∀ a, truth (Shipped.testR "PositiveIntegerQ" [a]) = true → ∃ n : Int, ∀ z v, (V.put x z).Denotes a v → v = n
  negInteger : ∀ a, truth (Shipped.testR "NegativeIntegerQ" [a]) = true → ∃ n : Int, ∀ z v, (V.put x z).Denotes a v → v = n
  rational : ∀ a, truth (Shipped.testR "RationalQ" [a]) = true → ∃ q : Rat, ∀ z v, (V.put x z).Denotes a v → v = q
  positive : ∀ a, truth (Shipped.testR "PositiveQ" [a]) = true → ∃ t : ℝ, 0 < t ∧ ∀ z v, (V.put x z).Denotes a v → v = t

/-- The expression has a value at most points. -/
def HasValues (I : ℂ → Interp) (u : Ex) : Prop := ∃ G : ℂ → ℂ, ∀ᶠ z in mostly, (I z).Denotes u (G z)

/-- A step of the evaluation of an expression with integrals over `x`: one of the rules of `Shipped.intRules` is applied to an integral, anywhere in
the expression, or a part is replaced in another way that keeps what it stands for. -/
inductive IntStep (env : MEnv) (locals : Ex → Option Ex) (V : Interp) (x : String) : Ex → Ex → Prop
  | rule {r : Shipped.IntRule} {u res : Ex} : r ∈ Shipped.intRules → noOpen u = true → HasValues (fun z => V.put x z) u →
      RuleGives env locals ["System`Plus", "System`Times", "System`Power"] r.rule (Shipped.intOf u (.sym x)) res → IntStep env locals V x (Shipped.intOf u (.sym x)) res
  | other {a b : Ex} : (∀ F, Reads (fun z => V.put x z) x b F → Reads (fun z => V.put x z) x a F) → IntStep env locals V x a b
  | inside {s : String} {l m : List Ex} {a b : Ex} : IntStep env locals V x a b → s ≠ "System`Sequence" → (s ∈ openHeads → l = [] ∧ m = [.sym x]) →
      (∀ e ∈ a :: b :: l ++ m, hasHead "System`Sequence" e = false) → IntStep env locals V x (.expr (.sym s :: (l ++ a :: m))) (.expr (.sym s :: (l ++ b :: m)))

/-- Any number of steps. -/
inductive IntSteps (env : MEnv) (locals : Ex → Option Ex) (V : Interp) (x : String) : Ex → Ex → Prop
  | none {e : Ex} : IntSteps env locals V x e e
  | step {a b c : Ex} : IntStep env locals V x a b → IntSteps env locals V x b c → IntSteps env locals V x a c

end Expreduce
