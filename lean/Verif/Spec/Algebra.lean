import Verif.Spec.EvalMeaning
import Verif.Model.Algebra
import Verif.Props.Match
import Mathlib.Analysis.SpecialFunctions.Pow.Complex

/-!
# The mathematical value of an expression

A partial function: division by zero, `0^0` and the like have no value. An interpretation gives the symbols and the other functions
their values.
-/

namespace Expreduce
open Ex

/-- Values of symbols and of functions other than the arithmetic ones. -/
structure Interp where
  sym : String → Option ℂ
  fn : String → List ℂ → Option ℂ

/-- The power `x^y`: undefined for `x = 0` unless the real part of `y` is positive; otherwise the principal value. -/
noncomputable def powValue (x y : ℂ) : Option ℂ :=
  open Classical in if x = 0 then (if 0 < y.re then some 0 else none) else some (x ^ y)

/-- Sum, product, power (associating to the right), quotient, complex number. -/
noncomputable def arithValue (V : Interp) (s : String) (l : List ℂ) : Option ℂ :=
  open Classical in
  if s = "System`Plus" then some l.sum
  else if s = "System`Times" then some l.prod
  else if s = "System`Power" then l.foldr (fun x acc => acc.bind (powValue x)) (some 1)
  else if s = "System`Rational" then
    match l with
    | [a, b] => if b = 0 then none else some (a / b)
    | _ => none
  else if s = "System`Complex" then
    match l with
    | [a, b] => some (a + Complex.I * b)
    | _ => none
  else V.fn s l

/-- All values, if there are. -/
def allSome {α : Type _} : List (Option α) → Option (List α)
  | [] => some []
  | none :: _ => none
  | some a :: l => (allSome l).map (a :: ·)

/-- The symbols that stand for no number. -/
def noNumber : List String := ["System`Infinity", "System`ComplexInfinity", "System`Indeterminate"]

/-- The value of an atom. -/
def atomValue (V : Interp) : Ex → Option ℂ
  | .int n => some n
  | .sym s => if s ∈ noNumber then none else V.sym s
  | _ => none

/-- The interpretation in the complex numbers; a call has a value only if all arguments have. -/
noncomputable def Interp.meaning (V : Interp) : Meaning (Option ℂ) where
  atom := atomValue V
  op := fun s xs => (allSome xs).bind (arithValue V s)

/-- `e` has the value `v`. -/
def Interp.Denotes (V : Interp) (e : Ex) (v : ℂ) : Prop := V.meaning.argVals e = [some v]

/-- Where the first value is defined, the second one is the same. -/
def Refines (x y : Option ℂ) : Prop := ∀ v, x = some v → y = some v

/-- The interpreter has the table `D`, nothing is thrown, and it is not interrupted. -/
def Running (D : Table) (st : EState) : Prop := st.defs = D ∧ st.thrown = none ∧ st.interrupted = false

/-- What is required of the table of definitions `D`, for the functions `H`. -/
structure SoundTable (V : Interp) (A : AlgParams) (D : Table) (H : String → Prop) (heads : List String) : Prop where
  /-- functions with a meaning of their own in the evaluator, and lists, are left out -/
  plain : ∀ s ∈ ["System`Return", "System`Evaluate", "System`Unevaluated", "System`ConditionalExpression", "System`List"], ¬ H s
  /-- the arithmetic functions are not -/
  arith : ∀ s ∈ ["System`Plus", "System`Times", "System`Power", "System`Rational", "System`Complex"], H s
  /-- the functions in the left sides, whose operations agree with their attributes and default values -/
  lawful : ∀ s ∈ heads, V.meaning.Lawful (envOf { defs := D } A.truth) s
  flat : ∀ s d, H s → D s = some d → d.attrs.flat = true → s ∈ ["System`Plus", "System`Times"]
  orderless : ∀ s d, H s → D s = some d → d.attrs.orderless = true → s ∈ ["System`Plus", "System`Times"]
  /-- `Sequence` has no rules -/
  sequence : ∀ d, D "System`Sequence" = some d → d.downvalues = []
  /-- no default value contains a machine real -/
  dflt : (envOf { defs := D } A.truth).Exact
  /-- function symbols have no values, the values of other symbols are right -/
  noValue : ∀ s, H s → getSymDef { defs := D } s = none
  values : ∀ s d, getSymDef { defs := D } s = some d → Frag H d ∧ Related V.meaning Refines (.sym s) d
  /-- the rules are sound: both sides have the same value where the left one has a value -/
  rules : ∀ s d dv, D s = some d → dv ∈ d.downvalues → EPat dv.lhs ∧ FPat (envOf { defs := D } A.truth) (· ∈ heads) dv.lhs ∧
    ∀ ρ res, (∀ t ∈ namedArgs dv.lhs, Taken (envOf { defs := D } A.truth) (Frag H) ρ t.1 t.2.1 t.2.2) → OnlyNames ρ dv.lhs →
      Yields (envOf { defs := D } A.truth) A.locals (subst ρ dv.rhs) res → Frag H res ∧ Related V.meaning Refines (fill ρ dv.lhs) res

/-- The rules of the table can be tried on `e` without a coincidence of fingerprints. -/
def RulesDistinct (A : AlgParams) (D : Table) (heads : List String) (s : String) (e : Ex) : Prop :=
  ∀ d dv, D s = some d → dv ∈ d.downvalues → ∀ rs pm', matchF (envOf { defs := D } A.truth) A.bound e dv.lhs [] = some (rs, pm') →
    ∀ r ∈ rs, ClashFree (envOf { defs := D } A.truth) heads dv.lhs e (bindingsOf r)

/-- The terms of a sum can be collected without a coincidence of fingerprints. -/
def TermsDistinct (e : Ex) : Prop := ∀ s args, e = .expr (.sym s :: args) → ∀ a ∈ args, ∀ b ∈ args, ∀ c d u v,
  splitTerm a = some (c, u) → splitTerm b = some (d, v) → hash u = hash v → u = v

/-- An integer to a rational power, in lowest terms, that the code computes right (C56: it does not for a negative base divisible by `2^d`
and a numerator other than 1 and -1). -/
def PowerOk : Ex → Prop
  | .expr [_, .int b, .rat m d] => CanonReal (.rat m d) ∧ (0 ≤ b ∨ m = 1 ∨ m = -1)
  | _ => True

/-- The function `s` is called on an expression for which no accident happens: all sequences have been spliced, no fingerprints
coincide, and it is no power that is computed wrongly. -/
structure Clean (A : AlgParams) (D : Table) (heads : List String) (s : String) (e : Ex) : Prop where
  noSeq : s ≠ "System`Sequence" → ∀ a ∈ pieces e, hasHead "System`Sequence" a = false
  rules : RulesDistinct A D heads s e
  terms : s = "System`Plus" → TermsDistinct e
  power : s = "System`Power" → PowerOk e

/-- No complex number in the expression loses its imaginary part by accident. -/
def ImagClean (e : Ex) : Prop := ∀ re im, .cplx re im ∈ pieces e → imagOk im

end Expreduce
