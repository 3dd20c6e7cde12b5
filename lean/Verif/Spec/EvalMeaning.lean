import Verif.Spec.Meaning
import Verif.Model.Eval
import Verif.Spec.Arith

/-!
# Evaluation and meaning

What it says that evaluation keeps the meaning, and what is required of the builtin functions and rules for that.
-/

namespace Expreduce
open Ex

/-- The fingerprint of the imaginary part is not by accident that of 0 (such a number would lose its imaginary part, see C09). -/
def imagOk (im : Ex) : Prop := isSameQ (evalReal im) (.int 0) = true → evalReal im = .int 0

/-- Expressions built from symbols, strings, exact numbers and calls of the functions `H`. -/
inductive Frag (H : String → Prop) : Ex → Prop
  | sym (s) : Frag H (.sym s)
  | str (s) : Frag H (.str s)
  | int (n) : Frag H (.int n)
  | rat {n d} : d ≠ 0 → Frag H (.rat n d)
  | cplx {re im} : ExactReal re → ExactReal im → imagOk im → Frag H (.cplx re im)
  | app {s args} : H s → (∀ a ∈ args, Frag H a) → Frag H (.expr (.sym s :: args))

/-- The values of the expressions are related. -/
def Related {A : Type _} (M : Meaning A) (R : A → A → Prop) (e e' : Ex) : Prop := List.Forall₂ R (M.argVals e) (M.argVals e')

/-- The evaluator `ev`, started in a state with `I` on an expression of the fragment, ends in such a state with an expression of the fragment
whose value is related. A function symbol evaluates to itself. -/
def KeepsMeaning {A : Type _} (M : Meaning A) (R : A → A → Prop) (H : String → Prop) (I : EState → Prop) (ev : Evaluator) : Prop :=
  ∀ st e st' e', I st → Frag H e → ev st e = .ok (st', e') →
    I st' ∧ Frag H e' ∧ Related M R e e' ∧ ∀ s, e = .sym s → H s → e' = .sym s

/-- What is required: `R` is a preorder, the interpretation agrees with the attributes, and every builtin function, rule and value of a symbol
respects `R`. -/
structure RespectsMeaning {A : Type _} (c : Ctx) (M : Meaning A) (R : A → A → Prop) (H : String → Prop) (I : EState → Prop) : Prop where
  refl : ∀ x, R x x
  trans : ∀ x y z, R x y → R y z → R x z
  mono : ∀ s, H s → ∀ xs ys, List.Forall₂ R xs ys → R (M.op s xs) (M.op s ys)
  /-- nothing is thrown or interrupted -/
  calm : ∀ st, I st → st.thrown = none ∧ st.interrupted = false
  /-- function symbols have no values of their own -/
  heads : ∀ st, I st → ∀ s, H s → getSymDef st.toDState s = none
  /-- the values of symbols have the right meaning -/
  values : ∀ st, I st → ∀ s d, getSymDef st.toDState s = some d → Frag H d ∧ Related M R (.sym s) d
  /-- the normal form of a number has its value -/
  rational : ∀ n d, d ≠ 0 → Related M R (.rat n d) (evalRational n d)
  complex : ∀ re im, ExactReal re → ExactReal im → Related M R (.cplx re im) (evalComplex re im)
  /-- the attributes agree with the interpretation -/
  flat : ∀ st, I st → ∀ s, H s → (attrsOf st s).flat = true → s ≠ "System`Sequence" ∧ ∀ xs ys zs, M.op s (xs ++ M.op s ys :: zs) = M.op s (xs ++ (ys ++ zs))
  orderless : ∀ st, I st → ∀ s, H s → (attrsOf st s).orderless = true → s ≠ "System`Sequence" ∧ ∀ xs ys, xs.Perm ys → M.op s xs = M.op s ys
  listable : ∀ st, I st → ∀ s args e, (attrsOf st s).listable = true → Frag H (.expr (.sym s :: args)) → threadExpr (.sym s :: args) = some e →
    Frag H e ∧ Related M R (.expr (.sym s :: args)) e
  sort : ∀ l, (c.sort l).Perm l
  /-- the builtin functions -/
  fn : ∀ s n ev st args st' e', KeepsMeaning M R H I ev → I st → Frag H (.expr (.sym s :: args)) → c.fn s n ev st (.sym s :: args) = .ok (st', e') →
    I st' ∧ Frag H e' ∧ Related M R (.expr (.sym s :: args)) e'
  /-- the rules -/
  find : ∀ s ev st e st' r, KeepsMeaning M R H I ev → I st → Frag H e → c.find ev st s e = .ok (st', r) →
    I st' ∧ ∀ e', r = some e' → Frag H e' ∧ Related M R e e'
  /-- functions with a meaning of their own in the evaluator are not in the fragment -/
  plain : ∀ s ∈ ["System`Return", "System`Evaluate", "System`Unevaluated", "System`ConditionalExpression"], ¬ H s

end Expreduce
