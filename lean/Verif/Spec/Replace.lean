import Verif.Proofs.MatchNames

/-! Specification vocabulary for replacement. -/

namespace Expreduce
open Ex

mutual
/-- Simultaneous substitution of symbols (specification). Complex numbers contain no symbols. -/
def subst (ρ : String → Option Ex) : Ex → Ex
  | .sym s => match ρ s with
    | some v => v
    | none => .sym s
  | .expr ps => .expr (substL ρ ps)
  | e => e
/-- The same for a list. -/
def substL (ρ : String → Option Ex) : List Ex → List Ex
  | [] => []
  | p :: ps => subst ρ p :: substL ρ ps
end

/-- The bindings concern only names of the pattern `p`. -/
def OnlyNames (ρ : String → Option Ex) (p : Ex) : Prop := ∀ y, ρ y ≠ none → y ∈ patNames p

/-- `e'` is `e` after one pass of the rule `lhs -> rhs`, outermost first: a subexpression that matches is replaced by the right side
with the names of the pattern replaced by their values, and neither its parts nor the inserted expression are looked at again; in all
others the parts (the head included) are treated. `skip` are the subexpressions left alone. -/
inductive Rewritten (env : MEnv) (skip : Ex → Prop) (lhs rhs : Ex) : Ex → Ex → Prop
  | skip {e} : skip e → Rewritten env skip lhs rhs e e
  | hit {e ρ} : ¬ skip e → Matches env ρ lhs e → OnlyNames ρ lhs → Rewritten env skip lhs rhs e (subst ρ rhs)
  | atom {e} : ¬ skip e → isAtom e = true → (¬ ∃ ρ, Matches env ρ lhs e) → Rewritten env skip lhs rhs e e
  | parts {ps qs} : ¬ skip (.expr ps) → (¬ ∃ ρ, Matches env ρ lhs (.expr ps)) → List.Forall₂ (Rewritten env skip lhs rhs) ps qs →
      Rewritten env skip lhs rhs (.expr ps) (.expr qs)
  /-- not a replacement, but the code does this: the result is thrown away if its fingerprint collides with the old one (see C09) -/
  | clash {ps qs} : ¬ skip (.expr ps) → (¬ ∃ ρ, Matches env ρ lhs (.expr ps)) → List.Forall₂ (Rewritten env skip lhs rhs) ps qs →
      hash (.expr qs) = hash (.expr ps) → Rewritten env skip lhs rhs (.expr ps) (.expr ps)

/-- The right side `rhs` yields `res`: conditions around it (directly, or below local variables) evaluate to `True`. -/
inductive Yields (env : MEnv) (locals : Ex → Option Ex) : Ex → Ex → Prop
  | plain {rhs} : hasHead "System`Condition" rhs = false → (∀ b, locals rhs = some b → hasHead "System`Condition" b = false) →
      Yields env locals rhs rhs
  | cond {body c rest res} : env.isTrue c = true → Yields env locals body res →
      Yields env locals (.expr (S "Condition" :: body :: c :: rest)) res
  | inner {rhs body c rest res} : hasHead "System`Condition" rhs = false →
      locals rhs = some (.expr (S "Condition" :: body :: c :: rest)) → env.isTrue c = true →
      Yields env locals body res → Yields env locals rhs res

mutual
/-- One pass of replacement, outermost first: subexpressions with a value under `hit` are replaced by it, those in `skip` are left
alone. -/
def rewriteOut (skip : Ex → Bool) (hit : Ex → Option Ex) : Ex → Ex
  | .expr ps =>
    if skip (.expr ps) then .expr ps
    else match hit (.expr ps) with
      | some r => r
      | none => .expr (rewriteOutL skip hit ps)
  | e => match hit e with
    | some r => r
    | none => e
/-- The same for a list. -/
def rewriteOutL (skip : Ex → Bool) (hit : Ex → Option Ex) : List Ex → List Ex
  | [] => []
  | p :: ps => rewriteOut skip hit p :: rewriteOutL skip hit ps
end

/-- The value of the symbol `x` under the rules `x1 -> v1, x2 -> v2, ...`: the first rule counts. -/
def ruleValue (rules : List (String × Ex)) (x : String) : Option Ex := rules.lookup x

/-- The replacement for `#k`, the `k`-th argument. -/
def slotValue (args : List Ex) : Ex → Option Ex
  | .expr [.sym s, .int k] => if s = "System`Slot" ∧ 1 ≤ k then args[(k - 1).toNat]? else none
  | _ => none

/-- The replacement of one expression by another. -/
def onlyAt (u v : Ex) : Ex → Option Ex := fun e => if e = u then some v else none

/-- No two different expressions among `U` have the same fingerprint. -/
def NoCollision (U : List Ex) : Prop := ∀ a ∈ U, ∀ b ∈ U, hash a = hash b → a = b

end Expreduce
