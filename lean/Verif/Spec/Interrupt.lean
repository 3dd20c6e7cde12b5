import Verif.Spec.Sow

/-!
# Interrupts

The signal handler sets a flag (`evalstate.go:289-295`); nothing else happens at that moment. Since the theorems
hold for every context (`Ctx`), a signal that arrives during an evaluation is one that is raised by whatever function
is called at that moment.
-/

namespace Expreduce
open Ex

/-- The flag is not taken back. -/
def FlagStays (st st' : EState) : Prop := st.interrupted = true → st'.interrupted = true

/-- Calls of symbols, with symbols, strings, integers and reals at the bottom; none of the calls is to be spliced into
its surroundings. -/
inductive CallTree : Ex → Prop
  | sym (s) : CallTree (.sym s)
  | str (s) : CallTree (.str s)
  | int (n) : CallTree (.int n)
  | flt (v) : CallTree (.flt v)
  | call (f : String) (args : List Ex) : f ≠ "System`Sequence" → f ≠ "System`Evaluate" → f ≠ "System`Unevaluated" →
      (∀ a ∈ args, CallTree a) → CallTree (.expr (.sym f :: args))

/-- A session in which everything is done by rules for functions: `rules f e` is the right side that applies to the call
`e` of `f`, which is any function (so the program may run for ever). -/
structure RuleProgram (c : Ctx) (st : EState) (rules : String → Ex → Option Ex) : Prop where
  noValue : ∀ s, getSymDef st.toDState s = none
  noBuiltin : ∀ s, hasBuiltin st s = false
  attrs : ∀ s, (attrsOf st s).noRearrange = true
  find : ∀ ev s e, c.find ev st s e = .ok (st, rules s e)
  /-- no right side is a rational or complex number (which the code would evaluate once more) -/
  result : ∀ s e r, rules s e = some r → (∃ ps, r = .expr ps) ∨ (∃ s, r = .sym s) ∨ (∃ s, r = .str s) ∨ (∃ n, r = .int n) ∨ (∃ v, r = .flt v)

end Expreduce
