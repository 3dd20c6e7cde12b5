import Verif.Proofs.RuleSound

/-! Tactics for the shipped rules. -/

namespace Expreduce
open Ex Shipped

/-- Computes both sides of a rule with the variables replaced. -/
macro "rule_sides" "[" ts:Lean.Parser.Tactic.simpLemma,* "]" : tactic =>
  `(tactic| simp [held, exactTimes, Shipped.call, Shipped.any, Shipped.anyOf, Shipped.many, Shipped.tested, Shipped.opt, Shipped.var, Shipped.mul, Shipped.add, Shipped.pow, Shipped.neg,
      Shipped.pi, Shipped.e, Shipped.i, Shipped.iNum, Shipped.piTimes, Shipped.sqrt3half, S, fill, fillL, subst, substL, argName, testName, coreName, $ts,*])

/-- Shows that an expression is built from the functions considered. -/
macro "rule_frag" : tactic => `(tactic| simp [frag_call, stdHeads, Frag.sym, Frag.int, *])

theorem argVals_int {V : Interp} (n : Int) : V.meaning.argVals (.int n) = [some (n : ℂ)] := rfl
theorem argVals_rat {V : Interp} (n d : Int) : V.meaning.argVals (.rat n d) = [V.meaning.val (.rat n d)] := rfl
theorem argVals_cplx {V : Interp} (a b : Ex) : V.meaning.argVals (.cplx a b) = [V.meaning.val (.cplx a b)] := rfl
theorem argVals_sym {V : Interp} (s : String) : V.meaning.argVals (.sym s) = [V.meaning.val (.sym s)] := by
  rw [Meaning.argVals_one]; rfl

/-- What a value in the left side means. -/
macro "rule_hyp" "[" ts:Lean.Parser.Tactic.simpLemma,* "]" loc:(Lean.Parser.Tactic.location)? : tactic =>
  `(tactic| simp only [Meaning.val_app, Meaning.vals_cons, Meaning.vals_nil, Meaning.argVals_app, Meaning.argVals_one, times_append, times_cons, times_nil, power_two,
    plus_append, plus_cons, plus_nil, rational_two, val_int, val_rat_lit, val_iNum, val_infinity, val_complexInfinity, val_indeterminate, argVals_int, argVals_rat, argVals_cplx, argVals_sym,
    ne_eq, String.reduceEq, not_false_eq_true, List.cons_append, List.nil_append, List.append_nil,
    Option.bind_eq_some_iff, Option.map_eq_some_iff, Option.some.injEq, Option.bind_some, Option.map_some, Option.bind_none, Option.map_none, Option.ite_none_left_eq_some,
    reduceCtorEq, Int.reduceNeg, Int.reduceEq, Int.cast_neg, Int.cast_one, Int.cast_zero, Int.cast_ofNat, mul_one, add_zero, if_false, if_true, false_and, exists_false, and_false, exists_eq_left', exists_eq_left, $ts,*] $(loc)?)

/-- Computes the value of the right side. -/
macro "rule_goal" "[" ts:Lean.Parser.Tactic.simpLemma,* "]" loc:(Lean.Parser.Tactic.location)? : tactic =>
  `(tactic| simp only [Meaning.val_app, Meaning.vals_cons, Meaning.vals_nil, Meaning.argVals_app, Meaning.argVals_one, times_append, times_cons, times_nil, power_two,
    plus_append, plus_cons, plus_nil, rational_two, val_int, val_rat_lit, val_iNum, argVals_int, argVals_rat, argVals_cplx, argVals_sym,
    ne_eq, String.reduceEq, not_false_eq_true, List.cons_append, List.nil_append, List.append_nil, Option.bind_some, Option.map_some,
    Int.reduceNeg, Int.reduceEq, Int.cast_neg, Int.cast_one, Int.cast_zero, Int.cast_ofNat, mul_one, add_zero, if_false, if_true, Option.some.injEq, $ts,*] $(loc)?)

end Expreduce
