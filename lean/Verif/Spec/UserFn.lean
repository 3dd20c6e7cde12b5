import Verif.Spec.AssignProg
import Verif.Spec.Replace
import Verif.Proofs.CallPats

/-! What a function of the user looks like, and what a call of it gives. -/

namespace Expreduce
open Ex

/-- One definition `f[p, q, ...] := body`. -/
structure Clause where
  args : List ArgPat
  body : Ex

/-- The symbol `f` has these definitions, tried in this order; it has no value and no function of the program, and attributes that do not rearrange its arguments. -/
structure HasClauses (st : EState) (f : String) (cs : List Clause) : Prop where
  stored : ∃ d, st.defs f = some d ∧ d.builtin = false ∧ d.attrs.noRearrange = true ∧
    d.downvalues.map (fun dv => (dv.lhs, dv.rhs)) = cs.map (fun cl => (Ex.expr [S "HoldPattern", .expr (.sym f :: cl.args.map ArgPat.toEx)], cl.body))
  named : f ∉ CallMatch.specialHeads
  distinct : ∀ cl ∈ cs, (cl.args.filterMap ArgPat.name?).Nodup

/-- The same for a function whose attributes may also make it thread over lists, or numeric. -/
structure HasRules (st : EState) (f : String) (cs : List Clause) : Prop where
  stored : ∃ d, st.defs f = some d ∧ d.builtin = false ∧ (d.attrs.flat = false ∧ d.attrs.orderless = false) ∧
    d.downvalues.map (fun dv => (dv.lhs, dv.rhs)) = cs.map (fun cl => (Ex.expr [S "HoldPattern", .expr (.sym f :: cl.args.map ArgPat.toEx)], cl.body))
  named : f ∉ CallMatch.specialHeads
  distinct : ∀ cl ∈ cs, (cl.args.filterMap ArgPat.name?).Nodup

/-- What the arguments' names stand for in a call with these values. -/
def paramOf : List ArgPat → List Ex → String → Option Ex
  | .any x :: ps, a :: as, y => if y = x then some a else paramOf ps as y
  | .lit _ :: ps, _ :: as, y => paramOf ps as y
  | _, _, _ => none

/-- The body of the clause with the values in the place of the names. -/
def Clause.instance (cl : Clause) (vs : List Ex) : Ex := subst (paramOf cl.args vs) cl.body

/-- Evaluation of a function's body: as `Evals`, but `Return[x]` ends it with `x`. -/
def EvalsBody (c : Ctx) (st : EState) (e : Ex) (st' : EState) (v : Ex) : Prop := ∃ n, evalLoop c n (eval c n) (n + 1) st true none e = .ok (st', v)

end Expreduce
