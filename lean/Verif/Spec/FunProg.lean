import Verif.Spec.UserFn
import Verif.Spec.ImpProg

/-!
A small functional language: functions defined by cases on their arguments (integers or names), with arithmetic, `If`, comparisons and calls of each other. Its meaning is given by the
interpreter `run` below, which knows nothing of the evaluator.
-/

namespace Expreduce
open Ex
namespace Fp

/-- Expressions; `cond a b` compares: `less` (`<`) or not (`<=`). -/
inductive Exp
  | lit (n : Int)
  | var (x : String)
  | add (a b : Exp)
  | mul (a b : Exp)
  | sub (a b : Exp)
  | ite (less : Bool) (a b t e : Exp)
  | call (f : String) (args : List Exp)

/-- One definition `f[p, q, ...] := body`. -/
structure Eqn where
  args : List ArgPat
  body : Exp

/-- The definitions of each function, in the order in which they are tried. -/
abbrev Program := String → Option (List Eqn)

/-- Does the number fit the argument? Numbers beyond `B` are not compared with literals (their fingerprints might be the same). -/
def fits (B : Int) : ArgPat → Int → Option Bool
  | .any _, _ => some true
  | .lit c, v => if v = c then some true else if |v| ≤ B then some false else none

def fitAll (B : Int) : List ArgPat → List Int → Option Bool
  | [], [] => some true
  | p :: ps, v :: vs =>
    match fits B p v with
    | some true => fitAll B ps vs
    | r => r
  | _, _ => none

/-- The first definition that fits. -/
def pick (B : Int) (vs : List Int) : List Eqn → Option Eqn
  | [] => none
  | q :: qs =>
    match fitAll B q.args vs with
    | some true => some q
    | some false => pick B vs qs
    | none => none

/-- The values of the parameters. -/
def params : List ArgPat → List Int → Imp.Store
  | .any x :: ps, v :: vs, y => if y = x then some v else params ps vs y
  | .lit _ :: ps, _ :: vs, y => params ps vs y
  | _, _, _ => none

/-- Names in `ρ` hide those in `σ`. -/
def over (ρ σ : Imp.Store) : Imp.Store := fun x => (ρ x).orElse (fun _ => σ x)

/-- The outcome of a comparison, of numbers up to 2^53 only. -/
def compare (less : Bool) (m n : Int) : Option Bool :=
  if |m| ≤ 2 ^ 53 ∧ |n| ≤ 2 ^ 53 then some (if less then decide (m < n) else decide (m ≤ n)) else none

/-- The value of an expression, found in `d` steps of depth. `σ`: the global variables; `ρ`: the parameters. -/
def run (B : Int) (P : Program) (σ : Imp.Store) : Nat → Imp.Store → Exp → Option Int
  | 0, _, _ => none
  | d + 1, ρ, e =>
    match e with
    | .lit n => some n
    | .var x => over ρ σ x
    | .add a b => do pure ((← run B P σ d ρ a) + (← run B P σ d ρ b))
    | .mul a b => do pure ((← run B P σ d ρ a) * (← run B P σ d ρ b))
    | .sub a b => do pure ((← run B P σ d ρ a) - (← run B P σ d ρ b))
    | .ite less a b t e => do
      if ← compare less (← run B P σ d ρ a) (← run B P σ d ρ b) then run B P σ d ρ t else run B P σ d ρ e
    | .call f args => do
      let vs ← args.mapM (run B P σ d ρ)
      let qs ← P f
      if qs.all (fun q => q.args.length = vs.length) then
        let q ← pick B vs qs
        run B P σ d (params q.args vs) q.body
      else none

/-! ### How it is written -/

mutual
/-- `a + b`, `a * b`, `a - b`, `If[a < b, t, e]`, `f[a, b, ...]`. -/
def Exp.toEx : Exp → Ex
  | .lit n => .int n
  | .var x => .sym x
  | .add a b => .expr [.sym "System`Plus", a.toEx, b.toEx]
  | .mul a b => .expr [.sym "System`Times", a.toEx, b.toEx]
  | .sub a b => AssignProg.minusEx a.toEx b.toEx
  | .ite less a b t e => .expr [.sym "System`If", .expr [.sym (if less then "System`Less" else "System`LessEqual"), a.toEx, b.toEx], t.toEx, e.toEx]
  | .call f args => .expr (.sym f :: Exp.toExL args)
def Exp.toExL : List Exp → List Ex
  | [] => []
  | a :: as => a.toEx :: Exp.toExL as
end

mutual
/-- The functions called. -/
def Exp.calls : Exp → List String
  | .lit _ | .var _ => []
  | .add a b | .mul a b | .sub a b => a.calls ++ b.calls
  | .ite _ a b t e => a.calls ++ b.calls ++ t.calls ++ e.calls
  | .call f args => f :: Exp.callsL args
def Exp.callsL : List Exp → List String
  | [] => []
  | a :: as => a.calls ++ Exp.callsL as
end

/-- The expression with the values of the parameters in their places. -/
def written (ρ : Imp.Store) (e : Exp) : Ex := subst (fun x => (ρ x).map Ex.int) e.toEx

def Eqn.toClause (q : Eqn) : Clause := ⟨q.args, q.body.toEx⟩

/-- Names that have a meaning of their own. -/
def taken : List String :=
  ["System`Plus", "System`Times", "System`Less", "System`LessEqual", "System`If", "System`ConditionalExpression", "System`Return", "System`Condition", "System`With", "System`Module",
   "System`Sequence", "System`Evaluate", "System`Unevaluated"]

/-- The session has the definitions of the program and the values of the global variables; the functions of the program evaluate their arguments; parameters are not named like functions;
numbers up to `B` have fingerprints different from those of the literals on left sides. -/
structure Installed (st : EState) (B : Int) (P : Program) (σ : Imp.Store) : Prop where
  shell : AssignProg.Shell st
  cond : st.defs "System`If" = some Imp.ifEntry
  globals : ∀ x n, σ x = some n → AssignProg.HasValue st x (.int n)
  stored : ∀ f qs, P f = some qs → HasClauses st f (qs.map Eqn.toClause) ∧ ∀ i, ¬ holds (attrsOf st f) i
  named : ∀ f qs, P f = some qs → ∀ q ∈ qs, ∀ g ∈ q.body.calls, g ∉ taken
  names : ∀ f qs, P f = some qs → ∀ q ∈ qs, ∀ x, ArgPat.any x ∈ q.args → x ∉ taken ∧ x ∉ q.body.calls
  literals : ∀ f qs, P f = some qs → ∀ q ∈ qs, ∀ c, ArgPat.lit c ∈ q.args → ∀ v : Int, |v| ≤ B → v ≠ c → isSameQ (.int v) (.int c) = false

/-- What an expression that never gets a value does first: it runs into a part that never gets one. (A call whose body is this same call, as with `f[x_] := f[x]`, is excluded: the
interpreter gives it back.) -/
inductive Ahead (B : Int) (P : Program) (σ : Imp.Store) (R : Imp.Store → Exp → Prop) : Imp.Store → Exp → Prop
  | addL {ρ a b} : R ρ a → Ahead B P σ R ρ (.add a b)
  | addR {ρ a b d p} : run B P σ d ρ a = some p → R ρ b → Ahead B P σ R ρ (.add a b)
  | mulL {ρ a b} : R ρ a → Ahead B P σ R ρ (.mul a b)
  | mulR {ρ a b d p} : run B P σ d ρ a = some p → R ρ b → Ahead B P σ R ρ (.mul a b)
  | subL {ρ a b} : R ρ a → Ahead B P σ R ρ (.sub a b)
  | subR {ρ a b d p} : run B P σ d ρ a = some p → R ρ b → Ahead B P σ R ρ (.sub a b)
  | testL {ρ less a b t e} : R ρ a → Ahead B P σ R ρ (.ite less a b t e)
  | testR {ρ less a b t e d p} : run B P σ d ρ a = some p → R ρ b → Ahead B P σ R ρ (.ite less a b t e)
  | branch {ρ less a b t e d d' p q r} : run B P σ d ρ a = some p → run B P σ d' ρ b = some q → compare less p q = some r → R ρ (if r then t else e) →
      Ahead B P σ R ρ (.ite less a b t e)
  | arg {ρ f qs pre a post} : P f = some qs → (∀ x ∈ pre, ∃ d v, run B P σ d ρ x = some v) → R ρ a → Ahead B P σ R ρ (.call f (pre ++ a :: post))
  | body {ρ f qs args d vs q} : args.mapM (run B P σ d ρ) = some vs → P f = some qs → (∀ q ∈ qs, q.args.length = vs.length) → pick B vs qs = some q →
      R (params q.args vs) q.body → written (params q.args vs) q.body ≠ written ρ (.call f args) → Ahead B P σ R ρ (.call f args)

/-- The expression never gets a value (the largest predicate with this property). -/
def Forever (B : Int) (P : Program) (σ ρ : Imp.Store) (e : Exp) : Prop := ∃ R : Imp.Store → Exp → Prop, (∀ ρ e, R ρ e → Ahead B P σ R ρ e) ∧ R ρ e

end Fp
end Expreduce
