import Verif.Spec.AssignProg

/-!
A small imperative language: integer variables, arithmetic, comparisons, assignment, sequence, `If`, `While`, with its ordinary meaning. Nothing here refers to the interpreter except the
translations `toEx`, which say how a program is written.
-/

namespace Expreduce
open Ex
namespace Imp

/-- Integer expressions. -/
inductive AExp
  | lit (n : Int)
  | var (x : String)
  | add (a b : AExp)
  | mul (a b : AExp)
  | sub (a b : AExp)

/-- Tests. -/
inductive BExp
  | lt (a b : AExp)
  | le (a b : AExp)

/-- Statements. -/
inductive Stmt
  | skip
  | expr (a : AExp)
  | assign (x : String) (a : AExp)
  | seq (s t : Stmt)
  | ite (b : BExp) (s t : Stmt)
  | loop (b : BExp) (s : Stmt)

/-- The values of the variables; `none` for a variable that has none yet. -/
abbrev Store := String → Option Int

def Store.set (σ : Store) (x : String) (n : Int) : Store := fun y => if y = x then some n else σ y

/-- The value of an expression. -/
def AExp.eval (σ : Store) : AExp → Option Int
  | .lit n => some n
  | .var x => σ x
  | .add a b => do pure ((← a.eval σ) + (← b.eval σ))
  | .mul a b => do pure ((← a.eval σ) * (← b.eval σ))
  | .sub a b => do pure ((← a.eval σ) - (← b.eval σ))

/-- The integers that machine numbers represent exactly. -/
def Exactly (n : Int) : Prop := |n| ≤ 2 ^ 53

/-- The outcome of a test. Only numbers up to 2^53 are compared: beyond, the interpreter compares rounded numbers. -/
inductive BExp.Gives (σ : Store) : BExp → Bool → Prop
  | lt {a b m n} : a.eval σ = some m → b.eval σ = some n → Exactly m → Exactly n → BExp.Gives σ (.lt a b) (decide (m < n))
  | le {a b m n} : a.eval σ = some m → b.eval σ = some n → Exactly m → Exactly n → BExp.Gives σ (.le a b) (decide (m ≤ n))

/-- The meaning of a statement: from the store `σ` it comes to an end, in the store `σ'`, with a value (`none` for `Null`). -/
inductive Run : Stmt → Store → Store → Option Int → Prop
  | skip {σ} : Run .skip σ σ none
  | expr {σ a n} : a.eval σ = some n → Run (.expr a) σ σ (some n)
  | assign {σ x a n} : a.eval σ = some n → Run (.assign x a) σ (σ.set x n) (some n)
  | seq {s t σ σ1 σ2 v w} : Run s σ σ1 v → Run t σ1 σ2 w → Run (.seq s t) σ σ2 w
  | yes {b s t σ σ' v} : b.Gives σ true → Run s σ σ' v → Run (.ite b s t) σ σ' v
  | no {b s t σ σ' v} : b.Gives σ false → Run t σ σ' v → Run (.ite b s t) σ σ' v
  | stop {b s σ} : b.Gives σ false → Run (.loop b s) σ σ none
  | round {b s σ σ1 σ2 v} : b.Gives σ true → Run s σ σ1 v → Run (.loop b s) σ1 σ2 none → Run (.loop b s) σ σ2 none

/-- What a statement that never comes to an end does first: it runs into a part that never comes to an end. -/
inductive Ahead (R : Stmt → Store → Prop) : Stmt → Store → Prop
  | first {s t σ} : R s σ → Ahead R (.seq s t) σ
  | second {s t σ σ1 v} : Run s σ σ1 v → R t σ1 → Ahead R (.seq s t) σ
  | yes {b s t σ} : b.Gives σ true → R s σ → Ahead R (.ite b s t) σ
  | no {b s t σ} : b.Gives σ false → R t σ → Ahead R (.ite b s t) σ
  | body {b s σ} : b.Gives σ true → R s σ → Ahead R (.loop b s) σ
  | again {b s σ σ1 v} : b.Gives σ true → Run s σ σ1 v → R (.loop b s) σ1 → Ahead R (.loop b s) σ

/-- The statement never comes to an end (the largest predicate with this property). -/
def Forever (s : Stmt) (σ : Store) : Prop := ∃ R : Stmt → Store → Prop, (∀ s σ, R s σ → Ahead R s σ) ∧ R s σ

/-- The statement comes to a point where the language gives no meaning: a variable without value is read, or numbers beyond 2^53 are compared. -/
inductive Faults : Stmt → Store → Prop
  | expr {a σ} : a.eval σ = none → Faults (.expr a) σ
  | assign {x a σ} : a.eval σ = none → Faults (.assign x a) σ
  | first {s t σ} : Faults s σ → Faults (.seq s t) σ
  | second {s t σ σ1 v} : Run s σ σ1 v → Faults t σ1 → Faults (.seq s t) σ
  | choice {b s t σ} : (∀ r, ¬ b.Gives σ r) → Faults (.ite b s t) σ
  | yes {b s t σ} : b.Gives σ true → Faults s σ → Faults (.ite b s t) σ
  | no {b s t σ} : b.Gives σ false → Faults t σ → Faults (.ite b s t) σ
  | test {b s σ} : (∀ r, ¬ b.Gives σ r) → Faults (.loop b s) σ
  | body {b s σ} : b.Gives σ true → Faults s σ → Faults (.loop b s) σ
  | again {b s σ σ1 v} : b.Gives σ true → Run s σ σ1 v → Faults (.loop b s) σ1 → Faults (.loop b s) σ

/-! ### How a program is written -/

/-- Expressions: `a + b`, `a * b`, `a - b`. -/
def AExp.toEx : AExp → Ex
  | .lit n => .int n
  | .var x => .sym x
  | .add a b => .expr [.sym "System`Plus", a.toEx, b.toEx]
  | .mul a b => .expr [.sym "System`Times", a.toEx, b.toEx]
  | .sub a b => AssignProg.minusEx a.toEx b.toEx

/-- Tests: `a < b`, `a <= b`. -/
def BExp.toEx : BExp → Ex
  | .lt a b => .expr [.sym "System`Less", a.toEx, b.toEx]
  | .le a b => .expr [.sym "System`LessEqual", a.toEx, b.toEx]

/-- Statements: `Null`, an expression, `x = a`, `s; t`, `If[b, s, t]`, `While[b, s]`. -/
def Stmt.toEx : Stmt → Ex
  | .skip => .sym "System`Null"
  | .expr a => a.toEx
  | .assign x a => .expr [.sym "System`Set", .sym x, a.toEx]
  | .seq s t => .expr [.sym "System`CompoundExpression", s.toEx, t.toEx]
  | .ite b s t => .expr [.sym "System`If", b.toEx, s.toEx, t.toEx]
  | .loop b s => .expr [.sym "System`While", b.toEx, s.toEx]

/-- The value of a statement as the interpreter shows it. -/
def valueEx : Option Int → Ex
  | some n => .int n
  | none => .sym "System`Null"

/-- The variables read. -/
def AExp.vars : AExp → List String
  | .lit _ => []
  | .var x => [x]
  | .add a b | .mul a b | .sub a b => a.vars ++ b.vars

def BExp.vars : BExp → List String
  | .lt a b | .le a b => a.vars ++ b.vars

/-- The variables read or written. -/
def Stmt.vars : Stmt → List String
  | .skip => []
  | .expr a => a.vars
  | .assign x a => x :: a.vars
  | .seq s t => s.vars ++ t.vars
  | .ite b s t => b.vars ++ s.vars ++ t.vars
  | .loop b s => b.vars ++ s.vars

/-- The shipped `If` (`flowcontrol.m:2`, `builtin_flowcontrol.go:58-87`). -/
def ifEntry : DefM := { attrs := { holdRest := true, prot := true }, builtin := true }

/-- The session holds the store: the functions used here are as shipped, and each of the variables `D` has the value given by `σ` (anything or nothing if `σ` gives none). -/
structure Holds (st : EState) (D : List String) (σ : Store) : Prop where
  shell : AssignProg.Shell st
  cond : st.defs "System`If" = some ifEntry
  user : ∀ x ∈ D, AssignProg.Variable st x ∧ x ≠ "System`If"
  value : ∀ x ∈ D, ∀ n, σ x = some n → AssignProg.HasValue st x (.int n)

/-- Nothing but the definitions of the variables `D` has changed. -/
structure OnlyVars (D : List String) (st st' : EState) : Prop where
  others : ∀ g, g ∉ D → st'.defs g = st.defs g
  thrown : st'.thrown = st.thrown
  interrupted : st'.interrupted = st.interrupted
  sown : st'.sown = st.sown
  frozen : st'.frozen = st.frozen

end Imp
end Expreduce
