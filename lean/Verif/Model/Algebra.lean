import Verif.Model.Eval
import Verif.Model.NumTheory

/-!
# The algebraic core: the interpreter with the builtin functions of exact arithmetic

`/repo/expreduce/builtin_arithmetic.go`, `/repo/expreduce/builtin_power.go`, `/repo/expreduce/builtin_atoms.go`, with the rules of the table
of definitions (`evalstate.go:328-358`).
-/

namespace Expreduce
open Ex

/-- What the rules see (`evalstate.go`, `matcher/matchq.go`): attributes and default values of the table. `truth` are the tests and
conditions that evaluate to `True`; simplification: their evaluation does not change the state. -/
def envOf (st : EState) (truth : Ex → Bool) : MEnv where
  flat := fun s => (attrsOf st s).flat
  orderless := fun s => (attrsOf st s).orderless
  oneIdentity := fun s => (attrsOf st s).oneIdentity
  dflt := fun s => (st.defs s).bind DefM.dflt
  isTrue := truth

/-- `Rational` (`builtin_atoms.go:12-21`). -/
def rationalFn : List Ex → Ex
  | [.int n, .int d] => evalRational n d
  | args => .expr (S "Rational" :: args)

/-- A component of a complex number (`builtin_atoms.go:30-41`); machine reals are left out here. -/
def realAtom : Ex → Bool
  | .int _ => true
  | .rat _ _ => true
  | _ => false

/-- `Complex` (`builtin_atoms.go:25-51`), without machine reals. -/
def complexFn : List Ex → Ex
  | [re, im] => if realAtom re && realAtom im then evalComplex re im else .expr [S "Complex", re, im]
  | args => .expr (S "Complex" :: args)

/-- `Power` (`builtin_power.go:195-413`), without machine reals: the exponent 1, integers, and an integer with a rational exponent.
`none`: not finished. -/
def powerFn (fuel : Nat) (order : List (Nat × Int) → List (Nat × Int)) : List Ex → Option Ex
  | [.int b, .int p] => some (powerIntInt b p)
  | [b, .int p] => some (if p = 1 then b else .expr [S "Power", b, .int p])
  | [.int b, .rat m d] => if 0 < d then powerIntRat fuel order b m d.toNat else some (.expr [S "Power", .int b, .rat m d])
  | args => some (.expr (S "Power" :: args))

/-- What the interpreter below takes as given. -/
structure AlgParams where
  /-- `exprToN` (not used without machine reals) -/
  toN : Ex → Ex := id
  /-- the order in which the Go map of `extractPower` is iterated (`builtin_power.go:92`) -/
  order : List (Nat × Int) → List (Nat × Int) := id
  /-- the tests and conditions that evaluate to `True` -/
  truth : Ex → Bool := fun _ => false
  /-- the bodies of `With` and `Module` (`replace.go:100-131`) -/
  locals : Ex → Option Ex := fun _ => none
  /-- the bounds of the loops of the matcher -/
  bound : Nat := 100

/-- The builtin functions by name. -/
def algFn (A : AlgParams) (s : String) (n : Nat) (_ : Evaluator) (st : EState) (ps : List Ex) : Res (EState × Ex) :=
  match ps with
  | [] => .panic
  | h :: args =>
    if s = "System`Plus" then .ok (st, plusEval A.toN args)
    else if s = "System`Times" then .ok (st, timesEval A.toN args)
    else if s = "System`Rational" then .ok (st, rationalFn args)
    else if s = "System`Complex" then .ok (st, complexFn args)
    else if s = "System`Power" then
      match powerFn n A.order args with
      | none => .stuck
      | some e => .ok (st, e)
    else .ok (st, .expr (h :: args))

/-- `GetDef` (`evalstate.go:328-358`). -/
def algFind (A : AlgParams) (st : EState) (s : String) (e : Ex) : Res (EState × Option Ex) :=
  match getDef st.toDState (envOf st A.truth) A.locals A.bound A.bound s e with
  | none => .stuck
  | some r => .ok (st, r)

/-- The interpreter with these functions and the rules of the table. -/
def algCtx (A : AlgParams) : Ctx := { fn := algFn A, find := fun _ st s e => algFind A st s e }

end Expreduce
