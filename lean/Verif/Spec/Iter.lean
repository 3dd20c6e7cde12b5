import Verif.Model.Iter
import Verif.Spec.Eval
import Verif.Spec.Defs

/-! Specification of iteration. -/

namespace Expreduce
open Ex

/-- The number of integers `lo, lo + step, lo + 2 step, ...` up to `hi`, for a positive `step`. -/
def progressionLength (lo hi step : Int) : Nat := if hi < lo then 0 else ((hi - lo) / step).toNat + 1

/-- The integers `lo, lo + step, lo + 2 step, ...` up to `hi`. -/
def progression (lo hi step : Int) : List Ex := (List.range (progressionLength lo hi step)).map (fun k : Nat => .int (lo + (k : Int) * step))

/-- All choices of one element of each list, in the order of nested loops (the last list is the innermost loop). -/
def combinations : List (List Ex) → List (List Ex)
  | [] => [[]]
  | l :: ls => l.flatMap (fun x => (combinations ls).map (x :: ·))

/-- The variable and the values of the iterator with the given (evaluated) elements: `{v, {a, b, ...}}`, `{v, hi}`, `{v, lo, hi}`,
`{v, lo, hi, step}` with integers. -/
inductive IterVals : List Ex → Ex → List Ex → Prop
  | list (v xs) : (iterName v).isSome → IterVals [v, app "System`List" xs] v xs
  | upTo (v hi) : (iterName v).isSome → IterVals [v, .int hi] v (progression 1 hi 1)
  | fromTo (v lo hi) : (iterName v).isSome → IterVals [v, .int lo, .int hi] v (progression lo hi 1)
  | by (v lo hi step) : (iterName v).isSome → 0 < step → IterVals [v, .int lo, .int hi, .int step] v (progression lo hi step)

/-- In the state `st` the symbol `f` is the built-in operation `F` on numbers, its arguments are evaluated, and it has no rule for two integers. -/
structure IntOp (c : Ctx) (st : EState) (f : String) (F : List Ex → Ex) : Prop extends
    Builtin c st f (fun _ _ st ps => .ok (st, F ps.tail)) where
  noHold : (attrsOf st f).holdAll = false ∧ (attrsOf st f).holdAllComplete = false ∧ (attrsOf st f).holdFirst = false ∧
    (attrsOf st f).holdRest = false
  noRule : ∀ ev (a b : Int), c.find ev st f (app f [.int a, .int b]) = .ok (st, none)
  noMark : ∀ args, c.skip st (app f args) = false

/-- In the state `st` nothing is thrown, and `Plus` and `Times` of integers are as in the code. -/
structure IntArith (c : Ctx) (st : EState) : Prop where
  notThrown : st.thrown = none
  plus : ∃ toN, IntOp c st "System`Plus" (plusEval toN)
  times : ∃ toN, IntOp c st "System`Times" (timesEval toN)

/-- The iterators are read one after the other: the elements of each, except the variable, are evaluated. -/
inductive IterSeq (c : Ctx) : EState → List Ex → EState → List (Ex × List Ex) → Prop
  | nil {st} : IterSeq c st [] st []
  | cons {st v ps st1 ws xs es st2 its} : EvalSeq c (fun _ => False) 2 st ps st1 ws → IntArith c st1 → IterVals (v :: ws) v xs →
      IterSeq c st1 es st2 its → IterSeq c st (app "System`List" (v :: ps) :: es) st2 ((v, xs) :: its)

/-- The variables get the values, one after the other. -/
def assignAll (strLen : Ex → Nat) : EState → List Ex → List Ex → Res EState
  | st, v :: vs, x :: xs => (defineIn strLen st v x).bind (fun st' => assignAll strLen st' vs xs)
  | st, _, _ => .ok st

/-- For each row of values in turn: the variables get these values, then `step` happens. -/
inductive Visits (c : Ctx) (strLen : Ex → Nat) {α : Type} (step : EState → α → EState → α → Prop) (vars : List Ex) :
    EState → α → List (List Ex) → EState → α → Prop
  | nil {st a} : Visits c strLen step vars st a [] st a
  | cons {st a row st1 st2 b rows st3 d} : assignAll strLen st vars row = .ok st1 → step st1 a st2 b → IntArith c st2 →
      Visits c strLen step vars st2 b rows st3 d → Visits c strLen step vars st a (row :: rows) st3 d

/-- The variables get their old values back, or are cleared. -/
def restoreAll (strLen : Ex → Nat) : EState → List (Ex × Option Ex) → Res EState
  | st, [] => .ok st
  | st, (v, some d) :: l => (defineIn strLen st v d).bind (fun st' => restoreAll strLen st' l)
  | st, (v, none) :: l =>
    match iterName v with
    | some s => restoreAll strLen { st with toDState := clear st.toDState s } l
    | none => restoreAll strLen st l

/-- The value of each symbol. -/
def valuesOf (st : EState) (vars : List String) : List (Ex × Option Ex) := vars.map (fun s => (.sym s, getSymDef st.toDState s))

/-- The rules stored for the symbol `x` are as `Define` stores them, and the value of `x` itself has no condition. -/
structure PlainRules (x : String) (rs : List DV) : Prop where
  held : ∀ dv ∈ rs, ∃ l, dv.lhs = held l
  mask : ∀ dv ∈ rs, MaskOk dv.rhs
  own : ∀ dv ∈ rs, isSymbolRule dv.lhs = true → dv.lhs = Expreduce.held (.sym x) ∧ Unconditional dv.rhs
  noCollision : ∀ dv ∈ rs, hash dv.lhs = hash (Expreduce.held (.sym x)) → dv.lhs = Expreduce.held (.sym x)

end Expreduce
