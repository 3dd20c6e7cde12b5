import Verif.Model.Eval

/-! Specification of evaluation: big-step judgements. -/

namespace Expreduce
open Ex

/-- `x` has not finished, or is `y`. -/
def Res.Le {α : Type} (x y : Res α) : Prop := x = .stuck ∨ x = y

/-- `ev'` finishes whenever `ev` does, with the same outcome. -/
def EvLe (ev ev' : Evaluator) : Prop := ∀ st e, (ev st e).Le (ev' st e)

/-- The called functions do not look at how much fuel is left: with more fuel, and an evaluator that finishes more often, they do the same. -/
structure Ctx.Mono (c : Ctx) : Prop where
  fn : ∀ s n n' ev ev' st ps, n ≤ n' → EvLe ev ev' → (c.fn s n ev st ps).Le (c.fn s n' ev' st ps)
  find : ∀ ev ev' st s e, EvLe ev ev' → (c.find ev st s e).Le (c.find ev' st s e)

/-- `es.Eval(e)` started in state `st` returns `v` in state `st'`. -/
def Evals (c : Ctx) (st : EState) (e : Ex) (st' : EState) (v : Ex) : Prop := ∃ n, eval c n st e = .ok (st', v)

/-- `es.Eval(e)` panics. -/
def Panics (c : Ctx) (st : EState) (e : Ex) : Prop := ∃ n, eval c n st e = .panic

/-- `es.Eval(e)` never returns. -/
def Diverges (c : Ctx) (st : EState) (e : Ex) : Prop := ∀ n, eval c n st e = .stuck

/-- `e` evaluates to itself without effect. -/
def Done (c : Ctx) (st : EState) (e : Ex) : Prop := Evals c st e st e

/-- The application of a head to arguments. -/
def app (f : String) (args : List Ex) : Ex := .expr (.sym f :: args)

/-- One-level flattening: every part `h[a, b, ...]` is replaced by `a, b, ...`. -/
def splice (h : String) (ps : List Ex) : List Ex := ps.flatMap (fun p => (argsOf h p).getD [p])

/-- `b` is what a threaded function gets as its argument for entry `i` in the place of `a`. -/
def IsEntry (i : Nat) (a b : Ex) : Prop :=
  (∃ xs, a = app "System`List" xs ∧ xs[i]? = some b) ∨ (hasHead "System`List" a = false ∧ b = a)

/-- No head that has a special meaning among the arguments of a function with these attributes. -/
def plainPart (a : Attrs) (e : Ex) : Prop :=
  (a.sequenceHold = true ∨ a.holdAllComplete = true ∨ hasHead "System`Sequence" e = false) ∧
  (a.holdAllComplete = true ∨ hasHead "System`Evaluate" e = false) ∧
  hasHead "System`Unevaluated" e = false

/-- Which arguments (counted from 1) the attributes hold, by their documentation. -/
def holds (a : Attrs) (i : Nat) : Prop :=
  (a.holdFirst = true ∧ i = 1) ∨ (a.holdRest = true ∧ 1 < i) ∨ a.holdAll = true ∨ a.holdAllComplete = true

/-- Nothing is known about `f` except its attributes: no value, no built-in function, and no rule applies to `f[...]`. -/
structure FreeHead (c : Ctx) (st : EState) (f : String) : Prop where
  noValue : getSymDef st.toDState f = none
  noBuiltin : hasBuiltin st f = false
  noRule : ∀ ev args, c.find ev st f (app f args) = .ok (st, none)

/-- None of the attributes that rearrange arguments. -/
def Attrs.noRearrange (a : Attrs) : Bool := !a.flat && !a.orderless && !a.listable && !a.numericFunction

/-- The arguments from number `i` on are evaluated once each, from left to right, except the held ones, and nothing is thrown. -/
inductive EvalSeq (c : Ctx) (held : Nat → Prop) : Nat → EState → List Ex → EState → List Ex → Prop
  | nil {i st} : EvalSeq c held i st [] st []
  | hold {i st p ps st' vs} : held i → EvalSeq c held (i + 1) st ps st' vs → EvalSeq c held i st (p :: ps) st' (p :: vs)
  | step {i st p ps st1 v st' vs} : ¬ held i → Evals c st p st1 v → st1.thrown = none →
      EvalSeq c held (i + 1) st1 ps st' vs → EvalSeq c held i st (p :: ps) st' (v :: vs)

end Expreduce

namespace Expreduce
open Ex

/-- Evaluating `e` throws: it ends in a state in which `t` is on its way to a `Catch`. -/
def Throws (c : Ctx) (st : EState) (e : Ex) (st' : EState) (t : Ex) : Prop := (∃ v, Evals c st e st' v) ∧ st'.thrown = some t

/-- The symbol has a built-in function, called by the evaluator, and no value. -/
structure Builtin (c : Ctx) (st : EState) (f : String) (F : Nat → Evaluator → EState → List Ex → Res (EState × Ex)) : Prop where
  noValue : getSymDef st.toDState f = none
  builtin : hasBuiltin st f = true
  fn : c.fn f = F

/-- Evaluation never changes the state. -/
def PureEv (ev : Evaluator) : Prop := ∀ st e st' v, ev st e = .ok (st', v) → st' = st

mutual
/-- Whether the symbol occurs in the expression. -/
def mentions (x : String) : Ex → Bool
  | .sym s => s == x
  | .cplx r i => mentions x r || mentions x i
  | .expr ps => mentionsL x ps
  | _ => false
/-- Whether the symbol occurs in one of the expressions. -/
def mentionsL (x : String) : List Ex → Bool
  | [] => false
  | p :: ps => mentions x p || mentionsL x ps
end

/-- The expression does not mention the symbol `Return`. -/
def NoReturn (e : Ex) : Prop := mentions "System`Return" e = false

/-- In the state `st` the called functions change nothing and do not bring in `Return`. -/
structure Ctx.Tame (c : Ctx) (st : EState) : Prop where
  fnPure : ∀ s n ev ps st' v, (∀ e st' v, ev st e = .ok (st', v) → st' = st) → c.fn s n ev st ps = .ok (st', v) → st' = st
  findPure : ∀ s ev e st' v, (∀ e st' v, ev st e = .ok (st', v) → st' = st) → c.find ev st s e = .ok (st', v) → st' = st
  fnNoReturn : ∀ s n ev ps st' v, (∀ e st' v, NoReturn e → ev st e = .ok (st', v) → st' = st ∧ NoReturn v) → NoReturn (.expr ps) →
    c.fn s n ev st ps = .ok (st', v) → NoReturn v
  findNoReturn : ∀ s ev e st' v, (∀ e st' v, NoReturn e → ev st e = .ok (st', v) → st' = st ∧ NoReturn v) → NoReturn e →
    c.find ev st s e = .ok (st', some v) → NoReturn v
  applyNoReturn : ∀ fargs args v, NoReturn (.expr fargs) → NoReturn (.expr args) → c.apply st fargs args = .ok v → NoReturn v
  sortMem : ∀ l a, a ∈ c.sort l → a ∈ l
  values : ∀ s d, getSymDef st.toDState s = some d → NoReturn d
  indeterminate : getSymDef st.toDState "System`Indeterminate" = none
  complexInfinity : getSymDef st.toDState "System`ComplexInfinity" = none
  notThrown : st.thrown = none
  notInterrupted : st.interrupted = false

end Expreduce

namespace Expreduce
open Ex

/-- The built-in symbol has the implementation `F`, attributes that do not rearrange, and no rules; also while a throw is pending. -/
structure Command (c : Ctx) (f : String) (F : Nat → Evaluator → EState → List Ex → Res (EState × Ex)) (st : EState) : Prop extends
    Builtin c st f F where
  plain : (attrsOf st f).noRearrange = true
  noRules : ∀ ev e th, c.find ev { st with thrown := th } f e = .ok ({ st with thrown := th }, none)

/-- In the state `st`, `Throw`, `Catch` and `CompoundExpression` are as in the code. -/
structure HasThrow (c : Ctx) (st : EState) : Prop where
  throwCmd : Command c "System`Throw" (fun _ _ st ps => throwFn st ps) st
  throwHold : (attrsOf st "System`Throw").holdAll = false ∧ (attrsOf st "System`Throw").holdAllComplete = false ∧
    (attrsOf st "System`Throw").holdFirst = false
  catchCmd : Command c "System`Catch" (fun _ ev st ps => catchFn ev st ps) st
  catchHold : (attrsOf st "System`Catch").holdFirst = true
  compoundCmd : Command c "System`CompoundExpression" (fun _ ev st ps => compoundFn ev st ps) st
  compoundHold : (attrsOf st "System`CompoundExpression").holdAll = true

/-- How a throw comes about, however deep: the program `e`, started in `st`, reaches in the state `st'` the call `t` of `Throw`.
What stands to the right of the path plays no part. -/
inductive ThrowPath (c : Ctx) : EState → Ex → EState → Ex → Prop
  /-- `Throw[p]` where `p` has the value `v` -/
  | here {st p st1 v} : HasThrow c st → HasThrow c st1 → st.thrown = none → Evals c st p st1 v → st1.thrown = none →
      plainPart (attrsOf st "System`Throw") v →
      ThrowPath c st (app "System`Throw" [p]) { st1 with thrown := some (app "System`Throw" [v]) } (app "System`Throw" [v])
  /-- in an argument that is not held, after the arguments to the left -/
  | arg {st f left st1 vs p st2 t right} : st.thrown = none → getSymDef st.toDState f = none →
      conditional (attrsOf st f) (.sym f :: (left ++ p :: right)) = none →
      EvalSeq c (holds (attrsOf st f)) 1 st left st1 vs → ¬ holds (attrsOf st f) (1 + left.length) → ThrowPath c st1 p st2 t →
      ThrowPath c st (app f (left ++ p :: right)) st2 t
  /-- in a statement of `a; b; ...`, after statements without throw or `Return` -/
  | stmt {st left st1 vs p st2 t right} : HasThrow c st → HasThrow c st2 → st.thrown = none →
      EvalSeq c (fun _ => False) 1 st left st1 vs → (∀ v ∈ vs, hasHead "System`Return" v = false) →
      (∀ q ∈ left ++ p :: right, plainPart (attrsOf st "System`CompoundExpression") q) → ThrowPath c st1 p st2 t →
      ThrowPath c st (app "System`CompoundExpression" (left ++ p :: right)) st2 t

end Expreduce
