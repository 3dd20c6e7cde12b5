import Verif.Model.Eval

/-!
# `Trace` and the evaluator in trace mode (`/repo/expreduce/eval.go:83-160`, `/repo/expreduce/builtin_system.go:683-712`)

The evaluator of `Verif.Model.Eval` with the field `trace` of the state added: `none` is nil, `some l` is the list `{...}` with the entries
`l`. A builtin function is a program that calls the evaluator (`BProg`): it does not look at the trace, with the exception of `Trace` itself.
Simplification: the trace is a value (`DeepCopy` makes it one in the code). In the code the flag `freeze` is never set.
-/

namespace Expreduce
open Ex

/-- The field `trace` of `EvalState` (`evalstate.go:26`). -/
abbrev Trace := Option (List Ex)

/-- `es.Eval` with the trace. -/
abbrev TEvaluator := EState → Trace → Ex → Res (EState × Trace × Ex)

/-- A piece of Go code whose only contact with the evaluator is to call `es.Eval`: it is done, or it has called and goes on with the result. -/
inductive BProg (α : Type) where
  | done (r : Res (EState × α))
  | call (st : EState) (e : Ex) (k : EState → Ex → BProg α)

/-- Running it without trace. -/
def BProg.run {α : Type} (ev : Evaluator) : BProg α → Res (EState × α)
  | .done r => r
  | .call st e k => (ev st e).bind (fun r => (k r.1 r.2).run ev)

/-- Running it in trace mode: the trace is handed on from call to call. -/
def BProg.runT {α : Type} (ev : TEvaluator) : Trace → BProg α → Res (EState × Trace × α)
  | tr, .done r => r.bind (fun q => .ok (q.1, tr, q.2))
  | tr, .call st e k => (ev st tr e).bind (fun r => (k r.1 r.2.2).runT ev r.2.1)

/-- What the evaluator calls, as programs (see `Ctx`). -/
structure TCtx where
  skip : EState → Ex → Bool := fun _ _ => false
  fn : String → Nat → EState → List Ex → BProg Ex := fun _ _ st ps => .done (.ok (st, .expr ps))
  find : EState → String → Ex → BProg (Option Ex) := fun st _ _ => .done (.ok (st, none))
  apply : EState → List Ex → List Ex → Res Ex := fun _ fargs _ => .ok (.expr (S "Function" :: fargs))
  same : Ex → Ex → Bool := fun a b => hash a == hash b
  sort : List Ex → List Ex := insertionSort exLess
  /-- whether the function `Trace` is installed -/
  traceFn : Bool := true

/-- The same without trace. -/
def TCtx.plain (c : TCtx) : Ctx where
  skip := c.skip
  fn := fun s n ev st ps => (c.fn s n st ps).run ev
  find := fun ev st s e => (c.find st s e).run ev
  apply := c.apply
  same := c.same
  sort := c.sort

/-- Whether entries are made (`eval.go:85, 136, 152, 164`). -/
def tracing (st : EState) (tr : Trace) : Bool := tr.isSome && !st.frozen

/-- `HoldForm[e]` -/
def holdForm (e : Ex) : Ex := .expr [S "HoldForm", e]

/-- An entry added to the trace. -/
def addEntry (tr : Trace) (e : Ex) : Trace := tr.map (· ++ [e])

/-- The end of the evaluation of an argument (`eval.go:152-159`): `bak` is `traceBak`. Appending to nil panics. -/
def closeArg (st : EState) (bak tr : Trace) : Option Trace :=
  match tr with
  | none => some none
  | some l =>
    if st.frozen then some (some l)
    else if 1 < l.length then
      match bak with
      | none => none
      | some b => some (some (b ++ [.expr (S "List" :: l)]))
    else some bak

/-- The loop over the parts (`eval.go:126-161`). If something was thrown, the function returns at once and leaves the trace of the argument
in place (`eval.go:146-148`). -/
def evalArgsT (ev : TEvaluator) (held : Nat → Bool) : Nat → EState → Trace → List Ex → Res (EState × Trace × (List Ex ⊕ Ex))
  | _, st, tr, [] => .ok (st, tr, .inl [])
  | i, st, tr, p :: ps =>
    if held i then
      (evalArgsT ev held (i + 1) st tr ps).bind (fun r => .ok (r.1, r.2.1, r.2.2.map (p :: ·) id))
    else
      (ev st (if tracing st tr then some [] else tr) p).bind (fun r =>
        match r.1.thrown with
        | some t => .ok (r.1, r.2.1, .inr t)
        | none =>
          match closeArg r.1 tr r.2.1 with
          | none => .panic
          | some tr' => (evalArgsT ev held (i + 1) r.1 tr' ps).bind (fun q => .ok (q.1, q.2.1, q.2.2.map (r.2.2 :: ·) id)))

/-- The entry for the expression with evaluated arguments (`eval.go:163-177`): unless it is the same as the last part of the list (its head if
there is no entry). -/
def noteCall (st : EState) (tr : Trace) (e : Ex) : Trace :=
  if st.frozen then tr
  else tr.map (fun l => if isSameQ (l.getLastD (S "List")) (holdForm e) then l else l ++ [holdForm e])

/-- See `evalAll`. -/
def evalAllT (ev : TEvaluator) : EState → Trace → List Ex → Res (EState × Trace × List Ex)
  | st, tr, [] => .ok (st, tr, [])
  | st, tr, p :: ps => (ev st tr p).bind (fun r => (evalAllT ev r.1 r.2.1 ps).bind (fun q => .ok (q.1, q.2.1, r.2.2 :: q.2.2)))

/-- See `mergeEvalLoop` (`eval.go:360-397`). -/
def mergeEvalLoopT (ev : TEvaluator) (h : String) : EState → Trace → List Ex → Res (EState × Trace × List Ex)
  | st, tr, [] => .ok (st, tr, [])
  | st, tr, e :: ps =>
    match argsOf h e with
    | some args => (evalAllT ev st tr args).bind (fun r => (mergeEvalLoopT ev h r.1 r.2.1 ps).bind (fun q => .ok (q.1, q.2.1, r.2.2 ++ q.2.2)))
    | none => (mergeEvalLoopT ev h st tr ps).bind (fun q => .ok (q.1, q.2.1, e :: q.2.2))

/-- See `mergeEval`. -/
def mergeEvalT (ev : TEvaluator) (h : String) (st : EState) (tr : Trace) (ps : List Ex) : Res (EState × Trace × List Ex) :=
  if ps.any (hasHead h) then mergeEvalLoopT ev h st tr ps else .ok (st, tr, ps)

/-- See `spliceParts` (`eval.go:183-192`). -/
def splicePartsT (ev : TEvaluator) (isSym : Bool) (a : Attrs) (st : EState) (tr : Trace) (ps : List Ex) : Res (EState × Trace × List Ex) :=
  let ps := if isSym && (a.sequenceHold || a.holdAllComplete) then ps else mergeSeq "System`Sequence" ps
  (if a.holdAllComplete then .ok (st, tr, ps) else mergeEvalT ev "System`Evaluate" st tr ps).bind
    (fun r => .ok (r.1, r.2.1, mergeSeq "System`Unevaluated" r.2.2))

/-- `Trace` (`builtin_system.go:683-712`): the entries of an evaluation, if there are at least two. Trace mode is off afterwards. -/
def traceFn (ev : TEvaluator) (st : EState) (tr : Trace) (ps : List Ex) : Res (EState × Trace × Ex) :=
  match ps with
  | [_, e] =>
    (ev st (some []) e).bind (fun r =>
      match r.2.1 with
      | some l => if 1 < l.length then .ok (r.1, none, .expr (S "List" :: l)) else .ok (r.1, none, .expr [S "List"])
      | none => .ok (r.1, none, .expr [S "List"]))
  | _ => .ok (st, tr, .expr ps)

/-- The builtin functions in trace mode. -/
def TCtx.fnT (c : TCtx) (s : String) (n : Nat) (ev : TEvaluator) (st : EState) (tr : Trace) (ps : List Ex) : Res (EState × Trace × Ex) :=
  if c.traceFn && s == "System`Trace" then Expreduce.traceFn ev st tr ps else (c.fn s n st ps).runT ev tr

/-- See `applyDefs` (`eval.go:217-262`). -/
def applyDefsT (c : TCtx) (n : Nat) (ev : TEvaluator) (s : String) (st : EState) (tr : Trace) (cur : List Ex) (curEx : Ex) : Res (EState × Trace × Out) :=
  (if hasBuiltin st s then (c.fnT s n ev st tr cur).bind (fun r => .ok (r.1, r.2.1, r.2.2, isSameQ r.2.2 (.expr cur)))
    else .ok (st, tr, curEx, true)).bind (fun r =>
  if r.2.2.2 then
    ((c.find r.1 s (.expr cur)).runT ev r.2.1).bind (fun q =>
      match q.2.2 with
      | some res => .ok (q.1, q.2.1, .next res true)
      | none => .ok (q.1, q.2.1, .next r.2.2.1 false))
  else .ok (r.1, r.2.1, .next r.2.2.1 false))

/-- See `symbolCase` (`eval.go:199-262`). -/
def symbolCaseT (c : TCtx) (n : Nat) (ev : TEvaluator) (s : String) (a : Attrs) (st : EState) (tr : Trace) (ps : List Ex) : Res (EState × Trace × Out) :=
  let flat := if a.flat then mergeSeq s ps else ps
  let sorted := if a.orderless then sortArgs c.plain flat else flat
  let curEx := if a.flat && ps.any (hasHead s) then .expr ps else .expr sorted
  if a.listable then
    match threadExpr sorted with
    | some e => .ok (st, tr, .next e false)
    | none => applyDefsT c n ev s st tr sorted (.expr sorted)
  else applyDefsT c n ev s st tr sorted curEx

/-- The part of a pass after the entry for the call (`eval.go:180-266`). -/
def afterArgsT (c : TCtx) (n : Nat) (ev : TEvaluator) (head : Option String) (a : Attrs) (st : EState) (tr : Trace) (ps : List Ex) :
    Res (EState × Trace × Out) :=
  (splicePartsT ev head.isSome a st tr ps).bind (fun r =>
    match r.2.2 with
    | [] => .panic
    | _ :: _ =>
      match head with
      | some s => symbolCaseT c n ev s a r.1 r.2.1 r.2.2
      | none => (functionCase c.plain r.1 r.2.2).bind (fun q => .ok (q.1, r.2.1, q.2)))

/-- One pass of the loop in trace mode (`eval.go:110-266`). -/
def passT (c : TCtx) (n : Nat) (ev : TEvaluator) (st : EState) (tr : Trace) (ps : List Ex) : Res (EState × Trace × Out) :=
  let a := headAttrs st ps
  match conditional a ps with
  | some e => (ev st tr e).bind (fun r => .ok (r.1, r.2.1, .ret r.2.2))
  | none =>
    (evalArgsT ev (heldPart a) 0 st tr ps).bind (fun r =>
      match r.2.2 with
      | .inr t => .ok (r.1, r.2.1, .ret t)
      | .inl qs => afterArgsT c n ev (callSym ps) a r.1 (noteCall r.1 r.2.1 (.expr qs)) qs)

/-- See `afterPass`. -/
def afterPassT (k : EState → Trace → Ex → Bool → Res (EState × Trace × Ex)) (r : EState × Trace × Out) : Res (EState × Trace × Ex) :=
  match r.2.2 with
  | .ret e => .ok (r.1, r.2.1, e)
  | .next e ins => k r.1 r.2.1 e ins

/-- The entry for a value that is not compound (`eval.go:83-95`). -/
def noteValue (st : EState) (tr : Trace) (v : Ex) : Trace := if st.frozen then tr else addEntry tr (holdForm v)

/-- The loop of `evalExpression` in trace mode (`eval.go:57-276`). -/
def evalLoopT (c : TCtx) (n : Nat) (ev : TEvaluator) : Nat → EState → Trace → Bool → Option Ex → Ex → Res (EState × Trace × Ex)
  | 0, _, _, _, _, _ => .stuck
  | k + 1, st, tr, inside, last, cur =>
    if unchanged c.plain last cur then .ok (st, tr, cur)
    else
      match cur with
      | .expr ps =>
        match (if inside then tryReturn st (.expr ps) else none) with
        | some v => .ok (st, tr, v)
        | none =>
          if c.skip st (.expr ps) then .ok (st, tr, .expr ps)
          else
            (passT c n ev st tr ps).bind (afterPassT (fun st' tr' e ins => evalLoopT c n ev k st' tr' (inside || ins) (some (.expr ps)) e))
      | _ => (ev st tr cur).bind (fun r => .ok (r.1, noteValue r.1 r.2.1 r.2.2, r.2.2))

/-- See `evalDef` (`eval.go:322-345`). -/
def evalDefT (ev : TEvaluator) (st : EState) (tr : Trace) (s : String) (d : Ex) : Res (EState × Trace × Ex) :=
  if d = .sym s then .ok (st, tr, d)
  else (ev st tr d).bind (fun r => .ok (r.1, r.2.1, (tryReturn r.1 r.2.2).getD r.2.2))

/-- See `evalSymbol` (`eval.go:322-345`). -/
def evalSymbolT (ev : TEvaluator) (st : EState) (tr : Trace) (s : String) : Res (EState × Trace × Ex) :=
  match getSymDef st.toDState s with
  | none => .ok (st, tr, .sym s)
  | some d => evalDefT ev st tr s d

/-- See `evalCplx` (`eval.go:37-46`). -/
def evalCplxT (ev : TEvaluator) (st : EState) (tr : Trace) (re im : Ex) : Res (EState × Trace × Ex) :=
  (ev st tr re).bind (fun r => (ev r.1 r.2.1 im).bind (fun i =>
    .ok (i.1, i.2.1, if isSameQ i.2.2 (.int 0) then r.2.2 else .cplx r.2.2 i.2.2)))

/-- `Eval` in trace mode (`eval.go:20-35`). -/
def evalT (c : TCtx) : Nat → TEvaluator
  | 0, _, _, _ => .stuck
  | n + 1, st, tr, e =>
    match e with
    | .expr _ => evalLoopT c n (evalT c n) (n + 1) st tr false none e
    | .cplx re im => evalCplxT (evalT c n) st tr re im
    | .rat num den => .ok (st, tr, evalRational num den)
    | .sym s => evalSymbolT (evalT c n) st tr s
    | e => .ok (st, tr, e)

/-! ### The flow control functions as programs -/

/-- `Catch` (`builtin_system.go:950-965`). -/
def catchProg (st : EState) (ps : List Ex) : BProg Ex :=
  match ps with
  | [_, e] => .call st e (fun st' v =>
      match st'.thrown with
      | none => .done (.ok (st', v))
      | some (.expr (_ :: w :: _)) => .done (.ok ({ st' with thrown := none }, w))
      | some _ => .done .panic)
  | _ => .done (.ok (st, .expr ps))

/-- The loop of `CompoundExpression` (`builtin_flowcontrol.go:119-128`). -/
def compoundProg : EState → List Ex → Ex → BProg Ex
  | st, [], v => .done (.ok (st, v))
  | st, p :: ps, _ => .call st p (fun st' v =>
      match st'.thrown with
      | some t => .done (.ok (st', t))
      | none => if hasHead "System`Return" v then .done (.ok (st', v)) else compoundProg st' ps v)

/-- The loop of `While` (`builtin_flowcontrol.go:94-110`). -/
def whileProg (cond body : Ex) : Nat → EState → BProg Ex
  | 0, _ => .done .stuck
  | n + 1, st => .call st cond (fun st' v =>
      if isSameQ v (S "True") then .call st' body (fun st'' w =>
        match tryReturn st'' w with
        | some u => .done (.ok (st'', u))
        | none => if isBreak w then .done (.ok (st'', S "Null")) else whileProg cond body n st'')
      else .done (.ok (st', S "Null")))

/-- The loop of `Which` (`builtin_flowcontrol.go:140-150`). -/
def whichProg : EState → List Ex → BProg Ex
  | st, cond :: val :: rest => .call st cond (fun st' v => if v = S "True" then .done (.ok (st', val)) else whichProg st' rest)
  | st, _ => .done (.ok (st, S "Null"))

/-- The flow control functions (`builtin_flowcontrol.go:57-152`, `builtin_system.go:940-965`). -/
def flowProg (fmt : Rat → String) (s : String) (n : Nat) (st : EState) (ps : List Ex) : BProg Ex :=
  if s = "System`Throw" then .done (throwFn st ps)
  else if s = "System`Catch" then catchProg st ps
  else if s = "System`CompoundExpression" then
    match ps with
    | _ :: p :: rest => compoundProg st (p :: rest) p
    | _ => .done .panic
  else if s = "System`While" then
    match ps with
    | [_, cond, body] => whileProg cond body n st
    | _ => .done (.ok (st, .expr ps))
  else if s = "System`Which" then if ps.length % 2 != 1 then .done (.ok (st, .expr ps)) else whichProg st ps.tail
  else if s = "System`If" then .done (ifFn fmt st ps)
  else .done (.ok (st, .expr ps))

end Expreduce
