import Verif.Model.Defs
import Verif.Model.Sort
import Verif.Model.Arith
import Verif.Model.Compare

/-!
# The evaluator (`/repo/expreduce/eval.go`)

`es.Eval` as a function of the state and the expression. Simplifications:

* expressions are values: the in-place replacement of parts is a new expression, so an expression that is evaluated while something else
  still refers to it keeps its old content here (`Verif.Model.EvalObj` models the sharing);
* which expression objects carry a valid mark `EvaledHash` is an arbitrary predicate `skip`;
* tracing, profiling and logging are left out;
* the recursion is cut off by a number (`fuel`); `Res.stuck` means that it did not suffice, which for every number means that the Go
  code does not return.
-/

namespace Expreduce
open Ex

/-- The result of a Go call: not finished, a panic, or a value. -/
inductive Res (α : Type) where
  | stuck
  | panic
  | ok (a : α)
deriving DecidableEq

namespace Res
/-- Sequencing. -/
def bind {α β : Type} (x : Res α) (f : α → Res β) : Res β :=
  match x with
  | .stuck => .stuck
  | .panic => .panic
  | .ok a => f a

/-- A partial function of the model (`none`: it panics). -/
def ofOption {α : Type} : Option α → Res α
  | none => .panic
  | some a => .ok a
end Res

/-- The part of `EvalState` used here (`evalstate.go:21-50`). -/
structure EState extends DState where
  /-- `thrown` -/
  thrown : Option Ex := none
  /-- `interrupted` -/
  interrupted : Bool := false
  /-- the elements of the list `reapSown`; `none`: it is nil -/
  sown : Option (List Ex) := none

/-- `es.Eval`. -/
abbrev Evaluator := EState → Ex → Res (EState × Ex)

/-- What the evaluator calls. -/
structure Ctx where
  /-- whether the object carries a valid mark of a finished evaluation -/
  skip : EState → Ex → Bool := fun _ _ => false
  /-- the function `LegacyEvalFn` of a symbol; the number bounds its loops -/
  fn : String → Nat → Evaluator → EState → List Ex → Res (EState × Ex) := fun _ _ _ st ps => .ok (st, .expr ps)
  /-- `GetDef` of an expression -/
  find : Evaluator → EState → String → Ex → Res (EState × Option Ex) := fun _ st _ _ => .ok (st, none)
  /-- `evalFunction`: the arguments of `Function` and the arguments it is applied to -/
  apply : EState → List Ex → List Ex → Res Ex := fun _ fargs _ => .ok (.expr (S "Function" :: fargs))
  /-- the comparison of the fingerprints of two expressions (`eval.go:57`) -/
  same : Ex → Ex → Bool := fun a b => hash a == hash b
  /-- `sort.Sort` on the arguments -/
  sort : List Ex → List Ex := insertionSort exLess

/-- `Symbol.Attrs` (`atoms/ex_symbol.go:98-108`). -/
def attrsOf (st : EState) (s : String) : Attrs := ((st.defs s).map DefM.attrs).getD {}

/-- The attributes used in a pass (`eval.go:112-119`): those of a head that is a symbol. -/
def headAttrs (st : EState) : List Ex → Attrs
  | .sym s :: _ => attrsOf st s
  | _ => {}

/-- Whether part `i` is left alone (`eval.go:126-135`); without a head symbol there are no attributes. -/
def heldPart (a : Attrs) (i : Nat) : Bool :=
  (i == 1 && a.holdFirst) || (decide (i > 1) && a.holdRest) || (a.holdAll || a.holdAllComplete)

/-- The loop over the parts (`eval.go:126-163`), starting with part `i`. The right case is the thrown expression. -/
def evalArgs (ev : Evaluator) (held : Nat → Bool) : Nat → EState → List Ex → Res (EState × (List Ex ⊕ Ex))
  | _, st, [] => .ok (st, .inl [])
  | i, st, p :: ps =>
    if held i then
      (evalArgs ev held (i + 1) st ps).bind (fun r => .ok (r.1, r.2.map (p :: ·) id))
    else
      (ev st p).bind (fun r =>
        match r.1.thrown with
        | some t => .ok (r.1, .inr t)
        | none => (evalArgs ev held (i + 1) r.1 ps).bind (fun q => .ok (q.1, q.2.map (r.2 :: ·) id)))

/-- One round of the loop of `mergeSequences` without evaluation (`eval.go:382-394`). -/
def appendPart (h : String) (res : List Ex) (e : Ex) : List Ex :=
  match argsOf h e with
  | some args => res ++ args
  | none => res ++ [e]

/-- `mergeSequences` without evaluation (`eval.go:360-397`). -/
def mergeSeq (h : String) (ps : List Ex) : List Ex := if ps.any (hasHead h) then ps.foldl (appendPart h) [] else ps

/-- The inner loop of `mergeSequences` with evaluation (`eval.go:384-387`). -/
def evalAll (ev : Evaluator) : EState → List Ex → Res (EState × List Ex)
  | st, [] => .ok (st, [])
  | st, p :: ps => (ev st p).bind (fun r => (evalAll ev r.1 ps).bind (fun q => .ok (q.1, r.2 :: q.2)))

/-- `mergeSequences` with evaluation (`eval.go:360-397`). -/
def mergeEvalLoop (ev : Evaluator) (h : String) : EState → List Ex → Res (EState × List Ex)
  | st, [] => .ok (st, [])
  | st, e :: ps =>
    match argsOf h e with
    | some args => (evalAll ev st args).bind (fun r => (mergeEvalLoop ev h r.1 ps).bind (fun q => .ok (q.1, r.2 ++ q.2)))
    | none => (mergeEvalLoop ev h st ps).bind (fun q => .ok (q.1, e :: q.2))

/-- `mergeSequences` with evaluation (`eval.go:360-397`). -/
def mergeEval (ev : Evaluator) (h : String) (st : EState) (ps : List Ex) : Res (EState × List Ex) :=
  if ps.any (hasHead h) then mergeEvalLoop ev h st ps else .ok (st, ps)

/-- The two arguments of `ConditionalExpression` (`atoms/ex_expression.go:71-73`). -/
def condExprArgs : Ex → Option (Ex × Ex)
  | .expr [.sym s, e, c] => if s = "System`ConditionalExpression" then some (e, c) else none
  | _ => none

/-- The expression without its condition (`atoms/ex_expression.go:83-90`). -/
def dropCond (e : Ex) : Ex :=
  match condExprArgs e with
  | some (x, _) => x
  | none => e

/-- `PropagateConditionals` (`atoms/ex_expression.go:68-94`). -/
def propagate : List Ex → Option Ex
  | [] => none
  | h :: args =>
    if args.any (fun e => (condExprArgs e).isSome) then
      some (.expr [S "ConditionalExpression",
        .expr (h :: args.map dropCond),
        .expr (S "And" :: args.filterMap (fun e => (condExprArgs e).map Prod.snd))])
    else none

/-- The lengths of the list arguments (`builtin_list.go:198-204`). -/
def listLengths (args : List Ex) : List Nat := args.filterMap (fun e => (argsOf "System`List" e).map List.length)

/-- The argument of the entry number `i` (`builtin_list.go:224-233`). -/
def elemAt (i : Nat) (e : Ex) : Ex :=
  match argsOf "System`List" e with
  | some xs => xs.getD i e
  | none => e

/-- `threadExpr` (`builtin_list.go:195-237`): `none` if nothing is threaded. -/
def threadExpr : List Ex → Option Ex
  | [] => none
  | h :: args =>
    match listLengths args with
    | [] => none
    | l :: ls =>
      if ls.all (· == l) then
        some (.expr (S "List" :: (List.range l).map (fun i => .expr (h :: args.map (elemAt i)))))
      else none

/-- `tryReturnValue` (`eval.go:336-356`). -/
def tryReturn (st : EState) (e : Ex) : Option Ex :=
  if st.interrupted then some (S "$Aborted")
  else
    match argsOf "System`Return" e with
    | none => none
    | some (v :: _) => some v
    | some [] => some (S "Null")

/-- The outcome of a pass of the loop of `evalExpression`. -/
inductive Out where
  /-- the function returns -/
  | ret (e : Ex)
  /-- the next expression, and whether it comes from a definition -/
  | next (e : Ex) (inside : Bool)

/-- `mergeSequences` three times (`eval.go:183-192`): the parts afterwards. -/
def spliceParts (ev : Evaluator) (isSym : Bool) (a : Attrs) (st : EState) (ps : List Ex) : Res (EState × List Ex) :=
  let ps := if isSym && (a.sequenceHold || a.holdAllComplete) then ps else mergeSeq "System`Sequence" ps
  (if a.holdAllComplete then .ok (st, ps) else mergeEval ev "System`Evaluate" st ps).bind
    (fun r => .ok (r.1, mergeSeq "System`Unevaluated" r.2))

/-- Sorting (`eval.go:203-206`): only the arguments. -/
def sortArgs (c : Ctx) : List Ex → List Ex
  | [] => []
  | h :: args => h :: c.sort args

/-- Whether the symbol has a `LegacyEvalFn` (`eval.go:217-229`). -/
def hasBuiltin (st : EState) (s : String) : Bool := ((st.defs s).map DefM.builtin).getD false

/-- The end of the pass for a head that is a symbol (`eval.go:217-262`): `cur` is what the code calls `curr` (flattened and sorted), `curEx`
what it calls `currEx`. -/
def applyDefs (c : Ctx) (n : Nat) (ev : Evaluator) (s : String) (st : EState) (cur : List Ex) (curEx : Ex) : Res (EState × Out) :=
  (if hasBuiltin st s then (c.fn s n ev st cur).bind (fun r => .ok (r.1, r.2, isSameQ r.2 (.expr cur)))
    else .ok (st, curEx, true)).bind (fun r =>
  if r.2.2 then
    (c.find ev r.1 s (.expr cur)).bind (fun q =>
      match q.2 with
      | some res => .ok (q.1, .next res true)
      | none => .ok (q.1, .next r.2.1 false))
  else .ok (r.1, .next r.2.1 false))

/-- The case of a head that is a symbol (`eval.go:199-262`). When `Flat` splices something, a new expression is built and `currEx` still is
the old one; otherwise sorting changes it in place. -/
def symbolCase (c : Ctx) (n : Nat) (ev : Evaluator) (s : String) (a : Attrs) (st : EState) (ps : List Ex) : Res (EState × Out) :=
  let flat := if a.flat then mergeSeq s ps else ps
  let sorted := if a.orderless then sortArgs c flat else flat
  let curEx := if a.flat && ps.any (hasHead s) then .expr ps else .expr sorted
  if a.listable then
    match threadExpr sorted with
    | some e => .ok (st, .next e false)
    | none => applyDefs c n ev s st sorted (.expr sorted)
  else applyDefs c n ev s st sorted curEx

/-- The case of a head that is not a symbol (`eval.go:194-197, 263-265`). -/
def functionCase (c : Ctx) (st : EState) (ps : List Ex) : Res (EState × Out) :=
  match ps with
  | [] => .panic
  | h :: args =>
    match argsOf "System`Function" h with
    | some fargs => (c.apply st fargs args).bind (fun e => .ok (st, .next e false))
    | none => .ok (st, .next (.expr ps) false)

/-- The part of a pass after the arguments have been evaluated (`eval.go:180-266`). -/
def afterArgs (c : Ctx) (n : Nat) (ev : Evaluator) (head : Option String) (a : Attrs) (st : EState) (ps : List Ex) : Res (EState × Out) :=
  (spliceParts ev head.isSome a st ps).bind (fun r =>
    match r.2 with
    | [] => .panic
    | _ :: _ =>
      match head with
      | some s => symbolCase c n ev s a r.1 r.2
      | none => functionCase c r.1 r.2)

/-- The head symbol (`eval.go:112-116`). -/
def callSym : List Ex → Option String
  | .sym s :: _ => some s
  | _ => none

/-- The propagation of conditions (`eval.go:120-125`). -/
def conditional (a : Attrs) (ps : List Ex) : Option Ex := if a.numericFunction then propagate ps else none

/-- One pass of the loop (`eval.go:110-266`). -/
def pass (c : Ctx) (n : Nat) (ev : Evaluator) (st : EState) (ps : List Ex) : Res (EState × Out) :=
  let a := headAttrs st ps
  match conditional a ps with
  | some e => (ev st e).bind (fun r => .ok (r.1, .ret r.2))
  | none =>
    (evalArgs ev (heldPart a) 0 st ps).bind (fun r =>
      match r.2 with
      | .inr t => .ok (r.1, .ret t)
      | .inl qs => afterArgs c n ev (callSym ps) a r.1 qs)

/-- The condition of the loop (`eval.go:57`): the fingerprint of the previous round is the same; there is none in the first round (the code
uses the number 0). -/
def unchanged (c : Ctx) (last : Option Ex) (cur : Ex) : Bool := (last.map (fun l => c.same l cur)).getD false

/-- What follows a pass: return, or the next round `k`. -/
def afterPass (k : EState → Ex → Bool → Res (EState × Ex)) (r : EState × Out) : Res (EState × Ex) :=
  match r.2 with
  | .ret e => .ok (r.1, e)
  | .next e ins => k r.1 e ins

/-- The loop of `evalExpression` (`eval.go:57-276`). `last` is the expression of the previous round. -/
def evalLoop (c : Ctx) (n : Nat) (ev : Evaluator) : Nat → EState → Bool → Option Ex → Ex → Res (EState × Ex)
  | 0, _, _, _, _ => .stuck
  | k + 1, st, inside, last, cur =>
    if unchanged c last cur then .ok (st, cur)
    else
      match cur with
      | .expr ps =>
        match (if inside then tryReturn st (.expr ps) else none) with
        | some v => .ok (st, v)
        | none =>
          if c.skip st (.expr ps) then .ok (st, .expr ps)
          else
            (pass c n ev st ps).bind (afterPass (fun st' e ins => evalLoop c n ev k st' (inside || ins) (some (.expr ps)) e))
      | _ => ev st cur

/-- `evalSymbol` after `GetDef` (`eval.go:322-345`). Simplification: the stored right side is left as it is. -/
def evalDef (ev : Evaluator) (st : EState) (s : String) (d : Ex) : Res (EState × Ex) :=
  if d = .sym s then .ok (st, d)
  else (ev st d).bind (fun r => .ok (r.1, (tryReturn r.1 r.2).getD r.2))

/-- `evalSymbol` (`eval.go:322-345`). -/
def evalSymbol (ev : Evaluator) (st : EState) (s : String) : Res (EState × Ex) :=
  match getSymDef st.toDState s with
  | none => .ok (st, .sym s)
  | some d => evalDef ev st s d

/-- `evalComplex` (`eval.go:37-46`). -/
def evalCplx (ev : Evaluator) (st : EState) (re im : Ex) : Res (EState × Ex) :=
  (ev st re).bind (fun r => (ev r.1 im).bind (fun i =>
    .ok (i.1, if isSameQ i.2 (.int 0) then r.2 else .cplx r.2 i.2)))

/-- `Eval` (`eval.go:20-35`). -/
def eval (c : Ctx) : Nat → Evaluator
  | 0, _, _ => .stuck
  | n + 1, st, e =>
    match e with
    | .expr _ => evalLoop c n (eval c n) (n + 1) st false none e
    | .cplx re im => evalCplx (eval c n) st re im
    | .rat num den => .ok (st, evalRational num den)
    | .sym s => evalSymbol (eval c n) st s
    | e => .ok (st, e)

/-! ### Flow control -/

/-- `Throw` (`builtin_system.go:940-949`). -/
def throwFn (st : EState) (ps : List Ex) : Res (EState × Ex) :=
  match ps with
  | [_, _] => .ok ({ st with thrown := some (.expr ps) }, .expr ps)
  | _ => .ok (st, .expr ps)

/-- `Catch` (`builtin_system.go:950-965`). -/
def catchFn (ev : Evaluator) (st : EState) (ps : List Ex) : Res (EState × Ex) :=
  match ps with
  | [_, e] =>
    (ev st e).bind (fun r =>
      match r.1.thrown with
      | none => .ok r
      | some (.expr (_ :: v :: _)) => .ok ({ r.1 with thrown := none }, v)
      | some _ => .panic)
  | _ => .ok (st, .expr ps)

/-- The loop of `CompoundExpression` (`builtin_flowcontrol.go:119-128`); the last argument is the value so far. -/
def compoundLoop (ev : Evaluator) : EState → List Ex → Ex → Res (EState × Ex)
  | st, [], v => .ok (st, v)
  | st, p :: ps, _ =>
    (ev st p).bind (fun r =>
      match r.1.thrown with
      | some t => .ok (r.1, t)
      | none => if hasHead "System`Return" r.2 then .ok r else compoundLoop ev r.1 ps r.2)

/-- `CompoundExpression` (`builtin_flowcontrol.go:115-130`): without arguments it returns nil, which is dereferenced. -/
def compoundFn (ev : Evaluator) (st : EState) (ps : List Ex) : Res (EState × Ex) :=
  match ps with
  | _ :: p :: rest => compoundLoop ev st (p :: rest) p
  | _ => .panic

/-- `isBreak` (`builtin_flowcontrol.go:52-55`). -/
def isBreak (e : Ex) : Bool := hasHead "System`Break" e

/-- The loop of `While` (`builtin_flowcontrol.go:94-110`). -/
def whileLoop (ev : Evaluator) (cond body : Ex) : Nat → EState → Res (EState × Ex)
  | 0, _ => .stuck
  | n + 1, st =>
    (ev st cond).bind (fun r =>
      if isSameQ r.2 (S "True") then
        (ev r.1 body).bind (fun q =>
          match tryReturn q.1 q.2 with
          | some v => .ok (q.1, v)
          | none => if isBreak q.2 then .ok (q.1, S "Null") else whileLoop ev cond body n q.1)
      else .ok (r.1, S "Null"))

/-- `While` (`builtin_flowcontrol.go:89-113`). -/
def whileFn (n : Nat) (ev : Evaluator) (st : EState) (ps : List Ex) : Res (EState × Ex) :=
  match ps with
  | [_, cond, body] => whileLoop ev cond body n st
  | _ => .ok (st, .expr ps)

/-- The loop of `Which` (`builtin_flowcontrol.go:140-150`). -/
def whichLoop (ev : Evaluator) : EState → List Ex → Res (EState × Ex)
  | st, cond :: val :: rest =>
    (ev st cond).bind (fun r => if r.2 = S "True" then .ok (r.1, val) else whichLoop ev r.1 rest)
  | st, _ => .ok (st, S "Null")

/-- `Which` (`builtin_flowcontrol.go:134-152`). -/
def whichFn (ev : Evaluator) (st : EState) (ps : List Ex) : Res (EState × Ex) :=
  if ps.length % 2 != 1 then .ok (st, .expr ps) else whichLoop ev st ps.tail

/-- The choice made by `If` (`builtin_flowcontrol.go:70-79`). -/
def ifChoice (fmt : Rat → String) (this c t f : Ex) : Ex :=
  match isEqual fmt c (S "True") with
  | .unk => this
  | .yes => t
  | .no => f

/-- `If` (`builtin_flowcontrol.go:58-87`). -/
def ifFn (fmt : Rat → String) (st : EState) (ps : List Ex) : Res (EState × Ex) :=
  match ps with
  | [_, c, t] => .ok (st, ifChoice fmt (.expr ps) c t (S "Null"))
  | [_, c, t, f] => .ok (st, ifChoice fmt (.expr ps) c t f)
  | _ => .ok (st, .expr ps)

/-- The functions above by name (`builtin_flowcontrol.go:57-152`, `builtin_system.go:940-965`); every other symbol has none. -/
def flowFn (fmt : Rat → String) (s : String) (n : Nat) (ev : Evaluator) (st : EState) (ps : List Ex) : Res (EState × Ex) :=
  if s = "System`Throw" then throwFn st ps
  else if s = "System`Catch" then catchFn ev st ps
  else if s = "System`CompoundExpression" then compoundFn ev st ps
  else if s = "System`While" then whileFn n ev st ps
  else if s = "System`Which" then whichFn ev st ps
  else if s = "System`If" then ifFn fmt st ps
  else .ok (st, .expr ps)

/-- An interpreter with these functions and no rules. -/
def flowCtx (fmt : Rat → String) : Ctx := { fn := flowFn fmt }

/-- The entries of these symbols (`resources/flowcontrol.m:2-75`, `resources/system.m:240-243`). -/
def flowTable : Table := fun s =>
  if s = "System`Throw" then some { attrs := { prot := true }, builtin := true }
  else if s = "System`Catch" then some { attrs := { holdFirst := true, prot := true }, builtin := true }
  else if s = "System`CompoundExpression" then some { attrs := { holdAll := true, readProtected := true, prot := true }, builtin := true }
  else if s = "System`While" then some { attrs := { holdAll := true, prot := true }, builtin := true }
  else if s = "System`Which" then some { attrs := { holdAll := true, prot := true }, builtin := true }
  else if s = "System`If" then some { attrs := { holdRest := true, prot := true }, builtin := true }
  else if s = "System`Hold" then some { attrs := { holdAll := true, prot := true } }
  else none

/-- The part of `ProcessTopLevelResult` that handles an uncaught throw (`evalstate.go:703-719`). -/
def topLevel (st : EState) (out : Ex) : EState × Ex :=
  match st.thrown with
  | some t => ({ st with thrown := none }, .expr [S "Hold", t])
  | none => ({ st with interrupted := false }, out)

end Expreduce
