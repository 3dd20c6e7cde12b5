import Verif.Model.Eval

/-!
# Iterators (`/repo/expreduce/iterspec/iterspec.go`) and `Table`, `Do`, `Sum`, `Product`, `Range`

The evaluator is a parameter (`ev`), as are `GetDef` of an expression (`find`) and the printed length used in the ordering of rules
(`strLen`). The copies made of the body are not visible, since expressions are values here. `n` bounds the number of rounds.
-/

namespace Expreduce
open Ex

/-- `iterSpecRange`, `iterSpecList` (`iterspec.go:22-37`). The list is its whole `Parts` slice. -/
inductive IterSpec where
  | range (i : Ex) (name : String) (lo hi step curr : Ex)
  | list (i : Ex) (name : String) (parts : List Ex) (pos : Nat)

/-- The variable of iteration (`iterspec.go:67-83`): a symbol, or an expression with a symbol as its head. An expression without parts makes the
code panic; here it is no variable. -/
def iterName : Ex → Option String
  | .sym s => some s
  | .expr (.sym s :: _) => some s
  | _ => none

/-- The range spec (`iterspec.go:84-102`) before `reset`; `tryIterParam` (`iterspec.go:39-53`) accepts numbers. -/
def rangeSpec (v lo hi step : Ex) : Option IterSpec :=
  (iterName v).bind (fun s => if lo.numberQ && hi.numberQ && step.numberQ then some (.range v s lo hi step lo) else none)

/-- The list spec (`iterspec.go:104-115`). -/
def listSpec (v l : Ex) : Option IterSpec :=
  (iterName v).bind (fun s => (argsOf "System`List" l).map (fun xs => .list v s (S "List" :: xs) 1))

/-- The choice of the spec (`iterspec.go:64-117`) by the elements of the list. -/
def parseIter : List Ex → Option IterSpec
  | [v, hi] => (rangeSpec v (.int 1) hi (.int 1)).orElse (fun _ => listSpec v hi)
  | [v, lo, hi] => rangeSpec v lo hi (.int 1)
  | [v, lo, hi, step] => rangeSpec v lo hi step
  | _ => none

namespace IterSpec

/-- `getI` (`iterspec.go:143-145, 167-169`). -/
def var : IterSpec → Ex
  | .range i _ _ _ _ _ => i
  | .list i _ _ _ => i

/-- `getIName` (`iterspec.go:147-149, 171-173`). -/
def name : IterSpec → String
  | .range _ s _ _ _ _ => s
  | .list _ s _ _ => s

/-- `reset` (`iterspec.go:120-129, 151-153`). -/
def reset (ev : Evaluator) (st : EState) : IterSpec → Res (EState × IterSpec)
  | .range i s lo hi step _ =>
    (ev st (.expr [S "Plus", lo, .expr [S "Times", .int 0, step]])).bind (fun r => .ok (r.1, .range i s lo hi step r.2))
  | .list i s parts _ => .ok (st, .list i s parts 1)

/-- `Next` (`iterspec.go:131-133, 155-157`). -/
def next (ev : Evaluator) (st : EState) : IterSpec → Res (EState × IterSpec)
  | .range i s lo hi step curr => (ev st (.expr [S "Plus", curr, step])).bind (fun r => .ok (r.1, .range i s lo hi step r.2))
  | .list i s parts pos => .ok (st, .list i s parts (pos + 1))

/-- `Cont` (`iterspec.go:135-137, 159-161`). -/
def cont : IterSpec → Bool
  | .range _ _ _ hi _ curr => decide (0 ≤ exOrder curr hi)
  | .list _ _ parts pos => decide (pos < parts.length)

/-- `GetCurr` (`iterspec.go:139-141, 163-165`): `none` if the index is out of range. -/
def curr : IterSpec → Option Ex
  | .range _ _ _ _ _ c => some c
  | .list _ _ parts pos => parts[pos]?

end IterSpec

/-- `evalIterSpecCandidate` (`iterspec.go:275-301`): the elements of the evaluated list, `none` if it is no list. -/
def iterCandidate (ev : Evaluator) (st : EState) (e : Ex) : Res (EState × Option (List Ex)) :=
  match argsOf "System`List" e with
  | some (v :: ps) => (evalAll ev st ps).bind (fun r => .ok (r.1, some (v :: r.2)))
  | some [] => .ok (st, some [])
  | none => (ev st e).bind (fun r => .ok (r.1, argsOf "System`List" r.2))

/-- `SpecFromList` (`iterspec.go:55-118`). -/
def specFromList (ev : Evaluator) (st : EState) (e : Ex) : Res (EState × Option IterSpec) :=
  (iterCandidate ev st e).bind (fun r =>
    match r.2.bind parseIter with
    | none => .ok (r.1, none)
    | some it => (it.reset ev r.1).bind (fun q => .ok (q.1, some q.2)))

/-- `MultiSpecFromLists` (`iterspec.go:182-198`). -/
def specsFromLists (ev : Evaluator) : EState → List Ex → Res (EState × Option (List IterSpec))
  | st, [] => .ok (st, some [])
  | st, e :: es =>
    (specFromList ev st e).bind (fun r =>
      match r.2 with
      | none => .ok (r.1, none)
      | some it => (specsFromLists ev r.1 es).bind (fun q => .ok (q.1, q.2.map (it :: ·))))

/-- `MultiIterSpec.Next` (`iterspec.go:200-209`), from the last iterator to the first; the flag is `shouldCont`. -/
def multiNext (ev : Evaluator) : EState → List IterSpec → Res (EState × List IterSpec × Bool)
  | st, [] => .ok (st, [], false)
  | st, it :: its =>
    (multiNext ev st its).bind (fun r =>
      if r.2.2 then .ok (r.1, it :: r.2.1, true)
      else
        (it.next ev r.1).bind (fun q =>
          if q.2.cont then .ok (q.1, q.2 :: r.2.1, true)
          else (q.2.reset ev q.1).bind (fun p => .ok (p.1, p.2 :: r.2.1, false))))

/-- `es.Define` (`evalstate.go:471-599`). -/
def defineIn (strLen : Ex → Nat) (st : EState) (lhs rhs : Ex) : Res EState :=
  match define strLen st.toDState lhs rhs with
  | none => .panic
  | some d => .ok { st with toDState := d }

/-- `es.GetDef` (`evalstate.go:305-366`). -/
def getDefAny (find : Evaluator → EState → String → Ex → Res (EState × Option Ex)) (ev : Evaluator) (st : EState) (name : String) (e : Ex) :
    Res (EState × Option Ex) :=
  match e with
  | .sym _ => .ok (st, getSymDef st.toDState name)
  | e => find ev st name e

/-- `TakeVarSnapshot` (`iterspec.go:215-224`). -/
def takeSnapshot (find : Evaluator → EState → String → Ex → Res (EState × Option Ex)) (ev : Evaluator) :
    EState → List IterSpec → Res (EState × List (Option Ex))
  | st, [] => .ok (st, [])
  | st, it :: its =>
    (getDefAny find ev st it.name it.var).bind (fun r => (takeSnapshot find ev r.1 its).bind (fun q => .ok (q.1, r.2 :: q.2)))

/-- One variable of `RestoreVarSnapshot` (`iterspec.go:229-236`). -/
def restoreOne (strLen : Ex → Nat) (st : EState) (it : IterSpec) : Option Ex → Res EState
  | some d => defineIn strLen st it.var d
  | none => .ok { st with toDState := clear st.toDState it.name }

/-- `RestoreVarSnapshot` (`iterspec.go:226-237`). -/
def restore (strLen : Ex → Nat) : EState → List IterSpec → List (Option Ex) → Res EState
  | st, it :: its, d :: ds => (restoreOne strLen st it d).bind (fun st' => restore strLen st' its ds)
  | st, _, _ => .ok st

/-- `DefineCurrent` (`iterspec.go:239-243`). -/
def defineCurrent (strLen : Ex → Nat) : EState → List IterSpec → Res EState
  | st, [] => .ok st
  | st, it :: its =>
    (Res.ofOption it.curr).bind (fun v => (defineIn strLen st it.var v).bind (fun st' => defineCurrent strLen st' its))

/-- The loop `for mis.Cont() { mis.DefineCurrent(es); ...; mis.Next() }` (`builtin_list.go:277-281`, `builtin_flowcontrol.go:188-202`,
`iterspec.go:260-266`), entered with `mis.Cont()`. `act` is what is done in each round; its right case leaves the function. -/
def iterLoop {α : Type} (strLen : Ex → Nat) (ev : Evaluator) (act : EState → α → Res (EState × (α ⊕ Ex))) :
    Nat → EState → List IterSpec → α → Res (EState × (α ⊕ Ex))
  | 0, _, _, _ => .stuck
  | k + 1, st, its, a =>
    (defineCurrent strLen st its).bind (fun st1 => (act st1 a).bind (fun r =>
      match r.2 with
      | .inr v => .ok (r.1, .inr v)
      | .inl b =>
        (multiNext ev r.1 its).bind (fun q =>
          if q.2.2 then iterLoop strLen ev act k q.1 q.2.1 b else .ok (q.1, .inl b))))

/-- The common frame of `Table`, `Do`, `Sum` and `Product`: `none` if the iterators are not understood. -/
def iterRun {α : Type} (strLen : Ex → Nat) (find : Evaluator → EState → String → Ex → Res (EState × Option Ex)) (n : Nat) (ev : Evaluator)
    (act : EState → α → Res (EState × (α ⊕ Ex))) (st : EState) (lists : List Ex) (init : α) : Res (EState × Option (α ⊕ Ex)) :=
  (specsFromLists ev st lists).bind (fun r =>
    match r.2 with
    | none => .ok (r.1, none)
    | some its =>
      (takeSnapshot find ev r.1 its).bind (fun s =>
        (if its.all IterSpec.cont then iterLoop strLen ev act n s.1 its init else .ok (s.1, .inl init)).bind (fun q =>
          match q.2 with
          | .inr v => .ok (q.1, some (.inr v))
          | .inl a => (restore strLen q.1 its s.2).bind (fun st' => .ok (st', some (.inl a))))))

/-- A round of `Table` (`builtin_list.go:279`); the values are collected in order. -/
def tableAct (ev : Evaluator) (body : Ex) (st : EState) (acc : List Ex) : Res (EState × (List Ex ⊕ Ex)) :=
  (ev st body).bind (fun r => .ok (r.1, .inl (acc ++ [r.2])))

/-- What `Table` returns. -/
def tableResult (ps : List Ex) : Option (List Ex ⊕ Ex) → Ex
  | some (.inl vs) => .expr (S "List" :: vs)
  | some (.inr v) => v
  | none => .expr ps

/-- `Table` (`builtin_list.go:262-285`). -/
def tableFn (strLen : Ex → Nat) (find : Evaluator → EState → String → Ex → Res (EState × Option Ex)) (n : Nat) (ev : Evaluator) (st : EState)
    (ps : List Ex) : Res (EState × Ex) :=
  match ps with
  | _ :: body :: l :: lists =>
    (iterRun strLen find n ev (tableAct ev body) st (l :: lists) []).bind (fun r => .ok (r.1, tableResult ps r.2))
  | _ => .ok (st, .expr ps)

/-- What a `Return` gives in `Do` (`builtin_flowcontrol.go:194-199`). -/
def returned (e : Ex) : Option Ex :=
  match argsOf "System`Return" e with
  | none => none
  | some [] => some (S "Null")
  | some (v :: _) => some v

/-- A round of `Do` (`builtin_flowcontrol.go:190-199`). -/
def doAct (ev : Evaluator) (body : Ex) (st : EState) (u : Unit) : Res (EState × (Unit ⊕ Ex)) :=
  (ev st body).bind (fun r =>
    match r.1.thrown with
    | some t => .ok (r.1, .inr t)
    | none =>
      match returned r.2 with
      | some v => .ok (r.1, .inr v)
      | none => .ok (r.1, .inl u))

/-- What `Do` returns. -/
def doResult (ps : List Ex) : Option (Unit ⊕ Ex) → Ex
  | some (.inl _) => S "Null"
  | some (.inr v) => v
  | none => .expr ps

/-- `Do` (`builtin_flowcontrol.go:177-208`). -/
def doFn (strLen : Ex → Nat) (find : Evaluator → EState → String → Ex → Res (EState × Option Ex)) (n : Nat) (ev : Evaluator) (st : EState)
    (ps : List Ex) : Res (EState × Ex) :=
  match ps with
  | _ :: body :: l :: lists =>
    (iterRun strLen find n ev (doAct ev body) st (l :: lists) ()).bind (fun r => .ok (r.1, doResult ps r.2))
  | _ => .ok (st, .expr ps)

/-- A round of `EvalIterationFunc` (`iterspec.go:262-265`). -/
def foldAct (op : String) (ev : Evaluator) (body : Ex) (st : EState) (acc : Ex) : Res (EState × (Ex ⊕ Ex)) :=
  (ev st body).bind (fun r => (ev r.1 (.expr [.sym op, acc, r.2])).bind (fun q => .ok (q.1, .inl q.2)))

/-- What `Sum` and `Product` return. -/
def foldResult (ps : List Ex) : Option (Ex ⊕ Ex) → Ex
  | some (.inl v) => v
  | some (.inr v) => v
  | none => .expr ps

/-- `EvalIterationFunc` (`iterspec.go:253-273`): `Sum` is the case ``System`Plus``, 0, `Product` the case ``System`Times``, 1
(`builtin_arithmetic.go:260-270, 450-460`). -/
def foldFn (op : String) (init : Ex) (strLen : Ex → Nat) (find : Evaluator → EState → String → Ex → Res (EState × Option Ex)) (n : Nat)
    (ev : Evaluator) (st : EState) (ps : List Ex) : Res (EState × Ex) :=
  match ps with
  | _ :: body :: l :: lists =>
    (iterRun strLen find n ev (foldAct op ev body) st (l :: lists) init).bind (fun r => .ok (r.1, foldResult ps r.2))
  | _ => .ok (st, .expr ps)

/-- The loop of `Range` (`builtin_list.go:592-595`). -/
def rangeLoop (ev : Evaluator) : Nat → EState → IterSpec → List Ex → Res (EState × List Ex)
  | 0, _, _, _ => .stuck
  | k + 1, st, it, acc =>
    if it.cont then
      (Res.ofOption it.curr).bind (fun v => (it.next ev st).bind (fun r => rangeLoop ev k r.1 r.2 (acc ++ [v])))
    else .ok (st, acc)

/-- `Range` (`builtin_list.go:573-598`). -/
def rangeFn (n : Nat) (ev : Evaluator) (st : EState) (ps : List Ex) : Res (EState × Ex) :=
  (specFromList ev st (.expr (S "List" :: S "$DUMMY" :: ps.tail))).bind (fun r =>
    match r.2 with
    | none => .ok (r.1, .expr ps)
    | some it => (rangeLoop ev n r.1 it []).bind (fun q => .ok (q.1, .expr (S "List" :: q.2))))

end Expreduce
