import Verif.Model.Eval

/-!
# Fresh names: `Unique` and `Module` (`/repo/expreduce/builtin_system.go:152-268, 873-882, 973-998`)

The search for a free number is cut off by a number; `Res.stuck` means that it did not suffice. `log.Fatal` is `Res.panic`.
-/

namespace Expreduce
open Ex

/-- The symbol that holds the next number. -/
def modNumName : String := "System`$ModuleNumber"

/-- `fmt.Sprintf("%v%v%v", context, prefix, mn)` (`builtin_system.go:168`). -/
def numbered (stem : String) (mn : Int) : String := stem ++ Int.repr mn

/-- The loop `builtin_system.go:167-177`: the number found. The number is an `int64`, its increment wraps. -/
def snagLoop (t : Table) (stem : String) : Nat → Int → Option Int
  | 0, _ => none
  | n + 1, mn => if (t (numbered stem mn)).isSome then snagLoop t stem n (wrap64 (mn + 1)) else some mn

/-- What follows the search: the new value of `$ModuleNumber` (`builtin_system.go:170-174`). -/
def snagFinish (strLen : Ex → Nat) (st : DState) (stem : String) : Option Int → Res (DState × Option String)
  | none => .stuck
  | some mn => (Res.ofOption (define strLen st (.sym modNumName) (.int (wrap64 (mn + 1))))).bind (fun st' => .ok (st', some (numbered stem mn)))

/-- `snagUnique` (`builtin_system.go:152-179`); the stem is `context ++ prefix`. -/
def snagUnique (strLen : Ex → Nat) (n : Nat) (st : DState) (stem : String) : Res (DState × Option String) :=
  match getSymDef st modNumName with
  | some (.int k) => snagFinish strLen st stem (snagLoop st.defs stem n (wrap64 k))
  | _ => .ok (st, none)

/-- A symbol from a fresh name; without one the process ends (`builtin_system.go:994-998`). -/
def uniqueSym (r : DState × Option String) : Res (DState × Ex) :=
  match r.2 with
  | none => .panic
  | some s => .ok (r.1, .sym s)

/-- `Unique` (`builtin_system.go:973-998`). -/
def uniqueFn (strLen : Ex → Nat) (n : Nat) (st : DState) (ps : List Ex) : Res (DState × Ex) :=
  match ps with
  | [_, .str p] => (snagUnique strLen n st ("Global`" ++ p)).bind uniqueSym
  | [_, _] => .ok (st, .expr ps)
  | [_] => (snagUnique strLen n st ("Global`" ++ "$")).bind uniqueSym
  | [_, _, _] => (snagUnique strLen n st ("Global`" ++ "$")).bind uniqueSym
  | ps => .ok (st, .expr ps)

/-- The initial value of a local variable. -/
inductive Init where
  | none
  | set (v : Ex)
  | delayed (v : Ex)

/-- `parsedLocal` (`builtin_system.go:198-204`). -/
structure Local where
  name : String
  init : Init

/-- The parsing of a local variable (`builtin_system.go:206-229`). -/
def parseLocal (e : Ex) : Option Local :=
  match e with
  | .sym x => some { name := x, init := .none }
  | .expr [.sym h, .sym x, v] =>
    if h = "System`Set" then some { name := x, init := .set v }
    else if h = "System`SetDelayed" then some { name := x, init := .delayed v }
    else none
  | _ => none

/-- The loop `builtin_system.go:206-230`. -/
def parseLocals : List Ex → Option (List Local)
  | [] => some []
  | e :: es => (parseLocal e).bind (fun l => (parseLocals es).map (l :: ·))

/-- The loop `builtin_system.go:232-238`: a fresh name for each local variable. -/
def snagAll (strLen : Ex → Nat) (n : Nat) : DState → List Local → Res (DState × List (Local × String))
  | st, [] => .ok (st, [])
  | st, l :: ls =>
    (snagUnique strLen n st (l.name ++ "$")).bind (fun r =>
      match r.2 with
      | none => .panic
      | some u => (snagAll strLen n r.1 ls).bind (fun q => .ok (q.1, (l, u) :: q.2)))

/-- The definition written for a fresh name (`builtin_system.go:247-262`). -/
def localDef (u : String) (v : Ex) : DefM := { downvalues := [{ lhs := held (.sym u), rhs := v }] }

/-- Writes a definition into the table. -/
def EState.put (st : EState) (u : String) (d : DefM) : EState := { st with defs := st.defs.set u d }

/-- The loop `builtin_system.go:241-265`. -/
def defineLocals (ev : Evaluator) : EState → List (Local × String) → PM → Res (EState × PM)
  | st, [], pm => .ok (st, pm)
  | st, (l, u) :: ls, pm =>
    match l.init with
    | .none => defineLocals ev (st.put u {}) ls (PM.set pm l.name (.sym u))
    | .delayed v => defineLocals ev (st.put u (localDef u v)) ls (PM.set pm l.name (.sym u))
    | .set v => (ev st v).bind (fun r => defineLocals ev (r.1.put u (localDef u r.2)) ls (PM.set pm l.name (.sym u)))

/-- `applyModuleFn` after the parsing (`builtin_system.go:232-267`). -/
def moduleRun (strLen : Ex → Nat) (n : Nat) (ev : Evaluator) (st : EState) (ls : List Local) (body : Ex) : Res (EState × Ex) :=
  (snagAll strLen n st.toDState ls).bind (fun r =>
    (defineLocals ev { st with toDState := r.1 } r.2 []).bind (fun q => .ok (q.1, replacePD body (some q.2))))

/-- The builtin `Module` (`builtin_system.go:181-268, 873-882`). -/
def moduleFn (strLen : Ex → Nat) (n : Nat) (ev : Evaluator) (st : EState) (ps : List Ex) : Res (EState × Ex) :=
  match ps with
  | [_, vars, body] =>
    match (argsOf "System`List" vars).bind parseLocals with
    | none => .ok (st, .expr ps)
    | some ls => moduleRun strLen n ev st ls body
  | ps => .ok (st, .expr ps)

end Expreduce
