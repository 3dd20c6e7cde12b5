import Verif.Model.Attrs
import Verif.Model.Replace

/-!
# Definitions (`/repo/expreduce/evalstate.go:300-640, 732-758`, `/repo/expreduce/definition_map.go`)

The table is a map from names to definitions (the contract of the library `concurrent-map`, used by one thread here; see
`Verif.Model.Concurrent` for several). Rules are values: the in-place update of the right side of an identical rule
(`evalstate.go:556`) is an update of that entry of the table. The results are `none` where the code panics or ends the process
(`log.Fatalf`).
-/

namespace Expreduce
open Ex

/-- `expreduceapi.DownValue` (`pkg/expreduceapi/cas.go:120-123`); `lhs` and `rhs` are parts 1 and 2 of the rule. -/
structure DV where
  lhs : Ex
  rhs : Ex
  spec : Int := 0
deriving DecidableEq

/-- `expreduceapi.Def` (`pkg/expreduceapi/cas.go:126-133`). The function value `LegacyEvalFn` is only known to be there or not. -/
structure DefM where
  downvalues : List DV := []
  attrs : Attrs := {}
  dflt : Option Ex := none
  builtin : Bool := false
deriving DecidableEq

/-- The table of definitions. -/
abbrev Table := String → Option DefM

/-- `Set` of the definition map (`definition_map.go:18-20`). -/
def Table.set (t : Table) (name : String) (d : DefM) : Table := fun n => if n = name then some d else t n

/-- The part of `EvalState` used here: the table and the flag `freeze` (`evalstate.go:21-50`). -/
structure DState where
  defs : Table
  frozen : Bool := false

/-- `maskNonConditional` (`evalstate.go:732-758`); `none` if a `Condition` has less than two arguments. -/
def maskNonConditional : Nat → Ex → Option Ex
  | 0, _ => none
  | n + 1, e =>
    match e with
    | .expr (.sym s :: args) =>
      if s = "System`Condition" then
        match args with
        | b :: c :: _ => (maskNonConditional n b).map (fun b' => .expr [S "Condition", b', c])
        | _ => none
      else if s = "System`With" ∨ s = "System`Module" then
        match args with
        | [vars, body] =>
          if hasHead "System`Condition" body then (maskNonConditional n body).map (fun b' => .expr [.sym s, vars, b'])
          else some (S "ExpreduceNonConditional")
        | _ => some (S "ExpreduceNonConditional")
      else some (S "ExpreduceNonConditional")
    | _ => some (S "ExpreduceNonConditional")

/-- The mask of a right side; the recursion is bounded by its size. -/
def maskOf (e : Ex) : Option Ex := maskNonConditional (size e + 1) e

/-- `atoms.E(atoms.S("HoldPattern"), lhs)` (`evalstate.go:531`). -/
def held (lhs : Ex) : Ex := .expr [S "HoldPattern", lhs]

/-- The single integer argument (`evalstate.go:442-447`). -/
def singleInt : Ex → Bool
  | .expr [_, .int _] => true
  | _ => false

/-- `ruleSpecificity` (`evalstate.go:431-469`). `strLen` stands for the length of the printed form of the left side. `none`: the left
side is not an expression with an argument (the code indexes its part 1). -/
def ruleSpecificity (strLen : Ex → Nat) (lhs rhs : Ex) (name : String) : Option Int :=
  if name = "Rubi`Int" then some 100
  else
    match lhs with
    | .expr (_ :: e :: _) =>
      if singleInt e then some 110
      else if hasHead "System`Condition" rhs then some 100
      else some (strLen lhs)
    | _ => none

/-- What `Define` makes of its left side (`evalstate.go:475-522`). -/
inductive Target where
  /-- assignment to `Attributes[s]` -/
  | attrs (s : String)
  /-- assignment to `DownValues[s]` -/
  | downValues (s : String)
  /-- a rule of the symbol -/
  | rule (name : String)
  /-- returns without doing anything -/
  | ignore
  /-- ends the process or panics -/
  | fatal

/-- The argument of `Attributes[...]` or `DownValues[...]`. -/
def metaTarget (mk : String → Target) : List Ex → Target
  | [.sym s] => mk s
  | _ => .ignore

/-- The name a rule is stored under, and the special left sides (`evalstate.go:475-522`). -/
def targetOf : Ex → Target
  | .sym s => if s = "" then .fatal else .rule s
  | .expr [] => .fatal
  | .expr (.sym s :: args) =>
    if s = "System`Attributes" then metaTarget .attrs args
    else if s = "System`DownValues" then metaTarget .downValues args
    else if s = "" then .fatal else .rule s
  | .expr (.expr [] :: _) => .fatal
  | .expr (.expr (.sym s :: hargs) :: _) =>
    if s = "System`Verbatim" then
      match hargs with
      | .sym x :: _ => if x = "" then .fatal else .rule x
      | _ => .fatal
    else .fatal
  | _ => .fatal

/-- The attribute names of the right side (`evalstate.go:369-383`): `none` if the assignment is dropped. -/
def attrNamesOf : List Ex → Option (List String)
  | [] => some []
  | .sym s :: l =>
    (attrNamesOf l).map (fun r => if "System`".toList.isPrefixOf s.toList then String.ofList (s.toList.drop 7) :: r else r)
  | _ :: _ => none

/-- `defineAttrs` (`evalstate.go:368-391`). -/
def defineAttrs (t : Table) (s : String) (rhs : Ex) : Table :=
  match argsOf "System`List" rhs with
  | none => t
  | some args =>
    match attrNamesOf args with
    | none => t
    | some names => t.set s { (t s).getD {} with attrs := stringsToAttributes names }

/-- The rules of the right side of an assignment to `DownValues[s]` (`evalstate.go:401-411`). An entry that is not a rule with two
arguments makes the code store a nil pointer or a malformed rule; this is not modelled (`none`). -/
def rulesOf : List Ex → Option (List DV)
  | [] => some []
  | .expr [.sym h, l, r] :: es =>
    if h = "System`Rule" ∨ h = "System`RuleDelayed" then (rulesOf es).map ({ lhs := l, rhs := r } :: ·) else none
  | _ :: _ => none

/-- `defineDownValues` (`evalstate.go:393-418`). -/
def defineDownValues (t : Table) (s : String) (rhs : Ex) : Option Table :=
  match argsOf "System`List" rhs with
  | none => some t
  | some args =>
    match rulesOf args with
    | none => none
    | some dvs => some (t.set s { (t s).getD {} with downvalues := dvs })

/-- The loop "Overwrite identical rules" (`evalstate.go:540-555`): `some none` if there is no identical rule. -/
def overwrite (hl rhs : Ex) : List DV → Option (Option (List DV))
  | [] => some none
  | dv :: dvs =>
    let next := (overwrite hl rhs dvs).map (Option.map (dv :: ·))
    if isSameQ dv.lhs hl then
      match maskOf dv.rhs, maskOf rhs with
      | some m, some m' => if isSameQ m m' then some (some ({ dv with rhs := rhs } :: dvs)) else next
      | _, _ => none
    else next

/-- The specificity used in the comparison (`evalstate.go:562-571`). -/
def specOf (strLen : Ex → Nat) (name : String) (dv : DV) : Option Int :=
  if dv.spec = 0 then ruleSpecificity strLen dv.lhs dv.rhs name else some dv.spec

/-- The insertion (`evalstate.go:557-599`): before the first rule of lower specificity, otherwise at the end. -/
def insertRule (strLen : Ex → Nat) (name : String) (hl rhs : Ex) (new : Int) : List DV → Option (List DV)
  | [] => some [{ lhs := hl, rhs := rhs }]
  | dv :: dvs =>
    match specOf strLen name dv with
    | none => none
    | some s =>
      if s < new then some ({ lhs := hl, rhs := rhs, spec := new } :: dv :: dvs)
      else (insertRule strLen name hl rhs new dvs).map (dv :: ·)

/-- The rules of a symbol after `Define` (`evalstate.go:526-599`). -/
def defineRule (strLen : Ex → Nat) (name : String) (hl rhs : Ex) (dvs : List DV) : Option (List DV) :=
  match overwrite hl rhs dvs with
  | none => none
  | some (some dvs') => some dvs'
  | some none =>
    match ruleSpecificity strLen hl rhs name with
    | none => none
    | some new => insertRule strLen name hl rhs new dvs

/-- `Define` (`evalstate.go:471-599`). -/
def define (strLen : Ex → Nat) (st : DState) (lhs rhs : Ex) : Option DState :=
  if st.frozen then some st
  else
    match targetOf lhs with
    | .fatal => none
    | .ignore => some st
    | .attrs s => some { st with defs := defineAttrs st.defs s rhs }
    | .downValues s => (defineDownValues st.defs s rhs).map (fun t => { st with defs := t })
    | .rule name =>
      match st.defs name with
      | none => some { st with defs := st.defs.set name { downvalues := [{ lhs := held lhs, rhs := rhs }] } }
      | some d =>
        (defineRule strLen name (held lhs) rhs d.downvalues).map
          (fun dvs => { st with defs := st.defs.set name { d with downvalues := dvs } })

/-- A rule for a bare symbol (`evalstate.go:319-325`). -/
def isSymbolRule : Ex → Bool
  | .expr [.sym h, .sym _] => h == "System`HoldPattern"
  | _ => false

/-- `GetDef` of a symbol, `GetSymDef` (`evalstate.go:305-327, 362-366`). -/
def getSymDef (st : DState) (name : String) : Option Ex :=
  match st.defs name with
  | none => none
  | some d => (d.downvalues.find? (fun dv => isSymbolRule dv.lhs)).map DV.rhs

/-- `GetDef` of an expression (`evalstate.go:328-358`), by the loop of `replace`. The evaluation of conditions is assumed not to change
the table. -/
def getDef (st : DState) (env : MEnv) (locals : Ex → Option Ex) (m n : Nat) (name : String) (e : Ex) : Option (Option Ex) :=
  match st.defs name with
  | none => some none
  | some d => rulesReplace env locals m n e (d.downvalues.map (fun dv => .expr [S "Rule", dv.lhs, dv.rhs]))

/-- `MarkSeen` (`evalstate.go:420-427`). -/
def markSeen (st : DState) (name : String) : DState :=
  match st.defs name with
  | none => { st with defs := st.defs.set name {} }
  | some _ => st

/-- `Clear` (`evalstate.go:605-611`). -/
def clear (st : DState) (name : String) : DState :=
  match st.defs name with
  | none => st
  | some _ => { st with defs := st.defs.set name {} }

/-- `CopyDefs`, `GetDefinedSnapshot` (`definition_map.go:52-67`): only the rules are copied. -/
def copyDefs (t : Table) : Table := fun n => (t n).map (fun d => { downvalues := d.downvalues })

/-- The builtin `Set` (`builtin_system.go:494-501`): state and value. -/
def setFn (strLen : Ex → Nat) (st : DState) (lhs rhs : Ex) : Option (DState × Ex) :=
  (define strLen st lhs rhs).map (fun st' => (st', rhs))

/-- The builtin `Clear` (`builtin_system.go:402-411`). -/
def clearFn (st : DState) : List Ex → DState
  | [] => st
  | .sym s :: l => clearFn (clear st s) l
  | _ :: l => clearFn st l

/-- The builtin `Attributes` (`builtin_system.go:360-380`). -/
def attributesFn (st : DState) (s : String) : Ex :=
  match st.defs s with
  | some d => attrsToSymList d.attrs
  | none => .expr [S "List"]

/-- The values of the parts of a left side, evaluated in order (`builtin_system.go:577-579`). -/
def evalParts (ev : DState → Ex → DState × Ex) (st : DState) : List Ex → DState × List Ex
  | [] => (st, [])
  | p :: ps =>
    let r := ev st p
    let rs := evalParts ev r.1 ps
    (rs.1, r.2 :: rs.2)

/-- Whether `SetDelayed` leaves the left side as it is (`builtin_system.go:567-576`). -/
def lhsHeld (st : DState) : List Ex → Bool
  | .sym s :: _ => let a := ((st.defs s).map DefM.attrs).getD {}; a.holdAll || a.holdAllComplete
  | _ => false

/-- The builtin `SetDelayed` (`builtin_system.go:559-585`). `ev` is the evaluator. The parts of the left side are evaluated in place, so
both calls of `Define` see the evaluated left side. -/
def setDelayedFn (strLen : Ex → Nat) (ev : DState → Ex → DState × Ex) (st : DState) (lhs rhs : Ex) : Option (DState × Ex) :=
  match lhs with
  | .expr ps =>
    let r := if lhsHeld st ps then (st, ps) else evalParts ev st ps
    ((define strLen r.1 (.expr r.2) rhs).bind (fun st' => define strLen st' (.expr r.2) rhs)).map (fun st' => (st', S "Null"))
  | lhs => (define strLen st lhs rhs).map (fun st' => (st', S "Null"))

end Expreduce
