import Verif.Model.SameQ
import Verif.Proofs.Assn

/-!
# The pattern matcher (`/repo/expreduce/matcher/{matchq,parse_form,blank,pdmanager,pdreplace}.go`)

Conventions and simplifications of this file:

* A Go iterator (`MatchIter`) is replaced by the list of all results that repeated calls of `Next` show, in order. The Go code is lazy;
  the difference is visible only through crashes and side effects behind the first match.
* `none` (of `Option`) means: no normal return. It covers running out of fuel and the Go panics (index out of range on malformed
  special forms such as `Pattern[x]`, negative repetition counts, the `Orderless` pattern without elements).
* A `*PDManager` is an association list, passed in and handed back, because `isBlankTypeCapturing` writes into the caller's object.
  Several results of one sequence match get separate copies (in Go two *empty* results of the same match share one object).
* `es.Eval` is an oracle `isTrue` that says whether an expression evaluates to `True`; evaluation side effects are not modelled.
* The allocation iterator is replaced by its list of assignments (`assignments`), which is proved to be what the iterator shows
  (`assignments_collect`).
-/

namespace Expreduce
open Ex

/-- What the matcher asks of the evaluation state: attributes and default value of a symbol (`atoms/ex_symbol.go:92-109`), and whether
an expression evaluates to `True` (`matchq.go:108-122, 135-143`). -/
structure MEnv where
  flat : String → Bool
  orderless : String → Bool
  oneIdentity : String → Bool
  dflt : String → Option Ex
  isTrue : Ex → Bool

/-- `PDManager` (`pdmanager.go:12-14`). -/
abbrev PM := List (String × Ex)

/-- `pm.patternDefined[name]`. -/
def PM.get (pm : PM) (x : String) : Option Ex := List.lookup x pm

/-- `pm.patternDefined[name] = val` (`pdmanager.go:38-41`). -/
def PM.set (pm : PM) (x : String) (v : Ex) : PM := (x, v) :: pm.filter (fun kv => kv.1 != x)

/-- `pm.update(toAdd)` (`pdmanager.go:43-51`). -/
def PM.update (pm toAdd : PM) : PM := toAdd.foldr (fun kv acc => PM.set acc kv.1 kv.2) pm

/-- The update with a possibly nil result (`matchq.go:436-443`). -/
def PM.updateO (pm : PM) : Option PM → PM
  | none => pm
  | some q => pm.update q

/-- `maxInt` (`matchq.go:18-19`). -/
def maxInt : Int := 2 ^ 63 - 1

/-- Arguments of a bare `Blank`, `BlankSequence` or `BlankNullSequence` (`blank.go:27-33`). -/
def blankArgs : Ex → Option (List Ex)
  | .expr (.sym s :: args) =>
    if s = "System`Blank" ∨ s = "System`BlankSequence" ∨ s = "System`BlankNullSequence" then some args else none
  | _ => none

/-- The case distinction of `isBlankTypeOnly` and `isBlankTypeCapturing` (`blank.go:8-34, 45-117`). -/
inductive BlankKind where
  | notBlank
  | bare (args : List Ex)
  | named (nm : Ex) (args : List Ex)
  | crash

/-- `isBlankTypeOnly` (`blank.go:8-34`) together with the parts `isBlankTypeCapturing` picks out. `Pattern` with fewer than two
arguments crashes (index out of range). -/
def blankKind : Ex → BlankKind
  | .expr (.sym s :: args) =>
    if s = "System`Pattern" then
      match args with
      | nm :: body :: _ =>
        match blankArgs body with
        | some as => .named nm as
        | none => .notBlank
      | _ => .crash
    else
      match blankArgs (.expr (.sym s :: args)) with
      | some as => .bare as
      | none => .notBlank
  | _ => .notBlank

/-- The head comparison (`blank.go:74-79, 110-113`). -/
def headOk (headEx : Ex) : List Ex → Bool
  | [] => true
  | h :: _ => isSameQ headEx h

/-- `headEx` (`matchq.go:193-209`). -/
def headExOf : Ex → Ex
  | .flt _ => S "Real"
  | .int _ => S "Integer"
  | .str _ => S "String"
  | .expr (h :: _) => h
  | .expr [] => .expr []
  | .sym _ => S "Symbol"
  | .rat _ _ => S "Rational"
  | .cplx _ _ => S "Complex"

/-- `isBlankTypeCapturing` for a named blank (`blank.go:80-99`): results and the state of `pm` afterwards. -/
def capture (a nm : Ex) (pm : PM) : List (Option PM) × PM :=
  match nm with
  | .sym x =>
    match pm.get x with
    | none => ([some (pm.set x a)], pm.set x a)
    | some v => if isSameQ v a then ([some pm], pm) else ([], pm)
  | _ => ([some pm], pm)

/-- `blankSequenceToBlank`, `blankNullSequenceToBlank` (`blank.go:119-143`). -/
def toBlank : Ex → Ex
  | .expr (_ :: h :: _) => .expr [S "Blank", h]
  | _ => .expr [S "Blank"]

/-- Arguments of an expression with the given symbol as head (`atoms.HeadAssertion`). -/
def argsOf (head : String) : Ex → Option (List Ex)
  | .expr (.sym s :: args) => if s = head then some args else none
  | _ => none

/-- `parseRepeated` (`parse_form.go:21-45`) and its use (`parse_form.go:127-140`): lower bound, upper bound, form. -/
def parseRepeated (t : Ex) : List Ex → Int × Int × Ex
  | [] => (1, 1, t)
  | [p] => (1, maxInt, p)
  | p :: l :: _ =>
    match argsOf "System`List" l with
    | some [.int n] =>
      (if wrap64 n ≠ -1 then wrap64 n else 1, if wrap64 n ≠ -1 then wrap64 n else maxInt, p)
    | _ => (1, 1, t)

/-- The bounds and the form of a `Blank` under a `Flat` head (`parse_form.go:112-125`). -/
def impliedBs (sh : String) (t : Ex) : List Ex → Int × Int × Ex
  | .sym s :: _ => if s = sh then (2, maxInt, .expr [S "Blank"]) else (1, 1, t)
  | _ => (1, maxInt, t)

/-- Lower bound, upper bound, form and default (`parse_form.go:88-151`). `opt` are the arguments of the surrounding `Optional`. -/
def parseBody (flat : Bool) (sh : String) (dflt : Option Ex) (opt : Option (List Ex)) (isTest : Bool) (t : Ex) :
    (Int × Int × Ex) × Option Ex :=
  match opt with
  | some oargs =>
    let d := match oargs with
      | _ :: d :: _ => some d
      | _ => dflt
    ((if d.isNone then 1 else 0, if (hasHead "System`Blank" t && flat) && !isTest then maxInt else 1, t), d)
  | none =>
    match argsOf "System`BlankNullSequence" t with
    | some _ => ((0, maxInt, toBlank t), none)
    | none =>
      match argsOf "System`Blank" t with
      | some bargs => (if flat then impliedBs sh t bargs else (1, 1, t), none)
      | none =>
        match argsOf "System`Repeated" t with
        | some rargs => (parseRepeated t rargs, none)
        | none =>
          match argsOf "System`RepeatedNull" t with
          | some [p] => ((0, maxInt, p), none)
          | some _ => ((1, 1, t), none)
          | none =>
            match argsOf "System`BlankSequence" t with
            | some _ => ((1, maxInt, toBlank t), none)
            | none => ((1, 1, t), none)

/-- The `Optional` wrapper (`parse_form.go:57-60`): its arguments and what is inside. -/
def stripOptional (c : Ex) : Option (Option (List Ex) × Ex) :=
  match argsOf "System`Optional" c with
  | some (p :: rest) => some (some (p :: rest), p)
  | some [] => none
  | none => some (none, c)

/-- The `PatternTest` wrapper (`parse_form.go:61-64, 153-161`): the test and what is inside. -/
def stripTest (c : Ex) : Option (Option Ex × Ex) :=
  match argsOf "System`PatternTest" c with
  | some (p :: t :: _) => some (some t, p)
  | some _ => none
  | none => some (none, c)

/-- The `Pattern` wrapper (`parse_form.go:65-76`): the name and what is inside. -/
def stripPat (c : Ex) : Option (Option String × Ex) :=
  match argsOf "System`Pattern" c with
  | some (.sym x :: p :: _) => some (some x, p)
  | some [.sym _] => none
  | some [] => none
  | some _ => some (none, c)
  | none => some (none, c)

/-- `parseForm` (`parse_form.go:47-180`). -/
def parseForm (flat : Bool) (sh : String) (dflt : Option Ex) (c : Ex) : Option ParsedForm :=
  match stripOptional c with
  | none => none
  | some (opt, c1) =>
    match stripTest c1 with
    | none => none
    | some (tst, c2) =>
      match stripPat c2 with
      | none => none
      | some (nm, t) =>
        let r := parseBody flat sh dflt opt tst.isSome t
        some { startI := r.1.1, endI := r.1.2.1,
               form := match tst with
                 | some q => .expr [S "PatternTest", r.1.2.2, q]
                 | none => r.1.2.2,
               isBlank := hasHead "System`Blank" t && !flat, isImpliedBs := hasHead "System`Blank" t && flat,
               isOptional := opt.isSome, defaultExpr := r.2, patSym := nm }

/-- The value `defineSequence` attempts to define (`pdmanager.go:131-142`). -/
def attemptDefine (env : MEnv) (sh : String) (f : ParsedForm) (seq : List Ex) : Ex :=
  match seq, f.defaultExpr with
  | [x], _ =>
    if f.isBlank || env.oneIdentity sh || f.isOptional then x
    else if f.isImpliedBs then .expr [.sym sh, x] else .expr [S "Sequence", x]
  | [], some d => if f.isOptional then d else if f.isImpliedBs then .expr [.sym sh] else .expr [S "Sequence"]
  | seq, _ => if f.isImpliedBs then .expr (.sym sh :: seq) else .expr (S "Sequence" :: seq)

/-- `defineSequence` (`pdmanager.go:121-154`); `none` if it returns false. -/
def defineSequence (env : MEnv) (sh : String) (f : ParsedForm) (seq : List Ex) (pm : PM) : Option PM :=
  match f.patSym with
  | none => some pm
  | some x =>
    match pm.get x with
    | none => some (pm.set x (attemptDefine env sh f seq))
    | some v => if isSameQ v (attemptDefine env sh f seq) then some (pm.set x (attemptDefine env sh f seq)) else none

/-- The type of the recursive call `NewMatchIter(a, b, pm, es)`: the list of results (nil for a literal match) and `pm` afterwards. -/
abbrev MatchRec := Ex → Ex → PM → Option (List (Option PM) × PM)

/-- Run a function that may fail over a list and collect the results. -/
def mapO {α β : Type} (f : α → Option β) : List α → Option (List β)
  | [] => some []
  | x :: xs =>
    match f x, mapO f xs with
    | some y, some ys => some (y :: ys)
    | _, _ => none

/-- Run a function that may fail over a list and concatenate the results. -/
def bindO {α β : Type} (f : α → Option (List β)) (xs : List α) : Option (List β) := (mapO f xs).map List.flatten

/-- Matching the elements assigned to one form (`assignedMatchIter.next`, `matchq.go:422-448`): all ways. -/
def amiElems (rec : MatchRec) (form : Ex) : List Ex → PM → Option (List PM)
  | [], pm => some [pm]
  | x :: xs, pm =>
    match rec x form pm with
    | none => none
    | some (rs, pm') => bindO (fun r => amiElems rec form xs (pm'.updateO r)) rs

/-- `assignedMatchIter` (`matchq.go:360-451`): all results for one assignment; the assigned elements are given in place of their
positions. -/
def amiRun (env : MEnv) (rec : MatchRec) (sh : String) : List ParsedForm → List (List Ex) → PM → Option (List PM)
  | f :: fs, seg :: segs, pm =>
    match amiElems rec f.form seg pm with
    | none => none
    | some pms =>
      bindO (fun q =>
        match defineSequence env sh f seg q with
        | none => some []
        | some q' => amiRun env rec sh fs segs q') pms
  | _, _, pm => some [pm]

/-- What the iterator `assnIter` shows (`allocations.go:77-208`), see `assignments_collect`. `none` for the inputs on which it crashes:
no forms under an `Orderless` head, and (cautiously) any negative lower bound. -/
def assignments (l : Nat) (forms : List ParsedForm) (fm : List (List Bool)) (ordl : Bool) : Option (List (List (List Nat))) :=
  if forms.any (fun f => decide (f.startI < 0)) then none
  else if ordl then
    if forms.isEmpty && decide (0 < l) then none else some (assnOrderless l fm (completions forms l))
  else some ((completions forms l).map (fun a => cutBy (a.map Int.toNat) (List.range l)))

/-- One row of `formMatches` (`matchq.go:513-524`). -/
def matchRow (rec : MatchRec) (comps : List Ex) (form : Ex) : Option (List Bool) :=
  mapO (fun c => (rec c form []).map (fun r => !r.1.isEmpty)) comps

/-- The table `formMatches` (`matchq.go:512-531`); the inner `none` if some form has too few candidates. -/
def formTable (rec : MatchRec) (comps : List Ex) : List ParsedForm → Option (Option (List (List Bool)))
  | [] => some (some [])
  | f :: fs =>
    match matchRow rec comps f.form with
    | none => none
    | some row =>
      if (row.count true : Int) < f.startI then some none
      else
        match formTable rec comps fs with
        | none => none
        | some none => some none
        | some (some rows) => some (some (row :: rows))

/-- The elements at the given positions. -/
def pick (comps : List Ex) (is : List Nat) : List Ex := is.filterMap (fun i => comps[i]?)

/-- `newSequenceMatchIter` and all of its results (`matchq.go:453-560`). -/
def seqMatch (env : MEnv) (rec : MatchRec) (comps lhs : List Ex) (ordl flat : Bool) (sh : String) (pm : PM) : Option (List PM) :=
  match mapO (parseForm flat sh (env.dflt sh)) lhs with
  | none => none
  | some forms =>
    match formTable rec comps forms with
    | none => none
    | some none => some []
    | some (some fm) =>
      match assignments comps.length forms fm ordl with
      | none => none
      | some as => bindO (fun A => amiRun env rec sh forms (A.map (pick comps)) pm) as

/-- The operator form of `Verbatim` (`matchq.go:172-191`): the rewritten pattern, if it applies. -/
def verbatimOp (a b : Ex) : Option Ex :=
  match a, b with
  | .expr (ah :: _), .expr (.expr (.sym s :: hargs) :: args) =>
    if s = "System`Verbatim" then
      match hargs with
      | [h] => if isSameQ ah h then some (.expr (h :: args)) else none
      | _ => none
    else none
  | _, _ => none

/-- `canAssumeHead` (`matchq.go:242-259`). -/
def canAssumeHead (env : MEnv) (bs : String) (bargs : List Ex) : Bool :=
  env.oneIdentity bs && (env.dflt bs).isSome && bargs.any (hasHead "System`Optional")

/-- The final comparison of two part lists (`matchq.go:299-325`). -/
def matchParts (env : MEnv) (rec : MatchRec) (as bs : List Ex) (forceOrdered : Bool) (pm : PM) : Option (List (Option PM) × PM) :=
  match as, bs with
  | ah :: at', bh :: bt =>
    match ah, bh with
    | .sym s, .sym t =>
      if s = t then
        (seqMatch env rec at' bt (env.orderless s && !forceOrdered) (env.flat s && !forceOrdered) s pm).map
          (fun rs => (rs.map some, pm))
      else (seqMatch env rec as bs false false "Sequence" pm).map (fun rs => (rs.map some, pm))
    | _, _ => (seqMatch env rec as bs false false "Sequence" pm).map (fun rs => (rs.map some, pm))
  | _, _ => none

/-- The end of `NewMatchIter` after the blanks and the `Rational`/`Complex` cases (`matchq.go:242-326`). -/
def matchCompound (env : MEnv) (rec : MatchRec) (a b : Ex) (forceOrdered : Bool) (pm : PM) : Option (List (Option PM) × PM) :=
  match b with
  | .expr bs =>
    let can := match bs with
      | .sym s :: bargs => canAssumeHead env s bargs
      | _ => false
    match a with
    | .expr as =>
      match as, bs with
      | .sym s :: _, .sym t :: _ =>
        if can && s != t then matchParts env rec [.sym t, a] bs forceOrdered pm else matchParts env rec as bs forceOrdered pm
      | _, _ => matchParts env rec as bs forceOrdered pm
    | _ =>
      match bs with
      | .sym t :: _ => if can then matchParts env rec [.sym t, a] bs forceOrdered pm
                       else some (if isSameQ a b then ([none], pm) else ([], pm))
      | _ => some (if isSameQ a b then ([none], pm) else ([], pm))
  | _ =>
    match a with
    | .expr _ => some ([], pm)
    | _ => some (if isSameQ a b then ([none], pm) else ([], pm))

/-- The first result, as `getMatchQ` returns it (`matchq.go:564-575`), followed by returning it from a `dummyMatchIter`. -/
def firstOnly (r : Option (List (Option PM) × PM)) : Option (List (Option PM) × PM) := r.map (fun x => (x.1.take 1, x.2))

/-- "Continue normally" (`matchq.go:162-326`). -/
def matchNormal (env : MEnv) (rec : MatchRec) (a b0 : Ex) (pm : PM) : Option (List (Option PM) × PM) :=
  let b := (verbatimOp a b0).getD b0
  match blankKind b with
  | .crash => none
  | .bare args => some (if headOk (headExOf a) args then ([some pm], pm) else ([], pm))
  | .named nm args => some (if headOk (headExOf a) args then capture a nm pm else ([], pm))
  | .notBlank =>
    match a, b with
    | .rat n d, .expr _ => firstOnly (rec (.expr [S "Rational", .int n, .int d]) b pm)
    | .cplx re im, .expr _ => firstOnly (rec (.expr [S "Complex", re, im]) b pm)
    | a, b => matchCompound env rec a b (verbatimOp a b0).isSome pm

/-- `Alternatives` (`matchq.go:73-85`). -/
def matchAlts (rec : MatchRec) (a : Ex) : List Ex → PM → Option (List (Option PM) × PM)
  | [], pm => some ([], pm)
  | alt :: alts, pm =>
    match rec a alt pm with
    | none => none
    | some ([], pm') => matchAlts rec a alts pm'
    | some (r :: _, pm') => some ([r], pm')

mutual
/-- `ContainsSymbol` (`atoms/ex_symbol.go:263-277`). -/
def containsSymbol (x : String) : Ex → Bool
  | .sym s => s == x
  | .expr ps => containsSymbolL x ps
  | _ => false
/-- The loop of `ContainsSymbol`. -/
def containsSymbolL (x : String) : List Ex → Bool
  | [] => false
  | p :: ps => containsSymbol x p || containsSymbolL x ps
end

mutual
/-- `replacePDInternal` (`pdreplace.go:8-38`) on a fresh copy: in-place replacement of every part. -/
def replacePDInternal (pm : PM) : Ex → Ex
  | .sym s => (pm.get s).getD (.sym s)
  | .expr ps => .expr (replacePDParts pm ps)
  | e => e
/-- The loop over the parts (`pdreplace.go:23-35`). -/
def replacePDParts (pm : PM) : List Ex → List Ex
  | [] => []
  | p :: ps => replacePDInternal pm p :: replacePDParts pm ps
end

/-- `ReplacePD` (`pdreplace.go:40-66`), `none` being the nil `PDManager`. -/
def replacePD (e : Ex) : Option PM → Ex
  | none => e
  | some pm => if pm.any (fun kv => containsSymbol kv.1 e) then replacePDInternal pm e else e

/-- The test of `PatternTest` (`matchq.go:91-122`). -/
def patternTestOk (env : MEnv) (a test : Ex) : Bool :=
  if test = S "NumberQ" then numberQ a else env.isTrue (.expr [test, a])

/-- The special pattern heads (`matchq.go:55-160`). `none`: continue normally (with the same `pm`);
`some (none)`: no normal return. A failed `Condition` or `Optional` continues normally with the changed `pm`. -/
inductive Special where
  | done (r : Option (List (Option PM) × PM))
  | goOn (pm : PM)

/-- The special pattern heads (`matchq.go:55-160`). -/
def matchSpecial (env : MEnv) (rec : MatchRec) (a b : Ex) (pm : PM) : Special :=
  match b with
  | .expr (.sym s :: args) =>
    if s = "System`Except" then
      match args with
      | [c] =>
        match rec a c pm with
        | none => .done none
        | some ([], pm') => .done (some ([some pm'], pm'))
        | some (_ :: _, pm') => .done (some ([], pm'))
      | [c, p] =>
        match rec a c pm with
        | none => .done none
        | some ([], pm') => .done (firstOnly (rec a p pm'))
        | some (_ :: _, pm') => .done (some ([], pm'))
      | _ => .goOn pm
    else if s = "System`Alternatives" then .done (matchAlts rec a args pm)
    else if s = "System`PatternTest" then
      match args with
      | [p, test] =>
        match rec a p pm with
        | none => .done none
        | some ([], pm') => .done (some ([], pm'))
        | some (r :: _, pm') => .done (some (if patternTestOk env a test then ([r], pm') else ([], pm')))
      | _ => .goOn pm
    else if s = "System`Condition" then
      match args with
      | [p, cond] =>
        match rec a p pm with
        | none => .done none
        | some (rs, pm') =>
          match rs.find? (fun r => env.isTrue (replacePD cond r)) with
          | some r => .done (some ([r], pm'))
          | none => .goOn pm'
      | _ => .goOn pm
    else if s = "System`Optional" then
      match args with
      | [p] =>
        match rec a p pm with
        | none => .done none
        | some ([], pm') => .goOn pm'
        | some (r :: _, pm') => .done (some ([r], pm'))
      | _ => .goOn pm
    else if s = "System`HoldPattern" then
      match args with
      | [p] => .done (rec a p pm)
      | _ => .goOn pm
    else .goOn pm
  | _ => .goOn pm

/-- `NewMatchIter` (`matchq.go:41-326`) and all results of the iterator. On an expression without parts the Go code panics. -/
def matchF (env : MEnv) : Nat → MatchRec
  | 0, _, _, _ => none
  | n + 1, a, b, pm =>
    if a = .expr [] ∨ b = .expr [] then none
    else
      match matchSpecial env (matchF env n) a b pm with
      | .done r => r
      | .goOn pm' => matchNormal env (matchF env n) a b pm'

/-- `IsMatchQ` (`matchq.go:577-588`): whether it matches, and the `PDManager` returned. -/
def isMatchQ (env : MEnv) (n : Nat) (a b : Ex) (pm : PM) : Option (Bool × Option PM) :=
  match matchF env n a b pm with
  | none => none
  | some ([], pm') => some (false, some pm')
  | some (r :: _, _) => some (true, r)

end Expreduce
