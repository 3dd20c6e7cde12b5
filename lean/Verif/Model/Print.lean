import Verif.Model.Eval
import Verif.Model.SameQ

/-!
# Printing (`StringForm` in `/repo/expreduce/atoms/*.go`, `/repo/expreduce/string.go` and the `toString` functions of the builtins)

Modelled: the forms `FullForm`, `InputForm` and `OutputForm`. Not modelled: `TeXForm`, `TraditionalForm`, `StandardForm` (result `stuck`) and the printing of `Definition[..]`.
Two things come from libraries and are parameters: `prec` is the precedence of the operator of a head (`wl.Precedence` after `headsToTokens`), `fl` is the text of a
real number (`fmt.Sprintf("%.6g")` with a point appended if there is none). The number bounds the recursion.
-/

namespace Expreduce
open Ex

/-- `ToStringParams.Form`. -/
inductive PForm where
  | full | input | output
deriving DecidableEq

/-- `ToStringParams` (`pkg/expreduceapi`): `fns` says whether `Esi` knows the functions of the builtins. -/
structure PParams where
  form : PForm
  context : String
  path : List String
  prev : String
  fns : Bool
deriving DecidableEq

/-- `PreviousHead` at the top. -/
def topHead : String := "<TOPLEVEL>"

/-- `defaultStringParams` (`atoms/string_utils.go:17-29`); `PreviousHead` is not set there. -/
def defaultParams : PParams := { form := .input, context := "Global`", path := ["System`"], prev := "", fns := false }

/-- `strings.HasPrefix` and the rest after the prefix. -/
def dropPre (pre s : String) : Option String :=
  if pre.toList.isPrefixOf s.toList then some (String.ofList (s.toList.drop pre.toList.length)) else none

/-- `Symbol.StringForm` (`atoms/ex_symbol.go:46-60`), without TeX. -/
def symForm (p : PParams) (name : String) : String :=
  if name = "" then "<EMPTYSYM>"
  else
    match dropPre p.context name with
    | some r => r
    | none =>
      match p.path.findSome? (fun c => dropPre c name) with
      | some r => r
      | none => name

section
variable (prec : String → Option Nat) (fl : Rat → String)

/-- `NeedsParens` (`parser/parens/parens.go:40-55`). -/
def needsParens (this prev : String) : Bool :=
  if prev = topHead then false
  else
    match prec prev, prec this with
    | some a, some b => !(decide (a < b))
    | _, _ => true

/-- Parentheses if asked for. -/
def inBrackets (b : Bool) (s : String) : String := if b then "(" ++ s ++ ")" else s

/-- `Rational.StringForm` (`atoms/ex_rational.go:18-35`). -/
def ratForm (p : PParams) (n d : Int) : String :=
  match p.form with
  | .full => "Rational[" ++ Int.repr n ++ ", " ++ Int.repr d ++ "]"
  | _ => inBrackets (needsParens prec "System`Times" p.prev) (Int.repr n ++ "/" ++ Int.repr d)

/-- `Flt.StringForm` (`atoms/ex_real.go:20-43`). -/
def fltForm (p : PParams) (v : Rat) : String := inBrackets (decide (v < 0) && needsParens prec "System`Times" p.prev) (fl v)

/-- `String.StringForm` (`atoms/ex_string.go:14-21`): nothing is escaped. -/
def strForm (p : PParams) (s : String) : String :=
  match p.form with
  | .output => s
  | _ => "\"" ++ s ++ "\""

/-- `Complex.AsExpr` (`atoms/ex_complex.go:17-31`). -/
def cplxAsExpr (re im : Ex) : Ex :=
  let one := match im with | .int n => decide (wrap64 n = 1) | _ => false
  match re with
  | .int 0 => if one then S "I" else .expr [S "Times", im, S "I"]
  | _ => if one then .expr [S "Plus", re, S "I"] else .expr [S "Plus", re, .expr [S "Times", im, S "I"]]

/-- The texts joined with a delimiter. -/
def joinTexts (delim : String) : List String → String
  | [] => ""
  | [s] => s
  | s :: r => s ++ delim ++ joinTexts delim r

/-- The operators printed by `toStringInfix` and `toStringInfixAdvanced` from a table: delimiter, head for the parentheses, whether each operand is put in parentheses, and
whether exactly two operands are required (`builtin_comparison.go:126-330`, `builtin_boolean.go:11,39`, `builtin_string.go:48`, `builtin_system.go:479,545`,
`builtin_replacement.go:109-236`). -/
def infixOf (h : String) : Option (String × String × Bool × Bool) :=
  if h = "System`Equal" then some (" == ", h, false, false)
  else if h = "System`Unequal" then some (" != ", h, false, false)
  else if h = "System`SameQ" then some (" === ", h, false, false)
  else if h = "System`UnsameQ" then some (" =!= ", h, false, false)
  else if h = "System`Less" then some (" < ", h, false, false)
  else if h = "System`Greater" then some (" > ", h, false, false)
  else if h = "System`LessEqual" then some (" <= ", h, false, false)
  else if h = "System`GreaterEqual" then some (" >= ", h, false, false)
  else if h = "System`And" then some (" && ", "", false, false)
  else if h = "System`Or" then some (" || ", "", false, false)
  else if h = "System`StringJoin" then some (" <> ", "", false, false)
  else if h = "System`Set" then some (" = ", h, false, true)
  else if h = "System`SetDelayed" then some (" := ", h, false, true)
  else if h = "System`Rule" then some (" -> ", h, false, true)
  else if h = "System`RuleDelayed" then some (" :> ", h, false, true)
  else if h = "System`ReplaceAll" then some (" /. ", "", true, true)
  else if h = "System`ReplaceRepeated" then some (" //. ", "", true, true)
  else none

/-- The blanks (`builtin_pattern.go:79-96`). -/
def blankRepr (h : String) : Option String :=
  if h = "System`Blank" then some "_" else if h = "System`BlankSequence" then some "__" else if h = "System`BlankNullSequence" then some "___" else none

/-- The forms as heads (`atoms/ex_expression.go:114-125`). -/
def formOf (h : String) : Option (Option PForm) :=
  if h = "System`InputForm" then some (some .input)
  else if h = "System`FullForm" then some (some .full)
  else if h = "System`OutputForm" then some (some .output)
  else if h = "System`TraditionalForm" ∨ h = "System`TeXForm" ∨ h = "System`StandardForm" then some none
  else none

/-- `splitFrac` (`builtin_arithmetic.go:143-166`): numerator and denominator. -/
def splitFrac : Ex → Option Ex × Option Ex
  | .expr [.sym "System`Power", b, .int n] => if wrap64 n = -1 then (none, some b) else (some (.expr [.sym "System`Power", b, .int n]), none)
  | .rat n d => if wrap64 n = 1 then (none, some (.int d)) else (some (.int n), some (.int d))
  | e => (some e, none)

/-- The parts of a product, with products from complex numbers spliced (`builtin_arithmetic.go:280-297`). -/
def timesParts : List Ex → List Ex
  | [] => []
  | .cplx a b :: r =>
    match cplxAsExpr a b with
    | .expr (.sym "System`Times" :: l) => l ++ timesParts r
    | _ => .cplx a b :: timesParts r
  | e :: r => e :: timesParts r

/-- The treatment of a leading factor `-1` (`builtin_arithmetic.go:326-330,347-350`). -/
def minusPrefix (s : String) : String × String :=
  match dropPre "-1*" s with
  | some r => ("-", r)
  | none => ("", s)

/-- The loop of `Plus` (`builtin_arithmetic.go:192-203`) over the texts of the operands after the first; an empty text panics. -/
def plusTexts : List String → Res String
  | [] => .ok ""
  | s :: r =>
    match s.toList with
    | [] => .panic
    | c :: cs => (plusTexts r).bind (fun t => .ok ((if c = '-' then " - " ++ String.ofList cs else " + " ++ s) ++ t))

/-- A form applied to one argument (`atoms/ex_expression.go:114-125`). -/
def formOfCall : Ex → List Ex → Option (Option PForm × Ex)
  | .sym h, [x] => (formOf h).map (fun f => (f, x))
  | _, _ => none

mutual
/-- `StringForm`. -/
def sf : Nat → PParams → Ex → Res String
  | 0, _, _ => .stuck
  | _ + 1, p, .sym s => .ok (symForm p s)
  | _ + 1, _, .int n => .ok (Int.repr n)
  | _ + 1, p, .rat n d => .ok (ratForm prec p n d)
  | _ + 1, p, .flt v => .ok (fltForm prec fl p v)
  | _ + 1, p, .str s => .ok (strForm p s)
  | n + 1, p, .cplx a b =>
    match p.form with
    | .full => (sf n defaultParams a).bind (fun x => (sf n defaultParams b).bind (fun y => .ok ("Complex[" ++ x ++ ", " ++ y ++ "]")))
    | _ => sf n p (cplxAsExpr a b)
  | _ + 1, _, .expr [] => .panic
  | n + 1, p, .expr (h :: args) =>
    (special n p h args).bind (fun r =>
      match r with
      | some s => .ok s
      | none =>
        match formOfCall h args with
        | some (some f, x) => sf n { p with form := f } x
        | some (none, _) => .stuck
        | none => (sf n p h).bind (fun x => (sfL n { p with prev := topHead } args).bind (fun l => .ok (x ++ "[" ++ joinTexts ", " l ++ "]"))))
/-- The texts of several expressions. -/
def sfL : Nat → PParams → List Ex → Res (List String)
  | 0, _, _ => .stuck
  | _ + 1, _, [] => .ok []
  | n + 1, p, e :: r => (sf n p e).bind (fun s => (sfL n p r).bind (fun l => .ok (s :: l)))
/-- `toStringInfix` and `toStringInfixAdvanced` (`string.go:11-131`); `none` if the default format is to be used. -/
def infixForm : Nat → PParams → (parts : List Ex) → (delim thisHead : String) → (surround : Bool) → Res (Option String)
  | 0, _, _, _, _, _ => .stuck
  | n + 1, p, parts, delim, thisHead, surround =>
    if p.form = .full then .ok none
    else if parts.length < 2 then .ok none
    else (sfL n { p with prev := thisHead } parts).bind (fun l =>
      .ok (some (inBrackets (needsParens prec thisHead p.prev) (joinTexts delim (l.map (inBrackets surround))))))
/-- One part of a fraction: an operand or a product (`builtin_arithmetic.go:304-323`). -/
def fracSide : Nat → PParams → List Ex → Res (Option String)
  | 0, _, _ => .stuck
  | n + 1, p, l =>
    (infixForm n p l "*" "System`Times" false).bind (fun r =>
      match l with
      | [x] => (sf n p x).bind (fun s => .ok (some s))
      | _ => .ok r)
/-- The `toString` functions of the builtins; `none` if there is none or it declines. -/
def special : Nat → PParams → Ex → List Ex → Res (Option String)
  | 0, _, _, _ => .stuck
  | n + 1, p, .sym h, args =>
    if p.fns = false then .ok none
    else
      match infixOf h, blankRepr h with
      | some (delim, hd, surround, two), _ => if two && args.length != 2 then .ok none else infixForm n p args delim hd surround
      | none, some repr =>
        if p.form = .full then .ok none
        else
          match args with
          | [] => .ok (some repr)
          | [x] => (sf n p x).bind (fun s => .ok (some (repr ++ s)))
          | _ => .ok none
      | none, none =>
        if h = "System`List" then
          if p.form = .full then .ok none
          else (sfL n { p with prev := topHead } args).bind (fun l => .ok (some ("{" ++ joinTexts ", " l ++ "}")))
        else if h = "System`Plus" then
          if p.form = .full then .ok none
          else if args.length < 2 then .ok none
          else (sfL n { p with prev := "System`Plus" } args).bind (fun l =>
            match l with
            | [] => .ok none
            | s :: r => (plusTexts r).bind (fun t => .ok (some (inBrackets (needsParens prec "System`Plus" p.prev) (s ++ t)))))
        else if h = "System`Times" then
          let sp := (timesParts args).map splitFrac
          let num := sp.filterMap (·.1)
          let den := sp.filterMap (·.2)
          if den = [] then
            (infixForm n p num "*" "System`Times" false).bind (fun r =>
              .ok (r.map (fun s => (minusPrefix s).1 ++ (minusPrefix s).2)))
          else
            (fracSide n p num).bind (fun a => (fracSide n p den).bind (fun b =>
              match a, b with
              | some x, some y =>
                if p.form = .full then .ok none
                else .ok (some ((minusPrefix x).1 ++ "(" ++ (minusPrefix x).2 ++ ")/(" ++ y ++ ")"))
              | _, _ => .ok none))
        else if h = "System`Power" then
          match args with
          | [b, e] =>
            if isSameQ e (.rat 1 2) && decide (p.form = .input) then (sf n { p with prev := topHead } b).bind (fun s => .ok (some ("Sqrt[" ++ s ++ "]")))
            else if isSameQ e (.rat (-1) 2) && decide (p.form = .input) then (sf n { p with prev := topHead } b).bind (fun s => .ok (some ("(1/Sqrt[" ++ s ++ "])")))
            else if isSameQ e (.int (-1)) && decide (p.form = .input) then (sf n { p with prev := topHead } b).bind (fun s => .ok (some ("(1/(" ++ s ++ "))")))
            else infixForm n p args "^" "System`Power" false
          | _ => infixForm n p args "^" "System`Power" false
        else if h = "System`Part" then
          if p.form = .full then .ok none
          else
            match args with
            | [] => .ok (some "]]")
            | x :: r => (sf n p x).bind (fun s => (sfL n { p with prev := topHead } r).bind (fun l => .ok (some (s ++ "[[" ++ joinTexts "," l ++ "]]"))))
        else if h = "System`Pattern" then
          match args with
          | [x, b] =>
            if p.form = .full then .ok none
            else (sf n p x).bind (fun s => (sf n p b).bind (fun t =>
              if hasHead "System`Blank" b || hasHead "System`BlankSequence" b || hasHead "System`BlankNullSequence" b then .ok (some (s ++ t))
              else .ok (some ("(" ++ s ++ ") : (" ++ t ++ ")"))))
          | _ => .ok none
        else if h = "System`Optional" then
          match args with
          | [x] => if p.form = .full then .ok none else (sf n p x).bind (fun s => .ok (some (s ++ ".")))
          | _ => .ok none
        else if h = "System`HoldForm" then
          match args with
          | [x] => if p.form = .full then .ok none else (sf n p x).bind (fun s => .ok (some s))
          | _ => .ok none
        else if h = "System`Infix" then
          match args with
          | [.expr (_ :: l), .str d] => infixForm n p l d "" false
          | [.expr [], .str _] => .panic
          | _ => .ok none
        else .ok none
  | _ + 1, _, _, _ => .ok none
end

end

end Expreduce
