import Verif.Model.Print
import Verif.Spec.Parser

/-! Vocabulary for printing: how a symbol is shown, the plain text of an expression, and a reader for such texts. -/

namespace Expreduce
open Ex

/-- A symbol is shown without its context if this is the current context or on the path. -/
def shown (context : String) (path : List String) (s : String) : String :=
  match (context :: path).find? (fun c => c.toList.isPrefixOf s.toList) with
  | some c => String.ofList (s.toList.drop c.toList.length)
  | none => s

/-- Printing `e` gives `text`. -/
def Prints (prec : String → Option Nat) (fl : Rat → String) (p : PParams) (e : Ex) (text : String) : Prop := ∃ N, ∀ n, N ≤ n → sf prec fl n p e = .ok text

/-- Printing `e` crashes. -/
def PrintCrashes (prec : String → Option Nat) (fl : Rat → String) (p : PParams) (e : Ex) : Prop := ∃ N, ∀ n, N ≤ n → sf prec fl n p e = .panic

/-- The six formats. -/
def formatNames : List String :=
  ["System`InputForm", "System`FullForm", "System`OutputForm", "System`TraditionalForm", "System`TeXForm", "System`StandardForm"]

/-- Texts separated by a comma and a blank. -/
def commaList : List (List Char) → List Char
  | [] => []
  | [s] => s
  | s :: r => s ++ ',' :: ' ' :: commaList r

/-- The text of a call: the head and the arguments in brackets. -/
def callText : List (List Char) → List Char
  | [] => []
  | h :: args => h ++ '[' :: commaList args ++ [']']

/-- An integer in decimal notation. -/
def intText (n : Int) : List Char := (Int.repr n).toList

/-- The head under which rational numbers are shown. -/
def rationalText : List Char := "Rational".toList

mutual
/-- The plain text of an expression: atoms, and `head[arg, arg, ...]` for everything else. Real and complex numbers are not covered. -/
def plainText (context : String) (path : List String) : Ex → List Char
  | .sym s => (shown context path s).toList
  | .int n => intText n
  | .rat n d => callText [rationalText, intText n, intText d]
  | .str s => '"' :: s.toList ++ ['"']
  | .expr ps => callText (plainTexts context path ps)
  | .flt _ | .cplx _ _ => []
/-- The same for a list. -/
def plainTexts (context : String) (path : List String) : List Ex → List (List Char)
  | [] => []
  | e :: r => plainText context path e :: plainTexts context path r
end

mutual
/-- `P` holds for all subexpressions. -/
def everyPart (P : Ex → Prop) : Ex → Prop
  | .expr ps => P (.expr ps) ∧ everyPartL P ps
  | e => P e
/-- The same for a list. -/
def everyPartL (P : Ex → Prop) : List Ex → Prop
  | [] => True
  | p :: ps => everyPart P p ∧ everyPartL P ps
end

/-- What the printer handles in the plain way: no real and complex numbers, no expressions without head, symbols have a name, and no format applied to one argument. -/
def PlainPart : Ex → Prop
  | .sym s => s ≠ ""
  | .flt _ | .cplx _ _ => False
  | .expr [] => False
  | .expr [h, _] => ∀ f ∈ formatNames, h ≠ .sym f
  | _ => True

/-! ## Reading -/

/-- The first character of a name. -/
def nameStart (c : Char) : Bool := c.isAlpha || c == '$'

/-- The other characters of a name. -/
def nameChar (c : Char) : Bool := c.isAlphanum || c == '$' || c == '`'

/-- Reading a name, a number without sign or a string without escapes. -/
def readAtom : List Char → Option (PT × List Char)
  | [] => none
  | c :: r =>
    if c = '"' then
      match r.dropWhile (· != '"') with
      | [] => none
      | _ :: r' => some (.tok (.str (String.ofList (r.takeWhile (· != '"')))), r')
    else if c.isDigit then
      ((String.ofList ((c :: r).takeWhile Char.isDigit)).toNat?).map (fun n => (.tok (.int n), (c :: r).dropWhile Char.isDigit))
    else if nameStart c then some (.tok (.ident (String.ofList ((c :: r).takeWhile nameChar))), (c :: r).dropWhile nameChar)
    else none

mutual
/-- Reading an expression in plain notation from the front of a text; the rest is returned too. The minus sign takes everything that follows. The number bounds the
recursion. -/
def readExpr : Nat → List Char → Option (PT × List Char)
  | 0, _ => none
  | n + 1, s =>
    match s with
    | '-' :: r => (readExpr n r).map (fun x => (.neg x.1, x.2))
    | _ => (readAtom s).bind (fun x => readTail n x.1 x.2)
/-- The argument lists behind an expression. -/
def readTail : Nat → PT → List Char → Option (PT × List Char)
  | 0, _, _ => none
  | n + 1, t, s =>
    match s with
    | '[' :: ']' :: r => readTail n (.call t []) r
    | '[' :: r => (readArgs n r).bind (fun x => readTail n (.call t x.1) x.2)
    | _ => some (t, s)
/-- Arguments, up to the closing bracket. -/
def readArgs : Nat → List Char → Option (List PT × List Char)
  | 0, _ => none
  | n + 1, s =>
    (readExpr n s).bind (fun x =>
      match x.2 with
      | ',' :: ' ' :: r => (readArgs n r).map (fun y => (x.1 :: y.1, y.2))
      | ']' :: r => some ([x.1], r)
      | _ => none)
end

/-- The whole text is read as `t`. -/
def ReadsAs (s : String) (t : PT) : Prop := ∃ n, readExpr n s.toList = some (t, [])

/-- The text looks like a name. -/
def NameLike (s : String) : Prop := ∃ c r, s.toList = c :: r ∧ nameStart c = true ∧ ∀ d ∈ r, nameChar d = true

/-- An integer below zero. -/
def isNegInt : Ex → Bool
  | .int n => decide (n < 0)
  | _ => false

/-- What can be read back: the symbols are shown as names (not the internal one for parentheses), the strings contain neither quotation marks nor escapes, and no negative number is used as a head. -/
def ReadablePart (context : String) (path : List String) : Ex → Prop
  | .sym s => NameLike (shown context path s) ∧ shown context path s ≠ "Internal`Parens"
  | .str s => '"' ∉ s.toList ∧ '\\' ∉ s.toList
  | .expr (h :: _) => isNegInt h = false
  | _ => True

mutual
/-- The expression as it is after reading and before evaluation: a rational number is `Rational[n, d]`. -/
def spelled : Ex → Ex
  | .rat n d => .expr [S "Rational", .int n, .int d]
  | .expr ps => .expr (spelledL ps)
  | e => e
/-- The same for a list. -/
def spelledL : List Ex → List Ex
  | [] => []
  | e :: r => spelled e :: spelledL r
end

/-- Read again, the name shown for `s` is `s`. -/
def comesBack (context : String) (path : List String) (st : DState) (s : String) : Prop :=
  if '`' ∈ (shown context path s).toList then shown context path s = s else meantBy context path st (shown context path s) = s

end Expreduce
