import Verif.Model.Eval

/-!
# Reading files and listing names (`/repo/expreduce/easyrun.go:33-81`, `/repo/expreduce/builtin_system.go:1073-1107`)
-/

namespace Expreduce
open Ex

/-- What `parser.InterpBuf` finds in the buffer (`parser/interp.go:528-565`): an expression; an error that says that the input is at its end
(`easyrun.go:47`); another error. -/
inductive Found where
  | expr (e : Ex)
  | atEnd
  | error

/-- `parser.InterpBuf`: it takes bytes from the buffer and enters symbols in the definitions; the result is the rest of the buffer, the state and what was found.
The parser generated from the grammar is not modelled here, so this is a parameter (`Model/Parser.lean` models what follows it). -/
abbrev Reader := EState → List UInt8 → List UInt8 × EState × Found

/-- The message about a syntax error (`easyrun.go:47-53`): `buf.String()[:100]` panics if less than 100 bytes are left. -/
def complain {α : Type} (rest : List UInt8) (a : α) : Res α := if rest.length < 100 then .panic else .ok a

/-- The loop of `EvalInterpMany` (`easyrun.go:41-54`); the number bounds its rounds. -/
def manyLoop (rd : Reader) (ev : Evaluator) : Nat → EState → List UInt8 → Ex → Res (EState × Ex)
  | 0, _, _, _ => .stuck
  | n + 1, st, buf, last =>
    match rd st buf with
    | (rest, st1, .expr e) => (ev st1 e).bind (fun r => manyLoop rd ev n r.1 rest r.2)
    | (_, st1, .atEnd) => .ok (st1, last)
    | (rest, st1, .error) => complain rest (st1, last)

/-- `EvalInterpMany` (`easyrun.go:33-55`); `doc` is the text after `ReplaceSyms`. -/
def evalInterpMany (rd : Reader) (ev : Evaluator) (n : Nat) (st : EState) (doc : List UInt8) : Res (EState × Ex) :=
  manyLoop rd ev n st doc (S "Null")

/-- The loop of `ReadList` (`easyrun.go:63-77`). -/
def readLoop (rd : Reader) (ev : Evaluator) : Nat → EState → List UInt8 → List Ex → Res (EState × Ex)
  | 0, _, _, _ => .stuck
  | n + 1, st, buf, l =>
    match rd st buf with
    | (rest, st1, .expr e) => (ev st1 e).bind (fun r => readLoop rd ev n r.1 rest (l ++ [r.2]))
    | (_, st1, .atEnd) => .ok (st1, .expr (S "List" :: l))
    | (rest, st1, .error) => complain rest (st1, .expr (S "List" :: l))

/-- `ReadList` (`easyrun.go:56-81`). -/
def readList (rd : Reader) (ev : Evaluator) (n : Nat) (st : EState) (doc : List UInt8) : Res (EState × Ex) := readLoop rd ev n st doc []

/-! ### `Names` -/

/-- The regular expressions that `Names` builds from patterns of letters, digits, backquotes, `.`, `$` and `*`: the rest of the syntax is not modelled. -/
inductive ReItem where
  /-- a character that stands for itself -/
  | lit (c : Char)
  /-- `.` -/
  | any
  /-- `.*` -/
  | many
  /-- `$` before the end: the end of the text -/
  | stop
deriving DecidableEq

/-- Whether the character has a meaning of its own in a regular expression (package `regexp/syntax`). -/
def reSpecial (c : Char) : Bool := "\\.+*?()|[]{}^$".toList.contains c

/-- `strings.Replace(v, "*", ".*", -1)` (`builtin_system.go:1082-1087`). -/
def starToDotStar (l : List Char) : List Char := l.flatMap (fun c => if c = '*' then ['.', '*'] else [c])

/-- Parsing of a regular expression of this sublanguage; `none` if other special characters occur. -/
def reParse : List Char → Option (List ReItem)
  | [] => some []
  | '.' :: '*' :: r => (reParse r).map (.many :: ·)
  | '.' :: r => (reParse r).map (.any :: ·)
  | '$' :: r => (reParse r).map (.stop :: ·)
  | c :: r => if reSpecial c then none else (reParse r).map (.lit c :: ·)

/-- Whether the text, from here to its end, matches (documentation of package `regexp/syntax`; `.` does not match a newline). -/
def reMatch : List ReItem → List Char → Bool
  | [], s => s.isEmpty
  | .lit c :: r, s =>
    match s with
    | [] => false
    | d :: s => d == c && reMatch r s
  | .any :: r, s =>
    match s with
    | [] => false
    | d :: s => d != '\n' && reMatch r s
  | .stop :: r, s => s.isEmpty && reMatch r s
  | .many :: r, s => s.tails.any (fun t => (s.take (s.length - t.length)).all (· != '\n') && reMatch r t)

/-- Comparison of `sort.Strings`: by the bytes of the texts. -/
def bytesLe (a b : String) : Bool := decide (a.toUTF8.toList ≤ b.toUTF8.toList)

/-- `Names` (`builtin_system.go:1073-1107`) of a pattern or of nothing, on the names that have an entry. The result is `none` for a pattern outside the
sublanguage (some of those crash: `regexp.MustCompile` panics on `"("`). -/
def namesFn (keys : List String) : Option String → Option (List String)
  | none => some (keys.mergeSort bytesLe)
  | some pat => (reParse (starToDotStar pat.toList)).map (fun items => (keys.filter (fun k => reMatch items k.toList)).mergeSort bytesLe)

end Expreduce
