import Verif.Model.SameQ

/-!
# String functions (`/repo/expreduce/builtin_string.go`)

A Go string is a list of bytes, which need not be the encoding of a text. An argument of a string function is such a string, or another expression.
-/

namespace Expreduce

/-- The bytes of a string. -/
abbrev Bytes := List UInt8

/-- An argument: `*atoms.String`, or anything else. -/
inductive SArg where
  | text (b : Bytes)
  | other (e : Ex)

/-- The result of a string function: the call itself (`return this`), a string, an integer, or a crash. -/
inductive SOut where
  | this
  | text (b : Bytes)
  | int (n : Int)
  | crash
deriving DecidableEq

/-- The loop of `StringJoin` (`builtin_string.go:50-58`). -/
def strJoinLoop : Bytes → List SArg → SOut
  | acc, [] => .text acc
  | acc, .text b :: r => strJoinLoop (acc ++ b) r
  | _, .other _ :: _ => .this

/-- `StringJoin` (`builtin_string.go:49-60`), on the arguments. -/
def stringJoinFn (args : List SArg) : SOut := strJoinLoop [] args

/-- `StringLength` (`builtin_string.go:68-77`). -/
def stringLengthFn : List SArg → SOut
  | [.text b] => .int b.length
  | _ => .this

/-- `s[i:j]` of Go: crashes unless `0 ≤ i ≤ j ≤ len(s)`. -/
def goSlice (b : Bytes) (i j : Int) : SOut :=
  if 0 ≤ i ∧ i ≤ j ∧ j ≤ b.length then .text ((b.take j.toNat).drop i.toNat) else .crash

/-- `StringTake` (`builtin_string.go:81-109`); the second argument is looked at as an expression. -/
def stringTakeFn : List SArg → SOut
  | [.text b, .other (.expr [.sym "System`List", .int m, .int n])] =>
    let s := wrap64 (wrap64 m - 1)
    let e := wrap64 (wrap64 n - 1)
    if s < 0 ∨ (b.length : Int) ≤ e then .this
    else if e < s then .text []
    else goSlice b s (e + 1)
  | _ => .this

section
-- `wid` is the number of bytes of the first character of a nonempty string (`utf8.DecodeRuneInString`).
variable (wid : Bytes → Nat)

/-- `strings.Replace(s, old, new, -1)` for a nonempty `old`: the instances of `old` are found from the left and do not overlap (documentation of the library).
The number bounds the recursion. -/
def replaceGo (old new : Bytes) : Nat → Bytes → Bytes
  | 0, s => s
  | _ + 1, [] => []
  | n + 1, c :: r => if old.isPrefixOf (c :: r) then new ++ replaceGo old new n ((c :: r).drop old.length) else c :: replaceGo old new n r

/-- `strings.Replace(s, "", new, -1)`: `new` is put in front, and after every character (documentation of the library). -/
def replaceEmpty (new : Bytes) : Nat → Bytes → Bytes
  | 0, s => s
  | _ + 1, [] => new
  | n + 1, s => new ++ s.take (wid s) ++ replaceEmpty new n (s.drop (wid s))

/-- `strings.Replace(s, old, new, -1)`. -/
def goReplace (s old new : Bytes) : Bytes := if old = [] then replaceEmpty wid new (s.length + 1) s else replaceGo old new s.length s

/-- `StringReplace` (`builtin_string.go:113-136`): the second argument is given by the parts of the rule if it is one with two parts, otherwise it is `none`. -/
def stringReplaceFn : List SArg → Option (SArg × SArg) → SOut
  | [.text s], some (.text b, .text a) => .text (goReplace wid s b a)
  | _, _ => .this

end

end Expreduce
