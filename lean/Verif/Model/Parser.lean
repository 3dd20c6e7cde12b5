import Verif.Model.Defs

/-!
# From parse trees to expressions (`/repo/expreduce/parser/interp.go`)

The grammar itself (the library `modernc.org/wl`) is not modelled: `PT` is the parse tree it delivers, one constructor for each kind of node the code distinguishes
(the case numbers of the code are in the comments). Numbers and strings of tokens are their values. A result is `none` where the code panics or ends the process.
In-place changes of expressions that nothing else refers to are new values here.
-/

namespace Expreduce
open Ex

/-- The tokens of `parserTokenConv` (`interp.go:192-240`). `slot n` is `#n`, with `n = 1` for `#`. -/
inductive Token where
  | ident (s : String)
  | int (n : Int)
  | flt (v : Rat)
  | str (s : String)
  | pat (s : String)
  | slot (n : Int)
deriving DecidableEq

/-- The parse tree (`wl.Expression`). -/
inductive PT where
  /-- the terminals -/
  | tok (t : Token)
  /-- `binaryOps` (`interp.go:286-301`): `=`, `:=`, `//.`, `/.`, `->`, `:>`, `^`, `?`, `/;`, `@@`, `/@`, `+=`, `-=`, `∈` -/
  | bin (head : String) (a b : PT)
  /-- `fullyAssocOps` (`interp.go:303-321`): `;`, `+`, `*`, the comparisons, `===`, `=!=`, `<>`, `||`, `&&`, `.`, `|`, `;;` -/
  | assoc (head : String) (a b : PT)
  /-- `unaryOps` (`interp.go:275-284`): `!a`, `a!`, `a&`, `+a`, `a++`, `a--`, `++a`, `--a` -/
  | un (head : String) (a : PT)
  /-- `a;` (124) -/
  | semi (a : PT)
  /-- `a:b` (123) -/
  | colon (a b : PT)
  /-- `a::tag` -/
  | msg (t tag : Token)
  /-- `f[args]` (132, 133) -/
  | call (f : PT) (args : List PT)
  /-- `{args}` (17, 18) -/
  | list (args : List PT)
  /-- `(a)` (14) -/
  | paren (a : PT)
  /-- `a[[args]]` (54) -/
  | part (a : PT) (args : List PT)
  /-- `-a` (16) -/
  | neg (a : PT)
  /-- `a/b` (122) -/
  | div (a b : PT)
  /-- `a-b` (120) -/
  | sub (a b : PT)
  /-- `a//f` (32) -/
  | post (a f : PT)
  /-- `f@a` (131) -/
  | pre (f a : PT)
  /-- `f@@@a` (53) -/
  | apply1 (f a : PT)
  /-- `f/:lhs=rhs` (35) -/
  | tagSet (f set : PT)
  /-- `f'` (137) -/
  | deriv (f : PT)
  /-- `√a` (11) -/
  | sqrt (a : PT)
  /-- `??tag`, `?tag` -/
  | info (tag : Token)
  | infoShort (tag : Token)
  /-- `%`, `%%` (145) -/
  | out (n : Int)

/-! ## Patterns -/

/-- `strings.Contains`. -/
def containsStr (d s : List Char) : Bool := s.tails.any (d.isPrefixOf ·)

/-- `strings.Split`; the number bounds the recursion, `cur` is the piece being read, reversed. -/
def splitGo (d : List Char) : Nat → List Char → List Char → List (List Char)
  | 0, cur, _ => [cur.reverse]
  | _ + 1, cur, [] => [cur.reverse]
  | n + 1, cur, c :: r => if d.isPrefixOf (c :: r) then cur.reverse :: splitGo d n [] ((c :: r).drop d.length) else splitGo d n (c :: cur) r

/-- `strings.Split(s, d)`. -/
def splitStr (d s : List Char) : List (List Char) := splitGo d (s.length + 1) [] s

/-- The delimiter and the head (`interp.go:125-133`). -/
def blankKindOf (buf : List Char) : List Char × String :=
  if containsStr ['_', '_', '_'] buf then (['_', '_', '_'], "BlankNullSequence")
  else if containsStr ['_', '_'] buf then (['_', '_'], "BlankSequence")
  else (['_'], "Blank")

/-- The result for the pieces around the delimiter (`interp.go:135-181`). -/
def patternOf (delim : List Char) (bt : String) : List (List Char) → Ex
  | [a] => .expr [S "Pattern", .sym (String.ofList a), .expr [S bt]]
  | [a, b] =>
    if a = [] then
      if b = [] then .expr [S bt]
      else if delim = ['_'] ∧ b = ['.'] then .expr [S "Optional", .expr [S bt]]
      else .expr [S bt, .sym (String.ofList b)]
    else if b = [] then .expr [S "Pattern", .sym (String.ofList a), .expr [S bt]]
    else if delim = ['_'] ∧ b = ['.'] then .expr [S "Optional", .expr [S "Pattern", .sym (String.ofList a), .expr [S bt]]]
    else .expr [S "Pattern", .sym (String.ofList a), .expr [S bt, .sym (String.ofList b)]]
  | _ => .expr [S "Error", .str "Pattern parse error."]

/-- `parsePattern` (`interp.go:124-181`). -/
def parsePattern (buf : String) : Ex :=
  patternOf (blankKindOf buf.toList).1 (blankKindOf buf.toList).2 (splitStr (blankKindOf buf.toList).1 buf.toList)

/-! ## Conversion -/

/-- `unicodeRedefineMap` (`interp.go:183-187`). -/
def redefined (s : String) : String := if s = "π" then "Pi" else if s = "ⅈ" then "I" else if s = "ⅉ" then "I" else s

/-- `parserTokenConv` (`interp.go:189-240`). -/
def tokenConv : Token → Ex
  | .ident s => .sym (redefined s)
  | .int n => .int n
  | .flt v => .flt v
  | .str s => .str s
  | .pat s => parsePattern s
  | .slot n => .expr [S "Slot", .int n]

/-- `inequalityOps` (`interp.go:22-29`). -/
def isComparison (h : String) : Bool :=
  h = "System`Equal" || h = "System`Unequal" || h = "System`Less" || h = "System`LessEqual" || h = "System`Greater" || h = "System`GreaterEqual"

/-- The loop of `convertToInequality` (`interp.go:31-42`): the operands with the operator in between. -/
def interleave (op : Ex) : List Ex → List Ex
  | [] => []
  | [a] => [a]
  | a :: b :: r => a :: op :: interleave op (b :: r)

/-- `fullyAssoc` (`interp.go:44-71`). -/
def fullyAssoc (op : String) (lhs rhs : Ex) : Ex :=
  match lhs with
  | .expr (.sym h :: args) =>
    if isComparison op && (isComparison h || h = "System`Inequality") && op ≠ h then
      if h = "System`Inequality" then .expr (.sym h :: args ++ [.sym op, rhs])
      else .expr (S "Inequality" :: interleave (.sym h) args ++ [.sym op, rhs])
    else if h = op then .expr (.sym h :: args ++ [rhs])
    else .expr [.sym op, lhs, rhs]
  | _ => .expr [.sym op, lhs, rhs]

/-- The placeholder for parentheses (`interp.go:428`). -/
def parensName : String := "Internal`Parens"

/-- `-a` (`interp.go:441-453`). -/
def negConv : Ex → Ex
  | .int n => .int (-n)
  | .flt v => .flt (-v)
  | e => .expr [S "Times", e, .int (-1)]

/-- `a:b` (`interp.go:372-386`). -/
def colonConv (a b : Ex) : Ex := .expr [S (if hasHead "System`Pattern" a then "Optional" else "Pattern"), a, b]

/-- The tag of a message name or an information request as a string; the code asserts that it is a symbol (`interp.go:389-393`). -/
def tagName : Token → Option String
  | .ident s => some (redefined s)
  | _ => none

/-- `f/:set` (`interp.go:494-507`); `none` if the right side is no expression with two arguments. -/
def tagSetConv (f set : Ex) : Option Ex :=
  match set with
  | .expr (h :: l :: r :: _) => some (.expr [S (if hasHead "System`SetDelayed" (.expr [h]) then "TagSetDelayed" else "TagSet"), f, l, r])
  | _ => none

mutual
/-- `parserExprConv` (`interp.go:323-547`). -/
def conv : PT → Option Ex
  | .tok t => some (tokenConv t)
  | .bin h a b => (conv a).bind (fun x => (conv b).map (fun y => .expr [S h, x, y]))
  | .assoc h a b => (conv a).bind (fun x => (conv b).map (fun y => fullyAssoc ("System`" ++ h) x y))
  | .un h a => (conv a).map (fun x => .expr [S h, x])
  | .semi a => (conv a).map (fun x => fullyAssoc "System`CompoundExpression" x (S "Null"))
  | .colon a b => (conv a).bind (fun x => (conv b).map (fun y => colonConv x y))
  | .msg t tag => (tagName tag).map (fun s => .expr [S "MessageName", tokenConv t, .str s])
  | .call f args => (conv f).bind (fun g => (convL args).map (fun xs => .expr (g :: xs)))
  | .list args => (convL args).map (fun xs => .expr (S "List" :: xs))
  | .paren a => (conv a).map (fun x => .expr [.sym parensName, x])
  | .part a args => (conv a).bind (fun x => (convL args).map (fun xs => .expr (S "Part" :: x :: xs)))
  | .neg a => (conv a).map negConv
  | .div a b => (conv a).bind (fun x => (conv b).map (fun y => .expr [S "Times", x, .expr [S "Power", y, .int (-1)]]))
  | .sub a b => (conv a).bind (fun x => (conv b).map (fun y => fullyAssoc "System`Plus" x (.expr [S "Times", y, .int (-1)])))
  | .post a f => (conv f).bind (fun g => (conv a).map (fun x => .expr [g, x]))
  | .pre f a => (conv f).bind (fun g => (conv a).map (fun x => .expr [g, x]))
  | .apply1 f a => (conv f).bind (fun g => (conv a).map (fun x => .expr [S "Apply", g, x, .expr [S "List", .int 1]]))
  | .tagSet f set => (conv set).bind (fun s => (conv f).bind (fun g => tagSetConv g s))
  | .deriv f => (conv f).map (fun g => .expr [.expr [S "Derivative", .int 1], g])
  | .sqrt a => (conv a).map (fun x => .expr [S "Sqrt", x])
  | .info tag => some (.expr [S "Information", tokenConv tag])
  | .infoShort tag => some (.expr [S "Information", tokenConv tag, .expr [S "Rule", S "LongForm", S "False"]])
  | .out n => some (.expr [S "Out", .expr [S "Plus", S "$Line", .int (-n)]])
/-- `parserExprListConv` (`interp.go:246-256`). An empty argument position is a token there; it does not occur in the model. -/
def convL : List PT → Option (List Ex)
  | [] => some []
  | t :: ts => (conv t).bind (fun x => (convL ts).map (x :: ·))
end

/-- `a[[b]]` and the other nodes never produce an expression without parts, so `HeadAssertion` does not panic here. -/
def isParens : Ex → Bool := hasHead parensName

mutual
/-- The removal of the placeholders, at the top (`interp.go:575-584`) and inside (`removeParens`, `interp.go:73-93`): a placeholder is replaced by its first argument; it
panics if there is none. -/
def strip : Ex → Option Ex
  | .expr ps => stripParts ps
  | e => some e
/-- `strip` of an expression with the given parts. -/
def stripParts : List Ex → Option Ex
  | [] => some (.expr [])
  | [h] => if h = .sym parensName then none else (strip h).map (fun x => .expr [x])
  | h :: a :: r => if h = .sym parensName then strip a else (strip h).bind (fun x => (strip a).bind (fun y => (stripL r).map (fun xs => .expr (x :: y :: xs))))
/-- The loop over the parts. -/
def stripL : List Ex → Option (List Ex)
  | [] => some []
  | p :: ps => (strip p).bind (fun x => (stripL ps).map (x :: ·))
end

/-! ## Contexts -/

/-- `IsDef` (`evalstate.go:300-303`). -/
def isDef (st : DState) (name : String) : Bool := (st.defs name).isSome

/-- The treatment of a symbol by `addContextAndDefine` (`interp.go:101-113`): state and new name. -/
def resolveName (context : String) (path : List String) (st : DState) (name : String) : DState × String :=
  if '`' ∈ name.toList then (markSeen st name, name)
  else
    match path.find? (fun p => isDef st (p ++ name)) with
    | some p => (st, p ++ name)
    | none => (markSeen st (context ++ name), context ++ name)

mutual
/-- `addContextAndDefine` (`interp.go:95-122`). -/
def resolve (context : String) (path : List String) : DState → Ex → DState × Ex
  | st, .sym s => ((resolveName context path st s).1, .sym (resolveName context path st s).2)
  | st, .expr ps => ((resolveL context path st ps).1, .expr (resolveL context path st ps).2)
  | st, e => (st, e)
/-- The loop over the parts. -/
def resolveL (context : String) (path : List String) : DState → List Ex → DState × List Ex
  | st, [] => (st, [])
  | st, p :: ps =>
    let r := resolve context path st p
    let q := resolveL context path r.1 ps
    (q.1, r.2 :: q.2)
end

/-- `InterpBuf` after the parser (`interp.go:567-601`); the context and the path are the values of `$Context` and `$ContextPath`. -/
def interp (context : String) (path : List String) (st : DState) (t : PT) : Option (DState × Ex) :=
  ((conv t).bind strip).map (fun e => resolve context path st e)

end Expreduce
