import Verif.Model.Parser
import Verif.Spec.Replace
import Verif.Spec.Inequality
import Verif.Spec.Arith

/-! Vocabulary for the parser properties. -/

namespace Expreduce
open Ex

/-- A context name: it ends with a backquote. -/
def ContextName (s : String) : Prop := ∃ l : List Char, s.toList = l ++ ['`']

/-- A name without context. -/
def ShortName (s : String) : Prop := '`' ∉ s.toList

instance (s : String) : Decidable (ShortName s) := inferInstanceAs (Decidable (_ ∉ _))

/-- What a short name stands for in a state: the symbol in the first context of the path where it is known, otherwise the one in the current context. -/
def meantBy (context : String) (path : List String) (st : DState) (name : String) : String :=
  match path.find? (fun p => (st.defs (p ++ name)).isSome) with
  | some p => p ++ name
  | none => context ++ name

mutual
/-- `P` holds for all symbols in an expression. -/
def allSyms (P : String → Prop) : Ex → Prop
  | .sym s => P s
  | .expr ps => allSymsL P ps
  | _ => True
/-- The same for a list. -/
def allSymsL (P : String → Prop) : List Ex → Prop
  | [] => True
  | p :: ps => allSyms P p ∧ allSymsL P ps
end

mutual
/-- The two expressions differ at most in the names of symbols, and those are related by `R`. -/
def sameUpTo (R : String → String → Prop) : Ex → Ex → Prop
  | .sym s, .sym t => R s t
  | .expr ps, .expr qs => sameUpToL R ps qs
  | .str a, .str b => a = b
  | .int a, .int b => a = b
  | .rat a b, .rat c d => a = c ∧ b = d
  | .flt a, .flt b => a = b
  | .cplx a b, .cplx c d => a = c ∧ b = d
  | _, _ => False
/-- The same for lists. -/
def sameUpToL (R : String → String → Prop) : List Ex → List Ex → Prop
  | [], [] => True
  | p :: ps, q :: qs => sameUpTo R p q ∧ sameUpToL R ps qs
  | _, _ => False
end

/-! ## Parse trees -/

/-- Parsing: conversion of the tree and removal of the parentheses. -/
def parsed (t : PT) : Option Ex := (conv t).bind strip

mutual
/-- All tokens satisfy `P`, all `f/:set` have an assignment as `set`, and tags of messages are names. -/
def properTree (P : Token → Prop) : PT → Prop
  | .tok t => P t
  | .bin _ a b | .assoc _ a b | .colon a b | .div a b | .sub a b | .post a b | .pre a b | .apply1 a b => properTree P a ∧ properTree P b
  | .un _ a | .semi a | .paren a | .neg a | .deriv a | .sqrt a => properTree P a
  | .call a l | .part a l => properTree P a ∧ properTreeL P l
  | .list l => properTreeL P l
  | .msg t tag => P t ∧ ∃ s, tag = .ident s
  | .tagSet f (.bin h a b) => properTree P f ∧ (h = "Set" ∨ h = "SetDelayed") ∧ properTree P a ∧ properTree P b
  | .tagSet _ _ => False
  | .info tag | .infoShort tag => P tag
  | .out _ => True
/-- The same for a list. -/
def properTreeL (P : Token → Prop) : List PT → Prop
  | [] => True
  | t :: ts => properTree P t ∧ properTreeL P ts
end

/-- A token that does not mention the internal name of the parentheses. -/
def NoParensName (t : Token) : Prop := allSyms (· ≠ "Internal`Parens") (tokenConv t)

mutual
/-- The short names in an expression, from left to right. -/
def shortNames : Ex → List String
  | .sym s => if '`' ∈ s.toList then [] else [s]
  | .expr ps => shortNamesL ps
  | _ => []
/-- The same for a list. -/
def shortNamesL : List Ex → List String
  | [] => []
  | p :: ps => shortNames p ++ shortNamesL ps
end

mutual
/-- The names written in a parse tree, from left to right, except that `a//f` counts as `f[a]`. -/
def writtenNames : PT → List String
  | .tok t => shortNames (tokenConv t)
  | .bin _ a b | .assoc _ a b | .colon a b | .div a b | .sub a b | .pre a b | .apply1 a b | .tagSet a b => writtenNames a ++ writtenNames b
  | .post a f => writtenNames f ++ writtenNames a
  | .un _ a | .semi a | .paren a | .neg a | .deriv a | .sqrt a => writtenNames a
  | .call a l | .part a l => writtenNames a ++ writtenNamesL l
  | .list l => writtenNamesL l
  | .msg t _ => shortNames (tokenConv t)
  | .info tag | .infoShort tag => shortNames (tokenConv tag)
  | .out _ => []
/-- The same for a list. -/
def writtenNamesL : List PT → List String
  | [] => []
  | t :: ts => writtenNames t ++ writtenNamesL ts
end

/-- The tree of `t0 op1 t1 op2 t2 ...`, grouped to the left as the grammar does. -/
def chainTree (t0 : PT) (r : List (String × PT)) : PT := r.foldl (fun acc p => .assoc p.1 acc p.2) t0

/-- The names of the comparison operators. -/
def comparisonOps : List String := ["Equal", "Unequal", "Less", "LessEqual", "Greater", "GreaterEqual"]

section
variable {K : Type _} [Field K] (ρ : Ex → K) (iu : K)

/-- `t` is an arithmetic expression with value `v`; its leaves are any trees, with the values of what they are parsed to. -/
inductive ArithTree : PT → K → Prop
  | leaf (t : PT) (e : Ex) : parsed t = some e → ArithTree t (value ρ iu e)
  | add {a b : PT} {x y : K} : ArithTree a x → ArithTree b y → ArithTree (.assoc "Plus" a b) (x + y)
  | mul {a b : PT} {x y : K} : ArithTree a x → ArithTree b y → ArithTree (.assoc "Times" a b) (x * y)
  | sub {a b : PT} {x y : K} : ArithTree a x → ArithTree b y → ArithTree (.sub a b) (x - y)
  | div {a b : PT} {x y : K} : ArithTree a x → ArithTree b y → ArithTree (.div a b) (x / y)
  | neg {a : PT} {x : K} : ArithTree a x → ArithTree (.neg a) (-x)
  | pos {a : PT} {x : K} : ArithTree a x → ArithTree (.un "Plus" a) x
  | paren {a : PT} {x : K} : ArithTree a x → ArithTree (.paren a) x

end

/-! ## Patterns -/

/-- The pattern written `x`, `k` underscores, `h`. -/
def blankExpr (x : String) (k : Nat) (h : String) : Ex :=
  let head := if k = 1 then S "Blank" else if k = 2 then S "BlankSequence" else S "BlankNullSequence"
  let blank : Ex := if h = "" then .expr [head] else .expr [head, .sym h]
  if x = "" then blank else .expr [S "Pattern", .sym x, blank]

/-! ## What a parse tree says, without any placeholder -/

/-- The meaning of a token. -/
def tokenMeaning : Token → Ex
  | .ident s => if s = "π" then .sym "Pi" else if s = "ⅈ" ∨ s = "ⅉ" then .sym "I" else .sym s
  | .int n => .int n
  | .flt v => .flt v
  | .str s => .str s
  | .pat s => parsePattern s
  | .slot n => .expr [S "Slot", .int n]

/-- The text does not protect its head with parentheses: it is neither `(a)` nor `(f)[...]` in one of its forms. -/
def unprotected : PT → Bool
  | .paren _ => false
  | .call (.paren _) _ => false
  | .post _ (.paren _) => false
  | .pre (.paren _) _ => false
  | _ => true

/-- `x op y` for an unprotected `x`: an `x` that is an application of `op` gets one more argument; different comparisons make an `Inequality`. -/
def joined (op : String) (x y : Ex) : Ex :=
  match x with
  | .expr (.sym g :: l) =>
    if g = "System`" ++ op then .expr (.sym g :: l ++ [y])
    else if op ∈ comparisonOps ∧ g = "System`Inequality" then .expr (.sym g :: l ++ [S op, y])
    else if op ∈ comparisonOps ∧ g ∈ comparisonOps.map ("System`" ++ ·) then .expr (S "Inequality" :: l.intersperse (.sym g) ++ [S op, y])
    else .expr [S op, x, y]
  | _ => .expr [S op, x, y]

/-- The negative of what is written. -/
def negated : Ex → Ex
  | .int n => .int (-n)
  | .flt v => .flt (-v)
  | x => .expr [S "Times", x, .int (-1)]

/-- The text is `(a)`. -/
def inParens : PT → Bool
  | .paren _ => true
  | _ => false

/-- The tag of a message name. -/
def tagMeaning : Token → Ex
  | .ident s => .str (if s = "π" then "Pi" else if s = "ⅈ" ∨ s = "ⅉ" then "I" else s)
  | _ => .str ""

mutual
/-- The expression that a text stands for. -/
def reading : PT → Ex
  | .tok t => tokenMeaning t
  | .bin h a b => .expr [S h, reading a, reading b]
  | .assoc h a b => if unprotected a then joined h (reading a) (reading b) else .expr [S h, reading a, reading b]
  | .un h a => .expr [S h, reading a]
  | .semi a => if unprotected a then joined "CompoundExpression" (reading a) (S "Null") else .expr [S "CompoundExpression", reading a, S "Null"]
  | .colon a b => if unprotected a && hasHead "System`Pattern" (reading a) then .expr [S "Optional", reading a, reading b] else .expr [S "Pattern", reading a, reading b]
  | .msg t tag => .expr [S "MessageName", tokenMeaning t, tagMeaning tag]
  | .call f l => .expr (reading f :: readings l)
  | .list l => .expr (S "List" :: readings l)
  | .paren a => reading a
  | .part a l => .expr (S "Part" :: reading a :: readings l)
  | .neg a => if inParens a then .expr [S "Times", reading a, .int (-1)] else negated (reading a)
  | .div a b => .expr [S "Times", reading a, .expr [S "Power", reading b, .int (-1)]]
  | .sub a b =>
    if unprotected a then joined "Plus" (reading a) (.expr [S "Times", reading b, .int (-1)]) else .expr [S "Plus", reading a, .expr [S "Times", reading b, .int (-1)]]
  | .post a f => .expr [reading f, reading a]
  | .pre f a => .expr [reading f, reading a]
  | .apply1 f a => .expr [S "Apply", reading f, reading a, .expr [S "List", .int 1]]
  | .tagSet f (.bin h a b) => .expr [S (if h = "SetDelayed" then "TagSetDelayed" else "TagSet"), reading f, reading a, reading b]
  | .tagSet f _ => reading f
  | .deriv f => .expr [.expr [S "Derivative", .int 1], reading f]
  | .sqrt a => .expr [S "Sqrt", reading a]
  | .info tag => .expr [S "Information", tokenMeaning tag]
  | .infoShort tag => .expr [S "Information", tokenMeaning tag, .expr [S "Rule", S "LongForm", S "False"]]
  | .out n => .expr [S "Out", .expr [S "Plus", S "$Line", .int (-n)]]
/-- The same for a list. -/
def readings : List PT → List Ex
  | [] => []
  | t :: ts => reading t :: readings ts
end

end Expreduce
