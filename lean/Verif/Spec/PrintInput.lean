import Verif.Spec.Print

/-! Vocabulary for `InputForm`: the operators, a reader with precedences, and the expressions that are printed with operators. -/

namespace Expreduce
open Ex

/-- An operator: its name, its text, whether its precedence is used for the parentheses around it and its operands, whether every operand is put in parentheses, and
whether it takes exactly two operands. -/
structure OpRow where
  name : String
  text : List Char
  own : Bool
  surround : Bool
  two : Bool
deriving DecidableEq

/-- The operators. -/
def opTable : List OpRow := [
  ⟨"Plus", [' ', '+', ' '], true, false, false⟩,
  ⟨"Times", ['*'], true, false, false⟩,
  ⟨"Power", ['^'], true, false, true⟩,
  ⟨"Equal", [' ', '=', '=', ' '], true, false, false⟩,
  ⟨"Unequal", [' ', '!', '=', ' '], true, false, false⟩,
  ⟨"SameQ", [' ', '=', '=', '=', ' '], true, false, false⟩,
  ⟨"UnsameQ", [' ', '=', '!', '=', ' '], true, false, false⟩,
  ⟨"Less", [' ', '<', ' '], true, false, false⟩,
  ⟨"Greater", [' ', '>', ' '], true, false, false⟩,
  ⟨"LessEqual", [' ', '<', '=', ' '], true, false, false⟩,
  ⟨"GreaterEqual", [' ', '>', '=', ' '], true, false, false⟩,
  ⟨"And", [' ', '&', '&', ' '], false, false, false⟩,
  ⟨"Or", [' ', '|', '|', ' '], false, false, false⟩,
  ⟨"StringJoin", [' ', '<', '>', ' '], false, false, false⟩,
  ⟨"Set", [' ', '=', ' '], true, false, true⟩,
  ⟨"SetDelayed", [' ', ':', '=', ' '], true, false, true⟩,
  ⟨"Rule", [' ', '-', '>', ' '], true, false, true⟩,
  ⟨"RuleDelayed", [' ', ':', '>', ' '], true, false, true⟩,
  ⟨"ReplaceAll", [' ', '/', '.', ' '], false, true, true⟩,
  ⟨"ReplaceRepeated", [' ', '/', '/', '.', ' '], false, true, true⟩]

/-- The operator at the front of a text. -/
def opAt (s : List Char) : Option (OpRow × List Char) :=
  (opTable.find? (fun o => o.text.isPrefixOf s)).map (fun o => (o, s.drop o.text.length))

/-- The node for an operator: two operands, or joined with an operand of the same kind. -/
def opNode (o : OpRow) (a b : PT) : PT := if o.two then .bin o.name a b else .assoc o.name a b

section
variable (g : String → Nat) (um : Nat)

mutual
/-- Reading an expression whose operators outside of brackets bind at least as strongly as `k`. `g` gives the precedences, `um` that of the minus sign in front. -/
def readE : Nat → Nat → List Char → Option (PT × List Char)
  | 0, _, _ => none
  | n + 1, k, s =>
    match s with
    | '-' :: r => (readE n um r).bind (fun x => readOps n k (.neg x.1) x.2)
    | _ => (readP n s).bind (fun x => readOps n k x.1 x.2)
/-- The operators behind an expression. -/
def readOps : Nat → Nat → PT → List Char → Option (PT × List Char)
  | 0, _, _, _ => none
  | n + 1, k, t, s =>
    match opAt s with
    | some (o, r) => if k ≤ g o.name then (readE n (g o.name + 1) r).bind (fun x => readOps n k (opNode o t x.1) x.2) else some (t, s)
    | none => some (t, s)
/-- An expression without operators outside of brackets. -/
def readP : Nat → List Char → Option (PT × List Char)
  | 0, _ => none
  | n + 1, s =>
    match s with
    | '(' :: r =>
      (readE n 0 r).bind (fun x =>
        match x.2 with
        | ')' :: r' => readBr n (.paren x.1) r'
        | _ => none)
    | '{' :: '}' :: r => readBr n (.list []) r
    | '{' :: r => (readSeq n '}' r).bind (fun x => readBr n (.list x.1) x.2)
    | _ => (readAtom s).bind (fun x => readBr n x.1 x.2)
/-- The argument lists behind an expression. -/
def readBr : Nat → PT → List Char → Option (PT × List Char)
  | 0, _, _ => none
  | n + 1, t, s =>
    match s with
    | '[' :: ']' :: r => readBr n (.call t []) r
    | '[' :: r => (readSeq n ']' r).bind (fun x => readBr n (.call t x.1) x.2)
    | _ => some (t, s)
/-- Expressions separated by commas, up to the closing bracket. -/
def readSeq : Nat → Char → List Char → Option (List PT × List Char)
  | 0, _, _ => none
  | n + 1, close, s =>
    (readE n 0 s).bind (fun x =>
      match x.2 with
      | ',' :: ' ' :: r => (readSeq n close r).map (fun y => (x.1 :: y.1, y.2))
      | c :: r => if c = close then some ([x.1], r) else none
      | [] => none)
end

/-- The whole text is read as `t`. -/
def ReadsInput (s : String) (t : PT) : Prop := ∃ n, readE g um n 0 s.toList = some (t, [])

end

/-- The heads with a notation of their own. -/
def notationNames : List String :=
  opTable.map (fun o => "System`" ++ o.name) ++
  ["System`List", "System`Blank", "System`BlankSequence", "System`BlankNullSequence", "System`Part", "System`Pattern", "System`Optional", "System`HoldForm", "System`Infix",
   "System`Definition"]

/-- The expression is an application of the operator. -/
def usesOp (o : OpRow) : Ex → Bool
  | .expr (.sym h :: _) => h == "System`" ++ o.name
  | _ => false

/-- The expression is an application of some operator. -/
def operatorExpr (e : Ex) : Bool := opTable.any (fun o => usesOp o e)

/-- A power that is taken for a quotient in a product. -/
def quotientPower : Ex → Bool
  | .expr [.sym "System`Power", _, .int n] => decide (wrap64 n = -1)
  | _ => false

/-- What is printed with operators, lists and calls, and can be read back. An operand is never a negative number. The exponent of a power is none of the three that are
printed in a special way (compared like `SameQ`), and a factor of a product is not a power with exponent `-1`, also not modulo `2 ^ 64`. A head is a symbol without notation, an
atom, a list or a call. -/
def InputPart (context : String) (path : List String) : Ex → Prop
  | .sym s => s ≠ "" ∧ NameLike (shown context path s) ∧ shown context path s ≠ "Internal`Parens" ∧ ¬ ("System`".toList <+: (shown context path s).toList)
  | .str s => '"' ∉ s.toList ∧ '\\' ∉ s.toList
  | .int _ => True
  | .rat _ _ | .flt _ | .cplx _ _ => False
  | .expr [] => False
  | .expr (h :: args) =>
    (∃ o ∈ opTable, h = .sym ("System`" ++ o.name) ∧ 2 ≤ args.length ∧ (o.two = true → args.length = 2) ∧ (∀ a ∈ args, isNegInt a = false) ∧
      (o.name = "Times" → ∀ a ∈ args, quotientPower a = false) ∧
      (o.name = "Power" → ∀ b e, args = [b, e] → isSameQ e (.rat 1 2) = false ∧ isSameQ e (.rat (-1) 2) = false ∧ isSameQ e (.int (-1)) = false)) ∨
    h = .sym "System`List" ∨
    ((∀ f ∈ notationNames, h ≠ .sym f) ∧ (args.length = 1 → ∀ f ∈ formatNames, h ≠ .sym f) ∧ isNegInt h = false ∧ operatorExpr h = false)

end Expreduce
