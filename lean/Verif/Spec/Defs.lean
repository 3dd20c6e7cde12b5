import Verif.Model.Defs

/-! Specification vocabulary for definitions. -/

namespace Expreduce
open Ex

/-- What a history of definitions does to a state. -/
def runDefs (strLen : Ex → Nat) (st : DState) : List (Ex × Ex) → Option DState
  | [] => some st
  | d :: h => (define strLen st d.1 d.2).bind (fun st' => runDefs strLen st' h)

/-- The rules stored for a name. -/
def rulesFor (st : DState) (name : String) : List DV := ((st.defs name).map DefM.downvalues).getD []

/-- Two definitions are alternatives of each other if their left sides have the same fingerprint and their right sides the same
conditions: then the later one replaces the earlier one. -/
def defKey (lhs rhs : Ex) : UInt64 × Option UInt64 := (hash (held lhs), (maskOf rhs).map hash)

/-- The key of a stored rule, see `defKey`. -/
def ruleKey (dv : DV) : UInt64 × Option UInt64 := (hash dv.lhs, (maskOf dv.rhs).map hash)

/-- The right side stored for a key. -/
def storedRhs (rules : List DV) (k : UInt64 × Option UInt64) : Option Ex := (rules.find? (fun dv => ruleKey dv == k)).map DV.rhs

/-- The name a definition belongs to. -/
def targetName (lhs : Ex) : Option String :=
  match targetOf lhs with
  | .rule s => some s
  | _ => none

/-- The most recent right side in a history for a name and key. -/
def latest (h : List (Ex × Ex)) (name : String) (k : UInt64 × Option UInt64) : Option Ex :=
  (h.reverse.find? (fun d => targetName d.1 == some name && defKey d.1 d.2 == k)).map Prod.snd

/-- The operations that change the table (assignments, `Clear[s]`, first mention of a symbol). -/
inductive Op where
  | define (lhs rhs : Ex)
  | clear (s : String)
  | seen (s : String)

/-- The conditions of the right side can be computed: every `Condition` on the way has at least two arguments. -/
def MaskOk (rhs : Ex) : Prop := maskOf rhs ≠ none

instance (rhs : Ex) : Decidable (MaskOk rhs) := inferInstanceAs (Decidable (_ ≠ _))

/-- The operations covered: no assignment to `DownValues[...]` and none that ends the process; conditions as above. -/
def OpOk : Op → Prop
  | .define l r => MaskOk r ∧ (∀ s, targetOf l ≠ .downValues s) ∧ targetOf l ≠ .fatal
  | _ => True

/-- What an operation does. -/
def runOp (strLen : Ex → Nat) (st : DState) : Op → Option DState
  | .define l r => define strLen st l r
  | .clear s => some (clear st s)
  | .seen s => some (markSeen st s)

/-- What a history of operations does. -/
def runOps (strLen : Ex → Nat) (st : DState) : List Op → Option DState
  | [] => some st
  | o :: h => (runOp strLen st o).bind (fun st' => runOps strLen st' h)

/-- The definitions of `h` made after the last `Clear[name]`. -/
def sinceClear (name : String) (h : List Op) : List (Ex × Ex) :=
  h.foldl (fun acc o => match o with
    | .define l r => acc ++ [(l, r)]
    | .clear s => if s = name then [] else acc
    | .seen _ => acc) []

/-- The most recent value assigned to the symbol. -/
def lastValue (h : List (Ex × Ex)) (x : String) : Option Ex := (h.reverse.find? (fun d => d.1 == .sym x)).map Prod.snd

/-- A right side without condition: neither `body /; cond` nor `With[vars, body /; cond]`, `Module[vars, body /; cond]`. -/
def Unconditional (rhs : Ex) : Prop := hasHead "System`Condition" rhs = false ∧
  ∀ s vars body, rhs = .expr [.sym s, vars, body] → s = "System`With" ∨ s = "System`Module" → hasHead "System`Condition" body = false

/-- The position in `h` of the first definition for the name and key. -/
def firstDef (h : List (Ex × Ex)) (name : String) (k : UInt64 × Option UInt64) : Nat :=
  h.findIdx (fun d => targetName d.1 == some name && defKey d.1 d.2 == k)

end Expreduce
