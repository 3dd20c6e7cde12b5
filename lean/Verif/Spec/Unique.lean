import Verif.Model.Unique
import Verif.Spec.Replace

/-! Fresh names: what is a usable state, a history of productions. -/

namespace Expreduce
open Ex

/-- `$ModuleNumber` has the value `k`, set in the ordinary way (`$ModuleNumber = k`). -/
def NextNumber (st : DState) (k : Int) : Prop :=
  ∃ d s rest, st.defs "System`$ModuleNumber" = some d ∧ d.downvalues = { lhs := held (.sym "System`$ModuleNumber"), rhs := .int k, spec := s } :: rest

/-- A state in which fresh names can be made: definitions can be written, `$ModuleNumber` is `k`, there are only finitely many names, at most `b`, and the
numbers stay far below the 64 bit limit. -/
structure Roomy (st : DState) (k : Int) : Prop where
  thawed : st.frozen = false
  number : NextNumber st k
  nonneg : 0 ≤ k
  finite : ∃ names : List String, (∀ x, st.defs x ≠ none → x ∈ names) ∧ k + names.length < 2 ^ 63 - 1

/-- The last character is not a digit (and there is one). -/
def EndsOpen (s : String) : Prop := ∃ l c, s.toList = l ++ [c] ∧ c.isDigit = false

/-- A history of productions of fresh names. `names` are the names produced so far with their stems, newest first, `k` is the value of
`$ModuleNumber`. In between anything may happen that does not lower `$ModuleNumber`. -/
inductive Produced (strLen : Ex → Nat) : DState → Int → List (String × String) → Prop
  | start {st : DState} {k : Int} : Roomy st k → Produced strLen st k []
  | other {st st' : DState} {k k' : Int} {names : List (String × String)} : Produced strLen st k names → Roomy st' k' → k ≤ k' → Produced strLen st' k' names
  | make {st st' : DState} {k k' : Int} {names : List (String × String)} {stem u : String} {n : Nat} : Produced strLen st k names →
      snagUnique strLen n st stem = .ok (st', some u) → Roomy st' k' → Produced strLen st' k' ((stem, u) :: names)

/-- The renaming of a `Module`: each local variable by the fresh name of its last occurrence. -/
def localNames : List (Local × String) → String → Option Ex
  | [], _ => none
  | (l, u) :: r, x => (localNames r x).orElse (fun _ => if x = l.name then some (.sym u) else none)

/-- The value a local variable starts with, if the evaluator turns `v` into `g v`. -/
def Init.value (g : Ex → Ex) : Init → Option Ex
  | .none => Option.none
  | .set v => some (g v)
  | .delayed v => some v

/-- The call `Module[{locals}, body]` as written. -/
def localExpr (l : Local) : Ex :=
  match l.init with
  | .none => .sym l.name
  | .set v => .expr [S "Set", .sym l.name, v]
  | .delayed v => .expr [S "SetDelayed", .sym l.name, v]

end Expreduce
