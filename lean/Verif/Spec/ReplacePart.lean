import Verif.Model.Ex

/-! # Parts at positions -/

namespace Expreduce
open Ex

/-- The part of `e` at the position `π`, a list of argument numbers counted from 1. -/
def partAt : Ex → List Nat → Option Ex
  | e, [] => some e
  | .expr (_ :: as), (i + 1) :: π => match as[i]? with
    | some a => partAt a π
    | none => none
  | _, _ => none

/-- The same atom, or calls with the same head and the same number of arguments. -/
def SameTop : Ex → Ex → Prop
  | .expr (h :: as), y => ∃ bs, y = .expr (h :: bs) ∧ bs.length = as.length
  | x, y => y = x

/-- In `r` the parts of `e` at the positions for which `new` gives a value have been replaced by these values (the outermost position counts),
and nothing else has changed. -/
structure PartsReplaced (new : List Nat → Option Ex) (e r : Ex) : Prop where
  replaced : ∀ π v x, π ≠ [] → partAt e π = some x → new π = some v → (∀ ρ, ρ ≠ [] → ρ <+: π → ρ ≠ π → new ρ = none) → partAt r π = some v
  kept : ∀ π x, partAt e π = some x → (∀ ρ, ρ ≠ [] → ρ <+: π → new ρ = none) → ∃ y, partAt r π = some y ∧ SameTop x y

/-- A position in a rule: `i` or `{i1, i2, ...}`. -/
inductive Place where
  | at (i : Int)
  | path (is : List Int)
deriving DecidableEq

/-- As an expression. -/
def Place.ex : Place → Ex
  | .at i => .int i
  | .path is => .expr (S "List" :: is.map Ex.int)

/-- The value that the rules give for the position `π`: that of the first rule with `π` as a list, or, for the position of an argument, else
that of the first rule with its number. -/
def placeValue (rules : List (Place × Ex)) (π : List Nat) : Option Ex :=
  match rules.find? (fun r => r.1 = .path (π.map (fun k : Nat => (k : Int)))) with
  | some r => some r.2
  | none => match π with
    | [i] => (rules.find? (fun r => r.1 = .at (i : Int))).map (·.2)
    | _ => none

end Expreduce
