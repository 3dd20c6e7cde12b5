import Verif.Spec.EvalMeaning
import Verif.Model.BoolRules
import Verif.Proofs.SolveSub

/-!
# Truth values

An interpretation gives every symbol and every function a value: a truth value, some other object, or none. `And`, `Or` and `Not` have their
usual meaning on truth values and no value on other objects (except that `And[w]`, `And[True, w]`, `Or[w]` and so on are `w`).
-/

namespace Expreduce
open Ex

/-- A truth value, another object, or no value. -/
inductive Truth (W : Type) where
  | bool (b : Bool)
  | other (w : W)
  | none
deriving DecidableEq

namespace Truth
variable {W : Type}

/-- Conjunction. -/
def and2 : Truth W → Truth W → Truth W
  | .bool a, .bool b => .bool (a && b)
  | .bool true, .other w => .other w
  | .other w, .bool true => .other w
  | _, _ => .none
/-- Disjunction. -/
def or2 : Truth W → Truth W → Truth W
  | .bool a, .bool b => .bool (a || b)
  | .bool false, .other w => .other w
  | .other w, .bool false => .other w
  | _, _ => .none
/-- Negation. -/
def not1 : Truth W → Truth W
  | .bool b => .bool !b
  | _ => .none
/-- There is no value. -/
def missing : Truth W → Bool
  | .none => true
  | _ => false
end Truth

/-- An interpretation of the symbols, of the other atoms and of the functions other than `And`, `Or` and `Not`. -/
structure TruthInterp (W : Type) where
  sym : String → Truth W
  atom : Ex → Truth W
  fn : String → List (Truth W) → Truth W

namespace TruthInterp
variable {W : Type} (V : TruthInterp W)

/-- The value of an atom. -/
def atomValue : Ex → Truth W
  | .sym s => if s = "System`True" then .bool true else if s = "System`False" then .bool false else V.sym s
  | e => V.atom e

/-- The value of a call: no value if an argument has none. -/
def opValue (s : String) (xs : List (Truth W)) : Truth W :=
  if s = "System`And" then xs.foldr .and2 (.bool true)
  else if s = "System`Or" then xs.foldr .or2 (.bool false)
  else if s = "System`Not" then (match xs with
    | [x] => x.not1
    | _ => .none)
  else if xs.any Truth.missing then .none
  else V.fn s xs

/-- The interpretation of expressions. -/
def meaning : Meaning (Truth W) := ⟨V.atomValue, V.opValue⟩

/-- The expression has the value `v`. -/
def Denotes (e : Ex) (v : Truth W) : Prop := V.meaning.argVals e = [v] ∧ v ≠ .none
end TruthInterp

/-- Whatever value `e` has, `e'` has the same. -/
def KeepsTruth {W : Type} (V : TruthInterp W) (e e' : Ex) : Prop := ∀ v, V.Denotes e v → V.Denotes e' v

/-- The functions that may occur: all but `Sequence`. -/
def BoolHead (s : String) : Prop := s ≠ "System`Sequence"

/-- The functions in the rules. -/
def boolHeads : List String := ["System`And", "System`Or", "System`Not"]

/-- `And` and `Or` are `Flat` and `OneIdentity` and not `Orderless` (`resources/boolean.m:2,23`), `Not` has none of these attributes
(`boolean.m:43`), and they have no default values. -/
structure BoolEnv (env : MEnv) : Prop where
  flat : ∀ s ∈ ["System`And", "System`Or"], env.flat s = true ∧ env.oneIdentity s = true
  not : env.flat "System`Not" = false ∧ env.oneIdentity "System`Not" = false
  plain : ∀ s ∈ boolHeads, env.orderless s = false ∧ env.dflt s = none

/-- The pattern that takes some of the arguments of `h[largs]`. -/
def looseOf : Ex → List Ex
  | .expr (.sym h :: largs) => [looseLHS false (.sym h) largs]
  | _ => []

/-- The expression has no machine reals and no `Sequence`, and no two different expressions compared while matching the rule have the same
fingerprint (C09). -/
structure BoolSetup (env : MEnv) (m : Nat) (r : Ex × Ex) (e : Ex) : Prop where
  frag : Frag BoolHead e
  clash : ∀ a ∈ pieces e, ∀ p ∈ r.1 :: looseOf r.1, ∀ q, isMatchQ env m a p [] = some (true, q) → ClashFree env boolHeads p a (bindingsOf q)

/-- The rules are applied one after the other, starting with `e`; whenever one changes something, the expression is as `BoolSetup` says. -/
def BoolStages (env : MEnv) (m : Nat) : List (Ex × Ex) → Ex → Prop
  | [], _ => True
  | r :: rs, e => ∀ e', replaceAll env m "" r.1 r.2 e = some e' → (e' = e ∨ BoolSetup env m r e) ∧ BoolStages env m rs e'

end Expreduce
