import Verif.Model.Expand
import Verif.Spec.Solve
import Verif.Proofs.SolveSub

/-! What is assumed about the argument of `Expand` and its environment. -/

namespace Expreduce
open Ex Shipped

/-- The programs on the right sides of the rules. -/
def expandPrograms : List String := ["System`Apply", "System`Length", "System`Map", "Private`possibleExponents", "Private`genExpand"]

/-- The functions that may occur in the argument: all but these programs, `Sequence` and `Integer`. -/
def ExpandHead (s : String) : Prop := s ∉ expandPrograms ∧ s ≠ "System`Sequence" ∧ s ≠ "System`Integer"

/-- The patterns that are matched: the left sides of the rules, and the one that takes some of the factors of a product. -/
def expandPatterns : List Ex := [expandPower.1, expandProduct.1, looseLHS true (S "Times") [any "c", anyOf "s" "Plus"]]

/-- The expression `e` has been evaluated (so that a sum in it has at least one addend and none that is 0), has no machine reals, and no
two different expressions compared while matching have the same fingerprint; only positive integers pass the test `Positive`. -/
structure ExpandSetup (env : MEnv) (m : Nat) (ev : Ex → Ex) (e : Ex) : Prop where
  frag : Frag ExpandHead e
  evaluated : ∀ a ∈ pieces e, ev a = a
  sums : ∀ as, add as ∈ pieces e → as ≠ [] ∧ .int 0 ∉ as
  positive : ∀ n : Int, env.isTrue (call "Positive" [.int n]) = true → 0 < n
  clash : ∀ a ∈ pieces e, ∀ p ∈ expandPatterns, ∀ q, isMatchQ env m a p [] = some (true, q) → ClashFree env polyHeads p a (bindingsOf q)

end Expreduce
