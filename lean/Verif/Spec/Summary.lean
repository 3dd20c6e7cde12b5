import Verif.Spec.Arith

/-! Specification for C126. -/

namespace Expreduce.Sm
open Expreduce Ex

/-- The exact number `r` is the mean of the exact numbers `xs`: `n` times it is their sum. -/
def IsMean {K : Type} [Field K] (ρ : Ex → K) (iu : K) (xs : List Ex) (r : Ex) : Prop := (xs.length : K) * value ρ iu r = (xs.map (value ρ iu)).sum

/-- The values `True` and `False` and everything in `vs` evaluate to themselves without effect. -/
def Stable {σ : Type} (ev : Ex → σ → Ex × σ) (vs : List Ex) : Prop := ∀ v ∈ vs, ∀ s, ev v s = (v, s)

end Expreduce.Sm
