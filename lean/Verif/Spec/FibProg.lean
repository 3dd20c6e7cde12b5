import Verif.Model.FibProg
import Verif.Spec.AssignProg
import Mathlib.Data.Nat.Fib.Basic

/-! What it means that `Fibonacci` has remembered some values. -/

namespace Expreduce
open Ex
namespace AssignProg

/-- The stored definition `Fibonacci[k] = F_k`, with its specificity if that has been computed. -/
def fibValue (p : Nat × Int) : DV := { lhs := held (fibCall (.int p.1)), rhs := .int (Nat.fib p.1), spec := p.2 }

/-- The definitions of `Fibonacci` are those of the numbers in `known`, with the right values, in this order, and then the general one. -/
structure Memo (st : EState) (known : List Nat) : Prop where
  stored : ∃ ks : List (Nat × Int), ks.map Prod.fst = known ∧ (∀ p ∈ ks, p.2 = 0 ∨ p.2 = 110) ∧
    st.defs fibSym = some { downvalues := ks.map fibValue ++ [fibGeneral], attrs := fibAttrs }
  base : 0 ∈ known ∧ 1 ∈ known

/-- The fingerprints of the numbers up to `B`, and of the left sides with them, differ. -/
structure NoMix (B : Nat) : Prop where
  ints : ∀ j k : Nat, j ≤ B → k ≤ B → j ≠ k → isSameQ (.int j) (.int k) = false
  lhs : ∀ j k : Nat, j ≤ B → k ≤ B → j ≠ k → isSameQ (held (fibCall (.int j))) (held (fibCall (.int k))) = false
  general : ∀ k : Nat, k ≤ B → isSameQ (held (fibCall (argP fibVar))) (held (fibCall (.int k))) = false

/-- Nothing but the definitions of `Fibonacci` has changed. -/
structure OnlyFib (st st' : EState) : Prop where
  others : ∀ g, g ≠ fibSym → st'.defs g = st.defs g
  thrown : st'.thrown = st.thrown
  interrupted : st'.interrupted = st.interrupted
  sown : st'.sown = st.sown
  frozen : st'.frozen = st.frozen

end AssignProg
end Expreduce
