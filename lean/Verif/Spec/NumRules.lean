import Mathlib.Data.Nat.Prime.Basic
import Mathlib.Data.Rat.Lemmas

/-! # What the number theory programs are to compute -/

namespace Expreduce

/-- A factorisation of `q ≠ 0`: a sign `{-1, 1}` (if negative) and primes with nonzero exponents, in increasing order, with product `q`. -/
structure Factorisation (q : ℚ) (t : List (Int × Int)) : Prop where
  increasing : (t.map Prod.fst).Pairwise (· < ·)
  primes : ∀ x ∈ t, x = (-1, 1) ∨ (∃ p : ℕ, p.Prime ∧ x.1 = p ∧ x.2 ≠ 0)
  product : (t.map (fun x => (x.1 : ℚ) ^ x.2)).prod = q

/-- `d` divides `a`: `a` is an integer multiple of `d`. -/
def DividesQ (d a : ℚ) : Prop := ∃ k : Int, a = k * d

/-- `g` is the greatest common divisor of the numbers. -/
structure IsGcdQ (l : List ℚ) (g : ℚ) : Prop where
  nonneg : 0 ≤ g
  divides : ∀ a ∈ l, DividesQ g a
  greatest : ∀ d, (∀ a ∈ l, DividesQ d a) → DividesQ d g

/-- `m` is the least common multiple of the numbers. -/
structure IsLcmQ (l : List ℚ) (m : ℚ) : Prop where
  pos : 0 < m
  multiple : ∀ a ∈ l, DividesQ a m
  least : ∀ n, (∀ a ∈ l, DividesQ a n) → DividesQ m n

end Expreduce
