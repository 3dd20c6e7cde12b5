import Verif.Model.NumTheory
import Mathlib.Data.List.Sort
import Mathlib.Data.Rat.Lemmas

/-!
# Number theory programs of the library (`/repo/expreduce/resources/numbertheory.m`, `combinatorics.m`, `list.m`)

The programs are read as programs on numbers: an integer or rational atom is a number of `ℚ` (normalised, see C13), the arithmetic in
them is exact (C14), comparisons of small numbers and of signs are those of the numbers. `none` means "still running".
-/

namespace Expreduce

/-- `DeleteDuplicates` on integers (`builtin_list.go`, used by `Tally`): keep what was not seen before. -/
def firstsLoop : List Int → List Int → List Int
  | seen, [] => seen
  | seen, x :: xs => if x ∈ seen then firstsLoop seen xs else firstsLoop (seen ++ [x]) xs

/-- `Tally` (`list.m:442`) on integers. -/
def tallyInts (l : List Int) : List (Int × Int) := (firstsLoop [] l).map (fun p => (p, (l.count p : Int)))

/-- The canonical order on lists `{p, k}` of two integers (`atoms/order.go`). -/
def pairLe (a b : Int × Int) : Prop := a.1 < b.1 ∨ (a.1 = b.1 ∧ a.2 ≤ b.2)

instance : DecidableRel pairLe := fun a b => by unfold pairLe; infer_instance

/-- `Sort` of a list of such pairs (library contract: a sorted permutation, which is unique here). -/
def sortPairs (l : List (Int × Int)) : List (Int × Int) := l.insertionSort pairLe

/-- `DeleteCases[l, {1, 1}]` (`numbertheory.m:155, 156`). -/
def dropOnes (l : List (Int × Int)) : List (Int × Int) := l.filter (fun x => decide (x ≠ (1, 1)))

/-- `FactorInteger[int_Integer?Positive]` (`numbertheory.m:161-171`); its loop is that of `primeFactors` (`pfLoop`). -/
def factorPos (fuel : Nat) (n : Int) : Option (List (Int × Int)) :=
  if n = 1 then some [(1, 1)] else (pfLoop fuel n).map (fun l => sortPairs (tallyInts l))

/-- `FactorInteger` of an integer (`numbertheory.m:156, 157, 161`). -/
def factorInt (fuel : Nat) (n : Int) : Option (List (Int × Int)) :=
  if n = 0 then some [(0, 1)]
  else if n < 0 then (factorPos fuel (-n)).map (fun l => dropOnes ((-1, 1) :: l))
  else factorPos fuel n

/-- `FactorInteger[Rational[n, d]]` (`numbertheory.m:154-155`). -/
def factorRat (fuel : Nat) (n d : Int) : Option (List (Int × Int)) :=
  match factorInt fuel n, factorInt fuel d with
  | some a, some b => some (dropOnes (sortPairs (a ++ b.map (fun x => (x.1, -x.2)))))
  | _, _ => none

/-- `FactorInteger` of a number: rational atoms are those whose denominator is not 1. -/
def factorInteger (fuel : Nat) (q : ℚ) : Option (List (Int × Int)) :=
  if q.den = 1 then factorInt fuel q.num else factorRat fuel q.num q.den

/-- `EulerPhi[n_Integer?Positive]` (`numbertheory.m:243-245`). -/
def eulerPos (fuel : Nat) (n : Int) : Option ℚ :=
  if n = 1 then some 1 else (factorInt fuel n).map (fun t => (n : ℚ) * (t.map (fun x => 1 - 1 / (x.1 : ℚ))).prod)

/-- `EulerPhi` (`numbertheory.m:242-246`). -/
def eulerPhi (fuel : Nat) (n : Int) : Option ℚ :=
  if n = 0 then some 0 else if n < 0 then eulerPos fuel (-n) else eulerPos fuel n

/-- Evaluation of `GCD[args]` (`numbertheory.m:23-28` and the builtin function). `GCD` is `Orderless`, so a rule may pick any of the
arguments; which ones it picks depends on the matcher, so this is a relation. -/
inductive GcdRun : List ℚ → ℚ → Prop
  /-- the builtin function (`builtin_numbertheory.go:73-104`): all arguments are integers -/
  | ints (l : List Int) : GcdRun (l.map (fun n : Int => (n : ℚ))) (gcdInts l)
  /-- `GCD[a_Rational] := Abs[a]` -/
  | one {q : ℚ} : q.den ≠ 1 → GcdRun [q] |q|
  /-- two rationals (`numbertheory.m:23-24`) -/
  | rats {args rest : List ℚ} {p q g : ℚ} : p.den ≠ 1 → q.den ≠ 1 → args.Perm (p :: q :: rest) →
      GcdRun ((gcdInts [p.num * q.den, q.num * p.den] : ℚ) / (p.den * q.den) :: rest) g → GcdRun args g
  /-- a rational and an integer (`numbertheory.m:25-26`) -/
  | ratInt {args rest : List ℚ} {p g : ℚ} {c : Int} : p.den ≠ 1 → args.Perm (p :: (c : ℚ) :: rest) →
      GcdRun ((gcdInts [p.num, c * p.den] : ℚ) / p.den :: rest) g → GcdRun args g

/-- Evaluation of `LCM[args]` (`numbertheory.m:74-76`); `LCM` is `Orderless`. The inner `GCD` is nonzero (otherwise the result is not a
number). -/
inductive LcmRun : List ℚ → ℚ → Prop
  | two {args : List ℚ} {a b g : ℚ} : args.Perm [a, b] → GcdRun [a, b] g → g ≠ 0 → LcmRun args (a / g * b)
  | more {args rest : List ℚ} {a b l r : ℚ} : rest ≠ [] → args.Perm (a :: b :: rest) → LcmRun [a, b] l → LcmRun (l :: rest) r → LcmRun args r

/-- `Mod` of a rational and an integer (`numbertheory.m:97`, builtin function for integers); `none` is `Indeterminate`. -/
def modRat (q : ℚ) (c : Int) : Option ℚ :=
  if c = 0 then none else some (((q.num % (c * q.den) : Int) : ℚ) / q.den)

/-- `FractionalPart` (`numbertheory.m:193-194`). -/
def fractionalPart (q : ℚ) : Option ℚ :=
  if q.den = 1 then some 0 else if q ≥ 0 then modRat q 1 else (modRat (-q) 1).map (fun r => -r)

/-- `IntegerPart` (`numbertheory.m:211-212`). -/
def integerPart (q : ℚ) : Option ℚ := if q.den = 1 then some q else (fractionalPart q).map (fun r => q - r)

/-- `Sign` of an exact number (`numbertheory.m:304-315`). -/
def signFn (q : ℚ) : Int := if q < 0 then -1 else if q > 0 then 1 else 0

/-- `Fibonacci` (`numbertheory.m:258-260`); remembering earlier values changes only the time. -/
def fibonacci : Nat → Int → Option Int
  | 0, _ => none
  | f + 1, n =>
    if n = 0 then some 0 else if n = 1 then some 1
    else
      match fibonacci f (n - 1), fibonacci f (n - 2) with
      | some a, some b => some (a + b)
      | _, _ => none

/-- `Multinomial` of nonnegative integers (`combinatorics.m:37`). -/
def multinomial (l : List Nat) : ℚ := (Nat.factorial l.sum : ℚ) / (l.map (fun k => (Nat.factorial k : ℚ))).prod

/-- `Tuples` (`combinatorics.m:68-82`). -/
def tuples {α : Type} (list : List α) : Nat → List (List α)
  | 0 => [[]]
  | n + 1 => (list.map (fun elem => (tuples list n).map (fun t => elem :: t))).flatten

end Expreduce
