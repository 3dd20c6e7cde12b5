import Verif.Model.Arith

/-!
# Number theory and combinatorics

`/repo/expreduce/builtin_numbertheory.go`, `/repo/expreduce/builtin_combinatorics.go`, the root extraction of
`/repo/expreduce/builtin_power.go`, and digit conversion in `/repo/expreduce/resources/numbertheory.m`.

Loops without an evident bound take a fuel argument; `none` means "still running".
`big.Int.Div`/`Mod` are Euclidean (`Int.ediv`/`emod`, Lean's `/` and `%` on `Int`).
-/

namespace Expreduce
open Ex

/-- ``GCD``'s accumulation of absolute values of the nonzero integers (`builtin_numbertheory.go:77-95`). -/
def gcdCollect : List Int → List Nat
  | [] => []
  | a :: as => if a > 0 then a.toNat :: gcdCollect as else if a < 0 then (-a).toNat :: gcdCollect as else gcdCollect as

/-- ``GCD`` on integers (`builtin_numbertheory.go:96-103`). -/
def gcdInts (l : List Int) : Int :=
  match gcdCollect l with
  | [] => 0
  | g :: gs => ((gs.foldl Nat.gcd g : Nat) : Int)

/-- The integers in an argument list, `none` if some argument is not an integer (`builtin_numbertheory.go:78-81`). -/
def allInts : List Ex → Option (List Int)
  | [] => some []
  | .int n :: as => (allInts as).map (n :: ·)
  | _ :: _ => none

/-- ``GCD``'s `legacyEvalFn` (`builtin_numbertheory.go:73-104`) on the arguments. -/
def gcdEval (args : List Ex) : Ex :=
  match allInts args with
  | some l => .int (gcdInts l)
  | none => .expr (S "GCD" :: args)

/-- ``Mod``'s `legacyEvalFn` (`builtin_numbertheory.go:107-124`) on two integers. -/
def modEval (x y : Int) : Ex := if y = 0 then S "Indeterminate" else .int (x % y)

/-- The inner loop of `primeFactors` (`builtin_numbertheory.go:26-28`): first divisor from `i` on. -/
def nextFactor : Nat → Int → Int → Option Int
  | 0, _, _ => none
  | f + 1, n, i => if n % i = 0 then some i else nextFactor f n (i + 1)

/-- The outer loop of `primeFactors` (`builtin_numbertheory.go:25-34`). -/
def pfLoop : Nat → Int → Option (List Int)
  | 0, _ => none
  | f + 1, n =>
    if n = 1 then some []
    else
      match nextFactor f n 2 with
      | none => none
      | some i =>
        match pfLoop f (n / i) with
        | none => none
        | some l => some (i :: l)

/-- `primeFactors` (`builtin_numbertheory.go:14-36`). -/
def primeFactors (fuel : Nat) (n : Int) : Option (List Int) := if n = 1 then some [1] else pfLoop fuel n

/-- Loop body of `primeFactorsTallied` (`builtin_numbertheory.go:45-60`): increment the first entry with that factor, or append
a new one. `uint64` counters are taken unbounded (they count list elements). -/
def tallyAdd : List (Int × Nat) → Int → List (Int × Nat)
  | [], p => [(p, 1)]
  | (q, k) :: ts, p => if q = p then (q, k + 1) :: ts else (q, k) :: tallyAdd ts p

/-- `primeFactorsTallied` (`builtin_numbertheory.go:43-62`). -/
def primeFactorsTallied (fuel : Nat) (n : Int) : Option (List (Int × Nat)) :=
  (primeFactors fuel n).map (fun l => l.foldl tallyAdd [])

/-- The loop of `nthRoot` (`builtin_power.go:48-67`), on nonnegative `x` and positive `n` (the only call site checks,
`builtin_power.go:373-375`). The inner option is Go's `nil` for "no exact root"; division by zero (`z1 = 0`) would panic and is
`none`. -/
def nthRootLoop : Nat → Nat → Nat → Nat → Option (Option Nat)
  | 0, _, _, _ => none
  | f + 1, x, n, z1 =>
    if z1 = 0 then none
    else
      let z2 := (x / z1 ^ (n - 1) + z1 * (n - 1)) / n
      if z2 ≥ z1 then some (if z1 ^ n = x then some z1 else none)
      else nthRootLoop f x n z2

/-- `x.BitLen()`. -/
def bitLen (x : Nat) : Nat := if x = 0 then 0 else Nat.log2 x + 1

/-- `nthRoot` (`builtin_power.go:32-68`). -/
def nthRoot (fuel : Nat) (x n : Nat) : Option (Option Nat) :=
  if x = 0 then some (some 0)
  else nthRootLoop fuel x n (2 ^ (bitLen x / 2 + 1))

/-- Go's `map[uint64]*big.Int` of `extractPower`, as an association list in order of insertion (`builtin_power.go:83-91`):
multiply the entry of that power, or create it. -/
def basesAdd : List (Nat × Int) → Int × Nat → List (Nat × Int)
  | [], (p, k) => [(k, p)]
  | (k', b) :: bs, (p, k) => if k' = k then (k', b * p) :: bs else (k', b) :: basesAdd bs (p, k)

/-- The map of bases by exponent (`builtin_power.go:83-91`); `none` if no factor occurs twice (`73-82`). -/
def extractBases (tallied : List (Int × Nat)) : Option (List (Nat × Int)) :=
  if tallied.any (fun t => decide (t.2 > 1)) then some (tallied.foldl basesAdd [])
  else none

/-- `extractPower` (`builtin_power.go:70-108`), given the order in which the map is iterated (arbitrary in Go). -/
def extractPowerEx (bases : List (Nat × Int)) (m n : Int) : Ex :=
  .expr (S "Times" :: bases.map (fun kb => .expr [S "Power", .int kb.2, .rat (m * kb.1) n]))

/-- `radSimp` (`builtin_power.go:110-127`): the loop never iterates, since a remainder is never negative. -/
def radSimp (radicand index : Nat) : Option (Nat × Nat) :=
  if radicand % 2 ^ index = 0 then some (2, radicand / 2 ^ index) else none

/-- ``Power``'s `legacyEvalFn` for an integer base and a rational exponent `m/n` with `n > 0`
(`builtin_power.go:365-413`). `order` is the iteration order of the map of bases. `none`: not finished. -/
def powerIntRat (fuel : Nat) (order : List (Nat × Int) → List (Nat × Int)) (x m : Int) (n : Nat) : Option Ex :=
  let this : Ex := .expr [S "Power", .int x, .rat m n]
  let tail : Ex :=
    match radSimp x.natAbs n with
    | some (extracted, radicand) =>
      let rad : Int := if x < 0 then -(radicand : Int) else radicand
      let coeff : Ex := if m < 0 then .rat 1 extracted else .int extracted
      .expr [S "Times", coeff, .expr [S "Power", .int rad, .rat m n]]
    | none => this
  if x ≥ 0 then
    match nthRoot fuel x.toNat n with
    | none => none
    | some (some root) => some (if m = 1 then .int root else .expr [S "Power", .int root, .int m])
    | some none =>
      match primeFactorsTallied fuel x with
      | none => none
      | some t =>
        match extractBases t with
        | some bases => some (extractPowerEx (order bases) m n)
        | none => some tail
  else some tail

/-- `factorial` (`builtin_combinatorics.go:82-96`) with its effect on the `big.Int` cell it is given: returns the result and the final
contents of the argument's cell. -/
def factorialCell : Nat → Int × Nat
  | 0 => (1, 0)
  | n + 1 =>
    -- result := n+1;  n.Sub(n, 1) overwrites the argument;  recurse on the same cell
    let r := factorialCell n
    (((n + 1 : Nat) : Int) * r.1, r.2)

/-- ``Factorial``'s `legacyEvalFn` (`builtin_combinatorics.go:195-209`): result, and what the argument's cell holds afterwards. -/
def factorialEval (n : Int) : Ex × Int :=
  if n < 0 then (S "ComplexInfinity", n)
  else ((.int (factorialCell n.toNat).1), (factorialCell n.toNat).2)

/-- `genIntegerPartitions` (`builtin_combinatorics.go:11-31`). `len(prefix)+1 > k` cuts off; `i` runs from `startAt` down to 1. Fuel `n`
suffices, since `n` decreases. Machine integers are taken unbounded. -/
def genPartitions (k : Int) : Nat → Nat → Nat → List Nat → List (List Nat)
  | 0, _, _, _ => []
  | f + 1, n, startAt, pre =>
    if (pre.length : Int) + 1 > k then []
    else ((List.range startAt).reverse.map (· + 1)).flatMap fun i =>
      if i = n then [pre ++ [i]]
      else genPartitions k f (n - i) (min i (n - i)) (pre ++ [i])

/-- ``IntegerPartitions[n, k]`` (`builtin_combinatorics.go:102-158`); without `k`, `k = n`. -/
def integerPartitions (n k : Int) : List (List Nat) :=
  if n < 0 then [] else if n = 0 then [[]]
  else genPartitions k n.toNat n.toNat n.toNat []

/-- The inner loop of `genPermutations` (`builtin_combinatorics.go:70-78`): append `first :: perm` unless already there.
`permListContains` (`34-57`) compares with SameQ, modelled as equality (exact on expressions without machine reals). -/
def permAppend {α : Type} [DecidableEq α] (first : α) (acc : List (List α)) (perm : List α) : List (List α) :=
  if (first :: perm) ∈ acc then acc else acc ++ [first :: perm]

/-- Body of the loop over the first element (`builtin_combinatorics.go:66-79`), given the permutations of the others. -/
def permStep {α : Type} [DecidableEq α] (parts : List α) (rec : List α → List (List α)) (acc : List (List α)) (i : Nat) :
    List (List α) :=
  match parts[i]? with
  | some first => (rec (parts.eraseIdx i)).foldl (permAppend first) acc
  | none => acc

/-- `genPermutations` (`builtin_combinatorics.go:60-80`). The first argument is the number of elements (the recursion depth). -/
def genPermutations {α : Type} [DecidableEq α] : Nat → List α → List (List α)
  | 0, _ => []
  | f + 1, parts =>
    if parts.length = 1 then [parts]
    else (List.range parts.length).foldl (permStep parts (genPermutations f)) []

/-- ``Permutations[list]`` (`builtin_combinatorics.go:161-190`). -/
def permutations {α : Type} [DecidableEq α] (l : List α) : List (List α) := genPermutations l.length l

/-- ``PrimePi`` for a machine integer (`builtin_numbertheory.go:130-155`), given the list `primes n` returned by the library call
`prime.Primes(n)`. -/
def primePi (primes : Nat → List Nat) (n : Int) : Int :=
  if n ≤ 0 then 0 else if n = 1 then 1 else (primes n.toNat).length

/-- The loop of ``IntegerDigits`` (`resources/numbertheory.m`, `IntegerDigits[signedN, base]`): prepend `Mod[n, base]`, divide. -/
def digitsLoop : Nat → Nat → Nat → List Nat → Option (List Nat)
  | 0, _, _, _ => none
  | f + 1, base, n, list => if n > 0 then digitsLoop f base ((n - n % base) / base) (n % base :: list) else some list

/-- ``IntegerDigits[n, base]`` for `base` positive. -/
def integerDigits (fuel : Nat) (n : Int) (base : Nat) : Option (List Nat) := digitsLoop fuel base n.natAbs []

/-- ``FromDigits[digits, base]`` (`resources/numbertheory.m`): `Sum digits[[i]] * base^(n - i)`. -/
def fromDigits (digits : List Nat) (base : Nat) : Nat :=
  ((List.range digits.length).map (fun i => (digits[i]?.getD 0) * base ^ (digits.length - (i + 1)))).sum

end Expreduce
