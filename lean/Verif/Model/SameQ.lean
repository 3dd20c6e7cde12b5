import Verif.Model.Order

/-!
# Fingerprints and `SameQ` (`/repo/expreduce/atoms/sameq.go`, the `Hash` methods)
-/

namespace Expreduce
open Ex

/-- `fnv.New64a`, `Write`, `Sum64` of the Go library `hash/fnv`: FNV-1a with 64 bits. -/
def fnv1a (bs : List UInt8) : UInt64 :=
  bs.foldl (fun h b => (h ^^^ b.toUInt64) * 1099511628211) 14695981039346656037

/-- Little endian bytes of a number, at most `fuel` of them. -/
def leBytes : Nat → Nat → List UInt8
  | 0, _ => []
  | fuel + 1, n => if n = 0 then [] else UInt8.ofNat (n % 256) :: leBytes fuel (n / 256)

/-- Big endian bytes of a natural number without leading zeros (`nat.bytes` of `math/big`). A number has at most
`log2 n + 1` bytes. -/
def beBytes (n : Nat) : List UInt8 := (leBytes (n.log2 + 1) n).reverse

/-- `big.Int.GobEncode` (library): one byte for version and sign, then the magnitude. -/
def gobInt (n : Int) : List UInt8 := (if n < 0 then 3 else 2) :: beBytes n.natAbs

/-- `binary.LittleEndian.PutUint64` (library). -/
def le64 (h : UInt64) : List UInt8 :=
  (List.range 8).map (fun i => UInt8.ofNat (h.toNat / 256 ^ i))

/-- `⌊log₂ |q|⌋` for `q ≠ 0`. -/
def ilog2 (q : Rat) : Int :=
  let k : Int := (q.num.natAbs.log2 : Int) - q.den.log2
  if |q| < (2 : Rat) ^ k then k - 1 else k

/-- `binary.BigEndian.PutUint32` (library) of a signed number. -/
def be32 (n : Int) : List UInt8 :=
  [3, 2, 1, 0].map (fun i => UInt8.ofNat ((n % 2 ^ 32).toNat / 256 ^ i))

/-- `binary.BigEndian` bytes of a 64-bit mantissa word. -/
def be64 (n : Nat) : List UInt8 :=
  [7, 6, 5, 4, 3, 2, 1, 0].map (fun i => UInt8.ofNat (n / 256 ^ i))

/-- `big.Float.GobEncode` (library) of a value of precision 53, rounding mode to-nearest-even: version, mode/accuracy/form/sign,
precision, exponent, mantissa. `acc` is the accuracy flag of the last rounding (`-1` below, `0` exact, `1` above), which the
library includes in the encoding. -/
def gobFloat (acc : Int) (v : Rat) : List UInt8 :=
  let neg : Nat := if v < 0 then 1 else 0
  let form : Nat := if v = 0 then 0 else 1
  [1, UInt8.ofNat (((acc + 1) % 4).toNat * 8 + form * 2 + neg), 0, 0, 0, 53] ++
  (if v = 0 then [] else
    let e := ilog2 v + 1
    be32 e ++ be64 (|v| * (2 : Rat) ^ (64 - e)).floor.toNat)

mutual
/-- The bytes written into the hash state by the `Hash` methods: symbol `atoms/ex_symbol.go:252-261`, string `atoms/ex_string.go:55-60`,
integer `atoms/ex_integer.go:70-80`, rational `atoms/ex_rational.go:79-87`, real `atoms/ex_real.go:92-98`, complex
`atoms/ex_complex.go:68-77`, expression `atoms/ex_expression.go:233-246`. The caches are dropped; the
accuracy flag of a real is not part of the model's `flt` and is taken to be exact. -/
def enc : Ex → List UInt8
  | .sym s => [107, 10, 247, 23, 33, 221, 163, 156] ++ bytes s
  | .str s => [102, 206, 57, 172, 207, 100, 198, 133] ++ bytes s
  | .int n => [242, 99, 84, 113, 102, 46, 118, 94] ++ gobInt n
  | .rat n d => [90, 82, 214, 51, 52, 7, 7, 33] ++ (gobInt n ++ gobInt d)
  | .flt v => [195, 244, 76, 249, 227, 115, 88, 251] ++ gobFloat 0 v
  | .cplx re im => [82, 226, 223, 39, 113, 26, 149, 249] ++ (le64 (fnv1a (enc re)) ++ le64 (fnv1a (enc im)))
  | .expr ps => [72, 5, 244, 86, 5, 210, 69, 30] ++ encParts ps
/-- The bytes written by the loop `atoms/ex_expression.go:240-243`. -/
def encParts : List Ex → List UInt8
  | [] => []
  | p :: ps => le64 (fnv1a (enc p)) ++ encParts ps
end

/-- The `Hash` methods. -/
def hash (e : Ex) : UInt64 := fnv1a (enc e)

/-- The magnitude bits of the nearest `float64` to `x ≥ 0` (`big.Float.Float64`, ties to even, gradual underflow): exponent field and
fraction read as one integer. -/
def f64mag (x : Rat) : Int :=
  if x = 0 then 0
  else
    let q : Int := max (ilog2 x - 52) (-1074)
    rne (x / (2 : Rat) ^ q) + (q + 1074) * 2 ^ 52

/-- `int64(math.Float64bits(v.Float64()))` (`atoms/sameq.go:20-21, 31`); `none` if the conversion overflows to infinity. Negative zero
is not modelled. -/
def f64bits (v : Rat) : Option Int :=
  if f64mag |v| ≥ 2047 * 2 ^ 52 then none
  else some (if v < 0 then f64mag |v| - 2 ^ 63 else f64mag |v|)

/-- Wrap-around of a 64-bit signed integer. -/
def wrap64 (n : Int) : Int := (n + 2 ^ 63) % 2 ^ 64 - 2 ^ 63

/-- `almostEqual` (`atoms/sameq.go:30-33`) on bit patterns. -/
def almostEqual (ai bi : Int) : Bool :=
  ai == bi || (decide (-1 ≤ wrap64 (ai - bi)) && decide (wrap64 (ai - bi) ≤ 1))

/-- `IsSameQ` (`atoms/sameq.go:12-28`). -/
def isSameQ (a b : Ex) : Bool :=
  match a, b with
  | .flt x, .flt y =>
    match f64bits x, f64bits y with
    | some i, some j => almostEqual i j
    | _, _ => hash a == hash b
  | _, _ => hash a == hash b

end Expreduce
