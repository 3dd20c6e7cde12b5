import Verif.Model.Ex
import Verif.Model.Round

/-!
# Canonical order (`/repo/expreduce/atoms/order.go`)
-/

namespace Expreduce

/-- The bytes of a Go string. -/
def bytes (s : String) : List UInt8 := s.toByteArray.data.toList

/-- The loop of `compareStrings` over the two byte sequences. -/
def compareBytes : List UInt8 → List UInt8 → Int
  | [], [] => 0
  | [], _ :: _ => 1
  | _ :: _, [] => -1
  | a :: as, b :: bs => if a > b then -1 else if a < b then 1 else compareBytes as bs

/-- `compareStrings` (`atoms/order.go:14-29`): the first differing byte decides, then the length.
`1` means `a` comes first. -/
def compareStrings (a b : String) : Int := compareBytes (bytes a) (bytes b)

/-- `bVal.Cmp(aVal)` for exact integers (`atoms/order.go:66`): `-1`, `0`, `1` as `b < a`, `b = a`, `b > a`. -/
def cmpInt (b a : Int) : Int := if b < a then -1 else if b = a then 0 else 1

/-- `bFlt.Val.Cmp(aFlt.Val)` (`atoms/order.go:90`). -/
def cmpRat (b a : Rat) : Int := if b < a then -1 else if b = a then 0 else 1

/-- The `Flt` an operand is converted to before number comparison (`atoms/order.go:55-56, 68-87`,
`exprToN` `31-43`, `IntegerToFlt`/`RationalToFlt` `atoms/ex_real.go:76-86`): the value itself for reals, the 53-bit
rounding for integers and rationals, the conversion of the real part for complex numbers; `none` if
the operand is no number, or a complex whose real part is not a real number.
A rational with denominator 0 (never built by the evaluator, `big.Rat.SetFrac` panics) is given value 0 here. -/
def toFlt : Ex → Option Rat
  | .flt v => some v
  | .int n => some (rnd53 n)
  | .rat n d => some (rnd53 (n / d))
  | .cplx re _ =>
    match re with
    | .flt v => some v
    | .int n => some (rnd53 n)
    | .rat n d => some (rnd53 (n / d))
    | _ => none
  | _ => none

/-- `aIsInteger`. -/
def isInt : Ex → Bool
  | .int _ => true
  | _ => false

/-- ``E(S("Times"), 1, e)`` built at `atoms/order.go:107-111`. -/
def wrapTimes (e : Ex) : Ex := .expr [.sym "System`Times", .int 1, e]
/-- ``E(S("Power"), e, 1)`` built at `atoms/order.go:114-118`. -/
def wrapPower (e : Ex) : Ex := .expr [.sym "System`Power", e, .int 1]

/-- `atoms/order.go:141-148`: first nonzero comparison of corresponding parts. The comparison is a
parameter (the recursive call); `none` stands for a call that has not returned. -/
def lexLoop (cmp : Ex → Ex → Option Int) : List Ex → List Ex → Option Int
  | a :: as, b :: bs =>
    match cmp a b with
    | none => none
    | some o => if o ≠ 0 then some o else lexLoop cmp as bs
  | _, _ => some 0

/-- `atoms/order.go:150-162`, on the reversed part lists: first nonzero comparison from the back,
skipping pairs of numbers. -/
def backLoop (cmp : Ex → Ex → Option Int) : List Ex → List Ex → Option Int
  | a :: as, b :: bs =>
    if a.numberQ && b.numberQ then backLoop cmp as bs
    else
      match cmp a b with
      | none => none
      | some o => if o ≠ 0 then some o else backLoop cmp as bs
  | _, _ => some 0

/-- `atoms/order.go:163-171`: first nonzero comparison from the front of pairs of numbers. -/
def numLoop (cmp : Ex → Ex → Option Int) : List Ex → List Ex → Option Int
  | a :: as, b :: bs =>
    if a.numberQ && b.numberQ then
      match cmp a b with
      | none => none
      | some o => if o ≠ 0 then some o else numLoop cmp as bs
    else numLoop cmp as bs
  | _, _ => some 0

/-- `atoms/order.go:172-178`. -/
def lenCmp (as bs : List Ex) : Int :=
  if as.length < bs.length then 1 else if as.length > bs.length then -1 else 0

/-- `atoms/order.go:135-149` (neither wrapping case, not both `Times`). -/
def cmpPlain (cmp : Ex → Ex → Option Int) (as bs : List Ex) : Option Int :=
  if as.length < bs.length then some 1
  else if as.length > bs.length then some (-1)
  else lexLoop cmp as bs

/-- `atoms/order.go:150-178` (both operands are `Times` expressions). -/
def cmpTimes (cmp : Ex → Ex → Option Int) (as bs : List Ex) : Option Int :=
  match backLoop cmp as.reverse bs.reverse with
  | none => none
  | some o =>
    if o ≠ 0 then some o
    else
      match numLoop cmp as bs with
      | none => none
      | some o => if o ≠ 0 then some o else some (lenCmp as bs)

/-- One activation of `ExOrder` (`atoms/order.go:45-264`) with the recursive calls as a parameter. -/
def exOrderStep (cmp : Ex → Ex → Option Int) (a b : Ex) : Option Int :=
  match a, b with
  | .int x, .int y => some (cmpInt y x)                                    -- 65-67
  | a, b =>
    match toFlt a, toFlt b with
    | some x, some y =>                                                   -- 89-98
      let initCmp := cmpRat y x
      if initCmp = 0 ∧ (isInt a = true ∧ isInt b = false) then some 1
      else if initCmp = 0 ∧ (isInt a = false ∧ isInt b = true) then some (-1)
      else some initCmp
    | fa, fb =>
      match a, b with
      | .expr as, .expr bs =>                                             -- 101-179
        let aIsPow := a.hasHead "System`Power"
        let bIsPow := b.hasHead "System`Power"
        let aIsTimes := a.hasHead "System`Times"
        let bIsTimes := b.hasHead "System`Times"
        if !aIsTimes && bIsTimes then cmp (wrapTimes a) b
        else if aIsPow && !bIsPow then cmp a (wrapPower b)
        else if !bIsTimes && aIsTimes then cmp a (wrapTimes b)
        else if !aIsPow && bIsPow then cmp (wrapPower a) b
        else if aIsTimes && bIsTimes then cmpTimes cmp as bs
        else cmpPlain cmp as bs
      | .sym x, .sym y => some (compareStrings x y)                       -- 182-184
      | .str x, .str y => some (compareStrings x y)                       -- 185-187
      | .str _, .sym _ => some 1                                          -- 204-206
      | .str _, .expr _ => some 1                                         -- 207-209
      | .sym _, .str _ => some (-1)                                       -- 214-216
      | .sym _, .expr _ =>                                                -- 217-235
        if b.hasHead "System`Power" then cmp (wrapPower a) b
        else if b.hasHead "System`Times" then cmp (wrapTimes a) b
        else some 1
      | .expr _, .str _ => some (-1)                                      -- 240-242
      | .expr _, .sym _ =>                                                -- 243-261
        if a.hasHead "System`Power" then cmp a (wrapPower b)
        else if a.hasHead "System`Times" then cmp a (wrapTimes b)
        else some (-1)
      | .str _, _ => if fb.isSome then some (-1) else some (-2)           -- 201-203, 263
      | .sym _, _ => if fb.isSome then some (-1) else some (-2)           -- 211-213, 263
      | .expr _, _ => if fb.isSome then some (-1) else some (-2)          -- 237-239, 263
      | _, .str _ => if fa.isSome then some 1 else some (-2)              -- 191-193, 263
      | _, .sym _ => if fa.isSome then some 1 else some (-2)              -- 194-196, 263
      | _, .expr _ => if fa.isSome then some 1 else some (-2)             -- 197-199, 263
      | _, _ => some (-2)                                                 -- 263

/-- `ExOrder` run with at most `fuel` nested activations; `none` if it has not returned. -/
def exOrderF : Nat → Ex → Ex → Option Int
  | 0, _, _ => none
  | fuel + 1, a, b => exOrderStep (exOrderF fuel) a b

/-- `ExOrder` (`atoms/order.go:45-264`). Theorem `C02_exOrder_terminates` shows that the
depth allowed here always suffices, so the default value is never used. -/
def exOrder (a b : Ex) : Int := (exOrderF (2 * (a.size + b.size)) a b).getD 0

/-- `Expression.Less` on two arguments (`atoms/ex_expression.go:209-211`). -/
def exLess (a b : Ex) : Bool := exOrder a b == 1

end Expreduce
