import Verif.Model.Ex

/-! Specification vocabulary for the canonical order. -/

namespace Expreduce

/-- int, rational or real -/
def realNum : Ex → Bool
  | .int _ | .rat _ _ | .flt _ => true
  | _ => false

/-- Every complex number in the expression has an integer, rational or real as its real part (all
complex numbers produced by evaluation are of this form). -/
inductive Good : Ex → Prop
  | sym (s) : Good (.sym s)
  | str (s) : Good (.str s)
  | int (n) : Good (.int n)
  | rat (n d) : Good (.rat n d)
  | flt (v) : Good (.flt v)
  | cplx (re im) : realNum re = true → Good (.cplx re im)
  | expr (ps : List Ex) : (∀ p ∈ ps, Good p) → Good (.expr ps)

/-- `Good`, and the bare symbol ``System`Times`` occurs inside the expression only in head position, never as an
argument. -/
inductive HeadOnly : Ex → Prop
  | sym (s) : HeadOnly (.sym s)
  | str (s) : HeadOnly (.str s)
  | int (n) : HeadOnly (.int n)
  | rat (n d) : HeadOnly (.rat n d)
  | flt (v) : HeadOnly (.flt v)
  | cplx (re im) : realNum re = true → HeadOnly (.cplx re im)
  | expr (ps : List Ex) : (∀ p ∈ ps, HeadOnly p) → (∀ p ∈ ps.tail, p ≠ .sym "System`Times") → HeadOnly (.expr ps)

/-- Mathematical value of an integer, rational or real number. -/
def realVal : Ex → Option Rat
  | .int n => some n
  | .rat n d => some (n / d)
  | .flt v => some v
  | _ => none

end Expreduce
