import Verif.Model.Ex
import Verif.Model.SameQ
import Verif.Model.Match

/-! Specification vocabulary for the list functions. -/

namespace Expreduce
open Ex

/-- No expression without a head occurs in `e`. -/
def Headed (e : Ex) : Prop := ∀ p, p = e ∨ p ∈ subs e → p ≠ .expr []
where
  /-- all proper subexpressions -/
  subs : Ex → List Ex
    | .expr ps => subsL ps
    | _ => []
  /-- the parts and their subexpressions -/
  subsL : List Ex → List Ex
    | [] => []
    | p :: ps => p :: subs p ++ subsL ps

/-- The fingerprints of the expressions are different if the expressions are. -/
def Separated (l : List Ex) : Prop := ∀ a ∈ l, ∀ b ∈ l, hash a = hash b → a = b

/-- Elements `a`, ..., `b` of the list, counted from 1. -/
def slice (xs : List Ex) (a b : Nat) : List Ex := (xs.take b).drop (a - 1)

/-- `e[[is]]` selects `w`: an integer takes that part (0: the head), `a ;; b`, `a ;; All` and `All` take a range of elements and apply the remaining
indices to each of them. -/
inductive PartIs : Ex → List Ex → Ex → Prop
  | nil (e : Ex) : PartIs e [] e
  | elem {ps : List Ex} {k : Nat} {v w : Ex} {is : List Ex} : ps[k]? = some v → PartIs v is w → PartIs (.expr ps) (.int k :: is) w
  | span {f : Ex} {xs : List Ex} {a b : Nat} {is : List Ex} {g : Ex → Ex} : 1 ≤ a → a ≤ xs.length + 1 → b ≤ xs.length →
      (∀ x ∈ slice xs a b, PartIs x is (g x)) → PartIs (.expr (f :: xs)) (.expr [S "Span", .int a, .int b] :: is) (.expr (f :: (slice xs a b).map g))
  | toEnd {f : Ex} {xs : List Ex} {a : Nat} {is : List Ex} {g : Ex → Ex} : 1 ≤ a → a ≤ xs.length + 1 → (∀ x ∈ xs.drop (a - 1), PartIs x is (g x)) →
      PartIs (.expr (f :: xs)) (.expr [S "Span", .int a, S "All"] :: is) (.expr (f :: (xs.drop (a - 1)).map g))
  | all {f : Ex} {xs : List Ex} {is : List Ex} {g : Ex → Ex} : (∀ x ∈ xs, PartIs x is (g x)) →
      PartIs (.expr (f :: xs)) (S "All" :: is) (.expr (f :: xs.map g))

/-- All argument lists in `e` are shorter than 2⁶³. -/
def SmallParts (e : Ex) : Prop := ∀ ps, (.expr ps = e ∨ .expr ps ∈ Headed.subs e) → ps.length < 2 ^ 63

/-- `xs` extended on the right to length `n` with `x`, or its first `n` elements. -/
def padRight (xs : List Ex) (n : Nat) (x : Ex) : List Ex := xs.take n ++ List.replicate (n - xs.length) x

/-- `xs` extended on the left to length `n` with `x`, or its last `n` elements. -/
def padLeft (xs : List Ex) (n : Nat) (x : Ex) : List Ex := List.replicate (n - xs.length) x ++ xs.drop (xs.length - n)

/-- `l'` keeps exactly the first occurrence of every element of `l`, in the order of `l`. -/
def FirstOccurrences (l l' : List Ex) : Prop := (∀ x, x ∈ l' ↔ x ∈ l) ∧ l'.Pairwise (fun x y => l.idxOf x < l.idxOf y)

end Expreduce
