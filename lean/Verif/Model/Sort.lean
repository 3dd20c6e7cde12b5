import Verif.Model.Order

/-!
# Sorting of expression arguments

`Sort` (`builtin_sort.go:14-27`) and the `Orderless` step of the evaluator (`eval.go:196-205`) call the Go library function
`sort.Sort` on the expression, which implements `sort.Interface` by `Len`, `Less` and `Swap`
(`atoms/ex_expression.go:205-215`) over the arguments (the head is not moved).

The library is used through its documented contract: the result is reached by swaps, hence a permutation, and
if `Less` is a strict weak order on the elements no element is `Less` than an earlier one. `sort.Sort`
is not stable. For at most 12 elements the library runs an insertion sort, given below.
-/

namespace Expreduce

/-- `less` is a strict weak order on the elements of `xs` (the requirement of `sort.Sort`). -/
def StrictWeakOn (less : Ex → Ex → Bool) (xs : List Ex) : Prop :=
  (∀ a ∈ xs, less a a = false) ∧
  (∀ a ∈ xs, ∀ b ∈ xs, ∀ c ∈ xs, less a b = true → less b c = true → less a c = true) ∧
  (∀ a ∈ xs, ∀ b ∈ xs, ∀ c ∈ xs, less a b = false → less b a = false →
    less b c = false → less c b = false → less a c = false ∧ less c a = false)

/-- Contract of the library call `sort.Sort`: `ys` is a possible result on `xs`. -/
def SortContract (less : Ex → Ex → Bool) (xs ys : List Ex) : Prop :=
  ys.Perm xs ∧ (StrictWeakOn less xs → ys.Pairwise (fun a b => less b a = false))

/-- `e'` is a possible outcome of sorting the arguments of the expression `e` with
`Less` (`atoms/ex_expression.go:205-215`, called at `builtin_sort.go:23`, `eval.go:203`). -/
def SortsTo (e e' : Ex) : Prop :=
  ∃ h as as', e = .expr (h :: as) ∧ e' = .expr (h :: as') ∧ SortContract exLess as as'

/-- Inner loop of the library insertion sort (`sort.insertionSort`), on the reversed sorted prefix: swap
`x` leftwards while `Less(x, previous)`. -/
def insertR (less : Ex → Ex → Bool) (x : Ex) : List Ex → List Ex
  | [] => [x]
  | y :: ys => if less x y then y :: insertR less x ys else x :: y :: ys

/-- `sort.Sort` on at most 12 elements. -/
def insertionSort (less : Ex → Ex → Bool) (xs : List Ex) : List Ex :=
  (xs.foldl (fun acc x => insertR less x acc) []).reverse

end Expreduce
