import Verif.Model.Ex
import Mathlib.Data.List.OfFn

/-! Vocabulary for arrays. -/

namespace Expreduce
open Ex

/-- `e` is a full array of calls of `h` with the dimensions `ds` whose entries are no calls of `h`. -/
def IsArray (h : Ex) : List Nat → Ex → Prop
  | [], e => ∀ as, e ≠ .expr (h :: as)
  | n :: ds, e => ∃ as, e = .expr (h :: as) ∧ as.length = n ∧ (n = 0 → ds = []) ∧ ∀ a ∈ as, IsArray h ds a

/-- The list of the entries. -/
def vectorEx {n : Nat} (v : Fin n → Ex) : Ex := .expr (S "List" :: List.ofFn v)

/-- The list of the rows. -/
def matrixEx {m n : Nat} (A : Fin m → Fin n → Ex) : Ex := .expr (S "List" :: List.ofFn (fun i => vectorEx (A i)))

/-- What can be chosen for an argument: the arguments of a call of `d`, otherwise the argument itself. -/
def options (d : Ex) (a : Ex) : List Ex :=
  match a with
  | .expr (h :: as) => if h = d then as else [a]
  | a => [a]

/-- All ways to choose one element from each list, the choice from the last list varying fastest. -/
def choices : List (List Ex) → List (List Ex)
  | [] => [[]]
  | c :: cs => c.flatMap (fun x => (choices cs).map (x :: ·))

end Expreduce
