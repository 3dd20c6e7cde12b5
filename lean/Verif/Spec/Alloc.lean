import Verif.Model.Alloc

/-! Specification of allocations and assignments of arguments to pattern elements. -/

namespace Expreduce

/-- `a` gives each form a number of arguments within its bounds, `l` in total. -/
def IsAllocation (forms : List ParsedForm) (l : Nat) (a : List Int) : Prop :=
  List.Forall₂ (fun f n => f.startI ≤ n ∧ n ≤ f.endI) forms a ∧ a.sum = l

/-- `A` assigns to each form a list of argument positions: the right number for the form, all positions `0..l-1` used exactly once,
positions compatible with their form and in increasing order within a form. -/
def IsAssignment (forms : List ParsedForm) (fm : List (List Bool)) (l : Nat) (A : List (List Nat)) : Prop :=
  List.Forall₂ (fun (f : ParsedForm) (b : List Nat) => f.startI ≤ (b.length : Int) ∧ (b.length : Int) ≤ f.endI) forms A ∧
  A.flatten.Perm (List.range l) ∧
  ∀ (j : Nat) (b : List Nat), A[j]? = some b → b.Pairwise (· < ·) ∧ ∀ x ∈ b, (fm[j]?.getD [])[x]?.getD false = true

end Expreduce
