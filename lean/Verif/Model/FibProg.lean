import Verif.Model.AssignProg

/-!
# `Fibonacci` (`/repo/expreduce/resources/numbertheory.m:258-261`)

It is defined by rules and remembers its values: `Fibonacci[n_] := Fibonacci[n] = Fibonacci[n - 1] + Fibonacci[n - 2]`.
-/

namespace Expreduce
open Ex
namespace AssignProg

/-- The name of the function. -/
def fibSym : String := "System`Fibonacci"
/-- The name of the parameter, as read in the context of the resource files. -/
def fibVar : String := "Private`n"

/-- A call (`numbertheory.m:258-260`). -/
def fibCall (e : Ex) : Ex := .expr [.sym fibSym, e]

/-- The right side of the general definition (`numbertheory.m:260`). -/
def fibBody : Ex :=
  .expr [S "Set", fibCall (.sym fibVar), .expr [S "Plus", fibCall (minusEx (.sym fibVar) (.int 1)), fibCall (minusEx (.sym fibVar) (.int 2))]]

/-- The stored general definition. -/
def fibGeneral : DV := { lhs := held (fibCall (argP fibVar)), rhs := fibBody }

/-- The attributes (`numbertheory.m:261`). -/
def fibAttrs : Attrs := { listable := true, numericFunction := true, prot := true, readProtected := true }

/-- The entry as shipped (`numbertheory.m:258-261`): `Fibonacci[0] = 0; Fibonacci[1] = 1;` and the general definition. -/
def fibEntry : DefM :=
  { downvalues := [{ lhs := held (fibCall (.int 0)), rhs := .int 0 }, { lhs := held (fibCall (.int 1)), rhs := .int 1 }, fibGeneral], attrs := fibAttrs }

end AssignProg
end Expreduce
