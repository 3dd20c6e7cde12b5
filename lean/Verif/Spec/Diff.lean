import Verif.Spec.Standard
import Verif.Model.DiffRules
import Mathlib.Analysis.Calculus.Deriv.Basic

/-!
# Derivatives

Values of an expression as a function of one of its symbols.
-/

namespace Expreduce
open Ex

/-- A property that holds on an open dense set of complex numbers holds mostly. -/
def mostly : Filter ℂ where
  sets := {s | Dense (interior s)}
  univ_sets := by simp
  sets_of_superset := fun h hst => h.mono (interior_mono hst)
  inter_sets := fun {s t} hs ht => by
    simp only [Set.mem_setOf_eq, interior_inter] at *
    exact hs.inter_of_isOpen_left ht isOpen_interior

/-- The interpretation in which the symbol `x` stands for `z`. -/
def Interp.put (V : Interp) (x : String) (z : ℂ) : Interp := { V with sym := fun s => if s = x then some z else V.sym s }

/-- The elementary functions have their usual values, and none for a wrong number of arguments. -/
structure Interp.Elementary (V : Interp) : Prop extends V.Standard where
  arity : ∀ s ∈ ["System`Log", "System`Sqrt", "System`Sin", "System`Cos", "System`Tan", "System`Cot", "System`Sec", "System`Csc", "System`Sinh",
    "System`Cosh", "System`Coth", "System`Csch", "System`ArcTan"], ∀ l, l.length ≠ 1 → V.fn s l = none

/-- A symbol to differentiate by: not one of the constants. -/
def isVariable (x : String) : Prop :=
  x ∉ ["System`E", "System`Pi", "System`I", "System`Infinity", "System`ComplexInfinity", "System`Indeterminate"]

/-- The expression contains no call of `D`. -/
def noDiff (e : Ex) : Bool := (pieces e).all (fun a => !hasHead "System`D" a)

/-- `FreeQ[a, x]` evaluates to `True` only if `x` does not occur in `a`. -/
def FreeOk (truth : Ex → Bool) (x : String) : Prop := ∀ a, truth (.expr [S "FreeQ", a, .sym x]) = true → .sym x ∉ pieces a

/-- The table without the rules of `D`. -/
def withoutDiff (T : Table) : Table := fun s => if s = "System`D" then (T s).map (fun d => { d with downvalues := [] }) else T s

/-- The table has the usual attributes, default values and rules (see `StdTable`), and the rules of `D` are among those of
`Shipped.diffRules`. -/
structure DiffTable (V : Interp) (x : String) (T : Table) : Prop where
  std : ∀ z, StdTable (V.put x z) (withoutDiff T)
  plain : ∀ d, T "System`D" = some d → d.attrs.flat = false ∧ d.attrs.orderless = false ∧ d.attrs.oneIdentity = false ∧ d.dflt = none
  rules : ∀ d dv, T "System`D" = some d → dv ∈ d.downvalues → (dv.lhs, dv.rhs) ∈ Shipped.diffRules

/-- The expression is not constantly 0 on any open set. -/
def NotZero (V : Interp) (x : String) (a : Ex) : Prop := ∀ O : Set ℂ, IsOpen O → (∀ z ∈ O, (V.put x z).Denotes a 0) → O = ∅

/-- No derivative remains in the arguments of a function, and `D` is called to differentiate by `x`, and not on a power of something
that is constantly 0. -/
structure DiffCall (V : Interp) (x : String) (s : String) (e : Ex) : Prop where
  done : s ≠ "System`D" → noDiff e = true
  call : s = "System`D" → ∃ a, e = .expr [S "D", a, .sym x] ∧ noDiff a = true ∧ ∀ b c, a = .expr [S "Power", b, c] → NotZero V x b

end Expreduce
