import Mathlib.Data.Rat.Defs

/-!
# The expression tree

Model of the Go interface `expreduceapi.Ex` and of its seven implementations.
-/

namespace Expreduce

/-- Model of `expreduceapi.Ex` (`/repo/pkg/expreduceapi/cas.go:23-31`) by its implementations:
`*Symbol` (`atoms/ex_symbol.go:14-17`), `*String` (`atoms/ex_string.go:10-12`),
`*Integer` (`atoms/ex_integer.go:12-15`), `*Rational` (`atoms/ex_rational.go:12-16`),
`*Flt` (`atoms/ex_real.go:16-18`), `*Complex` (`atoms/ex_complex.go:11-15`),
`*Expression` (`atoms/ex_expression.go:12-18`).

Simplifications: pointers are values (aliasing is modelled separately where a property needs it);
the caches `cachedHash`, `EvaledHash`, `needsEval` are dropped; a `big.Float` is its (finite)
rational value: infinities and the sign of zero are not modelled. `expr` carries the whole `Parts`
slice, head first, and the slice may be empty, as in Go. -/
inductive Ex where
  | sym (name : String)
  | str (val : String)
  | int (val : Int)
  | rat (num den : Int)
  | flt (val : Rat)
  | cplx (re im : Ex)
  | expr (parts : List Ex)
deriving Inhabited, Repr

namespace Ex

mutual
/-- Decidable structural equality of expressions (used by the model wherever the code asks whether two
expressions are the same tree). -/
def decEq : (a b : Ex) → Decidable (a = b)
  | .sym x, .sym y => if h : x = y then isTrue (h ▸ rfl) else isFalse (fun e => h (Ex.sym.inj e))
  | .str x, .str y => if h : x = y then isTrue (h ▸ rfl) else isFalse (fun e => h (Ex.str.inj e))
  | .int x, .int y => if h : x = y then isTrue (h ▸ rfl) else isFalse (fun e => h (Ex.int.inj e))
  | .rat n d, .rat n' d' =>
    if h : n = n' ∧ d = d' then isTrue (by rw [h.1, h.2])
    else isFalse (fun e => h (Ex.rat.inj e))
  | .flt x, .flt y => if h : x = y then isTrue (h ▸ rfl) else isFalse (fun e => h (Ex.flt.inj e))
  | .cplx r i, .cplx r' i' =>
    match decEq r r', decEq i i' with
    | isTrue h1, isTrue h2 => isTrue (by rw [h1, h2])
    | isFalse h1, _ => isFalse (fun e => h1 (Ex.cplx.inj e).1)
    | _, isFalse h2 => isFalse (fun e => h2 (Ex.cplx.inj e).2)
  | .expr ps, .expr qs =>
    match decEqL ps qs with
    | isTrue h => isTrue (by rw [h])
    | isFalse h => isFalse (fun e => h (Ex.expr.inj e))
  | .sym _, .str _ | .sym _, .int _ | .sym _, .rat _ _ | .sym _, .flt _ | .sym _, .cplx _ _
  | .sym _, .expr _ | .str _, .sym _ | .str _, .int _ | .str _, .rat _ _ | .str _, .flt _
  | .str _, .cplx _ _ | .str _, .expr _ | .int _, .sym _ | .int _, .str _ | .int _, .rat _ _
  | .int _, .flt _ | .int _, .cplx _ _ | .int _, .expr _ | .rat _ _, .sym _ | .rat _ _, .str _
  | .rat _ _, .int _ | .rat _ _, .flt _ | .rat _ _, .cplx _ _ | .rat _ _, .expr _
  | .flt _, .sym _ | .flt _, .str _ | .flt _, .int _ | .flt _, .rat _ _ | .flt _, .cplx _ _
  | .flt _, .expr _ | .cplx _ _, .sym _ | .cplx _ _, .str _ | .cplx _ _, .int _
  | .cplx _ _, .rat _ _ | .cplx _ _, .flt _ | .cplx _ _, .expr _ | .expr _, .sym _
  | .expr _, .str _ | .expr _, .int _ | .expr _, .rat _ _ | .expr _, .flt _ | .expr _, .cplx _ _ =>
    isFalse (fun e => by cases e)
/-- Decidable equality of part lists. -/
def decEqL : (a b : List Ex) → Decidable (a = b)
  | [], [] => isTrue rfl
  | [], _ :: _ => isFalse (fun e => by cases e)
  | _ :: _, [] => isFalse (fun e => by cases e)
  | a :: as, b :: bs =>
    match decEq a b, decEqL as bs with
    | isTrue h1, isTrue h2 => isTrue (by rw [h1, h2])
    | isFalse h1, _ => isFalse (fun e => h1 (List.cons.inj e).1)
    | _, isFalse h2 => isFalse (fun e => h2 (List.cons.inj e).2)
end

instance : DecidableEq Ex := decEq

/-- Induction over expressions with the hypothesis for every part. -/
theorem ind {P : Ex → Prop} (hsym : ∀ s, P (.sym s)) (hstr : ∀ s, P (.str s)) (hint : ∀ n, P (.int n))
    (hrat : ∀ n d, P (.rat n d)) (hflt : ∀ v, P (.flt v)) (hcplx : ∀ r i, P r → P i → P (.cplx r i))
    (hexpr : ∀ ps, (∀ p ∈ ps, P p) → P (.expr ps)) (e : Ex) : P e :=
  Ex.rec (motive_1 := P) (motive_2 := fun ps => ∀ p ∈ ps, P p) hsym hstr hint hrat hflt hcplx hexpr
    (by simp) (fun a as ha has => by
      intro p hp
      rcases List.mem_cons.1 hp with rfl | h
      · exact ha
      · exact has p h) e

mutual
/-- Number of nodes. Not a Go function: a measure used in statements and proofs. -/
def size : Ex → Nat
  | .sym _ | .str _ | .int _ | .rat _ _ | .flt _ => 1
  | .cplx r i => 1 + size r + size i
  | .expr ps => 1 + sizeL ps
/-- Sum of the sizes of the parts. -/
def sizeL : List Ex → Nat
  | [] => 0
  | p :: ps => size p + sizeL ps
end

theorem size_pos (e : Ex) : 0 < size e := by cases e <;> simp [size] <;> omega

theorem size_le_sizeL {p : Ex} {ps : List Ex} (h : p ∈ ps) : size p ≤ sizeL ps := by
  induction ps with
  | nil => simp at h
  | cons a as ih =>
    rcases List.mem_cons.1 h with rfl | h
    · simp [sizeL]
    · have := ih h; simp [sizeL]; omega

/-- The symbol ``System`name`` (`atoms.S`, `atoms/ex_symbol.go:283-285`). -/
def S (name : String) : Ex := .sym ("System`" ++ name)

/-- `HeadAssertion(ex, head)` (`atoms/ex_expression.go:22-33`), returning only the boolean. On an
expression with no parts the Go code panics; every caller in the model guards for that or notes it. -/
def hasHead (head : String) : Ex → Bool
  | .expr (.sym s :: _) => s == head
  | _ => false

/-- `NumberQ` (`atoms/qfunctions.go:5-20`). -/
def numberQ : Ex → Bool
  | .int _ | .flt _ | .rat _ _ | .cplx _ _ => true
  | _ => false

end Ex
end Expreduce
