import Verif.Model.HashCache

/-!
# What an expression object holds (specification)

The content of a value is found by following the pointers; the stored fingerprints play no part in it.
-/

namespace Expreduce
namespace Fc

/-- The content of a value, following at most `f` pointers. -/
def content : Nat → Heap → V → Option Ex
  | 0, _, _ => none
  | _ + 1, _, .atom e => some e
  | f + 1, h, .ref n =>
    match h[n]? with
    | none => none
    | some o => (o.parts.mapM (content f h)).map Ex.expr

/-- `e` is what one sees when one looks at `v`. -/
def Content (h : Heap) (v : V) (e : Ex) : Prop := ∃ f, content f h v = some e

/-- The object `n` can be reached from the value. -/
inductive Leads (h : Heap) (n : Nat) : V → Prop
  | here : Leads h n (.ref n)
  | into {m : Nat} {o : Obj} {v : V} : h[m]? = some o → v ∈ o.parts → Leads h n v → Leads h n (.ref m)

/-- No object that has a fingerprint stored in it contains `n`, and `n` itself has none. -/
def Free (h : Heap) (n : Nat) : Prop := ∀ (m : Nat) (o : Obj), Leads h n (.ref m) → h[m]? = some o → o.print = 0

/-- The value is an atom or an object that exists. -/
def Exists (h : Heap) : V → Prop
  | .atom _ => True
  | .ref n => n < h.length

/-- The caller's care: objects are put together from what exists, and an object is changed only while it is free. Nothing is asked of
the other methods. -/
def Careful (h : Heap) : Op → Prop
  | .new vs => ∀ v ∈ vs, Exists h v
  | .append n v => Free h n ∧ Exists h v
  | .appendAll n vs => Free h n ∧ ∀ v ∈ vs, Exists h v
  | .setParts n vs => Free h n ∧ ∀ v ∈ vs, Exists h v
  | .setPart n _ v => Free h n ∧ Exists h v
  | .swap n _ _ => Free h n
  | .replacePD env _ => ∀ s d, env s = some d → Exists h d
  | _ => True

/-- The heaps after any sequence of calls made with care, starting from nothing. -/
inductive Reached : Heap → Prop
  | start : Reached []
  | step {h h' : Heap} {op : Op} (f : Nat) : Reached h → Careful h op → perform f h op = some h' → Reached h'

/-- The stored fingerprints are those of the contents. -/
def Right (h : Heap) : Prop :=
  ∀ (n : Nat) (o : Obj), h[n]? = some o → o.print ≠ 0 → ∃ e, Content h (.ref n) e ∧ o.print = hash e

mutual
/-- The expression with the names replaced by their values. -/
def replaced (σ : String → Option Ex) : Ex → Ex
  | .expr ps => .expr (replacedParts σ ps)
  | .sym s => (σ s).getD (.sym s)
  | e => e
/-- The same for a list. -/
def replacedParts (σ : String → Option Ex) : List Ex → List Ex
  | [] => []
  | p :: ps => replaced σ p :: replacedParts σ ps
end

/-- The values of the names have the contents `σ`. -/
def Values (h : Heap) (env : String → Option V) (σ : String → Option Ex) : Prop :=
  ∀ s, (env s = none ∧ σ s = none) ∨ ∃ d e, env s = some d ∧ σ s = some e ∧ Content h d e

/-- Two heaps with the same objects, except for the stored fingerprints. -/
def Alike (h h' : Heap) : Prop := h'.map Obj.parts = h.map Obj.parts

end Fc
end Expreduce
