import Verif.Model.SameQ

/-!
# Stored fingerprints (`/repo/expreduce/atoms/ex_expression.go`)

An expression is a pointer to an object with a list of parts and a field `CachedHash`; the method `Hash` answers with this field if it is
not zero, whatever the parts are now. `Verif.Model.SameQ` computes fingerprints from the content and so does not see this field. Here
are the methods that read, fill, copy and clear it, and those that change the parts, on a heap of objects.

Simplification: the atoms are immutable and their fingerprints are computed each time (`ex_integer.go:70-80` and `ex_symbol.go:252-261`
store them, and the only two methods that change an integer clear the stored one).
-/

namespace Expreduce
namespace Fc
open Ex

/-- A value of the interface `Ex`: an atom or a pointer to an expression. -/
inductive V where
  | atom (e : Ex)
  | ref (n : Nat)
deriving DecidableEq

/-- `atoms.Expression` (`atoms/ex_expression.go:12-18`): the fields `Parts` and `CachedHash`; zero means that nothing is stored. -/
structure Obj where
  parts : List V
  print : UInt64 := 0
deriving DecidableEq

/-- The objects made so far. -/
abbrev Heap := List Obj

/-- A loop over the parts that calls a method on each. -/
def each {α : Type} (f : Heap → V → Option (α × Heap)) : Heap → List V → Option (List α × Heap)
  | h, [] => some ([], h)
  | h, v :: vs =>
    match f h v with
    | none => none
    | some (a, h1) =>
      match each f h1 vs with
      | none => none
      | some (as, h2) => some (a :: as, h2)

/-- `atomic.StoreUint64(&thisExpr.CachedHash, ...)` (`atoms/ex_expression.go:244`). -/
def store (h : Heap) (n : Nat) (c : UInt64) : Heap := h.modify n fun o => { o with print := c }

/-- `Hash` (`atoms/ex_expression.go:233-246`). The number bounds the depth of the calls. -/
def hashOf : Nat → Heap → V → Option (UInt64 × Heap)
  | 0, _, _ => none
  | _ + 1, h, .atom e => some (hash e, h)
  | f + 1, h, .ref n =>
    match h[n]? with
    | none => none
    | some o =>
      if o.print ≠ 0 then some (o.print, h)
      else
        match each (hashOf f) h o.parts with
        | none => none
        | some (cs, h1) =>
          let c := fnv1a ([72, 5, 244, 86, 5, 210, 69, 30] ++ cs.flatMap le64)
          some (c, store h1 n c)

/-- `IsSameQ` (`atoms/sameq.go:12-27`): two reals are compared by value, everything else by `Hash`. -/
def same (f : Nat) (h : Heap) (a b : V) : Option (Bool × Heap) :=
  match a, b with
  | .atom x, .atom y => some (isSameQ x y, h)
  | a, b =>
    match hashOf f h a with
    | none => none
    | some (c, h1) =>
      match hashOf f h1 b with
      | none => none
      | some (d, h2) => some (c == d, h2)

/-- Changing the field `Parts` and nothing else: what the following five methods have in common. -/
def edit (h : Heap) (n : Nat) (g : List V → List V) : Heap := h.modify n fun o => { o with parts := g o.parts }

/-- `AppendEx` (`atoms/ex_expression.go:217-219`). -/
def appendEx (h : Heap) (n : Nat) (v : V) : Heap := edit h n fun ps => ps ++ [v]

/-- `AppendExArray` (`atoms/ex_expression.go:221-223`). -/
def appendExArray (h : Heap) (n : Nat) (vs : List V) : Heap := edit h n fun ps => ps ++ vs

/-- `SetParts` (`atoms/ex_expression.go:304-306`). -/
def setParts (h : Heap) (n : Nat) (vs : List V) : Heap := edit h n fun _ => vs

/-- `GetParts()[i] = v`. -/
def setPart (h : Heap) (n i : Nat) (v : V) : Heap := edit h n fun ps => ps.set i v

/-- `Swap` (`atoms/ex_expression.go:213-215`). -/
def swap (h : Heap) (n i j : Nat) : Heap :=
  edit h n fun ps =>
    match ps[i + 1]?, ps[j + 1]? with
    | some a, some b => (ps.set (j + 1) a).set (i + 1) b
    | _, _ => ps

/-- `ClearHashes` (`atoms/ex_expression.go:308-311`), without the field `EvaledHash`. -/
def clear (h : Heap) (n : Nat) : Heap := store h n 0

/-- `NewExpression` (`atoms/ex_expression.go:256-262`). -/
def new (h : Heap) (vs : List V) : V × Heap := (.ref h.length, h ++ [{ parts := vs }])

/-- `DeepCopy` (`atoms/ex_expression.go:169-179`), and `Copy` (`192-203`), which differs from it only for atoms. The new object is
entered in the heap after its parts, not before. -/
def deepCopy : Nat → Heap → V → Option (V × Heap)
  | 0, _, _ => none
  | _ + 1, h, .atom e => some (.atom e, h)
  | f + 1, h, .ref n =>
    match h[n]? with
    | none => none
    | some o =>
      match each (deepCopy f) h o.parts with
      | none => none
      | some (vs, h1) => some (.ref h1.length, h1 ++ [{ parts := vs, print := o.print }])

/-- `ShallowCopy` (`atoms/ex_expression.go:181-190`). -/
def shallowCopy (h : Heap) (n : Nat) : Option (V × Heap) :=
  match h[n]? with
  | none => none
  | some o => some (.ref h.length, h ++ [o])

/-- The loop over the parts of `replacePDInternal` (`matcher/pdreplace.go:25-36`); the part `i` is read when its turn comes. -/
def substParts (rec : Heap → V → Option ((V × Bool) × Heap)) (n : Nat) (h : Heap) (dirty : Bool) : List Nat → Option (Bool × Heap)
  | [] => some (dirty, h)
  | i :: is =>
    match (h[n]?).bind (fun o => o.parts[i]?) with
    | none => none
    | some p =>
      match rec h p with
      | none => none
      | some ((q, d), h1) => substParts rec n (setPart (if d then clear h1 n else h1) n i q) (dirty || d) is

/-- `replacePDInternal` (`matcher/pdreplace.go:8-40`), with the second result, whether something was replaced. The table of the names is
a function. (`V.atom (.expr ..)` is no atom.) -/
def substIn (env : String → Option V) : Nat → Heap → V → Option ((V × Bool) × Heap)
  | 0, _, _ => none
  | _ + 1, h, .atom e =>
    match e with
    | .sym s =>
      match env s with
      | some d => some ((d, true), h)
      | none => some ((.atom e, false), h)
    | .expr _ => none
    | _ => some ((.atom e, false), h)
  | f + 1, h, .ref n =>
    match h[n]? with
    | none => none
    | some o =>
      match substParts (substIn env f) n h false (List.range o.parts.length) with
      | none => none
      | some (d, h1) => some ((.ref n, d), h1)

/-- `ReplacePD` (`matcher/pdreplace.go:45-66`) of an expression that contains one of the names: the last two lines. (If it contains none it is
given back as it is.) -/
def replacePD (f : Nat) (env : String → Option V) (h : Heap) (v : V) : Option (V × Heap) :=
  match deepCopy f h v with
  | none => none
  | some (v', h1) => (substIn env f h1 v').map fun r => (r.1.1, r.2)

/-- One call of a method. -/
inductive Op where
  | new (vs : List V)
  | hash (v : V)
  | same (a b : V)
  | append (n : Nat) (v : V)
  | appendAll (n : Nat) (vs : List V)
  | setParts (n : Nat) (vs : List V)
  | setPart (n i : Nat) (v : V)
  | swap (n i j : Nat)
  | clear (n : Nat)
  | deepCopy (v : V)
  | shallowCopy (n : Nat)
  | replacePD (env : String → Option V) (v : V)

/-- The heap after the call. -/
def perform (f : Nat) (h : Heap) : Op → Option Heap
  | .new vs => some (new h vs).2
  | .hash v => (hashOf f h v).map (·.2)
  | .same a b => (same f h a b).map (·.2)
  | .append n v => some (appendEx h n v)
  | .appendAll n vs => some (appendExArray h n vs)
  | .setParts n vs => some (setParts h n vs)
  | .setPart n i v => some (setPart h n i v)
  | .swap n i j => some (swap h n i j)
  | .clear n => some (clear h n)
  | .deepCopy v => (deepCopy f h v).map (·.2)
  | .shallowCopy n => (shallowCopy h n).map (·.2)
  | .replacePD env v => (replacePD f env h v).map (·.2)

/-- The loop of `evalExpression` over the parts, for one part, after `es.Eval` has left the heap `h` with the value `v`
(`eval.go:143-151`): `old` is the fingerprint of the part before. -/
def argStep (f : Nat) (h : Heap) (n i : Nat) (old : UInt64) (v : V) : Option Heap :=
  let h1 := setPart h n i v
  match hashOf f h1 v with
  | none => none
  | some (c, h2) => some (if old ≠ c then clear h2 n else h2)

/-- `extremaFunction` (`builtin_comparison.go:18-68`) called for `Min` by `evalExpression` (`eval.go:202-205`) on the object `n`,
when it has at least two arguments, the first is not a number and none is a list. The caller has sorted the arguments and set `CachedHash` to zero;
they are taken to be in order, so nothing moves. With no lists among them `flattenExpr` puts the same arguments into `dst`. If
`IsSameQ` finds `this` and `dst` different, the list `dst` takes the place of `this` (it is in order, too). No argument before the first is a number, so the
expression itself is returned. The answer is the object returned. -/
def minFn (f : Nat) (h : Heap) (n : Nat) : Option (V × Heap) :=
  match h[n]? with
  | none => none
  | some o =>
    let h0 := store h n 0
    let h1 := setPart h0 n 0 (.atom (S "List"))
    let (dst, h2) := new h1 (.atom (S "List") :: o.parts.drop 1)
    match same f h2 (.ref n) dst with
    | none => none
    | some (true, h3) => some (.ref n, setPart h3 n 0 (.atom (S "Min")))
    | some (false, h3) => some (dst, setPart h3 (h1.length) 0 (.atom (S "Min")))

/-- The loop of `evalExpression` (`eval.go:52, 185-270`) on such an expression, when its arguments are values and there are no rules for it: it goes round until the
fingerprint of the expression stays the same (`last` is that of the round before). -/
def minLoop (f : Nat) : Nat → UInt64 → Heap → V → Option (V × Heap)
  | 0, _, _, _ => none
  | g + 1, last, h, v =>
    match hashOf f h v with
    | none => none
    | some (c, h1) =>
      if c = last then some (v, h1)
      else
        match v with
        | .atom _ => none
        | .ref n =>
          match minFn f h1 n with
          | none => none
          | some (v', h2) => minLoop f g c h2 v'

end Fc
end Expreduce
