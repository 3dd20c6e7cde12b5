import Verif.Model.Eval

/-!
# Evaluation of expression objects (`/repo/expreduce/eval.go`, `/repo/expreduce/matcher/pdreplace.go`)

In the Go code an expression is a pointer; `evalExpression` writes the values of the parts into the expression it is called with, and leaves a mark
(`EvaledHash`) on the expression it returns. `Verif.Model.Eval` ignores this; here is the fragment of the evaluator in which it can be seen.

The fragment: symbols with values; symbols with one rule `f[x1_, ..., xk_] := rhs`; heads without attributes and built-in functions. No `Sequence`,
`Return`, `Throw`. A fingerprint is represented by the content (no collisions, no stale `CachedHash`).
-/

namespace Expreduce
open Ex

/-- A value of the interface `Ex`: an atom (immutable here) or a pointer to an expression. -/
inductive Val where
  | atom (e : Ex)
  | ref (a : Nat)
deriving DecidableEq

/-- `atoms.Expression` (`atoms/ex_expression.go:12-18`): the parts, and the fingerprint `EvaledHash`. -/
structure Node where
  parts : List Val
  mark : Option Ex := none
deriving DecidableEq

/-- A rule for `f[x1_, ..., xk_]`: the names and the right side. -/
structure FnRule where
  params : List String
  rhs : Val
deriving DecidableEq

/-- The heap and the definitions. -/
structure OState where
  heap : List Node
  own : String → Option Val := fun _ => none
  rules : String → Option FnRule := fun _ => none

/-- The content of a value; the number bounds the depth. -/
def readF (h : List Node) : Nat → Val → Option Ex
  | _, .atom e => some e
  | 0, .ref _ => none
  | n + 1, .ref a => (h[a]?).bind (fun nd => (nd.parts.mapM (readF h n)).map .expr)

/-- The content of a value (what is hashed); `none` for a cyclic or dangling one. -/
def content (h : List Node) (v : Val) : Option Ex := readF h (h.length + 1) v

/-- The mark of a value. -/
def markOf (h : List Node) (a : Nat) : Option Ex := (h[a]?).bind Node.mark

/-- The value of a part. -/
def partOf (h : List Node) (a i : Nat) : Option Val := (h[a]?).bind (fun nd => nd.parts[i]?)

/-- The number of parts. -/
def lenOf (h : List Node) (a : Nat) : Nat := ((h[a]?).map (fun nd => nd.parts.length)).getD 0

/-- `curr.EvaledHash = currExHash` (`eval.go:273`). -/
def setMark (h : List Node) (a : Nat) (c : Ex) : List Node := h.modify a (fun nd => { nd with mark := some c })

/-- `curr.GetParts()[i] = v` (`eval.go:146`). -/
def setPart (h : List Node) (a i : Nat) (v : Val) : List Node := h.modify a (fun nd => { nd with parts := nd.parts.set i v })

/-- `es.Eval` on objects. -/
abbrev OEval := OState → Val → Res (OState × Val)

/-- The loop over the parts (`eval.go:126-163`). -/
def evalPartsO (ev : OEval) (a : Nat) : List Nat → OState → Res OState
  | [], s => .ok s
  | i :: is, s =>
    match partOf s.heap a i with
    | none => .panic
    | some v => (ev s v).bind (fun r => evalPartsO ev a is { r.1 with heap := setPart r.1.heap a i r.2 })

mutual
/-- `ContainsSymbol` (`atoms/assertions.go`, called at `pdreplace.go:53`). -/
def containsSym (x : String) : Ex → Bool
  | .sym s => s == x
  | .expr ps => containsSymL x ps
  | _ => false
/-- `ContainsSymbol` for the parts. -/
def containsSymL (x : String) : List Ex → Bool
  | [] => false
  | p :: ps => containsSym x p || containsSymL x ps
end

/-- The replacement of one part after another, with the heap handed on. -/
def mapHeap (f : List Node → Val → Option (List Node × Val)) : List Node → List Val → Option (List Node × List Val)
  | h, [] => some (h, [])
  | h, v :: vs => (f h v).bind (fun r => (mapHeap f r.1 vs).map (fun q => (q.1, r.2 :: q.2)))

/-- The value of a name (`pdreplace.go:14-21`). -/
def bound (b : List (String × Val)) (s : String) : Option Val := b.lookup s

/-- `replacePDInternal(expr.Copy(), pm)` (`pdreplace.go:8-40, 64`): a new object for every expression in `expr`; the values of the names are not copied.
Simplification: the marks are dropped everywhere (the code drops them where a name occurs, and copies them elsewhere). -/
def substCopy (b : List (String × Val)) : Nat → List Node → Val → Option (List Node × Val)
  | _, h, .atom (.sym s) => some (h, (bound b s).getD (.atom (.sym s)))
  | _, h, .atom e => some (h, .atom e)
  | 0, _, .ref _ => none
  | n + 1, h, .ref a =>
    (h[a]?).bind (fun nd => (mapHeap (substCopy b n) h nd.parts).map (fun r => (r.1 ++ [{ parts := r.2 }], .ref r.1.length)))

/-- Whether one of the names occurs (`pdreplace.go:51-57`). -/
def mentionsAny (h : List Node) (names : List String) (v : Val) : Bool :=
  match content h v with
  | some c => names.any (fun x => containsSym x c)
  | none => false

/-- `ReplacePD` (`pdreplace.go:43-66`): without any of the names in the right side, the stored object itself. -/
def instantiate (h : List Node) (b : List (String × Val)) (v : Val) : Option (List Node × Val) :=
  if mentionsAny h (b.map Prod.fst) v then substCopy b (h.length + 1) h v else some (h, v)

/-- `GetDef` for an expression (`evalstate.go:328-358`) with a rule of the form above. -/
def ruleFor (s : OState) (a : Nat) : Option (FnRule × List Val) :=
  match s.heap[a]? with
  | some { parts := .atom (.sym f) :: args, .. } =>
    match s.rules f with
    | some r => if r.params.length = args.length then some (r, args) else none
    | none => none
  | _ => none

/-- The loop of `evalExpression` (`eval.go:57-276`). -/
def objLoop (ev : OEval) : Nat → OState → Option Ex → Val → Res (OState × Val)
  | 0, _, _, _ => .stuck
  | _ + 1, s, _, .atom e => ev s (.atom e)
  | k + 1, s, last, .ref a =>
    match content s.heap (.ref a) with
    | none => .stuck
    | some c =>
      if last = some c then .ok ({ s with heap := setMark s.heap a c }, .ref a)
      else if markOf s.heap a = some c then .ok (s, .ref a)
      else
        (evalPartsO ev a (List.range (lenOf s.heap a)) s).bind (fun s' =>
          match ruleFor s' a with
          | none => objLoop ev k s' (some c) (.ref a)
          | some (r, args) =>
            match instantiate s'.heap (r.params.zip args) r.rhs with
            | none => .stuck
            | some (h, v) => objLoop ev k { s' with heap := h } (some c) v)

/-- `Eval` (`eval.go:20-35`, `evalSymbol`: `eval.go:312-334`). -/
def evalO : Nat → OEval
  | 0, _, _ => .stuck
  | n + 1, s, .ref a => objLoop (evalO n) (n + 1) s none (.ref a)
  | n + 1, s, .atom (.sym x) =>
    match s.own x with
    | none => .ok (s, .atom (.sym x))
    | some d => if d = .atom (.sym x) then .ok (s, d) else evalO n s d
  | _ + 1, s, .atom e => .ok (s, .atom e)

end Expreduce
