import Verif.Model.Match

/-!
# What it means for an expression to match a pattern

A declarative relation, independent of the search done by the code: `Matches env ρ p a` says that under the bindings `ρ` of the
pattern names the expression `a` is an instance of the pattern `p`. Of the model it uses only the attribute tables (`MEnv`) and the
comparison `isSameQ`.
-/

namespace Expreduce
open Ex

/-- Not a compound expression. -/
def isAtom : Ex → Bool
  | .expr _ => false
  | _ => true

/-- `Head[a]`. -/
def headOf : Ex → Ex
  | .expr (h :: _) => h
  | .expr [] => .expr []
  | .sym _ => S "Symbol"
  | .str _ => S "String"
  | .int _ => S "Integer"
  | .rat _ _ => S "Rational"
  | .flt _ => S "Real"
  | .cplx _ _ => S "Complex"

/-- The parts a compound pattern sees: a rational is `Rational[n, d]`, a complex number is `Complex[re, im]`. -/
def partsOf : Ex → Option (List Ex)
  | .expr ps => some ps
  | .rat n d => some [S "Rational", .int n, .int d]
  | .cplx re im => some [S "Complex", re, im]
  | _ => none

/-- Heads that make a pattern a blank. -/
def blankHeads : List String := ["System`Blank", "System`BlankSequence", "System`BlankNullSequence"]

/-- Heads with a meaning of their own in patterns. -/
def specialHeads : List String := blankHeads ++ ["System`Pattern", "System`Repeated", "System`RepeatedNull", "System`Optional",
  "System`PatternTest", "System`Condition", "System`Alternatives", "System`Except", "System`HoldPattern"]

/-- The head test of a blank: `_`, or `_h` with `h` the same as the head of `a`. -/
def BlankAdmits (args : List Ex) (a : Ex) : Prop := ∀ h ∈ args.head?, isSameQ (headOf a) h = true

/-- How an argument pattern takes its arguments: how many, what each of them must match, the name it binds, whether a
single argument is bound bare, the head under which it is bound otherwise, and the value if there is no argument (`wrap[]` if none is
given). -/
structure Shape where
  lo : Int
  hi : Int
  elem : Ex
  name : Option String
  bare : Bool
  wrap : Ex
  absent : Option Ex

/-- No Go slice is longer. -/
def unlimited : Int := 2 ^ 63 - 1

/-- The shape of an argument pattern without name and test. Under a `Flat` head `h` a blank takes any positive number of
arguments, which are bound as `h[...]`; `_h` itself stands for at least two arguments, and `_k` for another symbol `k` for one. -/
def bodyShape (flat : Bool) (h : String) (p : Ex) : Shape :=
  let one : Shape := ⟨1, 1, p, none, false, S "Sequence", none⟩
  match p with
  | .expr (.sym s :: args) =>
    if s = "System`BlankNullSequence" then ⟨0, unlimited, .expr (S "Blank" :: args.take 1), none, false, S "Sequence", none⟩
    else if s = "System`BlankSequence" then ⟨1, unlimited, .expr (S "Blank" :: args.take 1), none, false, S "Sequence", none⟩
    else if s = "System`Blank" then
      if flat then
        match args with
        | .sym k :: _ => if k = h then ⟨2, unlimited, .expr [S "Blank"], none, false, .sym h, none⟩ else ⟨1, 1, p, none, false, .sym h, none⟩
        | _ => ⟨1, unlimited, p, none, false, .sym h, none⟩
      else ⟨1, 1, p, none, true, S "Sequence", none⟩
    else if s = "System`RepeatedNull" then
      match args with
      | [q] => ⟨0, unlimited, q, none, false, S "Sequence", none⟩
      | _ => one
    else if s = "System`Repeated" then
      match args with
      | [q] => ⟨1, unlimited, q, none, false, S "Sequence", none⟩
      | [q, .expr [.sym l, .int n]] => if l = "System`List" then ⟨n, n, q, none, false, S "Sequence", none⟩ else one
      | _ => one
    else one
  | _ => one

/-- The shape of an argument pattern with an optional name: `x : body`. -/
def namedShape (flat : Bool) (h : String) (p : Ex) : Shape :=
  match p with
  | .expr [.sym s, .sym x, body] =>
    if s = "System`Pattern" then { bodyShape flat h body with name := some x } else bodyShape flat h p
  | _ => bodyShape flat h p

/-- The shape of an argument pattern with an optional name and an optional test: `x : body ? test`. -/
def testShape (flat : Bool) (h : String) (p : Ex) : Shape :=
  match p with
  | .expr [.sym s, q, t] =>
    if s = "System`PatternTest" then
      { namedShape flat h q with elem := .expr [S "PatternTest", (namedShape flat h q).elem, t] }
    else namedShape flat h p
  | _ => namedShape flat h p

/-- `Blank[...]` -/
def isBlank : Ex → Bool
  | .expr (.sym s :: _) => s == "System`Blank"
  | _ => false

/-- The shape of an optional argument with default `d`, without name and test: it takes one argument or, if there is a default, none;
a blank without test under a `Flat` head takes any number. -/
def optBody (d : Option Ex) (flat : Bool) (h : String) (tested : Bool) (p : Ex) : Shape :=
  ⟨if d.isSome then 0 else 1, if flat && isBlank p && !tested then unlimited else 1, p, none, true,
    if flat && isBlank p then .sym h else S "Sequence", d⟩

/-- The shape of an optional argument with an optional name. -/
def optNamed (d : Option Ex) (flat : Bool) (h : String) (tested : Bool) (p : Ex) : Shape :=
  match p with
  | .expr [.sym s, .sym x, body] =>
    if s = "System`Pattern" then { optBody d flat h tested body with name := some x } else optBody d flat h tested p
  | _ => optBody d flat h tested p

/-- The shape of an optional argument with an optional name and an optional test. -/
def optShape (d : Option Ex) (flat : Bool) (h : String) (p : Ex) : Shape :=
  match p with
  | .expr [.sym s, q, t] =>
    if s = "System`PatternTest" then
      { optNamed d flat h true q with elem := .expr [S "PatternTest", (optNamed d flat h true q).elem, t] }
    else optNamed d flat h false p
  | _ => optNamed d flat h false p

/-- The shape of an argument pattern under the head `h` with the default value `d`: `p_.` takes the default of the head, `p_ : e`
has its own. -/
def shape (d : Option Ex) (flat : Bool) (h : String) (p : Ex) : Shape :=
  match p with
  | .expr (.sym s :: q :: rest) =>
    if s = "System`Optional" then optShape (rest.head?.or d) flat h q else testShape flat h p
  | _ => testShape flat h p

/-- The value a name gets for the arguments `xs`. -/
def Shape.value (sh : Shape) (oneIdentity : Bool) (xs : List Ex) : Ex :=
  match xs with
  | [] => sh.absent.getD (.expr [sh.wrap])
  | [x] => if sh.bare || oneIdentity then x else .expr [sh.wrap, x]
  | xs => .expr (sh.wrap :: xs)

/-- `Optional[...]` -/
def isOptional : Ex → Bool
  | .expr (.sym s :: _) => s == "System`Optional"
  | _ => false

/-- In the pattern `f[p1, ..., pk]` the head may be left out, so that `a` counts as `f[a]`: `f` is `OneIdentity` and has a default value,
one of the arguments is optional, and `a` is an atom or is headed by another symbol. -/
def headOmitted (env : MEnv) (ps : List Ex) (a : Ex) : Bool :=
  match ps with
  | .sym s :: qs => env.oneIdentity s && (env.dflt s).isSome && qs.any isOptional && match partsOf a with
    | none => true
    | some (.sym t :: _) => t != s
    | some _ => false
  | _ => false

/-- A number as the compound expression a pattern sees. -/
def opened (a : Ex) : Ex := ((partsOf a).map Ex.expr).getD a

/-- The argument positions `0..l-1` are shared out among the argument patterns: consecutive segments, or, under an `Orderless` head,
any way of sharing out (in increasing order within one pattern). -/
def Layout (orderless : Bool) (l : Nat) (A : List (List Nat)) : Prop :=
  if orderless then A.flatten.Perm (List.range l) ∧ ∀ is ∈ A, is.Pairwise (· < ·)
  else A.flatten = List.range l

/-- The outcome of the test in `p ? test` on `a`. -/
def TestHolds (env : MEnv) (t a : Ex) : Prop :=
  if t = S "NumberQ" then numberQ a = true else env.isTrue (.expr [t, a]) = true

/-- `Matches env ρ p a`: the expression `a` is an instance of the pattern `p` under the bindings `ρ`. -/
inductive Matches (env : MEnv) (ρ : String → Option Ex) : Ex → Ex → Prop
  /-- a literal -/
  | lit {p a} : isAtom p = true → isAtom a = true → isSameQ a p = true → Matches env ρ p a
  /-- `_`, `_h` -/
  | blank {s args a} : s ∈ blankHeads → BlankAdmits args a → Matches env ρ (.expr (.sym s :: args)) a
  /-- `x_`, `x_h`: the binding of `x` is the same as `a` -/
  | named {s args x v a} : s ∈ blankHeads → BlankAdmits args a → ρ x = some v → isSameQ v a = true →
      Matches env ρ (.expr [S "Pattern", .sym x, .expr (.sym s :: args)]) a
  /-- `f[p1, ..., pk]` against `f[a1, ..., al]` -/
  | same {s ps as a} (A : List (List Nat)) : s ∉ specialHeads → partsOf a = some (.sym s :: as) →
      A.length = ps.length → Layout (env.orderless s) as.length A →
      (∀ (j : Nat) p is, ps[j]? = some p → A[j]? = some is →
        (shape (env.dflt s) (env.flat s) s p).lo ≤ is.length ∧ (is.length : Int) ≤ (shape (env.dflt s) (env.flat s) s p).hi) →
      (∀ (j : Nat) p is (i : Nat) c, ps[j]? = some p → A[j]? = some is → i ∈ is → as[i]? = some c →
        Matches env ρ (shape (env.dflt s) (env.flat s) s p).elem c) →
      (∀ (j : Nat) p is x, ps[j]? = some p → A[j]? = some is → (shape (env.dflt s) (env.flat s) s p).name = some x →
        ∃ v, ρ x = some v ∧ isSameQ v ((shape (env.dflt s) (env.flat s) s p).value (env.oneIdentity s) (is.filterMap (as[·]?))) = true) →
      Matches env ρ (.expr (.sym s :: ps)) a
  /-- `h[p1, ..., pk]` against `g[a1, ..., al]` where `h` and `g` are not the same symbol: the heads must match too (`h` may be a
  pattern); attributes do not count -/
  | diff {ps as a} (A : List (List Nat)) : (∀ s, ps.head? = some (.sym s) → s ∉ specialHeads) → partsOf a = some as →
      (∀ s, ¬ (ps.head? = some (.sym s) ∧ as.head? = some (.sym s))) → headOmitted env ps a = false →
      A.length = ps.length → Layout false as.length A →
      (∀ (j : Nat) p is, ps[j]? = some p → A[j]? = some is →
        (shape (env.dflt "Sequence") false "Sequence" p).lo ≤ is.length ∧ (is.length : Int) ≤ (shape (env.dflt "Sequence") false "Sequence" p).hi) →
      (∀ (j : Nat) p is (i : Nat) c, ps[j]? = some p → A[j]? = some is → i ∈ is → as[i]? = some c →
        Matches env ρ (shape (env.dflt "Sequence") false "Sequence" p).elem c) →
      (∀ (j : Nat) p is x, ps[j]? = some p → A[j]? = some is → (shape (env.dflt "Sequence") false "Sequence" p).name = some x →
        ∃ v, ρ x = some v ∧ isSameQ v ((shape (env.dflt "Sequence") false "Sequence" p).value (env.oneIdentity "Sequence") (is.filterMap (as[·]?))) = true) →
      Matches env ρ (.expr ps) a
  /-- not an instance, but the code takes it for one: an atom whose fingerprint collides with that of the compound pattern (see C09) -/
  | clash {ps a} : isAtom a = true → partsOf a = none → (∀ s, ps.head? = some (.sym s) → s ∉ specialHeads) →
      headOmitted env ps a = false → isSameQ a (.expr ps) = true → Matches env ρ (.expr ps) a
  /-- `f[p1, ..., pk]` against `a`, taken as `f[a]` -/
  | assumed {s ps a} : s ∉ specialHeads → headOmitted env (.sym s :: ps) a = true →
      Matches env ρ (.expr (.sym s :: ps)) (.expr [.sym s, opened a]) → Matches env ρ (.expr (.sym s :: ps)) a
  /-- `Verbatim[f][p1, ..., pk]` against `f[a1, ..., al]`: the attributes of `f` do not count -/
  | verb {s ps as a} (A : List (List Nat)) : s ∉ specialHeads → partsOf a = some (.sym s :: as) → A.length = ps.length → Layout false as.length A →
      (∀ (j : Nat) p is, ps[j]? = some p → A[j]? = some is →
        (shape (env.dflt s) false s p).lo ≤ is.length ∧ (is.length : Int) ≤ (shape (env.dflt s) false s p).hi) →
      (∀ (j : Nat) p is (i : Nat) c, ps[j]? = some p → A[j]? = some is → i ∈ is → as[i]? = some c →
        Matches env ρ (shape (env.dflt s) false s p).elem c) →
      (∀ (j : Nat) p is x, ps[j]? = some p → A[j]? = some is → (shape (env.dflt s) false s p).name = some x →
        ∃ v, ρ x = some v ∧ isSameQ v ((shape (env.dflt s) false s p).value (env.oneIdentity s) (is.filterMap (as[·]?))) = true) →
      Matches env ρ (.expr (.expr [S "Verbatim", .sym s] :: ps)) a
  /-- possibly not an instance, but the code may take it for one: the fingerprint of the head collides with that of `f` (see C09) -/
  | verbClash {s h ps as a} : partsOf a = some (h :: as) → isSameQ h (.sym s) = true → h ≠ .sym s →
      Matches env ρ (.expr (.expr [S "Verbatim", .sym s] :: ps)) a
  /-- `p1 | p2 | ...` -/
  | alt {alts p a} : p ∈ alts → Matches env ρ p a → Matches env ρ (.expr (S "Alternatives" :: alts)) a
  /-- `p ? test` -/
  | test {p t a} : Matches env ρ p a → TestHolds env t a → Matches env ρ (.expr [S "PatternTest", p, t]) a
  /-- `HoldPattern[p]` -/
  | hold {p a} : Matches env ρ p a → Matches env ρ (.expr [S "HoldPattern", p]) a

mutual
/-- No machine real occurs in the expression (equality of reals is only approximate, see C07). -/
def noReal : Ex → Bool
  | .flt _ => false
  | .cplx re im => noReal re && noReal im
  | .expr ps => noRealL ps
  | _ => true
/-- No machine real occurs in the list. -/
def noRealL : List Ex → Bool
  | [] => true
  | p :: ps => noReal p && noRealL ps
end

mutual
/-- The patterns covered by the theorems, as patterns for one expression. -/
inductive EPat : Ex → Prop
  | atom {p} : isAtom p = true → EPat p
  | blank {s args} : s ∈ blankHeads → args.length ≤ 1 → EPat (.expr (.sym s :: args))
  | named {s args} (x) : s ∈ blankHeads → args.length ≤ 1 → EPat (.expr [S "Pattern", .sym x, .expr (.sym s :: args)])
  /-- `f[p1, ..., pk]`, `k ≥ 1` -/
  | app {s ps} : s ∉ specialHeads → ps ≠ [] → (∀ p ∈ ps, APat p) → EPat (.expr (.sym s :: ps))
  /-- `h[p1, ..., pk]` where `h` is a pattern for one expression, not a symbol -/
  | appE {h ps} : (∀ s, h ≠ .sym s) → hasHead "System`Verbatim" h = false → EPat h → (testShape false "Sequence" h).hi = 1 →
      (∀ p ∈ ps, APat p) → EPat (.expr (h :: ps))
  /-- `Verbatim[f][p1, ..., pk]`, `k ≥ 1` -/
  | verb {s ps} : s ∉ specialHeads → ps ≠ [] → (∀ p ∈ ps, APat p) → EPat (.expr (.expr [S "Verbatim", .sym s] :: ps))
  | alt {alts} : (∀ p ∈ alts, EPat p) → EPat (.expr (S "Alternatives" :: alts))
  | test {p} (t) : EPat p → EPat (.expr [S "PatternTest", p, t])
  | hold {p} : EPat p → EPat (.expr [S "HoldPattern", p])
/-- Patterns for a sequence of arguments, without name and test. -/
inductive BPat : Ex → Prop
  | elem {p} : EPat p → BPat p
  | rep {p} : EPat p → BPat (.expr [S "Repeated", p])
  | repN {p} (n : Nat) : EPat p → (n : Int) ≤ unlimited → BPat (.expr [S "Repeated", p, .expr [S "List", .int n]])
  | repNull {p} : EPat p → BPat (.expr [S "RepeatedNull", p])
/-- Patterns for a sequence of arguments, with optional name and test. -/
inductive APat : Ex → Prop
  | body {p} : BPat p → APat p
  | named {p} (x) : BPat p → APat (.expr [S "Pattern", .sym x, p])
  | test {p} (t) : BPat p → APat (.expr [S "PatternTest", p, t])
  | namedTest {p} (x t) : BPat p → APat (.expr [S "PatternTest", .expr [S "Pattern", .sym x, p], t])
  /-- `p_.` -/
  | opt {p} : OPat p → APat (.expr [S "Optional", p])
  /-- `p_ : d` -/
  | optD {p} (d) : OPat p → noReal d = true → APat (.expr [S "Optional", p, d])
/-- Patterns for an optional argument, with optional name and test. -/
inductive OPat : Ex → Prop
  | body {p} : EPat p → OPat p
  | named {p} (x) : EPat p → OPat (.expr [S "Pattern", .sym x, p])
  | test {p} (t) : EPat p → OPat (.expr [S "PatternTest", p, t])
  | namedTest {p} (x t) : EPat p → OPat (.expr [S "PatternTest", .expr [S "Pattern", .sym x, p], t])
end

/-- No default value of a function contains a machine real. -/
class MEnv.Exact (env : MEnv) : Prop where
  exact : ∀ s d, env.dflt s = some d → noReal d = true

mutual
/-- Every compound subexpression has a head (`{}`-headed nodes cannot be built by the parser). -/
def wellFormed : Ex → Bool
  | .cplx re im => wellFormed re && wellFormed im
  | .expr ps => !ps.isEmpty && wellFormedL ps
  | _ => true
/-- The same for a list. -/
def wellFormedL : List Ex → Bool
  | [] => true
  | p :: ps => wellFormed p && wellFormedL ps
end

/-- The expression has no named subpattern. -/
def nameFree (p : Ex) : Bool := !containsSymbol "System`Pattern" p

/-- `p ? test` with `p` without names, or with a name only at the top. -/
def testBodyOk (q : Ex) : Bool :=
  nameFree q || (hasHead "System`Pattern" q && match q with
    | .expr (_ :: _ :: body) => body.all nameFree
    | _ => false)

/-- The condition of `committed` at one node. -/
def committedHere : List Ex → Bool
  | .sym s :: args =>
    if s = "System`Alternatives" then args.all nameFree
    else if s = "System`PatternTest" then args.head?.all testBodyOk
    else true
  | h :: _ => !hasHead "System`Verbatim" h
  | [] => true

mutual
/-- Alternatives and tested patterns bind no names inside (a name around the tested pattern is fine): for these the code keeps only
the first way of matching. The head `Verbatim[f]` does not occur. -/
def committed : Ex → Bool
  | .expr ps => committedHere ps && committedL ps
  | _ => true
/-- The same for a list. -/
def committedL : List Ex → Bool
  | [] => true
  | p :: ps => committed p && committedL ps
end

/-- The head is a symbol other than `Rational`, `Complex` and `Optional`. -/
def plainHead : List Ex → Bool
  | .sym s :: _ => s != "System`Optional" && !isSameQ (S "Rational") (.sym s) && !isSameQ (S "Complex") (.sym s)
  | _ => false

mutual
/-- Every compound subexpression has a symbol other than `Rational`, `Complex` and `Optional` as its head. -/
def plainHeads : Ex → Bool
  | .expr ps => plainHead ps && plainHeadsL ps
  | _ => true
/-- The same for a list. -/
def plainHeadsL : List Ex → Bool
  | [] => true
  | p :: ps => plainHeads p && plainHeadsL ps
end

mutual
/-- No rational or complex number occurs. -/
def quotFree : Ex → Bool
  | .rat _ _ => false
  | .cplx _ _ => false
  | .expr ps => quotFreeL ps
  | _ => true
/-- The same for a list. -/
def quotFreeL : List Ex → Bool
  | [] => true
  | p :: ps => quotFree p && quotFreeL ps
end

end Expreduce
