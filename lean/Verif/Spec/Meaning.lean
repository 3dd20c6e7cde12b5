import Verif.Spec.Replace

/-!
# The meaning of expressions

An interpretation gives every function an operation and every atom a value in some domain. The value of an expression is computed
bottom up; `Sequence[...]` among arguments stands for its elements.
-/

namespace Expreduce
open Ex

/-- An interpretation in the domain `A`. -/
structure Meaning (A : Type _) where
  atom : Ex → A
  op : String → List A → A

namespace Meaning
variable {A : Type _} (M : Meaning A)

mutual
/-- The values an expression contributes as an argument: its value, or those of its elements if it is `Sequence[...]`. -/
def argVals : Ex → List A
  | .expr (.sym s :: as) => if s = "System`Sequence" then vals as else [M.op s (vals as)]
  | .rat n d => [M.op "System`Rational" [M.atom (.int n), M.atom (.int d)]]
  | .cplx re im => [M.op "System`Complex" (argVals re ++ argVals im)]
  | e => [M.atom e]
/-- The values of a list of arguments. -/
def vals : List Ex → List A
  | [] => []
  | e :: es => argVals e ++ vals es
end

/-- The value of an expression. -/
def val : Ex → A
  | .expr (.sym s :: as) => M.op s (M.vals as)
  | .rat n d => M.op "System`Rational" [M.atom (.int n), M.atom (.int d)]
  | .cplx re im => M.op "System`Complex" (M.argVals re ++ M.argVals im)
  | e => M.atom e

/-- The interpretation of the function `s` agrees with its attributes: nested calls of a `Flat` function can be merged, the order of the
arguments of an `Orderless` function does not count, `f[x]` is `x` for a `OneIdentity` function, and the default value can be left out
at the end. -/
structure Lawful (env : MEnv) (s : String) : Prop where
  flat : env.flat s = true → ∀ xs ys zs, M.op s (xs ++ M.op s ys :: zs) = M.op s (xs ++ (ys ++ zs))
  comm : env.orderless s = true → ∀ xs ys, xs.Perm ys → M.op s xs = M.op s ys
  one : env.oneIdentity s = true → ∀ x, M.op s [x] = x
  dflt : ∀ d, env.dflt s = some d → ∀ xs, M.op s (xs ++ M.argVals d) = M.op s xs

end Meaning

/-- The name in `x : p`. -/
def coreName : Ex → Option String
  | .expr [.sym s, .sym x, _] => if s = "System`Pattern" then some x else none
  | _ => none

/-- The name in `x : p` or `x : p ? test`. -/
def testName (p : Ex) : Option String :=
  match p with
  | .expr [.sym s, q, _] => if s = "System`PatternTest" then coreName q else coreName p
  | _ => coreName p

/-- The name of an argument pattern: the `x` of `x : p`, `x : p ? test`, `x_.` and `x_ : d`. -/
def argName (p : Ex) : Option String :=
  match p with
  | .expr (.sym s :: q :: _) => if s = "System`Optional" then testName q else testName p
  | _ => testName p

mutual
/-- The pattern with every named part replaced by the value of its name. -/
def fill (ρ : String → Option Ex) (p : Ex) : Ex :=
  match argName p with
  | some x => (ρ x).getD (.sym x)
  | none =>
    match p with
    | .expr (.sym s :: ps) =>
      if s = "System`PatternTest" ∨ s = "System`HoldPattern" then
        match ps with
        | q :: _ => fill ρ q
        | [] => p
      else .expr (.sym s :: fillL ρ ps)
    | .expr (.expr [.sym v, .sym s] :: ps) => if v = "System`Verbatim" then .expr (.sym s :: fillL ρ ps) else p
    | p => p
/-- The same for a list. -/
def fillL (ρ : String → Option Ex) : List Ex → List Ex
  | [] => []
  | p :: ps => fill ρ p :: fillL ρ ps
end

/-- Not `p_ : d` with a default value of its own. -/
def noOwnDefault : Ex → Bool
  | .expr (.sym s :: _ :: _ :: _) => s != "System`Optional"
  | _ => true

/-- The patterns covered: every blank has a name, and only an `Orderless` function has an optional argument that is not the last one;
optional arguments have the default value of the function. `L` are the functions that may occur. -/
inductive FPat (env : MEnv) (L : String → Prop) : Ex → Prop
  | atom {p} : isAtom p = true → FPat env L p
  | named {s args} (x) : s ∈ blankHeads → FPat env L (.expr [S "Pattern", .sym x, .expr (.sym s :: args)])
  | test {p} (t) : FPat env L p → FPat env L (.expr [S "PatternTest", p, t])
  | hold {p} : FPat env L p → FPat env L (.expr [S "HoldPattern", p])
  | app {s ps} : L s → s ∉ specialHeads → s ≠ "System`Sequence" → (∀ p ∈ ps, noOwnDefault p = true) → (∀ p ∈ ps, argName p = none → FPat env L p) →
      (env.orderless s = true ∨ ∀ p ∈ ps.dropLast, isOptional p = false) → FPat env L (.expr (.sym s :: ps))
  | verb {s ps} : L s → s ∉ specialHeads → s ≠ "System`Sequence" → (∀ p ∈ ps, noOwnDefault p = true) → (∀ p ∈ ps, argName p = none → FPat env L p) →
      (∀ p ∈ ps.dropLast, isOptional p = false) → FPat env L (.expr (.expr [S "Verbatim", .sym s] :: ps))

mutual
/-- The named argument patterns of the calls in a pattern, with the head of the call and whether it is `Verbatim`. -/
def namedArgs (p : Ex) : List (Bool × String × Ex) :=
  match p with
  | .expr (.sym s :: ps) =>
    if s = "System`PatternTest" ∨ s = "System`HoldPattern" then
      match ps with
      | q :: _ => namedArgs q
      | [] => []
    else if s = "System`Pattern" then []
    else namedArgsL false s ps
  | .expr (.expr [.sym v, .sym s] :: ps) => if v = "System`Verbatim" then namedArgsL true s ps else []
  | _ => []
/-- The same for the arguments of a call. -/
def namedArgsL (v : Bool) (s : String) : List Ex → List (Bool × String × Ex)
  | [] => []
  | p :: ps => (match argName p with
    | some _ => [(v, s, p)]
    | none => namedArgs p) ++ namedArgsL v s ps
end

/-- How the argument pattern of a call takes its arguments. -/
def callShape (env : MEnv) (v : Bool) (s : String) (p : Ex) : Shape := shape (env.dflt s) (env.flat s && !v) s p

/-- The head required by `_h` or `_h ? test`. -/
def blankHead : Ex → Option Ex
  | .expr [.sym s, h] => if s = "System`Blank" then some h else none
  | .expr [.sym s, .expr [.sym s', h], _] => if s = "System`PatternTest" ∧ s' = "System`Blank" then some h else none
  | _ => none

/-- The name of the argument pattern `p` is bound to a run of arguments of the right length, each of which matches and has the property
`P`. -/
def Taken (env : MEnv) (P : Ex → Prop) (ρ : String → Option Ex) (v : Bool) (s : String) (p : Ex) : Prop :=
  ∃ x cs, argName p = some x ∧ ρ x = some ((callShape env v s p).value (env.oneIdentity s) cs) ∧
    (callShape env v s p).lo ≤ cs.length ∧ (cs.length : Int) ≤ (callShape env v s p).hi ∧
    ∀ c ∈ cs, P c ∧ hasHead "System`Sequence" c = false ∧ Matches env ρ (callShape env v s p).elem c ∧
      ∀ h, blankHead (callShape env v s p).elem = some h → headOf c = h

/-- In the comparisons made while matching `p` against an expression, different expressions have different fingerprints: `U` are the
expressions that are matched, `T` those that are compared. -/
structure Distinct (env : MEnv) (L : String → Prop) (P : Ex → Prop) (U T : Ex → Prop) : Prop where
  inj : ∀ u w, T u → T w → isSameQ u w = true → u = w
  whole : ∀ a, U a → T a
  head : ∀ a, U a → T (headOf a)
  noSeq : ∀ a, U a → hasHead "System`Sequence" a = false
  part : ∀ a as, U a → partsOf a = some as → ∀ x ∈ as, U x
  headSym : ∀ a h as, U a → partsOf a = some (h :: as) → ∃ t, h = .sym t
  group : ∀ a h as cs, U a → partsOf a = some (h :: as) → cs.Sublist as → T (.expr (h :: cs)) ∧ T (.expr (S "Sequence" :: cs))
  omitted : ∀ a s cs, U a → L s → cs.Sublist [opened a] → T (.expr (.sym s :: cs)) ∧ T (.expr (S "Sequence" :: cs))
  opened : ∀ a, U a → U (opened a)
  pat : ∀ q, P q → T q
  dflt : ∀ s d, L s → env.dflt s = some d → T d

mutual
/-- The expression, its parts, their parts and so on, with numbers opened. -/
def pieces : Ex → List Ex
  | .expr ps => .expr ps :: piecesL ps
  | .rat n d => [.rat n d, opened (.rat n d), S "Rational", .int n, .int d]
  | .cplx re im => .cplx re im :: opened (.cplx re im) :: S "Complex" :: (pieces re ++ pieces im)
  | e => [e]
/-- The same for a list. -/
def piecesL : List Ex → List Ex
  | [] => []
  | p :: ps => pieces p ++ piecesL ps
end

/-- No two different expressions that are compared while matching `e` against `p`, with the functions `heads` in `p`, have the same
fingerprint. -/
def ClashFree (env : MEnv) (heads : List String) (p e : Ex) (ρ : String → Option Ex) : Prop :=
  ∃ T, Distinct env (· ∈ heads) (· ∈ subexprs p) (· ∈ pieces e) T ∧ ∀ x v, ρ x = some v → T v

/-- The two sides of the rule `lhs -> rhs` have related values for all bindings of the names of `lhs` to expressions with `P` that are
possible there. -/
def SoundRule {A : Type _} (M : Meaning A) (R : A → A → Prop) (env : MEnv) (P : Ex → Prop) (locals : Ex → Option Ex) (lhs rhs : Ex) : Prop :=
  ∀ ρ res, (∀ t ∈ namedArgs lhs, Taken env P ρ t.1 t.2.1 t.2.2) → OnlyNames ρ lhs → Yields env locals (subst ρ rhs) res →
    R (M.val (fill ρ lhs)) (M.val res)

/-- The expressions built from the expression `a` with the parts `h, as` by leaving out arguments. -/
def groupsOf (a : Ex) : List Ex :=
  match partsOf a with
  | some (h :: as) => as.sublists.flatMap (fun cs => [.expr (h :: cs), .expr (S "Sequence" :: cs)])
  | _ => []

/-- The expressions compared while matching `e` against `p`, with the values `vs` of the names of `p`. -/
def comparedList (env : MEnv) (heads : List String) (p e : Ex) (vs : List Ex) : List Ex :=
  pieces e ++ (pieces e).map headOf ++ (pieces e).flatMap groupsOf ++
    heads.flatMap (fun s => (pieces e).flatMap (fun a => [.expr [.sym s, opened a], .expr [S "Sequence", opened a]]) ++
      [.expr [.sym s], .expr [S "Sequence"]]) ++
    subexprs p ++ heads.filterMap env.dflt ++ vs

/-- The head is a symbol. -/
def symHead : Ex → Bool
  | .expr (.sym _ :: _) => true
  | .expr _ => false
  | _ => true

/-- A check for `ClashFree`. -/
def clashFreeB (env : MEnv) (heads : List String) (p e : Ex) (vs : List Ex) : Bool :=
  (pieces e).all (fun a => !hasHead "System`Sequence" a && symHead a) &&
    (comparedList env heads p e vs).all (fun u => (comparedList env heads p e vs).all (fun w => !isSameQ u w || decide (u = w)))

end Expreduce
