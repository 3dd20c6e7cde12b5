import Verif.Spec.Lists
import Verif.Model.Eval

/-!
Specification vocabulary for C38 and C39: positions, levels and depths of subexpressions, iterates.
-/

namespace Expreduce
open Ex

mutual
/-- `Depth`: 1 for an atom, otherwise one more than the largest depth of an argument (2 if there are no arguments). -/
def depth : Ex → Nat
  | .expr ps => depthParts ps
  | .sym _ | .str _ | .int _ | .rat _ _ | .flt _ | .cplx _ _ => 1
/-- without the head -/
def depthParts : List Ex → Nat
  | [] => 2
  | _ :: as => 1 + depthArgs as
/-- the largest depth, at least 1 -/
def depthArgs : List Ex → Nat
  | [] => 1
  | a :: as => max (depth a) (depthArgs as)
end

mutual
/-- Bottom-up mapping: at every position for which `sel` holds (of the position, a list of argument numbers, and of the original
subexpression there) `F` is applied to the subexpression in which the positions below have been treated already. -/
def mapAt (sel : List Nat → Ex → Bool) (F : List Nat → Ex → Ex) (path : List Nat) (e : Ex) : Ex :=
  match e with
  | .expr ps => if sel path (.expr ps) then F path (.expr (mapAtParts sel F path ps)) else .expr (mapAtParts sel F path ps)
  | e => if sel path e then F path e else e
/-- the head is kept -/
def mapAtParts (sel : List Nat → Ex → Bool) (F : List Nat → Ex → Ex) (path : List Nat) : List Ex → List Ex
  | [] => []
  | h :: as => h :: mapAtArgs sel F path 1 as
/-- the arguments, numbered from `i` -/
def mapAtArgs (sel : List Nat → Ex → Bool) (F : List Nat → Ex → Ex) (path : List Nat) (i : Nat) : List Ex → List Ex
  | [] => []
  | a :: as => mapAt sel F (path ++ [i]) a :: mapAtArgs sel F path (i + 1) as
end

mutual
/-- The number of positions for which `sel` holds. -/
def countAt (sel : List Nat → Ex → Bool) (path : List Nat) (e : Ex) : Nat :=
  match e with
  | .expr ps => (if sel path (.expr ps) then 1 else 0) + countAtParts sel path ps
  | e => if sel path e then 1 else 0
/-- the head is not visited -/
def countAtParts (sel : List Nat → Ex → Bool) (path : List Nat) : List Ex → Nat
  | [] => 0
  | _ :: as => countAtArgs sel path 1 as
/-- the arguments, numbered from `i` -/
def countAtArgs (sel : List Nat → Ex → Bool) (path : List Nat) (i : Nat) : List Ex → Nat
  | [] => 0
  | a :: as => countAt sel (path ++ [i]) a + countAtArgs sel path (i + 1) as
end

/-- The meaning of a level specification `{m, n}`: a nonnegative number refers to the level (number of steps from the whole expression), a
negative one to the depth of the subexpression. -/
def inLevels (m n : Int) (path : List Nat) (e : Ex) : Bool :=
  (if 0 ≤ m then decide (m ≤ path.length) else decide ((depth e : Int) ≤ -m)) &&
    (if 0 ≤ n then decide (path.length ≤ n) else decide (-n ≤ (depth e : Int)))

/-- The level specifications with machine-size integers: `n` stands for `{1, n}` and `{n}` for `{n, n}`. -/
inductive LevelsAre : Ex → Int → Int → Prop
  | upTo {n : Int} : -2 ^ 63 < n → n < 2 ^ 63 → LevelsAre (.int n) 1 n
  | exactly {n : Int} : -2 ^ 63 < n → n < 2 ^ 63 → LevelsAre (.expr [S "List", .int n]) n n
  | range {m n : Int} : -2 ^ 63 < m → m < 2 ^ 63 → -2 ^ 63 < n → n < 2 ^ 63 → LevelsAre (.expr [S "List", .int m, .int n]) m n

/-- `e` with the head replaced; atoms stay. -/
def setHead (h : Ex) : Ex → Ex
  | .expr (_ :: as) => .expr (h :: as)
  | e => e

/-- A position as an expression. -/
def positionEx (p : List Nat) : Ex := .expr (S "List" :: p.map (fun (k : Nat) => Ex.int k))

/-- Whether an expression is compound. -/
def compound : Ex → Bool
  | .expr _ => true
  | _ => false

/-- `f^k` applied to `x`, unevaluated: `f[f[...f[x]]]`. -/
def nest (f : Ex) (x : Ex) : Nat → Ex
  | 0 => x
  | k + 1 => .expr [f, nest f x k]

/-- `f[...f[f[x, a₁], a₂]..., aₖ]`. -/
def folded (f : Ex) (x : Ex) (as : List Ex) : Ex := as.foldl (fun e a => .expr [f, e, a]) x

/-- `k` evaluations `x ↦ f[x]`, starting from `x`: state and value reached. -/
inductive Iterates (ev : Evaluator) (f : Ex) : Nat → EState → Ex → EState → Ex → Prop
  | zero (st : EState) (x : Ex) : Iterates ev f 0 st x st x
  | step {k : Nat} {st st1 st2 : EState} {x y z : Ex} : Iterates ev f k st x st1 y → ev st1 (.expr [f, y]) = .ok (st2, z) → Iterates ev f (k + 1) st x st2 z

/-- The tests `f[x]` are evaluated one after the other; the list says which of them gave `True`. -/
inductive Tests (ev : Evaluator) (f : Ex) : EState → List Ex → EState → List Bool → Prop
  | nil (st : EState) : Tests ev f st [] st []
  | cons {st st1 st2 : EState} {x v : Ex} {xs : List Ex} {bs : List Bool} : ev st (.expr [f, x]) = .ok (st1, v) → Tests ev f st1 xs st2 bs →
      Tests ev f st (x :: xs) st2 (decide (v = S "True") :: bs)

/-- The elements marked with `true`. -/
def chosen : List Ex → List Bool → List Ex
  | x :: xs, b :: bs => if b then x :: chosen xs bs else chosen xs bs
  | _, _ => []

/-- `f[x]` is evaluated for all elements in order, without a throw or a `Return`. -/
inductive ScanVisits (ev : Evaluator) (f : Ex) : EState → List Ex → EState → Prop
  | nil (st : EState) : ScanVisits ev f st [] st
  | cons {st st1 st2 : EState} {x v : Ex} {xs : List Ex} : ev st (.expr [f, x]) = .ok (st1, v) → st1.thrown = none → argsOf "System`Return" v = none →
      ScanVisits ev f st1 xs st2 → ScanVisits ev f st (x :: xs) st2

/-- One round of splicing: arguments with head `h` are replaced by their arguments. -/
def spliceOnce (h : Ex) (as : List Ex) : List Ex :=
  as.flatMap (fun a =>
    match a with
    | .expr (h' :: bs) => if h' = h then bs else [a]
    | a => [a])

end Expreduce
