import Verif.Model.Defs
import Verif.Model.NumTheory

/-!
# Some more builtin functions

`MatchQ`, `ReplaceList`, `DownValues`, `Default`, `Prime`, `PrimePi`, `SeedRandom`, `RandomReal`, `Pause`.

A function gives `none` where the Go code panics. The library for prime numbers, the random number generator and the clock are parameters.
-/

namespace Expreduce
open Ex

/-- `MatchQ` (`builtin_pattern.go:31-43`); `ps` are the arguments. -/
def matchQFn (env : MEnv) (n : Nat) (ps : List Ex) : Option Ex :=
  match ps with
  | [e, p] => (isMatchQ env n e p []).map (fun r => if r.1 then S "True" else S "False")
  | _ => some (.expr (S "MatchQ" :: ps))

/-- The loop of `ReplaceList` (`builtin_pattern.go:129-143`): one entry for every result of the iterator. -/
def replaceListLoop (env : MEnv) (n : Nat) (e l r : Ex) : Option (List Ex) :=
  (matchF env n e l []).map (fun m => m.1.map (replacePD r))

/-- `ReplaceList` (`builtin_pattern.go:112-146`); `ps` are the arguments. A rule with fewer than two parts makes the code panic. -/
def replaceListFn (env : MEnv) (n : Nat) (ps : List Ex) : Option Ex :=
  match ps with
  | [e, rule] =>
    match argsOf "System`Rule" rule with
    | none => some (.expr (S "ReplaceList" :: ps))
    | some (l :: r :: _) => (replaceListLoop env n e l r).map (fun xs => .expr (S "List" :: xs))
    | some _ => none
  | _ => some (.expr (S "ReplaceList" :: ps))

/-- Part 1 of the left side of a stored rule (`builtin_system.go:462`); `none`: the index or the type assertion fails. -/
def lhsPart : Ex → Option Ex
  | .expr (_ :: p :: _) => some p
  | _ => none

/-- A compound expression. -/
def isCompound : Ex → Bool
  | .expr _ => true
  | _ => false

/-- The loop of `DownValues` (`builtin_system.go:461-471`). -/
def listRules : List DV → Option (List Ex)
  | [] => some []
  | dv :: dvs =>
    match lhsPart dv.lhs with
    | none => none
    | some p => (listRules dvs).map (fun r => if isCompound p then .expr [S "RuleDelayed", dv.lhs, dv.rhs] :: r else r)

/-- `DownValues[s]` (`builtin_system.go:443-474`). -/
def downValuesFn (t : Table) (s : String) : Option Ex :=
  match t s with
  | none => some (.expr [S "List"])
  | some d => (listRules d.downvalues).map (fun rs => .expr (S "List" :: rs))

/-- `Default[e]` (`builtin_system.go:381-399`, `atoms/ex_symbol.go:110-121`). -/
def defaultFn (t : Table) (e : Ex) : Ex :=
  match e with
  | .sym s => ((t s).bind DefM.dflt).getD (.expr [S "Default", e])
  | _ => .expr [S "Default", e]

/-- `Prime[n]` (`builtin_numbertheory.go:172-205`) for an integer: `some none` is the unevaluated call. `bound m` is the upper bound
`uint64(m * (Log[m] + Log[Log[m]]))` computed with machine numbers, `sieve k` the list returned by `prime.SieveOfEratosthenes(k)`. -/
def primeFn (bound : Nat → Nat) (sieve : Nat → List Nat) (n : Int) : Option (Option Nat) :=
  let m := wrap64 n
  if m ≤ 0 then some none
  else if m > 211642827166041848 then some none
  else
    let upper := if m < 6 then 11 else bound m.toNat
    ((sieve (upper + 1))[m.toNat - 1]?).map some

/-- `PrimePi[n]` for an integer of any size (`builtin_numbertheory.go:125-155`). -/
def primePiFn (primes : Nat → List Nat) (n : Int) : Int := primePi primes (wrap64 n)

/-- The seed of `SeedRandom[n]` (`builtin_random.go:35-39`). -/
def seedOf (n : Int) : Int := wrap64 n

/-- A call that touches the random number generator of the process. -/
inductive RandomCall where
  /-- `SeedRandom[n]` -/
  | seed (n : Int)
  /-- `RandomReal[]` -/
  | real

/-- The library `math/rand`: the state after a seed, and the next number. -/
structure RandomLib (G : Type) where
  seed : Int → G
  next : G → Rat × G

/-- `SeedRandom` and `RandomReal` (`builtin_random.go:12-45`): the new state of the generator and the number, if there is one. -/
def randomStep {G : Type} (lib : RandomLib G) (g : G) : RandomCall → G × Option Rat
  | .seed n => (lib.seed (seedOf n), none)
  | .real => ((lib.next g).2, some (lib.next g).1)

/-- The numbers a sequence of calls gives, and the state afterwards. -/
def randomRun {G : Type} (lib : RandomLib G) : G → List RandomCall → G × List Rat
  | g, [] => (g, [])
  | g, c :: cs =>
    let r := randomStep lib g c
    let q := randomRun lib r.1 cs
    (q.1, r.2.toList ++ q.2)

/-- The duration in nanoseconds of `Pause[n]` for an integer (`builtin_time.go:34-36`); `time.Sleep` returns at once if it is not positive. -/
def pauseNanos (n : Int) : Int := wrap64 (wrap64 n * 1000000000)

end Expreduce
