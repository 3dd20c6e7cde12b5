import Verif.Model.Defs

/-!
# Several evaluations sharing the table of definitions

`ParallelTable` (`/repo/expreduce/builtin_list.go:289-326`) evaluates its entries in goroutines that share one `EvalState`, and hence the
table of definitions `/repo/expreduce/definition_map.go`, a concurrent map whose single operations are atomic. A thread is modelled by the
tree of the operations on the map that it performs, the continuation depending on the answers. The schedule is arbitrary.
Simplification: rule lists are values; in Go two lists may share their backing array, so that more can go wrong than in the model.
-/

namespace Expreduce
open Ex

/-- What a thread does to the map. -/
inductive Prog where
  /-- finished, with the results of its lookups -/
  | done (out : List (Option Ex))
  /-- `internalMap.Has` (`definition_map.go:23`) -/
  | has (n : String) (k : Bool → Prog)
  /-- `internalMap.Get` (`definition_map.go:26`) -/
  | get (n : String) (k : Option DefM → Prog)
  /-- `internalMap.Set` (`definition_map.go:19`) -/
  | set (n : String) (d : DefM) (k : Prog)
  /-- a change of the stored rule in place, under the lock of its key (`evalstate.go:544-553`) -/
  | upd (n : String) (f : DefM → DefM) (k : Prog)
  /-- panic: "Reading missing value in GetDef()!" or the type assertion on a missing entry (`definition_map.go:27, 33`) -/
  | missing
  /-- panic: index out of range (`evalstate.go:330`) -/
  | badIndex

namespace Prog

/-- One operation of a thread. -/
def step (t : Table) : Prog → Table × Prog
  | .has n k => (t, k (t n).isSome)
  | .get n k => (t, k (t n))
  | .set n d k => (t.set n d, k)
  | .upd n f k => ((fun m => if m = n then (t n).map f else t m), k)
  | p => (t, p)

/-- A thread running alone for `k` operations. -/
def alone : Nat → Table × Prog → Table × Prog
  | 0, c => c
  | k + 1, c => alone k (step c.1 c.2)

/-- One operation of the thread `i`. -/
def stepAt {ι : Type} [DecidableEq ι] (c : Table × (ι → Prog)) (i : ι) : Table × (ι → Prog) :=
  ((step c.1 (c.2 i)).1, fun j => if j = i then (step c.1 (c.2 i)).2 else c.2 j)

/-- A schedule: which thread makes the next operation. -/
def exec {ι : Type} [DecidableEq ι] (c : Table × (ι → Prog)) : List ι → Table × (ι → Prog)
  | [] => c
  | i :: s => exec (stepAt c i) s

/-! ### The operations of the code -/

/-- The continuation of `Get` after `Has` said yes: the type assertion on a missing value panics. -/
def orMissing (k : DefM → Prog) : Option DefM → Prog
  | some d => k d
  | none => .missing

/-- `threadSafeDefinitionMap.Get` (`definition_map.go:22-28`). -/
def mapGet (n : String) (k : Option DefM → Prog) : Prog :=
  .has n (fun b => if b then .get n (orMissing (fun d => k (some d))) else k none)

/-- `threadSafeDefinitionMap.GetDef` (`definition_map.go:30-36`). -/
def mapGetDef (n : String) (k : DefM → Prog) : Prog := mapGet n (orMissing k)

/-- One round of the loop over the rules (`evalstate.go:329-331`): `none` is an index out of range. `rule` stands for `replace`. -/
def tryRule (rule : DV → Option Ex) (found : Ex → Prog) (next : Prog) : Option DV → Prog
  | none => .badIndex
  | some dv => match rule dv with
    | some e => found e
    | none => next

/-- The loop of `GetDef` over `m` rules starting at index `i`: the list is read again in each round (`evalstate.go:329-358`). -/
def lookupLoop (rule : DV → Option Ex) (name : String) (k : Option Ex → Prog) : Nat → Nat → Prog
  | 0, _ => k none
  | m + 1, i => mapGetDef name (fun d => tryRule rule (fun e => k (some e)) (lookupLoop rule name k m (i + 1)) d.downvalues[i]?)

/-- `GetDef` for an expression (`evalstate.go:305-359`). The evaluation of conditions is not modelled (`rule` is a function). -/
def lookup (rule : DV → Option Ex) (name : String) (k : Option Ex → Prog) : Prog :=
  mapGet name (fun o => if o.isSome then mapGetDef name (fun d => lookupLoop rule name k d.downvalues.length 0) else k none)

/-- The place where a rule of specificity `new` is inserted (`evalstate.go:562-575`). -/
def insertAt (strLen : Ex → Nat) (name : String) (new : Int) (dvs : List DV) : Option Nat :=
  dvs.findIdx? (fun dv => decide ((specOf strLen name dv).getD 0 < new))

/-- The end of `Define` (`evalstate.go:557-599`), after `tmp` and the list of the loop were read. -/
def insertStep (strLen : Ex → Nat) (name : String) (hl rhs : Ex) (new : Int) (k : Prog) (tmp d2 : DefM) : Prog :=
  match insertAt strLen name new d2.downvalues with
  | none => .set name { tmp with downvalues := tmp.downvalues ++ [{ lhs := hl, rhs := rhs }] } k
  | some i => mapGetDef name (fun d3 =>
      if i ≤ tmp.downvalues.length ∧ i ≤ d3.downvalues.length then
        .set name { tmp with downvalues := tmp.downvalues.take i ++ { lhs := hl, rhs := rhs, spec := new } :: d3.downvalues.drop i } k
      else .badIndex)

/-- The identical rule of a list is given the new right side. -/
def overwriteDef (hl rhs : Ex) (d : DefM) : DefM :=
  match overwrite hl rhs d.downvalues with
  | some (some dvs) => { d with downvalues := dvs }
  | _ => d

/-- `Define` for a rule (`evalstate.go:530-599`). -/
def defineP (strLen : Ex → Nat) (name : String) (l rhs : Ex) (k : Prog) : Prog :=
  mapGet name (fun o =>
    if o.isNone then .set name { downvalues := [{ lhs := held l, rhs := rhs }] } k
    else mapGetDef name (fun d =>
      match overwrite (held l) rhs d.downvalues with
      | some (some _) => .upd name (overwriteDef (held l) rhs) k
      | _ => mapGetDef name (fun tmp => mapGetDef name (fun d2 =>
          insertStep strLen name (held l) rhs ((ruleSpecificity strLen (held l) rhs name).getD 0) k tmp d2))))

/-- `Clear` (`evalstate.go:605-611`). -/
def clearP (name : String) (k : Prog) : Prog := mapGet name (fun o => if o.isSome then .set name {} k else k)

/-- `MarkSeen` (`evalstate.go:420-427`). -/
def markSeenP (name : String) (k : Prog) : Prog := mapGet name (fun o => if o.isSome then k else .set name {} k)

/-- `defineAttrs` (`evalstate.go:385-390`). -/
def setAttrsP (name : String) (a : Attrs) (k : Prog) : Prog :=
  mapGet name (fun o =>
    let rest := mapGetDef name (fun d => .set name { d with attrs := a } k)
    if o.isSome then rest else .set name {} rest)

/-- The operations on the table that an evaluation performs. -/
inductive Call where
  | lookup (name : String) (rule : DV → Option Ex)
  | define (name : String) (l rhs : Ex)
  | clear (name : String)
  | markSeen (name : String)
  | setAttrs (name : String) (a : Attrs)

/-- The thread that performs the calls in order and collects the results of its lookups. -/
def ofCalls (strLen : Ex → Nat) : List Call → List (Option Ex) → Prog
  | [], out => .done out
  | .lookup name rule :: cs, out => lookup rule name (fun r => ofCalls strLen cs (out ++ [r]))
  | .define name l rhs :: cs, out => defineP strLen name l rhs (ofCalls strLen cs out)
  | .clear name :: cs, out => clearP name (ofCalls strLen cs out)
  | .markSeen name :: cs, out => markSeenP name (ofCalls strLen cs out)
  | .setAttrs name a :: cs, out => setAttrsP name a (ofCalls strLen cs out)

end Prog
end Expreduce
